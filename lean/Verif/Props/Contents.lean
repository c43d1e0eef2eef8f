import Verif.Lemmas.Contents
/-!
# C13 – C17: integer and boolean contents
-/

namespace Bsn1
open Spec

/-- **C13.** For each integer type and each value, `Contents::from(v).to_integer()` is `Ok(v)`. -/
theorem C13_integer_roundtrip (t : IntTy) (v : Int) (h : t.InRange v) :
    (Contents.ofInt t v >>= fun c => ContentsRef.toInteger t c) = .ok v := by
  obtain ⟨c, h1, h2, h3⟩ := ofInt_spec t v h
  rw [h1, Res.bind_ok, toInteger_spec, if_neg (minimal_ne_nil h2), if_neg (by simpa using h2), h3, if_pos h]

example : IntTy.InRange .i64 (-129) ∧ Contents.ofInt .i64 (-129) = .ok [0xff, 0x7f] ∧
    IntTy.InRange .u128 (2 ^ 128 - 1) ∧ IntTy.InRange .i8 (-128) ∧ Contents.ofInt .u8 200 = .ok [0x00, 0xc8] := by
  decide +kernel

/-- **C14.** `Contents::from(v)` denotes `v` in two's complement and is minimal in the sense of X.690 8.3.2. -/
theorem C14_integer_minimal (t : IntTy) (v : Int) (h : t.InRange v) :
    ∃ c, Contents.ofInt t v = .ok c ∧ intVal c = v ∧ IntMinimal c := by
  obtain ⟨c, h1, h2, h3⟩ := ofInt_spec t v h
  exact ⟨c, h1, h3, h2⟩

example := C14_integer_minimal .i16 (-129) (by decide)

/-- **C14.** It is the shortest: every non-empty octet string denoting `v` is at least as long, and one of the same length is
the same string. -/
theorem C14_integer_shortest (t : IntTy) (v : Int) (h : t.InRange v) (d : Bytes) (hd : d ≠ []) (hv : intVal d = v) :
    ∃ c, Contents.ofInt t v = .ok c ∧ c.length ≤ d.length ∧ (d.length = c.length → d = c) := by
  obtain ⟨c, h1, h2, h3⟩ := ofInt_spec t v h
  exact ⟨c, h1, minimal_length_le h2 hd (h3.trans hv.symm),
    fun hl => intVal_inj_length hl (hv.trans h3.symm)⟩

example : intVal [0xff, 0xff, 0x7f] = -129 ∧ intVal [0xff, 0x7f] = -129 ∧ IntMinimal [0xff, 0x7f] ∧
    ¬ IntMinimal [0xff, 0xff, 0x7f] := by
  refine ⟨?_, ?_, ?_, ?_⟩ <;> simp [intVal, natVal, IntMinimal]

/-- **C15.** `to_integer` is `Ok(v)` iff the contents are the minimal encoding of `v` and `v` is a value of the type. -/
theorem C15_to_integer_ok_iff (t : IntTy) (c : Bytes) (v : Int) :
    ContentsRef.toInteger t c = .ok v ↔ IntMinimal c ∧ intVal c = v ∧ t.InRange v := by
  rw [toInteger_spec]
  constructor
  · intro h
    split_ifs at h with h1 h2 h3
    simp only [Res.ok.injEq] at h
    subst h
    exact ⟨by simpa using h2, rfl, h3⟩
  · rintro ⟨h1, rfl, h2⟩
    rw [if_neg (minimal_ne_nil h1), if_neg (by simpa using h1), if_pos h2]

example : ContentsRef.toInteger .i16 [0xff, 0x7f] = .ok (-129) := (C15_to_integer_ok_iff _ _ _).2 ⟨by decide, by decide, by decide⟩

/-- **C15.** The errors, each with its exact cause. -/
theorem C15_to_integer_err_iff (t : IntTy) (c : Bytes) :
    (ContentsRef.toInteger t c = .err .unterminatedBytes ↔ c = []) ∧
    (ContentsRef.toInteger t c = .err .redundantBytes ↔ c ≠ [] ∧ ¬ IntMinimal c) ∧
    (ContentsRef.toInteger t c = .err .overFlow ↔ IntMinimal c ∧ ¬ t.InRange (intVal c)) := by
  rw [toInteger_spec]
  by_cases h1 : c = []
  · subst h1; simp [IntMinimal]
  · rw [if_neg h1]
    by_cases h2 : IntMinimal c
    · rw [if_neg (by simpa using h2)]
      by_cases h3 : t.InRange (intVal c)
      · simp [h1, h2, h3]
      · simp [h1, h2, h3]
    · rw [if_pos h2]; simp [h1, h2]

/-- 128 in two octets does not fit in an `i8`. -/
example : ContentsRef.toInteger .i8 [0x00, 0x80] = .err .overFlow := (C15_to_integer_err_iff _ _).2.2.2 ⟨by decide, by decide⟩

/-- **C15.** There is no other outcome (in particular no panic and no undefined behaviour). -/
theorem C15_to_integer_total (t : IntTy) (c : Bytes) :
    (∃ v, ContentsRef.toInteger t c = .ok v) ∨ ∃ e, ContentsRef.toInteger t c = .err e := by
  rw [toInteger_spec]
  split_ifs <;> simp

example : ContentsRef.toInteger .u8 [0x00, 0xff] = .ok 255 ∧ ContentsRef.toInteger .i8 [0x00, 0xff] = .err .overFlow ∧
    ContentsRef.toInteger .u64 [0xff] = .err .overFlow ∧ ContentsRef.toInteger .i32 [0x00, 0x7f] = .err .redundantBytes := by
  decide +kernel

/-- **C16.** The encoding does not depend on the type. -/
theorem C16_integer_type_independent (s t : IntTy) (v : Int) (hs : s.InRange v) (ht : t.InRange v) :
    Contents.ofInt s v = Contents.ofInt t v ∧
    (Contents.ofInt s v >>= fun c => ContentsRef.toInteger t c) = .ok v := by
  obtain ⟨c, h1, h2, h3⟩ := ofInt_spec s v hs
  obtain ⟨d, g1, g2, g3⟩ := ofInt_spec t v ht
  have e : c = d := minimal_unique h2 g2 (h3.trans g3.symm)
  refine ⟨by rw [h1, g1, e], ?_⟩
  rw [h1, e, ← g1]
  have := C13_integer_roundtrip t v ht
  rw [g1] at this ⊢
  exact this

example := C16_integer_type_independent .u8 .i64 200 (by decide) (by decide)

/-- **C16.** Decoding as a type that does not have the value gives `OverFlow`. -/
theorem C16_integer_overflow (s t : IntTy) (v : Int) (hs : s.InRange v) (ht : ¬ t.InRange v) :
    (Contents.ofInt s v >>= fun c => ContentsRef.toInteger t c) = .err .overFlow := by
  obtain ⟨c, h1, h2, h3⟩ := ofInt_spec s v hs
  rw [h1, Res.bind_ok, (C15_to_integer_err_iff t c).2.2, h3]
  exact ⟨h2, ht⟩

example : IntTy.InRange .i16 200 ∧ IntTy.InRange .u8 200 ∧ ¬ IntTy.InRange .i8 200 := by decide +kernel

/-- **C17.** `to_bool_der`. -/
theorem C17_to_bool_der (c : Bytes) (b : Bool) :
    ContentsRef.toBoolDer c = .ok b ↔ (c = [0x00] ∧ b = false) ∨ (c = [0xff] ∧ b = true) := by
  match c with
  | [] => simp [ContentsRef.toBoolDer]
  | [x] =>
    simp only [ContentsRef.toBoolDer, List.length_cons, List.length_nil, getAt, List.getElem?_cons_zero, Res.bind_ok,
      Nat.lt_irrefl, if_false, Res.pure_eq]
    by_cases h1 : x = 0x00
    · subst h1; cases b <;> simp
    · by_cases h2 : x = 0xff
      · subst h2; cases b <;> simp
      · simp [h1, h2]
  | x :: y :: r => simp [ContentsRef.toBoolDer]

example : ContentsRef.toBoolDer [0xff] = .ok true := (C17_to_bool_der _ _).2 (.inr ⟨rfl, rfl⟩)

/-- **C17.** `to_bool_ber`. -/
theorem C17_to_bool_ber (c : Bytes) (b : Bool) :
    ContentsRef.toBoolBer c = .ok b ↔ ∃ x : UInt8, c = [x] ∧ (b = false ↔ x = 0) := by
  match c with
  | [] => simp [ContentsRef.toBoolBer]
  | [x] =>
    simp only [ContentsRef.toBoolBer, List.length_cons, List.length_nil, getAt, List.getElem?_cons_zero, Res.bind_ok,
      Nat.lt_irrefl, if_false, Res.pure_eq]
    by_cases h1 : x = 0x00
    · subst h1; cases b <;> simp
    · cases b <;> simp [h1]
  | x :: y :: r => simp [ContentsRef.toBoolBer]

example : ContentsRef.toBoolBer [0x07] = .ok true := (C17_to_bool_ber _ _).2 ⟨7, rfl, by decide⟩

/-- **C17.** DER acceptance implies BER acceptance with the same value; the errors; encoding. -/
theorem C17_bool (c : Bytes) :
    (∀ b, ContentsRef.toBoolDer c = .ok b → ContentsRef.toBoolBer c = .ok b) ∧
    (c = [] → ContentsRef.toBoolDer c = .err .unterminatedBytes ∧ ContentsRef.toBoolBer c = .err .unterminatedBytes) ∧
    (1 < c.length → ContentsRef.toBoolDer c = .err .extraContentsOctet ∧
      ContentsRef.toBoolBer c = .err .extraContentsOctet) ∧
    (∀ x : UInt8, c = [x] → x ≠ 0 → x ≠ 0xff → ContentsRef.toBoolDer c = .err .invalidDerBooleanContents) ∧
    (∀ b, ContentsRef.toBoolDer (Contents.ofBool b) = .ok b ∧ ContentsRef.toBoolBer (Contents.ofBool b) = .ok b) := by
  refine ⟨?_, ?_, ?_, ?_, ?_⟩
  · intro b h
    rw [C17_to_bool_der] at h
    rw [C17_to_bool_ber]
    rcases h with ⟨rfl, rfl⟩ | ⟨rfl, rfl⟩
    · exact ⟨0, rfl, by simp⟩
    · exact ⟨0xff, rfl, by simp⟩
  · rintro rfl; exact ⟨rfl, rfl⟩
  · intro h
    have h0 : ¬ c.length = 0 := by omega
    constructor
    · rw [ContentsRef.toBoolDer, if_neg h0, if_pos h]
    · rw [ContentsRef.toBoolBer, if_neg h0, if_pos h]
  · rintro x rfl h1 h2
    simp [ContentsRef.toBoolDer, getAt, h1, h2]
  · intro b; cases b <;> exact ⟨rfl, rfl⟩

example : ContentsRef.toBoolDer [0x01] = .err .invalidDerBooleanContents ∧ ContentsRef.toBoolBer [0x01] = .ok true := by
  decide +kernel

end Bsn1
