import Verif.Lemmas.Length
import Verif.Spec.Header
/-!
# C01 – C05: `Length`
-/

namespace Bsn1
open Spec

/-- The lengths of the API: a definite count is a `usize`. -/
def Length.Valid : Length → Prop
  | .indefinite => True
  | .definite n => n < 2 ^ 64

/-- The octets a length stands for, by X.690. -/
def Spec.lengthOctets : Length → List UInt8
  | .indefinite => indefOctets
  | .definite n => lenOctets n

/-- **C01.** For every length (definite `usize` or indefinite), `to_bytes` succeeds, and `Length::parse` of these octets
followed by any octets `rest` gives the length back and leaves exactly `rest`. -/
theorem C01_length_roundtrip (l : Length) (hl : l.Valid) (rest : Bytes) :
    ∃ octets, l.toBytes = .ok octets ∧ Length.parse (octets ++ rest) = (.ok l, rest) := by
  cases l with
  | indefinite =>
    refine ⟨_, toBytes_indefinite, ?_⟩
    simp [Length.parse, indefOctets, parseLength_indef]
  | definite n =>
    refine ⟨_, toBytes_definite hl, ?_⟩
    simp [Length.parse, parseLength_lenOctets hl]

example : (Length.definite 300).Valid ∧ (Length.definite 300).toBytes = .ok [0x82, 0x01, 0x2c] ∧
    Length.parse ([0x82, 0x01, 0x2c] ++ [7, 9] : Bytes) = (.ok (.definite 300), [7, 9]) :=
  ⟨by norm_num [Length.Valid], by decide +kernel, by decide +kernel⟩

/-- **C02.** `Length::parse` of `bs` is `Ok(Definite(n))` leaving `rest` iff `n` is a `usize` and `bs` is the shortest
encoding of `n` followed by `rest`. -/
theorem C02_length_parse_definite_iff (bs rest : Bytes) (n : Nat) :
    Length.parse bs = (.ok (.definite n), rest) ↔ n < 2 ^ 64 ∧ bs = lenOctets n ++ rest := by
  constructor
  · intro h
    simp only [Length.parse, Prod.mk.injEq] at h
    rcases parseLength_ok (bs := bs) (w := []) (l := .definite n) (rest := rest)
      (w' := ((parseLength (σ := Bytes)).run bs []).2.2)
      (by rw [← h.1, ← h.2]) with h1 | ⟨m, h1, h2, h3, _⟩
    · simp at h1
    · simp only [Length.definite.injEq] at h2
      subst h2
      exact ⟨h1, h3⟩
  · rintro ⟨h, rfl⟩
    simp [Length.parse, parseLength_lenOctets h]

/-- 300 in three octets, and what follows. -/
example : Length.parse ([0x82, 0x01, 0x2c, 7, 7] : Bytes) = (.ok (.definite 300), [7, 7]) :=
  (C02_length_parse_definite_iff _ _ _).2 ⟨by decide, by decide +kernel⟩

/-- **C02.** `Length::parse` of `bs` is `Ok(Indefinite)` leaving `rest` iff `bs` is `0x80` followed by `rest`. -/
theorem C02_length_parse_indefinite_iff (bs rest : Bytes) :
    Length.parse bs = (.ok .indefinite, rest) ↔ bs = 0x80 :: rest := by
  constructor
  · intro h
    simp only [Length.parse, Prod.mk.injEq] at h
    rcases parseLength_ok (bs := bs) (w := []) (l := .indefinite) (rest := rest)
      (w' := ((parseLength (σ := Bytes)).run bs []).2.2)
      (by rw [← h.1, ← h.2]) with h1 | ⟨m, h1, h2, h3, _⟩
    · exact h1.2.1
    · simp at h2
  · rintro rfl
    simp [Length.parse, parseLength_indef]

example : Length.parse ([0x80, 0x05, 0x00] : Bytes) = (.ok .indefinite, [0x05, 0x00]) := (C02_length_parse_indefinite_iff _ _).2 rfl

/-- **C02.** The encoding is the shortest: any octets `0x80 + k` followed by `k` octets with the same value (or the
one-octet form) are at least as long. -/
theorem C02_lenOctets_shortest (n : Nat) (f : UInt8) (v : List UInt8) (hf : f.toNat = 128 + v.length)
    (hv : natVal v = n) : (lenOctets n).length ≤ (f :: v).length := by
  simp only [lenOctets]
  split
  · simp
  · have h1 : n < 256 ^ v.length := hv ▸ natVal_lt v
    have := natOctets_length_le h1
    simp; omega

example : Length.parse ([0x81, 0x80, 0x05] : Bytes) = (.ok (.definite 128), [0x05]) ∧
    lenOctets 128 = [0x81, 0x80] ∧ (Length.parse ([0x82, 0x00, 0x80] : Bytes)).1 = .err .redundantBytes :=
  ⟨by decide +kernel, by simp [lenOctets, natOctets, baseDigits], by decide +kernel⟩

/-- **C03.** `Length::len` is the number of octets of `to_bytes`, which is at most 9, the capacity of the buffer. -/
theorem C03_length_len (l : Length) (hl : l.Valid) :
    ∃ octets, l.toBytes = .ok octets ∧ octets = lengthOctets l ∧ l.len = octets.length ∧
      octets.length ≤ 9 ∧ Length.bufferCapacity = 9 := by
  cases l with
  | indefinite => exact ⟨_, toBytes_indefinite, rfl, rfl, by simp [indefOctets], bufferCapacity_eq⟩
  | definite n =>
    exact ⟨_, toBytes_definite hl, rfl, len_definite hl, lenOctets_length_le hl, bufferCapacity_eq⟩

example : (Length.definite (2 ^ 64 - 1)).Valid ∧ (Length.definite (2 ^ 64 - 1)).len = 9 ∧
    (Length.definite 127).len = 1 ∧ (Length.definite 128).len = 2 ∧ (Length.definite 65536).len = 4 :=
  ⟨by norm_num [Length.Valid], by decide +kernel, by decide +kernel, by decide +kernel, by decide +kernel⟩

/-! ### C04: the errors -/

theorem lenOctets_append_cases {n : Nat} {rest bs : Bytes} (h : n < 2 ^ 64) (hb : bs = lenOctets n ++ rest) :
    ∃ f t, bs = f :: t ∧ (f.toNat < 128 ∨
      ∃ s r, t = s :: r ∧ 128 < f.toNat ∧ f.toNat ≤ 136 ∧ s ≠ 0 ∧ ¬ (f.toNat = 129 ∧ s.toNat < 128) ∧
        f.toNat - 128 ≤ (s :: r).length) := by
  subst hb
  by_cases hn : n < 128
  · refine ⟨UInt8.ofNat n, rest, by simp [lenOctets, hn], Or.inl ?_⟩
    rw [toNat_ofNat_of_lt (by omega)]; exact hn
  · have hl := natOctets_length_usize h
    have hne := natOctets_ne_nil (n := n) (by omega)
    have hh := natOctets_head n
    have hv := natOctets_natVal n
    rw [lenOctets, if_neg hn]
    cases ho : natOctets n with
    | nil => exact absurd ho hne
    | cons s r =>
      rw [ho] at hl hh hv
      simp only [List.length_cons] at hl
      have hf : (UInt8.ofNat (128 + (s :: r).length)).toNat = 128 + (r.length + 1) := by
        rw [toNat_ofNat_of_lt (by simp only [List.length_cons]; omega)]; simp
      refine ⟨_, _, rfl, Or.inr ⟨s, r ++ rest, by simp, ?_⟩⟩
      rw [hf]
      refine ⟨by omega, by omega, hh s (by simp), ?_, by simp⟩
      rintro ⟨h1, h2⟩
      have : r = [] := List.length_eq_zero_iff.mp (by omega)
      subst this
      simp [natVal] at hv
      omega

/-- **C04.** On every input exactly one of four things happens: it is accepted, or it is reported as cut off
(`UnterminatedBytes`), redundant or overflowing, each exactly when the respective description of the input holds.
In particular there is no panic and no other error. -/
theorem C04_length_parse_errors (bs : Bytes) :
    ((Length.parse bs).1 = .err .unterminatedBytes ↔ LenCutOff bs) ∧
    ((Length.parse bs).1 = .err .redundantBytes ↔ LenRedundant bs) ∧
    ((Length.parse bs).1 = .err .overFlow ↔ LenOverflow bs) ∧
    ((∃ l, (Length.parse bs).1 = .ok l) ↔ LenAccepted bs) ∧
    (LenCutOff bs ∨ LenRedundant bs ∨ LenOverflow bs ∨ LenAccepted bs) := by
  have z : ∀ s : UInt8, s = 0 ↔ s.toNat = 0 := u8_eq_zero
  have key : ∀ r : Res Length, (Length.parse bs).1 = r →
      (r = .err .unterminatedBytes ∧ LenCutOff bs) ∨ (r = .err .redundantBytes ∧ LenRedundant bs) ∨
      (r = .err .overFlow ∧ LenOverflow bs) ∨ ((∃ l, r = .ok l) ∧ LenAccepted bs) := by
    rintro _ rfl
    match bs with
    | [] => left; exact ⟨by simp [Length.parse, parseLength_nil], Or.inl rfl⟩
    | f :: t =>
      by_cases h1 : f.toNat < 128
      · right; right; right
        refine ⟨⟨_, by simp only [Length.parse, parseLength_short f t [] h1]; rfl⟩, Or.inl ⟨f.toNat, t, by omega, ?_⟩⟩
        simp [lenOctets, h1]
      by_cases h2 : f.toNat = 128
      · right; right; right
        have : f = 0x80 := u8_ext h2
        subst this
        exact ⟨⟨_, by simp only [Length.parse, parseLength_indef]; rfl⟩, Or.inr ⟨t, rfl⟩⟩
      match t with
      | [] => left; exact ⟨by simp only [Length.parse]; rw [parseLength_long_nil f [] (by omega)],
                Or.inr (Or.inl ⟨f, rfl, by omega⟩)⟩
      | s :: r =>
        by_cases h3 : s.toNat = 0
        · right; left
          exact ⟨by simp only [Length.parse]; rw [parseLength_long_zero f s r [] (by omega) h3],
            f, s, r, rfl, by omega, Or.inl ((z s).mpr h3)⟩
        by_cases h4 : f.toNat = 129 ∧ s.toNat < 128
        · right; left
          exact ⟨by simp only [Length.parse]; rw [parseLength_long_one f s r [] h4.1 h3 h4.2],
            f, s, r, rfl, by omega, Or.inr h4⟩
        by_cases h5 : 136 < f.toNat
        · right; right; left
          exact ⟨by simp only [Length.parse]; rw [parseLength_long_over f s r [] h5 h3],
            f, s, r, rfl, h5, fun h => h3 ((z s).mp h)⟩
        have hl := parseLength_long f s r [] (by omega) (by omega) h3 h4
        by_cases h6 : r.length < f.toNat - 129
        · left
          rw [if_pos h6] at hl
          refine ⟨by simp only [Length.parse]; rw [hl], Or.inr (Or.inr ⟨f, s, r, rfl, by omega, by omega,
            fun h => h3 ((z s).mp h), h4, ?_⟩)⟩
          simp only [List.length_cons]; omega
        · right; right; right
          rw [if_neg h6] at hl
          rcases parseLength_ok hl with h7 | ⟨n, h7, _, h8, _⟩
          · simp at h7
          · exact ⟨⟨_, by simp only [Length.parse]; rw [hl]⟩, Or.inl ⟨n, _, h7, h8⟩⟩
  -- the four descriptions exclude each other
  have e1 : LenCutOff bs → ¬ LenRedundant bs := by
    rintro (rfl | ⟨f, rfl, hf⟩ | ⟨f, s, r, rfl, h1, h2, h3, h4, h5⟩) ⟨f', s', r', h, h6, h7⟩ <;>
      simp only [List.cons.injEq, reduceCtorEq, and_false] at h
    obtain ⟨rfl, rfl, rfl⟩ := h
    rcases h7 with h7 | h7
    · exact h3 h7
    · exact h4 h7
  have e2 : LenCutOff bs → ¬ LenOverflow bs := by
    rintro (rfl | ⟨f, rfl, hf⟩ | ⟨f, s, r, rfl, h1, h2, h3, h4, h5⟩) ⟨f', s', r', h, h6, h7⟩ <;>
      simp only [List.cons.injEq, reduceCtorEq, and_false] at h
    obtain ⟨rfl, rfl, rfl⟩ := h
    omega
  have e3 : LenRedundant bs → ¬ LenOverflow bs := by
    rintro ⟨f, s, r, rfl, h1, h2⟩ ⟨f', s', r', h, h6, h7⟩
    simp only [List.cons.injEq] at h
    obtain ⟨rfl, rfl, rfl⟩ := h
    rcases h2 with h2 | h2
    · exact h7 h2
    · omega
  have e4 : LenAccepted bs → ¬ LenCutOff bs ∧ ¬ LenRedundant bs ∧ ¬ LenOverflow bs := by
    rintro (⟨n, rest, hn, hb⟩ | ⟨rest, rfl⟩)
    · obtain ⟨f, t, rfl, h⟩ := lenOctets_append_cases hn hb
      refine ⟨?_, ?_, ?_⟩
      · rintro (h' | ⟨f', h', hf⟩ | ⟨f', s', r', h', h1, h2, h3, h4, h5⟩)
        · simp at h'
        · simp only [List.cons.injEq] at h'
          obtain ⟨rfl, rfl⟩ := h'
          rcases h with h | ⟨s, r, h, _⟩
          · omega
          · simp at h
        · simp only [List.cons.injEq] at h'
          obtain ⟨rfl, rfl⟩ := h'
          rcases h with h | ⟨s, r, h, _, _, _, _, h6⟩
          · omega
          · rw [← h] at h6; omega
      · rintro ⟨f', s', r', h', h1, h2⟩
        simp only [List.cons.injEq] at h'
        obtain ⟨rfl, rfl⟩ := h'
        rcases h with h | ⟨s, r, h, _, _, h4, h5, h6⟩
        · omega
        · simp only [List.cons.injEq] at h
          obtain ⟨rfl, rfl⟩ := h
          rcases h2 with h2 | h2
          · exact h4 h2
          · exact h5 h2
      · rintro ⟨f', s', r', h', h1, h2⟩
        simp only [List.cons.injEq] at h'
        obtain ⟨rfl, rfl⟩ := h'
        rcases h with h | ⟨s, r, h, _, _, h4, h5, h6⟩
        · omega
        · omega
    · have h80 : (0x80 : UInt8).toNat = 128 := rfl
      refine ⟨?_, ?_, ?_⟩
      · rintro (h' | ⟨f', h', hf⟩ | ⟨f', s', r', h', h1, h2, h3, h4, h5⟩)
        · simp at h'
        · simp only [List.cons.injEq] at h'; obtain ⟨rfl, rfl⟩ := h'; omega
        · simp only [List.cons.injEq] at h'; obtain ⟨rfl, rfl⟩ := h'; omega
      · rintro ⟨f', s', r', h', h1, h2⟩
        simp only [List.cons.injEq] at h'; obtain ⟨rfl, rfl⟩ := h'; omega
      · rintro ⟨f', s', r', h', h1, h2⟩
        simp only [List.cons.injEq] at h'; obtain ⟨rfl, rfl⟩ := h'; omega
  rcases key _ rfl with ⟨k, d⟩ | ⟨k, d⟩ | ⟨k, d⟩ | ⟨⟨l, k⟩, d⟩ <;> simp only [k]
  · refine ⟨by simpa using d, ?_, ?_, ?_, Or.inl d⟩
    · simpa using e1 d
    · simpa using e2 d
    · simpa using fun h => (e4 h).1 d
  · refine ⟨?_, by simpa using d, ?_, ?_, Or.inr (Or.inl d)⟩
    · simpa using fun h => e1 h d
    · simpa using e3 d
    · simpa using fun h => (e4 h).2.1 d
  · refine ⟨?_, ?_, by simpa using d, ?_, Or.inr (Or.inr (Or.inl d))⟩
    · simpa using fun h => e2 h d
    · simpa using fun h => e3 h d
    · simpa using fun h => (e4 h).2.2 d
  · refine ⟨?_, ?_, ?_, ?_, Or.inr (Or.inr (Or.inr d))⟩
    · simpa using (e4 d).1
    · simpa using (e4 d).2.1
    · simpa using (e4 d).2.2
    · simpa using d

example : (Length.parse ([0x84, 0x01, 0x02] : Bytes)).1 = .err .unterminatedBytes ∧
    (Length.parse ([0x81, 0x7f] : Bytes)).1 = .err .redundantBytes ∧
    (Length.parse ([0x89, 0x01] : Bytes)).1 = .err .overFlow := by
  refine ⟨?_, ?_, ?_⟩ <;> decide +kernel

/-- **C05.** `==` on lengths. -/
theorem C05_length_eq (a b : Length) :
    a.eq b = true ↔ ∃ n, a = .definite n ∧ b = .definite n := by
  cases a <;> cases b <;> simp [Length.eq, Length.isDefinite, Length.definite?]
  exact ⟨fun h => h.symm, fun h => h.symm⟩

example : Length.eq (.definite 300) (.definite 300) = true ∧ ¬ Length.eq .indefinite .indefinite = true :=
  ⟨(C05_length_eq _ _).2 ⟨300, rfl, rfl⟩, fun h => by obtain ⟨n, h, _⟩ := (C05_length_eq _ _).1 h; cases h⟩

/-- **C05.** `partial_cmp` on lengths: undefined iff one of them is indefinite, otherwise the numeric order. -/
theorem C05_length_cmp (a b : Length) :
    (a.partialCmp b = none ↔ a = .indefinite ∨ b = .indefinite) ∧
    (∀ m n, a = .definite m → b = .definite n →
      (a.partialCmp b = some .lt ↔ m < n) ∧ (a.partialCmp b = some .gt ↔ n < m) ∧
      (a.partialCmp b = some .eq ↔ m = n)) ∧
    (a.partialCmp b = some .eq ↔ a.eq b = true) := by
  refine ⟨?_, ?_, ?_⟩
  · cases a <;> cases b <;> simp [Length.partialCmp, Length.definite?]
  · rintro m n rfl rfl
    simp only [Length.partialCmp, Length.definite?, Option.pure_def, Option.bind_eq_bind,
      Option.bind_some, Option.some.injEq]
    exact ⟨Nat.compare_eq_lt, Nat.compare_eq_gt, Nat.compare_eq_eq⟩
  · rw [C05_length_eq]
    cases a <;> cases b <;> simp [Length.partialCmp, Length.definite?]
    exact ⟨fun h => h.symm, fun h => h.symm⟩

example : Length.partialCmp (.definite 5) (.definite 300) = some .lt ∧ Length.partialCmp .indefinite (.definite 5) = none :=
  ⟨((C05_length_cmp _ _).2.1 5 300 rfl rfl).1.2 (by decide), (C05_length_cmp _ _).1.2 (.inl rfl)⟩

/-- **C05.** The indefinite length is unequal to every length, including itself. -/
theorem C05_indefinite_ne (a : Length) : Length.eq .indefinite a = false ∧ Length.eq a .indefinite = false := by
  cases a <;> simp [Length.eq, Length.isDefinite, Length.definite?]

example : Length.partialCmp (.definite 3) (.definite 7) = some .lt ∧
    Length.eq (.definite 3) (.definite 3) = true ∧ Length.partialCmp .indefinite (.definite 7) = none := by
  decide

end Bsn1
