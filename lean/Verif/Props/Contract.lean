import Verif.Lemmas.Contract
import Verif.Props.Failing
import Verif.Props.Document
/-!
# C111: safe functions call `Deserialize::from_ber` only as its contract allows
-/

namespace Bsn1
open Spec

variable {α δ : Type}

theorem fits_hereditary : Hereditary fun p => p.length ≤ isizeMax :=
  ⟨fun l p r h => by simp only [List.length_append] at h; omega, fun _ h => h⟩

theorem truthful_of_berValue {p id raw : Bytes} {indef : Bool} (h : BerValue p id indef raw) : Truthful id (lenOf indef raw) raw := by
  obtain ⟨hid, h⟩ := h
  cases indef with
  | false => exact .definite id raw hid h.1
  | true => obtain ⟨c, hc, rfl, _⟩ := h; exact .indefinite id c hid hc

theorem relying_truthful_same (d : De δ) (P : Bytes → Prop) : Same P (relying Truthful d) d :=
  ⟨fun p id indef raw _ hv => if_pos (truthful_of_berValue hv), fun id c h1 h2 => if_pos ⟨h1, h2⟩⟩

/-- C111: an implementation of `Deserialize` may rely on the contract of `from_ber`: that its arguments are the identifier, length and
contents of one BER value.  Whatever collections and derived types are around it, at any depth, whatever the octets or the reader, the safe
functions of the crate behave as they would if the implementation did not rely on it.  (`d` is arbitrary, so no call violates the contract.) -/
theorem C111_contract (m : Build) (d : De δ) {x x' : De α} (h : Around m (relying Truthful d) d x x') :
    (∀ bs : Bytes, bs.length ≤ isizeMax → parseBer x bs = parseBer x' bs) ∧
    (∀ bs : Bytes, parseDer x bs = parseDer x' bs) ∧
    (∀ p, IsBer p → p.length ≤ isizeMax → fromBer x p = fromBer x' p) ∧
    (∀ p, IsDer p → fromDer x p = fromDer x' p) ∧
    (∀ s : Script, (scriptData s).length ≤ isizeMax → readBer m x s = readBer m x' s) ∧
    ∀ s : Script, readDer m x s = readDer m x' s := by
  have hs := h.same fits_hereditary (relying_truthful_same d _)
  refine ⟨fun bs hbs => hs.parseBer fits_hereditary hbs, hs.parseDer, fun p hp hl => hs.fromBer hp hl, fun p hp => hs.fromDer hp,
    fun s hl => ?_, fun s => ?_⟩
  · rw [readBer, readBer]
    rcases e : Ber.parse m s with ⟨r, s'⟩
    cases r with
    | ok v =>
      obtain ⟨h1, h2⟩ := C76_ber_sound m s s' v e
      have : v.length ≤ isizeMax := by rw [h2, List.length_append] at hl; omega
      simp only [hs.fromBer h1 this]
    | _ => rfl
  · rw [readDer, readDer]
    rcases e : Der.parse m s with ⟨r, s'⟩
    cases r with
    | ok v => simp only [hs.fromDer (C76_der_sound m s s' v e).1]
    | _ => rfl

/-- A struct with three fields around such an implementation: a skipped one, a list in a map, and one converted. -/
example (m : Build) (d : De Bytes) : Around m (relying Truthful d) d
    (De.struct m [0x61] (.cons (.skip (7 : Nat)) (.cons (.plain (De.btreeMap m compare (De.int m IntTy.u8) (De.vec m (relying Truthful d))))
      (.cons (.from_ (relying Truthful d) List.length) .nil))))
    (De.struct m [0x61] (.cons (.skip (7 : Nat)) (.cons (.plain (De.btreeMap m compare (De.int m IntTy.u8) (De.vec m d)))
      (.cons (.from_ d List.length) .nil)))) :=
  .struct _ (.skip _ (.plain (.btreeMap _ (.other _) (.vec .impl)) (.from_ _ .impl .nil)))

/-- The implementation that returns the contents is called with those of each element, here of a list of one value of definite and one of
indefinite length. -/
example (m : Build) : parseBer (De.vec m (relying Truthful ⟨fun _ _ c => .ok c, fun _ c => .ok c⟩))
    [0x30, 0x80, 0x04, 0x01, 0x07, 0x24, 0x80, 0x04, 0x00, 0x00, 0x00, 0x00, 0x00, 0xff] =
      (.ok [[0x07], [0x04, 0x00, 0x00, 0x00]], [0xff]) := by
  rw [(C111_contract m _ (.vec .impl)).1 _ (by decide +kernel)]
  cases m <;> decide +kernel

/-- What an implementation may rely on, exactly: that, and nothing stronger.  Any contract which `parse_ber` always keeps allows all values
that fit in memory. -/
theorem C111_contract_exact (C : Bytes → Length → Bytes → Prop) (d : De δ) (hd : ∀ id l c, d.fromBer id l c ≠ .ub) :
    (∀ bs : Bytes, bs.length ≤ isizeMax → (parseBer (relying C d) bs).1 ≠ .ub) ↔
      ∀ p id indef raw, BerValue p id indef raw → p.length ≤ isizeMax → C id (lenOf indef raw) raw := by
  constructor
  · intro h p id indef raw hv hl
    by_contra hC
    apply h p hl
    have e := BerRef_parse_ok (berValue_isBer hv) (rest := []) (by rwa [List.append_nil])
    rw [List.append_nil] at e
    rw [parseBer, e]
    simp only [fromBer, berValue_disassemble hv, Res.bind_ok]
    exact if_neg hC
  · intro h bs hl
    rw [parseBer]
    rcases berParse_cases bs hl with ⟨e, rest, hp⟩ | ⟨p, id, indef, raw, rest, hv, hp, rfl⟩
    · rw [hp]; simp
    · rw [hp]
      simp only [fromBer, berValue_disassemble hv, Res.bind_ok]
      rw [List.length_append] at hl
      rw [show (relying C d).fromBer id (lenOf indef raw) raw = d.fromBer id (lenOf indef raw) raw from
        if_pos (h p id indef raw hv (by omega))]
      exact hd _ _ _

/-- A contract too strong: lengths are even. -/
example : ¬ ∀ bs : Bytes, bs.length ≤ isizeMax →
    (parseBer (relying (fun _ _ c => c.length % 2 = 0) (⟨fun _ _ c => .ok c, fun _ c => .ok c⟩ : De Bytes)) bs).1 ≠ .ub := by
  rw [C111_contract_exact _ _ (fun _ _ _ h => by cases h)]
  intro h
  have := h [0x04, 0x01, 0x07] [0x04] false [0x07] ⟨⟨0, 0, 4, by decide, by decide, by decide +kernel⟩, by decide, by decide +kernel⟩ (by decide +kernel)
  simp at this

/-- The contract as documented: moreover an indefinite length comes only with an identifier that allows it. -/
def Documented (id : Bytes) (length : Length) (contents : Bytes) : Prop := Truthful id length contents ∧ FormAllows id length

/-- C111, in part: as documented, the contract is kept for input in which no value of indefinite length has a primitive identifier.
Missing: such input is accepted too, see `C111_documented_violated`. -/
theorem C111_documented_partial (m : Build) (d : De δ) {x x' : De α} (h : Around m (relying Documented d) d x x') :
    (∀ bs : Bytes, bs.length ≤ isizeMax → NoPrimitiveIndefinite bs → parseBer x bs = parseBer x' bs) ∧
    (∀ p, IsBer p → p.length ≤ isizeMax → NoPrimitiveIndefinite p → fromBer x p = fromBer x' p) ∧
    (∀ s : Script, (scriptData s).length ≤ isizeMax → NoPrimitiveIndefinite (scriptData s) → readBer m x s = readBer m x' s) ∧
    (∀ bs : Bytes, parseDer x bs = parseDer x' bs) ∧ (∀ p, IsDer p → fromDer x p = fromDer x' p) ∧
    ∀ s : Script, readDer m x s = readDer m x' s := by
  have hP : Hereditary fun p => p.length ≤ isizeMax ∧ NoPrimitiveIndefinite p :=
    ⟨fun l p r h => ⟨by have := h.1; simp only [List.length_append] at this; omega, fun l' p' r' id raw e hv =>
      h.2 (l ++ l') p' (r' ++ r) id raw (by rw [e]; simp [List.append_assoc]) hv⟩, fun _ h => h.1⟩
  have hd : Same (fun p => p.length ≤ isizeMax ∧ NoPrimitiveIndefinite p) (relying Documented d) d :=
    ⟨fun p id indef raw hp hv => if_pos ⟨truthful_of_berValue hv, fun e => by
        cases indef with
        | false => cases e
        | true => exact hp.2 [] p [] id raw (by simp) hv⟩,
      fun id c h1 h2 => if_pos ⟨h1, h2⟩⟩
  have hs := h.same hP hd
  refine ⟨fun bs hl hn => hs.parseBer hP ⟨hl, hn⟩, fun p hp hl hn => hs.fromBer hp ⟨hl, hn⟩, fun s hl hn => ?_, hs.parseDer,
    fun p hp => hs.fromDer hp, fun s => ?_⟩
  · rw [readBer, readBer]
    rcases e : Ber.parse m s with ⟨r, s'⟩
    cases r with
    | ok v =>
      obtain ⟨h1, h2⟩ := C76_ber_sound m s s' v e
      rw [h2] at hl hn
      simp only [hs.fromBer h1 (hP.left ⟨hl, hn⟩)]
    | _ => rfl
  · rw [readDer, readDer]
    rcases e : Der.parse m s with ⟨r, s'⟩
    cases r with
    | ok v => simp only [hs.fromDer (C76_der_sound m s s' v e).1]
    | _ => rfl

theorem noPrimitiveIndefinite_of_not_mem {bs : Bytes} (h : 0x80 ∉ bs) : NoPrimitiveIndefinite bs := by
  rintro l p r id raw rfl ⟨_, c, _, _, rfl⟩
  exact absurd (by simp [indefOctets]) h

/-- Octets without `80` are such input, e.g. a list of a list. -/
example (m : Build) (d : De Bytes) : parseBer (De.vec m (De.vec m (relying Documented d))) [0x30, 0x05, 0x30, 0x03, 0x02, 0x01, 0x07] =
    parseBer (De.vec m (De.vec m d)) [0x30, 0x05, 0x30, 0x03, 0x02, 0x01, 0x07] :=
  (C111_documented_partial m d (.vec (.vec .impl))).1 _ (by decide +kernel) (noPrimitiveIndefinite_of_not_mem (by decide))

/-- C111, when `parse_ber` breaks the documented contract: exactly when the octets begin with a value of indefinite length whose identifier
is primitive. -/
theorem C111_documented_iff (d : De δ) (hd : ∀ id l c, d.fromBer id l c ≠ .ub) (bs : Bytes) (hl : bs.length ≤ isizeMax) :
    (parseBer (relying Documented d) bs).1 = .ub ↔
      ∃ p id raw rest, BerValue p id true raw ∧ ¬ HasForm 1 id ∧ bs = p ++ rest := by
  rw [parseBer]
  rcases berParse_cases bs hl with ⟨e, rest, hp⟩ | ⟨p, id, indef, raw, rest, hv, hp, rfl⟩
  · rw [hp]
    simp only [reduceCtorEq, false_iff]
    rintro ⟨p, id, raw, rest', hv, _, rfl⟩
    rw [BerRef_parse_ok (berValue_isBer hv) hl] at hp
    cases hp
  · rw [hp]
    simp only [fromBer, berValue_disassemble hv, Res.bind_ok]
    by_cases hC : Documented id (lenOf indef raw) raw
    · rw [show (relying Documented d).fromBer id (lenOf indef raw) raw = d.fromBer id (lenOf indef raw) raw from if_pos hC]
      refine ⟨fun h => absurd h (hd _ _ _), ?_⟩
      rintro ⟨p', id', raw', rest', hv', hn, he⟩
      rw [he, BerRef_parse_ok (berValue_isBer hv') (he ▸ hl)] at hp
      cases hp
      obtain ⟨rfl, rfl, rfl⟩ := berValue_unique hv hv'
      exact absurd (hC.2 rfl) hn
    · rw [show (relying Documented d).fromBer id (lenOf indef raw) raw = .ub from if_neg hC]
      simp only [true_iff]
      have hf : ¬ FormAllows id (lenOf indef raw) := fun h => hC ⟨truthful_of_berValue hv, h⟩
      cases indef with
      | false => exact absurd (fun e => by cases e) hf
      | true => exact ⟨p, id, raw, rest, hv, fun h => hf fun _ => h, rfl⟩

theorem not_hasForm_octetString : ¬ HasForm 1 ([0x04] : Bytes) := fun h => by
  have := isPrimitive_hasForm (by decide) h
  revert this
  decide +kernel

theorem berValue_primitive_indefinite : BerValue [0x04, 0x80, 0x00, 0x00] [0x04] true [0x00, 0x00] :=
  ⟨⟨0, 0, 4, by decide, by decide, by decide +kernel⟩, [], .nil, rfl, rfl⟩

/-- C111 is violated as documented: `BerRef::parse` accepts an indefinite length with a primitive identifier, and then safe code calls
`from_ber` outside its contract, directly and inside of a collection. -/
theorem C111_documented_violated (m : Build) (d : De δ) :
    parseBer (relying Documented d) [0x04, 0x80, 0x00, 0x00] = (.ub, []) ∧
    parseBer (De.vec m (relying Documented d)) [0x30, 0x04, 0x04, 0x80, 0x00, 0x00] = (.ub, []) := by
  have hub : ∀ c, (relying Documented d).fromBer [0x04] .indefinite c = .ub := fun c => if_neg fun h => not_hasForm_octetString (h.2 rfl)
  have e1 : BerRef.parse [0x04, 0x80, 0x00, 0x00] = (.ok [0x04, 0x80, 0x00, 0x00], []) := by decide +kernel
  have e2 : BerRef.parse [0x30, 0x04, 0x04, 0x80, 0x00, 0x00] = (.ok [0x30, 0x04, 0x04, 0x80, 0x00, 0x00], []) := by decide +kernel
  have e3 : BerRef.disassemble [0x04, 0x80, 0x00, 0x00] = .ok ([0x04], .indefinite, [0x00, 0x00]) := by decide +kernel
  have e4 : BerRef.disassemble [0x30, 0x04, 0x04, 0x80, 0x00, 0x00] = .ok ([0x30], .definite 4, [0x04, 0x80, 0x00, 0x00]) := by
    decide +kernel
  constructor
  · rw [parseBer, e1]
    simp only [fromBer, e3, Res.bind_ok, hub]
  · rw [parseBer, e2]
    simp only [fromBer, e4, Res.bind_ok, De.vec]
    rw [if_neg (by decide)]
    rw [show excludeEoc m (.definite 4) [0x04, 0x80, 0x00, 0x00] = .ok [0x04, 0x80, 0x00, 0x00] by cases m <;> rfl, Res.bind_ok]
    rw [collect, collectLoop, berToVal, e1]
    simp only [List.isEmpty_cons, Bool.false_eq_true, if_false, mapErrContext, Res.bind_ok, e3, hub]
    rfl

/-- The input of `C111_documented_violated` is a case of `C111_documented_iff`. -/
example (d : De δ) (hd : ∀ id l c, d.fromBer id l c ≠ .ub) : (parseBer (relying Documented d) [0x04, 0x80, 0x00, 0x00, 0x17]).1 = .ub :=
  (C111_documented_iff d hd _ (by decide +kernel)).2 ⟨_, _, _, [0x17], berValue_primitive_indefinite, not_hasForm_octetString, rfl⟩

/-- Any implementation that returns errors only, or panics, meets the hypothesis of the exact theorems. -/
example : ∀ id l c, (De.octetString).fromBer id l c ≠ .ub := by
  intro id l c
  simp only [De.octetString]
  split
  · simp
  · split <;> simp

end Bsn1
