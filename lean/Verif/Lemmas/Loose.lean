import Verif.Spec.Loose
import Verif.Lemmas.Id
import Verif.Lemmas.Length
import Verif.Lemmas.Der
import Verif.Model.Ber
import Mathlib.Data.Nat.ModEq
/-!
# The accessors on any octets
-/

namespace Bsn1
open Spec

theorem uncheckedLoop_ok (pre more rest : Bytes) (last : UInt8) (f : Nat) (hm : ∀ o ∈ more, 128 ≤ o.toNat) (hl : last.toNat < 128)
    (hf : more.length < f) :
    parseIdUncheckedLoop (pre ++ (more ++ last :: rest)) f pre.length = .ok (pre.length + more.length) := by
  induction more generalizing pre f with
  | nil =>
    obtain ⟨f, rfl⟩ : ∃ g, f = g + 1 := ⟨f - 1, by simp at hf; omega⟩
    have hg : getAt (pre ++ ([] ++ last :: rest)) pre.length = .ok last := by simp [getAt]
    rw [parseIdUncheckedLoop, hg, Res.bind_ok, if_pos ((u8_more last).mpr hl)]
    rfl
  | cons o more ih =>
    simp only [List.length_cons] at hf
    obtain ⟨f, rfl⟩ : ∃ g, f = g + 1 := ⟨f - 1, by omega⟩
    have hg : getAt (pre ++ (o :: more ++ last :: rest)) pre.length = .ok o := by simp [getAt]
    have h1 : ¬ (o &&& IdRef.MORE_FLAG ≠ IdRef.MORE_FLAG) := by
      have := hm o (by simp)
      rw [u8_more]; omega
    rw [parseIdUncheckedLoop, hg, Res.bind_ok, if_neg h1]
    have := ih (pre ++ [o]) f (fun x hx => hm x (by simp [hx])) (by omega)
    simp only [List.append_assoc, List.cons_append, List.nil_append, List.length_append, List.length_cons, List.length_nil] at this ⊢
    rw [this]
    congr 1; omega

theorem uncheckedLoop_panic (pre more : Bytes) (f : Nat) (hm : ∀ o ∈ more, 128 ≤ o.toNat) :
    parseIdUncheckedLoop (pre ++ more) f pre.length = .panic := by
  induction more generalizing pre f with
  | nil =>
    cases f with
    | zero => rfl
    | succ f =>
      have hg : getAt (pre ++ []) pre.length = .panic := by simp [getAt]
      rw [parseIdUncheckedLoop, hg]; rfl
  | cons o more ih =>
    cases f with
    | zero => rfl
    | succ f =>
      have hg : getAt (pre ++ o :: more) pre.length = .ok o := by simp [getAt]
      have h1 : ¬ (o &&& IdRef.MORE_FLAG ≠ IdRef.MORE_FLAG) := by
        have := hm o (by simp)
        rw [u8_more]; omega
      rw [parseIdUncheckedLoop, hg, Res.bind_ok, if_neg h1]
      have := ih (pre ++ [o]) f (fun x hx => hm x (by simp [hx]))
      simpa using this

theorem parseIdUnchecked_loose {id : Bytes} (h : LooseId id) (rest : Bytes) : parseIdUnchecked (id ++ rest) = .ok (id, rest) := by
  cases h with
  | short b hb =>
    have h1 := (u8_id_long b).mpr hb
    simp only [parseIdUnchecked, List.cons_append, List.nil_append, getAt, List.getElem?_cons_zero,
      Res.bind_ok, if_pos h1, sliceTo, sliceFrom]
    simp
  | long b more last h1 h2 h3 =>
    have e1 : ¬ (b &&& IdRef.LONG_FLAG ≠ IdRef.LONG_FLAG) := by rw [u8_id_long]; omega
    have hl := uncheckedLoop_ok [b] more rest last ((b :: (more ++ [last]) ++ rest).length + 1) h2 h3 (by simp; omega)
    simp only [List.cons_append, List.nil_append, List.length_cons, List.length_nil, List.append_assoc] at hl
    simp only [parseIdUnchecked, List.cons_append, getAt, List.getElem?_cons_zero, List.append_assoc, List.nil_append,
      Res.bind_ok, if_neg e1, sliceTo, sliceFrom, List.length_cons]
    rw [hl]
    simp only [Res.bind_ok]
    rw [if_pos (by simp; omega), if_pos (by simp; omega)]
    have e2 : b :: (more ++ last :: rest) = (b :: (more ++ [last])) ++ rest := by simp
    have e3 : (b :: (more ++ [last])).length = 0 + 1 + more.length + 1 := by simp; omega
    rw [e2, ← e3, List.take_left, List.drop_left]
    rfl

theorem all_or_split (r : Bytes) : (∀ o ∈ r, 128 ≤ o.toNat) ∨ ∃ more last rest, r = more ++ last :: rest ∧ (∀ o ∈ more, 128 ≤ o.toNat) ∧
    last.toNat < 128 := by
  induction r with
  | nil => exact .inl (by simp)
  | cons o r ih =>
    by_cases ho : o.toNat < 128
    · exact .inr ⟨[], o, r, rfl, by simp, ho⟩
    · rcases ih with h | ⟨more, last, rest, rfl, h1, h2⟩
      · exact .inl (by
          intro x hx
          rcases List.mem_cons.mp hx with rfl | hx
          · omega
          · exact h x hx)
      · refine .inr ⟨o :: more, last, rest, rfl, ?_, h2⟩
        intro x hx
        rcases List.mem_cons.mp hx with rfl | hx
        · omega
        · exact h1 x hx

theorem parseIdUnchecked_total (bs : Bytes) : (∃ id rest, LooseId id ∧ bs = id ++ rest) ∨ parseIdUnchecked bs = .panic := by
  cases bs with
  | nil => exact .inr rfl
  | cons b r =>
    by_cases hb : b.toNat % 32 = 31
    · rcases all_or_split r with h | ⟨more, last, rest, rfl, h1, h2⟩
      · right
        have e1 : ¬ (b &&& IdRef.LONG_FLAG ≠ IdRef.LONG_FLAG) := by rw [u8_id_long]; omega
        have hl := uncheckedLoop_panic [b] r ((b :: r).length + 1) h
        simp only [List.cons_append, List.nil_append, List.length_cons, List.length_nil] at hl
        simp only [parseIdUnchecked, getAt, List.getElem?_cons_zero, Res.bind_ok, if_neg e1, List.length_cons]
        rw [hl]; rfl
      · exact .inl ⟨_, rest, .long b more last hb h1 h2, by simp⟩
    · exact .inl ⟨[b], r, .short b hb, rfl⟩

theorem foldl_lenStep_mod (l : Bytes) (acc : Nat) (h : acc < 2 ^ 64) :
    l.foldl lenStep acc = (acc * 256 ^ l.length + natVal l) % 2 ^ 64 := by
  have hu := usizeSize_eq
  induction l generalizing acc with
  | nil =>
    rw [List.foldl_nil, List.length_nil, pow_zero, Nat.mul_one, natVal, Nat.add_zero, Nat.mod_eq_of_lt h]
  | cons b r ih =>
    have hb : b.toNat < 256 := b.toNat_lt
    have h1 : lenStep acc b < 2 ^ 64 := by
      rw [lenStep, hu]
      omega
    rw [List.foldl_cons, ih _ h1, lenStep, hu, natVal, List.length_cons, pow_succ]
    have e : (acc * 256 % 2 ^ 64 + b.toNat) * 256 ^ r.length + natVal r ≡
        acc * (256 ^ r.length * 256) + (b.toNat * 256 ^ r.length + natVal r) [MOD 2 ^ 64] := by
      have h2 : acc * 256 % 2 ^ 64 ≡ acc * 256 [MOD 2 ^ 64] := Nat.mod_modEq _ _
      have h3 := (((h2.add_right b.toNat).mul_right (256 ^ r.length)).add_right (natVal r))
      have e : (acc * 256 + b.toNat) * 256 ^ r.length + natVal r = acc * (256 ^ r.length * 256) + (b.toNat * 256 ^ r.length + natVal r) := by
        ring
      rw [e] at h3
      exact h3
    exact e

theorem parseLengthUnchecked_loose {l : Bytes} {n : Option Nat} (h : LooseLen l n) (rest : Bytes) :
    ∃ L : Length, L.definite? = n ∧ parseLengthUnchecked (l ++ rest) = .ok (L, rest) := by
  cases h with
  | indefinite b hb =>
    have h1 := (u8_eq_indefinite b).mpr hb
    refine ⟨.indefinite, rfl, ?_⟩
    simp [parseLengthUnchecked, getAt, sliceFrom, h1]
  | short b hb =>
    have h1 : ¬ b = Length.INDEFINITE := by rw [u8_eq_indefinite]; omega
    have h2 := (u8_long_flag b).mpr hb
    refine ⟨.definite b.toNat, rfl, ?_⟩
    simp only [parseLengthUnchecked, getAt, sliceFrom, List.cons_append, List.nil_append, List.getElem?_cons_zero, Res.bind_ok,
      if_neg h1, if_pos h2]
    simp
  | long f ds hf hd =>
    have h1 : ¬ f = Length.INDEFINITE := by rw [u8_eq_indefinite]; omega
    have h2 : ¬ (f &&& Length.LONG_FLAG ≠ Length.LONG_FLAG) := by rw [u8_long_flag]; omega
    have h3 : f.toNat < 256 := f.toNat_lt
    have h4 : (f &&& ~~~ Length.LONG_FLAG).toNat = ds.length := by rw [u8_and_not_flag]; omega
    have h5 : 1 ≤ (f :: (ds ++ rest)).length := by simp
    have h6 : ds.length ≤ (ds ++ rest).length := by simp
    refine ⟨.definite (natVal ds % 2 ^ 64), rfl, ?_⟩
    simp only [parseLengthUnchecked, getAt, sliceFrom, sliceTo, if_neg h1, if_neg h2, h4,
      List.cons_append, List.getElem?_cons_zero, Res.bind_ok, if_pos h5,
      List.drop_succ_cons, List.drop_zero, if_pos h6, List.take_left, List.drop_left]
    have := foldl_lenStep_mod ds 0 (by norm_num)
    rw [Nat.zero_mul, Nat.zero_add] at this
    change Res.ok (Length.definite (ds.foldl lenStep 0), rest) = _
    rw [this]

theorem parseLengthUnchecked_total (bs : Bytes) :
    (∃ l n rest, LooseLen l n ∧ bs = l ++ rest) ∨ parseLengthUnchecked bs = .panic := by
  cases bs with
  | nil => exact .inr rfl
  | cons f r =>
    rcases Nat.lt_trichotomy f.toNat 128 with h | h | h
    · exact .inl ⟨[f], _, r, .short f h, rfl⟩
    · exact .inl ⟨[f], _, r, .indefinite f h, rfl⟩
    · by_cases hl : f.toNat - 128 ≤ r.length
      · refine .inl ⟨f :: r.take (f.toNat - 128), _, r.drop (f.toNat - 128), .long f _ h (by simp; omega), ?_⟩
        rw [List.cons_append, List.take_append_drop]
      · right
        have h1 : ¬ f = Length.INDEFINITE := by rw [u8_eq_indefinite]; omega
        have h2 : ¬ (f &&& Length.LONG_FLAG ≠ Length.LONG_FLAG) := by rw [u8_long_flag]; omega
        have h3 : f.toNat < 256 := f.toNat_lt
        have h4 : (f &&& ~~~ Length.LONG_FLAG).toNat = f.toNat - 128 := by rw [u8_and_not_flag]; omega
        have h5 : 1 ≤ (f :: r).length := by simp
        simp only [parseLengthUnchecked, getAt, sliceFrom, sliceTo, if_neg h1, if_neg h2, h4,
          List.getElem?_cons_zero, Res.bind_ok, if_pos h5, List.drop_succ_cons, List.drop_zero, if_neg hl]
        rfl

/-- What `disassemble` gives. -/
def disassembled (bs : Bytes) : Res (Bytes × Length × Bytes) := do
  let (id, bytes) ← parseIdUnchecked bs
  let (length, bytes) ← parseLengthUnchecked bytes
  return (id, length, bytes)

theorem disassembled_loose {bs id rest : Bytes} {n : Option Nat} (h : LooseHeader bs id n rest) :
    ∃ L : Length, L.definite? = n ∧ disassembled bs = .ok (id, L, rest) := by
  obtain ⟨l, h1, h2, rfl⟩ := h
  obtain ⟨L, hL, e⟩ := parseLengthUnchecked_loose h2 rest
  refine ⟨L, hL, ?_⟩
  rw [disassembled, List.append_assoc, parseIdUnchecked_loose h1, Res.bind_ok]
  simp only []
  rw [e]
  rfl

theorem disassembled_total (bs : Bytes) : (∃ id n rest, LooseHeader bs id n rest) ∨ disassembled bs = .panic := by
  rcases parseIdUnchecked_total bs with ⟨id, r, h1, rfl⟩ | e
  · rcases parseLengthUnchecked_total r with ⟨l, n, rest, h2, rfl⟩ | e
    · exact .inl ⟨id, n, rest, l, h1, h2, by simp⟩
    · right
      rw [disassembled, parseIdUnchecked_loose h1, Res.bind_ok]
      simp only []
      rw [e]
      rfl
  · right
    rw [disassembled, e]
    rfl

theorem definite?_inj {a b : Length} (h : a.definite? = b.definite?) : a = b := by
  cases a <;> cases b <;> simp_all [Length.definite?]

end Bsn1
