import Verif.Lemmas.Basic
import Verif.Lemmas.Monad
import Verif.Model.Contents
/-!
# Lemmas on integer contents
-/

set_option linter.unusedSimpArgs false

namespace Bsn1
open Spec

theorem natVal_inj {a b : Bytes} (hl : a.length = b.length) (h : natVal a = natVal b) : a = b := by
  induction a generalizing b with
  | nil => cases b with
    | nil => rfl
    | cons => simp at hl
  | cons x a ih =>
    cases b with
    | nil => simp at hl
    | cons y b =>
      simp only [List.length_cons, Nat.add_right_cancel_iff] at hl
      simp only [natVal] at h
      have h1 := natVal_lt a
      have h2 := natVal_lt b
      rw [hl] at h h1
      have h3 : x.toNat = y.toNat := by
        have e1 : (x.toNat * 256 ^ b.length + natVal a) / 256 ^ b.length = x.toNat := by
          rw [mul_comm, Nat.mul_add_div (by positivity), Nat.div_eq_of_lt h1]; omega
        have e2 : (y.toNat * 256 ^ b.length + natVal b) / 256 ^ b.length = y.toNat := by
          rw [mul_comm, Nat.mul_add_div (by positivity), Nat.div_eq_of_lt h2]; omega
        rw [← e1, ← e2, h]
      rw [h3] at h
      rw [u8_ext h3, ih hl (by omega)]

theorem natVal_replicate_zero (k : Nat) (l : Bytes) : natVal (List.replicate k 0 ++ l) = natVal l := by
  induction k with
  | zero => simp
  | succ k ih => simp [List.replicate_succ, natVal, ih]

theorem natVal_replicate_ff (k : Nat) (l : Bytes) :
    natVal (List.replicate k 0xff ++ l) + 256 ^ l.length = natVal l + 256 ^ (k + l.length) := by
  induction k with
  | zero => simp
  | succ k ih =>
    have : (255 : UInt8).toNat = 255 := rfl
    simp only [List.replicate_succ, List.cons_append, natVal, List.length_append, List.length_replicate, this]
    have e : 256 ^ (k + 1 + l.length) = 256 * 256 ^ (k + l.length) := by
      rw [show k + 1 + l.length = (k + l.length) + 1 by omega, pow_succ]; ring
    rw [e]
    omega

theorem intVal_of_lt {b : UInt8} {r : Bytes} (h : b.toNat < 128) : intVal (b :: r) = natVal (b :: r) := by
  rw [intVal, if_neg (by omega)]; simp

theorem intVal_of_ge {b : UInt8} {r : Bytes} (h : 128 ≤ b.toNat) :
    intVal (b :: r) = natVal (b :: r) - (256 ^ (r.length + 1) : Nat) := by
  rw [intVal, if_pos h]; simp

/-- Range of the values of `k + 1` octets. -/
theorem intVal_range (b : UInt8) (r : Bytes) :
    -(128 * 256 ^ r.length : Nat) ≤ intVal (b :: r) ∧ intVal (b :: r) < (128 * 256 ^ r.length : Nat) := by
  have h1 := natVal_lt r
  have hb := u8_lt b
  by_cases h : b.toNat < 128
  · rw [intVal_of_lt h, natVal]
    have : b.toNat * 256 ^ r.length ≤ 127 * 256 ^ r.length := Nat.mul_le_mul_right _ (by omega)
    generalize 256 ^ r.length = P at *
    generalize b.toNat * P = Q at *
    omega
  · rw [intVal_of_ge (by omega), natVal, pow_succ]
    have h2 : b.toNat * 256 ^ r.length ≤ 255 * 256 ^ r.length := Nat.mul_le_mul_right _ (by omega)
    have h3 : 128 * 256 ^ r.length ≤ b.toNat * 256 ^ r.length := Nat.mul_le_mul_right _ (by omega)
    generalize 256 ^ r.length = P at *
    generalize b.toNat * P = Q at *
    omega

theorem intVal_nonneg_iff (b : UInt8) (r : Bytes) : 0 ≤ intVal (b :: r) ↔ b.toNat < 128 := by
  have h1 := natVal_lt r
  have hb := u8_lt b
  by_cases h : b.toNat < 128
  · rw [intVal_of_lt h]; simp [h]
  · rw [intVal_of_ge (by omega), natVal, pow_succ]
    have h2 : b.toNat * 256 ^ r.length ≤ 255 * 256 ^ r.length := Nat.mul_le_mul_right _ (by omega)
    generalize 256 ^ r.length = P at *
    generalize b.toNat * P = Q at *
    omega

/-- A minimal string of more than one octet does not fit in less octets. -/
theorem intVal_minimal_out {a b : UInt8} {r : Bytes} (h : IntMinimal (a :: b :: r)) :
    intVal (a :: b :: r) < -(128 * 256 ^ r.length : Nat) ∨ (128 * 256 ^ r.length : Nat) ≤ intVal (a :: b :: r) := by
  simp only [IntMinimal] at h
  have h1 := natVal_lt r
  have ha := u8_lt a
  have hb := u8_lt b
  have e0 : natVal (a :: b :: r) = (a.toNat * 256 + b.toNat) * 256 ^ r.length + natVal r := by
    simp only [natVal, List.length_cons, pow_succ]; ring
  by_cases h0 : a.toNat < 128
  · right
    rw [intVal_of_lt h0, e0]
    have e3 : 128 * 256 ^ r.length ≤ (a.toNat * 256 + b.toNat) * 256 ^ r.length :=
      Nat.mul_le_mul_right _ (by omega)
    exact_mod_cast le_trans e3 (Nat.le_add_right _ _)
  · left
    rw [intVal_of_ge (by omega), e0]
    have e3 : (a.toNat * 256 + b.toNat + 1) * 256 ^ r.length ≤ 65408 * 256 ^ r.length :=
      Nat.mul_le_mul_right _ (by omega)
    have e4 : (a.toNat * 256 + b.toNat + 1) * 256 ^ r.length =
      (a.toNat * 256 + b.toNat) * 256 ^ r.length + 256 ^ r.length := by ring
    have e5 : 256 ^ ((b :: r).length + 1) = 65536 * 256 ^ r.length := by
      simp only [List.length_cons, pow_succ]; ring
    rw [e5]
    rw [e4] at e3
    clear e4 e5 e0
    generalize (a.toNat * 256 + b.toNat) * 256 ^ r.length = Z at *
    generalize 256 ^ r.length = P at *
    omega

/-- Minimal strings are not longer than others of the same value. -/
theorem minimal_length_le {c d : Bytes} (hc : IntMinimal c) (hd : d ≠ []) (h : intVal c = intVal d) :
    c.length ≤ d.length := by
  match c, d with
  | [], _ => simp
  | _, [] => exact absurd rfl hd
  | [_], _ :: _ => simp
  | a :: b :: r, x :: s =>
    by_contra hlt
    simp only [List.length_cons] at hlt
    have h1 := intVal_minimal_out hc
    have h2 := intVal_range x s
    have h3 : 256 ^ s.length ≤ 256 ^ r.length := Nat.pow_le_pow_right (by norm_num) (by omega)
    rw [h] at h1
    generalize 256 ^ s.length = P at *
    generalize 256 ^ r.length = Q at *
    omega

theorem intVal_inj_length {c d : Bytes} (hl : c.length = d.length) (h : intVal c = intVal d) : c = d := by
  match c, d with
  | [], [] => rfl
  | [], _ :: _ => simp at hl
  | _ :: _, [] => simp at hl
  | a :: r, b :: s =>
    apply natVal_inj hl
    have h1 := intVal_nonneg_iff a r
    have h2 := intVal_nonneg_iff b s
    rw [h] at h1
    simp only [List.length_cons, Nat.add_right_cancel_iff] at hl
    by_cases ha : a.toNat < 128
    · have hb : b.toNat < 128 := h2.mp (h1.mpr ha)
      rw [intVal_of_lt ha, intVal_of_lt hb] at h
      exact_mod_cast h
    · have hb : ¬ b.toNat < 128 := fun hb => ha (h1.mp (h2.mpr hb))
      rw [intVal_of_ge (by omega), intVal_of_ge (by omega), hl] at h
      omega

theorem minimal_ne_nil {c : Bytes} (h : IntMinimal c) : c ≠ [] := by
  rintro rfl; exact h

theorem minimal_unique {c d : Bytes} (hc : IntMinimal c) (hd : IntMinimal d) (h : intVal c = intVal d) : c = d :=
  intVal_inj_length (le_antisymm (minimal_length_le hc (minimal_ne_nil hd) h)
    (minimal_length_le hd (minimal_ne_nil hc) h.symm)) h

/-! ### Types -/

theorem size_pos (t : IntTy) : 0 < t.size := by cases t <;> decide

theorem pow_size (t : IntTy) : (2 : Nat) ^ (8 * t.size) = 256 ^ t.size := by rw [pow_mul]; norm_num

theorem pow_size_half (t : IntTy) : (2 : Nat) ^ (8 * t.size - 1) = 128 * 256 ^ (t.size - 1) := by
  have h := size_pos t
  rw [show 8 * t.size - 1 = 7 + 8 * (t.size - 1) by omega, pow_add, pow_mul]; norm_num

theorem pow_size' (t : IntTy) : (256 : Nat) ^ t.size = 256 * 256 ^ (t.size - 1) := by
  have h := size_pos t
  conv_lhs => rw [show t.size = (t.size - 1) + 1 by omega, pow_succ]
  ring

theorem inRange_signed {t : IntTy} (h : t.signed = true) (v : Int) :
    t.InRange v ↔ -(128 * 256 ^ (t.size - 1) : Nat) ≤ v ∧ v < (128 * 256 ^ (t.size - 1) : Nat) := by
  have := pow_size_half t
  simp only [IntTy.InRange, IntTy.minVal, IntTy.maxVal, h, if_true]
  have e : (2 : Int) ^ (8 * t.size - 1) = ((128 * 256 ^ (t.size - 1) : Nat) : Int) := by
    rw [← this]; norm_num
  rw [show (2 ^ (8 * t.size - 1) : Int) = ((128 * 256 ^ (t.size - 1) : Nat) : Int) from e]
  omega

theorem inRange_unsigned {t : IntTy} (h : t.signed = false) (v : Int) :
    t.InRange v ↔ 0 ≤ v ∧ v < (256 ^ t.size : Nat) := by
  have := pow_size t
  simp only [IntTy.InRange, IntTy.minVal, IntTy.maxVal, h]
  have e : (2 : Int) ^ (8 * t.size) = ((256 ^ t.size : Nat) : Int) := by
    rw [← this]; norm_num
  rw [show (2 ^ (8 * t.size) : Int) = ((256 ^ t.size : Nat) : Int) from e]
  simp only [Bool.false_eq_true, if_false]
  omega

theorem toBe_length (t : IntTy) (v : Int) : (t.toBe v).length = t.size := by
  simp [IntTy.toBe, toBeBytes_length]

theorem natVal_toBe (t : IntTy) (v : Int) : (natVal (t.toBe v) : Int) = v % (256 ^ t.size : Nat) := by
  have h := pow_size t
  have e : (2 : Int) ^ (8 * t.size) = ((256 ^ t.size : Nat) : Int) := by
    rw [← h]; norm_num
  have hp : (0 : Int) < ((256 ^ t.size : Nat) : Int) := by positivity
  rw [IntTy.toBe, natVal_toBeBytes]
  have e2 : (v % 2 ^ (8 * t.size) : Int) = v % ((256 ^ t.size : Nat) : Int) := by rw [← e]
  rw [show (v % 2 ^ (8 * t.size)) = v % ((256 ^ t.size : Nat) : Int) from e2]
  have h0 := Int.emod_nonneg v (ne_of_gt hp)
  have h1 := Int.emod_lt_of_pos v hp
  rw [Nat.mod_eq_of_lt (by omega), Int.toNat_of_nonneg h0]

theorem foldl_natVal (l : Bytes) (acc : Nat) :
    l.foldl (fun acc b => acc * 256 + b.toNat) acc = acc * 256 ^ l.length + natVal l := by
  induction l generalizing acc with
  | nil => simp [natVal]
  | cons b r ih => simp only [List.foldl_cons, ih, natVal, List.length_cons, pow_succ]; ring

theorem fromBe_eq (t : IntTy) (be : Bytes) : t.fromBe be =
    if t.signed = true ∧ 128 * 256 ^ (t.size - 1) ≤ natVal be then (natVal be : Int) - (256 ^ t.size : Nat)
    else natVal be := by
  have h1 := pow_size t
  have h2 := pow_size_half t
  have e : (2 : Int) ^ (8 * t.size) = ((256 ^ t.size : Nat) : Int) := by
    rw [← h1]; norm_num
  simp only [IntTy.fromBe, foldl_natVal, zero_mul, zero_add, Bool.and_eq_true, decide_eq_true_eq]
  rw [show (2 ^ (8 * t.size) : Int) = ((256 ^ t.size : Nat) : Int) from e]
  have e2 : (2 ^ (8 * t.size - 1) ≤ natVal be) ↔ (128 * 256 ^ (t.size - 1) ≤ natVal be) := by rw [← h2]
  by_cases hc : t.signed = true ∧ 128 * 256 ^ (t.size - 1) ≤ natVal be
  · rw [if_pos hc, if_pos]
    exact ⟨hc.1, e2.mpr hc.2⟩
  · rw [if_neg hc, if_neg]
    rintro ⟨h3, h4⟩
    exact hc ⟨h3, e2.mp h4⟩

/-! ### Encoding -/

theorem u8_and_80_eq_80 : ∀ b : UInt8, (b &&& 0x80 = 0x80) ↔ 128 ≤ b.toNat := by decide +kernel
theorem u8_and_80_eq_0 : ∀ b : UInt8, (b &&& 0x80 = 0x00) ↔ b.toNat < 128 := by decide +kernel
theorem u8_eq_ff : ∀ b : UInt8, (b = 0xff) ↔ b.toNat = 255 := by decide +kernel
theorem u8_eq_0 : ∀ b : UInt8, (b = 0) ↔ b.toNat = 0 := by decide +kernel

/-- `skipZeros` stops at the first non zero octet. -/
theorem skipZeros_spec (pre : Bytes) (k : Nat) (b : UInt8) (r : Bytes) (hb : b ≠ 0) (fuel len : Nat)
    (hf : k < fuel) :
    Contents.skipZeros (pre ++ (List.replicate k 0 ++ b :: r)) fuel pre.length len =
      .ok (pre.length + k, len - k) := by
  induction k generalizing pre fuel len with
  | zero =>
    obtain ⟨f, rfl⟩ : ∃ f, fuel = f + 1 := ⟨fuel - 1, by omega⟩
    simp [Contents.skipZeros, Contents.deref, hb]
  | succ k ih =>
    obtain ⟨f, rfl⟩ : ∃ f, fuel = f + 1 := ⟨fuel - 1, by omega⟩
    have := ih (pre ++ [0]) f (len - 1) (by omega)
    simp only [List.length_append, List.length_cons, List.length_nil, List.append_assoc, List.cons_append,
      List.nil_append] at this
    simp only [Contents.skipZeros, Contents.deref, List.replicate_succ, List.cons_append]
    simp only [List.getElem?_append_right (Nat.le_refl _), Nat.sub_self, List.getElem?_cons_zero, Res.bind_ok,
      if_true]
    rw [this]
    congr 2 <;> omega

/-- Splitting off leading zeros. -/
theorem split_zeros (l : Bytes) (h : natVal l ≠ 0) :
    ∃ k b r, l = List.replicate k 0 ++ b :: r ∧ b ≠ 0 := by
  induction l with
  | nil => simp [natVal] at h
  | cons x l ih =>
    by_cases hx : x = 0
    · subst hx
      have : natVal l ≠ 0 := by simpa [natVal] using h
      obtain ⟨k, b, r, rfl, hb⟩ := ih this
      exact ⟨k + 1, b, r, by simp [List.replicate_succ], hb⟩
    · exact ⟨0, x, l, by simp, hx⟩

theorem copyOut_append (a b : Bytes) : Contents.copyOut (a ++ b) a.length b.length = .ok b := by
  simp [Contents.copyOut]

/-- `from_positive` gives the minimal octets. -/
theorem fromPositive_spec (t : IntTy) (v : Int) (hv : 0 < v) (hr : t.InRange v) :
    ∃ c, Contents.fromPositive t v = .ok c ∧ IntMinimal c ∧ intVal c = v := by
  have hv256 : v < (256 ^ t.size : Nat) := by
    cases hs : t.signed with
    | true =>
      have := (inRange_signed hs v).mp hr
      have := pow_size' t
      omega
    | false => exact ((inRange_unsigned hs v).mp hr).2
  have hnat : (natVal (t.toBe v) : Int) = v := by
    rw [natVal_toBe, Int.emod_eq_of_lt (by omega) hv256]
  have hlen := toBe_length t v
  obtain ⟨k, b, r, hbe, hb⟩ := split_zeros (t.toBe v) (by omega)
  have hlen' : k + (r.length + 1) = t.size := by
    rw [hbe] at hlen; simp at hlen; omega
  have hnat' : (natVal (b :: r) : Int) = v := by
    rw [hbe, natVal_replicate_zero] at hnat; exact hnat
  have hb0 : b.toNat ≠ 0 := fun h => hb ((u8_eq_0 b).mpr h)
  have hskip := skipZeros_spec (List.replicate t.size 0) k b r hb (t.size + 1) t.size (by omega)
  simp only [List.length_replicate] at hskip
  have hmem : List.replicate t.size (0 : UInt8) ++ (List.replicate k 0 ++ b :: r) =
      List.replicate (t.size + k) 0 ++ b :: r := by
    rw [← List.append_assoc, List.replicate_append_replicate]
  have hk : t.size - k = (b :: r).length := by simp; omega
  simp only [Contents.fromPositive, hbe, hskip, Res.bind_ok]
  have hderef : Contents.deref (List.replicate t.size 0 ++ (List.replicate k 0 ++ b :: r)) (t.size + k) = .ok b := by
    rw [hmem, Contents.deref, List.getElem?_append_right (by simp)]
    simp
  rw [hderef]
  simp only [Res.bind_ok]
  have hsz := size_pos t
  by_cases h128 : 128 ≤ b.toNat
  · rw [if_pos ((u8_and_80_eq_80 b).mpr h128)]
    refine ⟨0 :: b :: r, ?_, ?_, ?_⟩
    · simp only [Contents.ptrSub1]
      rw [if_neg (by omega)]
      simp only [Res.bind_ok]
      have e : List.replicate t.size (0 : UInt8) ++ (List.replicate k 0 ++ b :: r) =
          List.replicate (t.size + k - 1) 0 ++ (0 :: b :: r) := by
        rw [hmem, show t.size + k = (t.size + k - 1) + 1 by omega, List.replicate_succ']
        simp
      have := copyOut_append (List.replicate (t.size + k - 1) 0) (0 :: b :: r)
      rw [List.length_replicate] at this
      rw [e, hk]
      exact this
    · simp [IntMinimal, h128]
    · rw [intVal_of_lt (by decide)]
      simp only [natVal] at hnat' ⊢
      simpa using hnat'
  · rw [if_neg (by rw [u8_and_80_eq_80]; exact h128)]
    refine ⟨b :: r, ?_, ?_, ?_⟩
    · have := copyOut_append (List.replicate (t.size + k) 0) (b :: r)
      rw [List.length_replicate] at this
      rw [hmem, hk]
      exact this
    · cases r with
      | nil => trivial
      | cons y s => simp only [IntMinimal]; omega
    · rw [intVal_of_lt (by omega)]; exact hnat'

theorem skipOnes_spec (pre : Bytes) (k : Nat) (b : UInt8) (r : Bytes) (hb : r = [] ∨ b ≠ 0xff) (fuel : Nat)
    (hf : k < fuel) :
    Contents.skipOnes (pre ++ (List.replicate k 0xff ++ b :: r)) fuel pre.length (k + (r.length + 1)) =
      .ok (pre.length + k, r.length + 1) := by
  induction k generalizing pre fuel with
  | zero =>
    obtain ⟨f, rfl⟩ : ∃ f, fuel = f + 1 := ⟨fuel - 1, by omega⟩
    rcases hb with rfl | hb
    · simp [Contents.skipOnes]
    · simp only [Contents.skipOnes, Contents.deref]
      split
      · simp [hb]
      · simp
  | succ k ih =>
    obtain ⟨f, rfl⟩ : ∃ f, fuel = f + 1 := ⟨fuel - 1, by omega⟩
    have := ih (pre ++ [0xff]) f (by omega)
    simp only [List.length_append, List.length_cons, List.length_nil, List.append_assoc, List.cons_append,
      List.nil_append] at this
    simp only [Contents.skipOnes, Contents.deref, List.replicate_succ, List.cons_append]
    rw [if_pos (by omega)]
    simp only [List.getElem?_append_right (Nat.le_refl _), Nat.sub_self, List.getElem?_cons_zero, Res.bind_ok,
      if_true]
    rw [show k + 1 + (r.length + 1) - 1 = k + (r.length + 1) by omega, this]
    congr 2; omega

theorem split_ones (l : Bytes) (h : l ≠ []) :
    ∃ k b r, l = List.replicate k 0xff ++ b :: r ∧ (r = [] ∨ b ≠ 0xff) := by
  induction l with
  | nil => exact absurd rfl h
  | cons x l ih =>
    by_cases hx : x = 0xff ∧ l ≠ []
    · obtain ⟨rfl, hl⟩ := hx
      obtain ⟨k, b, r, rfl, hb⟩ := ih hl
      exact ⟨k + 1, b, r, by simp [List.replicate_succ], hb⟩
    · refine ⟨0, x, l, by simp, ?_⟩
      by_cases hl : l = []
      · exact Or.inl hl
      · exact Or.inr (fun h => hx ⟨h, hl⟩)

theorem intVal_replicate_ff (k : Nat) {b : UInt8} {r : Bytes} (h : 128 ≤ b.toNat) :
    intVal (List.replicate k 0xff ++ b :: r) = intVal (b :: r) := by
  cases k with
  | zero => simp
  | succ k =>
    have h1 := natVal_replicate_ff (k + 1) (b :: r)
    have h2 : 128 ≤ (255 : UInt8).toNat := by decide
    rw [intVal_of_ge h]
    rw [List.replicate_succ, List.cons_append] at h1 ⊢
    rw [intVal_of_ge h2]
    simp only [List.length_append, List.length_replicate, List.length_cons] at h1 ⊢
    rw [show k + (r.length + 1) + 1 = k + 1 + (r.length + 1) by omega]
    omega

/-- `from_negative` gives the minimal octets. -/
theorem fromNegative_spec (t : IntTy) (v : Int) (hv : v < 0) (hr : t.InRange v) :
    ∃ c, Contents.fromNegative t v = .ok c ∧ IntMinimal c ∧ intVal c = v := by
  have hs : t.signed = true := by
    cases hs : t.signed with
    | true => rfl
    | false => have := (inRange_unsigned hs v).mp hr; omega
  have hr' := (inRange_signed hs v).mp hr
  have hpow := pow_size' t
  have hlen := toBe_length t v
  have hsz := size_pos t
  have hnat : (natVal (t.toBe v) : Int) = v + (256 ^ t.size : Nat) := by
    rw [natVal_toBe, ← Int.add_emod_right, Int.emod_eq_of_lt] <;> omega
  have hint : ∃ b0 r0, t.toBe v = b0 :: r0 ∧ 128 ≤ b0.toNat ∧ intVal (t.toBe v) = v := by
    cases hbe : t.toBe v with
    | nil => rw [hbe] at hlen; simp at hlen; omega
    | cons b0 r0 =>
      rw [hbe] at hnat hlen
      simp only [List.length_cons] at hlen
      have h0 : 128 ≤ b0.toNat := by
        by_contra hlt
        have := natVal_lt r0
        simp only [natVal] at hnat
        have h1 : b0.toNat * 256 ^ r0.length ≤ 127 * 256 ^ r0.length := Nat.mul_le_mul_right _ (by omega)
        rw [show t.size - 1 = r0.length by omega] at hr' hpow
        generalize b0.toNat * 256 ^ r0.length = X at *
        omega
      refine ⟨b0, r0, rfl, h0, ?_⟩
      rw [intVal_of_ge h0, hnat, hlen]
      omega
  obtain ⟨b0, r0, hbe0, hb0, hint⟩ := hint
  obtain ⟨k, b, r, hbe, hb⟩ := split_ones (t.toBe v) (by rw [hbe0]; simp)
  have hlen' : k + (r.length + 1) = t.size := by
    rw [hbe] at hlen; simp at hlen; omega
  have hskip := skipOnes_spec [] k b r hb (t.size + 1) (by omega)
  simp only [List.length_nil, List.nil_append, hlen', Nat.zero_add] at hskip
  have hderef : Contents.deref (List.replicate k 0xff ++ b :: r) k = .ok b := by
    rw [Contents.deref, List.getElem?_append_right (by simp)]
    simp
  simp only [Contents.fromNegative, hbe, hskip, Res.bind_ok, hderef]
  by_cases h128 : b.toNat < 128
  · rw [if_pos ((u8_and_80_eq_0 b).mpr h128)]
    have hk : k ≠ 0 := by
      rintro rfl
      rw [hbe] at hbe0
      simp only [List.replicate_zero, List.nil_append, List.cons.injEq] at hbe0
      rw [hbe0.1] at h128; omega
    have e : List.replicate k (0xff : UInt8) ++ b :: r = List.replicate (k - 1) 0xff ++ (0xff :: b :: r) := by
      conv_lhs => rw [show k = (k - 1) + 1 by omega, List.replicate_succ']
      simp
    refine ⟨0xff :: b :: r, ?_, ?_, ?_⟩
    · simp only [Contents.ptrSub1]
      rw [if_neg hk]
      simp only [Res.bind_ok]
      have := copyOut_append (List.replicate (k - 1) 0xff) (0xff :: b :: r)
      rw [List.length_replicate] at this
      rw [e]
      exact this
    · simp only [IntMinimal]
      have : (0xff : UInt8).toNat = 255 := rfl
      omega
    · rw [hbe, e, intVal_replicate_ff _ (by decide)] at hint
      exact hint
  · rw [if_neg (by rw [u8_and_80_eq_0]; exact h128)]
    refine ⟨b :: r, ?_, ?_, ?_⟩
    · have := copyOut_append (List.replicate k 0xff) (b :: r)
      rw [List.length_replicate] at this
      exact this
    · cases r with
      | nil => trivial
      | cons y s =>
        simp only [IntMinimal]
        rcases hb with hb | hb
        · simp at hb
        · rw [ne_eq, u8_eq_ff] at hb
          omega
    · rw [hbe, intVal_replicate_ff _ (by omega)] at hint
      exact hint

theorem ofInt_spec (t : IntTy) (v : Int) (hr : t.InRange v) :
    ∃ c, Contents.ofInt t v = .ok c ∧ IntMinimal c ∧ intVal c = v := by
  simp only [Contents.ofInt, Contents.fromInteger]
  have hz : ∃ c, (Res.ok Contents.fromZero : Res Bytes) = .ok c ∧ IntMinimal c ∧ intVal c = 0 :=
    ⟨_, rfl, trivial, by simp [Contents.fromZero, intVal, natVal]⟩
  cases hs : t.signed with
  | true =>
    simp only [if_true]
    by_cases h1 : v < 0
    · rw [if_pos h1]; exact fromNegative_spec t v h1 hr
    · rw [if_neg h1]
      by_cases h2 : v = 0
      · rw [if_pos h2, h2]; exact hz
      · rw [if_neg h2]; exact fromPositive_spec t v (by omega) hr
  | false =>
    have := (inRange_unsigned hs v).mp hr
    simp only [Bool.false_eq_true, if_false]
    by_cases h2 : v = 0
    · rw [if_pos h2, h2]; exact hz
    · rw [if_neg h2]; exact fromPositive_spec t v (by omega) hr

/-! ### Decoding -/

instance (c : Bytes) : Decidable (IntMinimal c) := by
  match c with
  | [] => exact isFalse id
  | [_] => exact isTrue trivial
  | a :: b :: r => unfold IntMinimal; infer_instance

/-- The test for redundant octets. -/
theorem redundant_spec (c : Bytes) (h : c ≠ []) :
    ContentsRef.isRedundant c = Res.ok (decide (¬ IntMinimal c)) := by
  unfold ContentsRef.isRedundant
  match c with
  | [] => exact absurd rfl h
  | [a] => simp [IntMinimal]
  | a :: b :: r =>
    simp only [List.length_cons, getAt, List.getElem?_cons_zero, List.getElem?_cons_succ, Res.bind_ok,
      Res.pure_eq, u8_and_80_eq_80, IntMinimal]
    simp only [u8_and_80_eq_0]
    simp only [u8_eq_ff, u8_eq_0]
    rw [if_pos (by omega)]
    split_ifs <;> simp <;> omega

theorem toInteger_spec (t : IntTy) (c : Bytes) :
    ContentsRef.toInteger t c =
      if c = [] then .err .unterminatedBytes
      else if ¬ IntMinimal c then .err .redundantBytes
      else if t.InRange (intVal c) then .ok (intVal c)
      else .err .overFlow := by
  by_cases h0 : c = []
  · subst h0; rfl
  rw [if_neg h0]
  have hlen : ¬ c.length = 0 := by rw [List.length_eq_zero_iff]; exact h0
  rw [ContentsRef.toInteger, if_neg hlen]
  have hred := redundant_spec c h0
  rw [hred]
  simp only [Res.bind_ok, decide_eq_true_eq]
  by_cases hm : IntMinimal c
  swap
  · rw [if_pos hm, if_pos hm]
  rw [if_neg (by simpa using hm), if_neg (by simpa using hm)]
  have hsz := size_pos t
  have hpow := pow_size' t
  match c, h0 with
  | b :: r, _ =>
  have hb := u8_lt b
  simp only [getAt, List.getElem?_cons_zero, Res.bind_ok]
  -- `bytes` in the code
  obtain ⟨bytes, hbytes, hbv, hbl⟩ : ∃ bytes, ContentsRef.stripZero (b :: r) = Res.ok bytes ∧
      (b.toNat < 128 → natVal bytes = natVal (b :: r)) ∧
      ((if b = 0x00 then r else b :: r) = bytes) := by
    by_cases hz : b = 0x00
    · refine ⟨r, ?_, ?_, ?_⟩
      · simp [ContentsRef.stripZero, getAt, hz, sliceFrom]
      · intro; subst hz; simp [natVal]
      · rw [if_pos hz]
    · exact ⟨b :: r, by simp [ContentsRef.stripZero, getAt, hz], fun _ => rfl, by rw [if_neg hz]⟩
  rw [hbytes]
  simp only [Res.bind_ok]
  by_cases hneg : b.toNat < 128
  · -- non negative
    have hv : intVal (b :: r) = natVal (b :: r) := intVal_of_lt hneg
    have hv0 : 0 ≤ intVal (b :: r) := (intVal_nonneg_iff b r).mpr hneg
    by_cases hlong : t.size < bytes.length
    · rw [if_pos hlong, if_neg]
      intro hr
      have hlt : intVal (b :: r) < (256 ^ t.size : Nat) := by
        cases hs : t.signed with
        | true => have := (inRange_signed hs _).mp hr; omega
        | false => have := (inRange_unsigned hs _).mp hr; omega
      rw [hv, ← hbv hneg] at hlt
      have hge : 256 ^ t.size ≤ natVal bytes := by
        by_cases hz : b = 0x00
        · rw [if_pos hz] at hbl
          subst hbl
          match r with
          | [] => simp at hlong
          | y :: s =>
            subst hz
            simp only [IntMinimal] at hm
            have : (0x00 : UInt8).toNat = 0 := rfl
            have hy : y ≠ 0 := by
              rintro rfl
              simp at hm
            have h1 := natVal_ge (r := s) hy
            have h2 : 256 ^ t.size ≤ 256 ^ s.length := Nat.pow_le_pow_right (by norm_num) (by simp at hlong; omega)
            omega
        · rw [if_neg hz] at hbl
          subst hbl
          have h1 := natVal_ge (r := r) hz
          have h2 : 256 ^ t.size ≤ 256 ^ r.length := Nat.pow_le_pow_right (by norm_num) (by simp at hlong; omega)
          omega
      omega
    · rw [if_neg hlong]
      simp only [ContentsRef.toIntegerUnchecked, getAt, List.getElem?_cons_zero, Res.bind_ok, hbytes]
      rw [if_neg hlong, if_pos ((u8_and_80_eq_0 b).mpr hneg)]
      simp only [Res.pure_eq, Res.bind_ok]
      have hn : natVal ((List.replicate t.size (0x00 : UInt8)).take (t.size - bytes.length) ++ bytes) = natVal (b :: r) := by
        rw [List.take_replicate, natVal_replicate_zero, hbv hneg]
      have hlt : natVal (b :: r) < 256 ^ t.size := by
        rw [← hn]
        have h1 := natVal_lt ((List.replicate t.size (0x00 : UInt8)).take (t.size - bytes.length) ++ bytes)
        have h2 : ((List.replicate t.size (0x00 : UInt8)).take (t.size - bytes.length) ++ bytes).length = t.size := by
          simp; omega
        rw [h2] at h1; exact h1
      rw [fromBe_eq, hn]
      rw [if_pos ((u8_and_80_eq_0 b).mpr hneg)]
      by_cases hc : t.signed = true ∧ 128 * 256 ^ (t.size - 1) ≤ natVal (b :: r)
      · rw [if_pos hc]
        rw [if_pos (by omega), if_neg]
        rw [inRange_signed hc.1]; omega
      · rw [if_neg hc, if_neg (by omega), if_pos, hv]
        cases hs : t.signed with
        | true => rw [inRange_signed hs]; rw [hs] at hc; simp only [true_and] at hc; omega
        | false => rw [inRange_unsigned hs]; omega
  · -- negative
    have hz : ¬ b = 0x00 := by rw [u8_eq_0]; omega
    rw [if_neg hz] at hbl
    subst hbl
    have hv : intVal (b :: r) = natVal (b :: r) - (256 ^ (r.length + 1) : Nat) := intVal_of_ge (by omega)
    have hv0 : ¬ 0 ≤ intVal (b :: r) := by rw [intVal_nonneg_iff]; exact hneg
    by_cases hlong : t.size < (b :: r).length
    · rw [if_pos hlong, if_neg]
      intro hr
      cases hs : t.signed with
      | false => have := (inRange_unsigned hs _).mp hr; omega
      | true =>
        have h1 := (inRange_signed hs _).mp hr
        match r with
        | [] => simp at hlong; omega
        | y :: s =>
          have h2 := intVal_minimal_out hm
          have h3 : 256 ^ (t.size - 1) ≤ 256 ^ s.length :=
            Nat.pow_le_pow_right (by norm_num) (by simp at hlong; omega)
          omega
    · rw [if_neg hlong]
      simp only [ContentsRef.toIntegerUnchecked, getAt, List.getElem?_cons_zero, Res.bind_ok, hbytes]
      rw [if_neg hlong, if_neg (by rw [u8_and_80_eq_0]; omega)]
      simp only [Res.pure_eq, Res.bind_ok]
      have hn : (natVal ((List.replicate t.size (0xff : UInt8)).take (t.size - (b :: r).length) ++ b :: r) : Int) =
          intVal (b :: r) + (256 ^ t.size : Nat) := by
        have h1 := natVal_replicate_ff (t.size - (b :: r).length) (b :: r)
        rw [List.take_replicate, min_eq_left (by omega)]
        rw [show t.size - (b :: r).length + (b :: r).length = t.size by omega] at h1
        rw [List.length_cons] at h1
        rw [hv]
        rw [List.length_cons]
        omega
      rw [fromBe_eq]
      rw [if_neg (by rw [u8_and_80_eq_0]; omega)]
      have h2 := intVal_range b r
      have h3 : 256 ^ r.length ≤ 256 ^ (t.size - 1) := Nat.pow_le_pow_right (by norm_num) (by simp at hlong; omega)
      cases hs : t.signed with
      | true =>
        have hc : 128 * 256 ^ (t.size - 1) ≤
            natVal ((List.replicate t.size (0xff : UInt8)).take (t.size - (b :: r).length) ++ b :: r) := by omega
        have hrange : t.InRange (intVal (b :: r)) := by rw [inRange_signed hs]; omega
        have e : (if true = true ∧ 128 * 256 ^ (t.size - 1) ≤
            natVal ((List.replicate t.size (0xff : UInt8)).take (t.size - (b :: r).length) ++ b :: r) then
            (natVal ((List.replicate t.size (0xff : UInt8)).take (t.size - (b :: r).length) ++ b :: r) : Int) -
              (256 ^ t.size : Nat)
            else natVal ((List.replicate t.size (0xff : UInt8)).take (t.size - (b :: r).length) ++ b :: r)) =
            intVal (b :: r) := by
          rw [if_pos ⟨rfl, hc⟩]; omega
        rw [e, if_pos hrange, if_neg hv0]
      | false =>
        simp only [Bool.false_eq_true, false_and, if_false]
        rw [if_pos (by omega), if_neg]
        rw [inRange_unsigned hs]; omega

end Bsn1
