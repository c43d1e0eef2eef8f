import Verif.Spec.Basic
import Verif.Model.Prim
/-!
# Helper lemmas on octets, digits and bits
-/

namespace Bsn1
open Spec

theorem forall_u8_iff {P : UInt8 → Prop} : (∀ b, P b) ↔ ∀ i : Fin 256, P (UInt8.ofFin i) :=
  ⟨fun h i => h _, fun h b => by have := h b.toFin; simpa using this⟩

instance decForallU8 {P : UInt8 → Prop} [DecidablePred P] : Decidable (∀ b, P b) :=
  decidable_of_iff _ forall_u8_iff.symm

theorem u8_lt (b : UInt8) : b.toNat < 256 := b.toNat_lt

theorem u8_ext {a b : UInt8} (h : a.toNat = b.toNat) : a = b := UInt8.toNat_inj.mp h

@[simp] theorem toNat_ofNat_of_lt {n : Nat} (h : n < 256) : (UInt8.ofNat n).toNat = n := by
  rw [UInt8.toNat_ofNat']; omega

theorem ofNat_toNat (b : UInt8) : UInt8.ofNat b.toNat = b := by simp

/-! ### Digits -/

theorem natVal_append (a b : List UInt8) : natVal (a ++ b) = natVal a * 256 ^ b.length + natVal b := by
  induction a with
  | nil => simp [natVal]
  | cons x a ih =>
    simp only [List.cons_append, natVal, ih, List.length_append]
    ring

theorem natVal_lt (l : List UInt8) : natVal l < 256 ^ l.length := by
  induction l with
  | nil => simp [natVal]
  | cons b r ih =>
    have := u8_lt b
    simp only [natVal, List.length_cons, pow_succ]
    nlinarith [Nat.mul_le_mul_right (256 ^ r.length) (show b.toNat ≤ 255 by omega)]

theorem natVal_eq_ofDigits (l : List UInt8) :
    natVal l = Nat.ofDigits 256 ((l.map UInt8.toNat).reverse) := by
  induction l with
  | nil => simp [natVal]
  | cons b r ih =>
    simp only [natVal, List.map_cons, List.reverse_cons, Nat.ofDigits_append, ih,
      List.length_reverse, List.length_map, Nat.ofDigits_singleton]
    ring

theorem natOctets_natVal (n : Nat) : natVal (natOctets n) = n := by
  rw [natVal_eq_ofDigits, natOctets, baseDigits]
  rw [List.map_map, ← List.map_reverse, List.reverse_reverse]
  have : List.map (UInt8.toNat ∘ UInt8.ofNat) (Nat.digits 256 n) = Nat.digits 256 n := by
    conv_rhs => rw [← List.map_id (Nat.digits 256 n)]
    apply List.map_congr_left
    intro d hd
    have := Nat.digits_lt_base (b := 256) (by norm_num) hd
    simp [toNat_ofNat_of_lt this]
  rw [this, Nat.ofDigits_digits]

theorem natOctets_unique (l : List UInt8) (h : ∀ b ∈ l.head?, b ≠ 0) : natOctets (natVal l) = l := by
  rw [natOctets, baseDigits, natVal_eq_ofDigits, Nat.digits_ofDigits 256 (by norm_num)]
  · rw [List.reverse_reverse, List.map_map]
    conv_rhs => rw [← List.map_id l]
    apply List.map_congr_left
    intro b _
    simp
  · intro d hd
    simp only [List.mem_reverse, List.mem_map] at hd
    obtain ⟨b, _, rfl⟩ := hd
    exact u8_lt b
  · intro hne
    rw [List.getLast_reverse]
    cases l with
    | nil => simp at hne
    | cons b r =>
      simp only [List.head?_cons, Option.mem_def, Option.some.injEq, forall_eq'] at h
      simp only [List.map_cons, List.head_cons]
      intro h0
      exact h (u8_ext (by simpa using h0))

theorem natOctets_head (n : Nat) : ∀ b ∈ (natOctets n).head?, b ≠ 0 := by
  intro b hb
  rw [natOctets, baseDigits] at hb
  rw [List.head?_map, List.head?_reverse] at hb
  simp only [Option.mem_def, Option.map_eq_some_iff] at hb
  obtain ⟨d, hd, rfl⟩ := hb
  have hne : Nat.digits 256 n ≠ [] := by
    intro h; rw [h] at hd; simp at hd
  have hn : n ≠ 0 := by intro h; subst h; simp at hne
  have h1 := Nat.getLast_digit_ne_zero 256 hn
  rw [List.getLast?_eq_some_getLast hne] at hd
  simp only [Option.some.injEq] at hd
  subst hd
  have h2 := Nat.digits_lt_base (b := 256) (m := n) (by norm_num) (List.getLast_mem hne)
  intro h0
  apply h1
  have := congrArg UInt8.toNat h0
  rw [toNat_ofNat_of_lt h2] at this
  simpa using this

theorem natOctets_ne_nil {n : Nat} (h : n ≠ 0) : natOctets n ≠ [] := by
  intro h0
  have := natOctets_natVal n
  rw [h0] at this
  simp [natVal] at this
  omega

/-- `k` octets are exactly needed for `256^(k-1) ≤ n < 256^k`. -/
theorem natOctets_length_le {n k : Nat} (h : n < 256 ^ k) : (natOctets n).length ≤ k := by
  rw [natOctets, baseDigits, List.length_map, List.length_reverse]
  exact (Nat.digits_length_le_iff (by norm_num) n).mpr h

theorem lt_natOctets_length {n k : Nat} (h : 256 ^ k ≤ n) : k < (natOctets n).length := by
  rw [natOctets, baseDigits, List.length_map, List.length_reverse]
  exact (Nat.lt_digits_length_iff (by norm_num) n).mpr h

theorem natVal_ge {b : UInt8} {r : List UInt8} (h : b ≠ 0) : 256 ^ r.length ≤ natVal (b :: r) := by
  have : b.toNat ≠ 0 := fun h0 => h (u8_ext (by simpa using h0))
  simp only [natVal]
  have h1 : 1 ≤ b.toNat := by omega
  nlinarith [Nat.mul_le_mul_right (256 ^ r.length) h1]

/-! ### `toBeBytes` -/

@[simp] theorem toBeBytes_length (w v : Nat) : (toBeBytes w v).length = w := by
  induction w with
  | zero => rfl
  | succ w ih => simp [toBeBytes, ih]

theorem toBeBytes_drop (w v k : Nat) (h : k ≤ w) : (toBeBytes w v).drop (w - k) = toBeBytes k v := by
  induction w with
  | zero => have : k = 0 := by omega
            subst this; rfl
  | succ w ih =>
    rcases Nat.lt_or_ge k (w + 1) with h1 | h1
    · have : w + 1 - k = (w - k) + 1 := by omega
      rw [this, toBeBytes, List.drop_succ_cons, ih (by omega)]
    · have : k = w + 1 := by omega
      subst this; simp

theorem natVal_toBeBytes (w v : Nat) : natVal (toBeBytes w v) = v % 256 ^ w := by
  induction w with
  | zero => simp [toBeBytes, natVal, Nat.mod_one]
  | succ w ih =>
    simp only [toBeBytes, natVal, ih, toBeBytes_length]
    rw [UInt8.toNat_ofNat']
    rw [pow_succ 256 w, Nat.mod_mul (x := v) (a := 256 ^ w) (b := 256)]
    rw [show (2 : Nat) ^ 8 = 256 by norm_num]
    ring

theorem toBeBytes_eq_natOctets {k v : Nat} (h1 : v < 256 ^ k) (h2 : k = 0 ∨ 256 ^ (k - 1) ≤ v) :
    toBeBytes k v = natOctets v := by
  have hv : natVal (toBeBytes k v) = v := by rw [natVal_toBeBytes, Nat.mod_eq_of_lt h1]
  rw [← natOctets_unique (toBeBytes k v), hv]
  cases k with
  | zero => simp [toBeBytes]
  | succ k =>
    simp only [toBeBytes, List.head?_cons, Option.mem_def, Option.some.injEq, forall_eq']
    simp only [Nat.add_one_ne_zero, Nat.add_sub_cancel, false_or] at h2
    have h3 : v / 256 ^ k < 256 := by
      rw [Nat.div_lt_iff_lt_mul (by positivity)]
      rw [pow_succ] at h1; linarith
    have h4 : 1 ≤ v / 256 ^ k := (Nat.le_div_iff_mul_le (by positivity)).mpr (by simpa using h2)
    intro h0
    have := congrArg UInt8.toNat h0
    rw [toNat_ofNat_of_lt h3] at this
    simp at this
    omega

/-! ### `leadingZeros` -/

theorem leadingZeros_le (w v : Nat) : leadingZeros w v ≤ w := by
  induction w with
  | zero => simp [leadingZeros]
  | succ w ih => simp only [leadingZeros]; split <;> omega

theorem lt_pow_leadingZeros {w v : Nat} (h : v < 2 ^ w) : v < 2 ^ (w - leadingZeros w v) := by
  induction w with
  | zero => simpa [leadingZeros] using h
  | succ w ih =>
    simp only [leadingZeros]
    split
    · simpa using h
    · rename_i hb
      have : v < 2 ^ w := by
        by_contra hc
        exact hb (Nat.testBit_of_two_pow_le_and_two_pow_add_one_gt (by omega) h)
      have := ih this
      have e : w + 1 - (leadingZeros w v + 1) = w - leadingZeros w v := by omega
      rwa [e]

theorem pow_leadingZeros_le {w v : Nat} (h : v < 2 ^ w) (h0 : v ≠ 0) :
    leadingZeros w v < w ∧ 2 ^ (w - leadingZeros w v - 1) ≤ v := by
  induction w with
  | zero => simp at h; omega
  | succ w ih =>
    simp only [leadingZeros]
    split
    · rename_i hb
      have := Nat.ge_two_pow_of_testBit hb
      simpa using this
    · rename_i hb
      have h1 : v < 2 ^ w := by
        by_contra hc
        exact hb (Nat.testBit_of_two_pow_le_and_two_pow_add_one_gt (by omega) h)
      have ⟨h2, h3⟩ := ih h1
      refine ⟨by omega, ?_⟩
      have e : w + 1 - (leadingZeros w v + 1) - 1 = w - leadingZeros w v - 1 := by omega
      rwa [e]

end Bsn1
