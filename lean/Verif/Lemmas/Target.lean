import Verif.Model.Target
import Verif.Lemmas.Ber
/-!
# Lemmas on other word sizes
-/

set_option linter.unusedSimpArgs false

namespace Bsn1
open Spec

namespace Target
variable {t : Target}

theorem Real.le (h : t.Real) : 2 ≤ t.word ∧ t.word ≤ 8 := by
  rcases h with h | h | h <;> omega

theorem usizeSize_le (h : t.word ≤ 8) : t.usizeSize ≤ Bsn1.usizeSize := by
  have : 256 ^ t.word ≤ 256 ^ 8 := Nat.pow_le_pow_right (by norm_num) h
  simp only [usizeSize, Bsn1.usizeSize]
  norm_num at this ⊢
  exact this

theorem isizeMax_le (h : t.word ≤ 8) : t.isizeMax ≤ Bsn1.isizeMax := by
  have : 256 ^ t.word ≤ 256 ^ 8 := Nat.pow_le_pow_right (by norm_num) h
  simp only [isizeMax, Bsn1.isizeMax]
  norm_num at this ⊢
  omega

theorem isizeMax_lt (h : 1 ≤ t.word) : t.isizeMax + 1 < t.usizeSize ∧ 127 ≤ t.isizeMax := by
  have : 256 ^ 1 ≤ 256 ^ t.word := Nat.pow_le_pow_right (by norm_num) h
  simp only [isizeMax, usizeSize]
  norm_num at this
  omega

/-! ### Length octets -/

/-- The loop without the wrap-around. -/
def plainLoop {σ : Type} [Reader σ] : (k : Nat) → (len : Nat) → P σ Nat
  | 0, len => pure len
  | k + 1, len => do
    let byte ← readU8
    writeU8 byte
    plainLoop k (len * 256 + byte.toNat)

theorem u8_lt : ∀ b : UInt8, b.toNat < 256 := fun b => b.toNat_lt

section
variable {σ : Type} [Reader σ]

theorem loop_plain (k len : Nat) (hk : k ≤ t.word) (h : len < 256 ^ (t.word - k)) :
    t.parseLengthLoop (σ := σ) k len = plainLoop k len := by
  induction k generalizing len with
  | zero => rfl
  | succ k ih =>
    simp only [parseLengthLoop, plainLoop]
    have e : t.word - k = (t.word - (k + 1)) + 1 := by omega
    have h1 : len * 256 < 256 ^ (t.word - k) := by
      rw [e, pow_succ]; exact Nat.mul_lt_mul_of_pos_right h (by norm_num)
    have h2 : 256 ^ (t.word - k) ≤ t.usizeSize := Nat.pow_le_pow_right (by norm_num) (by omega)
    rw [Nat.mod_eq_of_lt (by omega)]
    refine congrArg _ (funext fun b => congrArg _ (funext fun _ => ?_))
    apply ih _ (by omega)
    have hb := u8_lt b
    rw [e, pow_succ]
    clear h1 h2 ih
    generalize 256 ^ (t.word - (k + 1)) = x at h ⊢
    omega

theorem loop_plain_main (k len : Nat) (hk : k ≤ 8) (h : len < 256 ^ (8 - k)) :
    Bsn1.parseLengthLoop (σ := σ) k len = plainLoop k len := by
  induction k generalizing len with
  | zero => rfl
  | succ k ih =>
    simp only [Bsn1.parseLengthLoop, plainLoop]
    have e : 8 - k = (8 - (k + 1)) + 1 := by omega
    have h1 : len * 256 < 256 ^ (8 - k) := by
      rw [e, pow_succ]; exact Nat.mul_lt_mul_of_pos_right h (by norm_num)
    have h2 : 256 ^ (8 - k) ≤ Bsn1.usizeSize := by
      have : 256 ^ (8 - k) ≤ 256 ^ 8 := Nat.pow_le_pow_right (by norm_num) (by omega)
      simp only [Bsn1.usizeSize]; norm_num at this ⊢; exact this
    rw [Nat.mod_eq_of_lt (by omega)]
    refine congrArg _ (funext fun b => congrArg _ (funext fun _ => ?_))
    apply ih _ (by omega)
    have hb := u8_lt b
    rw [e, pow_succ]
    clear h1 h2 ih
    generalize 256 ^ (8 - (k + 1)) = x at h ⊢
    omega

/-- What the loop yields lies between the least and the greatest number with these leading octets. -/
theorem plainLoop_bounds (k len : Nat) {s s' : σ} {w w' : Bytes} {n : Nat}
    (h : (plainLoop k len).run s w = (.ok n, s', w')) : len * 256 ^ k ≤ n ∧ n < (len + 1) * 256 ^ k := by
  induction k generalizing len s w with
  | zero =>
    simp only [plainLoop, P.pure_apply, Prod.mk.injEq, Res.ok.injEq] at h
    omega
  | succ k ih =>
    simp only [plainLoop, P.bind_def, writeU8_apply] at h
    rcases hr : (readU8 (σ := σ)).run s w with ⟨r, s1, w1⟩
    rw [hr] at h
    cases r with
    | ok b =>
      have := ih _ h
      have hb := u8_lt b
      have h1 : (len * 256 + b.toNat + 1) * 256 ^ k ≤ (len * 256 + 256) * 256 ^ k := Nat.mul_le_mul_right _ (by omega)
      have h2 : (len * 256) * 256 ^ k ≤ (len * 256 + b.toNat) * 256 ^ k := Nat.mul_le_mul_right _ (by omega)
      have e1 : len * 256 ^ (k + 1) = (len * 256) * 256 ^ k := by rw [pow_succ]; ring
      have e2 : (len + 1) * 256 ^ (k + 1) = (len * 256 + 256) * 256 ^ k := by rw [pow_succ]; ring
      omega
    | err e => simp at h
    | panic => simp at h
    | ub => simp at h

/-- Reading length octets on a target and in the main model: the same, and a number is a `usize` of the target; or the target reports an overflow,
and the main model goes on to read a number that is no `usize` of the target. -/
theorem parseLength_cases (hw : 1 ≤ t.word) (hw' : t.word ≤ 8) (s : σ) (w : Bytes) :
    (t.parseLength.run s w = Bsn1.parseLength.run s w ∧
      ∀ n s' w', Bsn1.parseLength.run s w = (.ok (.definite n), s', w') → n < t.usizeSize) ∨
    ((t.parseLength.run s w).1 = .err .overFlow ∧
      ∃ k c s' w', Bsn1.parseLength.run s w = (plainLoop k c >>= fun n => pure (.definite n)).run s' w' ∧ t.usizeSize ≤ c * 256 ^ k) := by
  have h256 : 256 ≤ t.usizeSize := by
    have : 256 ^ 1 ≤ 256 ^ t.word := Nat.pow_le_pow_right (by norm_num) hw
    simpa [usizeSize] using this
  simp only [parseLength, Bsn1.parseLength, P.bind_def, writeU8_apply, P.ite_apply, P.throw_apply, P.pure_apply]
  rcases (readU8 (σ := σ)).run s w with ⟨r, s1, w1⟩
  cases r with
  | err e => left; simp
  | panic => left; simp
  | ub => left; simp
  | ok f =>
    simp only
    by_cases h1 : f = Length.INDEFINITE
    · left; simp [h1]
    rw [if_neg h1, if_neg h1]
    by_cases h2 : f &&& Length.LONG_FLAG ≠ Length.LONG_FLAG
    · left
      rw [if_pos h2, if_pos h2]
      refine ⟨rfl, ?_⟩
      intro n s' w' h
      simp only [Prod.mk.injEq, Res.ok.injEq, Length.definite.injEq] at h
      have := u8_lt f
      omega
    rw [if_neg h2, if_neg h2]
    rcases (readU8 (σ := σ)).run s1 (w1 ++ [f]) with ⟨r, s2, w2⟩
    cases r with
    | err e => left; simp
    | panic => left; simp
    | ub => left; simp
    | ok g =>
      simp only
      by_cases h3 : g = 0x00
      · left; simp [h3]
      rw [if_neg h3, if_neg h3]
      by_cases h4 : (f ^^^ Length.LONG_FLAG).toNat = 1 ∧ g ≤ Length.MAX_SHORT
      · left; rw [if_pos h4, if_pos h4]; simp
      rw [if_neg h4, if_neg h4]
      have hg : g.toNat ≠ 0 := fun h => h3 ((u8_eq_zero g).mpr h)
      have hg' := u8_lt g
      have hf : 1 ≤ (f ^^^ Length.LONG_FLAG).toNat := by
        have hx : 128 ≤ f.toNat := by rw [u8_long_flag] at h2; omega
        rw [u8_eq_indefinite] at h1
        rw [u8_xor_flag f hx]; omega
      generalize (f ^^^ Length.LONG_FLAG).toNat = c at *
      by_cases h5 : 8 < c
      · left; rw [if_pos h5, if_pos (by omega)]; simp
      rw [if_neg h5]
      have hgm : g.toNat < 256 ^ (8 - (c - 1)) := by
        have : 256 ^ 1 ≤ 256 ^ (8 - (c - 1)) := Nat.pow_le_pow_right (by norm_num) (by omega)
        omega
      rw [loop_plain_main _ _ (by omega) hgm]
      by_cases h6 : t.word < c
      · right
        rw [if_pos h6]
        refine ⟨rfl, c - 1, g.toNat, s2, w2 ++ [g], rfl, ?_⟩
        have h7 : 1 * 256 ^ (c - 1) ≤ g.toNat * 256 ^ (c - 1) := Nat.mul_le_mul_right _ (by omega)
        have h8 : t.usizeSize ≤ 256 ^ (c - 1) := Nat.pow_le_pow_right (by norm_num) (by omega)
        omega
      · left
        rw [if_neg h6]
        have hgt : g.toNat < 256 ^ (t.word - (c - 1)) := by
          have : 256 ^ 1 ≤ 256 ^ (t.word - (c - 1)) := Nat.pow_le_pow_right (by norm_num) (by omega)
          omega
        rw [loop_plain _ _ (by omega) hgt]
        refine ⟨rfl, ?_⟩
        intro n s' w' h
        rcases hp : (plainLoop (σ := σ) (c - 1) g.toNat).run s2 (w2 ++ [g]) with ⟨r, s3, w3⟩
        rw [hp] at h
        cases r with
        | ok n' =>
          simp only [Prod.mk.injEq, Res.ok.injEq, Length.definite.injEq] at h
          have hb := plainLoop_bounds _ _ hp
          have h7 : (g.toNat + 1) * 256 ^ (c - 1) ≤ 256 * 256 ^ (c - 1) := Nat.mul_le_mul_right _ (by omega)
          have h8 : 256 * 256 ^ (c - 1) ≤ t.usizeSize := by
            rw [Nat.mul_comm, ← pow_succ]
            exact Nat.pow_le_pow_right (by norm_num) (by omega)
          omega
        | err e => simp at h
        | panic => simp at h
        | ub => simp at h

theorem parseIdLength_cases (hw : 1 ≤ t.word) (hw' : t.word ≤ 8) (s : σ) (w : Bytes) :
    (t.parseIdLength.run s w = Bsn1.parseIdLength.run s w ∧
      ∀ n s' w', Bsn1.parseIdLength.run s w = (.ok (.definite n), s', w') → n < t.usizeSize) ∨
    ((t.parseIdLength.run s w).1 = .err .overFlow ∧
      ∃ k c s' w', Bsn1.parseIdLength.run s w = (plainLoop k c >>= fun n => pure (.definite n)).run s' w' ∧ t.usizeSize ≤ c * 256 ^ k) := by
  simp only [parseIdLength, Bsn1.parseIdLength, P.bind_def]
  rcases (parseId (σ := σ)).run s w with ⟨r, s1, w1⟩
  cases r with
  | ok id => exact parseLength_cases hw hw' s1 w1
  | err e => left; simp
  | panic => left; simp
  | ub => left; simp

end
end Target
end Bsn1
