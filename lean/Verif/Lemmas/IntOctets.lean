import Verif.Lemmas.Contents
import Verif.Model.Types
/-!
# Lemmas on the contents octets of integers
-/

namespace Bsn1
open Spec

/-- `signedOctets n` denotes `n`, its first bit is clear and it is not longer than needed. -/
theorem signedOctets_spec (n : Nat) : ∃ a r, signedOctets n = a :: r ∧ natVal (a :: r) = n ∧ a.toNat < 128 ∧
    (∀ b r', r = b :: r' → a.toNat = 0 → 128 ≤ b.toNat) := by
  have hv := natOctets_natVal n
  have hh := natOctets_head n
  rw [signedOctets]
  cases e : natOctets n with
  | nil =>
    rw [e] at hv
    refine ⟨0, [], rfl, ?_, by decide, by simp⟩
    rw [← hv]; simp [natVal]
  | cons b r =>
    rw [e] at hv hh
    have hb : b ≠ 0 := hh b (by simp)
    simp only []
    split
    · rename_i h
      refine ⟨0, b :: r, rfl, ?_, by decide, ?_⟩
      · rw [← hv]; simp [natVal]
      · rintro b' r' e' -
        simp only [List.cons.injEq] at e'
        rw [← e'.1]; exact h
    · rename_i h
      refine ⟨b, r, rfl, hv, by omega, ?_⟩
      intro _ _ _ h0
      exact absurd ((u8_eq_0 b).mpr h0) hb

theorem compl_toNat (b : UInt8) : (255 - b).toNat = 255 - b.toNat := by
  revert b; decide +kernel

theorem natVal_compl (l : Bytes) : natVal (l.map fun b => 255 - b) + natVal l + 1 = 256 ^ l.length := by
  induction l with
  | nil => simp [natVal]
  | cons b r ih =>
    have hb := u8_lt b
    simp only [List.map_cons, natVal, List.length_map, List.length_cons, compl_toNat, pow_succ]
    generalize 256 ^ r.length = P at *
    have : (255 - b.toNat) * P + b.toNat * P = 255 * P := by rw [← Nat.add_mul]; congr 1; omega
    omega

theorem intOctets_spec (v : Int) : IntMinimal (intOctets v) ∧ intVal (intOctets v) = v := by
  rw [intOctets]
  split
  · rename_i h
    obtain ⟨a, r, e, h1, h2, h3⟩ := signedOctets_spec v.toNat
    rw [e]
    constructor
    · cases r with
      | nil => trivial
      | cons b r' =>
        refine ⟨?_, by omega⟩
        rintro ⟨h4, h5⟩
        have := h3 b r' rfl h4
        omega
    · rw [intVal_of_lt h2, h1]
      omega
  · rename_i h
    obtain ⟨a, r, e, h1, h2, h3⟩ := signedOctets_spec (-v - 1).toNat
    rw [e]
    constructor
    · cases r with
      | nil => trivial
      | cons b r' =>
        have := u8_lt b
        simp only [List.map_cons, IntMinimal, compl_toNat]
        refine ⟨by omega, ?_⟩
        rintro ⟨h4, h5⟩
        have := h3 b r' rfl (by omega)
        omega
    · have hc := natVal_compl (a :: r)
      rw [List.map_cons, intVal_of_ge (by rw [compl_toNat]; omega), ← List.map_cons]
      rw [h1] at hc
      simp only [List.length_map, List.length_cons] at hc ⊢
      change (natVal ((a :: r).map fun b => 255 - b) : Int) - _ = v
      generalize natVal ((a :: r).map fun b => 255 - b) = x at *
      generalize 256 ^ (r.length + 1) = y at *
      omega

theorem intOctets_ne_nil (v : Int) : intOctets v ≠ [] := minimal_ne_nil (intOctets_spec v).1

theorem ofInt_intOctets (t : IntTy) (v : Int) (h : t.InRange v) : Contents.ofInt t v = .ok (intOctets v) := by
  obtain ⟨c, h1, h2, h3⟩ := ofInt_spec t v h
  rw [h1, minimal_unique h2 (intOctets_spec v).1 (h3.trans (intOctets_spec v).2.symm)]

theorem toInteger_intOctets (t : IntTy) (v : Int) (h : t.InRange v) :
    ContentsRef.toInteger t (intOctets v) = .ok v := by
  rw [toInteger_spec, if_neg (intOctets_ne_nil v), if_neg (by simpa using (intOctets_spec v).1), (intOctets_spec v).2,
    if_pos h]

theorem toInteger_sound (t : IntTy) (c : Bytes) (v : Int) (h : ContentsRef.toInteger t c = .ok v) :
    c = intOctets v ∧ t.InRange v := by
  rw [toInteger_spec] at h
  split_ifs at h with h1 h2 h3
  simp only [Res.ok.injEq] at h
  subst h
  exact ⟨minimal_unique (by simpa using h2) (intOctets_spec _).1 (intOctets_spec _).2.symm, h3⟩

/-- The length of `signedOctets` is determined by bounds. -/
theorem signedOctets_length {n L : Nat} (h1 : n < 128 * 256 ^ L) (h2 : L = 0 ∨ 128 * 256 ^ (L - 1) ≤ n) :
    (signedOctets n).length = L + 1 := by
  obtain ⟨a, r, e, hv, ha, hr⟩ := signedOctets_spec n
  rw [e, List.length_cons]
  congr 1
  have hlt := natVal_lt r
  have hn : n = a.toNat * 256 ^ r.length + natVal r := hv.symm
  have hup : n < 128 * 256 ^ r.length := by
    have : a.toNat * 256 ^ r.length ≤ 127 * 256 ^ r.length := Nat.mul_le_mul_right _ (by omega)
    omega
  have hlow : r.length = 0 ∨ 128 * 256 ^ (r.length - 1) ≤ n := by
    cases r with
    | nil => exact .inl rfl
    | cons b r' =>
      right
      simp only [List.length_cons, Nat.add_sub_cancel]
      by_cases ha0 : a.toNat = 0
      · have hb := hr b r' rfl ha0
        have : 128 * 256 ^ r'.length ≤ b.toNat * 256 ^ r'.length := Nat.mul_le_mul_right _ hb
        rw [hn, ha0]
        simp only [natVal]
        omega
      · have : 1 * 256 ^ (r'.length + 1) ≤ a.toNat * 256 ^ (r'.length + 1) := Nat.mul_le_mul_right _ (by omega)
        simp only [List.length_cons] at hn
        rw [pow_succ] at *
        omega
  rcases Nat.lt_trichotomy r.length L with h | h | h
  · exfalso
    rcases h2 with h2 | h2
    · omega
    · have : (256 : Nat) ^ r.length ≤ 256 ^ (L - 1) := Nat.pow_le_pow_right (by decide) (by omega)
      omega
  · exact h
  · exfalso
    rcases hlow with h2 | h2
    · omega
    · have : (256 : Nat) ^ L ≤ 256 ^ (r.length - 1) := Nat.pow_le_pow_right (by decide) (by omega)
      omega

theorem intOctets_length_nonneg {v : Int} (h : 0 ≤ v) : (intOctets v).length = (signedOctets v.toNat).length := by
  rw [intOctets, if_pos h]

theorem intOctets_length_neg {v : Int} (h : v < 0) : (intOctets v).length = (signedOctets (-v - 1).toNat).length := by
  rw [intOctets, if_neg (by omega), List.length_map]

/-- The length from the number of leading zeros of a `w`-bit representation. -/
theorem signedOctets_lz {w n : Nat} (h : n < 2 ^ w) : (w + 8 - leadingZeros w n) / 8 = (signedOctets n).length := by
  have hle := leadingZeros_le w n
  have h1 := lt_pow_leadingZeros h
  set b := w - leadingZeros w n with hb
  have e : (w + 8 - leadingZeros w n) / 8 = b / 8 + 1 := by omega
  rw [e]
  symm
  apply signedOctets_length
  · have : b ≤ 8 * (b / 8) + 7 := by omega
    calc n < 2 ^ b := h1
      _ ≤ 2 ^ (8 * (b / 8) + 7) := Nat.pow_le_pow_right (by decide) this
      _ = 128 * 256 ^ (b / 8) := by rw [pow_add, pow_mul]; norm_num; ring
  · rcases Nat.eq_zero_or_pos (b / 8) with h0 | h0
    · exact .inl h0
    · right
      by_cases hn : n = 0
      · subst hn
        have : ∀ w, leadingZeros w 0 = w := by
          intro w
          induction w with
          | zero => rfl
          | succ w ih => simp [leadingZeros, ih]
        rw [this] at hb
        omega
      · have h2 := (pow_leadingZeros_le h hn).2
        calc 128 * 256 ^ (b / 8 - 1) = 2 ^ (8 * (b / 8 - 1) + 7) := by rw [pow_add, pow_mul]; norm_num; ring
          _ ≤ 2 ^ (b - 1) := Nat.pow_le_pow_right (by decide) (by omega)
          _ ≤ n := by
            have e' : w - leadingZeros w n - 1 = b - 1 := by omega
            first | exact e' ▸ h2 | simpa [e'] using h2

theorem signedLen_eq {t : IntTy} (hs : t.signed = true) {v : Int} (h : t.InRange v) :
    signedLen t v = (intOctets v).length := by
  rw [inRange_signed hs] at h
  have h2 : (2 : Nat) ^ (8 * t.size) = 2 * (128 * 256 ^ (t.size - 1)) := by
    rw [← pow_size_half, ← pow_succ']; congr 1; have := size_pos t; omega
  have e : (2 : Int) ^ (8 * t.size) = ((2 * (128 * 256 ^ (t.size - 1)) : Nat) : Int) := by rw [← h2]; push_cast; rfl
  have hlz : ∀ n : Nat, n < 2 * (128 * 256 ^ (t.size - 1)) →
      (8 * t.size + 8 - leadingZeros (8 * t.size) n) / 8 = (signedOctets n).length := by
    intro n hn
    exact signedOctets_lz (by rw [h2]; exact hn)
  rw [signedLen, leadingOnesInt, leadingZerosInt, e]
  generalize 128 * 256 ^ (t.size - 1) = P at *
  split
  · rename_i hv
    rw [intOctets_length_neg hv, Int.emod_eq_of_lt (by omega) (by omega)]
    exact hlz _ (by omega)
  · rename_i hv
    rw [intOctets_length_nonneg (by omega), Int.emod_eq_of_lt (by omega) (by omega)]
    exact hlz _ (by omega)

theorem unsignedLen_eq {t : IntTy} (hs : t.signed = false) {v : Int} (h : t.InRange v) :
    unsignedLen t v = (intOctets v).length := by
  rw [inRange_unsigned hs] at h
  have hp := pow_size t
  rw [unsignedLen, intOctets_length_nonneg (by omega), leadingZerosInt]
  have e : (2 ^ (8 * t.size) : Int) = ((256 ^ t.size : Nat) : Int) := by rw [← hp]; push_cast; rfl
  have : (v % 2 ^ (8 * t.size) : Int) = v := by
    apply Int.emod_eq_of_lt (by omega)
    rw [e]; push_cast at h ⊢; omega
  rw [this]
  apply signedOctets_lz
  rw [hp]
  zify
  push_cast at h ⊢
  omega

theorem intLen_eq (t : IntTy) (v : Int) (h : t.InRange v) : intLen t v = (intOctets v).length := by
  cases t with
  | i32 => exact signedLen_eq rfl h
  | i64 => exact signedLen_eq rfl h
  | i128 => exact signedLen_eq rfl h
  | isize => exact signedLen_eq rfl h
  | u32 => exact unsignedLen_eq rfl h
  | u64 => exact unsignedLen_eq rfl h
  | u128 => exact unsignedLen_eq rfl h
  | usize => exact unsignedLen_eq rfl h
  | i8 =>
    have h : -128 ≤ v ∧ v ≤ 127 := h
    rw [intLen]
    rcases Int.lt_or_le v 0 with hv | hv
    · rw [intOctets_length_neg hv, signedOctets_length (L := 0) (by omega) (.inl rfl)]
    · rw [intOctets_length_nonneg hv, signedOctets_length (L := 0) (by omega) (.inl rfl)]
  | u8 =>
    have h : 0 ≤ v ∧ v ≤ 255 := h
    rw [intLen, intOctets_length_nonneg h.1]
    split
    · rw [signedOctets_length (L := 0) (by omega) (.inl rfl)]
    · rw [signedOctets_length (L := 1) (by omega) (by omega)]
  | i16 =>
    have h : -32768 ≤ v ∧ v ≤ 32767 := h
    rw [intLen]
    rcases Int.lt_or_le v 0 with hv | hv
    · rw [intOctets_length_neg hv]
      split
      · rw [signedOctets_length (L := 0) (by omega) (.inl rfl)]
      · rw [signedOctets_length (L := 1) (by omega) (by omega)]
    · rw [intOctets_length_nonneg hv]
      split
      · rw [signedOctets_length (L := 0) (by omega) (.inl rfl)]
      · rw [signedOctets_length (L := 1) (by omega) (by omega)]
  | u16 =>
    have h : 0 ≤ v ∧ v ≤ 65535 := h
    rw [intLen, intOctets_length_nonneg h.1]
    split
    · rw [signedOctets_length (L := 0) (by omega) (.inl rfl)]
    · split
      · rw [signedOctets_length (L := 1) (by omega) (by omega)]
      · rw [signedOctets_length (L := 2) (by omega) (by omega)]

end Bsn1
