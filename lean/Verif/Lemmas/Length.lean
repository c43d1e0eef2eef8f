import Verif.Lemmas.Basic
import Verif.Lemmas.Monad
import Verif.Model.Length
/-!
# Lemmas on `Length`
-/

set_option linter.unusedSimpArgs false

namespace Bsn1
open Spec

theorem u8_long_flag : ∀ b : UInt8, (b &&& Length.LONG_FLAG ≠ Length.LONG_FLAG) ↔ b.toNat < 128 := by
  decide +kernel
theorem u8_xor_flag : ∀ b : UInt8, 128 ≤ b.toNat → (b ^^^ Length.LONG_FLAG).toNat = b.toNat - 128 := by
  decide +kernel
theorem u8_and_not_flag : ∀ b : UInt8, (b &&& ~~~ Length.LONG_FLAG).toNat = b.toNat % 128 := by
  decide +kernel
theorem u8_le_max_short : ∀ b : UInt8, b ≤ Length.MAX_SHORT ↔ b.toNat < 128 := by decide +kernel
theorem u8_eq_indefinite : ∀ b : UInt8, b = Length.INDEFINITE ↔ b.toNat = 128 := by decide +kernel
theorem u8_eq_zero : ∀ b : UInt8, b = 0x00 ↔ b.toNat = 0 := by decide +kernel
theorem max_short_toNat : Length.MAX_SHORT.toNat = 127 := by decide

/-- The number of octets computed from `leading_zeros`. -/
theorem byteLen_spec {n : Nat} (h : n < 2 ^ 64) (h0 : n ≠ 0) :
    (8 * 8 - leadingZeros 64 n + 7) / 8 = (natOctets n).length := by
  have h1 := lt_pow_leadingZeros h
  have ⟨h2, h3⟩ := pow_leadingZeros_le h h0
  generalize leadingZeros 64 n = z at *
  obtain ⟨b, hb⟩ : ∃ b, b = 64 - z := ⟨_, rfl⟩
  have hk : ∃ k, (8 * 8 - z + 7) / 8 = k := ⟨_, rfl⟩
  obtain ⟨k, hk⟩ := hk
  rw [hk]
  have h4 : n < 256 ^ k := by
    calc n < 2 ^ (64 - z) := h1
      _ ≤ 2 ^ (8 * k) := Nat.pow_le_pow_right (by norm_num) (by omega)
      _ = 256 ^ k := by rw [pow_mul]; norm_num
  have h5 : 256 ^ (k - 1) ≤ n := by
    calc 256 ^ (k - 1) = 2 ^ (8 * (k - 1)) := by rw [pow_mul]; norm_num
      _ ≤ 2 ^ (64 - z - 1) := Nat.pow_le_pow_right (by norm_num) (by omega)
      _ ≤ n := h3
  have := natOctets_length_le h4
  have := lt_natOctets_length h5
  omega

theorem natOctets_length_usize {n : Nat} (h : n < 2 ^ 64) : (natOctets n).length ≤ 8 :=
  natOctets_length_le (by norm_num at h ⊢; omega)

theorem bufferCapacity_eq : Length.bufferCapacity = 9 := by decide +kernel

theorem toBytes_definite {n : Nat} (h : n < 2 ^ 64) :
    (Length.definite n).toBytes = .ok (lenOctets n) := by
  simp only [Length.toBytes, max_short_toNat, lenOctets]
  by_cases hn : n < 128
  · rw [if_pos (by omega), if_pos hn]
  · rw [if_neg (by omega), if_neg hn]
    have e : (8 * 8 - leadingZeros 64 n + 8 - 1) / 8 = (natOctets n).length := by
      rw [← byteLen_spec h (by omega)]; omega
    rw [e]
    have hl := natOctets_length_usize h
    rw [bufferCapacity_eq, if_neg (by omega), toBeBytes_drop 8 n _ hl]
    rw [toBeBytes_eq_natOctets]
    · congr 2
      apply u8_ext
      rw [UInt8.toNat_add, toNat_ofNat_of_lt (by omega), toNat_ofNat_of_lt (by omega)]
      simp [Length.LONG_FLAG]; omega
    · have := natOctets_natVal n
      have h2 := natVal_lt (natOctets n)
      omega
    · right
      have hne := natOctets_ne_nil (show n ≠ 0 by omega)
      have h2 := natOctets_head n
      have h3 := natOctets_natVal n
      generalize natOctets n = l at *
      cases l with
      | nil => simp at hne
      | cons b r =>
        simp only [List.head?_cons, Option.mem_def, Option.some.injEq, forall_eq'] at h2
        have := natVal_ge (r := r) h2
        simp only [List.length_cons, Nat.add_sub_cancel]
        omega

theorem toBytes_indefinite : Length.indefinite.toBytes = .ok indefOctets := rfl

theorem len_definite {n : Nat} (h : n < 2 ^ 64) : (Length.definite n).len = (lenOctets n).length := by
  simp only [Length.len, max_short_toNat, lenOctets]
  by_cases hn : n < 128
  · rw [if_pos (by omega), if_pos hn]; rfl
  · rw [if_neg (by omega), if_neg hn]
    have := byteLen_spec h (by omega)
    simp only [List.length_cons]
    rw [← this]

theorem lenOctets_length_le {n : Nat} (h : n < 2 ^ 64) : (lenOctets n).length ≤ 9 := by
  simp only [lenOctets]
  split
  · simp
  · have := natOctets_length_usize h
    simp; omega

theorem lenOctets_ne_nil (n : Nat) : lenOctets n ≠ [] := by
  simp only [lenOctets]; split <;> simp

/-! ### Parsing on slices -/

/-- One step of the accumulation. -/
def lenStep (acc : Nat) (b : UInt8) : Nat := (acc * 256) % usizeSize + b.toNat

theorem foldl_lenStep (l : Bytes) (acc k : Nat) (hk : l.length ≤ k) (h : acc < 256 ^ (8 - k)) (hk8 : k ≤ 8) :
    l.foldl lenStep acc = acc * 256 ^ l.length + natVal l := by
  induction l generalizing acc k with
  | nil => simp [natVal]
  | cons b r ih =>
    simp only [List.length_cons] at hk
    simp only [List.foldl_cons]
    have hb := u8_lt b
    have h1 : acc * 256 < usizeSize := by
      calc acc * 256 < 256 ^ (8 - k) * 256 := by omega
        _ = 256 ^ (8 - k + 1) := by rw [pow_succ]
        _ ≤ 256 ^ 8 := Nat.pow_le_pow_right (by norm_num) (by omega)
        _ = usizeSize := by norm_num [usizeSize]
    have h2 : lenStep acc b = acc * 256 + b.toNat := by
      simp [lenStep, Nat.mod_eq_of_lt h1]
    rw [ih (lenStep acc b) (k - 1) (by omega) ?_ (by omega), h2]
    · simp only [natVal, List.length_cons, pow_succ]; ring
    · rw [h2]
      have e : 8 - (k - 1) = 8 - k + 1 := by omega
      rw [e, pow_succ]
      generalize 256 ^ (8 - k) = q at h ⊢
      clear * - h hb
      omega

theorem parseLengthLoop_ok (k len : Nat) (r w : Bytes) (h : k ≤ r.length) :
    (parseLengthLoop (σ := Bytes) k len).run r w =
      (.ok ((r.take k).foldl lenStep len), r.drop k, w ++ r.take k) := by
  induction k generalizing len r w with
  | zero => simp [parseLengthLoop]
  | succ k ih =>
    cases r with
    | nil => simp at h
    | cons b r =>
      simp only [List.length_cons] at h
      simp only [parseLengthLoop, P.bind_def, readU8_cons, writeU8_apply]
      rw [ih _ _ _ (by omega)]
      simp [lenStep]

theorem parseLengthLoop_short (k len : Nat) (r w : Bytes) (h : r.length < k) :
    (parseLengthLoop (σ := Bytes) k len).run r w = (.err .unterminatedBytes, [], w ++ r) := by
  induction k generalizing len r w with
  | zero => simp at h
  | succ k ih =>
    cases r with
    | nil => simp [parseLengthLoop, P.bind_def]
    | cons b r =>
      simp only [List.length_cons] at h
      simp only [parseLengthLoop, P.bind_def, readU8_cons, writeU8_apply]
      rw [ih _ _ _ (by omega)]
      simp

/-- Equations of `parseLength` on slices. -/
theorem parseLength_nil (w : Bytes) : (parseLength (σ := Bytes)).run [] w = (.err .unterminatedBytes, [], w) := by
  simp [parseLength, P.bind_def]

theorem parseLength_indef (r w : Bytes) :
    (parseLength (σ := Bytes)).run (0x80 :: r) w = (.ok .indefinite, r, w ++ [0x80]) := by
  simp [parseLength, P.bind_def, Length.INDEFINITE]

theorem parseLength_short (f : UInt8) (r w : Bytes) (h : f.toNat < 128) :
    (parseLength (σ := Bytes)).run (f :: r) w = (.ok (.definite f.toNat), r, w ++ [f]) := by
  have h1 : ¬ f = Length.INDEFINITE := by rw [u8_eq_indefinite]; omega
  have h2 := (u8_long_flag f).mpr h
  simp only [parseLength, P.bind_def, P.ite_apply, P.throw_apply, readU8_cons, writeU8_apply, if_neg h1, if_pos h2]
  rfl

theorem parseLength_long_nil (f : UInt8) (w : Bytes) (h : 128 < f.toNat) :
    (parseLength (σ := Bytes)).run [f] w = (.err .unterminatedBytes, [], w ++ [f]) := by
  have h1 : ¬ f = Length.INDEFINITE := by rw [u8_eq_indefinite]; omega
  have h2 : ¬ (f &&& Length.LONG_FLAG ≠ Length.LONG_FLAG) := by rw [u8_long_flag]; omega
  simp only [parseLength, P.bind_def, P.ite_apply, P.throw_apply, readU8_cons, writeU8_apply, if_neg h1, if_neg h2, readU8_nil]

theorem parseLength_long_zero (f s : UInt8) (r w : Bytes) (h : 128 < f.toNat) (hs : s.toNat = 0) :
    (parseLength (σ := Bytes)).run (f :: s :: r) w = (.err .redundantBytes, r, w ++ [f]) := by
  have h1 : ¬ f = Length.INDEFINITE := by rw [u8_eq_indefinite]; omega
  have h2 : ¬ (f &&& Length.LONG_FLAG ≠ Length.LONG_FLAG) := by rw [u8_long_flag]; omega
  have h3 := (u8_eq_zero s).mpr hs
  simp only [parseLength, P.bind_def, P.ite_apply, P.throw_apply, readU8_cons, writeU8_apply, if_neg h1, if_neg h2, if_pos h3,
    P.throw_apply]

theorem parseLength_long_one (f s : UInt8) (r w : Bytes) (h : f.toNat = 129) (hs : s.toNat ≠ 0)
    (hs' : s.toNat < 128) :
    (parseLength (σ := Bytes)).run (f :: s :: r) w = (.err .redundantBytes, r, w ++ [f, s]) := by
  have h1 : ¬ f = Length.INDEFINITE := by rw [u8_eq_indefinite]; omega
  have h2 : ¬ (f &&& Length.LONG_FLAG ≠ Length.LONG_FLAG) := by rw [u8_long_flag]; omega
  have h3 : ¬ s = 0x00 := by rw [u8_eq_zero]; exact hs
  have h4 : (f ^^^ Length.LONG_FLAG).toNat = 1 ∧ s ≤ Length.MAX_SHORT := by
    rw [u8_xor_flag f (by omega), u8_le_max_short]; omega
  simp only [parseLength, P.bind_def, P.ite_apply, P.throw_apply, readU8_cons, writeU8_apply, if_neg h1, if_neg h2, if_neg h3,
    if_pos h4, P.throw_apply]
  simp

theorem parseLength_long_over (f s : UInt8) (r w : Bytes) (h : 136 < f.toNat) (hs : s.toNat ≠ 0) :
    (parseLength (σ := Bytes)).run (f :: s :: r) w = (.err .overFlow, r, w ++ [f, s]) := by
  have h1 : ¬ f = Length.INDEFINITE := by rw [u8_eq_indefinite]; omega
  have h2 : ¬ (f &&& Length.LONG_FLAG ≠ Length.LONG_FLAG) := by rw [u8_long_flag]; omega
  have h3 : ¬ s = 0x00 := by rw [u8_eq_zero]; exact hs
  have h4 : ¬ ((f ^^^ Length.LONG_FLAG).toNat = 1 ∧ s ≤ Length.MAX_SHORT) := by
    rw [u8_xor_flag f (by omega), u8_le_max_short]; omega
  have h5 : 8 < (f ^^^ Length.LONG_FLAG).toNat := by rw [u8_xor_flag f (by omega)]; omega
  simp only [parseLength, P.bind_def, P.ite_apply, P.throw_apply, readU8_cons, writeU8_apply, if_neg h1, if_neg h2, if_neg h3,
    if_neg h4, if_pos h5, P.throw_apply]
  simp

theorem parseLength_long (f s : UInt8) (r w : Bytes) (h : 128 < f.toNat) (h' : f.toNat ≤ 136)
    (hs : s.toNat ≠ 0) (hs' : ¬ (f.toNat = 129 ∧ s.toNat < 128)) :
    (parseLength (σ := Bytes)).run (f :: s :: r) w =
      if r.length < f.toNat - 129 then (.err .unterminatedBytes, [], w ++ f :: s :: r)
      else (.ok (.definite (natVal (s :: r.take (f.toNat - 129)))), r.drop (f.toNat - 129),
        w ++ f :: s :: r.take (f.toNat - 129)) := by
  have h1 : ¬ f = Length.INDEFINITE := by rw [u8_eq_indefinite]; omega
  have h2 : ¬ (f &&& Length.LONG_FLAG ≠ Length.LONG_FLAG) := by rw [u8_long_flag]; omega
  have h3 : ¬ s = 0x00 := by rw [u8_eq_zero]; exact hs
  have hx := u8_xor_flag f (by omega)
  have h4 : ¬ ((f ^^^ Length.LONG_FLAG).toNat = 1 ∧ s ≤ Length.MAX_SHORT) := by
    rw [hx, u8_le_max_short]; omega
  have h5 : ¬ 8 < (f ^^^ Length.LONG_FLAG).toNat := by rw [hx]; omega
  have e : f.toNat - 128 - 1 = f.toNat - 129 := by omega
  simp only [parseLength, P.bind_def, P.ite_apply, P.throw_apply, readU8_cons, writeU8_apply, if_neg h1, if_neg h2, if_neg h3,
    if_neg h4, if_neg h5]
  simp only [hx, e]
  by_cases hr : r.length < f.toNat - 129
  · rw [parseLengthLoop_short _ _ _ _ hr, if_pos hr]
    simp
  · rw [parseLengthLoop_ok _ _ _ _ (by omega), if_neg hr]
    have hb := u8_lt s
    have hl : (r.take (f.toNat - 129)).length = f.toNat - 129 := by simp; omega
    rw [foldl_lenStep _ _ 7 (by omega) (by norm_num; omega) (by omega)]
    simp [natVal, hl]

theorem lenOctets_long {f s : UInt8} {l : Bytes} (hs : s.toNat ≠ 0)
    (hs' : ¬ (l = [] ∧ s.toNat < 128)) (hl : f.toNat = 129 + l.length) :
    lenOctets (natVal (s :: l)) = f :: s :: l := by
  have hn : natOctets (natVal (s :: l)) = s :: l := by
    apply natOctets_unique
    intro b hb
    simp only [List.head?_cons, Option.mem_def, Option.some.injEq] at hb
    subst hb
    intro h; rw [h] at hs; simp at hs
  have hge : ¬ natVal (s :: l) < 128 := by
    cases l with
    | nil => simp [natVal] at hs' ⊢; omega
    | cons x l =>
      have := natVal_ge (b := s) (r := x :: l) (by intro h; rw [h] at hs; simp at hs)
      simp only [List.length_cons, pow_succ] at this
      have h1 : 0 < 256 ^ l.length := by positivity
      omega
  rw [lenOctets, if_neg hge, hn]
  congr 1
  apply u8_ext
  have := u8_lt f
  simp only [List.length_cons]
  rw [toNat_ofNat_of_lt (by omega)]
  omega

theorem parseLength_lenOctets {n : Nat} (h : n < 2 ^ 64) (rest w : Bytes) :
    (parseLength (σ := Bytes)).run (lenOctets n ++ rest) w = (.ok (.definite n), rest, w ++ lenOctets n) := by
  by_cases hn : n < 128
  · have e : (UInt8.ofNat n).toNat = n := toNat_ofNat_of_lt (by omega)
    simp only [lenOctets, if_pos hn, List.cons_append, List.nil_append]
    rw [parseLength_short _ _ _ (by omega), e]
  · have hl := natOctets_length_usize h
    have hne := natOctets_ne_nil (show n ≠ 0 by omega)
    have h2 := natOctets_head n
    have h3 := natOctets_natVal n
    simp only [lenOctets, if_neg hn]
    generalize natOctets n = l at *
    cases l with
    | nil => simp at hne
    | cons s l =>
      simp only [List.head?_cons, Option.mem_def, Option.some.injEq, forall_eq'] at h2
      simp only [List.length_cons] at hl
      have hs : s.toNat ≠ 0 := fun h0 => h2 (u8_ext (by simpa using h0))
      have e : (UInt8.ofNat (128 + (s :: l).length)).toNat = 129 + l.length := by
        simp only [List.length_cons]
        rw [toNat_ofNat_of_lt (by omega)]; omega
      simp only [List.cons_append]
      rw [parseLength_long _ _ _ _ (by omega) (by omega) hs]
      · rw [e]
        have e2 : 129 + l.length - 129 = l.length := by omega
        simp only [e2]
        rw [if_neg (by simp)]
        simp [h3]
      · rw [e]
        rintro ⟨h4, h5⟩
        have : l = [] := List.length_eq_zero_iff.mp (by omega)
        subst this
        simp [natVal] at h3
        omega

theorem parseLength_ok {bs w w' rest : Bytes} {l : Length}
    (h : (parseLength (σ := Bytes)).run bs w = (.ok l, rest, w')) :
    (l = .indefinite ∧ bs = indefOctets ++ rest ∧ w' = w ++ indefOctets) ∨
    ∃ n, n < 2 ^ 64 ∧ l = .definite n ∧ bs = lenOctets n ++ rest ∧ w' = w ++ lenOctets n := by
  cases bs with
  | nil => rw [parseLength_nil] at h; simp at h
  | cons f r =>
    rcases Nat.lt_trichotomy f.toNat 128 with hf | hf | hf
    · rw [parseLength_short _ _ _ hf] at h
      simp only [Prod.mk.injEq, Res.ok.injEq] at h
      obtain ⟨rfl, rfl, rfl⟩ := h
      right
      refine ⟨f.toNat, by omega, rfl, ?_⟩
      simp [lenOctets, if_pos hf]
    · have : f = 0x80 := u8_ext (by simpa using hf)
      subst this
      rw [parseLength_indef] at h
      simp only [Prod.mk.injEq, Res.ok.injEq] at h
      obtain ⟨rfl, rfl, rfl⟩ := h
      left; simp [indefOctets]
    · cases r with
      | nil => rw [parseLength_long_nil _ _ hf] at h; simp at h
      | cons s r =>
        by_cases hs : s.toNat = 0
        · rw [parseLength_long_zero _ _ _ _ hf hs] at h; simp at h
        by_cases hs' : f.toNat = 129 ∧ s.toNat < 128
        · rw [parseLength_long_one _ _ _ _ hs'.1 hs hs'.2] at h; simp at h
        by_cases hf' : f.toNat ≤ 136
        · rw [parseLength_long _ _ _ _ hf hf' hs hs'] at h
          split at h
          · simp at h
          · rename_i hr
            simp only [Prod.mk.injEq, Res.ok.injEq] at h
            obtain ⟨rfl, rfl, rfl⟩ := h
            right
            have hl : (r.take (f.toNat - 129)).length = f.toNat - 129 := by simp; omega
            have e := lenOctets_long (f := f) (l := r.take (f.toNat - 129)) hs (by
              rintro ⟨h5, h6⟩; apply hs'; rw [h5] at hl; simp at hl; omega) (by omega)
            refine ⟨_, ?_, rfl, ?_, ?_⟩
            · have := natVal_lt (s :: r.take (f.toNat - 129))
              simp only [List.length_cons, hl] at this
              calc _ < _ := this
                _ ≤ 256 ^ 8 := Nat.pow_le_pow_right (by norm_num) (by omega)
                _ = 2 ^ 64 := by norm_num
            · rw [e]; simp
            · rw [e]
        · rw [parseLength_long_over _ _ _ _ (by omega) hs] at h; simp at h

/-! ### `parseLengthUnchecked` -/

theorem parseLengthUnchecked_lenOctets {n : Nat} (h : n < 2 ^ 64) (rest : Bytes) :
    parseLengthUnchecked (lenOctets n ++ rest) = .ok (.definite n, rest) := by
  by_cases hn : n < 128
  · have e : (UInt8.ofNat n).toNat = n := toNat_ofNat_of_lt (by omega)
    simp only [lenOctets, if_pos hn, List.cons_append, List.nil_append]
    have h1 : ¬ UInt8.ofNat n = Length.INDEFINITE := by rw [u8_eq_indefinite]; omega
    have h2 := (u8_long_flag (UInt8.ofNat n)).mpr (by omega)
    simp only [parseLengthUnchecked, getAt, sliceFrom, List.getElem?_cons_zero, Res.bind_ok, if_neg h1,
      if_pos h2, e]
    simp
  · have hl := natOctets_length_usize h
    have hne := natOctets_ne_nil (show n ≠ 0 by omega)
    have h3 := natOctets_natVal n
    simp only [lenOctets, if_neg hn]
    have e : (UInt8.ofNat (128 + (natOctets n).length)).toNat = 128 + (natOctets n).length :=
      toNat_ofNat_of_lt (by omega)
    have hpos : 0 < (natOctets n).length := List.length_pos_iff.mpr hne
    generalize natOctets n = l at *
    generalize UInt8.ofNat (128 + l.length) = f at *
    have h1 : ¬ f = Length.INDEFINITE := by rw [u8_eq_indefinite]; omega
    have h2 : ¬ (f &&& Length.LONG_FLAG ≠ Length.LONG_FLAG) := by rw [u8_long_flag]; omega
    have h4 : (f &&& ~~~ Length.LONG_FLAG).toNat = l.length := by
      rw [u8_and_not_flag]; omega
    have h5 : 1 ≤ (f :: (l ++ rest)).length := by simp
    have h6 : l.length ≤ (l ++ rest).length := by simp
    simp only [parseLengthUnchecked, getAt, sliceFrom, sliceTo, if_neg h1, if_neg h2, h4,
      List.cons_append, List.getElem?_cons_zero, Res.bind_ok, if_pos h5,
      List.drop_succ_cons, List.drop_zero, if_pos h6, List.take_left, List.drop_left]
    have : l.foldl (fun acc byte => (acc * 256) % usizeSize + byte.toNat) 0 = n := by
      have := foldl_lenStep l 0 8 hl (by norm_num) (by omega)
      change l.foldl lenStep 0 = n
      rw [this, h3]; omega
    simp [this]

theorem parseLengthUnchecked_indef (rest : Bytes) :
    parseLengthUnchecked (indefOctets ++ rest) = .ok (.indefinite, rest) := by
  simp [parseLengthUnchecked, getAt, sliceFrom, indefOctets, Length.INDEFINITE]

end Bsn1
