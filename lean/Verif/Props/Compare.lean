import Verif.Model.Compare
import Verif.Lemmas.Id
import Verif.Lemmas.Length
/-!
# C80, C81: comparison of identifiers; the stack buffer of length octets
-/

namespace Bsn1
open Spec

/-! ### The order of slices -/

theorem sliceCmp_eq_iff : ∀ a b : Bytes, sliceCmp a b = .eq ↔ a = b
  | [], [] => by simp [sliceCmp]
  | [], _ :: _ => by simp [sliceCmp]
  | _ :: _, [] => by simp [sliceCmp]
  | a :: x, b :: y => by
    have ih := sliceCmp_eq_iff x y
    rw [sliceCmp]
    split
    · rename_i h
      rw [Nat.compare_eq_eq] at h
      rw [ih, u8_ext h]; simp
    · rename_i o h
      have : a ≠ b := by rintro rfl; exact h (by simp)
      constructor
      · exact fun e => absurd e h
      · rintro e; cases e; exact absurd rfl this

theorem sliceCmp_swap : ∀ a b : Bytes, sliceCmp b a = (sliceCmp a b).swap
  | [], [] => rfl
  | [], _ :: _ => rfl
  | _ :: _, [] => rfl
  | a :: x, b :: y => by
    have ih := sliceCmp_swap x y
    rw [sliceCmp, sliceCmp, ← Nat.compare_swap a.toNat b.toNat]
    cases compare a.toNat b.toNat <;> simp [Ordering.swap, ih]

theorem sliceCmp_lt_trans : ∀ a b c : Bytes, sliceCmp a b = .lt → sliceCmp b c = .lt → sliceCmp a c = .lt
  | [], [], _ => by simp [sliceCmp]
  | [], _ :: _, [] => by simp [sliceCmp]
  | [], _ :: _, _ :: _ => by simp [sliceCmp]
  | _ :: _, [], _ => by simp [sliceCmp]
  | _ :: _, _ :: _, [] => by simp [sliceCmp]
  | a :: x, b :: y, c :: z => by
    have ih := sliceCmp_lt_trans x y z
    simp only [sliceCmp]
    intro h1 h2
    rcases h3 : compare a.toNat b.toNat with _ | _ | _ <;> rcases h4 : compare b.toNat c.toNat with _ | _ | _ <;>
      simp only [h3, h4] at h1 h2 <;> try (simp at h1; done)
    all_goals try (simp at h2; done)
    all_goals
      simp only [Nat.compare_eq_lt, Nat.compare_eq_eq] at h3 h4
    · rw [Nat.compare_eq_lt.2 (by omega)]
    · rw [Nat.compare_eq_lt.2 (by omega)]
    · rw [Nat.compare_eq_lt.2 (by omega)]
    · rw [Nat.compare_eq_eq.2 (by omega)]
      exact ih h1 h2

/-! ### C80 -/

/-- **C80.** Identifiers are equal iff they have the same class, flag and number. -/
theorem C80_id_eq_iff (c c' : ClassTag) (p p' : PCTag) (n n' : Nat) :
    IdRef.eq (idOctets (classNum c) (pcNum p) n) (idOctets (classNum c') (pcNum p') n') = true ↔ c = c' ∧ p = p' ∧ n = n' := by
  rw [IdRef.eq, beq_iff_eq]
  constructor
  · intro h
    obtain ⟨h1, h2, h3⟩ := idOctets_inj (classNum_lt c) (pcNum_lt p) (classNum_lt c') (pcNum_lt p') h
    exact ⟨classNum_inj h1, pcNum_inj h2, h3⟩
  · rintro ⟨rfl, rfl, rfl⟩; rfl

example : IdRef.eq (idOctets (classNum .priv) (pcNum .primitive) 300) (idOctets (classNum .priv) (pcNum .primitive) 300) = true ∧
    ¬ IdRef.eq (idOctets (classNum .priv) (pcNum .primitive) 300) (idOctets (classNum .priv) (pcNum .constructed) 300) = true :=
  ⟨(C80_id_eq_iff _ _ _ _ _ _).2 ⟨rfl, rfl, rfl⟩, fun h => by simpa using (C80_id_eq_iff _ _ _ _ _ _).1 h⟩

/-- **C80.** The order is total and agrees with the equality: the laws of `Ord`, which `BTreeMap` and sorting need. -/
theorem C80_id_order_laws (a b c : Bytes) :
    IdRef.partialCmp a b = some (IdRef.cmp a b) ∧
    (IdRef.cmp a b = .eq ↔ IdRef.eq a b = true) ∧
    IdRef.cmp b a = (IdRef.cmp a b).swap ∧
    (IdRef.cmp a b = .lt → IdRef.cmp b c = .lt → IdRef.cmp a c = .lt) :=
  ⟨rfl, by rw [IdRef.eq, beq_iff_eq]; exact sliceCmp_eq_iff a b, sliceCmp_swap a b, sliceCmp_lt_trans a b c⟩

example : IdRef.cmp [0x1f, 0x81, 0x00] [0x04] = .gt ∧ IdRef.cmp [0x04] [0x1f, 0x81, 0x00] = .lt := by decide +kernel

/-- The order of X.680 8.6 refined by the flag: class, then flag, then number. -/
def tagOrder (c p n c' p' n' : Nat) : Ordering := (compare c c').then ((compare p p').then (compare n n'))

theorem sliceCmp_cont : ∀ a b : Bytes, IsCont a → IsCont b → a.length = b.length → sliceCmp a b = compare (contVal a) (contVal b)
  | [], _ => fun h => absurd h (by simp [IsCont])
  | _ :: _, [] => fun _ h => absurd h (by simp [IsCont])
  | [a], [b] => fun h1 h2 _ => by
    simp only [IsCont] at h1 h2
    rw [contVal_cons, contVal_cons, contVal_nil, Nat.mod_eq_of_lt h1, Nat.mod_eq_of_lt h2]
    simp only [sliceCmp, List.length_nil, pow_zero, mul_one, add_zero]
    split
    · rename_i h; exact h.symm
    · rfl
  | [_], _ :: _ :: _ => fun _ _ h => by simp at h
  | _ :: _ :: _, [_] => fun _ _ h => by simp at h
  | a :: x :: r, b :: y :: s => fun h1 h2 hl => by
    rw [isCont_cons_cons] at h1 h2
    have ih := sliceCmp_cont (x :: r) (y :: s) h1.2 h2.2 (by simpa using hl)
    have l1 := contVal_lt (x :: r)
    have l2 := contVal_lt (y :: s)
    have ha := u8_lt a
    have hb := u8_lt b
    have hl' : (x :: r).length = (y :: s).length := by simpa using hl
    rw [sliceCmp, contVal_cons a, contVal_cons b, ih]
    rw [hl'] at l1 ⊢
    generalize contVal (x :: r) = u at *
    generalize contVal (y :: s) = v at *
    generalize 128 ^ (y :: s).length = k at *
    have ea : a.toNat % 128 = a.toNat - 128 := by omega
    have eb : b.toNat % 128 = b.toNat - 128 := by omega
    rw [ea, eb]
    rcases h3 : compare a.toNat b.toNat with _ | _ | _
    · rw [Nat.compare_eq_lt] at h3
      have : (a.toNat - 128 + 1) * k ≤ (b.toNat - 128) * k := Nat.mul_le_mul_right k (by omega)
      rw [Nat.add_mul] at this
      exact (Nat.compare_eq_lt.2 (by omega)).symm
    · rw [Nat.compare_eq_eq] at h3
      simp only [h3]
      rcases h4 : compare u v with _ | _ | _
      · rw [Nat.compare_eq_lt] at h4; exact (Nat.compare_eq_lt.2 (by omega)).symm
      · rw [Nat.compare_eq_eq] at h4; exact (Nat.compare_eq_eq.2 (by omega)).symm
      · rw [Nat.compare_eq_gt] at h4; exact (Nat.compare_eq_gt.2 (by omega)).symm
    · rw [Nat.compare_eq_gt] at h3
      have : (b.toNat - 128 + 1) * k ≤ (a.toNat - 128) * k := Nat.mul_le_mul_right k (by omega)
      rw [Nat.add_mul] at this
      exact (Nat.compare_eq_gt.2 (by omega)).symm

theorem cont_short {n : Nat} (h0 : n ≠ 0) (h : n < 128) : contOctets (baseDigits 128 n) = [UInt8.ofNat n] := by
  rw [baseDigits, Nat.digits_of_lt 128 n h0 h]
  rfl

theorem cont_long {n : Nat} (h : 128 ≤ n) : ∃ o r, contOctets (baseDigits 128 n) = o :: r ∧ 128 ≤ o.toNat := by
  have h1 := isCont_contOctets (baseDigits 128 n) (baseDigits_lt (by norm_num)) (baseDigits_ne_nil (by omega))
  have h2 := contVal_contOctets n
  generalize contOctets (baseDigits 128 n) = l at *
  match l with
  | [] => simp [IsCont] at h1
  | [b] =>
    simp only [IsCont] at h1
    rw [contVal_cons, contVal_nil] at h2
    simp at h2
    omega
  | b :: c :: r =>
    rw [isCont_cons_cons] at h1
    exact ⟨b, c :: r, rfl, h1.1⟩

theorem compare_first {c p k c' p' k' : Nat} (hp : p < 2) (hp' : p' < 2) (hk : k < 32) (hk' : k' < 32) :
    compare (64 * c + 32 * p + k) (64 * c' + 32 * p' + k') = tagOrder c p k c' p' k' := by
  unfold tagOrder
  rcases h1 : compare c c' with _ | _ | _
  · rw [Nat.compare_eq_lt] at h1; exact Nat.compare_eq_lt.2 (by omega)
  · rw [Nat.compare_eq_eq] at h1
    rcases h2 : compare p p' with _ | _ | _
    · rw [Nat.compare_eq_lt] at h2; exact Nat.compare_eq_lt.2 (by omega)
    · rw [Nat.compare_eq_eq] at h2
      rcases h3 : compare k k' with _ | _ | _
      · rw [Nat.compare_eq_lt] at h3; exact Nat.compare_eq_lt.2 (by omega)
      · rw [Nat.compare_eq_eq] at h3; exact Nat.compare_eq_eq.2 (by omega)
      · rw [Nat.compare_eq_gt] at h3; exact Nat.compare_eq_gt.2 (by omega)
    · rw [Nat.compare_eq_gt] at h2; exact Nat.compare_eq_gt.2 (by omega)
  · rw [Nat.compare_eq_gt] at h1; exact Nat.compare_eq_gt.2 (by omega)

theorem tagOrder_then (c p n c' p' n' : Nat) (k k' : Nat) (o : Ordering) (h : compare n n' = (compare k k').then o) :
    tagOrder c p n c' p' n' = (tagOrder c p k c' p' k').then o := by
  unfold tagOrder
  rw [h]
  cases compare c c' <;> cases compare p p' <;> rfl

theorem sliceCmp_cons (a b : UInt8) (x y : Bytes) : sliceCmp (a :: x) (b :: y) = (compare a.toNat b.toNat).then (sliceCmp x y) := by
  rw [sliceCmp]
  cases compare a.toNat b.toNat <;> rfl

theorem sliceCmp_idOctets {c p n c' p' n' : Nat} (hc : c < 4) (hp : p < 2) (hc' : c' < 4) (hp' : p' < 2)
    (h : (idOctets c p n).length = (idOctets c' p' n').length ∨ n < 128 ∨ n' < 128) :
    sliceCmp (idOctets c p n) (idOctets c' p' n') = tagOrder c p n c' p' n' := by
  have key : ∃ (k k' : Nat) (x y : Bytes), k < 32 ∧ k' < 32 ∧ idOctets c p n = UInt8.ofNat (64 * c + 32 * p + k) :: x ∧
      idOctets c' p' n' = UInt8.ofNat (64 * c' + 32 * p' + k') :: y ∧ compare n n' = (compare k k').then (sliceCmp x y) := by
    by_cases h1 : n < 31 <;> by_cases h2 : n' < 31
    · refine ⟨n, n', [], [], by omega, by omega, by rw [idOctets, if_pos h1], by rw [idOctets, if_pos h2], ?_⟩
      rw [sliceCmp]; cases compare n n' <;> rfl
    · refine ⟨n, 31, [], _, by omega, by omega, by rw [idOctets, if_pos h1], by rw [idOctets, if_neg h2], ?_⟩
      rw [Nat.compare_eq_lt.2 (show n < 31 from h1), Nat.compare_eq_lt.2 (show n < n' by omega)]; rfl
    · refine ⟨31, n', _, [], by omega, by omega, by rw [idOctets, if_neg h1], by rw [idOctets, if_pos h2], ?_⟩
      rw [Nat.compare_eq_gt.2 (show n' < 31 from h2), Nat.compare_eq_gt.2 (show n' < n by omega)]; rfl
    · refine ⟨31, 31, _, _, by omega, by omega, by rw [idOctets, if_neg h1], by rw [idOctets, if_neg h2], ?_⟩
      rw [Nat.compare_eq_eq.2 rfl, Ordering.then]
      have len : ∀ {c p n : Nat}, ¬ n < 31 → (idOctets c p n).length = (contOctets (baseDigits 128 n)).length + 1 := by
        intro c p n hn; rw [idOctets, if_neg hn]; rfl
      rw [len h1, len h2] at h
      have g1 := isCont_contOctets (baseDigits 128 n) (baseDigits_lt (by norm_num)) (baseDigits_ne_nil (by omega))
      have g2 := isCont_contOctets (baseDigits 128 n') (baseDigits_lt (by norm_num)) (baseDigits_ne_nil (by omega))
      have same : (contOctets (baseDigits 128 n)).length = (contOctets (baseDigits 128 n')).length →
          compare n n' = sliceCmp (contOctets (baseDigits 128 n)) (contOctets (baseDigits 128 n')) := by
        intro hl
        rw [sliceCmp_cont _ _ g1 g2 hl, contVal_contOctets, contVal_contOctets]
      by_cases h3 : n < 128 <;> by_cases h4 : n' < 128
      · apply same; rw [cont_short (by omega) h3, cont_short (by omega) h4]; rfl
      · obtain ⟨o, r, e, ho⟩ := cont_long (show 128 ≤ n' by omega)
        rw [cont_short (by omega) h3, e, sliceCmp_cons, toNat_ofNat_of_lt (by omega), Nat.compare_eq_lt.2 (show n < o.toNat by omega),
          Nat.compare_eq_lt.2 (show n < n' by omega)]; rfl
      · obtain ⟨o, r, e, ho⟩ := cont_long (show 128 ≤ n by omega)
        rw [cont_short (by omega) h4, e, sliceCmp_cons, toNat_ofNat_of_lt (by omega), Nat.compare_eq_gt.2 (show n' < o.toNat by omega),
          Nat.compare_eq_gt.2 (show n' < n by omega)]; rfl
      · exact same (by omega)
  obtain ⟨k, k', x, y, hk, hk', e1, e2, e3⟩ := key
  rw [e1, e2, sliceCmp_cons, toNat_ofNat_of_lt (by omega), toNat_ofNat_of_lt (by omega), compare_first hp hp' hk hk',
    tagOrder_then c p n c' p' n' k k' _ e3]

/-- **C80.** Identifiers with the same number of octets, or one of which has a number below 128, are ordered by class, then
primitive/constructed flag, then number.  (Partial: others are not, see `C80_id_order_violated`.) -/
theorem C80_id_order_partial (c c' : ClassTag) (p p' : PCTag) (n n' : Nat)
    (h : (idOctets (classNum c) (pcNum p) n).length = (idOctets (classNum c') (pcNum p') n').length ∨ n < 128 ∨ n' < 128) :
    IdRef.cmp (idOctets (classNum c) (pcNum p) n) (idOctets (classNum c') (pcNum p') n') =
      tagOrder (classNum c) (pcNum p) n (classNum c') (pcNum p') n' :=
  sliceCmp_idOctets (classNum_lt c) (pcNum_lt p) (classNum_lt c') (pcNum_lt p') h

/-- Numbers 200 and 16000, three octets each; and 5 against 2^100. -/
example : IdRef.cmp (idOctets 0 0 200) (idOctets 0 0 16000) = .lt ∧ (idOctets 0 0 200).length = 3 ∧ (idOctets 0 0 16000).length = 3 ∧
    IdRef.cmp (idOctets 2 0 5) (idOctets 1 1 (2 ^ 100)) = .gt := by
  decide +kernel

/-- **C80, violated.** The order of identifiers is not that of their numbers: 16383 comes after 16384, though `Id::new` makes both. -/
theorem C80_id_order_violated :
    ∃ a b, Id.new 0 .universal .primitive 16383 = .ok a ∧ Id.new 0 .universal .primitive 16384 = .ok b ∧
      IdRef.number a = .ok 16383 ∧ IdRef.number b = .ok 16384 ∧ IdRef.cmp a b = .gt := by
  refine ⟨[0x1f, 0xff, 0x7f], [0x1f, 0x81, 0x80, 0x00], ?_⟩
  decide +kernel

/-- A number with fewer digits (base 128) against one with more: it comes first exactly if, without its last digit, it is not greater than as
many leading digits of the other. -/
theorem sliceCmp_cont_shorter : ∀ a b : Bytes, IsCont a → IsCont b → a.length < b.length →
    sliceCmp a b = if contVal a / 128 ≤ contVal b / 128 ^ (b.length - a.length + 1) then .lt else .gt
  | [], _ => fun h => absurd h (by simp [IsCont])
  | _ :: _, [] => fun _ h => absurd h (by simp [IsCont])
  | _ :: _, [_] => fun _ _ h => by simp at h
  | [a], b :: y :: s => fun h1 h2 _ => by
    simp only [IsCont] at h1
    rw [isCont_cons_cons] at h2
    have e : contVal [a] / 128 = 0 := by
      rw [contVal_cons, contVal_nil]; simp
    rw [e, if_pos (Nat.zero_le _), sliceCmp_cons, Nat.compare_eq_lt.2 (by omega)]
    rfl
  | a :: x :: r, b :: y :: s => fun h1 h2 hl => by
    rw [isCont_cons_cons] at h1 h2
    have hl' : (x :: r).length < (y :: s).length := by simpa using hl
    have ih := sliceCmp_cont_shorter (x :: r) (y :: s) h1.2 h2.2 hl'
    have l1 := contVal_lt (x :: r)
    have l2 := contVal_lt (y :: s)
    have ha := u8_lt a
    have hb := u8_lt b
    have ea : a.toNat % 128 = a.toNat - 128 := by omega
    have eb : b.toNat % 128 = b.toNat - 128 := by omega
    have hsub : (b :: y :: s).length - (a :: x :: r).length = (y :: s).length - (x :: r).length := by simp
    rw [sliceCmp_cons, contVal_cons a, contVal_cons b, ih, hsub, ea, eb]
    obtain ⟨k, hk⟩ : ∃ k, (y :: s).length = (x :: r).length + k + 1 := ⟨(y :: s).length - (x :: r).length - 1, by omega⟩
    have hk' : (y :: s).length - (x :: r).length + 1 = k + 2 := by omega
    rw [hk'] 
    have hx : (x :: r).length = r.length + 1 := rfl
    rw [hk, hx] at l2 ⊢
    rw [hx] at l1
    generalize contVal (x :: r) = u at *
    generalize contVal (y :: s) = v at *
    have p1 : 128 ^ (r.length + 1) = 128 ^ r.length * 128 := pow_succ _ _
    have p2 : 128 ^ (r.length + 1 + k + 1) = 128 ^ r.length * 128 ^ (k + 2) := by rw [← pow_add]; congr 1; omega
    have hpk : 0 < 128 ^ (k + 2) := by positivity
    rw [p1] at l1 ⊢
    rw [p2] at l2 ⊢
    rw [← Nat.mul_assoc, ← Nat.mul_assoc, Nat.mul_comm _ 128, Nat.mul_comm _ (128 ^ (k + 2)),
      Nat.mul_add_div (by norm_num), Nat.mul_add_div hpk]
    have q1 : u / 128 < 128 ^ r.length := Nat.div_lt_of_lt_mul (by rw [Nat.mul_comm]; exact l1)
    have q2 : v / 128 ^ (k + 2) < 128 ^ r.length := Nat.div_lt_of_lt_mul (by rw [Nat.mul_comm]; exact l2)
    generalize u / 128 = u' at *
    generalize v / 128 ^ (k + 2) = v' at *
    generalize 128 ^ r.length = t at *
    rcases h3 : compare a.toNat b.toNat with _ | _ | _
    · rw [Nat.compare_eq_lt] at h3
      have : (a.toNat - 128 + 1) * t ≤ (b.toNat - 128) * t := Nat.mul_le_mul_right t (by omega)
      rw [Nat.add_mul] at this
      exact (if_pos (by omega)).symm
    · rw [Nat.compare_eq_eq] at h3
      rw [h3]
      simp only [Nat.add_le_add_iff_left]
      rfl
    · rw [Nat.compare_eq_gt] at h3
      have : (b.toNat - 128 + 1) * t ≤ (a.toNat - 128) * t := Nat.mul_le_mul_right t (by omega)
      rw [Nat.add_mul] at this
      exact (if_neg (by omega)).symm

/-- How tag numbers are ordered by their octets, in terms of the numbers: as numbers if both have the same count of digits in base 128 or one has
a single digit; otherwise the shorter one, without its last digit, is compared with as many leading digits of the longer one, and comes first
unless it is greater. -/
def numberOrder (n n' : Nat) : Ordering :=
  let d := (Nat.digits 128 n).length
  let d' := (Nat.digits 128 n').length
  if n < 128 ∨ n' < 128 ∨ d = d' then compare n n'
  else if d < d' then (if n / 128 ≤ n' / 128 ^ (d' - d + 1) then .lt else .gt)
  else (if n' / 128 ≤ n / 128 ^ (d - d' + 1) then .gt else .lt)

theorem contOctets_length : ∀ ds : List Nat, (contOctets ds).length = ds.length
  | [] => rfl
  | [_] => rfl
  | d :: e :: r => by rw [contOctets, List.length_cons, contOctets_length (e :: r)]; rfl; simp

theorem cont_digits (n : Nat) : (contOctets (baseDigits 128 n)).length = (Nat.digits 128 n).length := by
  rw [contOctets_length, baseDigits, List.length_reverse]

/-- **C80, exactly.** The order of any two identifiers. -/
theorem C80_id_order_exact (c c' : ClassTag) (p p' : PCTag) (n n' : Nat) :
    IdRef.cmp (idOctets (classNum c) (pcNum p) n) (idOctets (classNum c') (pcNum p') n') =
      (compare (classNum c) (classNum c')).then ((compare (pcNum p) (pcNum p')).then (numberOrder n n')) := by
  by_cases h : n < 128 ∨ n' < 128 ∨ (Nat.digits 128 n).length = (Nat.digits 128 n').length
  · rw [numberOrder, if_pos h]
    refine C80_id_order_partial c c' p p' n n' ?_
    by_cases h' : n < 128 ∨ n' < 128
    · exact .inr h'
    · refine .inl ?_
      rw [idOctets, idOctets, if_neg (by omega), if_neg (by omega), List.length_cons, List.length_cons, cont_digits, cont_digits]
      omega
  · have g1 := isCont_contOctets (baseDigits 128 n) (baseDigits_lt (by norm_num)) (baseDigits_ne_nil (by omega))
    have g2 := isCont_contOctets (baseDigits 128 n') (baseDigits_lt (by norm_num)) (baseDigits_ne_nil (by omega))
    have key : sliceCmp (contOctets (baseDigits 128 n)) (contOctets (baseDigits 128 n')) = numberOrder n n' := by
      rw [numberOrder, if_neg h]
      by_cases hlt : (Nat.digits 128 n).length < (Nat.digits 128 n').length
      · rw [if_pos hlt, sliceCmp_cont_shorter _ _ g1 g2 (by rw [cont_digits, cont_digits]; exact hlt), contVal_contOctets, contVal_contOctets,
          cont_digits, cont_digits]
      · rw [if_neg hlt, sliceCmp_swap (contOctets (baseDigits 128 n')),
          sliceCmp_cont_shorter _ _ g2 g1 (by rw [cont_digits, cont_digits]; omega), contVal_contOctets, contVal_contOctets,
          cont_digits, cont_digits]
        split <;> rfl
    have e : ∀ {c p n : Nat}, 128 ≤ n → idOctets c p n = UInt8.ofNat (64 * c + 32 * p + 31) :: contOctets (baseDigits 128 n) :=
      fun hn => by rw [idOctets, if_neg (by omega)]
    have b1 := classNum_lt c
    have b2 := classNum_lt c'
    have b3 := pcNum_lt p
    have b4 := pcNum_lt p'
    rw [e (by omega), e (by omega)]
    change sliceCmp _ _ = _
    rw [sliceCmp_cons, toNat_ofNat_of_lt (by omega), toNat_ofNat_of_lt (by omega), compare_first b3 b4 (by decide) (by decide), key, tagOrder,
      Nat.compare_eq_eq.2 rfl]
    cases compare (classNum c) (classNum c') <;> cases compare (pcNum p) (pcNum p') <;> rfl

/-- 16383 is after 16384 and before 2^20; 200 is after 128 * 128 and before 255 * 128. -/
example : numberOrder 16383 16384 = .gt ∧ numberOrder 16383 (2 ^ 20) = .gt ∧ numberOrder 130 (2 ^ 14) = .lt ∧ numberOrder 300 (2 ^ 14) = .gt := by
  decide +kernel

/-! ### C81 -/

theorem copyAt_new (b : UInt8) (src : Bytes) (h : src.length ≤ 8) :
    LengthBuffer.copyAt ⟨b :: List.replicate 8 0, UInt8.ofNat (src.length + 1)⟩ 1 src =
      .ok ⟨b :: src ++ List.replicate (8 - src.length) 0, UInt8.ofNat (src.length + 1)⟩ := by
  rw [LengthBuffer.copyAt, if_pos (by simp; omega)]
  congr 2
  have e : (b :: List.replicate 8 (0 : UInt8)).drop (1 + src.length) = List.replicate (8 - src.length) 0 := by
    rw [Nat.add_comm, List.drop_succ_cons, List.drop_replicate]
  rw [e]
  rfl

/-- **C81.** `Length::to_bytes` with its stack buffer: every write is within the array and every assertion holds, for every length and
build; the octets are the shortest encoding. -/
theorem C81_to_bytes_in_buffer (m : Build) (n : Nat) (h : n < 2 ^ 64) :
    Length.toBytesIn m .indefinite = .ok indefOctets ∧ Length.toBytesIn m (.definite n) = .ok (lenOctets n) := by
  constructor
  · cases m <;> decide +kernel
  · have hb := toBytes_definite h
    rw [← hb]
    simp only [Length.toBytes, Length.toBytesIn]
    by_cases hn : n ≤ Length.MAX_SHORT.toNat
    · rw [if_pos hn, if_pos hn]
      cases m <;> rfl
    · rw [if_neg hn, if_neg hn]
      have e : (8 * 8 - leadingZeros 64 n + 8 - 1) / 8 = (natOctets n).length := by
        rw [max_short_toNat] at hn
        rw [← byteLen_spec h (by omega)]; omega
      have hl := natOctets_length_usize h
      rw [e, bufferCapacity_eq, if_neg (by omega)]
      generalize (natOctets n).length = k at *
      have hlen : (toBeBytes 8 n).length = 8 := by
        have : ∀ w v, (toBeBytes w v).length = w := by
          intro w v; induction w with
          | zero => rfl
          | succ w ih => simp [toBeBytes, ih]
        exact this 8 n
      have e1 : LengthBuffer.new.setLen m (k + 1) = .ok ⟨0 :: List.replicate 8 0, UInt8.ofNat (k + 1)⟩ := by
        rw [LengthBuffer.setLen, if_neg (by rw [LengthBuffer.capacity, bufferCapacity_eq]; omega), LengthBuffer.new, bufferCapacity_eq]
        rfl
      have hk : (UInt8.ofNat (k + 1)).toNat = k + 1 := toNat_ofNat_of_lt (by omega)
      rw [e1]
      simp only [bind, Res.bind]
      rw [LengthBuffer.set, if_neg (by simp only [LengthBuffer.len, hk]; simp; omega), if_neg (by simp only [LengthBuffer.len, hk]; simp)]
      simp only [List.set_cons_zero]
      rw [if_pos hl, List.take_of_length_le (by simp [hlen]; omega)]
      have hsrc : ((toBeBytes 8 n).drop (8 - k)).length = k := by rw [List.length_drop, hlen]; omega
      generalize (toBeBytes 8 n).drop (8 - k) = src at *
      subst hsrc
      rw [copyAt_new _ _ hl]
      simp only
      rw [LengthBuffer.deref, if_pos (by simp only [LengthBuffer.len, hk]; simp)]
      simp only [LengthBuffer.len, hk, List.cons_append, List.take_succ_cons]
      simp

example : Length.toBytesIn .debug (.definite (2 ^ 64 - 1)) = .ok [0x88, 0xff, 0xff, 0xff, 0xff, 0xff, 0xff, 0xff, 0xff] ∧
    Length.toBytesIn .debug (.definite 128) = .ok [0x81, 0x80] := by
  decide +kernel

end Bsn1
