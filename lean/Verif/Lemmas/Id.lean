import Verif.Lemmas.Basic
import Verif.Lemmas.Monad
import Verif.Spec.Tags
/-!
# Lemmas on identifiers
-/

set_option linter.unusedSimpArgs false

namespace Bsn1
open Spec

/-! ### Base-b digits -/

/-- `k` digits, most significant first. -/
def kDigits (b : Nat) : Nat → Nat → List Nat
  | 0, _ => []
  | k + 1, n => kDigits b k (n / b) ++ [n % b]

theorem kDigits_length (b k n : Nat) : (kDigits b k n).length = k := by
  induction k generalizing n with
  | zero => rfl
  | succ k ih => simp [kDigits, ih]

theorem kDigits_lt {b : Nat} (hb : 0 < b) (k n : Nat) : ∀ d ∈ kDigits b k n, d < b := by
  induction k generalizing n with
  | zero => simp [kDigits]
  | succ k ih =>
    intro d hd
    simp only [kDigits, List.mem_append, List.mem_singleton] at hd
    rcases hd with hd | rfl
    · exact ih _ d hd
    · exact Nat.mod_lt _ hb

theorem baseDigits_succ {b n : Nat} (hb : 1 < b) (hn : n ≠ 0) :
    baseDigits b n = baseDigits b (n / b) ++ [n % b] := by
  rw [baseDigits, baseDigits, Nat.digits_def' hb (by omega)]
  simp

theorem kDigits_eq_baseDigits {b : Nat} (hb : 1 < b) (k n : Nat) (h : n < b ^ (k + 1)) (h' : b ^ k ≤ n) :
    kDigits b (k + 1) n = baseDigits b n := by
  have hb0 : 0 < b := by omega
  induction k generalizing n with
  | zero =>
    have hn : n ≠ 0 := by simp at h'; omega
    rw [baseDigits_succ hb hn, kDigits, kDigits]
    simp only [zero_add, pow_one] at h
    rw [Nat.div_eq_of_lt h]
    simp [baseDigits]
  | succ k ih =>
    have hn : n ≠ 0 := by
      have : 0 < b ^ (k + 1) := by positivity
      omega
    rw [baseDigits_succ hb hn, kDigits, ih]
    · rw [Nat.div_lt_iff_lt_mul hb0]; rwa [← pow_succ]
    · rw [Nat.le_div_iff_mul_le hb0]; rwa [← pow_succ]

theorem baseDigits_lt {b n : Nat} (hb : 1 < b) : ∀ d ∈ baseDigits b n, d < b := by
  intro d hd
  rw [baseDigits, List.mem_reverse] at hd
  exact Nat.digits_lt_base hb hd

theorem baseDigits_ne_nil {b n : Nat} (hn : n ≠ 0) : baseDigits b n ≠ [] := by
  rw [baseDigits, ne_eq, List.reverse_eq_nil_iff, Nat.digits_eq_nil_iff_eq_zero]
  exact hn

theorem baseDigits_head {b n : Nat} (hb : 1 < b) : ∀ d ∈ (baseDigits b n).head?, d ≠ 0 := by
  intro d hd
  by_cases hn : n = 0
  · subst hn; simp [baseDigits] at hd
  rw [baseDigits, List.head?_reverse] at hd
  have hne : Nat.digits b n ≠ [] := by
    rw [ne_eq, Nat.digits_eq_nil_iff_eq_zero]; exact hn
  rw [List.getLast?_eq_some_getLast hne] at hd
  simp only [Option.mem_def, Option.some.injEq] at hd
  subst hd
  exact Nat.getLast_digit_ne_zero b hn

theorem ofDigits_baseDigits (b n : Nat) : Nat.ofDigits b (baseDigits b n).reverse = n := by
  rw [baseDigits, List.reverse_reverse, Nat.ofDigits_digits]

theorem baseDigits_ofDigits {b : Nat} (hb : 1 < b) (l : List Nat) (h : ∀ d ∈ l, d < b)
    (h0 : ∀ d ∈ l.head?, d ≠ 0) : baseDigits b (Nat.ofDigits b l.reverse) = l := by
  rw [baseDigits, Nat.digits_ofDigits b hb]
  · simp
  · simpa using h
  · intro hne
    rw [List.getLast_reverse]
    apply h0
    rw [List.head?_eq_some_head]
    · simp
    · simpa using hne

/-! ### Octets with continuation bits -/

/-- All octets but the last one have the continuation bit. -/
def IsCont : List UInt8 → Prop
  | [] => False
  | [b] => b.toNat < 128
  | b :: r => 128 ≤ b.toNat ∧ IsCont r

theorem isCont_cons_cons (b c : UInt8) (r : List UInt8) :
    IsCont (b :: c :: r) ↔ 128 ≤ b.toNat ∧ IsCont (c :: r) := Iff.rfl

/-- The digits of octets with continuation bits. -/
def contDigits (l : List UInt8) : List Nat := l.map (fun b => b.toNat % 128)

theorem isCont_contOctets (ds : List Nat) (h : ∀ d ∈ ds, d < 128) (hne : ds ≠ []) :
    IsCont (contOctets ds) := by
  induction ds with
  | nil => simp at hne
  | cons d r ih =>
    have hd := h d (by simp)
    cases r with
    | nil =>
      simp only [contOctets, IsCont]
      rw [toNat_ofNat_of_lt (by omega)]; exact hd
    | cons e r =>
      have h1 := ih (fun x hx => h x (by simp only [List.mem_cons]; right; simpa using hx)) (by simp)
      simp only [contOctets]
      cases hc : contOctets (e :: r) with
      | nil => rw [hc] at h1; exact absurd h1 (by simp [IsCont])
      | cons x y =>
        rw [isCont_cons_cons, toNat_ofNat_of_lt (by omega)]
        rw [hc] at h1
        exact ⟨by omega, h1⟩

theorem contDigits_contOctets (ds : List Nat) (h : ∀ d ∈ ds, d < 128) : contDigits (contOctets ds) = ds := by
  induction ds with
  | nil => rfl
  | cons d r ih =>
    have hd := h d (by simp)
    have h1 := ih (fun x hx => h x (by simp [hx]))
    cases r with
    | nil =>
      simp only [contOctets, contDigits, List.map_cons, List.map_nil]
      rw [toNat_ofNat_of_lt (by omega)]
      congr 1; omega
    | cons e r =>
      simp only [contOctets]
      rw [contDigits, List.map_cons, toNat_ofNat_of_lt (by omega)]
      rw [contDigits] at h1
      rw [h1]
      congr 1; omega

theorem contOctets_contDigits (l : List UInt8) (h : IsCont l) : contOctets (contDigits l) = l := by
  induction l with
  | nil => rfl
  | cons b r ih =>
    have hb := u8_lt b
    cases r with
    | nil =>
      simp only [IsCont] at h
      simp only [contDigits, List.map_cons, List.map_nil, contOctets]
      rw [Nat.mod_eq_of_lt h, ofNat_toNat]
    | cons c r =>
      rw [isCont_cons_cons] at h
      have h1 := ih h.2
      simp only [contDigits, List.map_cons] at h1 ⊢
      rw [contOctets, h1]
      · congr 1
        apply u8_ext
        rw [toNat_ofNat_of_lt (by omega)]; omega
      · simp

theorem contDigits_lt (l : List UInt8) : ∀ d ∈ contDigits l, d < 128 := by
  intro d hd
  simp only [contDigits, List.mem_map] at hd
  obtain ⟨b, _, rfl⟩ := hd
  omega

/-- The number denoted by octets with continuation bits. -/
def contVal (l : List UInt8) : Nat := Nat.ofDigits 128 (contDigits l).reverse

theorem contVal_nil : contVal [] = 0 := rfl

theorem contVal_cons (b : UInt8) (r : List UInt8) :
    contVal (b :: r) = (b.toNat % 128) * 128 ^ r.length + contVal r := by
  simp only [contVal, contDigits, List.map_cons, List.reverse_cons, Nat.ofDigits_append,
    Nat.ofDigits_singleton, List.length_reverse, List.length_map]
  ring

theorem contVal_lt (l : List UInt8) : contVal l < 128 ^ l.length := by
  induction l with
  | nil => simp [contVal_nil]
  | cons b r ih =>
    rw [contVal_cons, List.length_cons, pow_succ]
    have : b.toNat % 128 ≤ 127 := by omega
    nlinarith [Nat.mul_le_mul_right (128 ^ r.length) this]

theorem contOctets_baseDigits_contVal {l : List UInt8} (h : IsCont l)
    (h0 : ∀ b ∈ l.head?, b.toNat % 128 ≠ 0) : contOctets (baseDigits 128 (contVal l)) = l := by
  rw [contVal, baseDigits_ofDigits (by norm_num) _ (contDigits_lt l), contOctets_contDigits l h]
  intro d hd
  rw [contDigits, List.head?_map] at hd
  simp only [Option.mem_def, Option.map_eq_some_iff] at hd
  obtain ⟨b, hb, rfl⟩ := hd
  exact h0 b hb

theorem contVal_contOctets (n : Nat) : contVal (contOctets (baseDigits 128 n)) = n := by
  rw [contVal, contDigits_contOctets _ (baseDigits_lt (by norm_num)), ofDigits_baseDigits]

theorem contOctets_append (ds : List Nat) (d : Nat) :
    contOctets (ds ++ [d]) = ds.map (fun x => UInt8.ofNat (128 + x)) ++ [UInt8.ofNat d] := by
  induction ds with
  | nil => rfl
  | cons e r ih =>
    simp only [List.cons_append, List.map_cons, ← ih]
    cases r <;> rfl

/-! ### The shape of identifiers -/

/-- Octet-level description of the accepted identifiers. -/
inductive IdShape : List UInt8 → Prop
  | short (b : UInt8) : b.toNat % 32 ≠ 31 → IdShape [b]
  | long (b o : UInt8) (r : List UInt8) : b.toNat % 32 = 31 → IsCont (o :: r) → 31 ≤ o.toNat →
      o.toNat ≠ 128 → IdShape (b :: o :: r)

theorem idOctets_shape (c p n : Nat) (hc : c < 4) (hp : p < 2) : IdShape (idOctets c p n) := by
  simp only [idOctets]
  by_cases hn : n < 31
  · rw [if_pos hn]
    apply IdShape.short
    rw [toNat_ofNat_of_lt (by omega)]; omega
  · rw [if_neg hn]
    have h1 := isCont_contOctets (baseDigits 128 n) (baseDigits_lt (by norm_num))
      (baseDigits_ne_nil (by omega))
    have h2 := contVal_contOctets n
    have h3 := contDigits_contOctets (baseDigits 128 n) (baseDigits_lt (by norm_num))
    have h4 := baseDigits_head (b := 128) (n := n) (by norm_num)
    generalize contOctets (baseDigits 128 n) = l at *
    cases l with
    | nil => simp [IsCont] at h1
    | cons o r =>
      have h5 : o.toNat % 128 ≠ 0 := by
        apply h4
        rw [← h3]
        simp [contDigits]
      apply IdShape.long
      · rw [toNat_ofNat_of_lt (by omega)]; omega
      · exact h1
      · cases r with
        | nil =>
          simp only [IsCont] at h1
          rw [contVal_cons, contVal_nil] at h2
          simp at h2; omega
        | cons x y =>
          rw [isCont_cons_cons] at h1
          omega
      · intro h; rw [h] at h5; simp at h5

/-- The number of an identifier given by its octets. -/
def idNum : List UInt8 → Nat
  | [] => 0
  | [b] => b.toNat % 32
  | _ :: r => contVal r

theorem IdShape.eq_idOctets {l : List UInt8} (h : IdShape l) (b : UInt8) (hb : l.head? = some b) :
    l = idOctets (b.toNat / 64) (b.toNat / 32 % 2) (idNum l) := by
  cases h with
  | short b' hb' =>
    simp only [List.head?_cons, Option.some.injEq] at hb
    subst hb
    have := u8_lt b'
    rw [idOctets, idNum, if_pos (by omega)]
    congr 1
    apply u8_ext
    rw [toNat_ofNat_of_lt (by omega)]; omega
  | long b' o r h1 h2 h3 h4 =>
    simp only [List.head?_cons, Option.some.injEq] at hb
    subst hb
    have := u8_lt b'
    have ho := u8_lt o
    have hd : o.toNat % 128 ≠ 0 := by
      omega
    have hv : ¬ contVal (o :: r) < 31 := by
      rw [contVal_cons]
      cases r with
      | nil => simp only [IsCont] at h2; simp [contVal_nil]; omega
      | cons x y =>
        have : 1 ≤ 128 ^ y.length := Nat.one_le_pow _ _ (by norm_num)
        simp only [List.length_cons, pow_succ]
        have : 1 ≤ o.toNat % 128 := by omega
        nlinarith [Nat.mul_le_mul this (show 128 ≤ 128 ^ y.length * 128 by omega)]
    rw [idOctets, idNum, if_neg hv, contOctets_baseDigits_contVal h2]
    · congr 1
      apply u8_ext
      rw [toNat_ofNat_of_lt (by omega)]; omega
    · simp only [List.head?_cons, Option.mem_def, Option.some.injEq, forall_eq']; exact hd
    · simp

theorem isId_iff_shape (l : List UInt8) : IsId l ↔ IdShape l := by
  constructor
  · rintro ⟨c, p, n, hc, hp, rfl⟩
    exact idOctets_shape c p n hc hp
  · intro h
    cases hl : l.head? with
    | none => cases h <;> simp at hl
    | some b =>
      have := u8_lt b
      exact ⟨_, _, _, by omega, by omega, h.eq_idOctets b hl⟩

theorem idNum_idOctets (c p n : Nat) (hc : c < 4) (hp : p < 2) : idNum (idOctets c p n) = n := by
  simp only [idOctets]
  by_cases hn : n < 31
  · rw [if_pos hn, idNum, toNat_ofNat_of_lt (by omega)]; omega
  · rw [if_neg hn]
    have hne : contOctets (baseDigits 128 n) ≠ [] := by
      intro h0
      have := contVal_contOctets n
      rw [h0, contVal_nil] at this; omega
    cases hl : contOctets (baseDigits 128 n) with
    | nil => exact absurd hl hne
    | cons x y => rw [idNum, ← hl, contVal_contOctets]; simp

theorem idOctets_ne_nil (c p n : Nat) : idOctets c p n ≠ [] := by
  simp only [idOctets]; split <;> simp

theorem idOctets_head (c p n : Nat) :
    (idOctets c p n).head? = some (UInt8.ofNat (64 * c + 32 * p + if n < 31 then n else 31)) := by
  simp only [idOctets]; split <;> simp

theorem idOctets_inj {c p n c' p' n' : Nat} (hc : c < 4) (hp : p < 2) (hc' : c' < 4) (hp' : p' < 2)
    (h : idOctets c p n = idOctets c' p' n') : c = c' ∧ p = p' ∧ n = n' := by
  have h1 := congrArg idNum h
  rw [idNum_idOctets _ _ _ hc hp, idNum_idOctets _ _ _ hc' hp'] at h1
  subst h1
  have h2 := congrArg List.head? h
  rw [idOctets_head, idOctets_head] at h2
  simp only [Option.some.injEq] at h2
  have h3 := congrArg UInt8.toNat h2
  by_cases hn : n < 31
  · simp only [if_pos hn] at h3
    rw [toNat_ofNat_of_lt (by omega), toNat_ofNat_of_lt (by omega)] at h3
    omega
  · simp only [if_neg hn] at h3
    rw [toNat_ofNat_of_lt (by omega), toNat_ofNat_of_lt (by omega)] at h3
    omega

theorem IsId.ne_nil {l : List UInt8} (h : IsId l) : l ≠ [] := by
  obtain ⟨c, p, n, _, _, rfl⟩ := h
  exact idOctets_ne_nil c p n

/-! ### Parsing on slices -/

theorem u8_id_long : ∀ b : UInt8, (b &&& IdRef.LONG_FLAG ≠ IdRef.LONG_FLAG) ↔ b.toNat % 32 ≠ 31 := by
  decide +kernel
theorem u8_more : ∀ b : UInt8, (b &&& IdRef.MORE_FLAG ≠ IdRef.MORE_FLAG) ↔ b.toNat < 128 := by
  decide +kernel
theorem u8_id_max_short : ∀ b : UInt8, b ≤ IdRef.MAX_SHORT ↔ b.toNat < 31 := by decide +kernel
theorem u8_eq_more : ∀ b : UInt8, b = IdRef.MORE_FLAG ↔ b.toNat = 128 := by decide +kernel
theorem u8_and_not_more : ∀ b : UInt8, (b &&& ~~~ IdRef.MORE_FLAG).toNat = b.toNat % 128 := by
  decide +kernel
theorem u8_and_long : ∀ b : UInt8, (b &&& IdRef.LONG_FLAG).toNat = b.toNat % 32 := by decide +kernel

theorem parseIdLoop_ok (f i : Nat) (o : UInt8) (r rest w : Bytes) (h : IsCont (o :: r))
    (hf : r.length < f) :
    (parseIdLoop (σ := Bytes) f o i).run (r ++ rest) w = (.ok (i + r.length), rest, w ++ o :: r) := by
  induction r generalizing f o i w with
  | nil =>
    obtain ⟨f, rfl⟩ : ∃ g, f = g + 1 := ⟨f - 1, by omega⟩
    simp only [IsCont] at h
    have h1 := (u8_more o).mpr h
    simp only [parseIdLoop, P.bind_def, writeU8_apply, P.ite_apply, if_pos h1, P.pure_apply]
    simp
  | cons x r ih =>
    obtain ⟨f, rfl⟩ : ∃ g, f = g + 1 := ⟨f - 1, by omega⟩
    rw [isCont_cons_cons] at h
    have h1 : ¬ (o &&& IdRef.MORE_FLAG ≠ IdRef.MORE_FLAG) := by rw [u8_more]; omega
    simp only [List.length_cons] at hf
    simp only [parseIdLoop, P.bind_def, writeU8_apply, P.ite_apply, if_neg h1, List.cons_append,
      readU8_cons]
    rw [ih _ _ _ _ h.2 (by omega)]
    simp only [List.length_cons, List.append_assoc, List.cons_append, List.nil_append]
    congr 2; omega

theorem parseIdLoop_cases (f i : Nat) (o : UInt8) (r w : Bytes) (hf : r.length < f) :
    (∃ l rest, r = l ++ rest ∧ IsCont (o :: l)) ∨
    (parseIdLoop (σ := Bytes) f o i).run r w = (.err .unterminatedBytes, [], w ++ o :: r) := by
  induction r generalizing f o i w with
  | nil =>
    obtain ⟨f, rfl⟩ : ∃ g, f = g + 1 := ⟨f - 1, by omega⟩
    by_cases ho : o.toNat < 128
    · left; exact ⟨[], [], rfl, ho⟩
    · right
      have h1 : ¬ (o &&& IdRef.MORE_FLAG ≠ IdRef.MORE_FLAG) := by rw [u8_more]; omega
      simp only [parseIdLoop, P.bind_def, writeU8_apply, P.ite_apply, if_neg h1, readU8_nil]
  | cons x r ih =>
    obtain ⟨f, rfl⟩ : ∃ g, f = g + 1 := ⟨f - 1, by omega⟩
    by_cases ho : o.toNat < 128
    · left; exact ⟨[], x :: r, rfl, ho⟩
    · simp only [List.length_cons] at hf
      rcases ih f (i + 1) x (w ++ [o]) (by omega) with ⟨l, rest, h1, h2⟩ | h1
      · left; refine ⟨x :: l, rest, by simp [h1], ?_⟩
        rw [isCont_cons_cons]; exact ⟨by omega, h2⟩
      · right
        have h2 : ¬ (o &&& IdRef.MORE_FLAG ≠ IdRef.MORE_FLAG) := by rw [u8_more]; omega
        simp only [parseIdLoop, P.bind_def, writeU8_apply, P.ite_apply, if_neg h2, readU8_cons, h1]
        simp

theorem parseId_shape {l : Bytes} (h : IdShape l) (rest w : Bytes) :
    (parseId (σ := Bytes)).run (l ++ rest) w = (.ok l.length, rest, w ++ l) := by
  cases h with
  | short b hb =>
    have h1 := (u8_id_long b).mpr hb
    simp only [parseId, List.cons_append, List.nil_append, P.bind_def, readU8_cons, writeU8_apply,
      P.ite_apply, if_pos h1, P.pure_apply]
    rfl
  | long b o r h1 h2 h3 h4 =>
    have e1 : ¬ (b &&& IdRef.LONG_FLAG ≠ IdRef.LONG_FLAG) := by rw [u8_id_long]; omega
    have e2 : ¬ o ≤ IdRef.MAX_SHORT := by rw [u8_id_max_short]; omega
    have e3 : ¬ o = IdRef.MORE_FLAG := by rw [u8_eq_more]; exact h4
    simp only [parseId, List.cons_append, P.bind_def, readU8_cons, writeU8_apply,
      P.ite_apply, if_neg e1, if_neg e2, if_neg e3]
    rw [parseIdLoop_ok _ _ _ _ _ _ h2 (by simp)]
    simp only [List.append_assoc, List.cons_append, List.nil_append, List.length_cons]
    congr 2; omega

/-- All results of `parseId` on slices. -/
inductive ParseIdSpec (bs w : Bytes) : Res Nat × Bytes × Bytes → Prop
  | ok (l rest : Bytes) : IdShape l → bs = l ++ rest → ParseIdSpec bs w (.ok l.length, rest, w ++ l)
  | redundant (b o : UInt8) (r : Bytes) : bs = b :: o :: r → b.toNat % 32 = 31 →
      (o.toNat < 31 ∨ o.toNat = 128) → ParseIdSpec bs w (.err .redundantBytes, r, w ++ [b])
  | unterminated (w' : Bytes) : (∀ l rest, bs = l ++ rest → ¬ IdShape l) →
      (∀ b o r, bs = b :: o :: r → b.toNat % 32 = 31 → 31 ≤ o.toNat ∧ o.toNat ≠ 128) →
      ParseIdSpec bs w (.err .unterminatedBytes, [], w')

theorem parseId_spec (bs w : Bytes) : ParseIdSpec bs w ((parseId (σ := Bytes)).run bs w) := by
  cases bs with
  | nil =>
    simp only [parseId, P.bind_def, readU8_nil]
    apply ParseIdSpec.unterminated
    · intro l rest h hs
      have : l = [] := by
        cases l with
        | nil => rfl
        | cons => simp at h
      subst this; cases hs
    · simp
  | cons b r =>
    by_cases hb : b.toNat % 32 = 31
    · have e1 : ¬ (b &&& IdRef.LONG_FLAG ≠ IdRef.LONG_FLAG) := by rw [u8_id_long]; omega
      cases r with
      | nil =>
        simp only [parseId, P.bind_def, readU8_cons, writeU8_apply, P.ite_apply, if_neg e1, readU8_nil]
        apply ParseIdSpec.unterminated
        · intro l rest h hs
          cases hs with
          | short b' hb' =>
            simp only [List.cons_append, List.nil_append, List.cons.injEq] at h
            rw [← h.1] at hb'; exact hb' hb
          | long b' o r => simp at h
        · simp
      | cons o r =>
        by_cases h1 : o.toNat < 31
        · have e2 := (u8_id_max_short o).mpr h1
          simp only [parseId, P.bind_def, readU8_cons, writeU8_apply, P.ite_apply, if_neg e1, if_pos e2,
            P.throw_apply]
          exact ParseIdSpec.redundant b o r rfl hb (Or.inl h1)
        by_cases h2 : o.toNat = 128
        · have e2 : ¬ o ≤ IdRef.MAX_SHORT := by rw [u8_id_max_short]; omega
          have e3 := (u8_eq_more o).mpr h2
          simp only [parseId, P.bind_def, readU8_cons, writeU8_apply, P.ite_apply, if_neg e1, if_neg e2,
            if_pos e3, P.throw_apply]
          exact ParseIdSpec.redundant b o r rfl hb (Or.inr h2)
        rcases parseIdLoop_cases (r.length + 1) 2 o r (w ++ [b]) (by omega) with ⟨l, rest, h3, h4⟩ | h3
        · have hs : IdShape (b :: o :: l) := IdShape.long b o l hb h4 (by omega) h2
          have e : b :: o :: r = (b :: o :: l) ++ rest := by simp [h3]
          rw [e, parseId_shape hs]
          exact ParseIdSpec.ok _ rest hs rfl
        · by_cases h4 : ∃ l rest, r = l ++ rest ∧ IsCont (o :: l)
          · obtain ⟨l, rest, h3, h4⟩ := h4
            have hs : IdShape (b :: o :: l) := IdShape.long b o l hb h4 (by omega) h2
            have e : b :: o :: r = (b :: o :: l) ++ rest := by simp [h3]
            rw [e, parseId_shape hs]
            exact ParseIdSpec.ok _ rest hs rfl
          have e2 : ¬ o ≤ IdRef.MAX_SHORT := by rw [u8_id_max_short]; omega
          have e3 : ¬ o = IdRef.MORE_FLAG := by rw [u8_eq_more]; exact h2
          simp only [parseId, P.bind_def, readU8_cons, writeU8_apply, P.ite_apply, if_neg e1, if_neg e2,
            if_neg e3, size_bytes, h3]
          apply ParseIdSpec.unterminated
          · intro l rest h hs
            cases hs with
            | short b' hb' =>
              simp only [List.cons_append, List.nil_append, List.cons.injEq] at h
              rw [← h.1] at hb'; exact hb' hb
            | long b' o' r' h5 h6 =>
              simp only [List.cons_append, List.cons.injEq] at h
              apply h4
              refine ⟨r', rest, h.2.2, ?_⟩
              rw [h.2.1]; exact h6
          · intro b' o' r' h5 h6
            simp only [List.cons.injEq] at h5
            rw [← h5.2.1]; omega
    · have e1 := (u8_id_long b).mpr hb
      have hs := IdShape.short b hb
      have := parseId_shape hs r w
      simp only [List.cons_append, List.nil_append] at this
      rw [this]
      exact ParseIdSpec.ok [b] r hs rfl

theorem parseId_ok {bs w w' rest : Bytes} {n : Nat}
    (h : (parseId (σ := Bytes)).run bs w = (.ok n, rest, w')) :
    ∃ l, IdShape l ∧ bs = l ++ rest ∧ n = l.length ∧ w' = w ++ l := by
  have := parseId_spec bs w
  rw [h] at this
  cases this with
  | ok l _ h1 h2 => exact ⟨l, h1, h2, rfl, rfl⟩

/-! ### `parseIdUnchecked` -/

theorem parseIdUncheckedLoop_ok (pre : Bytes) (r rest : Bytes) (f : Nat) (h : IsCont r)
    (hf : r.length ≤ f) :
    parseIdUncheckedLoop (pre ++ r ++ rest) f pre.length = .ok (pre.length + r.length - 1) := by
  induction r generalizing pre f with
  | nil => simp [IsCont] at h
  | cons o r ih =>
    simp only [List.length_cons] at hf
    obtain ⟨f, rfl⟩ : ∃ g, f = g + 1 := ⟨f - 1, by omega⟩
    have hg : getAt (pre ++ o :: r ++ rest) pre.length = .ok o := by
      simp [getAt]
    cases r with
    | nil =>
      simp only [IsCont] at h
      have h1 := (u8_more o).mpr h
      rw [parseIdUncheckedLoop, hg]
      simp only [Res.bind_ok, if_pos h1, Res.pure_eq]
      simp
    | cons x r =>
      rw [isCont_cons_cons] at h
      have h1 : ¬ (o &&& IdRef.MORE_FLAG ≠ IdRef.MORE_FLAG) := by rw [u8_more]; omega
      rw [parseIdUncheckedLoop, hg]
      simp only [Res.bind_ok, if_neg h1]
      have := ih (pre ++ [o]) f h.2 (by simp only [List.length_cons] at hf ⊢; omega)
      simp only [List.append_assoc, List.cons_append, List.nil_append, List.length_append,
        List.length_cons, List.length_nil] at this ⊢
      rw [this]
      congr 1; omega

theorem parseIdUnchecked_shape {l : Bytes} (h : IdShape l) (rest : Bytes) :
    parseIdUnchecked (l ++ rest) = .ok (l, rest) := by
  cases h with
  | short b hb =>
    have h1 := (u8_id_long b).mpr hb
    simp only [parseIdUnchecked, List.cons_append, List.nil_append, getAt, List.getElem?_cons_zero,
      Res.bind_ok, if_pos h1, sliceTo, sliceFrom]
    simp
  | long b o r h1 h2 h3 h4 =>
    have e1 : ¬ (b &&& IdRef.LONG_FLAG ≠ IdRef.LONG_FLAG) := by rw [u8_id_long]; omega
    have hl := parseIdUncheckedLoop_ok [b] (o :: r) rest
      ((b :: o :: r ++ rest).length + 1) h2 (by simp; omega)
    simp only [List.cons_append, List.nil_append, List.length_cons, List.length_nil] at hl
    simp only [parseIdUnchecked, List.cons_append, getAt, List.getElem?_cons_zero,
      Res.bind_ok, if_neg e1, sliceTo, sliceFrom, List.length_cons]
    rw [hl]
    have e2 : 0 + 1 + (r.length + 1) - 1 + 1 = r.length + 2 := by omega
    simp only [Res.bind_ok, e2]
    rw [if_pos (by simp)]
    simp

/-! ### Attributes -/

theorem clazz_cons (b : UInt8) (r : Bytes) : IdRef.clazz (b :: r) = .ok
    (if b.toNat / 64 = 0 then .universal else if b.toNat / 64 = 1 then .application
      else if b.toNat / 64 = 2 then .contextSpecific else .priv) := by
  have h : ∀ b : UInt8, IdRef.clazz [b] = .ok
    (if b.toNat / 64 = 0 then .universal else if b.toNat / 64 = 1 then .application
      else if b.toNat / 64 = 2 then .contextSpecific else .priv) := by decide +kernel
  rw [← h b]
  rfl

theorem pc_cons (b : UInt8) (r : Bytes) : IdRef.pc (b :: r) = .ok
    (if b.toNat / 32 % 2 = 0 then .primitive else .constructed) := by
  have h : ∀ b : UInt8, IdRef.pc [b] = .ok
    (if b.toNat / 32 % 2 = 0 then .primitive else .constructed) := by decide +kernel
  rw [← h b]
  rfl

theorem classNum_lt (c : ClassTag) : classNum c < 4 := by cases c <;> simp [classNum]
theorem pcNum_lt (p : PCTag) : pcNum p < 2 := by cases p <;> simp [pcNum]

theorem classNum_inj {a b : ClassTag} (h : classNum a = classNum b) : a = b := by
  cases a <;> cases b <;> simp_all [classNum]
theorem pcNum_inj {a b : PCTag} (h : pcNum a = pcNum b) : a = b := by
  cases a <;> cases b <;> simp_all [pcNum]

theorem idOctets_cons (c p n : Nat) : ∃ r, idOctets c p n =
    UInt8.ofNat (64 * c + 32 * p + if n < 31 then n else 31) :: r := by
  have := idOctets_head c p n
  cases h : idOctets c p n with
  | nil => exact absurd h (idOctets_ne_nil c p n)
  | cons b r =>
    rw [h] at this
    simp only [List.head?_cons, Option.some.injEq] at this
    exact ⟨r, by rw [this]⟩

theorem clazz_idOctets (c : ClassTag) (p : PCTag) (n : Nat) :
    IdRef.clazz (idOctets (classNum c) (pcNum p) n) = .ok c := by
  obtain ⟨r, hr⟩ := idOctets_cons (classNum c) (pcNum p) n
  have hp := pcNum_lt p
  have hc := classNum_lt c
  have : (64 * classNum c + 32 * pcNum p + if n < 31 then n else 31) / 64 = classNum c := by
    split <;> omega
  rw [hr, clazz_cons, toNat_ofNat_of_lt (by split <;> omega), this]
  cases c <;> simp [classNum]

theorem pc_idOctets (c : ClassTag) (p : PCTag) (n : Nat) :
    IdRef.pc (idOctets (classNum c) (pcNum p) n) = .ok p := by
  obtain ⟨r, hr⟩ := idOctets_cons (classNum c) (pcNum p) n
  have hp := pcNum_lt p
  have hc := classNum_lt c
  have : (64 * classNum c + 32 * pcNum p + if n < 31 then n else 31) / 32 % 2 = pcNum p := by
    split <;> omega
  rw [hr, pc_cons, toNat_ofNat_of_lt (by split <;> omega), this]
  cases p <;> simp [pcNum]

theorem numberLoop_spec (l : Bytes) (acc : Nat) (h : acc < u128Size) :
    IdRef.numberLoop l acc =
      if acc * 128 ^ l.length + contVal l < u128Size then .ok (acc * 128 ^ l.length + contVal l)
      else .err .overFlow := by
  induction l generalizing acc with
  | nil => simp [IdRef.numberLoop, contVal_nil, h]
  | cons b r ih =>
    simp only [IdRef.numberLoop, u8_and_not_more]
    have hd : b.toNat % 128 < 128 := by omega
    by_cases h1 : acc * 128 < u128Size
    · rw [if_pos h1]
      have h2 : acc * 128 + b.toNat % 128 < u128Size := by
        simp only [u128Size] at *; omega
      rw [if_pos h2, ih _ h2]
      have e : (acc * 128 + b.toNat % 128) * 128 ^ r.length + contVal r =
          acc * 128 ^ (b :: r).length + contVal (b :: r) := by
        rw [contVal_cons, List.length_cons, pow_succ]; ring
      rw [e]
    · rw [if_neg h1, if_neg]
      have : 1 ≤ 128 ^ r.length := Nat.one_le_pow _ _ (by norm_num)
      rw [List.length_cons, pow_succ]
      have : acc * 128 ≤ acc * (128 ^ r.length * 128) := Nat.mul_le_mul_left _ (by omega)
      omega

theorem number_shape {l : Bytes} (h : IdShape l) :
    IdRef.number l = if idNum l < 2 ^ 128 then .ok (idNum l) else .err .overFlow := by
  cases h with
  | short b hb =>
    have : b.toNat % 32 < 2 ^ 128 := by omega
    simp only [IdRef.number, List.length_cons, List.length_nil, if_true, getAt,
      List.getElem?_cons_zero, Res.bind_ok, idNum, u8_and_long, Res.pure_eq]
    exact (if_pos this).symm
  | long b o r h1 h2 h3 h4 =>
    have e : ¬ (b :: o :: r).length = 1 := by simp
    simp only [IdRef.number, if_neg e, sliceFrom]
    rw [if_pos (by simp)]
    simp only [Res.bind_ok, List.drop_succ_cons, List.drop_zero]
    rw [numberLoop_spec _ _ (by simp [u128Size])]
    have : u128Size = 2 ^ 128 := by norm_num [u128Size]
    rw [this]
    simp only [idNum, zero_mul, zero_add]
    by_cases h : contVal (o :: r) < 2 ^ 128
    · exact (if_pos h).trans (if_pos h).symm
    · exact (if_neg h).trans (if_neg h).symm

theorem number_idOctets (c p n : Nat) (hc : c < 4) (hp : p < 2) :
    IdRef.number (idOctets c p n) = if n < 2 ^ 128 then .ok n else .err .overFlow := by
  rw [number_shape (idOctets_shape c p n hc hp), idNum_idOctets c p n hc hp]

/-! ### Construction and setters -/

theorem toU8_class (c : ClassTag) : c.toU8.toNat = 64 * classNum c := by cases c <;> decide
theorem toU8_pc (p : PCTag) : p.toU8.toNat = 32 * pcNum p := by cases p <;> decide

theorem first_octet (c : ClassTag) (p : PCTag) (n : Nat) (h : n < 32) :
    c.toU8 + p.toU8 + UInt8.ofNat n = UInt8.ofNat (64 * classNum c + 32 * pcNum p + n) := by
  have := classNum_lt c
  have := pcNum_lt p
  apply u8_ext
  rw [UInt8.toNat_add, UInt8.toNat_add, toU8_class, toU8_pc, toNat_ofNat_of_lt (by omega),
    toNat_ofNat_of_lt (by omega)]
  omega

theorem or_more : ∀ b : UInt8, (b ||| IdRef.MORE_FLAG).toNat = 128 + b.toNat % 128 := by decide +kernel
theorem xor_more : ∀ b : UInt8, 128 ≤ b.toNat → (b ^^^ IdRef.MORE_FLAG).toNat = b.toNat - 128 := by
  decide +kernel

theorem ofNat_or_more (n : Nat) : UInt8.ofNat n ||| IdRef.MORE_FLAG = UInt8.ofNat (128 + n % 128) := by
  apply u8_ext
  rw [or_more, UInt8.toNat_ofNat', toNat_ofNat_of_lt (by omega)]
  omega

theorem fillDigits_spec (i num : Nat) (h : UInt8) (t : Bytes) (hi : i ≤ t.length) :
    Id.fillDigits i num (h :: t) =
      .ok (h :: ((kDigits 128 i num).map (fun x => UInt8.ofNat (128 + x)) ++ t.drop i), num / 128 ^ i) := by
  induction i generalizing num t with
  | zero => simp [Id.fillDigits, kDigits]
  | succ i ih =>
    simp only [Id.fillDigits, setAt, List.length_cons]
    rw [if_pos (by omega)]
    simp only [Res.bind_ok, List.set_cons_succ]
    rw [ih _ _ (by simp; omega)]
    have e : (t.set i (UInt8.ofNat num ||| IdRef.MORE_FLAG)).drop i =
        (UInt8.ofNat num ||| IdRef.MORE_FLAG) :: t.drop (i + 1) := by
      rw [List.drop_set, if_neg (by omega), Nat.sub_self]
      rw [List.drop_eq_getElem_cons (by omega : i < t.length), List.set_cons_zero]
    rw [e, ofNat_or_more, kDigits, List.map_append, Nat.div_div_eq_div_mul, pow_succ]
    simp [mul_comm]

theorem byteLen7_spec {n : Nat} (h : n < 2 ^ 128) (h0 : n ≠ 0) :
    ∃ k, (16 * 8 - leadingZeros 128 n + 7 - 1) / 7 = k + 1 ∧ n < 128 ^ (k + 1) ∧ 128 ^ k ≤ n := by
  have h1 := lt_pow_leadingZeros h
  have ⟨h2, h3⟩ := pow_leadingZeros_le h h0
  generalize leadingZeros 128 n = z at *
  refine ⟨(16 * 8 - z + 7 - 1) / 7 - 1, by omega, ?_, ?_⟩
  · calc n < 2 ^ (128 - z) := h1
      _ ≤ 2 ^ (7 * ((16 * 8 - z + 7 - 1) / 7 - 1 + 1)) := Nat.pow_le_pow_right (by norm_num) (by omega)
      _ = _ := by rw [pow_mul]; norm_num
  · calc 128 ^ ((16 * 8 - z + 7 - 1) / 7 - 1) = 2 ^ (7 * ((16 * 8 - z + 7 - 1) / 7 - 1)) := by
          rw [pow_mul]; norm_num
      _ ≤ 2 ^ (128 - z - 1) := Nat.pow_le_pow_right (by norm_num) (by omega)
      _ ≤ n := h3

/-- Filling and clearing the last continuation bit gives the octets with continuation bits. -/
theorem fill_clear (f : UInt8 → UInt8) (hf : ∀ b : UInt8, 128 ≤ b.toNat → (f b).toNat = b.toNat - 128)
    (k num : Nat) (h t) (ht : t.length = k + 1) (hn : num < 128 ^ (k + 1)) (hn' : 128 ^ k ≤ num) :
    Id.fillDigits (k + 1) num (h :: t) = .ok (h ::
      (kDigits 128 (k + 1) num).map (fun x => UInt8.ofNat (128 + x)), 0) ∧
    (do let last ← getAt (h :: (kDigits 128 (k + 1) num).map (fun x => UInt8.ofNat (128 + x))) (k + 1)
        setAt (h :: (kDigits 128 (k + 1) num).map (fun x => UInt8.ofNat (128 + x))) (k + 1) (f last)) =
      .ok (h :: contOctets (baseDigits 128 num)) := by
  constructor
  · rw [fillDigits_spec _ _ _ _ (by omega), List.drop_of_length_le (by omega), Nat.div_eq_of_lt hn]
    simp
  · have hk := kDigits_eq_baseDigits (b := 128) (by norm_num) k num hn hn'
    rw [← hk]
    simp only [kDigits, List.map_append, List.map_cons, List.map_nil, contOctets_append]
    have hl : (List.map (fun x => UInt8.ofNat (128 + x)) (kDigits 128 k (num / 128))).length = k := by
      simp [kDigits_length]
    generalize List.map (fun x => UInt8.ofNat (128 + x)) (kDigits 128 k (num / 128)) = l at *
    subst hl
    simp only [getAt, setAt, List.getElem?_cons_succ, List.length_cons, List.length_append,
      List.length_nil]
    rw [List.getElem?_append_right (by omega)]
    simp only [Nat.sub_self, List.getElem?_cons_zero, Res.bind_ok]
    rw [if_pos (by omega), List.set_cons_succ, List.set_append_right _ _ (by omega)]
    simp only [Nat.sub_self, List.set_cons_zero]
    have : f (UInt8.ofNat (128 + num % 128)) = UInt8.ofNat (num % 128) := by
      apply u8_ext
      rw [hf _ (by rw [toNat_ofNat_of_lt (by omega)]; omega), toNat_ofNat_of_lt (by omega),
        toNat_ofNat_of_lt (by omega)]
      omega
    rw [this]

theorem idNew_eq (junk : UInt8) (c : ClassTag) (p : PCTag) {n : Nat} (h : n < 2 ^ 128) :
    Id.new junk c p n = .ok (idOctets (classNum c) (pcNum p) n) := by
  have hm : IdRef.MAX_SHORT.toNat = 30 := by decide
  simp only [Id.new, hm]
  by_cases hn : n < 31
  · rw [if_pos (by omega), idOctets, if_pos hn, first_octet _ _ _ (by omega)]
    rfl
  · rw [if_neg (by omega), idOctets, if_neg hn]
    obtain ⟨k, hk, h1, h2⟩ := byteLen7_spec h (by omega)
    simp only [hk]
    have hs : setAt (List.replicate (k + 1 + 1) junk) 0 (c.toU8 + p.toU8 + IdRef.LONG_FLAG) =
        .ok (UInt8.ofNat (64 * classNum c + 32 * pcNum p + 31) :: List.replicate (k + 1) junk) := by
      have := first_octet c p 31 (by omega)
      have e : IdRef.LONG_FLAG = UInt8.ofNat 31 := by decide
      rw [← e] at this
      rw [this]
      simp [setAt, List.replicate_succ]
    rw [hs]
    simp only [Res.bind_ok, Nat.add_sub_cancel]
    have ⟨e1, e2⟩ := fill_clear (fun b => b ^^^ IdRef.MORE_FLAG) xor_more k n
      (UInt8.ofNat (64 * classNum c + 32 * pcNum p + 31)) (List.replicate (k + 1) junk) (by simp) h1 h2
    rw [e1]
    simp only [Res.bind_ok]
    exact e2

theorem setClass_cons (b : UInt8) (r : Bytes) (c : ClassTag) :
    IdRef.setClass (b :: r) c = .ok (UInt8.ofNat (64 * classNum c + b.toNat % 64) :: r) := by
  have h : ∀ b : UInt8, (b &&& ~~~ IdRef.CLASS_MASK) ||| c.toU8 =
      UInt8.ofNat (64 * classNum c + b.toNat % 64) := by
    cases c <;> decide +kernel
  simp [IdRef.setClass, getAt, setAt, h]

theorem setPc_cons (b : UInt8) (r : Bytes) (p : PCTag) :
    IdRef.setPc (b :: r) p = .ok (UInt8.ofNat (64 * (b.toNat / 64) + 32 * pcNum p + b.toNat % 32) :: r) := by
  have h : ∀ b : UInt8, (b &&& ~~~ IdRef.PC_MASK) ||| p.toU8 =
      UInt8.ofNat (64 * (b.toNat / 64) + 32 * pcNum p + b.toNat % 32) := by
    cases p <;> decide +kernel
  simp [IdRef.setPc, getAt, setAt, h]

theorem setClass_idOctets (c c' : ClassTag) (p : PCTag) (n : Nat) :
    IdRef.setClass (idOctets (classNum c) (pcNum p) n) c' =
      .ok (idOctets (classNum c') (pcNum p) n) := by
  have hp := pcNum_lt p
  have hc := classNum_lt c
  simp only [idOctets]
  split
  · rw [setClass_cons, toNat_ofNat_of_lt (by omega)]
    congr 3; omega
  · rw [setClass_cons, toNat_ofNat_of_lt (by omega)]
    congr 3; omega

theorem setPc_idOctets (c : ClassTag) (p p' : PCTag) (n : Nat) :
    IdRef.setPc (idOctets (classNum c) (pcNum p) n) p' =
      .ok (idOctets (classNum c) (pcNum p') n) := by
  have hp := pcNum_lt p
  have hc := classNum_lt c
  simp only [idOctets]
  split
  · rw [setPc_cons, toNat_ofNat_of_lt (by omega)]
    congr 3; omega
  · rw [setPc_cons, toNat_ofNat_of_lt (by omega)]
    congr 3; omega

theorem resize_length (junk : UInt8) (l : Bytes) (n : Nat) : (Id.resize junk l n).length = n := by
  simp [Id.resize]; omega

theorem resize_cons (junk b : UInt8) (r : Bytes) (n : Nat) :
    ∃ t, Id.resize junk (b :: r) (n + 1) = b :: t ∧ t.length = n := by
  have h := resize_length junk (b :: r) (n + 1)
  refine ⟨(Id.resize junk (b :: r) (n + 1)).tail, ?_, by simp [h]⟩
  simp [Id.resize]

theorem and_not_more_toNat : ∀ b : UInt8, 128 ≤ b.toNat → (b &&& ~~~ IdRef.MORE_FLAG).toNat = b.toNat - 128 := by
  decide +kernel

theorem setNumber_idOctets (junk : UInt8) (c : ClassTag) (p : PCTag) (n : Nat) {n' : Nat}
    (h : n' < 2 ^ 128) :
    Id.setNumber junk (idOctets (classNum c) (pcNum p) n) n' =
      .ok (idOctets (classNum c) (pcNum p) n') := by
  have hm : IdRef.MAX_SHORT.toNat = 30 := by decide
  simp only [Id.setNumber, clazz_idOctets, pc_idOctets, Res.bind_ok, hm]
  obtain ⟨r, hr⟩ := idOctets_cons (classNum c) (pcNum p) n
  rw [hr]
  by_cases hn : n' < 31
  · rw [if_pos (by omega), idOctets, if_pos hn, first_octet _ _ _ (by omega)]
    simp [setAt, Id.resize]
  · rw [if_neg (by omega), idOctets, if_neg hn]
    obtain ⟨k, hk, h1, h2⟩ := byteLen7_spec h (by omega)
    simp only [hk]
    obtain ⟨t, ht, ht'⟩ := resize_cons junk (UInt8.ofNat (64 * classNum c + 32 * pcNum p +
      if n < 31 then n else 31)) r (k + 1)
    rw [ht]
    have hs : ∀ b, setAt (b :: t) 0 (c.toU8 + p.toU8 + IdRef.LONG_FLAG) =
        .ok (UInt8.ofNat (64 * classNum c + 32 * pcNum p + 31) :: t) := by
      intro b
      have := first_octet c p 31 (by omega)
      have e : IdRef.LONG_FLAG = UInt8.ofNat 31 := by decide
      rw [← e] at this
      rw [this]
      simp [setAt]
    rw [hs]
    simp only [Res.bind_ok, Nat.add_sub_cancel]
    have ⟨e1, e2⟩ := fill_clear (fun b => b &&& ~~~ IdRef.MORE_FLAG) and_not_more_toNat k n'
      (UInt8.ofNat (64 * classNum c + 32 * pcNum p + 31)) t ht' h1 h2
    rw [e1]
    simp only [Res.bind_ok, if_true]
    rw [← e2]
    simp only [Res.pure_eq]
    cases getAt (UInt8.ofNat (64 * classNum c + 32 * pcNum p + 31) ::
      List.map (fun x => UInt8.ofNat (128 + x)) (kDigits 128 (k + 1) n')) (k + 1) with
    | ok a => 
      simp only [Res.bind_ok]
      cases setAt (UInt8.ofNat (64 * classNum c + 32 * pcNum p + 31) ::
        List.map (fun x => UInt8.ofNat (128 + x)) (kDigits 128 (k + 1) n')) (k + 1)
        (a &&& ~~~IdRef.MORE_FLAG) <;> rfl
    | err e => rfl
    | panic => rfl
    | ub => rfl

end Bsn1
