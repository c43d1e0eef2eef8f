import Verif.Spec.Attribute
import Verif.Lemmas.Id
/-!
# Lemmas on attributes
-/

namespace Bsn1
open Spec

variable {Pa : Type}

namespace Attribute

/-! ### Number literals -/

theorem ascii_digit : ∀ n < 128, ∀ d < 36, toDigit 16 (Char.ofNat n) = some d →
    "0123456789abcdef".toList[d]? = some (Char.ofNat n) ∨ "0123456789ABCDEF".toList[d]? = some (Char.ofNat n) := by
  decide +kernel

theorem digit_ascii : ∀ d < 16, ∀ c, "0123456789abcdef".toList[d]? = some c ∨ "0123456789ABCDEF".toList[d]? = some c →
    toDigit 16 c = some d := by
  intro d hd c h
  interval_cases d <;> rcases h with h | h <;> cases h <;> decide +kernel

theorem toDigit_ascii {radix : Nat} {c : Char} {d : Nat} (h : toDigit radix c = some d) : c.toNat < 128 ∧ d < 36 ∧ d < radix := by
  rw [toDigit] at h
  simp only [Char.le_def, UInt32.le_iff_toNat_le] at h
  obtain ⟨h1, h2⟩ := Option.filter_eq_some_iff.mp h
  have h2 : d < radix := by simpa using h2
  have e : ∀ x : Char, x.val.toNat = x.toNat := fun _ => rfl
  simp only [e] at h1
  split at h1
  · rename_i hh
    cases h1
    have : '9'.toNat = 57 := rfl
    have : '0'.toNat = 48 := rfl
    omega
  · split at h1
    · rename_i hh
      cases h1
      have : 'z'.toNat = 122 := rfl
      have : 'a'.toNat = 97 := rfl
      omega
    · split at h1
      · rename_i hh
        cases h1
        have : 'Z'.toNat = 90 := rfl
        have : 'A'.toNat = 65 := rfl
        omega
      · cases h1

theorem toDigit_radix (radix : Nat) (h : radix ≤ 16) (c : Char) (d : Nat) :
    toDigit radix c = some d ↔ toDigit 16 c = some d ∧ d < radix := by
  simp only [toDigit, Option.filter_eq_some_iff, decide_eq_true_eq]
  constructor
  · rintro ⟨h1, h2⟩; exact ⟨⟨h1, by omega⟩, h2⟩
  · rintro ⟨⟨h1, _⟩, h2⟩; exact ⟨h1, h2⟩

theorem toDigit_iff (radix : Nat) (h : radix ≤ 16) (c : Char) (d : Nat) : toDigit radix c = some d ↔ IsDigit d c ∧ d < radix := by
  rw [toDigit_radix radix h]
  refine and_congr_left fun hd => ?_
  constructor
  · intro h1
    obtain ⟨h2, h3, _⟩ := toDigit_ascii h1
    have := ascii_digit c.toNat h2 d h3
    rw [Char.ofNat_toNat] at this
    exact this h1
  · intro h1
    exact digit_ascii d (by omega) c h1

theorem ofDigits_append_single (r n d : Nat) (ds : List Nat) :
    Nat.ofDigits r (ds.reverse ++ [d]) = Nat.ofDigits r ds.reverse + r ^ ds.length * d := by
  rw [Nat.ofDigits_append]; simp

/-- The loop from `acc` on. -/
theorem fromStrRadixLoop_iff (radix : Nat) (h : radix ≤ 16) (s : List Char) (acc n : Nat) (hr : 1 ≤ radix) :
    fromStrRadixLoop radix s acc = some n ↔ ∃ ds, List.Forall₂ IsDigit ds s ∧ (∀ d ∈ ds, d < radix) ∧
      n = acc * radix ^ ds.length + Nat.ofDigits radix ds.reverse ∧ (s ≠ [] → n < 2 ^ 128) := by
  induction s generalizing acc with
  | nil =>
    simp only [fromStrRadixLoop, Option.some.injEq, List.forall₂_nil_right_iff]
    constructor
    · rintro rfl; exact ⟨[], rfl, by simp, by simp, by simp⟩
    · rintro ⟨ds, rfl, _, h, _⟩; simpa using h.symm
  | cons c s ih =>
    rw [fromStrRadixLoop]
    have hval : ∀ d (ds : List Nat), acc * radix ^ (ds.length + 1) + Nat.ofDigits radix (ds.reverse ++ [d]) =
        (acc * radix + d) * radix ^ ds.length + Nat.ofDigits radix ds.reverse := by
      intro d ds
      rw [Nat.ofDigits_append]
      simp only [List.length_reverse, Nat.ofDigits_singleton, Nat.pow_succ]
      ring
    constructor
    · intro he
      cases hd : toDigit radix c with
      | none => rw [hd] at he; cases he
      | some d =>
        rw [hd] at he
        simp only [] at he
        split at he
        · rename_i hlt
          obtain ⟨h1, h2⟩ := (toDigit_iff radix h c d).mp hd
          obtain ⟨ds, h3, h4, h5, h6⟩ := (ih _).mp he
          refine ⟨d :: ds, .cons h1 h3, by simpa using ⟨h2, h4⟩, ?_, fun _ => ?_⟩
          · rw [List.reverse_cons, List.length_cons, hval, h5]
          · by_cases hs : s = []
            · subst hs
              cases h3
              rw [h5]
              simpa using hlt
            · exact h6 hs
        · cases he
    · rintro ⟨ds, h1, h2, h3, h4⟩
      cases h1 with
      | cons h1 h1' =>
        rename_i d ds
        simp only [List.mem_cons, forall_eq_or_imp] at h2
        rw [(toDigit_iff radix h c d).mpr ⟨h1, h2.1⟩]
        simp only []
        rw [List.reverse_cons, List.length_cons, hval] at h3
        have hn := h4 (by simp)
        have hle : acc * radix + d ≤ (acc * radix + d) * radix ^ ds.length := Nat.le_mul_of_pos_right _ (Nat.pow_pos hr)
        rw [if_pos (by omega)]
        exact (ih _).mpr ⟨ds, h1', h2.2, h3, fun _ => hn⟩

theorem isDigit_plus (d : Nat) : ¬ IsDigit d '+' := by
  intro h
  have h16 : d < 16 := by
    rcases h with h | h
    · have := List.getElem?_eq_some_iff.mp h; obtain ⟨h, _⟩ := this; exact h
    · have := List.getElem?_eq_some_iff.mp h; obtain ⟨h, _⟩ := this; exact h
  have := digit_ascii d h16 '+' h
  revert this
  rw [show toDigit 16 '+' = none by decide +kernel]
  simp

theorem fromStrRadix_iff (radix : Nat) (h : radix ≤ 16) (hr : 1 ≤ radix) (s : List Char) (n : Nat) :
    fromStrRadix s radix = some n ↔ ∃ plus digits, OptPlus plus ∧ s = plus ++ digits ∧ Numeral radix digits n ∧ n < 2 ^ 128 := by
  have loop : ∀ t : List Char, t ≠ [] → (fromStrRadixLoop radix t 0 = some n ↔ Numeral radix t n ∧ n < 2 ^ 128) := by
    intro t ht
    rw [fromStrRadixLoop_iff radix h t 0 n hr]
    simp only [Nat.zero_mul, Nat.zero_add, Numeral, ne_eq, ht, not_false_eq_true, true_and, forall_const]
    constructor
    · rintro ⟨ds, h1, h2, h3, h4⟩; exact ⟨⟨ds, h1, h2, h3⟩, h4⟩
    · rintro ⟨⟨ds, h1, h2, h3⟩, h4⟩; exact ⟨ds, h1, h2, h3, h4⟩
  have noplus : ∀ t, ¬ Numeral radix ('+' :: t) n := by
    rintro t ⟨_, ds, h1, _⟩
    cases h1 with
    | cons h1 _ => exact isDigit_plus _ h1
  unfold fromStrRadix
  split
  · constructor
    · intro h; cases h
    · rintro ⟨plus, digits, _, h2, h3, _⟩
      exact absurd (List.append_eq_nil_iff.mp h2.symm).2 h3.1
  · constructor
    · intro h; cases h
    · rintro ⟨plus, digits, h1, h2, h3, _⟩
      rcases h1 with rfl | rfl
      · rw [List.nil_append] at h2; subst h2; exact absurd h3 (noplus _)
      · simp only [List.cons_append, List.nil_append, List.cons.injEq, true_and] at h2
        exact absurd h2.symm h3.1
  · rename_i t ht
    rw [loop t (fun h => ht (by rw [h]))]
    constructor
    · rintro ⟨h1, h2⟩; exact ⟨['+'], t, .inr rfl, rfl, h1, h2⟩
    · rintro ⟨plus, digits, h1, h2, h3, h4⟩
      rcases h1 with rfl | rfl
      · rw [List.nil_append] at h2; subst h2; exact absurd h3 (noplus _)
      · simp only [List.cons_append, List.nil_append, List.cons.injEq, true_and] at h2
        exact h2 ▸ ⟨h3, h4⟩
  · rename_i h1 h2 h3
    rw [loop s h1]
    constructor
    · rintro ⟨h1, h2⟩; exact ⟨[], s, .inl rfl, rfl, h1, h2⟩
    · rintro ⟨plus, digits, h5, h6, h7, h8⟩
      rcases h5 with rfl | rfl
      · rw [List.nil_append] at h6; subst h6; exact ⟨h7, h8⟩
      · exact absurd h6 (h3 _)

theorem numeral_digit {radix n : Nat} {c : Char} {s : List Char} (h : Numeral radix (c :: s) n) : ∃ d < radix, IsDigit d c := by
  obtain ⟨_, ds, h1, h2, _⟩ := h
  cases h1 with
  | cons h1 _ => exact ⟨_, h2 _ (by simp), h1⟩

theorem not_decimal (c : Char) (h : toDigit 10 c = none) (d : Nat) (hd : d < 10) : ¬ IsDigit d c := by
  intro hh
  rw [(toDigit_iff 10 (by omega) c d).mpr ⟨hh, hd⟩] at h
  cases h

/-- A prefix is not the start of a decimal number with optional sign. -/
theorem decimal_no_prefix (x : Char) (hx : toDigit 10 x = none) (s plus digits : List Char) (n : Nat) (hp : OptPlus plus)
    (e : '0' :: x :: s = plus ++ digits) (hn : Numeral 10 digits n) : False := by
  rcases hp with rfl | rfl
  · rw [List.nil_append] at e
    subst e
    obtain ⟨_, ds, h1, h2, _⟩ := hn
    cases h1 with
    | cons h0 h1 =>
      cases h1 with
      | cons h1 _ => exact not_decimal x hx _ (h2 _ (by simp)) h1
  · simp at e

theorem parsePrefixed_mem (s : List Char) (n : Nat) : parsePrefixed s prefixes = some n ↔
    ∃ x ∈ radixPrefixes, ∃ t, s = x.1 ++ t ∧ fromStrRadix t x.2 = some n := by
  have dec : ∀ x t, s = '0' :: x :: t → toDigit 10 x = none → fromStrRadix s 10 ≠ some n := by
    intro x t e hx h
    obtain ⟨plus, digits, h1, h2, h3, _⟩ := (fromStrRadix_iff 10 (by omega) (by omega) s n).mp h
    exact decimal_no_prefix x hx t plus digits n h1 (e ▸ h2) h3
  simp only [radixPrefixes, List.mem_cons, List.not_mem_nil, or_false, exists_eq_or_imp, exists_eq_left, List.nil_append,
    exists_eq_left', List.cons_append]
  simp only [prefixes, parsePrefixed]
  by_cases h : ∃ x t, s = '0' :: x :: t ∧ toDigit 10 x = none
  · obtain ⟨x, t, rfl, hx⟩ := h
    have d := dec x t rfl hx
    have e : ∀ y : Char, ['0', y].isPrefixOf ('0' :: x :: t) = true ↔ y = x := by intro y; simp
    simp only [e, List.cons.injEq, true_and, List.drop_succ_cons, List.drop_zero, List.length_cons, List.length_nil, d, false_or]
    by_cases h1 : x = 'b'
    · subst h1; simp
    by_cases h2 : x = 'B'
    · subst h2; simp
    by_cases h3 : x = 'o'
    · subst h3; simp
    by_cases h4 : x = 'O'
    · subst h4; simp
    by_cases h5 : x = 'x'
    · subst h5; simp
    by_cases h6 : x = 'X'
    · subst h6; simp
    have f : ∀ y, x ≠ y → ¬ y = x := fun y h e => h e.symm
    rw [if_neg (f _ h1), if_neg (f _ h2), if_neg (f _ h3), if_neg (f _ h4), if_neg (f _ h5), if_neg (f _ h6)]
    simp [h1, h2, h3, h4, h5, h6]
    simpa using d
  · have e : ∀ y : Char, toDigit 10 y = none → ['0', y].isPrefixOf s = false := by
      intro y hy
      by_contra hh
      rw [Bool.not_eq_false, List.isPrefixOf_iff_prefix] at hh
      obtain ⟨t, rfl⟩ := hh
      exact h ⟨y, t, rfl, hy⟩
    have e' : ∀ y : Char, toDigit 10 y = none → ∀ t, s ≠ '0' :: y :: t := fun y hy t hs => h ⟨y, t, hs, hy⟩
    simp [e 'b' (by decide +kernel), e 'B' (by decide +kernel), e 'o' (by decide +kernel), e 'O' (by decide +kernel),
      e 'x' (by decide +kernel), e 'X' (by decide +kernel), e' 'b' (by decide +kernel), e' 'B' (by decide +kernel),
      e' 'o' (by decide +kernel), e' 'O' (by decide +kernel), e' 'x' (by decide +kernel), e' 'X' (by decide +kernel)]

theorem radix_bounds : ∀ x ∈ radixPrefixes, 1 ≤ x.2 ∧ x.2 ≤ 16 := by decide

theorem parsePrefixed_iff (s : List Char) (n : Nat) : parsePrefixed s prefixes = some n ↔
    ∃ pre radix plus digits, (pre, radix) ∈ radixPrefixes ∧ OptPlus plus ∧ s = pre ++ plus ++ digits ∧
      Numeral radix digits n ∧ n < 2 ^ 128 := by
  rw [parsePrefixed_mem]
  constructor
  · rintro ⟨⟨pre, radix⟩, h1, t, rfl, h2⟩
    obtain ⟨h3, h4⟩ := radix_bounds _ h1
    obtain ⟨plus, digits, h5, rfl, h6, h7⟩ := (fromStrRadix_iff radix h4 h3 t n).mp h2
    exact ⟨pre, radix, plus, digits, h1, h5, by simp, h6, h7⟩
  · rintro ⟨pre, radix, plus, digits, h1, h5, rfl, h6, h7⟩
    obtain ⟨h3, h4⟩ := radix_bounds _ h1
    exact ⟨(pre, radix), h1, plus ++ digits, by simp, (fromStrRadix_iff radix h4 h3 _ n).mpr ⟨plus, digits, h5, rfl, h6, h7⟩⟩

theorem parseTagNumValue_iff (v : Tok) (n : Nat) : parseTagNumValue v = some n ↔ ∃ s, v = .literal s ∧ TagNumLit s.toList n := by
  cases v with
  | literal s =>
    simp only [parseTagNumValue, Tok.literal.injEq, exists_eq_left', TagNumLit]
    generalize s.toList = l
    constructor
    · intro h
      split at h
      · rename_i hp
        obtain ⟨t, rfl⟩ := List.isPrefixOf_iff_prefix.mp hp
        obtain ⟨pre, radix, plus, digits, h1, h2, h3, h4, h5⟩ := (parsePrefixed_iff _ n).mp h
        exact ⟨['+'], pre, radix, plus, digits, .inr rfl, h1, h2, by simpa using h3, h4, h5⟩
      · obtain ⟨pre, radix, plus, digits, h1, h2, h3, h4, h5⟩ := (parsePrefixed_iff _ n).mp h
        exact ⟨[], pre, radix, plus, digits, .inl rfl, h1, h2, by simpa using h3, h4, h5⟩
    · rintro ⟨plus, pre, radix, plus', digits, h1, h2, h3, rfl, h4, h5⟩
      have hp : ∀ t, (pre, radix) ∈ radixPrefixes → pre ≠ '+' :: t := by
        intro t h e
        subst e
        simp [radixPrefixes] at h
      rcases h1 with rfl | rfl
      · by_cases hplus : ['+'].isPrefixOf ([] ++ pre ++ plus' ++ digits) = true
        · rw [if_pos hplus]
          obtain ⟨t, e⟩ := List.isPrefixOf_iff_prefix.mp hplus
          have e1 : pre = [] := by
            cases pre with
            | nil => rfl
            | cons a b =>
              simp only [List.nil_append, List.cons_append, List.cons.injEq] at e
              exact absurd (by rw [e.1]) (hp b h2)
          subst e1
          rcases h3 with rfl | rfl
          · simp only [List.nil_append, List.cons_append] at e
            subst e
            obtain ⟨d, _, hd⟩ := numeral_digit h4
            exact absurd hd (isDigit_plus d)
          · exact (parsePrefixed_iff _ n).mpr ⟨[], radix, [], digits, h2, .inl rfl, by simp, h4, h5⟩
        · rw [if_neg hplus]
          exact (parsePrefixed_iff _ n).mpr ⟨pre, radix, plus', digits, h2, h3, by simp, h4, h5⟩
      · rw [if_pos (by simp)]
        exact (parsePrefixed_iff _ n).mpr ⟨pre, radix, plus', digits, h2, h3, by simp, h4, h5⟩
  | _ => simp [parseTagNumValue]

/-! ### The other values -/

theorem lookup_iff (l : List (String × UInt8)) (hl : (l.map Prod.fst).Nodup) (s : String) (v : UInt8) :
    lookup l s = some v ↔ (s, v) ∈ l := by
  induction l with
  | nil => simp [lookup]
  | cons x l ih =>
    obtain ⟨a, b⟩ := x
    simp only [List.map_cons, List.nodup_cons] at hl
    rw [lookup]
    split
    · rename_i e
      subst e
      simp only [Option.some.injEq, List.mem_cons, Prod.mk.injEq, true_and]
      constructor
      · intro h; exact .inl h.symm
      · rintro (h | h)
        · exact h.symm
        · exact absurd (List.mem_map.mpr ⟨_, h, rfl⟩) hl.1
    · rename_i e
      rw [ih hl.2]
      simp [e]

/-- The octet of a class, primitive or constructed, and a small number. -/
def octet (c p n : Nat) : UInt8 := UInt8.ofNat (64 * c + 32 * p + n)

theorem parseIdValue_iff (v : Tok) (b : UInt8) : parseIdValue v = some b ↔
    ∃ name c p n, v = .ident name ∧ (name, c, p, n) ∈ idNames ∧ b = octet c p n := by
  cases v with
  | ident s =>
    rw [parseIdValue, lookup_iff _ (by decide)]
    have : idValues = idNames.map fun x => (x.1, octet x.2.1 x.2.2.1 x.2.2.2) := by decide +kernel
    rw [this]
    simp only [List.mem_map, Prod.mk.injEq, Tok.ident.injEq]
    constructor
    · rintro ⟨⟨name, c, p, n⟩, h1, h2, h3⟩; exact ⟨name, c, p, n, h2.symm, h1, h3.symm⟩
    · rintro ⟨name, c, p, n, h2, h1, h3⟩; exact ⟨⟨name, c, p, n⟩, h1, h2.symm, h3.symm⟩
  | _ => simp [parseIdValue]

theorem parseTagClassValue_iff (v : Tok) (b : UInt8) : parseTagClassValue v = some b ↔
    ∃ name c, v = .ident name ∧ (name, c) ∈ classNames ∧ b = octet c 0 0 := by
  cases v with
  | ident s =>
    rw [parseTagClassValue, lookup_iff _ (by decide)]
    have : tagClassValues = classNames.map fun x => (x.1, octet x.2 0 0) := by decide +kernel
    rw [this]
    simp only [List.mem_map, Prod.mk.injEq, Tok.ident.injEq]
    constructor
    · rintro ⟨⟨name, c⟩, h1, h2, h3⟩; exact ⟨name, c, h2.symm, h1, h3.symm⟩
    · rintro ⟨name, c, h2, h1, h3⟩; exact ⟨⟨name, c⟩, h1, h2.symm, h3.symm⟩
  | _ => simp [parseTagClassValue]

theorem parseTagPcValue_iff (v : Tok) (b : UInt8) : parseTagPcValue v = some b ↔
    ∃ name p, v = .ident name ∧ (name, p) ∈ pcNames ∧ b = octet 0 p 0 := by
  cases v with
  | ident s =>
    rw [parseTagPcValue, lookup_iff _ (by decide)]
    have : tagPcValues = pcNames.map fun x => (x.1, octet 0 x.2 0) := by decide +kernel
    rw [this]
    simp only [List.mem_map, Prod.mk.injEq, Tok.ident.injEq]
    constructor
    · rintro ⟨⟨name, c⟩, h1, h2, h3⟩; exact ⟨name, c, h2.symm, h1, h3.symm⟩
    · rintro ⟨name, c, h2, h1, h3⟩; exact ⟨⟨name, c⟩, h1, h2.symm, h3.symm⟩
  | _ => simp [parseTagPcValue]

theorem dropWhile_quotes (s : List Char) : ∃ i, s = List.replicate i '"' ++ s.dropWhile (· = '"') ∧
    (s.dropWhile (· = '"')).head? ≠ some '"' := by
  induction s with
  | nil => exact ⟨0, rfl, by simp⟩
  | cons c s ih =>
    by_cases h : c = '"'
    · obtain ⟨i, h1, h2⟩ := ih
      refine ⟨i + 1, ?_, ?_⟩
      · subst h
        rw [List.dropWhile_cons_of_pos (by simp), List.replicate_succ, List.cons_append, ← h1]
      · subst h
        rw [List.dropWhile_cons_of_pos (by simp)]
        exact h2
    · exact ⟨0, by rw [List.dropWhile_cons_of_neg (by simpa using h)]; rfl, by
        rw [List.dropWhile_cons_of_neg (by simpa using h)]; simpa using h⟩

theorem dropWhile_replicate (i : Nat) (t : List Char) (h : t.head? ≠ some '"') :
    (List.replicate i '"' ++ t).dropWhile (· = '"') = t := by
  induction i with
  | zero =>
    cases t with
    | nil => rfl
    | cons c t => rw [List.replicate_zero, List.nil_append, List.dropWhile_cons_of_neg (by simpa using h)]
  | succ i ih => rw [List.replicate_succ, List.cons_append, List.dropWhile_cons_of_pos (by simp), ih]

theorem trimQuotes_eq (i j : Nat) (t : List Char) (h : t.head? ≠ some '"') (h' : t.getLast? ≠ some '"') :
    trimQuotes (List.replicate i '"' ++ t ++ List.replicate j '"') = t := by
  rw [trimQuotes]
  by_cases ht : t = []
  · subst ht
    rw [List.append_nil, List.replicate_append_replicate]
    have := dropWhile_replicate (i + j) [] (by simp)
    rw [List.append_nil] at this
    rw [this]; rfl
  · rw [List.append_assoc, dropWhile_replicate i (t ++ List.replicate j '"') (by
      cases t with
      | nil => exact absurd rfl ht
      | cons c t => simpa using h)]
    rw [List.reverse_append, List.reverse_replicate, dropWhile_replicate j t.reverse (by simpa using h')]
    simp

theorem trimQuotes_spec (s : List Char) : ∃ i j, s = List.replicate i '"' ++ trimQuotes s ++ List.replicate j '"' ∧
    (trimQuotes s).head? ≠ some '"' ∧ (trimQuotes s).getLast? ≠ some '"' := by
  obtain ⟨i, h1, h2⟩ := dropWhile_quotes s
  obtain ⟨j, h3, h4⟩ := dropWhile_quotes (s.dropWhile (· = '"')).reverse
  have h5 : s.dropWhile (· = '"') = trimQuotes s ++ List.replicate j '"' := by
    have := congrArg List.reverse h3
    rw [List.reverse_reverse, List.reverse_append, List.reverse_replicate] at this
    exact this
  refine ⟨i, j, ?_, ?_, ?_⟩
  · rw [List.append_assoc, ← h5]; exact h1
  · intro h
    rw [h5] at h2
    apply h2
    cases ht : trimQuotes s with
    | nil => rw [ht] at h; cases h
    | cons c t => rw [ht] at h; simpa using h
  · rw [trimQuotes, List.getLast?_reverse]
    exact h4

theorem parsePath_iff (pp : String → Option Pa) (v : Tok) (p : Pa) : parsePath pp v = some p ↔
    ∃ s, v = .literal s ∧ PathLit pp s p := by
  cases v with
  | literal s =>
    simp only [parsePath, Tok.literal.injEq, exists_eq_left', PathLit]
    constructor
    · intro h
      obtain ⟨i, j, h1, h2, h3⟩ := trimQuotes_spec s.toList
      exact ⟨i, j, _, h1, h2, h3, h⟩
    · rintro ⟨i, j, t, h1, h2, h3, h⟩
      rw [h1, trimQuotes_eq i j t h2 h3, h]
  | _ => simp [parsePath]

/-! ### The list of arguments -/

/-- Whether an argument is there. -/
def has (a : Attribute Pa) : ArgKind → Bool
  | .id => a.id_.isSome
  | .tagClass => a.tagClass.isSome
  | .tagPc => a.tagPc.isSome
  | .tagNum => a.tagNum.isSome
  | .skipSerializing => a.skipSerializing.isSome
  | .skipDeserializing => a.skipDeserializing.isSome
  | .default => a.default_.isSome
  | .skip => a.skip.isSome
  | .into => a.into.isSome
  | .from_ => a.from_.isSome
  | .to => a.to.isSome
  | .tryFrom => a.tryFrom.isSome
  | .transparent => a.transparent.isSome

/-- With an argument. -/
def set (a : Attribute Pa) : Arg Pa → Attribute Pa
  | .id c p n => { a with id_ := some (octet c p n) }
  | .tagClass c => { a with tagClass := some (octet c 0 0) }
  | .tagPc p => { a with tagPc := some (octet 0 p 0) }
  | .tagNum n => { a with tagNum := some n }
  | .skipSerializing => { a with skipSerializing := some () }
  | .skipDeserializing => { a with skipDeserializing := some () }
  | .default p => { a with default_ := some p }
  | .skip => { a with skip := some () }
  | .into p => { a with into := some p }
  | .from_ p => { a with from_ := some p }
  | .to p => { a with «to» := some p }
  | .tryFrom p => { a with tryFrom := some p }
  | .transparent => { a with transparent := some () }

theorem takeValue_iff (it : List Tok) (v : Tok) (rest : List Tok) :
    takeValue it = some (v, rest) ↔ it = .punct '=' :: v :: rest := by
  unfold takeValue
  split
  · simp
  · rename_i h
    constructor
    · intro h; cases h
    · intro e; exact absurd e (h v rest)

theorem valueStep {β : Type} (b : Bool) (it : List Tok) (f : Tok → Option β) (g : β → Attribute Pa) (a' : Attribute Pa)
    (it' : List Tok) :
    (if b = true then none else (takeValue it).bind fun x => (f x.1).bind fun val => some (g val, x.2)) = some (a', it') ↔
      b = false ∧ ∃ v val, it = .punct '=' :: v :: it' ∧ f v = some val ∧ a' = g val := by
  cases b with
  | true => simp
  | false =>
    simp only [Bool.false_eq_true, if_false, true_and, Option.bind_eq_some_iff, Option.some.injEq, Prod.mk.injEq]
    constructor
    · rintro ⟨⟨v, r⟩, h1, val, h2, h3, rfl⟩
      exact ⟨v, val, (takeValue_iff _ _ _).mp h1, h2, h3.symm⟩
    · rintro ⟨v, val, h1, h2, h3⟩
      exact ⟨(v, it'), (takeValue_iff _ _ _).mpr h1, val, h2, h3.symm, rfl⟩

theorem flagStep (b : Bool) (it : List Tok) (a0 a' : Attribute Pa) (it' : List Tok) :
    (if b = true then none else some (a0, it)) = some (a', it') ↔ b = false ∧ it = it' ∧ a' = a0 := by
  cases b with
  | true => simp
  | false =>
    simp only [Bool.false_eq_true, if_false, Option.some.injEq, Prod.mk.injEq, true_and]
    constructor
    · rintro ⟨h1, h2⟩; exact ⟨h2, h1.symm⟩
    · rintro ⟨h1, h2⟩; exact ⟨h2.symm, h1⟩

/-- An argument is taken. -/
def Takes (pp : String → Option Pa) (a : Attribute Pa) (t : Tok) (it : List Tok) (a' : Attribute Pa) (it' : List Tok) : Prop :=
  ∃ arg ts, arg.Tokens pp ts ∧ t :: it = ts ++ it' ∧ a.has arg.kind = false ∧ a' = a.set arg

theorem step_iff (pp : String → Option Pa) (a : Attribute Pa) (t : Tok) (it : List Tok) (a' : Attribute Pa) (it' : List Tok) :
    step pp a t it = some (a', it') ↔ (t = .punct ',' ∧ a' = a ∧ it' = it) ∨ Takes pp a t it a' it' := by
  constructor
  · intro h
    unfold step at h
    split at h
    case _ =>
      obtain ⟨h1, v, val, rfl, h2, rfl⟩ := (valueStep _ it _ (fun val => { a with id_ := some val }) a' it').mp h
      obtain ⟨name, c, p, n, rfl, h3, rfl⟩ := (parseIdValue_iff _ _).mp h2
      exact .inr ⟨.id c p n, _, ⟨name, h3, rfl⟩, rfl, h1, rfl⟩
    case _ =>
      obtain ⟨h1, v, val, rfl, h2, rfl⟩ := (valueStep _ it _ (fun val => { a with tagClass := some val }) a' it').mp h
      obtain ⟨name, c, rfl, h3, rfl⟩ := (parseTagClassValue_iff _ _).mp h2
      exact .inr ⟨.tagClass c, _, ⟨name, h3, rfl⟩, rfl, h1, rfl⟩
    case _ =>
      obtain ⟨h1, v, val, rfl, h2, rfl⟩ := (valueStep _ it _ (fun val => { a with tagPc := some val }) a' it').mp h
      obtain ⟨name, c, rfl, h3, rfl⟩ := (parseTagPcValue_iff _ _).mp h2
      exact .inr ⟨.tagPc c, _, ⟨name, h3, rfl⟩, rfl, h1, rfl⟩
    case _ =>
      obtain ⟨h1, v, val, rfl, h2, rfl⟩ := (valueStep _ it _ (fun val => { a with tagNum := some val }) a' it').mp h
      obtain ⟨s, rfl, h3⟩ := (parseTagNumValue_iff _ _).mp h2
      exact .inr ⟨.tagNum val, _, ⟨s, h3, rfl⟩, rfl, h1, rfl⟩
    case _ =>
      obtain ⟨h1, rfl, rfl⟩ := (flagStep _ _ _ _ _).mp h
      exact .inr ⟨.skipSerializing, _, rfl, rfl, h1, rfl⟩
    case _ =>
      obtain ⟨h1, rfl, rfl⟩ := (flagStep _ _ _ _ _).mp h
      exact .inr ⟨.skipDeserializing, _, rfl, rfl, h1, rfl⟩
    case _ =>
      obtain ⟨h1, v, val, rfl, h2, rfl⟩ := (valueStep _ it _ (fun val => { a with default_ := some val }) a' it').mp h
      obtain ⟨s, rfl, h3⟩ := (parsePath_iff _ _ _).mp h2
      exact .inr ⟨.default val, _, ⟨s, h3, rfl⟩, rfl, h1, rfl⟩
    case _ =>
      obtain ⟨h1, rfl, rfl⟩ := (flagStep _ _ _ _ _).mp h
      exact .inr ⟨.skip, _, rfl, rfl, h1, rfl⟩
    case _ =>
      obtain ⟨h1, v, val, rfl, h2, rfl⟩ := (valueStep _ it _ (fun val => { a with into := some val }) a' it').mp h
      obtain ⟨s, rfl, h3⟩ := (parsePath_iff _ _ _).mp h2
      exact .inr ⟨.into val, _, ⟨s, h3, rfl⟩, rfl, h1, rfl⟩
    case _ =>
      obtain ⟨h1, v, val, rfl, h2, rfl⟩ := (valueStep _ it _ (fun val => { a with from_ := some val }) a' it').mp h
      obtain ⟨s, rfl, h3⟩ := (parsePath_iff _ _ _).mp h2
      exact .inr ⟨.from_ val, _, ⟨s, h3, rfl⟩, rfl, h1, rfl⟩
    case _ =>
      obtain ⟨h1, v, val, rfl, h2, rfl⟩ := (valueStep _ it _ (fun val => { a with «to» := some val }) a' it').mp h
      obtain ⟨s, rfl, h3⟩ := (parsePath_iff _ _ _).mp h2
      exact .inr ⟨.to val, _, ⟨s, h3, rfl⟩, rfl, h1, rfl⟩
    case _ =>
      obtain ⟨h1, v, val, rfl, h2, rfl⟩ := (valueStep _ it _ (fun val => { a with tryFrom := some val }) a' it').mp h
      obtain ⟨s, rfl, h3⟩ := (parsePath_iff _ _ _).mp h2
      exact .inr ⟨.tryFrom val, _, ⟨s, h3, rfl⟩, rfl, h1, rfl⟩
    case _ =>
      obtain ⟨h1, rfl, rfl⟩ := (flagStep _ _ _ _ _).mp h
      exact .inr ⟨.transparent, _, rfl, rfl, h1, rfl⟩
    case _ => simp only [Option.some.injEq, Prod.mk.injEq] at h; exact .inl ⟨rfl, h.1.symm, h.2.symm⟩
    case _ => cases h
  · rintro (⟨rfl, rfl, rfl⟩ | ⟨arg, ts, h1, h2, h3, rfl⟩)
    · rfl
    · cases arg with
      | id c p n =>
        obtain ⟨name, h4, rfl⟩ := h1
        cases h2
        exact (valueStep _ _ _ (fun val => { a with id_ := some val }) _ it').mpr
          ⟨h3, _, _, rfl, (parseIdValue_iff _ _).mpr ⟨name, c, p, n, rfl, h4, rfl⟩, rfl⟩
      | tagClass c =>
        obtain ⟨name, h4, rfl⟩ := h1
        cases h2
        exact (valueStep _ _ _ (fun val => { a with tagClass := some val }) _ it').mpr
          ⟨h3, _, _, rfl, (parseTagClassValue_iff _ _).mpr ⟨name, c, rfl, h4, rfl⟩, rfl⟩
      | tagPc c =>
        obtain ⟨name, h4, rfl⟩ := h1
        cases h2
        exact (valueStep _ _ _ (fun val => { a with tagPc := some val }) _ it').mpr
          ⟨h3, _, _, rfl, (parseTagPcValue_iff _ _).mpr ⟨name, c, rfl, h4, rfl⟩, rfl⟩
      | tagNum n =>
        obtain ⟨s, h4, rfl⟩ := h1
        cases h2
        exact (valueStep _ _ _ (fun val => { a with tagNum := some val }) _ it').mpr
          ⟨h3, _, _, rfl, (parseTagNumValue_iff _ _).mpr ⟨s, rfl, h4⟩, rfl⟩
      | skipSerializing => cases h1; cases h2; exact (flagStep _ _ _ _ _).mpr ⟨h3, rfl, rfl⟩
      | skipDeserializing => cases h1; cases h2; exact (flagStep _ _ _ _ _).mpr ⟨h3, rfl, rfl⟩
      | default p =>
        obtain ⟨s, h4, rfl⟩ := h1
        cases h2
        exact (valueStep _ _ _ (fun val => { a with default_ := some val }) _ it').mpr
          ⟨h3, _, _, rfl, (parsePath_iff _ _ _).mpr ⟨s, rfl, h4⟩, rfl⟩
      | skip => cases h1; cases h2; exact (flagStep _ _ _ _ _).mpr ⟨h3, rfl, rfl⟩
      | into p =>
        obtain ⟨s, h4, rfl⟩ := h1
        cases h2
        exact (valueStep _ _ _ (fun val => { a with into := some val }) _ it').mpr
          ⟨h3, _, _, rfl, (parsePath_iff _ _ _).mpr ⟨s, rfl, h4⟩, rfl⟩
      | from_ p =>
        obtain ⟨s, h4, rfl⟩ := h1
        cases h2
        exact (valueStep _ _ _ (fun val => { a with from_ := some val }) _ it').mpr
          ⟨h3, _, _, rfl, (parsePath_iff _ _ _).mpr ⟨s, rfl, h4⟩, rfl⟩
      | «to» p =>
        obtain ⟨s, h4, rfl⟩ := h1
        cases h2
        exact (valueStep _ _ _ (fun val => { a with «to» := some val }) _ it').mpr
          ⟨h3, _, _, rfl, (parsePath_iff _ _ _).mpr ⟨s, rfl, h4⟩, rfl⟩
      | tryFrom p =>
        obtain ⟨s, h4, rfl⟩ := h1
        cases h2
        exact (valueStep _ _ _ (fun val => { a with tryFrom := some val }) _ it').mpr
          ⟨h3, _, _, rfl, (parsePath_iff _ _ _).mpr ⟨s, rfl, h4⟩, rfl⟩
      | transparent => cases h1; cases h2; exact (flagStep _ _ _ _ _).mpr ⟨h3, rfl, rfl⟩

theorem has_set (a : Attribute Pa) (x : Arg Pa) (k : ArgKind) : (a.set x).has k = (a.has k || decide (x.kind = k)) := by
  cases x <;> cases k <;> simp [set, has, Arg.kind]

theorem tokens_ne_nil (pp : String → Option Pa) (x : Arg Pa) (ts : List Tok) (h : x.Tokens pp ts) : ∃ t r, ts = t :: r := by
  cases x <;> simp only [Arg.Tokens, assign] at h <;> first | exact ⟨_, _, h⟩ | (obtain ⟨_, _, e⟩ := h; exact ⟨_, _, e⟩)

theorem tokens_no_comma (pp : String → Option Pa) (x : Arg Pa) (ts : List Tok) (h : x.Tokens pp (.punct ',' :: ts)) : False := by
  cases x <;> simp only [Arg.Tokens, assign] at h <;> simp at h

theorem parseLoop_iff (pp : String → Option Pa) (fuel : Nat) (a : Attribute Pa) (ts : List Tok) (a' : Attribute Pa)
    (hf : ts.length ≤ fuel) : parseLoop pp fuel a ts = some a' ↔
      ∃ as, ArgList pp ts as ∧ (as.map Arg.kind).Nodup ∧ (∀ x ∈ as, a.has x.kind = false) ∧ a' = as.foldl set a := by
  induction fuel generalizing a ts with
  | zero =>
    cases ts with
    | nil =>
      simp only [parseLoop, Option.some.injEq]
      constructor
      · rintro rfl; exact ⟨[], .nil, by simp, by simp, rfl⟩
      · rintro ⟨as, h, _, _, rfl⟩
        cases as with
        | nil => rfl
        | cons x as =>
          exfalso
          generalize e : ([] : List Tok) = ts at h
          cases h with
          | comma h => cases e
          | arg h1 h2 =>
            obtain ⟨t, r, rfl⟩ := tokens_ne_nil pp x _ h1
            cases e
    | cons t ts => simp at hf
  | succ fuel ih =>
    cases ts with
    | nil =>
      simp only [parseLoop, Option.some.injEq]
      constructor
      · rintro rfl; exact ⟨[], .nil, by simp, by simp, rfl⟩
      · rintro ⟨as, h, _, _, rfl⟩
        cases as with
        | nil => rfl
        | cons x as =>
          exfalso
          generalize e : ([] : List Tok) = ts at h
          cases h with
          | comma h => cases e
          | arg h1 h2 =>
            obtain ⟨t, r, rfl⟩ := tokens_ne_nil pp x _ h1
            cases e
    | cons t ts =>
      have hf' : ts.length ≤ fuel := by simpa using hf
      rw [parseLoop]
      constructor
      · intro h
        cases hs : step pp a t ts with
        | none => rw [hs] at h; cases h
        | some x =>
          obtain ⟨a1, it⟩ := x
          rw [hs] at h
          simp only [] at h
          rcases (step_iff pp a t ts a1 it).mp hs with ⟨rfl, rfl, rfl⟩ | ⟨x, tx, h1, h2, h3, rfl⟩
          · obtain ⟨as, h4, h5, h6, h7⟩ := (ih a1 it hf').mp h
            exact ⟨as, .comma h4, h5, h6, h7⟩
          · obtain ⟨t', r, rfl⟩ := tokens_ne_nil pp x _ h1
            have hl : it.length ≤ fuel := by
              have := congrArg List.length h2
              simp only [List.length_cons, List.length_append] at this
              omega
            obtain ⟨as, h4, h5, h6, h7⟩ := (ih _ it hl).mp h
            refine ⟨x :: as, h2 ▸ .arg h1 h4, ?_, ?_, h7⟩
            · rw [List.map_cons, List.nodup_cons]
              refine ⟨fun hm => ?_, h5⟩
              obtain ⟨y, hy, e⟩ := List.mem_map.mp hm
              have := h6 y hy
              rw [has_set, e] at this
              simp at this
            · intro y hy
              rcases List.mem_cons.mp hy with rfl | hy
              · exact h3
              · have := h6 y hy
                rw [has_set, Bool.or_eq_false_iff] at this
                exact this.1
      · rintro ⟨as, h, h5, h6, rfl⟩
        generalize e : t :: ts = ts' at h
        cases h with
        | nil => cases e
        | comma h =>
          cases e
          rw [(step_iff pp a _ ts a ts).mpr (.inl ⟨rfl, rfl, rfl⟩)]
          exact (ih a ts hf').mpr ⟨as, h, h5, h6, rfl⟩
        | @arg tx it x as h1 h4 =>
          rw [(step_iff pp a t ts (a.set x) it).mpr (.inr ⟨x, tx, h1, e, h6 x (by simp), rfl⟩)]
          obtain ⟨t', r, rfl⟩ := tokens_ne_nil pp x _ h1
          have hl : it.length ≤ fuel := by
            have := congrArg List.length e
            simp only [List.length_cons, List.length_append] at this
            omega
          rw [List.map_cons, List.nodup_cons] at h5
          refine (ih _ it hl).mpr ⟨as, h4, h5.2, fun y hy => ?_, rfl⟩
          rw [has_set, h6 y (by simp [hy]), Bool.false_or, decide_eq_false_iff_not]
          intro e
          exact h5.1 (e ▸ List.mem_map.mpr ⟨y, hy, rfl⟩)

theorem parse_iff (pp : String → Option Pa) (ts : List Tok) (a : Attribute Pa) : parse pp ts = some a ↔
    ∃ as, ArgList pp ts as ∧ (as.map Arg.kind).Nodup ∧ a = as.foldl set {} := by
  rw [parse, parseLoop_iff pp _ _ _ _ (Nat.le_refl _)]
  constructor
  · rintro ⟨as, h1, h2, _, h3⟩; exact ⟨as, h1, h2, h3⟩
  · rintro ⟨as, h1, h2, h3⟩; exact ⟨as, h1, h2, fun x _ => by cases x <;> rfl, h3⟩

end Attribute
end Bsn1
