import Verif.Lemmas.AliasOpsC
/-!
# `parse_mut` and the source of an integer
-/

namespace Bsn1.Alias

/-- A pointer that may do everything may do it again. -/
theorem use_again {R : Rules} {T : Theory R} {sb : Bool} (hT : Knows T sb) {t : Tag} {n : Nat} (ht : t + 1 < n) : ∀ as : List Act, (∀ a ∈ as, a = .read t ∨ a = .write t) →
    ∀ st, (∀ u ∈ T.tags st, u < n) → T.Good t st → ∃ st', R.run st as = some st'
  | [], _, st, _, _ => ⟨st, rfl⟩
  | a :: r, h, st, hs, hg => by
    have k : ∀ b : Act, b = .read 0 ∨ b = .write 0 → Goes T (some t) (some t) n n [Act.ren (spread t (t + 1) n) b] := by
      intro b hb
      refine goes_of (T := T) (s := t) (h := t + 1) (n := n) (m := 2) (o := some 0) (o' := some 0) (as := [b]) (by tomega) ht (by tomega) (by simp) (by simp) ?_ (Nat.le_refl 2) ?_
      · rcases hb with rfl | rfl <;> rfl
      · refine hT.both _ _ _ ?_
        rcases hb with rfl | rfl <;> decide +kernel
    have : Goes T (some t) (some t) n n [a] := by
      rcases h a (by simp) with rfl | rfl
      · exact k (.read 0) (.inl rfl)
      · exact k (.write 0) (.inr rfl)
    obtain ⟨st1, e, t1, g1⟩ := this.2 st hs (by rintro u ⟨⟩; exact ⟨by tomega, hg⟩)
    obtain ⟨st2, e2⟩ := use_again hT ht r (fun b hb => h b (by simp [hb])) st1 (fun u hu => by
      rcases t1 u hu with h | h
      · exact hs u h
      · exact h.2) (g1 t rfl).2
    refine ⟨st2, ?_⟩
    rw [← List.singleton_append, run_append, e]
    exact e2

def parsed (n k : Nat) : List Ev := .alloc 2 1 :: .retag 2 3 .excl ⟨1, 0, n⟩ true :: (parseMut n k 3 4).2.2

theorem parsed_tags (n k : Nat) : (parseMut n k 3 4).1 = (10, 9) := rfl

/-! Checked by computation. -/

def SB.goodB (t : Tag) (st : List Item) : Bool := (SB.above t st).all (fun i => !i.prot) && match SB.below t st with
  | [] => false
  | i :: _ => decide (i.tag = t) && decide (i.perm = .unique)

theorem SB.good_of {t : Tag} {st : List Item} (h : SB.goodB t st = true) : SB.Good t st := by
  simp only [SB.goodB, Bool.and_eq_true, List.all_eq_true, Bool.not_eq_true'] at h
  refine ⟨h.1, ?_⟩
  have h2 := h.2
  cases e : SB.below t st with
  | nil => simp [e] at h2
  | cons i r =>
    simp only [e, Bool.and_eq_true, decide_eq_true_eq] at h2
    obtain ⟨_, _, p⟩ := i
    obtain ⟨rfl, rfl⟩ := h2
    exact ⟨p, r, rfl⟩

def TB.goodB (t : Tag) (st : List Node) : Bool := !(tbPath (some t) st).isEmpty && st.all fun n =>
  if n.tag ∈ tbPath (some t) st then (match n.perm with | .active => true | .raw => true | .reserved c => !(c && n.prot) | _ => false) else !n.prot

theorem TB.good_of {t : Tag} {st : List Node} (h : TB.goodB t st = true) : Free t st := by
  simp only [TB.goodB, Bool.and_eq_true, List.all_eq_true, Bool.not_eq_true', List.isEmpty_eq_false_iff] at h
  refine ⟨h.1, fun n hn hp => ?_, fun n hn hp => ?_⟩
  · have := h.2 n hn
    rw [if_pos hp] at this
    cases e : n.perm with
    | active => exact .inl rfl
    | raw => exact .inr (.inl rfl)
    | reserved c =>
      rw [e] at this
      exact .inr (.inr ⟨c, rfl, by revert this; cases c <;> cases n.prot <;> simp⟩)
    | _ => rw [e] at this; cases this
  · have := h.2 n hn
    rw [if_neg hp] at this
    simpa using this

def endsSB (as : List Act) (t : Tag) (n : Nat) : Bool := match stacked.run [] as with
  | none => false
  | some st => SB.goodB t st && (SB.tags st).all (fun u => decide (u < n))

def endsTB (as : List Act) (t : Tag) (n : Nat) : Bool := match tree.run [] as with
  | none => false
  | some st => TB.goodB t st && (TB.tags st).all (fun u => decide (u < n))

theorem parsed_ends {n k y : Nat} (hk : k ≤ n) (hy : y < n) : (endsSB (acts ⟨1, y⟩ (parsed n k)) (if y < k then 10 else 9) 12 &&
    endsTB (acts ⟨1, y⟩ (parsed n k)) (if y < k then 10 else 9) 12) = true := by
  unfold parsed parseMut
  evl
  rcases Nat.lt_or_ge y k with h | h
  · rw [if_pos h]
    act <;> gen <;> decide +kernel
  · rw [if_neg (by omega)]
    act <;> gen <;> decide +kernel

theorem ends_sb {as : List Act} {t : Tag} {n : Nat} (h : endsSB as t n = true) : ∃ st, stacked.run [] as = some st ∧ SB.theory.Good t st ∧ ∀ u ∈ SB.theory.tags st, u < n := by
  simp only [endsSB] at h
  cases e : stacked.run [] as with
  | none => simp [e] at h
  | some st =>
    simp only [e, Bool.and_eq_true, List.all_eq_true, decide_eq_true_eq] at h
    exact ⟨st, rfl, SB.good_of h.1, h.2⟩

theorem ends_tb {as : List Act} {t : Tag} {n : Nat} (h : endsTB as t n = true) : ∃ st, tree.run [] as = some st ∧ TB.theory.Good t st ∧ ∀ u ∈ TB.theory.tags st, u < n := by
  simp only [endsTB] at h
  cases e : tree.run [] as with
  | none => simp [e] at h
  | some st =>
    simp only [e, Bool.and_eq_true, List.all_eq_true, decide_eq_true_eq] at h
    exact ⟨st, rfl, TB.good_of h.1, h.2⟩

/-- What the caller does, at an octet. -/
theorem uses_acts {n k : Nat} {us : List (Bool × Bool × Nat)} (hu : ∀ u ∈ us, inside n k u) (y : Nat) :
    ∀ a ∈ acts ⟨1, y⟩ (us.map fun u => (if u.2.1 then Ev.write else Ev.read) (if u.1 then 10 else 9) ⟨1, u.2.2, 1⟩),
      a = .read (if y < k then 10 else 9) ∨ a = .write (if y < k then 10 else 9) := by
  intro a ha
  simp only [acts, List.mem_flatMap, List.mem_map] at ha
  obtain ⟨_, ⟨⟨f, w, off⟩, hm, rfl⟩, ha⟩ := ha
  have hi := hu _ hm
  simp only [inside] at hi
  cases w <;> simp only [Bool.false_eq_true, if_true, if_false, Ev.at] at ha <;> split at ha
  · rename_i h
    simp [has_mk, inr] at h
    obtain rfl : off = y := by omega
    simp only [List.mem_singleton] at ha
    subst ha
    left
    cases f <;> simp only [Bool.false_eq_true, if_true, if_false] at hi ⊢
    · rw [if_neg (by omega)]
    · rw [if_pos hi]
  · cases ha
  · rename_i h
    simp [has_mk, inr] at h
    obtain rfl : off = y := by omega
    simp only [List.mem_singleton] at ha
    subst ha
    right
    cases f <;> simp only [Bool.false_eq_true, if_true, if_false] at hi ⊢
    · rw [if_neg (by omega)]
    · rw [if_pos hi]
  · cases ha

theorem parse_defined (sb : Bool) {n k : Nat} (hk : k ≤ n) {us : List (Bool × Bool × Nat)} (hu : ∀ u ∈ us, inside n k u) :
    (rules sb).Defined (parseUse n k us) := by
  rintro ⟨a, y⟩
  have e : parseUse n k us = parsed n k ++ us.map fun u => (if u.2.1 then Ev.write else Ev.read) (if u.1 then 10 else 9) ⟨1, u.2.2, 1⟩ := rfl
  rw [e, acts_append, run_append]
  by_cases ha : a = 1 ∧ y < n
  · obtain ⟨rfl, hy⟩ := ha
    have hp := parsed_ends hk hy
    rw [Bool.and_eq_true] at hp
    have ht : (if y < k then 10 else 9) + 1 < 12 := by split <;> omega
    cases sb
    · obtain ⟨st, e, g, t⟩ := ends_tb hp.2
      obtain ⟨st', e'⟩ := use_again knows_tb ht _ (uses_acts hu y) st t g
      exact ⟨st', by rw [show (rules false).run (rules false).init _ = some st from e]; exact e'⟩
    · obtain ⟨st, e, g, t⟩ := ends_sb hp.1
      obtain ⟨st', e'⟩ := use_again knows_sb ht _ (uses_acts hu y) st t g
      exact ⟨st', by rw [show (rules true).run (rules true).init _ = some st from e]; exact e'⟩
  · have h2 : acts ⟨a, y⟩ (us.map fun u => (if u.2.1 then Ev.write else Ev.read) (if u.1 then 10 else 9) ⟨1, u.2.2, 1⟩) = [] := by
      simp only [acts, List.flatMap_eq_nil_iff, List.mem_map]
      rintro _ ⟨⟨f, w, off⟩, hm, rfl⟩
      have hi := hu _ hm
      have ho : off < n := by
        cases f <;> simp only [inside, Bool.false_eq_true, if_true, if_false] at hi <;> omega
      have : (1 == a && inr y off 1) = false := by
        by_cases h1 : a = 1
        · subst h1
          simp [inr]
          omega
        · simp [Ne.symm h1]
      cases w <;> simp [Ev.at, has_mk, this]
    rw [h2]
    have h1 : (∃ st, (rules sb).run (rules sb).init (acts ⟨a, y⟩ (parsed n k)) = some st) := by
      by_cases h1 : a = 1
      · subst h1
        have hy : n ≤ y := by omega
        unfold parsed parseMut
        evl
        act
        cases sb <;> exact ⟨_, rfl⟩
      · unfold parsed parseMut
        evl
        act
        cases sb <;> exact ⟨_, rfl⟩
    obtain ⟨st, e⟩ := h1
    exact ⟨st, by rw [e]; rfl⟩

/-! ### The source of an integer -/

theorem run_some {sb : Bool} {as : List Act} (h : ((stacked.run [] as).isSome && (tree.run [] as).isSome) = true) :
    ∃ st, (rules sb).run (rules sb).init as = some st := by
  rw [Bool.and_eq_true] at h
  cases sb
  · exact Option.isSome_iff_exists.mp h.2
  · exact Option.isSome_iff_exists.mp h.1

theorem positive_exact (sb : Bool) {size skip : Nat} (hs : skip < size) (back : Bool) :
    (rules sb).Defined (positiveUse size skip back) ↔ ¬ (sb = true ∧ skip = 0 ∧ back = true) := by
  constructor
  · rintro h ⟨rfl, rfl, rfl⟩
    obtain ⟨st, e⟩ := h ⟨1, size - 1⟩
    have : stacked.run [] (acts ⟨1, size - 1⟩ (positiveUse size 0 true)) = none := by
      unfold positiveUse positiveSource
      evl
      act <;> rfl
    rw [show (rules true).run (rules true).init _ = none from this] at e
    cases e
  · rintro h ⟨a, y⟩
    by_cases ha : a = 1
    · subst ha
      by_cases hb : sb = true
      · subst hb
        cases back
        · unfold positiveUse positiveSource
          evl
          refine run_some ?_
          rcases Nat.lt_or_ge y size with h1 | h1
          · act <;> gen <;> decide +kernel
          · rcases Nat.lt_or_ge y (size + size) with h2 | h2
            · act <;> gen <;> decide +kernel
            · act <;> gen <;> decide +kernel
        · have h : 0 < skip := by
            rcases Nat.eq_zero_or_pos skip with e | e
            · exact absurd ⟨rfl, e, rfl⟩ h
            · exact e
          unfold positiveUse positiveSource
          evl
          refine run_some ?_
          rcases Nat.lt_or_ge y size with h1 | h1
          · act <;> gen <;> decide +kernel
          · rcases Nat.lt_or_ge y (size + size) with h2 | h2
            · act <;> gen <;> decide +kernel
            · act <;> gen <;> decide +kernel
      · obtain rfl : sb = false := by simpa using hb
        have : (tree.run [] (acts ⟨1, y⟩ (positiveUse size skip back))).isSome = true := by
          cases back
          · unfold positiveUse positiveSource
            evl
            rcases Nat.lt_or_ge y size with h1 | h1
            · act <;> gen <;> decide +kernel
            · rcases Nat.lt_or_ge y (size + size) with h2 | h2
              · act <;> gen <;> decide +kernel
              · act <;> gen <;> decide +kernel
          · unfold positiveUse positiveSource
            evl
            rcases Nat.lt_or_ge y size with h1 | h1
            · act <;> gen <;> decide +kernel
            · rcases Nat.lt_or_ge y (size + size) with h2 | h2
              · act <;> gen <;> decide +kernel
              · act <;> gen <;> decide +kernel
        exact Option.isSome_iff_exists.mp this
    · refine run_some ?_
      cases back <;> (unfold positiveUse positiveSource; evl; act) <;> decide +kernel

end Bsn1.Alias
