import Verif.Lemmas.Alias
/-!
# Functions one after the other

`Keeps`: a function can be called by who may do everything with an octet, and that is still so afterwards.
-/

namespace Bsn1.Alias

macro "tomega" : tactic => `(tactic| (simp only [Tag] at *; omega))

/-- The new names. -/
def names : List Act → List Tag
  | [] => []
  | .retag _ n _ _ :: r => n :: names r
  | .beside _ n _ _ :: r => n :: names r
  | .alloc n :: r => n :: names r
  | _ :: r => names r

/-- No memory comes or goes. -/
def plain (as : List Act) : Bool := as.all fun a => match a with | .alloc _ => false | .free _ => false | _ => true

theorem names_append (a b : List Act) : names (a ++ b) = names a ++ names b := by
  induction a with
  | nil => rfl
  | cons x r ih => cases x <;> simp [names, ih]

theorem names_ren (f : Tag → Tag) (as : List Act) : names (as.map (Act.ren f)) = (names as).map f := by
  induction as with
  | nil => rfl
  | cons x r ih => cases x <;> simp [names, Act.ren, ih]

theorem plain_ren (f : Tag → Tag) (as : List Act) : plain (as.map (Act.ren f)) = plain as := by
  simp only [plain, List.all_map]
  congr 1
  funext a
  cases a <;> rfl

theorem run_append (R : Rules) (st : R.State) (a b : List Act) : R.run st (a ++ b) = (R.run st a).bind fun st' => R.run st' b := by
  induction a generalizing st with
  | nil => rfl
  | cons x r ih =>
    simp only [List.cons_append, Rules.run]
    cases R.step st x with
    | none => rfl
    | some st' => exact ih st'

structure Theory (R : Rules) where
  tags : R.State → List Tag
  /-- The pointer may be used for everything. -/
  Good : Tag → R.State → Prop
  Frame : Nat → Tag → R.State → R.State → Prop
  ok : Option Tag → List Act → Option (Option Tag)
  bad : Tag → List Act → Bool
  tags_run : ∀ {as st st'}, R.run st as = some st' → ∀ u ∈ tags st', u ∈ tags st ∨ u ∈ names as
  frame_trans : ∀ {n n' t a b c}, n ≤ n' → Frame n t a b → Frame n' t b c → Frame n t a c
  sound : ∀ {f : Tag → Tag} {n : Nat} {o o' : Option Tag} {as : List Act} {st : R.State}, Function.Injective f → (∀ u ∈ tags st, u < n) → (∀ k, 2 ≤ k → n ≤ f k) →
    (∀ t, o = some t → t < 2 ∧ Good (f t) st) → ok o as = some o' →
    ∃ st', R.run st (as.map (Act.ren f)) = some st' ∧ (∀ t, o' = some t → Good (f t) st') ∧
      (∀ t, o = some t → o' = some t → plain as = true → Frame n (f t) st st')
  unsound : ∀ {f : Tag → Tag} {n : Nat} {t : Tag} {as : List Act} {st : R.State}, Function.Injective f → (∀ u ∈ tags st, u < n) → (∀ k, 2 ≤ k → n ≤ f k) →
    t < 2 → Good (f t) st → bad t as = true → R.run st (as.map (Act.ren f)) = none
  call : ∀ {st : R.State} {p n : Tag}, (∀ u ∈ tags st, u < n) → p < n → Good p st →
    ∃ st1, R.step st (.retag p n .excl true) = some st1 ∧ Good n st1 ∧
      ∀ st2, Good n st2 → Frame (n + 1) n st1 st2 → ∃ st3, R.step st2 (.release n) = some st3 ∧ Good p st3 ∧ Frame n p st st3
  release_none : ∀ {st : R.State} {u : Tag}, u ∉ tags st → R.step st (.release u) = some st
  release_some : ∀ (st : R.State) (u : Tag), ∃ st', R.step st (.release u) = some st'
  beside_some : ∀ (st : R.State) (p n : Tag) (k : Kind) (pr : Bool), ∃ st', R.step st (.beside p n k pr) = some st'

/-! ### Stacked Borrows -/

namespace SB

def above (t : Tag) (st : List Item) : List Item := st.takeWhile fun i => i.tag ≠ t

def below (t : Tag) (st : List Item) : List Item := st.dropWhile fun i => i.tag ≠ t

theorem split (t : Tag) (st : List Item) : st = above t st ++ below t st := (List.takeWhile_append_dropWhile).symm

theorem above_ne {t : Tag} {st : List Item} : ∀ i ∈ above t st, i.tag ≠ t := by
  intro i hi
  unfold above at hi
  induction st with
  | nil => simp at hi
  | cons k r ih =>
    by_cases h : k.tag = t
    · simp [h] at hi
    · rw [List.takeWhile_cons_of_pos (by simpa using h)] at hi
      rcases List.mem_cons.mp hi with rfl | hi
      · exact h
      · exact ih hi

theorem above_eq {t : Tag} {l : List Item} {g : Item} {b : List Item} (hl : ∀ i ∈ l, i.tag ≠ t) (hg : g.tag = t) : above t (l ++ g :: b) = l := by
  induction l with
  | nil => simp [above, hg]
  | cons i r ih =>
    have := hl i (by simp)
    simp only [above, List.cons_append] at ih ⊢
    rw [List.takeWhile_cons_of_pos (by simpa using this), ih fun i hi => hl i (by simp [hi])]

theorem below_eq {t : Tag} {l : List Item} {g : Item} {b : List Item} (hl : ∀ i ∈ l, i.tag ≠ t) (hg : g.tag = t) : below t (l ++ g :: b) = g :: b := by
  induction l with
  | nil => simp [below, hg]
  | cons i r ih =>
    have := hl i (by simp)
    simp only [below, List.cons_append] at ih ⊢
    rw [List.dropWhile_cons_of_pos (by simpa using this), ih fun i hi => hl i (by simp [hi])]

def tags (st : List Item) : List Tag := st.map (·.tag)

def Good (t : Tag) (st : List Item) : Prop := (∀ i ∈ above t st, i.prot = false) ∧ ∃ p base, below t st = ⟨t, .unique, p⟩ :: base

def Frame (n : Nat) (t : Tag) (st st' : List Item) : Prop :=
  below t st' = below t st ∧ ∀ i ∈ above t st', (∃ k ∈ above t st, k.tag = i.tag) ∨ n ≤ i.tag

theorem good_iff {t : Tag} {st : List Item} : Good t st ↔ ∃ junk p base, st = junk ++ ⟨t, .unique, p⟩ :: base ∧ ∀ i ∈ junk, i.tag ≠ t ∧ i.prot = false := by
  constructor
  · rintro ⟨h, p, base, e⟩
    exact ⟨above t st, p, base, by rw [← e]; exact split t st, fun i hi => ⟨above_ne i hi, h i hi⟩⟩
  · rintro ⟨junk, p, base, rfl, h⟩
    refine ⟨?_, p, base, below_eq (fun i hi => (h i hi).1) rfl⟩
    rw [above_eq (fun i hi => (h i hi).1) rfl]
    exact fun i hi => (h i hi).2

def start : Option Tag → SRel
  | none => .dead
  | some o => .live o []

def fin : SRel → Option (Option Tag)
  | .dead => some none
  | .live o a => if a.all (fun i => 2 ≤ i.tag && i.tag ≠ o && !i.prot) then some (some o) else none

def ok (o : Option Tag) (as : List Act) : Option (Option Tag) := (rRun (start o) as).bind fin

def bad (o : Tag) (as : List Act) : Bool := rBad (.live o []) as

theorem sbRead_tags {t : Tag} {st st' : List Item} (h : sbRead t st = some st') : ∀ i ∈ st', ∃ k ∈ st, k.tag = i.tag := by
  induction st generalizing st' with
  | nil => simp [sbRead] at h
  | cons k r ih =>
    rw [sbRead] at h
    split at h
    · cases h; exact fun i hi => ⟨i, hi, rfl⟩
    · split at h
      · split at h
        · simp at h
        · cases e : sbRead t r with
          | none => simp [e] at h
          | some r' =>
            simp only [e, Option.map_some, Option.some.injEq] at h
            subst h
            intro i hi
            rcases List.mem_cons.mp hi with rfl | hi
            · exact ⟨k, by simp, rfl⟩
            · obtain ⟨m, hm, e'⟩ := ih e i hi
              exact ⟨m, by simp [hm], e'⟩
      · cases e : sbRead t r with
        | none => simp [e] at h
        | some r' =>
          simp only [e, Option.map_some, Option.some.injEq] at h
          subst h
          intro i hi
          rcases List.mem_cons.mp hi with rfl | hi
          · exact ⟨i, by simp, rfl⟩
          · obtain ⟨m, hm, e'⟩ := ih e i hi
            exact ⟨m, by simp [hm], e'⟩

theorem sbFind_parts {t : Tag} {st a b : List Item} {g : Item} (h : sbFind t st = some (a, g, b)) : st = a ++ g :: b := by
  induction st generalizing a with
  | nil => simp [sbFind] at h
  | cons k r ih =>
    rw [sbFind] at h
    split at h
    · cases h; rfl
    · cases e : sbFind t r with
      | none => simp [e] at h
      | some q =>
        obtain ⟨x, y, z⟩ := q
        simp only [e, Option.map_some, Option.some.injEq, Prod.mk.injEq] at h
        obtain ⟨rfl, rfl, rfl⟩ := h
        rw [ih e]
        rfl

theorem sbCut_sub (g : Item) (l : List Item) : (∀ i ∈ (sbCut g l).1, i ∈ l) ∧ ∀ i ∈ (sbCut g l).2, i ∈ l := by
  unfold sbCut
  split
  · refine ⟨fun i hi => List.mem_of_mem_take hi, fun i hi => ?_⟩
    simp only [List.mem_reverse] at hi
    simpa using (List.takeWhile_sublist _).subset hi
  · exact ⟨fun i hi => hi, by simp⟩

theorem sbWrite_tags {t : Tag} {st st' : List Item} (h : sbWrite t st = some st') : ∀ i ∈ st', i ∈ st := by
  rw [sbWrite] at h
  cases e : sbFind t st with
  | none => simp [e] at h
  | some q =>
    obtain ⟨x, g, y⟩ := q
    simp only [e] at h
    split at h
    · simp at h
    · cases h
      rw [sbFind_parts e]
      intro i hi
      rcases List.mem_append.mp hi with hi | hi
      · exact List.mem_append.mpr (.inl ((sbCut_sub g x).2 i hi))
      · exact List.mem_append.mpr (.inr hi)

theorem step_tags {a : Act} {st st' : List Item} (h : sbStep st a = some st') : ∀ u ∈ tags st', u ∈ tags st ∨ u ∈ names [a] := by
  intro u hu
  obtain ⟨i, hi, rfl⟩ := List.mem_map.mp hu
  have old : (∃ k ∈ st, k.tag = i.tag) → i.tag ∈ tags st ∨ i.tag ∈ names [a] := fun ⟨k, hk, e⟩ => .inl (List.mem_map.mpr ⟨k, hk, e⟩)
  cases a with
  | beside => cases h; exact old ⟨i, hi, rfl⟩
  | read t => exact old (sbRead_tags h i hi)
  | write t => exact old ⟨i, sbWrite_tags h i hi, rfl⟩
  | release t =>
    cases h
    obtain ⟨k, hk, rfl⟩ := List.mem_map.mp hi
    refine old ⟨k, hk, ?_⟩
    split <;> rfl
  | alloc t => cases h; simp only [List.mem_singleton] at hi; subst hi; exact .inr (by simp [names])
  | free t =>
    simp only [sbStep, Option.map_eq_some_iff] at h
    obtain ⟨_, _, rfl⟩ := h
    simp at hi
  | retag p n k pr =>
    have ret : ∀ {l : List Item} {pm : Perm}, (∀ j ∈ l, ∃ k ∈ st, k.tag = j.tag) → i ∈ (⟨n, pm, pr⟩ : Item) :: l → i.tag ∈ tags st ∨ i.tag ∈ names [.retag p n k pr] := by
      intro l pm hl hi
      rcases List.mem_cons.mp hi with rfl | hi
      · exact .inr (by simp [names])
      · exact old (hl i hi)
    cases k with
    | excl =>
      simp only [sbStep, Option.map_eq_some_iff] at h
      obtain ⟨l, hl, rfl⟩ := h
      exact ret (fun j hj => ⟨j, sbWrite_tags hl j hj, rfl⟩) hi
    | shared =>
      simp only [sbStep, Option.map_eq_some_iff] at h
      obtain ⟨l, hl, rfl⟩ := h
      exact ret (sbRead_tags hl) hi
    | rawConst =>
      simp only [sbStep, Option.map_eq_some_iff] at h
      obtain ⟨l, hl, rfl⟩ := h
      exact ret (sbRead_tags hl) hi
    | raw =>
      simp only [sbStep] at h
      cases e : sbFind p st with
      | none => simp [e] at h
      | some q =>
        obtain ⟨x, g, y⟩ := q
        simp only [e, Option.some.injEq] at h
        subst h
        have hs := sbFind_parts e
        simp only [List.append_assoc, List.cons_append, List.mem_append, List.mem_cons] at hi
        rcases hi with hi | rfl | hi | rfl | hi
        · exact old ⟨i, by rw [hs]; simp [(sbCut_sub g x).1 i hi], rfl⟩
        · exact .inr (by simp [names])
        · exact old ⟨i, by rw [hs]; simp [(sbCut_sub g x).2 i hi], rfl⟩
        · exact old ⟨i, by rw [hs]; simp, rfl⟩
        · exact old ⟨i, by rw [hs]; simp [hi], rfl⟩

theorem tags_run {as : List Act} {st st' : List Item} (h : stacked.run st as = some st') : ∀ u ∈ tags st', u ∈ tags st ∨ u ∈ names as := by
  induction as generalizing st with
  | nil => cases h; exact fun u hu => .inl hu
  | cons a r ih =>
    simp only [Rules.run, stacked] at h ih
    cases e : sbStep st a with
    | none => simp [e] at h
    | some st1 =>
      simp only [e, Option.bind_some] at h
      intro u hu
      have hn : names (a :: r) = names [a] ++ names r := names_append [a] r
      rcases ih h u hu with h1 | h1
      · rcases step_tags e u h1 with h2 | h2
        · exact .inl h2
        · exact .inr (by rw [hn]; simp [h2])
      · exact .inr (by rw [hn]; simp [h1])

theorem call {st : List Item} {p n : Tag} (hn : ∀ u ∈ tags st, u < n) (hp : p < n) (h : Good p st) :
    ∃ st1, sbStep st (.retag p n .excl true) = some st1 ∧ Good n st1 ∧
      ∀ st2, Good n st2 → Frame (n + 1) n st1 st2 → ∃ st3, sbStep st2 (.release n) = some st3 ∧ Good p st3 ∧ Frame n p st st3 := by
  obtain ⟨junk, q, base, rfl, hj⟩ := good_iff.mp h
  have e1 : sbWrite p (junk ++ ⟨p, .unique, q⟩ :: base) = some (⟨p, .unique, q⟩ :: base) := by
    rw [sbWrite, sbFind_rest fun i hi => (hj i hi).1]
    simp only [sbCut, reduceCtorEq, if_false, List.nil_append]
    rw [if_neg]
    simp only [List.any_eq_true, not_exists, not_and]
    intro i hi
    simp [(hj i hi).2]
  refine ⟨⟨n, .unique, true⟩ :: ⟨p, .unique, q⟩ :: base, by simp only [sbStep, e1, Option.map_some], ?_, ?_⟩
  · exact good_iff.mpr ⟨[], true, _, rfl, by simp⟩
  · intro st2 h2 ⟨hf1, hf2⟩
    have hb1 : below n ((⟨n, .unique, true⟩ : Item) :: ⟨p, .unique, q⟩ :: base) = ⟨n, .unique, true⟩ :: ⟨p, .unique, q⟩ :: base :=
      below_eq (l := []) (by simp) rfl
    have ha1 : above n ((⟨n, .unique, true⟩ : Item) :: ⟨p, .unique, q⟩ :: base) = [] := above_eq (l := []) (by simp) rfl
    rw [hb1] at hf1
    rw [ha1] at hf2
    have hs := split n st2
    rw [hf1] at hs
    have hab : ∀ i ∈ above n st2, i.tag ≠ n ∧ i.tag ≠ p ∧ n ≤ i.tag := by
      intro i hi
      have := above_ne i hi
      rcases hf2 i hi with ⟨k, hk, _⟩ | h
      · simp at hk
      · exact ⟨this, by tomega, by tomega⟩
    have hid : ∀ l : List Item, (∀ i ∈ l, i.tag ≠ n) → l.map (fun i => if i.tag = n then { i with prot := false } else i) = l := by
      intro l hl
      conv => rhs; rw [← List.map_id l]
      apply List.map_congr_left
      intro i hi
      rw [if_neg (hl i hi)]
      rfl
    have hb : ∀ i ∈ (⟨p, .unique, q⟩ : Item) :: base, i.tag ≠ n := by
      intro i hi
      have := hn i.tag (List.mem_map.mpr ⟨i, by simp [hi], rfl⟩)
      tomega
    refine ⟨above n st2 ++ ⟨n, .unique, false⟩ :: ⟨p, .unique, q⟩ :: base, ?_, ?_, ?_⟩
    · rw [hs]
      simp only [sbStep, List.map_append]
      rw [above_eq (fun i hi => (hab i hi).1) rfl, hid _ fun i hi => (hab i hi).1, List.map_cons, hid _ hb]
      simp
    · refine good_iff.mpr ⟨above n st2 ++ [⟨n, .unique, false⟩], q, base, by simp, ?_⟩
      intro i hi
      rcases List.mem_append.mp hi with hi | hi
      · exact ⟨(hab i hi).2.1, h2.1 i hi⟩
      · simp only [List.mem_singleton] at hi
        subst hi
        exact ⟨by simp only []; tomega, rfl⟩
    · have hne : ∀ i ∈ above n st2 ++ [(⟨n, .unique, false⟩ : Item)], i.tag ≠ p := by
        intro i hi
        rcases List.mem_append.mp hi with hi | hi
        · exact (hab i hi).2.1
        · simp only [List.mem_singleton] at hi
          subst hi
          simp only []; tomega
      have e3 : above n st2 ++ (⟨n, .unique, false⟩ : Item) :: ⟨p, .unique, q⟩ :: base =
          (above n st2 ++ [(⟨n, .unique, false⟩ : Item)]) ++ ⟨p, .unique, q⟩ :: base := by simp
      refine ⟨?_, ?_⟩
      · rw [e3, below_eq hne rfl, below_eq (fun i hi => (hj i hi).1) rfl]
      · rw [e3, above_eq hne rfl]
        intro i hi
        right
        rcases List.mem_append.mp hi with hi | hi
        · exact (hab i hi).2.2
        · simp only [List.mem_singleton] at hi
          subst hi
          exact Nat.le_refl n

theorem inside {f : Tag → Tag} {n : Nat} {t : Tag} {st : List Item} (ht : t < 2) (hg : Good (f t) st) :
    SIn (fun u => u ∈ tags st) f ((above (f t) st).map (·.tag)) (fun o' p base => o' = t → below (f t) st = ⟨f t, .unique, p⟩ :: base) (.live t []) st := by
  obtain ⟨h1, p, base, e⟩ := hg
  have hs := split (f t) st
  rw [e] at hs
  have hm : ∀ i ∈ above (f t) st ++ base, i.tag ∈ tags st := by
    intro i hi
    refine List.mem_map.mpr ⟨i, ?_, rfl⟩
    rw [hs]
    rcases List.mem_append.mp hi with h | h
    · exact List.mem_append.mpr (.inl h)
    · exact List.mem_append.mpr (.inr (List.mem_cons_of_mem _ h))
  exact ⟨above (f t) st, p, base, by simpa using hs, fun i hi => ⟨above_ne i hi, h1 i hi⟩, fun i hi => List.mem_map.mpr ⟨i, hi, rfl⟩,
    fun i hi => .inl (hm i hi), fun _ => e⟩

theorem sound {f : Tag → Tag} {n : Nat} {o o' : Option Tag} {as : List Act} {st : List Item} (hf : Function.Injective f) (hn : ∀ u ∈ tags st, u < n)
    (hk : ∀ k, 2 ≤ k → n ≤ f k) (hg : ∀ t, o = some t → t < 2 ∧ Good (f t) st) (h : ok o as = some o') :
    ∃ st', stacked.run st (as.map (Act.ren f)) = some st' ∧ (∀ t, o' = some t → Good (f t) st') ∧
      (∀ t, o = some t → o' = some t → plain as = true → Frame n (f t) st st') := by
  have hB : ∀ k, 2 ≤ k → ¬ (fun u => u ∈ tags st) (f k) := fun k h1 h2 => by have := hn _ h2; have := hk k h1; tomega
  simp only [ok] at h
  cases e : rRun (start o) as with
  | none => simp [e] at h
  | some s =>
    simp only [e, Option.bind_some] at h
    have key : ∀ {J fr}, (∀ t, 2 ≤ t → fr t false []) → SIn (fun u => u ∈ tags st) f J fr (start o) st →
        ∃ st', stacked.run st (as.map (Act.ren f)) = some st' ∧ (∀ t, o' = some t → Good (f t) st' ∧
          ∃ p base, fr t p base ∧ below (f t) st' = ⟨f t, .unique, p⟩ :: base ∧ ∀ i ∈ above (f t) st', i.tag ∈ J ∨ n ≤ i.tag) := by
      intro J fr hfr hi
      obtain ⟨st', e1, h1⟩ := sb_sim hf hB hfr e hi
      refine ⟨st', e1, ?_⟩
      intro t ht
      subst ht
      cases s with
      | dead => simp [fin] at h
      | live o1 a =>
        simp only [fin] at h
        split at h
        · rename_i hall
          cases h
          obtain ⟨junk, p, base, rfl, hj, hJ, hb, hr⟩ := h1
          simp only [List.all_eq_true, Bool.and_eq_true, decide_eq_true_eq, Bool.not_eq_true'] at hall
          have hne : ∀ i ∈ a.map (Item.ren f) ++ junk, i.tag ≠ f t ∧ i.prot = false := by
            intro i hi
            rcases List.mem_append.mp hi with hi | hi
            · obtain ⟨k, hk', rfl⟩ := List.mem_map.mp hi
              exact ⟨fun e' => (hall k hk').1.2 (hf e'), (hall k hk').2⟩
            · exact hj i hi
          have e3 : a.map (Item.ren f) ++ (junk ++ (⟨f t, .unique, p⟩ : Item) :: base) = (a.map (Item.ren f) ++ junk) ++ ⟨f t, .unique, p⟩ :: base := by simp
          refine ⟨good_iff.mpr ⟨_, p, base, e3, hne⟩, p, base, hr, ?_, ?_⟩
          · rw [e3, below_eq (fun i hi => (hne i hi).1) rfl]
          · rw [e3, above_eq (fun i hi => (hne i hi).1) rfl]
            intro i hi
            rcases List.mem_append.mp hi with hi | hi
            · obtain ⟨k, hk', rfl⟩ := List.mem_map.mp hi
              exact .inr (hk _ (hall k hk').1.1)
            · exact .inl (hJ i hi)
        · simp at h
    cases o with
    | none =>
      obtain ⟨st', e1, h1⟩ := key (J := []) (fr := fun _ _ _ => True) (fun _ _ => trivial) trivial
      exact ⟨st', e1, fun t ht => (h1 t ht).1, by simp⟩
    | some t =>
      obtain ⟨ht, hgt⟩ := hg t rfl
      obtain ⟨st', e1, h1⟩ := key (fun u hu => fun e' => absurd (e' ▸ hu) (by tomega)) (inside (n := n) ht hgt)
      refine ⟨st', e1, fun u hu => (h1 u hu).1, ?_⟩
      intro u hu hu' _
      cases hu
      obtain ⟨_, p, base, e2, e3, h3⟩ := h1 t hu'
      refine ⟨by rw [e3, e2 rfl], ?_⟩
      intro i hi
      rcases h3 i hi with h | h
      · obtain ⟨k, hk', e4⟩ := List.mem_map.mp h
        exact .inl ⟨k, hk', e4⟩
      · exact .inr h

theorem unsound {f : Tag → Tag} {n : Nat} {t : Tag} {as : List Act} {st : List Item} (hf : Function.Injective f) (hn : ∀ u ∈ tags st, u < n)
    (hk : ∀ k, 2 ≤ k → n ≤ f k) (ht : t < 2) (hg : Good (f t) st) (h : bad t as = true) : stacked.run st (as.map (Act.ren f)) = none := by
  have hB : ∀ k, 2 ≤ k → ¬ (fun u => u ∈ tags st) (f k) := fun k h1 h2 => by have := hn _ h2; have := hk k h1; tomega
  exact sb_bad hf hB (fun u hu => fun e' => absurd (e' ▸ hu) (by tomega)) h (inside (n := n) ht hg)

def theory : Theory stacked where
  tags := tags
  Good := Good
  Frame := Frame
  ok := ok
  bad := bad
  tags_run := tags_run
  frame_trans := by
    intro n n' t a b c hn ⟨h1, h2⟩ ⟨h3, h4⟩
    refine ⟨h3.trans h1, ?_⟩
    intro i hi
    rcases h4 i hi with ⟨k, hk, e⟩ | h
    · rcases h2 k hk with ⟨m, hm, e'⟩ | h
      · exact .inl ⟨m, hm, e'.trans e⟩
      · exact .inr (e ▸ h)
    · exact .inr (Nat.le_trans hn h)
  sound := sound
  unsound := unsound
  call := call
  release_none := by
    intro st u hu
    simp only [stacked, sbStep]
    congr 1
    conv => rhs; rw [← List.map_id st]
    apply List.map_congr_left
    intro i hi
    rw [if_neg]
    · rfl
    · intro e
      exact hu (List.mem_map.mpr ⟨i, hi, e⟩)
  release_some := fun _ _ => ⟨_, rfl⟩
  beside_some := fun _ _ _ _ _ => ⟨_, rfl⟩

end SB

/-! ### Tree Borrows -/

namespace TB

def tags (st : List Node) : List Tag := st.map (·.tag)

def Frame (_ : Nat) (_ : Tag) (st st' : List Node) : Prop :=
  (∀ u ∈ tags st, u ∈ tags st') ∧ ∀ u ∈ tags st, tbPath (some u) st' = tbPath (some u) st

def start : Option Tag → TRel
  | none => .dead
  | some o => .live o []

def fin : TRel → Option (Option Tag)
  | .dead => some none
  | .live o a => if a.all (fun i => !i.prot) then some (some o) else none

def ok (o : Option Tag) (as : List Act) : Option (Option Tag) := if (names as).all (2 ≤ ·) then (tRun (start o) as).bind fin else none

def bad (o : Tag) (as : List Act) : Bool := tBad (.live o []) as

theorem tbAccess_all {w : Bool} {t : Tag} {st st' : List Node} (h : tbAccess w t st = some st') : ∃ p, tbAll w p st = some st' := by
  unfold tbAccess at h
  split at h
  · simp at h
  · exact ⟨_, h⟩

theorem all_tags {w : Bool} {p : List Tag} {st st' : List Node} (h : tbAll w p st = some st') : tags st' = tags st := by
  induction st generalizing st' with
  | nil => cases h; rfl
  | cons n r ih =>
    obtain ⟨n', r', rfl, e1, e2⟩ := tbAll_cons h
    simp only [tags, List.map_cons] at ih ⊢
    rw [ih e2, (one_same e1).1]

theorem path_release (u : Tag) (t : Option Tag) (st : List Node) :
    tbPath t (st.map fun n => if n.tag = u then { n with prot := false } else n) = tbPath t st := by
  induction st generalizing t with
  | nil => rfl
  | cons n r ih =>
    have e1 : (if n.tag = u then { n with prot := false } else n).tag = n.tag := by split <;> rfl
    have e2 : (if n.tag = u then { n with prot := false } else n).parent = n.parent := by split <;> rfl
    simp only [List.map_cons, tbPath, e1, e2, ih]

theorem tags_release (u : Tag) (st : List Node) : tags (st.map fun n => if n.tag = u then { n with prot := false } else n) = tags st := by
  simp only [tags, List.map_map]
  apply List.map_congr_left
  intro n _
  simp only [Function.comp_apply]
  split <;> rfl

theorem path_cons {n : Node} {u : Tag} {st : List Node} (h : n.tag ≠ u) : tbPath (some u) (n :: st) = tbPath (some u) st := by
  rw [tbPath, if_neg]
  simpa using h

/-- What a step does to names and ways. -/
theorem step_shape {a : Act} {st st' : List Node} (h : tbStep st a = some st') :
    (∀ u ∈ tags st', u ∈ tags st ∨ u ∈ names [a]) ∧
    (plain [a] = true → (∀ u ∈ tags st, u ∈ tags st') ∧ ∀ u, u ∉ names [a] → tbPath (some u) st' = tbPath (some u) st) := by
  have acc : ∀ {w t st'}, tbAccess w t st = some st' → tags st' = tags st ∧ ∀ u, tbPath (some u) st' = tbPath (some u) st := by
    intro w t st' h
    obtain ⟨p, h⟩ := tbAccess_all h
    exact ⟨all_tags h, fun u => tbAll_path h (some u)⟩
  have add : ∀ {n : Tag} {nd : Node} {l : List Node}, nd.tag = n → (tags l = tags st ∧ ∀ u, tbPath (some u) l = tbPath (some u) st) →
      (∀ u ∈ tags (nd :: l), u ∈ tags st ∨ u ∈ [n]) ∧
      ((∀ u ∈ tags st, u ∈ tags (nd :: l)) ∧ ∀ u, u ∉ [n] → tbPath (some u) (nd :: l) = tbPath (some u) st) := by
    intro n nd l e ⟨h1, h2⟩
    refine ⟨?_, ?_, ?_⟩
    · intro u hu
      rcases List.mem_cons.mp hu with rfl | hu
      · exact .inr (by simp [e])
      · exact .inl (h1 ▸ hu)
    · intro u hu
      exact List.mem_cons_of_mem _ (by rw [← h1] at hu; exact hu)
    · intro u hu
      rw [path_cons, h2]
      intro e'
      exact hu (by simp [← e', e])
  cases a with
  | beside p n k pr =>
    cases h
    obtain ⟨h1, h2⟩ := add (n := n) (nd := ⟨n, some p, tbPerm k, pr, false⟩) (l := st) rfl ⟨rfl, fun _ => rfl⟩
    exact ⟨h1, fun _ => h2⟩
  | read t =>
    obtain ⟨h1, h2⟩ := acc h
    exact ⟨fun u hu => .inl (h1 ▸ hu), fun _ => ⟨fun u hu => h1.symm ▸ hu, fun u _ => h2 u⟩⟩
  | write t =>
    obtain ⟨h1, h2⟩ := acc h
    exact ⟨fun u hu => .inl (h1 ▸ hu), fun _ => ⟨fun u hu => h1.symm ▸ hu, fun u _ => h2 u⟩⟩
  | release t =>
    cases h
    exact ⟨fun u hu => .inl (tags_release t st ▸ hu), fun _ => ⟨fun u hu => (tags_release t st).symm ▸ hu, fun u _ => path_release t (some u) st⟩⟩
  | alloc t =>
    cases h
    exact ⟨fun u hu => .inr (by simpa [tags, names] using hu), by simp [plain]⟩
  | free t =>
    simp only [tbStep, Option.map_eq_some_iff] at h
    obtain ⟨_, _, rfl⟩ := h
    exact ⟨by simp [tags], by simp [plain]⟩
  | retag p n k pr =>
    simp only [tbStep] at h
    split at h
    · split at h
      · simp at h
      · cases h
        obtain ⟨h1, h2⟩ := add (n := n) (nd := ⟨n, some p, .raw, false, false⟩) (l := st) rfl ⟨rfl, fun _ => rfl⟩
        exact ⟨h1, fun _ => h2⟩
    · simp only [Option.map_eq_some_iff] at h
      obtain ⟨l, hl, rfl⟩ := h
      obtain ⟨h1, h2⟩ := add (n := n) (nd := ⟨n, some p, tbPerm k, pr, true⟩) (l := l) rfl (acc hl)
      exact ⟨h1, fun _ => h2⟩

theorem run_shape {as : List Act} {st st' : List Node} (h : tree.run st as = some st') :
    (∀ u ∈ tags st', u ∈ tags st ∨ u ∈ names as) ∧
    (plain as = true → (∀ u ∈ tags st, u ∈ tags st') ∧ ∀ u, u ∉ names as → tbPath (some u) st' = tbPath (some u) st) := by
  induction as generalizing st with
  | nil => cases h; exact ⟨fun u hu => .inl hu, fun _ => ⟨fun u hu => hu, fun u _ => rfl⟩⟩
  | cons a r ih =>
    simp only [Rules.run, tree] at h ih
    cases e : tbStep st a with
    | none => simp [e] at h
    | some st1 =>
      simp only [e, Option.bind_some] at h
      have hn : names (a :: r) = names [a] ++ names r := names_append [a] r
      obtain ⟨h1, h2⟩ := ih h
      obtain ⟨h3, h4⟩ := step_shape e
      refine ⟨?_, ?_⟩
      · intro u hu
        rcases h1 u hu with h5 | h5
        · rcases h3 u h5 with h6 | h6
          · exact .inl h6
          · exact .inr (by rw [hn]; simp [h6])
        · exact .inr (by rw [hn]; simp [h5])
      · intro hp
        have hp1 : plain [a] = true := by
          simp only [plain, List.all_cons, List.all_nil, Bool.and_true, Bool.and_eq_true] at hp ⊢
          exact hp.1
        have hp2 : plain r = true := by
          simp only [plain, List.all_cons, Bool.and_eq_true] at hp ⊢
          exact hp.2
        refine ⟨fun u hu => (h2 hp2).1 u ((h4 hp1).1 u hu), ?_⟩
        intro u hu
        rw [hn, List.mem_append, not_or] at hu
        rw [(h2 hp2).2 u hu.2, (h4 hp1).2 u hu.1]

theorem path_tags {t : Option Tag} {st : List Node} : ∀ u ∈ tbPath t st, u ∈ tags st := by
  intro u hu
  obtain ⟨n, hn, e⟩ := tbPath_sub u hu
  exact List.mem_map.mpr ⟨n, hn, e⟩

theorem call {st : List Node} {p n : Tag} (hn : ∀ u ∈ tags st, u < n) (hp : p < n) (h : Free p st) :
    ∃ st1, tbStep st (.retag p n .excl true) = some st1 ∧ Free n st1 ∧
      ∀ st2, Free n st2 → Frame (n + 1) n st1 st2 → ∃ st3, tbStep st2 (.release n) = some st3 ∧ Free p st3 ∧ Frame n p st st3 := by
  obtain ⟨base, e, hfr⟩ := h.access false
  have ha : tbAccess false p st = some base := by
    unfold tbAccess
    split
    · rename_i h'; exact absurd h' h.path
    · exact e
  have hpn : p ≠ n := by tomega
  have htag : tags base = tags st := all_tags e
  have hbn : ∀ m ∈ base, m.tag ≠ n := by
    intro m hm e'
    have := hn m.tag (by rw [← htag]; exact List.mem_map.mpr ⟨m, hm, rfl⟩)
    tomega
  have hnb : n ∉ tbPath (some p) base := by
    intro h'
    obtain ⟨m, hm, e'⟩ := tbPath_sub n h'
    exact hbn m hm e'
  have hpath : tbPath (some n) (⟨n, some p, .reserved false, true, true⟩ :: base) = n :: tbPath (some p) base := by
    rw [tbPath, if_pos rfl]
  refine ⟨⟨n, some p, .reserved false, true, true⟩ :: base, ?_, ⟨by simp [hpath], ?_, ?_⟩, ?_⟩
  · simp only [tbStep, reduceCtorEq, or_self, if_false, ha, Option.map_some, tbPerm]
  · rw [hpath]
    intro m hm hmp
    rcases List.mem_cons.mp hm with rfl | hm
    · exact .inr (.inr ⟨false, rfl, rfl⟩)
    · rcases List.mem_cons.mp hmp with h' | h'
      · exact absurd h' (hbn m hm)
      · exact hfr.on m hm h'
  · rw [hpath]
    intro m hm hmp
    rcases List.mem_cons.mp hm with rfl | hm
    · simp at hmp
    · exact hfr.off m hm fun h' => hmp (List.mem_cons_of_mem _ h')
  · intro st2 h2 ⟨hs1, hs2⟩
    have hn1 : n ∈ tags ((⟨n, some p, .reserved false, true, true⟩ : Node) :: base) := by simp [tags]
    have hp1 : p ∈ tags ((⟨n, some p, .reserved false, true, true⟩ : Node) :: base) := by
      by_cases hpb : p ∈ tags base
      · exact List.mem_cons_of_mem _ hpb
      · exfalso
        apply h.path
        have : ∀ l : List Node, p ∉ tags l → tbPath (some p) l = [] := by
          intro l hl
          induction l with
          | nil => rfl
          | cons m r ih =>
            simp only [tags, List.map_cons, List.mem_cons, not_or] at hl ih
            rw [path_cons (fun e => hl.1 e.symm)]
            exact ih hl.2
        exact this st (htag ▸ hpb)
    have e1 := hs2 n hn1
    have e2 := hs2 p hp1
    rw [hpath] at e1
    rw [path_cons (by exact fun e => hpn e.symm)] at e2
    refine ⟨_, rfl, ⟨?_, ?_, ?_⟩, ?_, ?_⟩
    · rw [path_release, e2]; exact hfr.path
    · rw [path_release]
      intro m hm hmp
      obtain ⟨m2, hm2, rfl⟩ := List.mem_map.mp hm
      have ht : (if m2.tag = n then { m2 with prot := false } else m2).tag = m2.tag := by split <;> rfl
      rw [ht, e2] at hmp
      have hon := h2.on m2 hm2 (by rw [e1]; exact List.mem_cons_of_mem _ hmp)
      have : m2.tag ≠ n := fun e => hnb (e ▸ hmp)
      rw [if_neg this]
      exact hon
    · rw [path_release]
      intro m hm hmp
      obtain ⟨m2, hm2, rfl⟩ := List.mem_map.mp hm
      by_cases hmn : m2.tag = n
      · rw [if_pos hmn]
      · rw [if_neg hmn] at hmp ⊢
        refine h2.off m2 hm2 ?_
        rw [e1]
        intro h'
        rcases List.mem_cons.mp h' with h' | h'
        · exact hmn h'
        · exact hmp (e2.symm ▸ h')
    · intro u hu
      rw [tags_release]
      exact hs1 u (List.mem_cons_of_mem _ (by rw [← htag] at hu; exact hu))
    · intro u hu
      rw [path_release, hs2 u (List.mem_cons_of_mem _ (by rw [← htag] at hu; exact hu)), path_cons, tbAll_path e]
      have := hn u hu
      simp only []
      tomega

theorem inside {f : Tag → Tag} {t : Tag} {st : List Node} (hg : Free (f t) st) : TIn (fun u => u ∈ tags st) f (.live t []) st :=
  ⟨st, by simp, hg, fun m hm => .inl (List.mem_map.mpr ⟨m, hm, rfl⟩), by simp⟩

theorem sound {f : Tag → Tag} {n : Nat} {o o' : Option Tag} {as : List Act} {st : List Node} (hf : Function.Injective f) (hn : ∀ u ∈ tags st, u < n)
    (hk : ∀ k, 2 ≤ k → n ≤ f k) (hg : ∀ t, o = some t → t < 2 ∧ Free (f t) st) (h : ok o as = some o') :
    ∃ st', tree.run st (as.map (Act.ren f)) = some st' ∧ (∀ t, o' = some t → Free (f t) st') ∧
      (∀ t, o = some t → o' = some t → plain as = true → Frame n (f t) st st') := by
  have hB : ∀ k, 2 ≤ k → ¬ (fun u => u ∈ tags st) (f k) := fun k h1 h2 => by have := hn _ h2; have := hk k h1; tomega
  simp only [ok] at h
  by_cases hnm : (names as).all (2 ≤ ·) = true
  case neg => rw [if_neg hnm] at h; simp at h
  rw [if_pos hnm] at h
  rw [List.all_eq_true] at hnm
  cases e : tRun (start o) as with
  | none => simp [e] at h
  | some s =>
    simp only [e, Option.bind_some] at h
    have hi : TIn (fun u => u ∈ tags st) f (start o) st := by
      cases o with
      | none => trivial
      | some t => exact inside (hg t rfl).2
    obtain ⟨st', e1, h1⟩ := tb_sim hf hB e hi
    refine ⟨st', e1, ?_, ?_⟩
    · intro t ht
      subst ht
      cases s with
      | dead => simp [fin] at h
      | live o1 a =>
        simp only [fin] at h
        split at h
        · rename_i hall
          cases h
          simp only [List.all_eq_true, Bool.not_eq_true'] at hall
          obtain ⟨base, rfl, hr, hb, ha⟩ := h1
          have hap := apart hf hB hb ha
          have hpath : tbPath (some (f t)) (a.map (Node.ren f) ++ base) = tbPath (some (f t)) base := by
            have hw : ∀ l : List Node, (∀ m ∈ l, isNew m.tag t = true) → tWalk (some t) l = ([], some t) := by
              intro l hl
              induction l with
              | nil => rfl
              | cons m r ih =>
                have := hl m (by simp)
                simp only [isNew, Bool.and_eq_true, decide_eq_true_eq] at this
                rw [tWalk, if_neg (by simpa using this.2), ih fun m hm => hl m (by simp [hm])]
            have := tbPath_append (base := base) (a := a) hf (some t)
            rw [hw a ha] at this
            simpa using this
          refine ⟨by rw [hpath]; exact hr.path, ?_, ?_⟩
          · rw [hpath]
            intro m hm hmp
            rcases List.mem_append.mp hm with hm | hm
            · obtain ⟨k, hk', rfl⟩ := List.mem_map.mp hm
              obtain ⟨b, hb', eb⟩ := tbPath_sub _ hmp
              exact absurd eb.symm (hap k hk' b hb')
            · exact hr.on m hm hmp
          · rw [hpath]
            intro m hm hmp
            rcases List.mem_append.mp hm with hm | hm
            · obtain ⟨k, hk', rfl⟩ := List.mem_map.mp hm
              exact hall k hk'
            · exact hr.off m hm hmp
        · simp at h
    · intro t _ _ hp
      obtain ⟨_, h2⟩ := run_shape e1
      obtain ⟨h3, h4⟩ := h2 (by rw [plain_ren]; exact hp)
      refine ⟨h3, fun u hu => h4 u ?_⟩
      rw [names_ren]
      intro hu'
      obtain ⟨k, hk', rfl⟩ := List.mem_map.mp hu'
      exact hB k (by simpa using hnm k hk') hu

theorem unsound {f : Tag → Tag} {n : Nat} {t : Tag} {as : List Act} {st : List Node} (hf : Function.Injective f) (hn : ∀ u ∈ tags st, u < n)
    (hk : ∀ k, 2 ≤ k → n ≤ f k) (_ : t < 2) (hg : Free (f t) st) (h : bad t as = true) : tree.run st (as.map (Act.ren f)) = none := by
  have hB : ∀ k, 2 ≤ k → ¬ (fun u => u ∈ tags st) (f k) := fun k h1 h2 => by have := hn _ h2; have := hk k h1; tomega
  exact tb_bad hf hB h (inside hg)

def theory : Theory tree where
  tags := tags
  Good := Free
  Frame := Frame
  ok := ok
  bad := bad
  tags_run := fun h => (run_shape h).1
  frame_trans := by
    intro n n' t a b c hn ⟨h1, h2⟩ ⟨h3, h4⟩
    exact ⟨fun u hu => h3 u (h1 u hu), fun u hu => (h4 u (h1 u hu)).trans (h2 u hu)⟩
  sound := sound
  unsound := unsound
  call := call
  release_none := by
    intro st u hu
    simp only [tree, tbStep]
    congr 1
    conv => rhs; rw [← List.map_id st]
    apply List.map_congr_left
    intro i hi
    rw [if_neg]
    · rfl
    · intro e
      exact hu (List.mem_map.mpr ⟨i, hi, e⟩)
  release_some := fun _ _ => ⟨_, rfl⟩
  beside_some := fun _ _ _ _ _ => ⟨_, rfl⟩

end TB


/-! ### Functions one after the other -/

section logic
variable {R : Rules} (T : Theory R)

/-- From an octet that is owned by `o` (or by nobody) to one that is owned by `o'`.  The new names are from `n` to `n'`. -/
def Goes (o o' : Option Tag) (n n' : Nat) (as : List Act) : Prop :=
  n ≤ n' ∧ ∀ st, (∀ u ∈ T.tags st, u < n) → (∀ t, o = some t → t < n ∧ T.Good t st) →
    ∃ st', R.run st as = some st' ∧ (∀ u ∈ T.tags st', u ∈ T.tags st ∨ n ≤ u ∧ u < n') ∧ ∀ t, o' = some t → t < n' ∧ T.Good t st'

/-- `t` owns the octet, before and after, and who owned it before `t` is not touched. -/
def Keeps (t : Tag) (n n' : Nat) (as : List Act) : Prop :=
  n ≤ n' ∧ ∀ st, (∀ u ∈ T.tags st, u < n) → t < n → T.Good t st →
    ∃ st', R.run st as = some st' ∧ (∀ u ∈ T.tags st', u ∈ T.tags st ∨ n ≤ u ∧ u < n') ∧ T.Good t st' ∧ T.Frame n t st st'

/-- `t` owns the octet and the behaviour is undefined. -/
def Fails (t : Tag) (n : Nat) (as : List Act) : Prop := ∀ st, (∀ u ∈ T.tags st, u < n) → t < n → T.Good t st → R.run st as = none

variable {T}

theorem Goes.seq {o o' o'' : Option Tag} {n n' n'' : Nat} {a b : List Act} (h1 : Goes T o o' n n' a) (h2 : Goes T o' o'' n' n'' b) :
    Goes T o o'' n n'' (a ++ b) := by
  obtain ⟨l1, h1⟩ := h1
  obtain ⟨l2, h2⟩ := h2
  refine ⟨Nat.le_trans l1 l2, fun st ht hg => ?_⟩
  obtain ⟨st1, e1, t1, g1⟩ := h1 st ht hg
  obtain ⟨st2, e2, t2, g2⟩ := h2 st1 (fun u hu => by rcases t1 u hu with h | h; exact Nat.lt_of_lt_of_le (ht u h) l1; exact h.2) g1
  refine ⟨st2, by rw [run_append, e1]; exact e2, ?_, g2⟩
  intro u hu
  rcases t2 u hu with h | h
  · rcases t1 u h with h | h
    · exact .inl h
    · exact .inr ⟨h.1, Nat.lt_of_lt_of_le h.2 l2⟩
  · exact .inr ⟨Nat.le_trans l1 h.1, h.2⟩

theorem Keeps.seq {t : Tag} {n n' n'' : Nat} {a b : List Act} (h1 : Keeps T t n n' a) (h2 : Keeps T t n' n'' b) : Keeps T t n n'' (a ++ b) := by
  obtain ⟨l1, h1⟩ := h1
  obtain ⟨l2, h2⟩ := h2
  refine ⟨Nat.le_trans l1 l2, fun st ht hl hg => ?_⟩
  obtain ⟨st1, e1, t1, g1, f1⟩ := h1 st ht hl hg
  obtain ⟨st2, e2, t2, g2, f2⟩ := h2 st1 (fun u hu => by rcases t1 u hu with h | h; exact Nat.lt_of_lt_of_le (ht u h) l1; exact h.2)
    (Nat.lt_of_lt_of_le hl l1) g1
  refine ⟨st2, by rw [run_append, e1]; exact e2, ?_, g2, T.frame_trans l1 f1 f2⟩
  intro u hu
  rcases t2 u hu with h | h
  · rcases t1 u h with h | h
    · exact .inl h
    · exact .inr ⟨h.1, Nat.lt_of_lt_of_le h.2 l2⟩
  · exact .inr ⟨Nat.le_trans l1 h.1, h.2⟩

theorem Keeps.goes {t : Tag} {n n' : Nat} {a : List Act} (h : Keeps T t n n' a) : Goes T (some t) (some t) n n' a := by
  refine ⟨h.1, fun st ht hg => ?_⟩
  obtain ⟨st1, e1, t1, g1, f1⟩ := h.2 st ht (hg t rfl).1 (hg t rfl).2
  refine ⟨st1, e1, t1, ?_⟩
  intro u hu
  cases hu
  exact ⟨Nat.lt_of_lt_of_le (hg t rfl).1 h.1, g1⟩

theorem Goes.nil (o : Option Tag) (n : Nat) : Goes T o o n n [] := ⟨Nat.le_refl n, fun st _ hg => ⟨st, rfl, fun u hu => .inl hu, hg⟩⟩

/-- An event at other memory, and the return from the function. -/
theorem Goes.skip {o o' : Option Tag} {n n' : Nat} {a : List Act} (h : Goes T o o' (n + 1) n' a) (ho : ∀ t, o = some t → t < n) :
    Goes T o o' n n' (a ++ [.release n]) := by
  obtain ⟨l, h⟩ := h
  refine ⟨Nat.le_of_succ_le l, fun st ht hg => ?_⟩
  obtain ⟨st1, e1, t1, g1⟩ := h st (fun u hu => Nat.lt_succ_of_lt (ht u hu)) fun t e => ⟨Nat.lt_succ_of_lt (hg t e).1, (hg t e).2⟩
  refine ⟨st1, ?_, ?_, g1⟩
  · rw [run_append, e1]
    simp only [Option.bind_some, Rules.run]
    rw [T.release_none]
    · rfl
    · intro hu
      rcases t1 n hu with h | h
      · exact Nat.lt_irrefl _ (ht n h)
      · exact absurd h.1 (Nat.not_succ_le_self n)
  · intro u hu
    rcases t1 u hu with h | h
    · exact .inl h
    · exact .inr ⟨Nat.le_of_succ_le h.1, h.2⟩

/-- A call with `&mut`. -/
theorem Keeps.call {p : Tag} {n n' : Nat} {a : List Act} (h : Keeps T n (n + 1) n' a) : Keeps T p n n' (.retag p n .excl true :: a ++ [.release n]) := by
  obtain ⟨l, h⟩ := h
  refine ⟨Nat.le_of_succ_le l, fun st ht hp hg => ?_⟩
  obtain ⟨st1, e1, g1, k⟩ := T.call ht hp hg
  have hr1 : R.run st [.retag p n .excl true] = some st1 := by simp only [Rules.run, e1]; rfl
  have tt : ∀ u ∈ T.tags st1, u ∈ T.tags st ∨ u = n := by
    intro u hu
    rcases T.tags_run hr1 u hu with h | h
    · exact .inl h
    · simp only [names, List.mem_singleton] at h
      exact .inr h
  obtain ⟨st2, e2, t2, g2, f2⟩ := h st1 (fun u hu => by
    rcases tt u hu with h | h
    · exact Nat.lt_succ_of_lt (ht u h)
    · exact h ▸ Nat.lt_succ_self n) (Nat.lt_succ_self n) g1
  obtain ⟨st3, e3, g3, f3⟩ := k st2 g2 f2
  have hr3 : R.run st2 [.release n] = some st3 := by simp only [Rules.run, e3]; rfl
  refine ⟨st3, ?_, ?_, g3, f3⟩
  · rw [show (Act.retag p n .excl true :: a ++ [.release n]) = [.retag p n .excl true] ++ (a ++ [.release n]) from rfl, run_append, hr1]
    simp only [Option.bind_some]
    rw [run_append, e2]
    exact hr3
  · intro u hu
    rcases T.tags_run hr3 u hu with h | h
    · rcases t2 u h with h | h
      · rcases tt u h with h | h
        · exact .inl h
        · exact .inr ⟨h ▸ Nat.le_refl n, h ▸ l⟩
      · exact .inr ⟨Nat.le_of_succ_le h.1, h.2⟩
    · simp [names] at h

theorem Fails.after {t : Tag} {n n' : Nat} {a b : List Act} (h1 : Keeps T t n n' a) (h2 : Fails T t n' b) : Fails T t n (a ++ b) := by
  obtain ⟨l1, h1⟩ := h1
  intro st ht hl hg
  obtain ⟨st1, e1, t1, g1, f1⟩ := h1 st ht hl hg
  rw [run_append, e1]
  exact h2 st1 (fun u hu => by rcases t1 u hu with h | h; exact Nat.lt_of_lt_of_le (ht u h) l1; exact h.2) (Nat.lt_of_lt_of_le hl l1) g1

theorem Fails.more {t : Tag} {n : Nat} {a : List Act} (h : Fails T t n a) (b : List Act) : Fails T t n (a ++ b) := by
  intro st ht hl hg
  rw [run_append, h st ht hl hg]
  rfl

theorem Fails.call {p : Tag} {n : Nat} {a : List Act} (h : Fails T n (n + 1) a) (b : List Act) : Fails T p n (.retag p n .excl true :: a ++ b) := by
  intro st ht hp hg
  obtain ⟨st1, e1, g1, _⟩ := T.call ht hp hg
  have hr1 : R.run st [.retag p n .excl true] = some st1 := by simp only [Rules.run, e1]; rfl
  have tt : ∀ u ∈ T.tags st1, u < n + 1 := by
    intro u hu
    rcases T.tags_run hr1 u hu with h | h
    · exact Nat.lt_succ_of_lt (ht u h)
    · simp only [names, List.mem_singleton] at h
      exact h ▸ Nat.lt_succ_self n
  simp only [List.cons_append, Rules.run, e1, Option.bind_some]
  rw [run_append, h st1 tt (Nat.lt_succ_self n) g1]
  rfl

/-- Nothing is done at the octet. -/
def idle (as : List Act) : Bool := as.all fun a => match a with | .beside .. => true | .release _ => true | _ => false

theorem Goes.idle {n n' : Nat} {as : List Act} (hn : n ≤ n') (h : idle as = true) (hm : ∀ u ∈ names as, n ≤ u ∧ u < n') : Goes T none none n n' as := by
  refine ⟨hn, fun st _ _ => ?_⟩
  have key : ∀ (as : List Act) (st : R.State), Alias.idle as = true → ∃ st', R.run st as = some st' := by
    intro as
    induction as with
    | nil => exact fun st _ => ⟨st, rfl⟩
    | cons a r ih =>
      intro st h
      simp only [Alias.idle, List.all_cons, Bool.and_eq_true] at h
      have : ∃ st', R.step st a = some st' := by
        cases a with
        | beside p n k pr => exact T.beside_some st p n k pr
        | release u => exact T.release_some st u
        | _ => simp at h
      obtain ⟨st1, e⟩ := this
      obtain ⟨st2, e2⟩ := ih st1 h.2
      exact ⟨st2, by simp only [Rules.run, e, Option.bind_some]; exact e2⟩
  obtain ⟨st', e⟩ := key as st h
  refine ⟨st', e, ?_, by simp⟩
  intro u hu
  rcases T.tags_run e u hu with h | h
  · exact .inl h
  · exact .inr (hm u h)

/-! ### Functions checked alone -/

/-- The names of a function that is checked alone are 0 (the struct), 1 (the heap) and then new ones; here they are `s`, `h`, and from `n`. -/
def spread (s h n : Nat) : Tag → Tag
  | 0 => s
  | 1 => h
  | k + 2 => n + k

theorem spread_injective {s h n : Nat} (hs : s < n) (hh : h < n) (hne : s ≠ h) : Function.Injective (spread s h n) := by
  intro a b e
  match a, b with
  | 0, 0 => rfl
  | 0, 1 => exact absurd e hne
  | 1, 0 => exact absurd e.symm hne
  | 1, 1 => rfl
  | 0, b + 2 => exact absurd (show s = n + b from e) (by omega)
  | 1, b + 2 => exact absurd (show h = n + b from e) (by omega)
  | a + 2, 0 => exact absurd (show n + a = s from e) (by omega)
  | a + 2, 1 => exact absurd (show n + a = h from e) (by omega)
  | a + 2, b + 2 => have : n + a = n + b := e; rw [Nat.add_left_cancel this]

theorem spread_new {s h n : Nat} : ∀ k, 2 ≤ k → n ≤ spread s h n k := by
  intro k hk
  match k, hk with
  | k + 2, _ => exact Nat.le_add_right n k

/-- New names are below `m`. -/
def under (m : Nat) (as : List Act) : Bool := (names as).all fun k => 2 ≤ k && k < m

theorem spread_names {s h n m : Nat} {as : List Act} (hm : under m as = true) :
    ∀ u ∈ names (as.map (Act.ren (spread s h n))), n ≤ u ∧ u < n + (m - 2) := by
  intro u hu
  rw [names_ren] at hu
  obtain ⟨k, hk, rfl⟩ := List.mem_map.mp hu
  simp only [under, List.all_eq_true, Bool.and_eq_true, decide_eq_true_eq] at hm
  have := hm k hk
  refine ⟨spread_new k this.1, ?_⟩
  match k, this with
  | k + 2, ⟨_, h⟩ =>
    show n + k < n + (m - 2)
    have h' : @LT.lt Nat _ (k + 2) m := h
    simp only [Tag] at *
    omega

theorem goes_of {s h n m : Nat} {o o' : Option Tag} {as : List Act} (hs : s < n) (hh : h < n) (hne : s ≠ h) (ho : ∀ t, o = some t → t < 2)
    (ho' : ∀ t, o' = some t → t < m) (hm : under m as = true) (h2 : 2 ≤ m) (hok : T.ok o as = some o') :
    Goes T (o.map (spread s h n)) (o'.map (spread s h n)) n (n + (m - 2)) (as.map (Act.ren (spread s h n))) := by
  refine ⟨Nat.le_add_right _ _, fun st ht hg => ?_⟩
  obtain ⟨st', e, g, _⟩ := T.sound (spread_injective hs hh hne) ht spread_new (o := o) (fun t e => ⟨ho t e, (hg _ (by rw [e]; rfl)).2⟩) hok
  refine ⟨st', e, ?_, ?_⟩
  · intro u hu
    rcases T.tags_run e u hu with h | h
    · exact .inl h
    · exact .inr (spread_names hm u h)
  · intro t e'
    cases o' with
    | none => simp at e'
    | some k =>
      simp only [Option.map_some, Option.some.injEq] at e'
      subst e'
      refine ⟨?_, g k rfl⟩
      have := ho' k rfl
      match k, this with
      | 0, _ => show s < _; omega
      | 1, _ => show h < _; omega
      | k + 2, h' => show n + k < _; have h' : @LT.lt Nat _ (k + 2) m := h'; simp only [Tag] at *; omega

theorem keeps_of {s h n m : Nat} {o : Tag} {as : List Act} (hs : s < n) (hh : h < n) (hne : s ≠ h) (ho : o < 2)
    (hm : under m as = true) (hp : plain as = true) (hok : T.ok (some o) as = some (some o)) :
    Keeps T (spread s h n o) n (n + (m - 2)) (as.map (Act.ren (spread s h n))) := by
  refine ⟨Nat.le_add_right _ _, fun st ht hl hg => ?_⟩
  obtain ⟨st', e, g, f⟩ := T.sound (spread_injective hs hh hne) ht spread_new (o := some o) (fun t e => by cases e; exact ⟨ho, hg⟩) hok
  refine ⟨st', e, ?_, g o rfl, f o rfl rfl hp⟩
  intro u hu
  rcases T.tags_run e u hu with h | h
  · exact .inl h
  · exact .inr (spread_names hm u h)

theorem fails_of {s h n : Nat} {o : Tag} {as : List Act} (hs : s < n) (hh : h < n) (hne : s ≠ h) (ho : o < 2) (hbad : T.bad o as = true) :
    Fails T (spread s h n o) n (as.map (Act.ren (spread s h n))) := fun _ ht _ hg =>
  T.unsound (spread_injective hs hh hne) ht spread_new ho hg hbad

end logic

end Bsn1.Alias
