import Verif.Spec.Alias
/-!
# Reasoning about aliasing: only the pointers made by a function itself matter

A function is checked alone, on a state with nothing but its own pointers and the one it was given; `sb_sim` and `tb_sim` say that it then
behaves the same in any memory where that pointer may write.
-/

namespace Bsn1.Alias

/-! ### Names -/

def Item.ren (f : Tag → Tag) (i : Item) : Item := { i with tag := f i.tag }

def Node.ren (f : Tag → Tag) (n : Node) : Node := { n with tag := f n.tag, parent := n.parent.map f }

def Act.ren (f : Tag → Tag) : Act → Act
  | .retag p n k pr => .retag (f p) (f n) k pr
  | .beside p n k pr => .beside (f p) (f n) k pr
  | .read t => .read (f t)
  | .write t => .write (f t)
  | .release t => .release (f t)
  | .alloc t => .alloc (f t)
  | .free t => .free (f t)

def Ev.ren (f : Tag → Tag) : Ev → Ev
  | .retag p n k r pr => .retag (f p) (f n) k r pr
  | .read t r => .read (f t) r
  | .write t r => .write (f t) r
  | .release t => .release (f t)
  | .alloc t a => .alloc (f t) a
  | .free t a => .free (f t) a

theorem at_ren (f : Tag → Tag) (x : Loc) (e : Ev) : (e.ren f).at x = (e.at x).map (Act.ren f) := by
  cases e <;> simp only [Ev.ren, Ev.at] <;> (repeat' split) <;> simp [Act.ren]

theorem acts_ren (f : Tag → Tag) (x : Loc) (tr : List Ev) : acts x (tr.map (Ev.ren f)) = (acts x tr).map (Act.ren f) := by
  induction tr with
  | nil => rfl
  | cons e r ih => simp only [acts, List.map_cons, List.flatMap_cons, List.map_append, at_ren] at ih ⊢; rw [ih]

/-! ### Stacked Borrows, a function alone -/

/-- What a function sees of an octet: nothing, or that `o` owns it, and its own items above. -/
inductive SRel
  | dead
  | live (o : Tag) (a : List Item)
deriving DecidableEq

def rRead (t o : Tag) : List Item → Option (List Item)
  | [] => if t = o then some [] else none
  | i :: r =>
    if i.tag = t ∧ i.perm ≠ .disabled then some (i :: r)
    else if i.perm = .unique then
      if i.prot then none else (rRead t o r).map ({ i with perm := .disabled } :: ·)
    else (rRead t o r).map (i :: ·)

def rWrite (t o : Tag) (a : List Item) : Option (List Item) :=
  match sbFind t a with
  | some (above, g, below) =>
    let c := sbCut g above
    if c.1.any (·.prot) then none else some (c.2 ++ g :: below)
  | none => if t = o then (if a.any (·.prot) then none else some []) else none

/-- Names of new pointers: those below 2 are taken. -/
def isNew (n o : Tag) : Bool := 2 ≤ n && n ≠ o

def rRetag : Kind → Tag → Tag → Bool → Tag → List Item → Option (List Item)
  | .excl, p, n, pr, o, a => (rWrite p o a).map (⟨n, .unique, pr⟩ :: ·)
  | .shared, p, n, pr, o, a => (rRead p o a).map (⟨n, .sharedRO, pr⟩ :: ·)
  | .rawConst, p, n, pr, o, a => (rRead p o a).map (⟨n, .sharedRO, pr⟩ :: ·)
  | .raw, p, n, pr, _, a =>
    match sbFind p a with
    | some (above, g, below) =>
      let c := sbCut g above
      some (c.1 ++ ⟨n, .sharedRW, pr⟩ :: c.2 ++ g :: below)
    | none => none

def rStep : SRel → Act → Option SRel
  | .live o a, .retag p n k pr => if isNew n o then (rRetag k p n pr o a).map (.live o) else none
  | s, .beside .. => some s
  | .live o a, .read t => (rRead t o a).map (.live o)
  | .live o a, .write t => (rWrite t o a).map (.live o)
  | .live o a, .release t =>
    if isNew t o then some (.live o (a.map fun i => if i.tag = t then { i with prot := false } else i)) else none
  | .dead, .release _ => some .dead
  | _, .alloc t => if isNew t 0 then some (.live t []) else none
  | .live o a, .free t => (rWrite t o a).map fun _ => .dead
  | .dead, _ => none

def rRun (s : SRel) : List Act → Option SRel
  | [] => some s
  | a :: r => (rStep s a).bind fun s' => rRun s' r

/-- A memory in which the function runs.  `B`: the names there were; `fr`: something about what is below the owner. -/
def SIn (B : Tag → Prop) (f : Tag → Tag) (J : List Tag) (fr : Tag → Bool → List Item → Prop) : SRel → List Item → Prop
  | .dead, _ => True
  | .live o a, st => ∃ junk p base, st = a.map (Item.ren f) ++ (junk ++ ⟨f o, .unique, p⟩ :: base) ∧
      (∀ i ∈ junk, i.tag ≠ f o ∧ i.prot = false) ∧ (∀ i ∈ junk, i.tag ∈ J) ∧ (∀ i ∈ junk ++ base, B i.tag ∨ i.tag = f o) ∧ fr o p base

section sb
variable {f : Tag → Tag} (hf : Function.Injective f) {t o : Tag} {a : List Item} {junk base : List Item} {p : Bool}

theorem sbRead_rest (hj : ∀ i ∈ junk, i.tag ≠ t ∧ i.prot = false) :
    ∃ junk', sbRead t (junk ++ ⟨t, .unique, p⟩ :: base) = some (junk' ++ ⟨t, .unique, p⟩ :: base) ∧
      (∀ i ∈ junk', i.tag ≠ t ∧ i.prot = false) ∧ ∀ i ∈ junk', ∃ k ∈ junk, k.tag = i.tag := by
  induction junk with
  | nil => exact ⟨[], by simp [sbRead], by simp, by simp⟩
  | cons i r ih =>
    obtain ⟨j, e, hj', hs⟩ := ih fun i hi => hj i (by simp [hi])
    obtain ⟨h1, h2⟩ := hj i (by simp)
    have hs' : ∀ m ∈ j, ∃ k ∈ i :: r, k.tag = m.tag := fun m hm => by
      obtain ⟨k, hk, e⟩ := hs m hm
      exact ⟨k, by simp [hk], e⟩
    by_cases hu : i.perm = .unique
    · refine ⟨{ i with perm := .disabled } :: j, by simp [sbRead, h1, hu, h2, e], ?_, ?_⟩
      · intro k hk
        rcases List.mem_cons.mp hk with rfl | hk
        · exact ⟨h1, h2⟩
        · exact hj' k hk
      · intro k hk
        rcases List.mem_cons.mp hk with rfl | hk
        · exact ⟨i, by simp, rfl⟩
        · exact hs' k hk
    · refine ⟨i :: j, by simp [sbRead, h1, hu, e], ?_, ?_⟩
      · intro k hk
        rcases List.mem_cons.mp hk with rfl | hk
        · exact ⟨h1, h2⟩
        · exact hj' k hk
      · intro k hk
        rcases List.mem_cons.mp hk with rfl | hk
        · exact ⟨k, by simp, rfl⟩
        · exact hs' k hk

include hf in
theorem sbRead_sim (hj : ∀ i ∈ junk, i.tag ≠ f o ∧ i.prot = false) {a' : List Item} (h : rRead t o a = some a') :
    ∃ junk', sbRead (f t) (a.map (Item.ren f) ++ (junk ++ ⟨f o, .unique, p⟩ :: base)) =
      some (a'.map (Item.ren f) ++ (junk' ++ ⟨f o, .unique, p⟩ :: base)) ∧ (∀ i ∈ junk', i.tag ≠ f o ∧ i.prot = false) ∧
      ∀ i ∈ junk', ∃ k ∈ junk, k.tag = i.tag := by
  induction a generalizing a' with
  | nil =>
    rw [rRead] at h
    split at h
    · rename_i e
      subst e
      cases h
      exact sbRead_rest hj
    · simp at h
  | cons i r ih =>
    rw [rRead] at h
    by_cases h1 : i.tag = t ∧ i.perm ≠ .disabled
    · rw [if_pos h1] at h
      cases h
      refine ⟨junk, ?_, hj, fun i hi => ⟨i, hi, rfl⟩⟩
      simp [sbRead, Item.ren, h1]
    rw [if_neg h1] at h
    have h1' : ¬ ((i.ren f).tag = f t ∧ (i.ren f).perm ≠ .disabled) := fun ⟨x, y⟩ => h1 ⟨hf x, y⟩
    by_cases h2 : i.perm = .unique
    · rw [if_pos h2] at h
      cases h3 : i.prot with
      | true => simp [h3] at h
      | false =>
        simp only [h3, Bool.false_eq_true, if_false] at h
        cases e : rRead t o r with
        | none => simp [e] at h
        | some r' =>
          simp only [e, Option.map_some, Option.some.injEq] at h
          subst h
          obtain ⟨j, ej, hj'⟩ := ih e
          refine ⟨j, ?_, hj'⟩
          rw [List.map_cons, List.cons_append, sbRead, if_neg h1', if_pos (by exact h2), if_neg (by simp [Item.ren, h3]), ej]
          simp [Item.ren, h3]
    · rw [if_neg h2] at h
      cases e : rRead t o r with
      | none => simp [e] at h
      | some r' =>
        simp only [e, Option.map_some, Option.some.injEq] at h
        subst h
        obtain ⟨j, ej, hj'⟩ := ih e
        refine ⟨j, ?_, hj'⟩
        rw [List.map_cons, List.cons_append, sbRead, if_neg h1', if_neg (by exact h2), ej]
        simp

include hf in
theorem sbFind_ren : sbFind (f t) (a.map (Item.ren f)) =
    (sbFind t a).map fun q => (q.1.map (Item.ren f), q.2.1.ren f, q.2.2.map (Item.ren f)) := by
  induction a with
  | nil => rfl
  | cons i r ih =>
    have : (i.ren f).tag = f t ↔ i.tag = t := ⟨fun e => hf e, fun e => by simp [Item.ren, e]⟩
    simp only [List.map_cons, sbFind]
    by_cases h : i.tag = t ∧ (i.perm = .unique ∨ i.perm = .sharedRW)
    · rw [if_pos h, if_pos ⟨this.mpr h.1, h.2⟩]
      rfl
    · rw [if_neg h, if_neg (fun h' => h ⟨this.mp h'.1, h'.2⟩), ih]
      cases sbFind t r <;> rfl

theorem sbFind_append (a b : List Item) : sbFind t (a ++ b) =
    match sbFind t a with
    | some (x, g, y) => some (x, g, y ++ b)
    | none => (sbFind t b).map fun q => (a ++ q.1, q.2.1, q.2.2) := by
  induction a with
  | nil => simp [sbFind]
  | cons i r ih =>
    simp only [List.cons_append, sbFind]
    by_cases h : i.tag = t ∧ (i.perm = .unique ∨ i.perm = .sharedRW)
    · rw [if_pos h, if_pos h]
    · rw [if_neg h, if_neg h, ih]
      cases sbFind t r with
      | some q => rfl
      | none => cases sbFind t b <;> rfl

theorem sbFind_rest (hj : ∀ i ∈ junk, i.tag ≠ t) : sbFind t (junk ++ ⟨t, .unique, p⟩ :: base) = some (junk, ⟨t, .unique, p⟩, base) := by
  induction junk with
  | nil => simp [sbFind]
  | cons i r ih =>
    rw [List.cons_append, sbFind, if_neg (fun h => hj i (by simp) h.1), ih fun i hi => hj i (by simp [hi])]
    rfl

theorem sbCut_ren (g : Item) (l : List Item) : sbCut (g.ren f) (l.map (Item.ren f)) = ((sbCut g l).1.map (Item.ren f), (sbCut g l).2.map (Item.ren f)) := by
  have e : ((l.map (Item.ren f)).reverse.takeWhile fun i => decide (i.perm = .sharedRW)).reverse =
      ((l.reverse.takeWhile fun i => decide (i.perm = .sharedRW)).reverse).map (Item.ren f) := by
    rw [← List.map_reverse, List.takeWhile_map, ← List.map_reverse]
    rfl
  simp only [sbCut]
  by_cases h : g.perm = .sharedRW
  · rw [if_pos (show (g.ren f).perm = .sharedRW from h), if_pos h]
    simp only [e, List.length_map, List.map_take]
  · rw [if_neg (show ¬ (g.ren f).perm = .sharedRW from h), if_neg h]
    rfl

theorem any_prot_ren (l : List Item) : (l.map (Item.ren f)).any (·.prot) = l.any (·.prot) := by
  rw [List.any_map]
  rfl

include hf in
theorem sbWrite_sim (hj : ∀ i ∈ junk, i.tag ≠ f o ∧ i.prot = false) {a' : List Item} (h : rWrite t o a = some a') :
    ∃ junk', sbWrite (f t) (a.map (Item.ren f) ++ (junk ++ ⟨f o, .unique, p⟩ :: base)) =
      some (a'.map (Item.ren f) ++ (junk' ++ ⟨f o, .unique, p⟩ :: base)) ∧ (∀ i ∈ junk', i.tag ≠ f o ∧ i.prot = false) ∧
      ∀ i ∈ junk', ∃ k ∈ junk, k.tag = i.tag := by
  rw [rWrite] at h
  rw [sbWrite, sbFind_append, sbFind_ren hf]
  cases e : sbFind t a with
  | some q =>
    obtain ⟨x, g, y⟩ := q
    simp only [e, Option.map_some] at h ⊢
    rw [sbCut_ren]
    simp only [any_prot_ren]
    by_cases h2 : (sbCut g x).1.any (·.prot) = true
    · rw [if_pos h2] at h; simp at h
    · rw [if_neg h2] at h ⊢
      cases h
      exact ⟨junk, by simp, hj, fun i hi => ⟨i, hi, rfl⟩⟩
  | none =>
    simp only [e] at h
    by_cases h1 : t = o
    · subst h1
      rw [if_pos rfl] at h
      by_cases h2 : a.any (·.prot) = true
      · rw [if_pos h2] at h; simp at h
      · rw [if_neg h2] at h
        cases h
        refine ⟨[], ?_, by simp, by simp⟩
        simp only [Option.map_none, sbFind_rest (fun i hi => (hj i hi).1), Option.map_some]
        rw [show sbCut (⟨f t, .unique, p⟩ : Item) (a.map (Item.ren f) ++ junk) = (a.map (Item.ren f) ++ junk, []) from by simp [sbCut]]
        simp only []
        rw [if_neg]
        · simp
        · rw [List.any_append, any_prot_ren, Bool.or_eq_true, not_or]
          refine ⟨h2, ?_⟩
          simp only [List.any_eq_true, not_exists, not_and]
          intro i hi
          simp [(hj i hi).2]
    · simp [h1] at h

include hf in
theorem rRetag_sim {k : Kind} {q n : Tag} {pr : Bool} (hj : ∀ i ∈ junk, i.tag ≠ f o ∧ i.prot = false) {a' : List Item} (h : rRetag k q n pr o a = some a') :
    ∃ junk', sbStep (a.map (Item.ren f) ++ (junk ++ ⟨f o, .unique, p⟩ :: base)) (.retag (f q) (f n) k pr) =
      some (a'.map (Item.ren f) ++ (junk' ++ ⟨f o, .unique, p⟩ :: base)) ∧ (∀ i ∈ junk', i.tag ≠ f o ∧ i.prot = false) ∧
      ∀ i ∈ junk', ∃ k ∈ junk, k.tag = i.tag := by
  cases k with
  | excl =>
    cases e : rWrite q o a with
    | none => simp [rRetag, e] at h
    | some a' =>
      simp only [rRetag, e, Option.map_some, Option.some.injEq] at h
      subst h
      obtain ⟨j, e1, hj'⟩ := sbWrite_sim (base := base) (p := p) hf hj e
      exact ⟨j, by simp only [sbStep, e1, Option.map_some]; rfl, hj'⟩
  | shared =>
    cases e : rRead q o a with
    | none => simp [rRetag, e] at h
    | some a' =>
      simp only [rRetag, e, Option.map_some, Option.some.injEq] at h
      subst h
      obtain ⟨j, e1, hj'⟩ := sbRead_sim (base := base) (p := p) hf hj e
      exact ⟨j, by simp only [sbStep, e1, Option.map_some]; rfl, hj'⟩
  | rawConst =>
    cases e : rRead q o a with
    | none => simp [rRetag, e] at h
    | some a' =>
      simp only [rRetag, e, Option.map_some, Option.some.injEq] at h
      subst h
      obtain ⟨j, e1, hj'⟩ := sbRead_sim (base := base) (p := p) hf hj e
      exact ⟨j, by simp only [sbStep, e1, Option.map_some]; rfl, hj'⟩
  | raw =>
    cases e : sbFind q a with
    | none => simp [rRetag, e] at h
    | some x =>
      obtain ⟨x, g, y⟩ := x
      simp only [rRetag, e, Option.some.injEq] at h
      subst h
      refine ⟨junk, ?_, hj, fun i hi => ⟨i, hi, rfl⟩⟩
      simp only [sbStep, sbFind_append, sbFind_ren hf, e, Option.map_some, sbCut_ren]
      simp [Item.ren]

variable {B : Tag → Prop} (hB : ∀ k, 2 ≤ k → ¬ B (f k)) {J : List Tag} {fr : Tag → Bool → List Item → Prop} (hfr : ∀ t, 2 ≤ t → fr t false [])

include hf hB hfr in
theorem sbStep_sim {s s' : SRel} {act : Act} {st : List Item} (h : rStep s act = some s') (hi : SIn B f J fr s st) :
    ∃ st', sbStep st (act.ren f) = some st' ∧ SIn B f J fr s' st' := by
  have al : ∀ t, isNew t 0 = true → SIn B f J fr (.live t []) [⟨f t, .unique, false⟩] := by
    intro t ht
    simp only [isNew, Bool.and_eq_true, decide_eq_true_eq] at ht
    exact ⟨[], false, [], rfl, by simp, by simp, by simp, hfr t ht.1⟩
  cases s with
  | dead =>
    cases act with
    | beside => simp only [rStep, Option.some.injEq] at h; subst h; exact ⟨st, rfl, trivial⟩
    | release => simp only [rStep, Option.some.injEq] at h; subst h; exact ⟨_, rfl, trivial⟩
    | alloc t =>
      simp only [rStep] at h
      split at h
      · rename_i hn
        cases h
        exact ⟨_, rfl, al t hn⟩
      · simp at h
    | retag => simp [rStep] at h
    | read => simp [rStep] at h
    | write => simp [rStep] at h
    | free => simp [rStep] at h
  | live o a =>
    obtain ⟨junk, p, base, rfl, hj, hJ, hb, hr⟩ := hi
    have pack : ∀ {junk' : List Item} {a' : List Item}, ((∀ i ∈ junk', i.tag ≠ f o ∧ i.prot = false) ∧ ∀ i ∈ junk', ∃ k ∈ junk, k.tag = i.tag) →
        SIn B f J fr (.live o a') (a'.map (Item.ren f) ++ (junk' ++ ⟨f o, .unique, p⟩ :: base)) := by
      intro junk' a' ⟨h1, h2⟩
      refine ⟨junk', p, base, rfl, h1, ?_, ?_, hr⟩
      · intro i hi
        obtain ⟨k, hk, e⟩ := h2 i hi
        exact e ▸ hJ k hk
      · intro i hi
        rcases List.mem_append.mp hi with hi | hi
        · obtain ⟨k, hk, e⟩ := h2 i hi
          exact e ▸ hb k (by simp [hk])
        · exact hb i (by simp [hi])
    cases act with
    | beside => simp only [rStep, Option.some.injEq] at h; subst h; exact ⟨_, rfl, junk, p, base, rfl, hj, hJ, hb, hr⟩
    | release t =>
      simp only [rStep] at h
      split at h
      · rename_i hn
        cases h
        simp only [isNew, Bool.and_eq_true, decide_eq_true_eq] at hn
        refine ⟨_, rfl, junk, p, base, ?_, hj, hJ, hb, hr⟩
        have same : ∀ l : List Item, (∀ i ∈ l, B i.tag ∨ i.tag = f o) → l.map (fun i => if i.tag = f t then { i with prot := false } else i) = l := by
          intro l hl
          conv => rhs; rw [← List.map_id l]
          apply List.map_congr_left
          intro i hi
          rw [if_neg]
          · rfl
          · intro e
            rcases hl i hi with h | h
            · exact hB _ hn.1 (e ▸ h)
            · exact hn.2 (hf (e.symm.trans h))
        simp only [List.map_append, List.map_map]
        congr 1
        · apply List.map_congr_left
          intro i _
          by_cases e : i.tag = t
          · simp [Item.ren, e]
          · have : f i.tag ≠ f t := fun e' => e (hf e')
            simp [Item.ren, e, this]
        · rw [same junk fun i hi => hb i (by simp [hi]), same (⟨f o, .unique, p⟩ :: base)]
          intro i hi
          rcases List.mem_cons.mp hi with rfl | hi
          · exact .inr rfl
          · exact hb i (by simp [hi])
      · simp at h
    | alloc t =>
      simp only [rStep] at h
      split at h
      · rename_i hn
        cases h
        exact ⟨_, rfl, al t hn⟩
      · simp at h
    | read t =>
      cases e : rRead t o a with
      | none => simp [rStep, e] at h
      | some a' =>
        simp only [rStep, e, Option.map_some, Option.some.injEq] at h
        subst h
        obtain ⟨j, e1, hj'⟩ := sbRead_sim (base := base) (p := p) hf hj e
        exact ⟨_, e1, pack hj'⟩
    | write t =>
      cases e : rWrite t o a with
      | none => simp [rStep, e] at h
      | some a' =>
        simp only [rStep, e, Option.map_some, Option.some.injEq] at h
        subst h
        obtain ⟨j, e1, hj'⟩ := sbWrite_sim (base := base) (p := p) hf hj e
        exact ⟨_, e1, pack hj'⟩
    | free t =>
      cases e : rWrite t o a with
      | none => simp [rStep, e] at h
      | some a' =>
        simp only [rStep, e, Option.map_some, Option.some.injEq] at h
        subst h
        obtain ⟨j, e1, hj'⟩ := sbWrite_sim (base := base) (p := p) hf hj e
        exact ⟨[], by simp only [Act.ren, sbStep, e1, Option.map_some], trivial⟩
    | retag q n k pr =>
      simp only [rStep] at h
      split at h
      · cases e : rRetag k q n pr o a with
        | none => simp [e] at h
        | some a' =>
          simp only [e, Option.map_some, Option.some.injEq] at h
          subst h
          obtain ⟨j, e1, hj'⟩ := rRetag_sim (base := base) (p := p) hf hj e
          exact ⟨_, e1, pack hj'⟩
      · simp at h

include hf hB hfr in
theorem sb_sim {as : List Act} {s s' : SRel} {st : List Item} (h : rRun s as = some s') (hi : SIn B f J fr s st) :
    ∃ st', stacked.run st (as.map (Act.ren f)) = some st' ∧ SIn B f J fr s' st' := by
  induction as generalizing s st with
  | nil => cases h; exact ⟨st, rfl, hi⟩
  | cons act r ih =>
    simp only [rRun] at h
    cases e : rStep s act with
    | none => simp [e] at h
    | some s1 =>
      simp only [e, Option.bind_some] at h
      obtain ⟨st1, e1, h1⟩ := sbStep_sim hf hB hfr e hi
      obtain ⟨st2, e2, h2⟩ := ih h h1
      refine ⟨st2, ?_, h2⟩
      simp only [List.map_cons, Rules.run, stacked] at e2 ⊢
      rw [e1]
      exact e2

/-- The step fails, whatever else is in memory. -/
def rFail : SRel → Act → Bool
  | .live o a, .retag p _ .excl _ => isNew p o && (rWrite p o a).isNone
  | .live o a, .read t => isNew t o && (rRead t o a).isNone
  | .live o a, .write t => isNew t o && (rWrite t o a).isNone
  | _, _ => false

def rBad (s : SRel) : List Act → Bool
  | [] => false
  | act :: r =>
    match rStep s act with
    | some s' => rBad s' r
    | none => rFail s act

theorem sbFind_none {l : List Item} (h : ∀ i ∈ l, i.tag ≠ t) : sbFind t l = none := by
  induction l with
  | nil => rfl
  | cons i r ih =>
    rw [sbFind, if_neg (fun e => h i (by simp) e.1), ih fun i hi => h i (by simp [hi])]
    rfl

theorem sbRead_none {l : List Item} (h : ∀ i ∈ l, i.tag ≠ t) : sbRead t l = none := by
  induction l with
  | nil => rfl
  | cons i r ih =>
    rw [sbRead, if_neg (fun e => h i (by simp) e.1), ih fun i hi => h i (by simp [hi])]
    split <;> (try split) <;> rfl

include hf in
theorem sbWrite_fail (hb : ∀ i ∈ base, i.tag ≠ f t) (ht : t ≠ o) (h : rWrite t o a = none) : sbWrite (f t) (a.map (Item.ren f) ++ base) = none := by
  rw [rWrite] at h
  rw [sbWrite, sbFind_append, sbFind_ren hf]
  cases e : sbFind t a with
  | some q =>
    obtain ⟨x, g, y⟩ := q
    simp only [e, Option.map_some] at h ⊢
    rw [sbCut_ren]
    simp only [any_prot_ren]
    by_cases h2 : (sbCut g x).1.any (·.prot) = true
    · rw [if_pos h2]
    · rw [if_neg h2] at h; simp at h
  | none => simp [sbFind_none hb]

include hf in
theorem sbRead_fail (hb : ∀ i ∈ base, i.tag ≠ f t) (h : rRead t o a = none) : sbRead (f t) (a.map (Item.ren f) ++ base) = none := by
  induction a with
  | nil => exact sbRead_none hb
  | cons i r ih =>
    rw [rRead] at h
    by_cases h1 : i.tag = t ∧ i.perm ≠ .disabled
    · rw [if_pos h1] at h; simp at h
    rw [if_neg h1] at h
    have h1' : ¬ ((i.ren f).tag = f t ∧ (i.ren f).perm ≠ .disabled) := fun ⟨x, y⟩ => h1 ⟨hf x, y⟩
    rw [List.map_cons, List.cons_append, sbRead, if_neg h1']
    by_cases h2 : i.perm = .unique
    · rw [if_pos h2] at h
      rw [if_pos (show (i.ren f).perm = .unique from h2)]
      cases h3 : i.prot with
      | true => rw [if_pos (by simp [Item.ren, h3])]
      | false =>
        simp only [h3, Bool.false_eq_true, if_false, Option.map_eq_none_iff] at h
        rw [if_neg (by simp [Item.ren, h3]), ih h]
        rfl
    · rw [if_neg h2, Option.map_eq_none_iff] at h
      rw [if_neg (show ¬ (i.ren f).perm = .unique from h2), ih h]
      rfl

include hf hB hfr in
theorem sb_bad {as : List Act} {s : SRel} {st : List Item} (h : rBad s as = true) (hi : SIn B f J fr s st) :
    stacked.run st (as.map (Act.ren f)) = none := by
  induction as generalizing s st with
  | nil => simp [rBad] at h
  | cons act r ih =>
    simp only [rBad] at h
    cases e : rStep s act with
    | some s1 =>
      simp only [e] at h
      obtain ⟨st1, e1, h1⟩ := sbStep_sim hf hB hfr e hi
      have := ih h h1
      simp only [List.map_cons, Rules.run, stacked] at this ⊢
      rw [e1]
      exact this
    | none =>
      simp only [e] at h
      cases s with
      | dead => cases act <;> simp [rFail] at h
      | live o a =>
        obtain ⟨junk, p, base, rfl, hj, hJ, hb, hr⟩ := hi
        have low : ∀ {t}, isNew t o = true → ∀ i ∈ junk ++ ⟨f o, .unique, p⟩ :: base, i.tag ≠ f t := by
          intro t hn i hi e
          simp only [isNew, Bool.and_eq_true, decide_eq_true_eq] at hn
          have : B i.tag ∨ i.tag = f o := by
            rcases List.mem_append.mp hi with hi | hi
            · exact hb i (by simp [hi])
            · rcases List.mem_cons.mp hi with rfl | hi
              · exact .inr rfl
              · exact hb i (by simp [hi])
          rcases this with h | h
          · exact hB _ hn.1 (e ▸ h)
          · exact hn.2 (hf (e.symm.trans h))
        have ne : ∀ {t}, isNew t o = true → t ≠ o := by
          intro t hn
          simp only [isNew, Bool.and_eq_true, decide_eq_true_eq] at hn
          exact hn.2
        cases act with
        | retag q n k pr =>
          cases k with
          | excl =>
            simp only [rFail, Bool.and_eq_true, Option.isNone_iff_eq_none] at h
            simp only [List.map_cons, Rules.run, stacked, Act.ren, sbStep, sbWrite_fail hf (low h.1) (ne h.1) h.2]
            rfl
          | _ => simp [rFail] at h
        | read t =>
          simp only [rFail, Bool.and_eq_true, Option.isNone_iff_eq_none] at h
          simp only [List.map_cons, Rules.run, stacked, Act.ren, sbStep, sbRead_fail hf (low h.1) h.2]
          rfl
        | write t =>
          simp only [rFail, Bool.and_eq_true, Option.isNone_iff_eq_none] at h
          simp only [List.map_cons, Rules.run, stacked, Act.ren, sbStep, sbWrite_fail hf (low h.1) (ne h.1) h.2]
          rfl
        | _ => simp [rFail] at h

end sb

/-! ### Tree Borrows, a function alone -/

/-- The nodes of the function on the way from `t`, and where the way leaves them. -/
def tWalk (t : Option Tag) : List Node → List Tag × Option Tag
  | [] => ([], t)
  | n :: r => if some n.tag = t then (n.tag :: (tWalk n.parent r).1, (tWalk n.parent r).2) else tWalk t r

inductive TRel
  | dead
  | live (o : Tag) (a : List Node)
deriving DecidableEq

def tAccess (w : Bool) (t o : Tag) (a : List Node) : Option (List Node) :=
  if (tWalk (some t) a).2 = some o then tbAll w (tWalk (some t) a).1 a else none

def tStep : TRel → Act → Option TRel
  | .live o a, .retag p n k pr =>
    if isNew n o then
      if k = .raw ∨ k = .rawConst then
        if (tWalk (some p) a).2 = some o then some (.live o (⟨n, some p, .raw, false, false⟩ :: a)) else none
      else (tAccess false p o a).map fun a => .live o (⟨n, some p, tbPerm k, pr, true⟩ :: a)
    else none
  | .live o a, .beside p n k pr => if isNew n o then some (.live o (⟨n, some p, tbPerm k, pr, false⟩ :: a)) else none
  | .dead, .beside .. => some .dead
  | .live o a, .read t => (tAccess false t o a).map (.live o)
  | .live o a, .write t => (tAccess true t o a).map (.live o)
  | .live o a, .release t =>
    if isNew t o then some (.live o (a.map fun n => if n.tag = t then { n with prot := false } else n)) else none
  | .dead, .release _ => some .dead
  | _, .alloc t => if isNew t 0 then some (.live t []) else none
  | .live o a, .free t => (tAccess true t o a).map fun _ => .dead
  | .dead, _ => none

def tRun (s : TRel) : List Act → Option TRel
  | [] => some s
  | a :: r => (tStep s a).bind fun s' => tRun s' r

/-- Pointer `s` may be used for everything. -/
structure Free (s : Tag) (base : List Node) : Prop where
  path : tbPath (some s) base ≠ []
  on : ∀ n ∈ base, n.tag ∈ tbPath (some s) base → n.perm = .active ∨ n.perm = .raw ∨ ∃ c, n.perm = .reserved c ∧ (c && n.prot) = false
  off : ∀ n ∈ base, n.tag ∉ tbPath (some s) base → n.prot = false

/-- A memory in which the function runs.  `B`: the names there were. -/
def TIn (B : Tag → Prop) (f : Tag → Tag) : TRel → List Node → Prop
  | .dead, _ => True
  | .live o a, st => ∃ base, st = a.map (Node.ren f) ++ base ∧ Free (f o) base ∧ (∀ n ∈ base, B n.tag ∨ n.tag = f o) ∧
      ∀ n ∈ a, isNew n.tag o = true

section tb

theorem tbPath_sub {t : Option Tag} {l : List Node} : ∀ x ∈ tbPath t l, ∃ n ∈ l, n.tag = x := by
  induction l generalizing t with
  | nil => simp [tbPath]
  | cons n r ih =>
    intro x hx
    rw [tbPath] at hx
    split at hx
    · rcases List.mem_cons.mp hx with rfl | hx
      · exact ⟨n, by simp, rfl⟩
      · obtain ⟨m, hm, e⟩ := ih x hx
        exact ⟨m, by simp [hm], e⟩
    · obtain ⟨m, hm, e⟩ := ih x hx
      exact ⟨m, by simp [hm], e⟩

theorem tWalk_sub {t : Option Tag} {l : List Node} : ∀ x ∈ (tWalk t l).1, ∃ n ∈ l, n.tag = x := by
  induction l generalizing t with
  | nil => simp [tWalk]
  | cons n r ih =>
    intro x hx
    rw [tWalk] at hx
    split at hx
    · rcases List.mem_cons.mp hx with rfl | hx
      · exact ⟨n, by simp, rfl⟩
      · obtain ⟨m, hm, e⟩ := ih x hx
        exact ⟨m, by simp [hm], e⟩
    · obtain ⟨m, hm, e⟩ := ih x hx
      exact ⟨m, by simp [hm], e⟩

theorem tbChild_same {w : Bool} {n n' : Node} (h : tbChild w n = some n') : n'.tag = n.tag ∧ n'.parent = n.parent ∧ n'.prot = n.prot := by
  unfold tbChild at h
  repeat' split at h
  all_goals first | (simp at h; done) | (cases h; exact ⟨rfl, rfl, rfl⟩)

theorem tbForeign_same {w : Bool} {n n' : Node} (h : tbForeign w n = some n') : n'.tag = n.tag ∧ n'.parent = n.parent ∧ n'.prot = n.prot := by
  unfold tbForeign at h
  repeat' split at h
  all_goals first | (simp at h; done) | (cases h; exact ⟨rfl, rfl, rfl⟩)

theorem tbAll_cons {w : Bool} {p : List Tag} {n : Node} {r : List Node} {l' : List Node} (h : tbAll w p (n :: r) = some l') :
    ∃ n' r', l' = n' :: r' ∧ (if n.tag ∈ p then tbChild w n else tbForeign w n) = some n' ∧ tbAll w p r = some r' := by
  rw [tbAll] at h
  split at h
  · rename_i n' r' e1 e2
    cases h
    exact ⟨n', r', rfl, e1, e2⟩
  · simp at h

theorem one_same {w : Bool} {p : List Tag} {n n' : Node} (h : (if n.tag ∈ p then tbChild w n else tbForeign w n) = some n') :
    n'.tag = n.tag ∧ n'.parent = n.parent ∧ n'.prot = n.prot := by
  split at h
  · exact tbChild_same h
  · exact tbForeign_same h

theorem tbAll_path {w : Bool} {p : List Tag} {l l' : List Node} (h : tbAll w p l = some l') (t : Option Tag) : tbPath t l' = tbPath t l := by
  induction l generalizing l' t with
  | nil => cases h; rfl
  | cons n r ih =>
    obtain ⟨n', r', rfl, e1, e2⟩ := tbAll_cons h
    obtain ⟨h1, h2, _⟩ := one_same e1
    simp only [tbPath, h1, h2, ih e2]

theorem tbAll_tags {w : Bool} {p : List Tag} {l l' : List Node} (h : tbAll w p l = some l') : ∀ n' ∈ l', ∃ n ∈ l, n.tag = n'.tag ∧ n.prot = n'.prot ∧
    (if n.tag ∈ p then tbChild w n else tbForeign w n) = some n' := by
  induction l generalizing l' with
  | nil => cases h; simp
  | cons n r ih =>
    obtain ⟨n', r', rfl, e1, e2⟩ := tbAll_cons h
    intro m hm
    rcases List.mem_cons.mp hm with rfl | hm
    · exact ⟨n, by simp, (one_same e1).1.symm, (one_same e1).2.2.symm, e1⟩
    · obtain ⟨k, hk, h1, h2⟩ := ih e2 m hm
      exact ⟨k, by simp [hk], h1, h2⟩

theorem tbAll_congr {w : Bool} {p q : List Tag} {l : List Node} (h : ∀ n ∈ l, n.tag ∈ p ↔ n.tag ∈ q) : tbAll w p l = tbAll w q l := by
  induction l with
  | nil => rfl
  | cons n r ih =>
    have e : (if n.tag ∈ p then tbChild w n else tbForeign w n) = if n.tag ∈ q then tbChild w n else tbForeign w n := by
      have := h n (by simp)
      by_cases hq : n.tag ∈ q
      · rw [if_pos hq, if_pos (this.mpr hq)]
      · rw [if_neg hq, if_neg (fun hp => hq (this.mp hp))]
    simp only [tbAll]
    rw [ih fun n hn => h n (by simp [hn]), e]

theorem tbAll_append {w : Bool} {p : List Tag} (l k : List Node) : tbAll w p (l ++ k) =
    match tbAll w p l, tbAll w p k with
    | some a, some b => some (a ++ b)
    | _, _ => none := by
  induction l with
  | nil => simp only [List.nil_append, tbAll]; cases tbAll w p k <;> rfl
  | cons n r ih =>
    simp only [List.cons_append, tbAll, ih]
    cases (if n.tag ∈ p then tbChild w n else tbForeign w n) <;> cases tbAll w p r <;> cases tbAll w p k <;> rfl

/-- Any access through a pointer that may do everything, or one made from it, works, and it still may do everything. -/
theorem Free.access {s : Tag} {base : List Node} (h : Free s base) (w : Bool) :
    ∃ base', tbAll w (tbPath (some s) base) base = some base' ∧ Free s base' := by
  have key : ∀ l : List Node, (∀ n ∈ l, n ∈ base) → ∃ l', tbAll w (tbPath (some s) base) l = some l' := by
    intro l hl
    induction l with
    | nil => exact ⟨[], rfl⟩
    | cons n r ih =>
      obtain ⟨r', e⟩ := ih fun n hn => hl n (by simp [hn])
      have hn := hl n (by simp)
      have : ∃ n', (if n.tag ∈ tbPath (some s) base then tbChild w n else tbForeign w n) = some n' := by
        by_cases hp : n.tag ∈ tbPath (some s) base
        · rw [if_pos hp]
          unfold tbChild
          rcases h.on n hn hp with e | e | ⟨c, e, hc⟩
          · rw [e]; exact ⟨_, rfl⟩
          · rw [e]; exact ⟨_, rfl⟩
          · rw [e]
            simp only [hc, Bool.false_eq_true, if_false]
            cases w <;> exact ⟨_, rfl⟩
        · rw [if_neg hp]
          have hpr := h.off n hn hp
          unfold tbForeign
          cases n.perm <;> simp [hpr] <;> (try split) <;> exact ⟨_, rfl⟩
      obtain ⟨n', en⟩ := this
      exact ⟨n' :: r', by simp only [tbAll, en, e]⟩
  obtain ⟨base', e⟩ := key base fun _ h => h
  refine ⟨base', e, ?_, ?_, ?_⟩
  · rw [tbAll_path e]; exact h.path
  · rw [tbAll_path e]
    intro n' hn' hp
    obtain ⟨n, hn, h1, h2, h3⟩ := tbAll_tags e n' hn'
    rw [← h1] at hp
    rw [if_pos hp] at h3
    unfold tbChild at h3
    rcases h.on n hn hp with e | e | ⟨c, e, hc⟩
    · rw [e] at h3; cases h3; exact .inl rfl
    · rw [e] at h3; cases h3; exact .inr (.inl e)
    · rw [e] at h3
      simp only [hc, Bool.false_eq_true, if_false] at h3
      cases w with
      | true => cases h3; exact .inl rfl
      | false => cases h3; exact .inr (.inr ⟨c, rfl, hc⟩)
  · rw [tbAll_path e]
    intro n' hn' hp
    obtain ⟨n, hn, h1, h2, h3⟩ := tbAll_tags e n' hn'
    rw [← h1] at hp
    rw [← h2]
    exact h.off n hn hp

variable {f : Tag → Tag} (hf : Function.Injective f) {B : Tag → Prop} (hB : ∀ k, 2 ≤ k → ¬ B (f k)) {o : Tag} {a : List Node} {base : List Node}

include hf in
theorem tbPath_append (t : Option Tag) : tbPath (t.map f) (a.map (Node.ren f) ++ base) =
    (tWalk t a).1.map f ++ tbPath ((tWalk t a).2.map f) base := by
  induction a generalizing t with
  | nil => rfl
  | cons n r ih =>
    have e : some (n.ren f).tag = t.map f ↔ some n.tag = t := by
      cases t with
      | none => simp
      | some t => simp only [Option.map_some, Option.some.injEq]; exact ⟨fun e => hf e, fun e => by simp [Node.ren, e]⟩
    simp only [List.map_cons, List.cons_append, tbPath, tWalk]
    by_cases h : some n.tag = t
    · rw [if_pos h, if_pos (e.mpr h)]
      simp only [List.map_cons, List.cons_append, Node.ren]
      rw [ih]
    · rw [if_neg h, if_neg (fun h' => h (e.mp h')), ih]

theorem one_ren (w : Bool) (n : Node) : tbChild w (n.ren f) = (tbChild w n).map (Node.ren f) ∧ tbForeign w (n.ren f) = (tbForeign w n).map (Node.ren f) := by
  obtain ⟨t, p, q, pr, u⟩ := n
  cases q with
  | reserved c => cases w <;> cases c <;> cases pr <;> cases u <;> exact ⟨rfl, rfl⟩
  | _ => cases w <;> cases pr <;> cases u <;> exact ⟨rfl, rfl⟩

include hf in
theorem tbAll_ren (w : Bool) (p : List Tag) (l : List Node) : tbAll w (p.map f) (l.map (Node.ren f)) = (tbAll w p l).map (·.map (Node.ren f)) := by
  induction l with
  | nil => rfl
  | cons n r ih =>
    simp only [List.map_cons, tbAll, ih]
    have : (n.ren f).tag ∈ p.map f ↔ n.tag ∈ p := by
      simp only [Node.ren, List.mem_map]
      exact ⟨fun ⟨x, h, e⟩ => hf e ▸ h, fun h => ⟨_, h, rfl⟩⟩
    by_cases h : n.tag ∈ p
    · rw [if_pos h, if_pos (this.mpr h), (one_ren w n).1]
      cases tbChild w n <;> cases tbAll w p r <;> rfl
    · rw [if_neg h, if_neg (fun h' => h (this.mp h')), (one_ren w n).2]
      cases tbForeign w n <;> cases tbAll w p r <;> rfl

include hf hB in
/-- Names of the function and of the memory around it are different. -/
theorem apart (hb : ∀ n ∈ base, B n.tag ∨ n.tag = f o) (ha : ∀ n ∈ a, isNew n.tag o = true) :
    ∀ n ∈ a, ∀ m ∈ base, f n.tag ≠ m.tag := by
  intro n hn m hm e
  have := ha n hn
  simp only [isNew, Bool.and_eq_true, decide_eq_true_eq] at this
  rcases hb m hm with h | h
  · exact hB _ this.1 (e ▸ h)
  · exact this.2 (hf (e.trans h))

include hf hB in
theorem tbAccess_in {w : Bool} {t : Tag} (hw : (tWalk (some t) a).2 = some o) (hr : Free (f o) base) (hb : ∀ n ∈ base, B n.tag ∨ n.tag = f o)
    (ha : ∀ n ∈ a, isNew n.tag o = true) : ∃ base', Free (f o) base' ∧ (∀ n ∈ base', B n.tag ∨ n.tag = f o) ∧
      tbAccess w (f t) (a.map (Node.ren f) ++ base) = (tbAll w (tWalk (some t) a).1 a).map fun a' => a'.map (Node.ren f) ++ base' := by
  obtain ⟨base', e, hr'⟩ := hr.access w
  refine ⟨base', hr', ?_, ?_⟩
  · intro n' hn'
    obtain ⟨n, hn, h1, _⟩ := tbAll_tags e n' hn'
    rw [← h1]
    exact hb n hn
  · have hp := tbPath_append (base := base) (a := a) hf (some t)
    rw [hw, Option.map_some, Option.map_some] at hp
    have hne : (tWalk (some t) a).1.map f ++ tbPath (some (f o)) base ≠ [] := by simp [hr.path]
    have hap := apart hf hB hb ha
    have e1 : tbAccess w (f t) (a.map (Node.ren f) ++ base) =
        tbAll w ((tWalk (some t) a).1.map f ++ tbPath (some (f o)) base) (a.map (Node.ren f) ++ base) := by
      unfold tbAccess
      rw [hp]
      split
      · rename_i h; exact absurd h hne
      · rfl
    rw [e1, tbAll_append]
    have c1 : tbAll w ((tWalk (some t) a).1.map f ++ tbPath (some (f o)) base) (a.map (Node.ren f)) =
        tbAll w ((tWalk (some t) a).1.map f) (a.map (Node.ren f)) := by
      apply tbAll_congr
      intro n hn
      obtain ⟨m, hm, rfl⟩ := List.mem_map.mp hn
      simp only [List.mem_append, or_iff_left_iff_imp]
      intro h
      obtain ⟨k, hk, ek⟩ := tbPath_sub _ h
      exact absurd ek.symm (hap m hm k hk)
    have c2 : tbAll w ((tWalk (some t) a).1.map f ++ tbPath (some (f o)) base) base = tbAll w (tbPath (some (f o)) base) base := by
      apply tbAll_congr
      intro n hn
      simp only [List.mem_append, or_iff_right_iff_imp]
      intro h
      obtain ⟨x, hx, ex⟩ := List.mem_map.mp h
      obtain ⟨m, hm, em⟩ := tWalk_sub x hx
      exact absurd (by rw [em, ex]) (hap m hm n hn)
    rw [c1, c2, e, tbAll_ren hf]
    cases tbAll w (tWalk (some t) a).1 a <;> rfl

theorem tbAll_new {w : Bool} {p : List Tag} {a' : List Node} (h : tbAll w p a = some a') (ha : ∀ n ∈ a, isNew n.tag o = true) :
    ∀ n ∈ a', isNew n.tag o = true := by
  intro n' hn'
  obtain ⟨n, hn, h1, _⟩ := tbAll_tags h n' hn'
  rw [← h1]
  exact ha n hn

include hf hB in
theorem tAccess_sim {w : Bool} {t : Tag} {a' : List Node} {st : List Node} (h : tAccess w t o a = some a') (hi : TIn B f (.live o a) st) :
    ∃ st', tbAccess w (f t) st = some st' ∧ TIn B f (.live o a') st' := by
  obtain ⟨base, rfl, hr, hb, ha⟩ := hi
  unfold tAccess at h
  by_cases hw : (tWalk (some t) a).2 = some o
  · rw [if_pos hw] at h
    obtain ⟨base', hr', hb', e⟩ := tbAccess_in (w := w) hf hB hw hr hb ha
    rw [h] at e
    exact ⟨_, e, base', rfl, hr', hb', tbAll_new h ha⟩
  · simp [hw] at h

include hf hB in
theorem TIn.cons {st : List Node} (hi : TIn B f (.live o a) st) {n : Node} (hn : isNew n.tag o = true) :
    TIn B f (.live o (n :: a)) (n.ren f :: st) := by
  obtain ⟨base, rfl, hr, hb, ha⟩ := hi
  refine ⟨base, rfl, hr, hb, ?_⟩
  intro m hm
  rcases List.mem_cons.mp hm with rfl | hm
  · exact hn
  · exact ha m hm

theorem TIn.start (t : Tag) : TIn B f (.live t []) [⟨f t, none, .active, false, true⟩] :=
  ⟨_, rfl, ⟨by simp [tbPath], by simp, by simp [tbPath]⟩, by simp, by simp⟩

include hf hB in
theorem tbStep_sim {s s' : TRel} {act : Act} {st : List Node} (h : tStep s act = some s') (hi : TIn B f s st) :
    ∃ st', tbStep st (act.ren f) = some st' ∧ TIn B f s' st' := by
  cases s with
  | dead =>
    cases act with
    | beside => simp only [tStep, Option.some.injEq] at h; subst h; exact ⟨_, rfl, trivial⟩
    | release => simp only [tStep, Option.some.injEq] at h; subst h; exact ⟨_, rfl, trivial⟩
    | alloc t =>
      simp only [tStep] at h
      split at h
      · cases h; exact ⟨_, rfl, TIn.start t⟩
      · simp at h
    | retag => simp [tStep] at h
    | read => simp [tStep] at h
    | write => simp [tStep] at h
    | free => simp [tStep] at h
  | live o a =>
    cases act with
    | beside p n k pr =>
      simp only [tStep] at h
      split at h
      · rename_i hn
        cases h
        exact ⟨_, rfl, hi.cons hf hB hn⟩
      · simp at h
    | release t =>
      simp only [tStep] at h
      split at h
      · rename_i hn
        cases h
        obtain ⟨base, rfl, hr, hb, ha⟩ := hi
        refine ⟨_, rfl, base, ?_, hr, hb, ?_⟩
        · simp only [List.map_append, List.map_map]
          congr 1
          · apply List.map_congr_left
            intro n _
            by_cases e : n.tag = t
            · simp [Node.ren, e]
            · have : f n.tag ≠ f t := fun e' => e (hf e')
              simp [Node.ren, e, this]
          · conv => rhs; rw [← List.map_id base]
            apply List.map_congr_left
            intro n hm
            simp only [isNew, Bool.and_eq_true, decide_eq_true_eq] at hn
            rw [if_neg]
            · rfl
            · intro e
              rcases hb n hm with h | h
              · exact hB _ hn.1 (e ▸ h)
              · exact hn.2 (hf (e.symm.trans h))
        · intro n hm
          obtain ⟨m, hm', rfl⟩ := List.mem_map.mp hm
          split <;> exact ha m hm'
      · simp at h
    | alloc t =>
      simp only [tStep] at h
      split at h
      · cases h; exact ⟨_, rfl, TIn.start t⟩
      · simp at h
    | read t =>
      cases e : tAccess false t o a with
      | none => simp [tStep, e] at h
      | some a' =>
        simp only [tStep, e, Option.map_some, Option.some.injEq] at h
        subst h
        exact tAccess_sim hf hB e hi
    | write t =>
      cases e : tAccess true t o a with
      | none => simp [tStep, e] at h
      | some a' =>
        simp only [tStep, e, Option.map_some, Option.some.injEq] at h
        subst h
        exact tAccess_sim hf hB e hi
    | free t =>
      cases e : tAccess true t o a with
      | none => simp [tStep, e] at h
      | some a' =>
        simp only [tStep, e, Option.map_some, Option.some.injEq] at h
        subst h
        obtain ⟨st', e1, _⟩ := tAccess_sim hf hB e hi
        exact ⟨[], by simp only [Act.ren, tbStep, e1, Option.map_some], trivial⟩
    | retag p n k pr =>
      simp only [tStep] at h
      split at h
      · rename_i hn
        by_cases hk : k = .raw ∨ k = .rawConst
        · rw [if_pos hk] at h
          split at h
          · rename_i hw
            cases h
            refine ⟨_, ?_, hi.cons hf hB hn⟩
            obtain ⟨base, rfl, hr, hb, ha⟩ := hi
            have hp := tbPath_append (base := base) (a := a) hf (some p)
            rw [hw, Option.map_some, Option.map_some] at hp
            simp only [Act.ren, tbStep]
            rw [if_pos hk, if_neg (by rw [hp]; simp [hr.path])]
            rfl
          · simp at h
        · rw [if_neg hk] at h
          cases e : tAccess false p o a with
          | none => simp [e] at h
          | some a' =>
            simp only [e, Option.map_some, Option.some.injEq] at h
            subst h
            obtain ⟨st', e1, h1⟩ := tAccess_sim hf hB e hi
            refine ⟨_, ?_, h1.cons hf hB hn⟩
            simp only [Act.ren, tbStep]
            rw [if_neg hk, e1]
            rfl
      · simp at h

include hf hB in
theorem tb_sim {as : List Act} {s s' : TRel} {st : List Node} (h : tRun s as = some s') (hi : TIn B f s st) :
    ∃ st', tree.run st (as.map (Act.ren f)) = some st' ∧ TIn B f s' st' := by
  induction as generalizing s st with
  | nil => cases h; exact ⟨st, rfl, hi⟩
  | cons act r ih =>
    simp only [tRun] at h
    cases e : tStep s act with
    | none => simp [e] at h
    | some s1 =>
      simp only [e, Option.bind_some] at h
      obtain ⟨st1, e1, h1⟩ := tbStep_sim hf hB e hi
      obtain ⟨st2, e2, h2⟩ := ih h h1
      refine ⟨st2, ?_, h2⟩
      simp only [List.map_cons, Rules.run, tree] at e2 ⊢
      rw [e1]
      exact e2

def tFail : TRel → Act → Bool
  | .live o a, .read t => (tWalk (some t) a).2 = some o && (tAccess false t o a).isNone
  | .live o a, .write t => (tWalk (some t) a).2 = some o && (tAccess true t o a).isNone
  | .live o a, .retag t _ k _ => (k = .excl ∨ k = .shared) && (tWalk (some t) a).2 = some o && (tAccess false t o a).isNone
  | _, _ => false

def tBad (s : TRel) : List Act → Bool
  | [] => false
  | act :: r =>
    match tStep s act with
    | some s' => tBad s' r
    | none => tFail s act

include hf hB in
theorem tAccess_fail {w : Bool} {t : Tag} {st : List Node} (hw : (tWalk (some t) a).2 = some o) (h : tAccess w t o a = none)
    (hi : TIn B f (.live o a) st) : tbAccess w (f t) st = none := by
  obtain ⟨base, rfl, hr, hb, ha⟩ := hi
  obtain ⟨base', _, _, e⟩ := tbAccess_in (w := w) hf hB hw hr hb ha
  rw [tAccess, if_pos hw] at h
  rw [e, h]
  rfl

include hf hB in
theorem tb_bad {as : List Act} {s : TRel} {st : List Node} (h : tBad s as = true) (hi : TIn B f s st) :
    tree.run st (as.map (Act.ren f)) = none := by
  induction as generalizing s st with
  | nil => simp [tBad] at h
  | cons act r ih =>
    simp only [tBad] at h
    cases e : tStep s act with
    | some s1 =>
      simp only [e] at h
      obtain ⟨st1, e1, h1⟩ := tbStep_sim hf hB e hi
      have := ih h h1
      simp only [List.map_cons, Rules.run, tree] at this ⊢
      rw [e1]
      exact this
    | none =>
      simp only [e] at h
      cases s with
      | dead => cases act <;> simp [tFail] at h
      | live o a =>
        cases act with
        | retag q n k pr =>
          simp only [tFail, Bool.and_eq_true, Option.isNone_iff_eq_none, decide_eq_true_eq] at h
          have hk : ¬ (k = .raw ∨ k = .rawConst) := by
            rcases h.1.1 with rfl | rfl <;> simp
          simp only [List.map_cons, Rules.run, tree, Act.ren, tbStep]
          rw [if_neg hk, tAccess_fail hf hB h.1.2 h.2 hi]
          rfl
        | read t =>
          simp only [tFail, Bool.and_eq_true, Option.isNone_iff_eq_none, decide_eq_true_eq] at h
          simp only [List.map_cons, Rules.run, tree, Act.ren, tbStep]
          rw [tAccess_fail hf hB h.1 h.2 hi]
          rfl
        | write t =>
          simp only [tFail, Bool.and_eq_true, Option.isNone_iff_eq_none, decide_eq_true_eq] at h
          simp only [List.map_cons, Rules.run, tree, Act.ren, tbStep]
          rw [tAccess_fail hf hB h.1 h.2 hi]
          rfl
        | _ => simp [tFail] at h

end tb

end Bsn1.Alias
