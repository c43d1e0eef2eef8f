import Verif.Lemmas.Access
import Verif.Lemmas.BufferHistory
import Verif.Spec.Threads
/-!
# Threads: each access is to a block of one's own, or reads a shared one
-/

namespace Bsn1.Buf
open Spec

variable {α β : Type}

/-- The next accesses, whatever is allocated, go to the blocks `own`, or read those of `S`; in the end `Q` holds. -/
def Safe (S : Blocks) (Q : α → Blocks → Prop) : Prog α → Blocks → Prop
  | .ret a, own => Q a own
  | .panic, _ => False
  | .abort, _ => True
  | .ub, _ => False
  | .alloc n k, own => n ≠ 0 ∧ n ≤ isizeMax ∧ Safe S Q (k 0) own ∧
      ∀ (a : Nat) (cells : List Cell), 0 < a → a < usizeSize → own a = none → S a = none → cells.length = n → Safe S Q (k a) (own.put a (some cells))
  | .dealloc p n k, own => ∃ cells : List Cell, own p = some cells ∧ cells.length = n ∧ Safe S Q k (own.put p none)
  | .realloc p n n' k, own => ∃ cells : List Cell, own p = some cells ∧ cells.length = n ∧ n' ≠ 0 ∧ n' ≤ isizeMax ∧ Safe S Q (k 0) own ∧
      ∀ (a : Nat) (junk : List Cell), 0 < a → a < usizeSize → (own.put p none) a = none → S a = none → junk.length = n' →
        Safe S Q (k a) ((own.put p none).put a (some ((cells ++ junk.drop cells.length).take n')))
  | .load p o n k, own => ∃ cells : List Cell, (own p = some cells ∨ S p = some cells) ∧ o + n ≤ cells.length ∧
      Safe S Q (k ((cells.drop o).take n)) own
  | .store p o v k, own => ∃ cells : List Cell, own p = some cells ∧ o + v.length ≤ cells.length ∧
      Safe S Q k (own.put p (some (cells.take o ++ v ++ cells.drop (o + v.length))))

theorem Safe.mono {S S' : Blocks} {Q Q' : α → Blocks → Prop} (hS : ∀ q, S' q = none → S q = none)
    (hS' : ∀ q c, S q = some c → S' q = some c) (hQ : ∀ a own, Q a own → Q' a own) :
    ∀ (p : Prog α) (own : Blocks), Safe S Q p own → Safe S' Q' p own := by
  intro p
  induction p with
  | ret a => exact fun own h => hQ a own h
  | panic => exact fun _ h => h
  | abort => exact fun _ h => h
  | ub => exact fun _ h => h
  | alloc n k ih =>
    rintro own ⟨h1, h2, h3, h4⟩
    exact ⟨h1, h2, ih _ _ h3, fun a cells e1 e2 e3 e4 e5 => ih _ _ (h4 a cells e1 e2 e3 (hS _ e4) e5)⟩
  | dealloc p n k ih =>
    rintro own ⟨c, h1, h2, h3⟩
    exact ⟨c, h1, h2, ih _ h3⟩
  | realloc p n n' k ih =>
    rintro own ⟨c, h1, h2, h3, h4, h5, h6⟩
    exact ⟨c, h1, h2, h3, h4, ih _ _ h5, fun a junk e1 e2 e3 e4 e5 => ih _ _ (h6 a junk e1 e2 e3 (hS _ e4) e5)⟩
  | load p o n k ih =>
    rintro own ⟨c, h1, h2, h3⟩
    refine ⟨c, ?_, h2, ih _ _ h3⟩
    rcases h1 with h1 | h1
    · exact .inl h1
    · exact .inr (hS' _ _ h1)
  | store p o v k ih =>
    rintro own ⟨c, h1, h2, h3⟩
    exact ⟨c, h1, h2, ih _ h3⟩

theorem Safe.seq {S : Blocks} {Q : β → Blocks → Prop} {f : α → Prog β} :
    ∀ (p : Prog α) (own : Blocks), Safe S (fun a own => Safe S Q (f a) own) p own → Safe S Q (p >>= f) own := by
  intro p
  induction p with
  | ret a => exact fun own h => h
  | panic => exact fun _ h => h
  | abort => exact fun _ h => h
  | ub => exact fun _ h => h
  | alloc n k ih =>
    rintro own ⟨h1, h2, h3, h4⟩
    exact ⟨h1, h2, ih _ _ h3, fun a cells e1 e2 e3 e4 e5 => ih _ _ (h4 a cells e1 e2 e3 e4 e5)⟩
  | dealloc p n k ih =>
    rintro own ⟨c, h1, h2, h3⟩
    exact ⟨c, h1, h2, ih _ h3⟩
  | realloc p n n' k ih =>
    rintro own ⟨c, h1, h2, h3, h4, h5, h6⟩
    exact ⟨c, h1, h2, h3, h4, ih _ _ h5, fun a junk e1 e2 e3 e4 e5 => ih _ _ (h6 a junk e1 e2 e3 e4 e5)⟩
  | load p o n k ih =>
    rintro own ⟨c, h1, h2, h3⟩
    exact ⟨c, h1, h2, ih _ _ h3⟩
  | store p o v k ih =>
    rintro own ⟨c, h1, h2, h3⟩
    exact ⟨c, h1, h2, ih _ h3⟩

theorem Safe.split {S : Blocks} {Q : β → Blocks → Prop} {f : α → Prog β} :
    ∀ (p : Prog α) (own : Blocks), Safe S Q (p >>= f) own → Safe S (fun a own => Safe S Q (f a) own) p own := by
  intro p
  induction p with
  | ret a => exact fun own h => h
  | panic => exact fun _ h => h
  | abort => exact fun _ h => h
  | ub => exact fun _ h => h
  | alloc n k ih =>
    rintro own ⟨h1, h2, h3, h4⟩
    exact ⟨h1, h2, ih _ _ h3, fun a cells e1 e2 e3 e4 e5 => ih _ _ (h4 a cells e1 e2 e3 e4 e5)⟩
  | dealloc p n k ih =>
    rintro own ⟨c, h1, h2, h3⟩
    exact ⟨c, h1, h2, ih _ h3⟩
  | realloc p n n' k ih =>
    rintro own ⟨c, h1, h2, h3, h4, h5, h6⟩
    exact ⟨c, h1, h2, h3, h4, ih _ _ h5, fun a junk e1 e2 e3 e4 e5 => ih _ _ (h6 a junk e1 e2 e3 e4 e5)⟩
  | load p o n k ih =>
    rintro own ⟨c, h1, h2, h3⟩
    exact ⟨c, h1, h2, ih _ _ h3⟩
  | store p o v k ih =>
    rintro own ⟨c, h1, h2, h3⟩
    exact ⟨c, h1, h2, ih _ h3⟩

/-! ### What is safe alone, whatever the allocator answers, is safe -/

/-- Only the answers from now on matter. -/
theorem run_congr {al al' : Allocator} : ∀ (p : Prog α) (h : Heap), (∀ c, h.clock ≤ c → al c = al' c) → p.run al h = p.run al' h := by
  intro p
  induction p with
  | ret a => exact fun _ _ => rfl
  | panic => exact fun _ _ => rfl
  | abort => exact fun _ _ => rfl
  | ub => exact fun _ _ => rfl
  | alloc n k ih =>
    intro h e
    simp only [Prog.run, alloc]
    by_cases hn : n = 0 ∨ isizeMax < n
    · rw [if_pos hn, if_pos hn]
    · rw [if_neg hn, if_neg hn, e _ (Nat.le_refl _)]
      cases al' h.clock h.blocks n with
      | none => exact ih _ _ fun c hc => e c (by simp only at hc; omega)
      | some x => exact ih _ _ fun c hc => e c (by simp only at hc; omega)
  | dealloc p n k ih =>
    intro h e
    simp only [Prog.run]
    rcases Prog.dealloc_fails p n h with ⟨a, h', e'⟩ | e'
    · rw [e']
      refine ih _ fun c hc => e c ?_
      unfold dealloc at e'
      split at e'
      · simp at e'
      · split at e'
        · cases e'; exact hc
        · simp at e'
    · rw [e']
  | realloc p n n' k ih =>
    intro h e
    simp only [Prog.run, realloc]
    cases h.blocks p with
    | none => rfl
    | some cells =>
      dsimp only
      by_cases hn : cells.length = n ∧ n' ≠ 0 ∧ n' ≤ isizeMax
      · rw [if_pos hn, if_pos hn, e _ (Nat.le_refl _)]
        cases al' h.clock (h.blocks.put p none) n' with
        | none => exact ih _ _ fun c hc => e c (by simp only at hc; omega)
        | some x => exact ih _ _ fun c hc => e c (by simp only at hc; omega)
      · rw [if_neg hn, if_neg hn]
  | load p o n k ih =>
    intro h e
    simp only [Prog.run]
    rcases Prog.load_fails p o n h with ⟨a, e'⟩ | e'
    · rw [e']; exact ih _ _ e
    · rw [e']
  | store p o v k ih =>
    intro h e
    simp only [Prog.run]
    rcases Prog.store_fails p o v h with ⟨a, h', e'⟩ | e'
    · rw [e']
      refine ih _ fun c hc => e c ?_
      unfold store at e'
      split at e'
      · simp at e'
      · split at e'
        · cases e'; exact hc
        · simp at e'
    · rw [e']

/-- The function ends, and `Q` holds, or the process is aborted. -/
def Fine (Q : α → Blocks → Prop) (o : Out α) : Prop := o = .abort ∨ ∃ a h, o = .ok a h ∧ Q a h.blocks

/-- An allocator with a given answer to one call. -/
def answer (al : Allocator) (c : Nat) (x : Option (Nat × List Cell)) : Allocator := fun clock bl size =>
  if clock = c then
    match x with
    | some (a, cells) => if bl a = none ∧ cells.length = size then some (a, cells) else none
    | none => none
  else al clock bl size

theorem answer_valid {al : Allocator} (hv : al.Valid) (c : Nat) (x : Option (Nat × List Cell))
    (hx : ∀ a cells, x = some (a, cells) → 0 < a ∧ a < usizeSize) : (answer al c x).Valid := by
  intro clock bl size a cells e
  unfold answer at e
  split at e
  · cases x with
    | none => simp at e
    | some y =>
      obtain ⟨a', cells'⟩ := y
      dsimp only at e
      split at e
      · rename_i hc
        simp only [Option.some.injEq, Prod.mk.injEq] at e
        obtain ⟨rfl, rfl⟩ := e
        exact ⟨(hx _ _ rfl).1, (hx _ _ rfl).2, hc⟩
      · simp at e
  · exact hv _ _ _ _ _ e

theorem answer_later (al : Allocator) (c : Nat) (x : Option (Nat × List Cell)) : ∀ d, c + 1 ≤ d → answer al c x d = al d := by
  intro d hd
  funext bl size
  unfold answer
  rw [if_neg (by omega)]

theorem refuses_valid : Allocator.Valid (fun _ _ _ => none) := by
  intro _ _ _ _ _ e
  simp at e

/-- No blocks. -/
def noBlocks : Blocks := fun _ => none

theorem safe_of_run {Q : α → Blocks → Prop} : ∀ (p : Prog α) (own : Blocks) (c : Nat),
    (∀ al : Allocator, al.Valid → Fine Q (p.run al ⟨own, c⟩)) → Safe noBlocks Q p own := by
  intro p
  induction p with
  | ret a =>
    intro own c H
    rcases H _ refuses_valid with e | ⟨a', h, e, hq⟩
    · simp [Prog.run] at e
    · simp only [Prog.run, Out.ok.injEq] at e
      obtain ⟨rfl, rfl⟩ := e
      exact hq
  | panic =>
    intro own c H
    rcases H _ refuses_valid with e | ⟨a', h, e, hq⟩ <;> simp [Prog.run, M.panic] at e
  | abort => exact fun _ _ _ => trivial
  | ub =>
    intro own c H
    rcases H _ refuses_valid with e | ⟨a', h, e, hq⟩ <;> simp [Prog.run, M.ub] at e
  | alloc n k ih =>
    intro own c H
    have hn : ¬ (n = 0 ∨ isizeMax < n) := by
      intro hn
      have := H _ refuses_valid
      simp only [Prog.run, alloc, if_pos hn] at this
      rcases this with e | ⟨a', h, e, hq⟩ <;> simp at e
    refine ⟨by omega, by omega, ih 0 own (c + 1) fun al hv => ?_, fun a cells h1 h2 h3 _ h5 => ih a _ (c + 1) fun al hv => ?_⟩
    · have := H (answer al c none) (answer_valid hv c none (by simp))
      simp only [Prog.run, alloc, if_neg hn, answer, if_true] at this
      rwa [← run_congr (al := answer al c none) _ _ (answer_later al c none)]
    · have := H (answer al c (some (a, cells))) (answer_valid hv c _ (by simp only [Option.some.injEq, Prod.mk.injEq]; rintro _ _ ⟨rfl, rfl⟩; exact ⟨h1, h2⟩))
      have e : answer al c (some (a, cells)) c own n = some (a, cells) := by simp [answer, h3, h5]
      simp only [Prog.run, alloc, if_neg hn, e] at this
      rwa [← run_congr (al := answer al c (some (a, cells))) _ _ (answer_later al c _)]
  | dealloc p n k ih =>
    intro own c H
    have h0 := H _ refuses_valid
    simp only [Prog.run, dealloc] at h0
    cases e : own p with
    | none => rw [e] at h0; rcases h0 with e | ⟨a', h, e, hq⟩ <;> simp at e
    | some cells =>
      rw [e] at h0
      dsimp only at h0
      by_cases hl : cells.length = n
      · refine ⟨cells, e, hl, ih _ c fun al hv => ?_⟩
        have := H al hv
        simpa only [Prog.run, dealloc, e, if_pos hl] using this
      · rw [if_neg hl] at h0
        rcases h0 with e | ⟨a', h, e, hq⟩ <;> simp at e
  | realloc p n n' k ih =>
    intro own c H
    have h0 := H _ refuses_valid
    simp only [Prog.run, realloc] at h0
    cases e : own p with
    | none => rw [e] at h0; rcases h0 with e | ⟨a', h, e, hq⟩ <;> simp at e
    | some cells =>
      rw [e] at h0
      dsimp only at h0
      by_cases hl : cells.length = n ∧ n' ≠ 0 ∧ n' ≤ isizeMax
      · refine ⟨cells, e, hl.1, hl.2.1, hl.2.2, ih 0 own (c + 1) fun al hv => ?_,
          fun a junk h1 h2 h3 _ h5 => ih a _ (c + 1) fun al hv => ?_⟩
        · have := H (answer al c none) (answer_valid hv c none (by simp))
          simp only [Prog.run, realloc, e, if_pos hl, answer, if_true] at this
          rwa [← run_congr (al := answer al c none) _ _ (answer_later al c none)]
        · have := H (answer al c (some (a, junk)))
            (answer_valid hv c _ (by simp only [Option.some.injEq, Prod.mk.injEq]; rintro _ _ ⟨rfl, rfl⟩; exact ⟨h1, h2⟩))
          have e' : answer al c (some (a, junk)) c (own.put p none) n' = some (a, junk) := by simp [answer, h3, h5]
          simp only [Prog.run, realloc, e, if_pos hl, e'] at this
          rwa [← run_congr (al := answer al c (some (a, junk))) _ _ (answer_later al c _)]
      · rw [if_neg hl] at h0
        rcases h0 with e | ⟨a', h, e, hq⟩ <;> simp at e
  | load p o n k ih =>
    intro own c H
    have h0 := H _ refuses_valid
    simp only [Prog.run, load] at h0
    cases e : own p with
    | none => rw [e] at h0; rcases h0 with e | ⟨a', h, e, hq⟩ <;> simp at e
    | some cells =>
      rw [e] at h0
      dsimp only at h0
      by_cases hl : o + n ≤ cells.length
      · refine ⟨cells, .inl e, hl, ih _ _ c fun al hv => ?_⟩
        have := H al hv
        simpa only [Prog.run, load, e, if_pos hl] using this
      · rw [if_neg hl] at h0
        rcases h0 with e | ⟨a', h, e, hq⟩ <;> simp at e
  | store p o v k ih =>
    intro own c H
    have h0 := H _ refuses_valid
    simp only [Prog.run, store] at h0
    cases e : own p with
    | none => rw [e] at h0; rcases h0 with e | ⟨a', h, e, hq⟩ <;> simp at e
    | some cells =>
      rw [e] at h0
      dsimp only at h0
      by_cases hl : o + v.length ≤ cells.length
      · refine ⟨cells, e, hl, ih _ c fun al hv => ?_⟩
        have := H al hv
        simpa only [Prog.run, store, e, if_pos hl] using this
      · rw [if_neg hl] at h0
        rcases h0 with e | ⟨a', h, e, hq⟩ <;> simp at e

theorem Safe.anyShared {S : Blocks} {Q : α → Blocks → Prop} {p : Prog α} {own : Blocks} (h : Safe noBlocks Q p own) : Safe S Q p own :=
  h.mono (fun _ _ => rfl) (fun q c e => by simp at e) (fun _ _ h => h)

/-! ### Interleaving -/

/-- The memory is divided: what is of each thread, and what is of none (and is not changed). -/
structure Parts (g S : Blocks) (owns : Nat → Blocks) : Prop where
  mine : ∀ t q c, owns t q = some c → g q = some c
  rest : ∀ q, (∀ t, owns t q = none) → g q = S q
  apart : ∀ t q, owns t q ≠ none → S q = none
  one : ∀ t u q, owns t q ≠ none → owns u q ≠ none → t = u

/-- The blocks of one thread are others now. -/
def changed (owns : Nat → Blocks) (t : Nat) (own : Blocks) : Nat → Blocks := fun u => if u = t then own else owns u

theorem changed_self (owns : Nat → Blocks) (t : Nat) (own : Blocks) : changed owns t own t = own := by simp [changed]

theorem changed_same (owns : Nat → Blocks) (t : Nat) : changed owns t (owns t) = owns := by
  funext u
  unfold changed
  split
  · rename_i e; rw [e]
  · rfl

theorem Parts.put {g S : Blocks} {owns : Nat → Blocks} (hp : Parts g S owns) (t p : Nat) (x : Option (List Cell))
    (h : owns t p ≠ none ∨ g p = none) : Parts (g.put p x) S (changed owns t ((owns t).put p x)) := by
  -- nobody else has the block
  have other : ∀ u, u ≠ t → owns u p = none := by
    intro u hu
    cases e : owns u p with
    | none => rfl
    | some c =>
      rcases h with h | h
      · exact absurd (hp.one u t p (by simp [e]) h) hu
      · rw [hp.mine u p c e] at h; simp at h
  have hS : S p = none := by
    rcases h with h | h
    · exact hp.apart t p h
    · have : ∀ u, owns u p = none := by
        intro u
        cases e : owns u p with
        | none => rfl
        | some c => rw [hp.mine u p c e] at h; simp at h
      rw [← hp.rest p this, h]
  have get : ∀ u q, changed owns t ((owns t).put p x) u q = if u = t then (if q = p then x else owns t q) else owns u q := by
    intro u q
    unfold changed Blocks.put
    split <;> rfl
  refine ⟨?_, ?_, ?_, ?_⟩
  · intro u q c e
    rw [get] at e
    simp only [Blocks.put]
    by_cases hu : u = t
    · rw [if_pos hu] at e
      by_cases hq : q = p
      · rw [if_pos hq] at e ⊢; exact e
      · rw [if_neg hq] at e ⊢; exact hp.mine t q c e
    · rw [if_neg hu] at e
      by_cases hq : q = p
      · rw [hq, other u hu] at e; simp at e
      · rw [if_neg hq]; exact hp.mine u q c e
  · intro q hq
    simp only [Blocks.put]
    by_cases e : q = p
    · have := hq t
      rw [get, if_pos rfl, if_pos e] at this
      rw [if_pos e, this, e, hS]
    · rw [if_neg e]
      refine hp.rest q fun u => ?_
      have := hq u
      rw [get] at this
      by_cases hu : u = t
      · rw [if_pos hu, if_neg e] at this; rw [hu]; exact this
      · rwa [if_neg hu] at this
  · intro u q hq
    rw [get] at hq
    by_cases e : q = p
    · rw [e]; exact hS
    · by_cases hu : u = t
      · rw [if_pos hu, if_neg e] at hq; exact hp.apart t q hq
      · rw [if_neg hu] at hq; exact hp.apart u q hq
  · intro u v q hu hv
    rw [get] at hu hv
    by_cases e : q = p
    · by_cases h1 : u = t
      · by_cases h2 : v = t
        · omega
        · rw [if_neg h2, e, other v h2] at hv; simp at hv
      · rw [if_neg h1, e, other u h1] at hu; simp at hu
    · have : ∀ w, (if w = t then (if q = p then x else owns t q) else owns w q) = owns w q := by
        intro w
        by_cases hw : w = t
        · rw [if_pos hw, if_neg e, hw]
        · rw [if_neg hw]
      rw [this] at hu hv
      exact hp.one u v q hu hv

theorem put_put (g : Blocks) (p : Nat) (x y : Option (List Cell)) (q : Nat) (h : q = p) : (g.put p x).put q y = g.put q y := by
  subst h
  funext r
  simp only [Blocks.put]
  split <;> rfl

theorem changed_changed (owns : Nat → Blocks) (t : Nat) (a b : Blocks) : changed (changed owns t a) t b = changed owns t b := by
  funext u
  unfold changed
  split <;> rfl

/-- A turn of a thread. -/
theorem Parts.turn {g : Heap} {S : Blocks} {owns : Nat → Blocks} {al : Allocator} (hv : al.Valid) (hp : Parts g.blocks S owns) {t : Nat}
    {Q : α → Blocks → Prop} {p : Prog α} (hs : Safe S Q p (owns t)) :
    ∃ own, Safe S Q (access al p g).1 own ∧ Parts (access al p g).2.blocks S (changed owns t own) := by
  have same : Parts g.blocks S (changed owns t (owns t)) := by rw [changed_same]; exact hp
  cases p with
  | ret a => exact ⟨_, hs, same⟩
  | panic => exact ⟨_, hs, same⟩
  | abort => exact ⟨_, hs, same⟩
  | ub => exact ⟨_, hs, same⟩
  | alloc n k =>
    obtain ⟨h1, h2, h3, h4⟩ := hs
    simp only [access, alloc, if_neg (show ¬ (n = 0 ∨ isizeMax < n) by omega)]
    cases e : al g.clock g.blocks n with
    | none => exact ⟨_, h3, same⟩
    | some x =>
      obtain ⟨a, cells⟩ := x
      obtain ⟨v1, v2, v3, v4⟩ := hv _ _ _ _ _ e
      have free : ∀ u, owns u a = none := by
        intro u
        cases e : owns u a with
        | none => rfl
        | some c => rw [hp.mine u a c e] at v3; simp at v3
      exact ⟨_, h4 a cells v1 v2 (free t) (by rw [← hp.rest a free, v3]) v4, hp.put t a _ (.inr v3)⟩
  | dealloc p n k =>
    obtain ⟨c, h1, h2, h3⟩ := hs
    simp only [access, dealloc, hp.mine t p c h1, if_pos h2]
    exact ⟨_, h3, hp.put t p _ (.inl (by simp [h1]))⟩
  | realloc p n n' k =>
    obtain ⟨c, h1, h2, h3, h4, h5, h6⟩ := hs
    simp only [access, realloc, hp.mine t p c h1, if_pos (show c.length = n ∧ n' ≠ 0 ∧ n' ≤ isizeMax from ⟨h2, h3, h4⟩)]
    cases e : al g.clock (g.blocks.put p none) n' with
    | none => exact ⟨_, h5, same⟩
    | some x =>
      obtain ⟨a, junk⟩ := x
      obtain ⟨v1, v2, v3, v4⟩ := hv _ _ _ _ _ e
      have hp' := hp.put t p none (.inl (by simp [h1]))
      have free : ∀ u, changed owns t ((owns t).put p none) u a = none := by
        intro u
        cases e : changed owns t ((owns t).put p none) u a with
        | none => rfl
        | some c => rw [hp'.mine u a c e] at v3; simp at v3
      have ft := free t
      rw [changed_self] at ft
      have := hp'.put t a (some ((c ++ junk.drop c.length).take n')) (.inr v3)
      rw [changed_self, changed_changed] at this
      exact ⟨_, h6 a junk v1 v2 ft (by rw [← hp'.rest a free, v3]) v4, this⟩
  | load p o n k =>
    obtain ⟨c, h1, h2, h3⟩ := hs
    have : g.blocks p = some c := by
      rcases h1 with h1 | h1
      · exact hp.mine t p c h1
      · refine (hp.rest p fun u => ?_).trans h1
        cases e : owns u p with
        | none => rfl
        | some d => rw [hp.apart u p (by simp [e])] at h1; simp at h1
    simp only [access, load, this, if_pos h2]
    exact ⟨_, h3, same⟩
  | store p o v k =>
    obtain ⟨c, h1, h2, h3⟩ := hs
    simp only [access, store, hp.mine t p c h1, if_pos h2]
    exact ⟨_, h3, hp.put t p _ (.inl (by simp [h1]))⟩

/-- The invariant of threads. -/
def World (S : Blocks) (Q : Nat → α → Blocks → Prop) (ps : List (Prog α)) (h : Heap) : Prop :=
  ∃ owns, Parts h.blocks S owns ∧ (∀ (t : Nat) p, ps[t]? = some p → Safe S (Q t) p (owns t)) ∧ ∀ t, ps.length ≤ t → owns t = noBlocks

theorem World.turn {S : Blocks} {Q : Nat → α → Blocks → Prop} {s : List (Prog α) × Heap} {al : Allocator} (hv : al.Valid)
    (hw : World S Q s.1 s.2) (t : Nat) : World S Q (turn al t s).1 (turn al t s).2 := by
  obtain ⟨owns, h1, h2, h3⟩ := hw
  unfold Spec.turn
  cases e : s.1[t]? with
  | none => exact ⟨owns, h1, h2, h3⟩
  | some p =>
    obtain ⟨own, h4, h5⟩ := h1.turn hv (h2 t p e)
    have hl : t < s.1.length := by
      rcases Nat.lt_or_ge t s.1.length with hl | hl
      · exact hl
      · rw [List.getElem?_eq_none hl] at e; simp at e
    refine ⟨_, h5, fun u q eu => ?_, fun u hu => ?_⟩
    · dsimp only at eu
      rw [List.getElem?_set] at eu
      unfold changed
      by_cases hu : t = u
      · subst hu
        rw [if_pos rfl, if_pos hl] at eu
        simp only [Option.some.injEq] at eu
        subst eu
        rw [if_pos rfl]
        exact h4
      · rw [if_neg hu] at eu
        rw [if_neg (fun e => hu e.symm)]
        exact h2 u q eu
    · dsimp only at hu
      rw [List.length_set] at hu
      unfold changed
      rw [if_neg (by omega)]
      exact h3 u hu

theorem World.turns {S : Blocks} {Q : Nat → α → Blocks → Prop} {al : Allocator} (hv : al.Valid) (schedule : List Nat) :
    ∀ {s : List (Prog α) × Heap}, World S Q s.1 s.2 → World S Q (turns al schedule s).1 (turns al schedule s).2 := by
  induction schedule with
  | nil => exact fun h => h
  | cons t ts ih => exact fun h => ih (h.turn hv t)

theorem World.no_race {S : Blocks} {Q : Nat → α → Blocks → Prop} {ps : List (Prog α)} {h : Heap} (hw : World S Q ps h) : ¬ Race ps := by
  obtain ⟨owns, h1, h2, h3⟩ := hw
  rintro ⟨t, u, p, q, b, w, w', hne, e1, e2, n1, n2, hww⟩
  -- what is about to be accessed is one's own, or is only read
  have key : ∀ (t : Nat) (p : Prog α) w, ps[t]? = some p → nextAccess p = some (b, w) → owns t b ≠ none ∨ w = false ∧ S b ≠ none := by
    intro t p w e n
    have hs := h2 t p e
    cases p <;> simp only [nextAccess, Option.some.injEq, Prod.mk.injEq, reduceCtorEq] at n
    · obtain ⟨rfl, rfl⟩ := n
      obtain ⟨c, h, _⟩ := hs
      exact .inl (by simp [h])
    · obtain ⟨rfl, rfl⟩ := n
      obtain ⟨c, h, _⟩ := hs
      exact .inl (by simp [h])
    · obtain ⟨rfl, rfl⟩ := n
      obtain ⟨c, h | h, _⟩ := hs
      · exact .inl (by simp [h])
      · exact .inr ⟨rfl, by simp [h]⟩
    · obtain ⟨rfl, rfl⟩ := n
      obtain ⟨c, h, _⟩ := hs
      exact .inl (by simp [h])
  rcases key t p w e1 n1 with k1 | ⟨k1, k1'⟩
  · rcases key u q w' e2 n2 with k2 | ⟨k2, k2'⟩
    · exact hne (h1.one t u b k1 k2)
    · exact k2' (h1.apart t b k1)
  · rcases key u q w' e2 n2 with k2 | ⟨k2, k2'⟩
    · exact k1' (h1.apart u b k2)
    · simp [k1, k2] at hww

theorem World.no_ub {S : Blocks} {Q : Nat → α → Blocks → Prop} {ps : List (Prog α)} {h : Heap} (hw : World S Q ps h) (t : Nat) :
    ps[t]? ≠ some .ub ∧ ps[t]? ≠ some .panic := by
  obtain ⟨owns, h1, h2, h3⟩ := hw
  exact ⟨fun e => h2 t _ e, fun e => h2 t _ e⟩

end Bsn1.Buf
