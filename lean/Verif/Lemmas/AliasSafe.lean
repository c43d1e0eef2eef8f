import Verif.Lemmas.AliasCode
/-!
# From functions checked alone to programs

`Safe`: a function that owns its buffer runs, whatever is below, and owns it again afterwards.  `Breaks`: it has undefined behaviour.
-/

namespace Bsn1.Alias

variable {R : Rules} {T : Theory R}

/-! ### Who owns an octet -/

/-- Outside of the struct: the octets of the block on the heap are owned by the pointer to it. -/
def own (v : Value) (x : Loc) : Option Tag := if x.alloc ≠ 0 ∧ x.alloc = v.blk then v.heap else none

/-- The names `s`, the pointer to the struct, and that of the heap are in use. -/
structure Fine (s : Tag) (v : Value) (n : Nat) : Prop where
  two : 2 ≤ n
  self : s < n
  heap : ∀ h, v.heap = some h → h < n ∧ h ≠ s ∧ v.blk ≠ 0

/-- The pointer to the heap is the one there was or a new one. -/
def Next (v v' : Value) (n m : Nat) : Prop := n ≤ m ∧ ∀ h, v'.heap = some h → h < m ∧ v'.blk ≠ 0 ∧ (v.heap = some h ∨ n ≤ h)

def Safe (T : Theory R) {α : Type} (s : Tag) (v : Value) (x : Tr α) (Q : α → Value → Prop) : Prop := ∀ n, Fine s v n →
  ∃ v', Q (x n).1 v' ∧ Next v v' n (x n).2.1 ∧ ∀ y,
    (whole.has y = true → Keeps T s n (x n).2.1 (acts y (x n).2.2)) ∧
    (whole.has y = false → Goes T (own v y) (own v' y) n (x n).2.1 (acts y (x n).2.2))

/-- The octet is owned by `o` or by nobody, and the behaviour is undefined. -/
def Dies (T : Theory R) (o : Option Tag) (n : Nat) (as : List Act) : Prop :=
  ∀ st, (∀ u ∈ T.tags st, u < n) → (∀ t, o = some t → t < n ∧ T.Good t st) → R.run st as = none

def Breaks (T : Theory R) {α : Type} (s : Tag) (v : Value) (x : Tr α) : Prop := ∀ n, Fine s v n → ∃ y,
  (whole.has y = true ∧ Fails T s n (acts y (x n).2.2)) ∨ (whole.has y = false ∧ Dies T (own v y) n (acts y (x n).2.2))

/-! ### Rules -/

section rules
variable {α β : Type} {s : Tag} {v : Value}

theorem acts_append (x : Loc) (a b : List Ev) : acts x (a ++ b) = acts x a ++ acts x b := by simp [acts]

theorem bind_run (x : Tr α) (f : α → Tr β) (n : Nat) :
    (x >>= f) n = ((f (x n).1 (x n).2.1).1, (f (x n).1 (x n).2.1).2.1, (x n).2.2 ++ (f (x n).1 (x n).2.1).2.2) := rfl

theorem pure_run (a : α) (n : Nat) : (pure a : Tr α) n = (a, n, []) := rfl

theorem Keeps.nil (t : Tag) (n : Nat) (hr : ∀ st, T.Frame n t st st) : Keeps T t n n [] :=
  ⟨Nat.le_refl n, fun st _ _ hg => ⟨st, rfl, fun u hu => .inl hu, hg, hr st⟩⟩

theorem Safe.conseq {x : Tr α} {Q Q' : α → Value → Prop} (h : Safe T s v x Q) (hq : ∀ a v', Q a v' → Q' a v') : Safe T s v x Q' := by
  intro n hn
  obtain ⟨v', q, r⟩ := h n hn
  exact ⟨v', hq _ _ q, r⟩

theorem Fine.next {v' : Value} {n m : Nat} (h : Fine s v n) (k : Next v v' n m) : Fine s v' m := by
  refine ⟨Nat.le_trans h.two k.1, Nat.lt_of_lt_of_le h.self k.1, fun t e => ?_⟩
  obtain ⟨k1, k2, k3⟩ := k.2 t e
  refine ⟨k1, ?_, k2⟩
  rcases k3 with k3 | k3
  · exact (h.heap t k3).2.1
  · have := h.self
    rintro rfl
    exact absurd this (Nat.not_lt.mpr k3)

theorem Next.trans {v' v'' : Value} {n m l : Nat} (h : Next v v' n m) (k : Next v' v'' m l) : Next v v'' n l := by
  refine ⟨Nat.le_trans h.1 k.1, fun t e => ?_⟩
  obtain ⟨k1, k2, k3⟩ := k.2 t e
  refine ⟨k1, k2, ?_⟩
  rcases k3 with k3 | k3
  · exact (h.2 t k3).2.2
  · exact .inr (Nat.le_trans h.1 k3)

theorem Safe.bind {x : Tr α} {f : α → Tr β} {Q : α → Value → Prop} {Q' : β → Value → Prop} (h : Safe T s v x Q)
    (hf : ∀ a v', Q a v' → Safe T s v' (f a) Q') : Safe T s v (x >>= f) Q' := by
  intro n hn
  obtain ⟨v', q, fi, r⟩ := h n hn
  obtain ⟨v'', q', fi', r'⟩ := hf _ _ q _ (hn.next fi)
  refine ⟨v'', q', fi.trans fi', fun y => ⟨fun hy => ?_, fun hy => ?_⟩⟩
  · rw [bind_run, acts_append]
    exact ((r y).1 hy).seq ((r' y).1 hy)
  · rw [bind_run, acts_append]
    exact ((r y).2 hy).seq ((r' y).2 hy)

theorem whole_alloc {y : Loc} (h : whole.has y = true) : y.alloc = 0 := by
  simp only [Region.has, whole, Bool.and_eq_true, beq_iff_eq] at h
  exact h.1.symm

theorem Fine.call {n : Nat} (hn : Fine s v n) : Fine n v (n + 1) := ⟨Nat.le_succ_of_le hn.two, Nat.lt_succ_self n, fun h e => by
  have := hn.heap h e
  exact ⟨Nat.lt_succ_of_lt this.1, Nat.ne_of_lt this.1, this.2.2⟩⟩

theorem acts_call (b : Tag → Tr α) (n : Nat) (y : Loc) : acts y (Tr.call .excl s whole b n).2.2 =
    (Ev.retag s n .excl whole true).at y ++ (acts y (b n (n + 1)).2.2 ++ [.release n]) := by
  simp [Tr.call, acts, Ev.at]

theorem own_zero {y : Loc} (h : y.alloc = 0) : own v y = none := by simp [own, h]

theorem Safe.call {b : Tag → Tr α} {Q : α → Value → Prop} (h : ∀ t, Safe T t v (b t) Q) : Safe T s v (Tr.call .excl s whole b) Q := by
  intro n hn
  obtain ⟨v', q, fi, r⟩ := h n (n + 1) hn.call
  refine ⟨v', q, ⟨Nat.le_of_succ_le fi.1, fun h e => ?_⟩, fun y => ⟨fun hy => ?_, fun hy => ?_⟩⟩
  · obtain ⟨k1, k2, k3⟩ := fi.2 h e
    exact ⟨k1, k2, k3.imp id Nat.le_of_succ_le⟩
  · rw [acts_call]
    have : (Ev.retag s n .excl whole true).at y = [.retag s n .excl true] := by simp [Ev.at, hy]
    rw [this]
    exact ((r y).1 hy).call
  · have k := (r y).2 hy
    rw [acts_call]
    by_cases h0 : y.alloc = 0
    · have : (Ev.retag s n .excl whole true).at y = [.beside s n .excl true] := by simp [Ev.at, hy, show whole.alloc = 0 from rfl, h0]
      rw [this, own_zero h0, own_zero h0]
      rw [own_zero h0, own_zero h0] at k
      refine Goes.seq (n' := n + 1) (o' := none) (.idle (Nat.le_succ n) rfl ?_) (k.seq (.idle (Nat.le_refl _) rfl (by simp [names])))
      intro u hu
      simp only [names, List.mem_singleton] at hu
      exact ⟨Nat.le_of_eq hu.symm, hu ▸ Nat.lt_succ_self n⟩
    · have : (Ev.retag s n .excl whole true).at y = [] := by simp [Ev.at, hy, show whole.alloc = 0 from rfl, Ne.symm h0]
      rw [this]
      refine k.skip fun t e => ?_
      simp only [own] at e
      split at e
      · exact (hn.heap t e).1
      · cases e

theorem Dies.goes {o o' : Option Tag} {n n' : Nat} {a b : List Act} (h1 : Goes T o o' n n' a) (h2 : Dies T o' n' b) : Dies T o n (a ++ b) := by
  obtain ⟨l1, h1⟩ := h1
  intro st ht hg
  obtain ⟨st1, e1, t1, g1⟩ := h1 st ht hg
  rw [run_append, e1]
  exact h2 st1 (fun u hu => by rcases t1 u hu with h | h; exact Nat.lt_of_lt_of_le (ht u h) l1; exact h.2) g1

theorem Dies.more {o : Option Tag} {n : Nat} {a : List Act} (h : Dies T o n a) (b : List Act) : Dies T o n (a ++ b) := by
  intro st ht hg
  rw [run_append, h st ht hg]
  rfl

theorem Breaks.more {x : Tr α} {f : α → Tr β} (h : Breaks T s v x) : Breaks T s v (x >>= f) := by
  intro n hn
  obtain ⟨y, h⟩ := h n hn
  refine ⟨y, ?_⟩
  rw [bind_run, acts_append]
  rcases h with ⟨hy, h⟩ | ⟨hy, h⟩
  · exact .inl ⟨hy, h.more _⟩
  · exact .inr ⟨hy, h.more _⟩

theorem Breaks.after {x : Tr α} {f : α → Tr β} {Q : α → Value → Prop} (h : Safe T s v x Q)
    (hf : ∀ a v', Q a v' → Breaks T s v' (f a)) : Breaks T s v (x >>= f) := by
  intro n hn
  obtain ⟨v', q, fi, r⟩ := h n hn
  obtain ⟨y, k⟩ := hf _ _ q _ (hn.next fi)
  refine ⟨y, ?_⟩
  rw [bind_run, acts_append]
  rcases k with ⟨hy, k⟩ | ⟨hy, k⟩
  · exact .inl ⟨hy, Fails.after ((r y).1 hy) k⟩
  · exact .inr ⟨hy, Dies.goes ((r y).2 hy) k⟩

theorem Breaks.call {b : Tag → Tr α} (h : ∀ t, Breaks T t v (b t)) : Breaks T s v (Tr.call .excl s whole b) := by
  intro n hn
  obtain ⟨y, k⟩ := h n (n + 1) hn.call
  refine ⟨y, ?_⟩
  rw [acts_call]
  rcases k with ⟨hy, k⟩ | ⟨hy, k⟩
  · have : (Ev.retag s n .excl whole true).at y = [.retag s n .excl true] := by simp [Ev.at, hy]
    rw [this]
    exact .inl ⟨hy, k.call _⟩
  · by_cases h0 : y.alloc = 0
    · have : (Ev.retag s n .excl whole true).at y = [.beside s n .excl true] := by simp [Ev.at, hy, show whole.alloc = 0 from rfl, h0]
      rw [this, own_zero h0]
      rw [own_zero h0] at k
      refine .inr ⟨hy, Dies.goes (o' := none) (n' := n + 1) (.idle (Nat.le_succ n) rfl ?_) (k.more _)⟩
      intro u hu
      simp only [names, List.mem_singleton] at hu
      exact ⟨Nat.le_of_eq hu.symm, hu ▸ Nat.lt_succ_self n⟩
    · have : (Ev.retag s n .excl whole true).at y = [] := by simp [Ev.at, hy, show whole.alloc = 0 from rfl, Ne.symm h0]
      rw [this]
      refine .inr ⟨hy, fun st ht hg => ?_⟩
      rw [List.nil_append, run_append, k st (fun u hu => Nat.lt_succ_of_lt (ht u hu)) fun t e => ⟨Nat.lt_succ_of_lt (hg t e).1, (hg t e).2⟩]
      rfl

/-! ### Functions checked alone -/

/-- The value with the names 0 (the struct) and 1 (the heap). -/
def Value.rel (v : Value) : Value := { v with heap := v.heap.map fun _ => 1 }

/-- From `v` to `v'`, checked with names from 0. -/
structure Checked (ok : Option Tag → List Act → Option Tag → Bool) (v v' : Value) (m : Nat) (tr : List Ev) : Prop where
  two : 2 ≤ m
  heap : ∀ h, v'.heap = some h → h < m ∧ v'.blk ≠ 0 ∧ (v.heap = some h ∨ 2 ≤ h)
  self : ∀ y, whole.has y = true → (ok (some 0) (acts y tr) (some 0) && (plain (acts y tr) && under m (acts y tr))) = true
  rest : ∀ y, whole.has y = false → (ok (own v y) (acts y tr) (own v' y) && under m (acts y tr)) = true

def okOf (T : Theory R) (o : Option Tag) (as : List Act) (o' : Option Tag) : Bool := decide (T.ok o as = some o')

/-- A name that is neither `s` nor new. -/
def other (v : Value) (s : Tag) : Tag := v.heap.getD (if s = 0 then 1 else 0)

theorem other_spec {n : Nat} (h : Fine s v n) : other v s < n ∧ s ≠ other v s ∧ v = v.rel.ren (spread s (other v s) n) := by
  have h2 := h.two
  obtain ⟨t, b, l, c⟩ := v
  cases t with
  | none =>
    refine ⟨?_, ?_, rfl⟩ <;> simp only [other, Option.getD] <;> split
    · exact h2
    · exact Nat.lt_of_lt_of_le (by decide) h2
    · rename_i e; subst e; decide
    · assumption
  | some t => exact ⟨(h.heap t rfl).1, (h.heap t rfl).2.1.symm, rfl⟩

theorem own_ren (f : Tag → Tag) (v : Value) (y : Loc) : own (v.ren f) y = (own v y).map f := by
  obtain ⟨t, b, l, c⟩ := v
  show (if y.alloc ≠ 0 ∧ y.alloc = b then Option.map f t else none) = (if y.alloc ≠ 0 ∧ y.alloc = b then t else none).map f
  by_cases h : y.alloc ≠ 0 ∧ y.alloc = b
  · rw [if_pos h, if_pos h]
  · rw [if_neg h, if_neg h]; rfl

theorem own_rel (h : v.rel.heap = some t) : t = 1 := by
  simp only [Value.rel, Option.map_eq_some_iff] at h
  obtain ⟨_, _, e⟩ := h
  exact e.symm

theorem safe_of_checked [Ren α] {g : Value → Tag → Tr α} {val : Value → α → Value} {ok : Option Tag → List Act → Option Tag → Bool}
    (hg : ∀ f v t, Same f (g (Value.ren f v) (f t)) (g v t)) (hval : ∀ f v a, val (Value.ren f v) (Ren.ren f a) = (val v a).ren f)
    (hok : ∀ o as o', ok o as o' = true → T.ok o as = some o')
    (h : Checked ok v.rel (val v.rel (g v.rel 0 2).1) (g v.rel 0 2).2.1 (g v.rel 0 2).2.2) {Q : α → Value → Prop}
    (hQ : ∀ n, Fine s v n → Q (g v s n).1 (val v (g v s n).1)) : Safe T s v (g v s) Q := by
  intro n hn
  obtain ⟨o1, o2, o3⟩ := other_spec hn
  have hS := hg (spread s (other v s) n) v.rel 0 n 2 (fun k => by rw [Nat.add_comm 2 k]; rfl)
  rw [← o3] at hS
  obtain ⟨e1, ⟨d, e2, e3⟩, e4⟩ := hS
  have e1 : (g v s n).1 = Ren.ren (spread s (other v s) n) (g v.rel 0 2).1 := e1
  have e2 : (g v s n).2.1 = n + d := e2
  have e4 : (g v s n).2.2 = (g v.rel 0 2).2.2.map (Ev.ren (spread s (other v s) n)) := e4
  have ev : val v (g v s n).1 = (val v.rel (g v.rel 0 2).1).ren (spread s (other v s) n) := by
    rw [e1, ← hval, ← o3]
  have em : n + ((g v.rel 0 2).2.1 - 2) = (g v s n).2.1 := by rw [e2, e3, Nat.add_sub_cancel_left]
  refine ⟨val v (g v s n).1, hQ n hn, ⟨by rw [e2]; exact Nat.le_add_right _ _, fun t e => ?_⟩, fun y => ⟨fun hy => ?_, fun hy => ?_⟩⟩
  · rw [ev] at e
    simp only [Value.ren, Option.map_eq_some_iff] at e
    obtain ⟨k, ek, rfl⟩ := e
    obtain ⟨h1, h2, h3⟩ := h.heap k ek
    rw [ev]
    rw [← em]
    match k, h1, h3, ek with
    | 0, _, h3, _ =>
      rcases h3 with h3 | h3
      · exact absurd (own_rel h3) (by decide)
      · exact absurd h3 (by decide)
    | 1, _, h3, _ =>
      rcases h3 with h3 | h3
      · refine ⟨Nat.lt_of_lt_of_le o1 (Nat.le_add_right _ _), h2, .inl ?_⟩
        rw [o3]
        simp only [Value.ren, h3]
        rfl
      · exact absurd h3 (by decide)
    | k + 2, h1, _, _ =>
      refine ⟨?_, h2, .inr (Nat.le_add_right n k)⟩
      show n + k < _
      have h1 : @LT.lt Nat _ (k + 2) (g v.rel 0 2).2.1 := h1
      simp only [Tag] at *
      omega
  · have := h.self y hy
    simp only [Bool.and_eq_true] at this
    rw [e4, acts_ren, ← em]
    exact keeps_of hn.self o1 o2 (o := 0) (by decide) this.2.2 this.2.1 (hok _ _ _ this.1)
  · have hc := h.rest y hy
    simp only [Bool.and_eq_true] at hc
    rw [e4, acts_ren, ← em, ev, own_ren]
    have : own v y = (own v.rel y).map (spread s (other v s) n) := by rw [← own_ren, ← o3]
    rw [this]
    refine goes_of hn.self o1 o2 ?_ ?_ hc.2 h.two (hok _ _ _ hc.1)
    · intro t e
      simp only [own] at e
      split at e
      · rw [own_rel e]; decide
      · cases e
    · intro t e
      simp only [own] at e
      split at e
      · exact (h.heap t e).1
      · cases e

/-- Checked with names from 0: it fails. -/
def CheckedBad (bad : Tag → List Act → Bool) (v : Value) (tr : List Ev) : Prop :=
  ∃ y, (whole.has y = true ∧ bad 0 (acts y tr) = true) ∨ (whole.has y = false ∧ own v y = some 1 ∧ bad 1 (acts y tr) = true)

theorem breaks_of_checked [Ren α] {g : Value → Tag → Tr α} (hg : ∀ f v t, Same f (g (Value.ren f v) (f t)) (g v t))
    (h : CheckedBad T.bad v.rel (g v.rel 0 2).2.2) : Breaks T s v (g v s) := by
  intro n hn
  obtain ⟨o1, o2, o3⟩ := other_spec hn
  have hS := hg (spread s (other v s) n) v.rel 0 n 2 (fun k => by rw [Nat.add_comm 2 k]; rfl)
  rw [← o3] at hS
  obtain ⟨_, _, e4⟩ := hS
  have e4 : (g v s n).2.2 = (g v.rel 0 2).2.2.map (Ev.ren (spread s (other v s) n)) := e4
  obtain ⟨y, h⟩ := h
  refine ⟨y, ?_⟩
  rw [e4, acts_ren]
  rcases h with ⟨hy, h⟩ | ⟨hy, e, h⟩
  · exact .inl ⟨hy, fails_of hn.self o1 o2 (o := 0) (by decide) h⟩
  · have : own v y = some (other v s) := by
      rw [o3, own_ren, e, ← o3]
      rfl
    rw [this]
    refine .inr ⟨hy, fun st ht hg => ?_⟩
    exact fails_of hn.self o1 o2 (o := 1) (by decide) h st ht o1 (hg _ rfl).2

end rules

end Bsn1.Alias
