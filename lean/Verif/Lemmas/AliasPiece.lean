import Verif.Lemmas.AliasSafe
/-!
# The small functions, checked

Each one alone, with names 0, 1, 2, …, at each octet: the simplifier computes what happens there, which octets are concerned becomes a case distinction, and the
checker is run by the kernel.
-/

namespace Bsn1.Alias

/-! ### Tactics -/

def inr (y o n : Nat) : Bool := decide (o ≤ y ∧ y < o + n)
theorem has_mk (a o n b y : Nat) : Region.has ⟨a, o, n⟩ ⟨b, y⟩ = (a == b && inr y o n) := rfl
theorem inr_true {y o n : Nat} (h : o ≤ y) (h' : y < o + n) : inr y o n = true := by simp [inr, h, h']
theorem inr_before {y o n : Nat} (h : y < o) : inr y o n = false := by simp [inr]; omega
theorem inr_behind {y o n : Nat} (h : o + n ≤ y) : inr y o n = false := by simp [inr]; omega
theorem acts_nil (x : Loc) : acts x [] = [] := rfl
theorem acts_cons (x : Loc) (e : Ev) (r : List Ev) : acts x (e :: r) = e.at x ++ acts x r := rfl
theorem data_inline (L : Lay) (blk len cap o n : Nat) : Value.data L ⟨none, blk, len, cap⟩ o n = ⟨0, L.base + o, n⟩ := rfl
theorem data_heap (L : Lay) (h : Tag) (blk len cap o n : Nat) : Value.data L ⟨some h, blk, len, cap⟩ o n = ⟨blk, o, n⟩ := rfl
theorem if_le {α : Type} {a b : Nat} {x y : α} (h : a ≤ b) : (if a ≤ b then x else y) = x := if_pos h
theorem if_gt {α : Type} {a b : Nat} {x y : α} (h : b < a) : (if a ≤ b then x else y) = y := if_neg (by omega)
theorem if_ne1 {α : Type} {a b : Nat} {x y : α} (h : a ≠ b) : (if a ≠ b then x else y) = x := if_pos h
theorem if_ne2 {α : Type} {a b : Nat} {x y : α} (h : a = b) : (if a ≠ b then x else y) = y := if_neg (by omega)
theorem if_lt1 {α : Type} {a b : Nat} {x y : α} (h : a < b) : (if a < b then x else y) = x := if_pos h
theorem if_lt2 {α : Type} {a b : Nat} {x y : α} (h : b ≤ a) : (if a < b then x else y) = y := if_neg (by omega)
theorem nbeq {a b : Nat} (h : a ≠ b) : (a == b) = false := by simpa using h
theorem own_none (blk len cap : Nat) (y : Loc) : own ⟨none, blk, len, cap⟩ y = none := by simp [own]
theorem own_in {t : Option Tag} {blk len cap a y : Nat} (h : a ≠ 0) (h' : a = blk) : own ⟨t, blk, len, cap⟩ ⟨a, y⟩ = t := by simp [own, h, h']; omega
theorem own_out {t : Option Tag} {blk len cap a y : Nat} (h : a ≠ blk) : own ⟨t, blk, len, cap⟩ ⟨a, y⟩ = none := by simp [own, h]

/-! ### Ends of functions -/

/-- The end of `push`. -/
def writeTop (L : Lay) (v : Value) (t : Tag) : Tr Unit := do
  let m ← asMutSlice L v t
  Tr.ev (.write m (v.data L (v.len - 1) 1))

/-- The beginning of `extend_from_slice`. -/
def writeBehind (L : Lay) (n : Nat) (v : Value) (t : Tag) : Tr Unit := do
  let p ← L.asMutPtr v t
  L.len v t
  Tr.ev (.write p (v.data L v.len n))

/-- `o` octets from `n` are written. -/
def writeAt (L : Lay) (o n : Nat) (v : Value) (t : Tag) : Tr Unit := do
  let p ← L.asMutPtr v t
  Tr.ev (.write p (v.data L o n))

def writeTwo (L : Lay) (o n : Nat) (v : Value) (t : Tag) : Tr Unit := do
  let p ← L.asMutPtr v t
  Tr.ev (.write p (v.data L 0 o))
  Tr.ev (.write p (v.data L o n))

/-- In the middle of `Der::extend_from_slice`. -/
def moveUp (L : Lay) (idLen lenLen newLen c n : Nat) (v : Value) (t : Tag) : Tr Unit := do
  let dest ← L.asMutPtr v t
  let src ← L.asPtr v t
  if newLen ≠ lenLen then
    Tr.ev (.read src (v.data L (idLen + lenLen) c))
    Tr.ev (.write dest (v.data L (idLen + newLen) c))
  Tr.ev (.write dest (v.data L (idLen + newLen + c) n))

/-- In the middle of `Der::truncate`. -/
def moveDown (L : Lay) (idLen lenLen newLen c : Nat) (v : Value) (t : Tag) : Tr Unit := do
  let dest ← L.asMutPtr v t
  Tr.ev (.write dest (v.data L idLen newLen))
  if newLen < lenLen then
    Tr.ev (.read dest (v.data L (idLen + lenLen) c))
    Tr.ev (.write dest (v.data L (idLen + newLen) c))

/-- The end of `Der::extend_from_slice`. -/
def derEnd (L : Lay) (dbg : Bool) (idLen lenLen newLen c n : Nat) (v : Value) (t : Tag) : Tr Unit := do
  let dest ← L.asMutPtr v t
  let src ← L.asPtr v t
  if newLen ≠ lenLen then
    Tr.ev (.read src (v.data L (idLen + lenLen) c))
    Tr.ev (.write dest (v.data L (idLen + newLen) c))
  Tr.ev (.write dest (v.data L (idLen + newLen + c) n))
  if dbg then
    let _ ← L.asPtr v t
    L.len v t
  let dest ← L.asMutPtr v t
  Tr.ev (.write dest (v.data L idLen newLen))

/-- Both versions of the rules. -/
def ok2 (o : Option Tag) (as : List Act) (o' : Option Tag) : Bool := decide (SB.ok o as = some o') && decide (TB.ok o as = some o')
def okT (o : Option Tag) (as : List Act) (o' : Option Tag) : Bool := decide (TB.ok o as = some o')

def Both (T : Theory R) : Prop := ∀ o as o', ok2 o as o' = true → T.ok o as = some o'

theorem both_sb : Both SB.theory := fun o as o' h => by
  simp only [ok2, Bool.and_eq_true, decide_eq_true_eq] at h
  exact h.1

theorem both_tb : Both TB.theory := fun o as o' h => by
  simp only [ok2, Bool.and_eq_true, decide_eq_true_eq] at h
  exact h.2

theorem only_tb : ∀ o as o', okT o as o' = true → TB.theory.ok o as = some o' := fun o as o' h => by
  simp only [okT, decide_eq_true_eq] at h
  exact h

theorem checked_intro {ok : Option Tag → List Act → Option Tag → Bool} {v v' : Value} {m : Nat} {tr : List Ev} (two : 2 ≤ m)
    (heap : ∀ h, v'.heap = some h → h < m ∧ v'.blk ≠ 0 ∧ (v.heap = some h ∨ 2 ≤ h))
    (hA : ∀ y, y < 24 → (ok (some 0) (acts ⟨0, y⟩ tr) (some 0) && (plain (acts ⟨0, y⟩ tr) && under m (acts ⟨0, y⟩ tr))) = true)
    (hB : ∀ y, 24 ≤ y → (ok none (acts ⟨0, y⟩ tr) none && under m (acts ⟨0, y⟩ tr)) = true)
    (hC : ∀ a y, a ≠ 0 → (ok (own v ⟨a, y⟩) (acts ⟨a, y⟩ tr) (own v' ⟨a, y⟩) && under m (acts ⟨a, y⟩ tr)) = true) : Checked ok v v' m tr := by
  refine ⟨two, heap, ?_, ?_⟩
  · rintro ⟨a, y⟩ h
    obtain rfl := whole_alloc h
    refine hA y ?_
    simp [has_mk, whole, inr] at h
    exact h
  · rintro ⟨a, y⟩ h
    by_cases ha : a = 0
    · subst ha
      refine hB y ?_
      simp [has_mk, whole, inr] at h
      exact h
    · exact hC a y ha

/-- Compute the events. -/
macro "evl" : tactic => `(tactic| simp (maxSteps := 10000000) (disch := omega) only [↓asMutSlice, ↓asSlice, ↓disassemble, ↓disassembleMut, ↓setAt, ↓readAll,
  ↓idLength, ↓lengthOf, ↓mutId, ↓mutIdSet, ↓mutContentsSet, ↓idSet, ↓fromInteger, ↓writeTop, ↓writeBehind, ↓writeAt, ↓moveUp, ↓moveDown, ↓writeTwo, ↓derEnd,
  ↓universal, ↓UE.len, ↓UE.capacity, ↓UE.setLen, ↓UE.asMutPtr, ↓UE.asPtr, ↓UE.reserve, ↓UE.isStack, UE.unionF, UE.lenF, UE.dataF, UE.capF, whole,
  ↓little, ↓LE.len, ↓LE.capacity, ↓LE.setLen, ↓LE.asMutPtr, ↓LE.asPtr, ↓LE.reserve, ↓LE.isStack, LE.lenF, LE.dataF, LE.capF,
  ↓Tr.alloc, ↓Tr.call, ↓Tr.ev, ↓Tr.borrow, ↓bind_run, ↓pure_run, ↓if_true, ↓if_false, Bool.false_eq_true, List.append_nil, List.nil_append, List.cons_append,
  List.append_assoc, Nat.reduceAdd, data_inline, data_heap, Nat.zero_add, ↓if_le, ↓if_gt, ↓if_ne1, ↓if_ne2, ↓if_lt1, ↓if_lt2])

/-- Compute what happens at an octet. -/
macro "act" : tactic => `(tactic| simp (maxSteps := 10000000) (disch := omega) only [acts_cons, acts_nil, Ev.at, has_mk, Nat.reduceBEq, Bool.true_and,
  Bool.false_and, BEq.rfl, inr_true, inr_before, inr_behind, Bool.false_eq_true, if_true, if_false, List.append_nil, List.nil_append, List.cons_append,
  nbeq, own_none, own_in, own_out])

open Lean Meta Elab Tactic in
/-- Whether the octet is in a region: both cases. -/
elab "gen" : tactic => do
  let mut g ← getMainGoal
  for _ in [0:100] do
    let t ← instantiateMVars (← g.getType)
    match t.find? (fun e => e.isAppOfArity ``inr 3 && !e.hasLooseBVars) with
    | none => break
    | some e =>
      let (fs, g') ← g.generalize #[{ expr := e, xName? := some `b }]
      let (_, g'') ← g'.revert fs
      g := g''
  replaceMainGoal [g]

set_option hygiene false in
macro "cut " e:term : tactic => `(tactic| rcases Nat.lt_or_ge y ($e) with hc | hc)

syntax "cuts " "[" term,* "]" : tactic
macro_rules
  | `(tactic| cuts []) => `(tactic| skip)
  | `(tactic| cuts [$e]) => `(tactic| cut $e)
  | `(tactic| cuts [$e, $es,*]) => `(tactic| (cut $e) <;> (cuts [$es,*]))

set_option hygiene false in
/-- A function on an inline buffer that stays there. -/
macro "inlined " "[" es:term,* "]" : tactic => `(tactic| (
  refine checked_intro (by decide) (by simp) ?_ ?_ ?_
  · intro y hy
    (cut 8) <;> (cuts [$es,*]) <;> (first | omega | (act <;> gen <;> decide +kernel))
  · intro y hy
    act <;> decide +kernel
  · intro a y ha
    act <;> decide +kernel))

set_option hygiene false in
/-- A function on a buffer on the heap that stays there. -/
macro "heaped " "[" es:term,* "]" : tactic => `(tactic| (
  refine checked_intro (by decide) (by simp [*]) ?_ ?_ ?_
  · intro y hy
    (cut 8) <;> (first | omega | (act <;> gen <;> decide +kernel))
  · intro y hy
    act <;> decide +kernel
  · intro a y ha
    rcases Nat.decEq a blk with hb | hb
    · act <;> decide +kernel
    · subst hb
      (cuts [$es,*]) <;> (first | omega | (act <;> gen <;> decide +kernel))))

/-! ### Functions of the layouts -/

theorem UE.len_inline {blk len cap : Nat} : Checked ok2 ⟨none, blk, len, cap⟩ ⟨none, blk, len, cap⟩
    ((UE.len ⟨none, blk, len, cap⟩) 0 2).2.1 ((UE.len ⟨none, blk, len, cap⟩) 0 2).2.2 := by
  evl
  inlined []

theorem UE.capacity_inline {blk len cap : Nat} : Checked ok2 ⟨none, blk, len, cap⟩ ⟨none, blk, len, cap⟩
    ((UE.capacity ⟨none, blk, len, cap⟩) 0 2).2.1 ((UE.capacity ⟨none, blk, len, cap⟩) 0 2).2.2 := by
  evl
  inlined []

theorem UE.setLen_inline {blk len cap n : Nat} (dbg : Bool) : Checked ok2 ⟨none, blk, len, cap⟩ ⟨none, blk, n, cap⟩
    (UE.setLen dbg ⟨none, blk, len, cap⟩ n 0 2).2.1 (UE.setLen dbg ⟨none, blk, len, cap⟩ n 0 2).2.2 := by
  cases dbg
  · evl
    inlined []
  · evl
    inlined []

theorem UE.readAll_inline {blk len cap : Nat} (h : len ≤ 16) : Checked ok2 ⟨none, blk, len, cap⟩ ⟨none, blk, len, cap⟩
    ((readAll universal ⟨none, blk, len, cap⟩) 0 2).2.1 ((readAll universal ⟨none, blk, len, cap⟩) 0 2).2.2 := by
  evl
  inlined [8 + (len)]

theorem UE.idLength_inline {blk len cap : Nat} {k : Nat} (hk : k ≤ len) (h : len ≤ 16) : Checked ok2 ⟨none, blk, len, cap⟩ ⟨none, blk, len, cap⟩
    ((idLength universal ⟨none, blk, len, cap⟩ k) 0 2).2.1 ((idLength universal ⟨none, blk, len, cap⟩ k) 0 2).2.2 := by
  evl
  inlined [8 + (len), 8 + (k)]

theorem UE.lengthOf_inline {blk len cap : Nat} {k l : Nat} (hk : k + l ≤ len) (h : len ≤ 16) : Checked ok2 ⟨none, blk, len, cap⟩ ⟨none, blk, len, cap⟩
    ((lengthOf universal ⟨none, blk, len, cap⟩ k l) 0 2).2.1 ((lengthOf universal ⟨none, blk, len, cap⟩ k l) 0 2).2.2 := by
  evl
  inlined [8 + (len), 8 + (k), 8 + (k + l)]

theorem UE.len_heap {blk len cap : Nat} (hb : blk ≠ 0) : Checked ok2 ⟨some 1, blk, len, cap⟩ ⟨some 1, blk, len, cap⟩
    ((UE.len ⟨some 1, blk, len, cap⟩) 0 2).2.1 ((UE.len ⟨some 1, blk, len, cap⟩) 0 2).2.2 := by
  evl
  heaped []

theorem UE.capacity_heap {blk len cap : Nat} (hb : blk ≠ 0) : Checked ok2 ⟨some 1, blk, len, cap⟩ ⟨some 1, blk, len, cap⟩
    ((UE.capacity ⟨some 1, blk, len, cap⟩) 0 2).2.1 ((UE.capacity ⟨some 1, blk, len, cap⟩) 0 2).2.2 := by
  evl
  heaped []

theorem UE.setLen_heap {blk len cap n : Nat} (hb : blk ≠ 0) (dbg : Bool) : Checked ok2 ⟨some 1, blk, len, cap⟩ ⟨some 1, blk, n, cap⟩
    (UE.setLen dbg ⟨some 1, blk, len, cap⟩ n 0 2).2.1 (UE.setLen dbg ⟨some 1, blk, len, cap⟩ n 0 2).2.2 := by
  cases dbg
  · evl
    heaped []
  · evl
    heaped []

theorem UE.readAll_heap {blk len cap : Nat} (hb : blk ≠ 0) : Checked ok2 ⟨some 1, blk, len, cap⟩ ⟨some 1, blk, len, cap⟩
    ((readAll universal ⟨some 1, blk, len, cap⟩) 0 2).2.1 ((readAll universal ⟨some 1, blk, len, cap⟩) 0 2).2.2 := by
  evl
  heaped [(len)]

theorem UE.idLength_heap {blk len cap : Nat} (hb : blk ≠ 0) {k : Nat} (hk : k ≤ len) : Checked ok2 ⟨some 1, blk, len, cap⟩ ⟨some 1, blk, len, cap⟩
    ((idLength universal ⟨some 1, blk, len, cap⟩ k) 0 2).2.1 ((idLength universal ⟨some 1, blk, len, cap⟩ k) 0 2).2.2 := by
  evl
  heaped [(len), (k)]

theorem UE.lengthOf_heap {blk len cap : Nat} (hb : blk ≠ 0) {k l : Nat} (hk : k + l ≤ len) : Checked ok2 ⟨some 1, blk, len, cap⟩ ⟨some 1, blk, len, cap⟩
    ((lengthOf universal ⟨some 1, blk, len, cap⟩ k l) 0 2).2.1 ((lengthOf universal ⟨some 1, blk, len, cap⟩ k l) 0 2).2.2 := by
  evl
  heaped [(len), (k), (k + l)]

theorem LE.len_inline {blk len cap : Nat} : Checked ok2 ⟨none, blk, len, cap⟩ ⟨none, blk, len, cap⟩
    ((LE.len ⟨none, blk, len, cap⟩) 0 2).2.1 ((LE.len ⟨none, blk, len, cap⟩) 0 2).2.2 := by
  evl
  inlined []

theorem LE.capacity_inline {blk len cap : Nat} : Checked ok2 ⟨none, blk, len, cap⟩ ⟨none, blk, len, cap⟩
    ((LE.capacity ⟨none, blk, len, cap⟩) 0 2).2.1 ((LE.capacity ⟨none, blk, len, cap⟩) 0 2).2.2 := by
  evl
  inlined []

theorem LE.setLen_inline {blk len cap n : Nat} (dbg : Bool) : Checked ok2 ⟨none, blk, len, cap⟩ ⟨none, blk, n, cap⟩
    (LE.setLen dbg ⟨none, blk, len, cap⟩ n 0 2).2.1 (LE.setLen dbg ⟨none, blk, len, cap⟩ n 0 2).2.2 := by
  cases dbg
  · evl
    inlined []
  · evl
    inlined []

theorem LE.readAll_inline {blk len cap : Nat} (h : len ≤ 23) : Checked ok2 ⟨none, blk, len, cap⟩ ⟨none, blk, len, cap⟩
    ((readAll little ⟨none, blk, len, cap⟩) 0 2).2.1 ((readAll little ⟨none, blk, len, cap⟩) 0 2).2.2 := by
  evl
  inlined [(len)]

theorem LE.idLength_inline {blk len cap : Nat} {k : Nat} (hk : k ≤ len) (h : len ≤ 23) : Checked ok2 ⟨none, blk, len, cap⟩ ⟨none, blk, len, cap⟩
    ((idLength little ⟨none, blk, len, cap⟩ k) 0 2).2.1 ((idLength little ⟨none, blk, len, cap⟩ k) 0 2).2.2 := by
  evl
  inlined [(len), (k)]

theorem LE.lengthOf_inline {blk len cap : Nat} {k l : Nat} (hk : k + l ≤ len) (h : len ≤ 23) : Checked ok2 ⟨none, blk, len, cap⟩ ⟨none, blk, len, cap⟩
    ((lengthOf little ⟨none, blk, len, cap⟩ k l) 0 2).2.1 ((lengthOf little ⟨none, blk, len, cap⟩ k l) 0 2).2.2 := by
  evl
  inlined [(len), (k), (k + l)]

theorem LE.len_heap {blk len cap : Nat} (hb : blk ≠ 0) : Checked ok2 ⟨some 1, blk, len, cap⟩ ⟨some 1, blk, len, cap⟩
    ((LE.len ⟨some 1, blk, len, cap⟩) 0 2).2.1 ((LE.len ⟨some 1, blk, len, cap⟩) 0 2).2.2 := by
  evl
  heaped []

theorem LE.capacity_heap {blk len cap : Nat} (hb : blk ≠ 0) : Checked ok2 ⟨some 1, blk, len, cap⟩ ⟨some 1, blk, len, cap⟩
    ((LE.capacity ⟨some 1, blk, len, cap⟩) 0 2).2.1 ((LE.capacity ⟨some 1, blk, len, cap⟩) 0 2).2.2 := by
  evl
  heaped []

theorem LE.setLen_heap {blk len cap n : Nat} (hb : blk ≠ 0) (dbg : Bool) : Checked ok2 ⟨some 1, blk, len, cap⟩ ⟨some 1, blk, n, cap⟩
    (LE.setLen dbg ⟨some 1, blk, len, cap⟩ n 0 2).2.1 (LE.setLen dbg ⟨some 1, blk, len, cap⟩ n 0 2).2.2 := by
  cases dbg
  · evl
    heaped []
  · evl
    heaped []

theorem LE.readAll_heap {blk len cap : Nat} (hb : blk ≠ 0) : Checked ok2 ⟨some 1, blk, len, cap⟩ ⟨some 1, blk, len, cap⟩
    ((readAll little ⟨some 1, blk, len, cap⟩) 0 2).2.1 ((readAll little ⟨some 1, blk, len, cap⟩) 0 2).2.2 := by
  evl
  heaped [(len)]

theorem LE.idLength_heap {blk len cap : Nat} (hb : blk ≠ 0) {k : Nat} (hk : k ≤ len) : Checked ok2 ⟨some 1, blk, len, cap⟩ ⟨some 1, blk, len, cap⟩
    ((idLength little ⟨some 1, blk, len, cap⟩ k) 0 2).2.1 ((idLength little ⟨some 1, blk, len, cap⟩ k) 0 2).2.2 := by
  evl
  heaped [(len), (k)]

theorem LE.lengthOf_heap {blk len cap : Nat} (hb : blk ≠ 0) {k l : Nat} (hk : k + l ≤ len) : Checked ok2 ⟨some 1, blk, len, cap⟩ ⟨some 1, blk, len, cap⟩
    ((lengthOf little ⟨some 1, blk, len, cap⟩ k l) 0 2).2.1 ((lengthOf little ⟨some 1, blk, len, cap⟩ k l) 0 2).2.2 := by
  evl
  heaped [(len), (k), (k + l)]

end Bsn1.Alias
