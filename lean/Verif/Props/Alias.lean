import Verif.Lemmas.AliasUse
/-!
# C101 Aliasing

The rules of the language for pointers (`Spec/Alias`: Stacked Borrows, Tree Borrows) against the pointers that the functions make and use (`Model/Alias`).
-/

namespace Bsn1
open Alias

/-- For every sequence of calls on a buffer, used as they ask, both layouts, both builds and both versions of the rules: the behaviour is defined if and only
if none of the calls is one of those that `wrong` lists. -/
theorem C101_aliasing_iff (sb le dbg : Bool) (ops : List Op) (hu : fits (.new le) ops) :
    (rules sb).Defined (program le dbg ops) ↔ wrong sb le (.new le) ops = false :=
  alias_exact sb le dbg ops hu

/- A `Der` that is made and grows out of the struct, little-endian: the first write is the wrong one. -/
example : fits (.new true) [.withIdLength 1 1 3, .derExtend 1 1 1 3 40, .readAll, .derTruncate 1 1 1 9] ∧
    wrong true true (.new true) [.withIdLength 1 1 3, .derExtend 1 1 1 3 40, .readAll, .derTruncate 1 1 1 9] = true ∧
    wrong true true (.new true) [.reserve 24, .withIdLength 1 1 3, .derExtend 1 1 1 3 40, .readAll, .derTruncate 1 1 1 9] = false := by
  simp [fits, Op.fits, Op.next, Buf.new, Buf.grown, wrong, Op.wrong]

/-- Neither a reference into a value nor the octets of an integer. -/
def Alias.plainOp : Op → Bool
  | .mutId .. | .mutIdSet .. | .mutContentsSet .. | .fromInteger _ => false
  | _ => true

theorem Alias.wrong_plain {sb : Bool} {op : Op} (h : Alias.plainOp op = true) (b : Buf) : op.wrong sb false b = false := by
  cases op <;> simp_all [Alias.plainOp, Op.wrong]

/-- In the universal layout the other functions have no undefined behaviour, in any order and number.  Partial: without the functions that have it. -/
theorem C101_universal_partial (sb dbg : Bool) (ops : List Op) (hp : ops.all Alias.plainOp = true) (hu : fits (.new false) ops) :
    (rules sb).Defined (program false dbg ops) := by
  rw [C101_aliasing_iff sb false dbg ops hu]
  have : ∀ (l : List Op) (b : Buf), l.all Alias.plainOp = true → wrong sb false b l = false := by
    intro l
    induction l with
    | nil => intros; rfl
    | cons op r ih =>
      intro b h
      simp only [List.all_cons, Bool.and_eq_true] at h
      simp only [wrong, Alias.wrong_plain h.1, ih _ h.2, Bool.or_false]
  exact this ops _ hp

example : fits (.new false) [.push, .extend 2, .setAt 1, .reserve 30, .extend 20, .idSet, .setLen 5, .readAll] := by
  simp [fits, Op.fits, Op.next, Buf.new, Buf.grown]

/-- On the heap they have none in either layout. -/
theorem C101_heap_partial (sb le dbg : Bool) (n : Nat) (ops : List Op) (hn : 23 < n) (hp : ops.all Alias.plainOp = true)
    (hu : fits (.new le) (.reserve n :: ops)) : (rules sb).Defined (program le dbg (.reserve n :: ops)) := by
  rw [C101_aliasing_iff sb le dbg _ hu]
  have key : ∀ (l : List Op) (b : Buf), b.onHeap = true → l.all Alias.plainOp = true → wrong sb le b l = false := by
    intro l
    induction l with
    | nil => intros; rfl
    | cons op r ih =>
      intro b hb h
      simp only [List.all_cons, Bool.and_eq_true] at h
      have hg : ∀ m, (b.grown m).onHeap = true := by
        intro m
        unfold Buf.grown
        split <;> simp [hb]
      have h1 : op.wrong sb le b = false := by
        cases op <;> simp_all [Alias.plainOp, Op.wrong]
      have h2 : (op.next b).onHeap = true := by
        cases op <;> simp [Op.next, hb, hg]
      simp only [wrong, h1, ih _ h2 h.2, Bool.or_false]
  have h1 : ((Buf.new le).grown n).onHeap = true := by
    unfold Buf.grown
    rw [if_neg]
    cases le <;> simp [Buf.new] <;> omega
  simp only [wrong, Op.next, key ops _ h1 hp]
  rfl

example : fits (.new true) [.reserve 100, .withIdLength 1 2 60, .derExtend 1 2 2 60 10, .derTruncate 1 2 1 4] := by
  simp [fits, Op.fits, Op.next, Buf.new, Buf.grown]

/-- On a little-endian machine every write to a buffer that is stored in the struct is undefined, under both versions of the rules: the pointer comes from `&self`. -/
theorem C101_little_inline_violated (sb dbg : Bool) (n : Nat) (h : 0 < n) (h' : n ≤ 23) :
    ¬ (rules sb).Defined (program true dbg [.extend n]) ∧ ¬ (rules sb).Defined (program true dbg [.push]) := by
  refine ⟨fun hd => ?_, fun hd => ?_⟩
  · have := (C101_aliasing_iff sb true dbg [.extend n] (by simp [fits, Op.fits, Buf.new, h'])).mp hd
    simp [wrong, Op.wrong, Buf.new] at this
    omega
  · have := (C101_aliasing_iff sb true dbg [.push] (by simp [fits, Op.fits, Buf.new])).mp hd
    simp [wrong, Op.wrong, Buf.new] at this

example : (0 : Nat) < 5 ∧ 5 ≤ 23 := by decide

/-- Who writes through `mut_contents()`, or changes the class of `mut_id()`, has undefined behaviour, whatever was done before, in both layouts and under both
versions: the references come from `&self`. -/
theorem C101_mut_violated (sb le dbg : Bool) (ops : List Op) (op : Op) (ho : (∃ k l i, op = .mutContentsSet k l i) ∨ ∃ k l, op = .mutIdSet k l)
    (hu : fits (.new le) (ops ++ [op])) : ¬ (rules sb).Defined (program le dbg (ops ++ [op])) := by
  intro hd
  have hw := (C101_aliasing_iff sb le dbg _ hu).mp hd
  have : ∀ (l : List Op) (b : Buf), wrong sb le b (l ++ [op]) = true := by
    intro l
    induction l with
    | nil =>
      intro b
      rcases ho with ⟨_, _, _, rfl⟩ | ⟨_, _, rfl⟩ <;> simp [wrong, Op.wrong]
    | cons o r ih =>
      intro b
      simp [wrong, ih]
  rw [this] at hw
  cases hw

example : fits (.new false) ([.withIdLength 1 1 3, .extend 5] ++ [.mutContentsSet 1 1 2]) ∧ fits (.new true) ([.withIdLength 1 1 3] ++ [.mutIdSet 1 1]) := by
  simp [fits, Op.fits, Op.next, Buf.new]

/-- `parse_mut` gives two references.  Who has them may read and write through both, in any order, as long as each stays in its octets: defined under both
versions. -/
theorem C101_parse_mut (sb : Bool) (n k : Nat) (hk : k ≤ n) (us : List (Bool × Bool × Nat)) (hu : ∀ u ∈ us, inside n k u) :
    (rules sb).Defined (parseUse n k us) := parse_defined sb hk hu

example : ∀ u ∈ [(true, true, 0), (false, true, 3), (true, false, 2), (false, false, 4), (true, true, 2)], inside 5 3 u := by
  simp [inside]

/-- The octets of a positive integer are read through a pointer to the integer.  When its first octet is not less than 128, one octet more is read, which is not
of the integer: undefined under Stacked Borrows, defined under Tree Borrows. -/
theorem C101_from_positive_iff (sb : Bool) (size skip : Nat) (hs : skip < size) (back : Bool) :
    (rules sb).Defined (positiveUse size skip back) ↔ ¬ (sb = true ∧ skip = 0 ∧ back = true) := positive_exact sb hs back

example : (3 : Nat) < 8 ∧ (0 : Nat) < 8 := by decide

end Bsn1
