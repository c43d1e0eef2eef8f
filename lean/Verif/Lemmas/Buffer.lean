import Verif.Model.Buffer
import Verif.Lemmas.Basic
/-!
# Lemmas on memory and on the layout of buffers
-/

namespace Bsn1.Buf

/-! ### The monad -/

theorem pure_run {α : Type} (a : α) (h : Heap) : (pure a : M α) h = .ok a h := rfl

theorem bind_ok {α β : Type} {x : M α} {f : α → M β} {h h' : Heap} {a : α} (e : x h = .ok a h') : (x >>= f) h = f a h' := by
  change (match x h with
    | .ok a h => f a h
    | .panic => .panic
    | .abort => .abort
    | .ub => .ub) = _
  rw [e]

theorem bind_abort {α β : Type} {x : M α} {f : α → M β} {h : Heap} (e : x h = .abort) : (x >>= f) h = .abort := by
  change (match x h with
    | .ok a h => f a h
    | .panic => .panic
    | .abort => .abort
    | .ub => .ub) = _
  rw [e]

theorem bind_panic {α β : Type} {x : M α} {f : α → M β} {h : Heap} (e : x h = .panic) : (x >>= f) h = .panic := by
  change (match x h with
    | .ok a h => f a h
    | .panic => .panic
    | .abort => .abort
    | .ub => .ub) = _
  rw [e]

theorem bind_ub {α β : Type} {x : M α} {f : α → M β} {h : Heap} (e : x h = .ub) : (x >>= f) h = .ub := by
  change (match x h with
    | .ok a h => f a h
    | .panic => .panic
    | .abort => .abort
    | .ub => .ub) = _
  rw [e]

/-! ### Blocks -/

theorem put_self (bl : Blocks) (p : Nat) (x : Option (List Cell)) : bl.put p x p = x := by simp [Blocks.put]

theorem put_ne (bl : Blocks) {p q : Nat} (x : Option (List Cell)) (h : q ≠ p) : bl.put p x q = bl q := by simp [Blocks.put, h]

/-- The blocks except one's own. -/
def erase (bl : Blocks) (fp : Option Nat) : Blocks := fun q => if some q = fp then none else bl q

/-- Only one's own block is changed, freed or made. -/
def Frame (h h' : Heap) (fp fp' : Option Nat) : Prop := erase h.blocks fp = erase h'.blocks fp'

theorem Frame.refl (h : Heap) (fp : Option Nat) : Frame h h fp fp := rfl

theorem Frame.trans {h h' h'' : Heap} {fp fp' fp'' : Option Nat} (a : Frame h h' fp fp') (b : Frame h' h'' fp' fp'') :
    Frame h h'' fp fp'' := Eq.trans a b

theorem erase_none (bl : Blocks) : erase bl none = bl := by funext q; simp [erase]

theorem erase_put (bl : Blocks) (p : Nat) (x : Option (List Cell)) : erase (bl.put p x) (some p) = erase bl (some p) := by
  funext q
  simp only [erase, Option.some.injEq]
  split
  · rfl
  · rename_i h; rw [put_ne _ _ h]

theorem erase_fresh (bl : Blocks) (p : Nat) (x : Option (List Cell)) (h : bl p = none) : erase (bl.put p x) (some p) = bl := by
  rw [erase_put]
  funext q
  simp only [erase, Option.some.injEq]
  split
  · rename_i e; rw [e, h]
  · rfl

theorem put_none (bl : Blocks) (p : Nat) : bl.put p none = erase bl (some p) := by
  funext q
  simp [Blocks.put, erase]

theorem alloc_spec {al : Allocator} (hv : al.Valid) (n : Nat) (hn : 0 < n) (hm : n ≤ isizeMax) (h : Heap) :
    (∃ h', alloc al n h = .ok 0 h' ∧ h'.blocks = h.blocks) ∨
    ∃ p cells h', alloc al n h = .ok p h' ∧ 0 < p ∧ p < usizeSize ∧ h.blocks p = none ∧ cells.length = n ∧
      h'.blocks = h.blocks.put p (some cells) := by
  have e : ¬ (n = 0 ∨ isizeMax < n) := by omega
  rw [alloc, if_neg e]
  cases ha : al h.clock h.blocks n with
  | none => exact .inl ⟨_, rfl, rfl⟩
  | some x =>
    obtain ⟨p, cells⟩ := x
    obtain ⟨h1, h2, h3, h4⟩ := hv _ _ _ _ _ ha
    exact .inr ⟨p, cells, _, rfl, h1, h2, h3, h4, rfl⟩

theorem realloc_spec {al : Allocator} (hv : al.Valid) (p n : Nat) (cells : List Cell) (h : Heap)
    (hb : h.blocks p = some cells) (hn : cells.length ≤ n) (h0 : 0 < n) (hm : n ≤ isizeMax) :
    (∃ h', realloc al p cells.length n h = .ok 0 h' ∧ h'.blocks = h.blocks) ∨
    ∃ p' junk h', realloc al p cells.length n h = .ok p' h' ∧ 0 < p' ∧ p' < usizeSize ∧ (h.blocks.put p none) p' = none ∧
      (cells ++ junk).length = n ∧ h'.blocks = (h.blocks.put p none).put p' (some (cells ++ junk)) := by
  rw [realloc, hb]
  simp only []
  rw [if_pos (by simp only [true_and, ne_eq]; omega)]
  cases ha : al h.clock (h.blocks.put p none) n with
  | none => exact .inl ⟨_, rfl, rfl⟩
  | some x =>
    obtain ⟨p', junk⟩ := x
    obtain ⟨h1, h2, h3, h4⟩ := hv _ _ _ _ _ ha
    have hl : (cells ++ junk.drop cells.length).length = n := by simp [h4]; omega
    refine .inr ⟨p', junk.drop cells.length, _, rfl, h1, h2, h3, hl, ?_⟩
    rw [List.take_of_length_le (by omega)]

/-- Cells with some of them overwritten. -/
def patch {α : Type} (d : List α) (off : Nat) (vals : List α) : List α := d.take off ++ vals ++ d.drop (off + vals.length)

theorem patch_length {α : Type} (d vals : List α) (off : Nat) (h : off + vals.length ≤ d.length) :
    (patch d off vals).length = d.length := by
  simp [patch]; omega

theorem store_spec (p off : Nat) (vals : List Cell) (cells : List Cell) (h : Heap) (hb : h.blocks p = some cells)
    (ho : off + vals.length ≤ cells.length) : store p off vals h =
      .ok () ⟨h.blocks.put p (some (patch cells off vals)), h.clock⟩ := by
  rw [store, hb]
  simp only [ho, if_true]
  rfl

theorem load_spec (p n : Nat) (cells : List Cell) (h : Heap) (hb : h.blocks p = some cells) (hn : n ≤ cells.length) :
    load p 0 n h = .ok (cells.take n) h := by
  rw [load, hb]
  simp [hn]

theorem load_at (p off n : Nat) (cells : List Cell) (h : Heap) (hb : h.blocks p = some cells) (hn : off + n ≤ cells.length) :
    load p off n h = .ok ((cells.drop off).take n) h := by
  rw [load, hb]
  simp [hn]

theorem dealloc_spec (p : Nat) (cells : List Cell) (h : Heap) (hb : h.blocks p = some cells) :
    dealloc p cells.length h = .ok () ⟨h.blocks.put p none, h.clock⟩ := by
  rw [dealloc, hb]
  simp

theorem layoutArray_ok {n : Nat} (hn : n ≤ isizeMax) (h : Heap) : layoutArray n h = .ok () h := by
  rw [layoutArray, if_pos hn, pure_run]

theorem debugAssert_ok (m : Build) {c : Prop} [Decidable c] (hc : c) (h : Heap) : debugAssert m c h = .ok () h := by
  cases m
  · rw [debugAssert, if_pos hc, pure_run]
  · rfl

theorem usizeAdd_ok (m : Build) {a b : Nat} (hb : a + b < usizeSize) (h : Heap) : usizeAdd m a b h = .ok (a + b) h := by
  unfold usizeAdd
  rw [if_pos hb, pure_run]

theorem assumeInit_ok (vals : Bytes) (h : Heap) : assumeInit (vals.map some) h = .ok vals h := by
  rw [assumeInit, if_pos (by simp), pure_run]
  congr 1
  induction vals with
  | nil => rfl
  | cons v vals ih => simp [ih]

/-- Known cells. -/
theorem all_init {cs : List Cell} (h : ∀ c ∈ cs, c ≠ none) : ∃ vals : Bytes, cs = vals.map some := by
  induction cs with
  | nil => exact ⟨[], rfl⟩
  | cons c cs ih =>
    obtain ⟨vals, rfl⟩ := ih fun c hc => h c (by simp [hc])
    cases c with
    | none => exact absurd rfl (h none (by simp))
    | some v => exact ⟨v :: vals, rfl⟩

/-! ### Vectors -/

/-- The vector has the storage, of which the first `len` cells are its elements, and owns the block. -/
inductive VecRep : RVec → Heap → List Cell → Nat → Option Nat → Prop
  | empty {ptr : Nat} {h : Heap} : VecRep ⟨ptr, 0, 0⟩ h [] 0 none
  | block {p len : Nat} {h : Heap} {cells : List Cell} : 0 < p → p < usizeSize → h.blocks p = some cells → 0 < cells.length →
      cells.length ≤ isizeMax → len ≤ cells.length → VecRep ⟨p, cells.length, len⟩ h cells len (some p)

theorem mkVec_spec {al : Allocator} (hv : al.Valid) (vals : Bytes) (spare : Nat) (hs : vals.length + spare ≤ isizeMax) (h : Heap) :
    mkVec al vals spare h = .abort ∨
    ∃ v h' fp junk, mkVec al vals spare h = .ok v h' ∧ VecRep v h' (vals.map some ++ junk) vals.length fp ∧ junk.length = spare ∧
      Frame h h' none fp := by
  rw [mkVec]
  by_cases h0 : vals.length + spare = 0
  · have : vals = [] := List.length_eq_zero_iff.mp (by omega)
    subst this
    rw [if_pos h0, pure_run]
    exact .inr ⟨_, h, none, [], rfl, .empty, by simpa using h0.symm, rfl⟩
  · rw [if_neg h0, if_neg (by omega)]
    rcases alloc_spec hv (vals.length + spare) (by omega) hs h with ⟨h', e, _⟩ | ⟨p, cells, h', e, h1, h2, h3, h4, h5⟩
    · left
      rw [bind_ok e, if_pos rfl]
      rfl
    · right
      rw [bind_ok e, if_neg (by omega)]
      have hb : h'.blocks p = some cells := by rw [h5, put_self]
      rw [bind_ok (store_spec p 0 (vals.map some) cells h' hb (by simp [h4])), pure_run]
      have hl : (vals.map some ++ cells.drop vals.length).length = vals.length + spare := by
        simp [h4]
      simp only [patch, List.take_zero, List.nil_append, Nat.zero_add, List.length_map]
      have hr := VecRep.block (len := vals.length) (h := ⟨h'.blocks.put p
          (some (vals.map some ++ cells.drop vals.length)), h'.clock⟩) h1 h2
          (put_self _ _ _) (by omega) (by omega) (by omega)
      rw [hl] at hr
      refine ⟨_, _, some p, cells.drop vals.length, rfl, hr, by simp [h4], ?_⟩
      rw [Frame, erase_put, h5, erase_fresh _ _ _ h3, erase_none]

theorem dropVec_spec {v : RVec} {h : Heap} {store : List Cell} {len : Nat} {fp : Option Nat} (hr : VecRep v h store len fp) :
    ∃ h', dropVec v h = .ok () h' ∧ Frame h h' fp none := by
  cases hr with
  | empty => exact ⟨h, rfl, rfl⟩
  | block h1 h2 h3 h4 h5 h6 =>
    rw [dropVec, if_neg (by simp only; omega)]
    refine ⟨_, dealloc_spec _ _ h h3, ?_⟩
    rw [Frame, erase_none, put_none]

end Bsn1.Buf
