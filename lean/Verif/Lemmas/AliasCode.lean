import Lean
import Verif.Model.Alias
import Verif.Lemmas.AliasLogic
/-!
# The functions of the model, one by one

First: what a function does does not depend on the names of the pointers (`Same`), so it can be checked with names 0, 1, 2, … (`Piece`).
-/

namespace Bsn1.Alias

/-! ### Names do not matter -/

class Ren (α : Type) where
  ren : (Tag → Tag) → α → α

instance : Ren Unit := ⟨fun _ a => a⟩
instance : Ren Tag := ⟨fun f a => f a⟩
instance {α β : Type} [Ren α] [Ren β] : Ren (α × β) := ⟨fun f a => (Ren.ren f a.1, Ren.ren f a.2)⟩
def Value.ren (f : Tag → Tag) (v : Value) : Value := { v with heap := v.heap.map f }
instance : Ren Value := ⟨Value.ren⟩

/-- `x` is `y` with other names. -/
def Same {α : Type} [Ren α] (f : Tag → Tag) (x y : Tr α) : Prop := ∀ n m : Nat, (∀ k : Nat, f (m + k) = n + k) →
  (x n).1 = Ren.ren f (y m).1 ∧ (∃ d, (x n).2.1 = n + d ∧ (y m).2.1 = m + d) ∧ (x n).2.2 = (y m).2.2.map (Ev.ren f)

section same
variable {f : Tag → Tag} {α β : Type} [Ren α] [Ren β]

theorem Same.pure {a b : α} (h : a = Ren.ren f b) : Same f (pure a : Tr α) (pure b) := fun _ _ _ => ⟨h, ⟨0, rfl, rfl⟩, rfl⟩

theorem Same.bind {x y : Tr α} {g g' : α → Tr β} (h : Same f x y) (hg : ∀ b, Same f (g (Ren.ren f b)) (g' b)) : Same f (x >>= g) (y >>= g') := by
  intro n m hm
  obtain ⟨h1, ⟨d, h2, h3⟩, h4⟩ := h n m hm
  obtain ⟨k1, ⟨d', k2, k3⟩, k4⟩ := hg (y m).1 (n + d) (m + d) (fun k => by rw [Nat.add_assoc, hm, Nat.add_assoc])
  have e : ∀ {n : Nat}, (x >>= g) n = ((g (x n).1 (x n).2.1).1, (g (x n).1 (x n).2.1).2.1, (x n).2.2 ++ (g (x n).1 (x n).2.1).2.2) := rfl
  have e' : ∀ {n : Nat}, (y >>= g') n = ((g' (y n).1 (y n).2.1).1, (g' (y n).1 (y n).2.1).2.1, (y n).2.2 ++ (g' (y n).1 (y n).2.1).2.2) := rfl
  rw [e, e', h1, h2, h3]
  refine ⟨k1, ⟨d + d', ?_, ?_⟩, ?_⟩
  · simp only [k2, Nat.add_assoc]
  · simp only [k3, Nat.add_assoc]
  · simp only [h4, k4, List.map_append]

theorem Same.ev {e e' : Ev} (h : e = e'.ren f) : Same f (Tr.ev e) (Tr.ev e') := fun _ _ _ => ⟨rfl, ⟨0, rfl, rfl⟩, by simp [Tr.ev, h]⟩

theorem Same.borrow {k : Kind} {p p' : Tag} {r r' : Region} (h : p = f p') (hr : r = r') : Same f (Tr.borrow k p r) (Tr.borrow k p' r') := by
  intro n m hm
  refine ⟨(hm 0).symm, ⟨1, rfl, rfl⟩, ?_⟩
  have := hm 0
  simp only [Nat.add_zero] at this
  simp [Tr.borrow, Ev.ren, h, this, hr]

theorem Same.call {k : Kind} {p p' : Tag} {r r' : Region} {b b' : Tag → Tr α} (h : p = f p') (hr : r = r') (hb : ∀ t, Same f (b (f t)) (b' t)) :
    Same f (Tr.call k p r b) (Tr.call k p' r' b') := by
  intro n m hm
  have h0 := hm 0
  simp only [Nat.add_zero] at h0
  obtain ⟨k1, ⟨d, k2, k3⟩, k4⟩ := hb m (n + 1) (m + 1) (fun k => by rw [Nat.add_assoc, hm, Nat.add_assoc])
  rw [h0] at k1 k2 k4
  refine ⟨k1, ⟨1 + d, ?_, ?_⟩, ?_⟩
  · simp only [Tr.call, k2]; exact Nat.add_assoc _ _ _
  · simp only [Tr.call, k3]; exact Nat.add_assoc _ _ _
  · simp [Tr.call, k4, Ev.ren, h, h0, hr]

theorem Same.alloc {a a' : Nat} (h : a = a') : Same f (Tr.alloc a) (Tr.alloc a') := by
  intro n m hm
  have h0 := hm 0
  simp only [Nat.add_zero] at h0
  exact ⟨h0.symm, ⟨1, rfl, rfl⟩, by simp [Tr.alloc, Ev.ren, h0, h]⟩

theorem Same.ite {c : Prop} [Decidable c] {x x' y y' : Tr α} (h1 : Same f x y) (h2 : Same f x' y') : Same f (if c then x else x') (if c then y else y') := by
  split <;> assumption

end same

theorem data_ren (f : Tag → Tag) (L : Lay) (v : Value) (o n : Nat) : (v.ren f).data L o n = v.data L o n := by
  obtain ⟨h, _, _, _⟩ := v
  cases h <;> rfl

/-- A function whose names are known not to matter: extended after each lemma below. -/
syntax "same_lemma" : tactic
macro_rules | `(tactic| same_lemma) => `(tactic| assumption)

syntax "same" : tactic
macro_rules
  | `(tactic| same) => `(tactic| repeat (first
      | exact Same.pure rfl
      | exact Same.ev rfl
      | exact Same.ev (by simp only [Ev.ren, data_ren] <;> rfl)
      | exact Same.borrow rfl rfl
      | exact Same.borrow rfl (data_ren _ _ _ _ _)
      | exact Same.alloc rfl
      | same_lemma
      | refine Same.ite ?_ ?_
      | refine Same.bind ?_ fun _ => ?_
      | refine Same.call rfl rfl fun _ => ?_
      | refine Same.call rfl (data_ren _ _ _ _ _) fun _ => ?_))

/-- Names do not matter to a layout. -/
structure Lay.Same (L : Lay) : Prop where
  len : ∀ f v t, Alias.Same f (L.len (Value.ren f v) (f t)) (L.len v t)
  capacity : ∀ f v t, Alias.Same f (L.capacity (Value.ren f v) (f t)) (L.capacity v t)
  asPtr : ∀ f v t, Alias.Same f (L.asPtr (Value.ren f v) (f t)) (L.asPtr v t)
  asMutPtr : ∀ f v t, Alias.Same f (L.asMutPtr (Value.ren f v) (f t)) (L.asMutPtr v t)
  setLen : ∀ f dbg v n t, Alias.Same f (L.setLen dbg (Value.ren f v) n (f t)) (L.setLen dbg v n t)
  reserve : ∀ f v n t, Alias.Same f (L.reserve (Value.ren f v) n (f t)) (L.reserve v n t)

section
variable (f : Tag → Tag) (dbg : Bool) (v : Value) (n : Nat) (t : Tag)

theorem LE.isStack_same : Same f (LE.isStack (f t)) (LE.isStack t) := by unfold LE.isStack; same
macro_rules | `(tactic| same_lemma) => `(tactic| with_reducible apply LE.isStack_same)
theorem LE.len_same : Same f (LE.len (v.ren f) (f t)) (LE.len v t) := by unfold LE.len; same
macro_rules | `(tactic| same_lemma) => `(tactic| with_reducible apply LE.len_same)
theorem LE.capacity_same : Same f (LE.capacity (v.ren f) (f t)) (LE.capacity v t) := by
  obtain ⟨h, _, _, _⟩ := v
  unfold LE.capacity
  cases h <;> simp only [Value.ren, Option.map] <;> same
macro_rules | `(tactic| same_lemma) => `(tactic| with_reducible apply LE.capacity_same)
theorem LE.asPtr_same : Same f (LE.asPtr (v.ren f) (f t)) (LE.asPtr v t) := by
  obtain ⟨h, _, _, _⟩ := v
  unfold LE.asPtr
  cases h <;> simp only [Value.ren, Option.map] <;> same
macro_rules | `(tactic| same_lemma) => `(tactic| with_reducible apply LE.asPtr_same)
theorem LE.asMutPtr_same : Same f (LE.asMutPtr (v.ren f) (f t)) (LE.asMutPtr v t) := by unfold LE.asMutPtr; same
macro_rules | `(tactic| same_lemma) => `(tactic| with_reducible apply LE.asMutPtr_same)
theorem LE.setLen_same : Same f (LE.setLen dbg (v.ren f) n (f t)) (LE.setLen dbg v n t) := by
  cases dbg <;> unfold LE.setLen <;> simp only [Bool.false_eq_true, if_true, if_false] <;> same
macro_rules | `(tactic| same_lemma) => `(tactic| with_reducible apply LE.setLen_same)
theorem LE.reserve_same : Same f (LE.reserve (v.ren f) n (f t)) (LE.reserve v n t) := by
  have h1 := LE.len_same f v
  have h2 := LE.capacity_same f v
  have h3 := LE.asPtr_same f v
  unfold LE.reserve
  refine Same.call rfl rfl fun u => Same.bind (h1 u) fun _ => Same.bind (h2 u) fun _ => Same.ite (Same.pure rfl) (Same.bind (LE.isStack_same f u) fun _ => ?_)
  obtain ⟨h, _, _, _⟩ := v
  have h1 := h1 u
  have h2 := h2 u
  have h3 := h3 u
  cases h <;> simp only [Value.ren, Option.map] at h1 h2 h3 ⊢ <;> same
macro_rules | `(tactic| same_lemma) => `(tactic| with_reducible apply LE.reserve_same)

theorem UE.isStack_same : Same f (UE.isStack (f t)) (UE.isStack t) := by unfold UE.isStack; same
macro_rules | `(tactic| same_lemma) => `(tactic| with_reducible apply UE.isStack_same)
theorem UE.len_same : Same f (UE.len (v.ren f) (f t)) (UE.len v t) := by unfold UE.len; same
macro_rules | `(tactic| same_lemma) => `(tactic| with_reducible apply UE.len_same)
theorem UE.capacity_same : Same f (UE.capacity (v.ren f) (f t)) (UE.capacity v t) := by
  obtain ⟨h, _, _, _⟩ := v
  unfold UE.capacity
  cases h <;> simp only [Value.ren, Option.map] <;> same
macro_rules | `(tactic| same_lemma) => `(tactic| with_reducible apply UE.capacity_same)
theorem UE.asPtr_same : Same f (UE.asPtr (v.ren f) (f t)) (UE.asPtr v t) := by
  obtain ⟨h, _, _, _⟩ := v
  unfold UE.asPtr
  cases h <;> simp only [Value.ren, Option.map] <;> same
macro_rules | `(tactic| same_lemma) => `(tactic| with_reducible apply UE.asPtr_same)
theorem UE.asMutPtr_same : Same f (UE.asMutPtr (v.ren f) (f t)) (UE.asMutPtr v t) := by
  obtain ⟨h, _, _, _⟩ := v
  unfold UE.asMutPtr
  cases h <;> simp only [Value.ren, Option.map] <;> same
macro_rules | `(tactic| same_lemma) => `(tactic| with_reducible apply UE.asMutPtr_same)
theorem UE.setLen_same : Same f (UE.setLen dbg (v.ren f) n (f t)) (UE.setLen dbg v n t) := by
  cases dbg <;> unfold UE.setLen <;> simp only [Bool.false_eq_true, if_true, if_false] <;> same
macro_rules | `(tactic| same_lemma) => `(tactic| with_reducible apply UE.setLen_same)
theorem UE.reserve_same : Same f (UE.reserve (v.ren f) n (f t)) (UE.reserve v n t) := by
  have h1 := UE.len_same f v
  have h2 := UE.capacity_same f v
  have h3 := UE.asPtr_same f v
  unfold UE.reserve
  refine Same.call rfl rfl fun u => Same.bind (h1 u) fun _ => Same.bind (h2 u) fun _ => Same.ite (Same.pure rfl) (Same.bind (UE.isStack_same f u) fun _ => ?_)
  obtain ⟨h, _, _, _⟩ := v
  have h1 := h1 u
  have h2 := h2 u
  have h3 := h3 u
  cases h <;> simp only [Value.ren, Option.map] at h1 h2 h3 ⊢ <;> same
macro_rules | `(tactic| same_lemma) => `(tactic| with_reducible apply UE.reserve_same)

theorem little_same : little.Same := ⟨LE.len_same, LE.capacity_same, LE.asPtr_same, LE.asMutPtr_same, LE.setLen_same, LE.reserve_same⟩

theorem universal_same : universal.Same := ⟨UE.len_same, UE.capacity_same, UE.asPtr_same, UE.asMutPtr_same, UE.setLen_same, UE.reserve_same⟩

macro_rules | `(tactic| same_lemma) => `(tactic| (first
      | (with_reducible apply Lay.Same.len; assumption) | (with_reducible apply Lay.Same.capacity; assumption) | (with_reducible apply Lay.Same.asPtr; assumption)
      | (with_reducible apply Lay.Same.asMutPtr; assumption) | (with_reducible apply Lay.Same.setLen; assumption) | (with_reducible apply Lay.Same.reserve; assumption)))

variable {L : Lay} (hL : L.Same)
include hL

theorem asSlice_same : Same f (asSlice L (v.ren f) (f t)) (asSlice L v t) := by unfold asSlice; same
macro_rules | `(tactic| same_lemma) => `(tactic| (with_reducible apply asSlice_same; assumption))
theorem asMutSlice_same : Same f (asMutSlice L (v.ren f) (f t)) (asMutSlice L v t) := by unfold asMutSlice; same
macro_rules | `(tactic| same_lemma) => `(tactic| (with_reducible apply asMutSlice_same; assumption))
omit hL in
theorem disassemble_same (k l : Nat) : Same f (disassemble L (v.ren f) k l (f t)) (disassemble L v k l t) := by unfold disassemble; same
macro_rules | `(tactic| same_lemma) => `(tactic| with_reducible apply disassemble_same)
omit hL in
theorem disassembleMut_same (k l : Nat) : Same f (disassembleMut L (v.ren f) k l (f t)) (disassembleMut L v k l t) := by unfold disassembleMut; same
macro_rules | `(tactic| same_lemma) => `(tactic| with_reducible apply disassembleMut_same)
theorem idLength_same (k : Nat) : Same f (idLength L (v.ren f) k (f t)) (idLength L v k t) := by
  have := asSlice_same (f := f) (v := v) (hL := hL)
  unfold idLength; same
macro_rules | `(tactic| same_lemma) => `(tactic| (with_reducible apply idLength_same; assumption))
theorem lengthOf_same (k l : Nat) : Same f (lengthOf L (v.ren f) k l (f t)) (lengthOf L v k l t) := by unfold lengthOf; same
macro_rules | `(tactic| same_lemma) => `(tactic| (with_reducible apply lengthOf_same; assumption))

end

end Bsn1.Alias
