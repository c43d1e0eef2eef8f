import Verif.Model.Unwind
import Verif.Lemmas.RawExact
/-!
# Panics: the methods of the buffers
-/

namespace Bsn1.Buf

/-- A method that ends as the function of `Model/Buffer` does, and if it panics has changed neither the struct nor the blocks. -/
def Like {B : Type} (b : B) (h : Heap) : Out B → MOut B Unit → Prop
  | .ok b' h', u => u = .ok () b' h'
  | .panic, u => ∃ h', u = .unwind b h' ∧ h'.blocks = h.blocks
  | .abort, u => u = .abort
  | .ub, u => u = .ub

/-- A function that ends as that of `Model/Buffer` does, and if it panics has changed no blocks. -/
def LikeU {α : Type} (h : Heap) : Out α → UOut α → Prop
  | .ok a h', u => u = .ok a h'
  | .panic, u => ∃ h', u = .unwind h' ∧ h'.blocks = h.blocks
  | .abort, u => u = .abort
  | .ub, u => u = .ub

/-- What the methods of a layout do when they panic. -/
structure Unwinds {I : Impl} (V : UImpl I) (Rep : I.B → Heap → List Cell → Nat → Option Nat → Prop) : Prop where
  withCapacity : ∀ m al n h, LikeU h (I.withCapacity m al n h) (V.withCapacity m al n h)
  push : ∀ m v {b h s l fp}, Rep b h s l fp → l < s.length → Like b h (I.push m b v h) (V.push m v b h)
  extend : ∀ m vals {b h s l fp}, Rep b h s l fp → Like b h (I.extend m b vals h) (V.extend m vals b h)
  reserve : ∀ m al n b h, Like b h (I.reserve m al b n h) (V.reserve m al n b h)
  setLen : ∀ m n b h, Like b h (I.setLen m b n h) (V.setLen m n b h)
  poke : ∀ off vals b h, Like b h (I.poke b off vals h) (V.poke off vals b h)
  copyWithin : ∀ src dst n b h, Like b h (I.copyWithin b src dst n h) (V.copyWithin src dst n b h)
  setAt : ∀ i v b h, Like b h (I.setAt b i v h) (V.setAt i v b h)
  poke_out : ∀ off vals {b h s l fp}, Rep b h s l fp → s.length < off + vals.length → I.poke b off vals h = .ub
  extend_out : ∀ m vals {b h s l fp}, Rep b h s l fp → s.length < l + vals.length → I.extend m b vals h = .ub
  poke_np : ∀ off vals b h, I.poke b off vals h ≠ .panic
  copyWithin_np : ∀ src dst n b h, I.copyWithin b src dst n h ≠ .panic
  beyond : ∀ m al n h, isizeMax < n → n < usizeSize → I.withCapacity m al n h = .panic

theorem meth_bind {B α β : Type} (x : Meth B α) (f : α → Meth B β) (b : B) (h : Heap) : (x >>= f) b h = match x b h with
    | .ok a b h => f a b h
    | .unwind b h => .unwind b h
    | .abort => .abort
    | .ub => .ub := rfl

theorem meth_pure {B α : Type} (a : α) (b : B) (h : Heap) : (pure a : Meth B α) b h = .ok a b h := rfl

theorem u_bind {α β : Type} (x : U α) (f : α → U β) (h : Heap) : (x >>= f) h = match x h with
    | .ok a h => f a h
    | .unwind h => .unwind h
    | .abort => .abort
    | .ub => .ub := rfl

theorem u_pure {α : Type} (a : α) (h : Heap) : (pure a : U α) h = .ok a h := rfl

theorem m_bind {α β : Type} (x : M α) (f : α → M β) (h : Heap) : (x >>= f) h = match x h with
    | .ok a h => f a h
    | .panic => .panic
    | .abort => .abort
    | .ub => .ub := rfl

theorem meth_self {B : Type} (b : B) (h : Heap) : (Meth.self : Meth B B) b h = .ok b b h := rfl
theorem meth_put {B : Type} (b b' : B) (h : Heap) : Meth.put b' b h = .ok () b' h := rfl
theorem meth_unwind {B α : Type} (b : B) (h : Heap) : (Meth.unwind : Meth B α) b h = .unwind b h := rfl
theorem meth_abort {B α : Type} (b : B) (h : Heap) : (Meth.abort : Meth B α) b h = .abort := rfl
theorem meth_ub {B α : Type} (b : B) (h : Heap) : (Meth.ub : Meth B α) b h = .ub := rfl

/-- Running `do` blocks of all three kinds. -/
macro "runs" : tactic => `(tactic| simp only [meth_bind, meth_pure, u_bind, u_pure, m_bind, pure_run, meth_self, meth_put, meth_unwind, meth_abort, Meth.step, U.step, Meth.call])

theorem like_ite {B : Type} {b : B} {h : Heap} {c : Prop} [Decidable c] {x y : M B} {u v : Meth B Unit} (h1 : c → Like b h (x h) (u b h))
    (h2 : ¬ c → Like b h (y h) (v b h)) : Like b h ((if c then x else y) h) ((if c then u else v) b h) := by
  by_cases hc : c
  · rw [if_pos hc, if_pos hc]; exact h1 hc
  · rw [if_neg hc, if_neg hc]; exact h2 hc

/-- A step that leaves the blocks alone. -/
def Still {α : Type} (x : M α) (h : Heap) : Prop := ∀ a h', x h = .ok a h' → h' = h

theorem like_step {B α : Type} {b : B} {h : Heap} {x : M α} {f : α → M B} {g : α → Meth B Unit} (hs : Still x h)
    (hf : ∀ a, x h = .ok a h → Like b h (f a h) (g a b h)) : Like b h ((x >>= f) h) ((Meth.step x >>= g) b h) := by
  simp only [m_bind, meth_bind, Meth.step]
  cases e : x h with
  | ok a h' => obtain rfl := hs a h' e; exact hf a e
  | panic => exact ⟨h, rfl, rfl⟩
  | abort => rfl
  | ub => rfl

theorem still_usizeAdd (m : Build) (a n : Nat) (h : Heap) : Still (usizeAdd m a n) h := by
  intro x h' e
  unfold usizeAdd at e
  split at e
  · cases e; rfl
  · cases m <;> cases e; rfl

theorem still_layout (n : Nat) (h : Heap) : Still (layoutArray n) h := by
  intro x h' e
  unfold layoutArray at e
  split at e <;> cases e; rfl

theorem still_assert (m : Build) (c : Prop) [Decidable c] (h : Heap) : Still (debugAssert m c) h := by
  intro x h' e
  cases m
  · unfold debugAssert at e
    simp only at e
    split at e <;> cases e; rfl
  · cases e; rfl

/-- A step that does not panic. -/
theorem like_go {B α : Type} {b : B} {h : Heap} {x : M α} {f : α → M B} {g : α → Meth B Unit} (hp : x h ≠ .panic)
    (hf : ∀ a h', x h = .ok a h' → f a h' = .panic ∧ (∃ h'', g a b h' = .unwind b h'' ∧ h''.blocks = h.blocks) ∨ f a h' ≠ .panic ∧ Like b h' (f a h') (g a b h')) :
    Like b h ((x >>= f) h) ((Meth.step x >>= g) b h) := by
  simp only [m_bind, meth_bind, Meth.step]
  cases e : x h with
  | ok a h' =>
    simp only
    rcases hf a h' e with ⟨h1, h2⟩ | ⟨h1, h2⟩
    · rw [h1]; exact h2
    · revert h2 h1
      cases f a h' <;> simp [Like]
  | panic => exact absurd e hp
  | abort => rfl
  | ub => rfl

namespace LE

theorem alloc_np (al : Allocator) (n : Nat) (h : Heap) : alloc al n h ≠ .panic := by
  unfold alloc; split
  · simp
  · split <;> simp

theorem realloc_np (al : Allocator) (p k n : Nat) (h : Heap) : realloc al p k n h ≠ .panic := by
  unfold realloc; split
  · simp
  · split
    · split <;> simp
    · simp

theorem store_np (p off : Nat) (v : List Cell) (h : Heap) : store p off v h ≠ .panic := by
  unfold store; split
  · simp
  · split <;> simp

theorem load_np (p off n : Nat) (h : Heap) : load p off n h ≠ .panic := by
  unfold load; split
  · simp
  · split <;> simp

theorem peek_np (b : LE) (n : Nat) (h : Heap) : b.peek n h ≠ .panic := by
  unfold peek; split
  · split
    · simp [pure_run]
    · simp [M.ub]
  · exact load_np _ _ _ _

theorem poke_np (b : LE) (off : Nat) (v : Bytes) (h : Heap) : b.poke off v h ≠ .panic := by
  unfold poke; split
  · split
    · simp [pure_run]
    · simp [M.ub]
  · rw [m_bind]
    have := store_np b.data_ off (v.map some) h
    cases e : store b.data_ off (v.map some) h <;> simp_all [pure_run]

theorem copyWithin_np (b : LE) (src dst n : Nat) (h : Heap) : b.copyWithin src dst n h ≠ .panic := by
  unfold copyWithin; split
  · split
    · simp [pure_run]
    · simp [M.ub]
  · rw [m_bind]
    have := load_np b.data_ src n h
    cases e : load b.data_ src n h with
    | ok c h' =>
      simp only [m_bind]
      have := store_np b.data_ dst c h'
      cases e : store b.data_ dst c h' <;> simp_all [pure_run]
    | panic => exact absurd e this
    | abort => simp
    | ub => simp

end LE

/-- Assigning the result of a step that does not panic. -/
theorem like_assign {B : Type} {b : B} {h : Heap} {x : M B} (hp : x h ≠ .panic) :
    Like b h (x h) ((Meth.step x >>= fun b => Meth.put b) b h) := by
  simp only [meth_bind, Meth.step]
  cases e : x h with
  | panic => exact absurd e hp
  | _ => rfl

namespace LE

theorem like_poke (off : Nat) (vals : Bytes) (b : LE) (h : Heap) : Like b h (b.poke off vals h) (pokeU off vals b h) :=
  like_assign (poke_np b off vals h)

theorem like_copyWithin (src dst n : Nat) (b : LE) (h : Heap) : Like b h (b.copyWithin src dst n h) (copyWithinU src dst n b h) :=
  like_assign (copyWithin_np b src dst n h)

theorem like_setAt (i : Nat) (v : UInt8) (b : LE) (h : Heap) : Like b h (b.setAt i v h) (setAtU i v b h) := by
  unfold LE.setAt setAtU
  simp only [meth_bind, meth_self]
  refine like_ite (fun _ => like_poke i [v] b h) (fun _ => ⟨h, rfl, rfl⟩)

theorem like_reserve (m : Build) (al : Allocator) (n : Nat) (b : LE) (h : Heap) : Like b h (b.reserve m al n h) (reserveU m al n b h) := by
  unfold LE.reserve reserveU
  rw [meth_bind, meth_self]
  refine like_step (still_usizeAdd _ _ _ _) ?_
  intro newCap _
  refine like_ite (fun _ => rfl) (fun _ => ?_)
  refine like_ite (fun _ => ?_) (fun _ => ?_)
  · refine like_step (still_layout _ _) ?_
    intro _ _
    refine like_go (alloc_np _ _ _) ?_
    intro ptr h' _
    refine .inr ?_
    by_cases h0 : ptr = 0
    · rw [if_pos h0, if_pos h0]; exact ⟨by simp [M.abort], rfl⟩
    · rw [if_neg h0, if_neg h0]
      have e1 := peek_np b b.len h'
      simp only [m_bind, meth_bind, Meth.step]
      cases e : b.peek b.len h' with
      | panic => exact absurd e e1
      | abort => exact ⟨by simp, rfl⟩
      | ub => exact ⟨by simp, rfl⟩
      | ok c h'' =>
        simp only
        have e2 := store_np ptr 0 c h''
        cases e : store ptr 0 c h'' with
        | panic => exact absurd e e2
        | abort => exact ⟨by simp, rfl⟩
        | ub => exact ⟨by simp, rfl⟩
        | ok _ h3 => exact ⟨by simp [pure_run], rfl⟩
  · refine like_step (still_layout _ _) ?_
    intro _ _
    refine like_go (realloc_np _ _ _ _ _) ?_
    intro ptr h' e
    by_cases h0 : ptr = 0
    · rw [if_pos h0, if_pos h0]
      simp only [m_bind, meth_bind, Meth.step]
      cases e2 : layoutArray newCap h' with
      | panic =>
        refine .inl ⟨rfl, h', rfl, ?_⟩
        unfold layoutArray at e2
        split at e2
        · cases e2
        · rename_i hn
          unfold realloc at e
          split at e
          · cases e
          · rw [if_neg (fun hh => hn hh.2.2)] at e
            cases e
      | abort => exact .inr ⟨by simp, rfl⟩
      | ub => exact .inr ⟨by simp, rfl⟩
      | ok _ h3 => exact .inr ⟨by simp [M.abort], rfl⟩
    · rw [if_neg h0, if_neg h0]
      exact .inr ⟨by simp [pure_run], rfl⟩

theorem like_extend (vals : Bytes) (b : LE) (h : Heap) : Like b h (b.extend vals h) (extendU vals b h) := by
  unfold LE.extend extendU pokeU setLenU
  have := poke_np b b.len vals h
  simp only [meth_bind, m_bind, meth_self, Meth.step]
  cases e : b.poke b.len vals h with
  | panic => exact absurd e this
  | _ => rfl

theorem like_push (m : Build) (v : UInt8) {b : LE} {h : Heap} {s : List Cell} {l : Nat} {fp : Option Nat} (hr : Rep b h s l fp)
    (hl : l < s.length) : Like b h (b.push m v h) (pushU m v b h) := by
  have h1 := rep_setLen (l + 1) hr hl
  have h2 := rep_len h1
  have hb := rep_len hr
  have hlt : b.len < (b.setLen (b.len + 1)).len := by rw [hb, h2]; omega
  unfold LE.push pushU
  rw [meth_bind, meth_self]
  refine like_step (still_assert _ _ _) ?_
  intro _ _
  unfold setLenU LE.setAt setAtU pokeU
  simp only [meth_bind, meth_self, meth_put, if_pos hlt]
  have := poke_np (b.setLen (b.len + 1)) b.len [v] h
  simp only [Meth.step]
  cases e : (b.setLen (b.len + 1)).poke b.len [v] h with
  | panic => exact absurd e this
  | _ => rfl

theorem poke_out (off : Nat) (vals : Bytes) {b : LE} {h : Heap} {s : List Cell} {l : Nat} {fp : Option Nat} (hr : Rep b h s l fp)
    (ho : s.length < off + vals.length) : b.poke off vals h = .ub := by
  obtain ⟨v, hi, hh⟩ := hr
  cases hh with
  | inline h1 h2 =>
    rw [List.length_map, h1] at ho
    rw [LE.poke, InlineAt.isStack hi, if_pos rfl, if_neg (by unfold INIT_CAPACITY; omega)]
    rfl
  | heap h1 h2 h3 h4 h5 h6 =>
    rw [LE.poke, HeapAt.isStack hi, if_neg (by decide), HeapAt.data_ hi, m_bind, store, h3]
    simp only []
    rw [if_neg (by simp; omega)]

theorem extend_out (vals : Bytes) {b : LE} {h : Heap} {s : List Cell} {l : Nat} {fp : Option Nat} (hr : Rep b h s l fp)
    (ho : s.length < l + vals.length) : b.extend vals h = .ub := by
  rw [LE.extend, rep_len hr, bind_ub (poke_out l vals hr ho)]

theorem like_withCapacity (m : Build) (al : Allocator) (n : Nat) (h : Heap) : LikeU h (withCapacity m al n h) (littleU.withCapacity m al n h) := by
  have := like_reserve m al n new h
  unfold LE.withCapacity littleU
  simp only [u_bind, build]
  cases e : LE.reserve m al new n h with
  | ok b h' => rw [e] at this; simp only [Like] at this; rw [this]; rfl
  | panic =>
    rw [e] at this
    obtain ⟨h', e1, e2⟩ := this
    rw [e1]
    obtain ⟨h2, e3, e4⟩ := LE.correct.drop (rep_new h')
    simp only [little] at e3
    simp only [e3]
    refine ⟨h2, rfl, ?_⟩
    rw [← e2]
    have := e4
    rw [Frame, erase_none, erase_none] at this
    exact this.symm
  | abort => rw [e] at this; simp only [Like] at this; rw [this]; rfl
  | ub => rw [e] at this; simp only [Like] at this; rw [this]; rfl

theorem unwinds : Unwinds littleU Rep where
  withCapacity := like_withCapacity
  push m v _ _ _ _ _ hr hl := like_push m v hr hl
  extend m vals b h _ _ _ _ := like_extend vals b h
  reserve := like_reserve
  setLen _ _ _ _ := rfl
  poke := like_poke
  copyWithin := like_copyWithin
  setAt := like_setAt
  poke_out off vals _ _ _ _ _ hr ho := poke_out off vals hr ho
  extend_out _ vals _ _ _ _ _ hr ho := extend_out vals hr ho
  poke_np off vals b h := poke_np b off vals h
  copyWithin_np src dst n b h := copyWithin_np b src dst n h
  beyond m al n h h1 h2 := by
    have := Raw.le_inline.beyond m al (rep_new h) n h2 (by omega)
    rw [if_neg (by omega), if_pos rfl] at this
    exact this

end LE

namespace UE

theorem heapField_np (b : UE) (h : Heap) : b.heapField h ≠ .panic := by
  obtain ⟨l, u⟩ := b
  cases u <;> simp [heapField, pure_run, M.ub]

theorem stackField_np (b : UE) (h : Heap) : b.stackField h ≠ .panic := by
  obtain ⟨l, u⟩ := b
  cases u <;> simp [stackField, pure_run, M.ub]

theorem still_heapField (b : UE) (h : Heap) : Still b.heapField h := by
  intro a h' e
  obtain ⟨l, u⟩ := b
  cases u <;> cases e; rfl

theorem still_stackField (b : UE) (h : Heap) : Still b.stackField h := by
  intro a h' e
  obtain ⟨l, u⟩ := b
  cases u <;> cases e; rfl

theorem still_capacity (b : UE) (h : Heap) : Still b.capacity h := by
  intro a h' e
  unfold capacity at e; split at e
  · cases e; rfl
  · rw [m_bind] at e
    cases e1 : b.heapField h with
    | ok c h2 => rw [e1] at e; cases e; exact still_heapField b h _ _ e1
    | _ => rw [e1] at e; cases e

theorem capacity_np (b : UE) (h : Heap) : b.capacity h ≠ .panic := by
  unfold capacity; split
  · simp [pure_run]
  · rw [m_bind]
    have := heapField_np b h
    cases e1 : b.heapField h <;> simp_all [pure_run]

theorem poke_np (b : UE) (off : Nat) (v : Bytes) (h : Heap) : b.poke off v h ≠ .panic := by
  unfold poke; split
  · rw [m_bind]
    have := stackField_np b h
    cases e : b.stackField h with
    | ok d h' => simp only; split <;> simp [pure_run, M.ub]
    | panic => exact absurd e this
    | abort => simp
    | ub => simp
  · rw [m_bind]
    have := heapField_np b h
    cases e : b.heapField h with
    | ok d h' =>
      simp only [m_bind]
      have := LE.store_np d.1 off (v.map some) h'
      cases e : store d.1 off (v.map some) h' <;> simp_all [pure_run]
    | panic => exact absurd e this
    | abort => simp
    | ub => simp

theorem peek_np (b : UE) (n : Nat) (h : Heap) : b.peek n h ≠ .panic := by
  unfold peek; split
  · rw [m_bind]
    have := stackField_np b h
    cases e : b.stackField h with
    | ok d h' => simp only; split <;> simp [pure_run, M.ub]
    | panic => exact absurd e this
    | abort => simp
    | ub => simp
  · rw [m_bind]
    have := heapField_np b h
    cases e : b.heapField h with
    | ok d h' => simp only; exact LE.load_np _ _ _ _
    | panic => exact absurd e this
    | abort => simp
    | ub => simp

theorem copyWithin_np (b : UE) (src dst n : Nat) (h : Heap) : b.copyWithin src dst n h ≠ .panic := by
  unfold copyWithin; split
  · rw [m_bind]
    have := stackField_np b h
    cases e : b.stackField h with
    | ok d h' => simp only; split <;> simp [pure_run, M.ub]
    | panic => exact absurd e this
    | abort => simp
    | ub => simp
  · rw [m_bind]
    have := heapField_np b h
    cases e : b.heapField h with
    | panic => exact absurd e this
    | abort => simp
    | ub => simp
    | ok d h' =>
      simp only [m_bind]
      have := LE.load_np d.1 src n h'
      cases e : load d.1 src n h' with
      | ok c h' =>
        simp only
        have := LE.store_np d.1 dst c h'
        cases e : store d.1 dst c h' <;> simp_all [pure_run]
      | panic => exact absurd e this
      | abort => simp
      | ub => simp

theorem like_poke (off : Nat) (vals : Bytes) (b : UE) (h : Heap) : Like b h (b.poke off vals h) (pokeU off vals b h) :=
  like_assign (poke_np b off vals h)

theorem like_copyWithin (src dst n : Nat) (b : UE) (h : Heap) : Like b h (b.copyWithin src dst n h) (copyWithinU src dst n b h) :=
  like_assign (copyWithin_np b src dst n h)

theorem like_setAt (i : Nat) (v : UInt8) (b : UE) (h : Heap) : Like b h (b.setAt i v h) (setAtU i v b h) := by
  unfold UE.setAt setAtU
  simp only [meth_bind, meth_self]
  refine like_ite (fun _ => like_poke i [v] b h) (fun _ => ⟨h, rfl, rfl⟩)

theorem like_setLen (m : Build) (n : Nat) (b : UE) (h : Heap) : Like b h (b.setLen m n h) (setLenU m n b h) := by
  unfold UE.setLen setLenU
  rw [meth_bind, meth_self]
  refine like_step (still_capacity _ _) ?_
  intro cap _
  exact like_step (still_assert _ _ _) fun _ _ => rfl

theorem heapNewU_eq (m : Build) (al : Allocator) (n : Nat) (h : Heap) : LikeU h (heapNew m al n h) (heapNewU m al n h) := by
  unfold heapNew heapNewU
  simp only [m_bind, u_bind, U.step]
  cases e : debugAssert m (0 < n) h with
  | panic => exact ⟨h, rfl, rfl⟩
  | abort => rfl
  | ub => rfl
  | ok _ h1 =>
    obtain rfl := still_assert _ _ _ _ _ e
    simp only
    cases e : layoutArray n h1 with
    | panic => exact ⟨h1, rfl, rfl⟩
    | abort => rfl
    | ub => rfl
    | ok _ h2 =>
      obtain rfl := still_layout _ _ _ _ e
      simp only
      have := LE.alloc_np al n h2
      cases e : alloc al n h2 with
      | panic => exact absurd e this
      | abort => rfl
      | ub => rfl
      | ok d h3 =>
        simp only
        split <;> rfl

theorem like_reserve (m : Build) (al : Allocator) (n : Nat) (b : UE) (h : Heap) : Like b h (b.reserve m al n h) (reserveU m al n b h) := by
  unfold UE.reserve reserveU
  rw [meth_bind, meth_self]
  refine like_step (still_usizeAdd _ _ _ _) ?_
  intro newCap _
  refine like_step (still_capacity _ _) ?_
  intro cap _
  refine like_ite (fun _ => rfl) (fun _ => ?_)
  refine like_ite (fun _ => ?_) (fun _ => ?_)
  · have := heapNewU_eq m al newCap h
    simp only [m_bind, meth_bind, Meth.call, Meth.step]
    cases e : heapNew m al newCap h with
    | panic =>
      rw [e] at this
      obtain ⟨h', e1, e2⟩ := this
      rw [e1]; exact ⟨h', rfl, e2⟩
    | abort => rw [e] at this; simp only [LikeU] at this; rw [this]; rfl
    | ub => rw [e] at this; simp only [LikeU] at this; rw [this]; rfl
    | ok d h' =>
      rw [e] at this; simp only [LikeU] at this; rw [this]
      simp only
      have e1 := peek_np b b.len h'
      cases e : b.peek b.len h' with
      | panic => exact absurd e e1
      | abort => rfl
      | ub => rfl
      | ok c h'' =>
        simp only
        have e2 := LE.store_np d.1 0 c h''
        cases e : store d.1 0 c h'' with
        | panic => exact absurd e e2
        | abort => rfl
        | ub => rfl
        | ok _ h3 => rfl
  · unfold heapReallocU heapRealloc
    rw [meth_bind, meth_self]
    refine like_step (still_heapField _ _) ?_
    intro d _
    simp only [m_bind, meth_bind, Meth.step]
    cases e : layoutArray d.2 h with
    | panic => exact ⟨h, rfl, rfl⟩
    | abort => rfl
    | ub => rfl
    | ok _ h1 =>
      obtain rfl := still_layout _ _ _ _ e
      simp only
      have := LE.realloc_np al d.1 d.2 newCap h1
      cases e : realloc al d.1 d.2 newCap h1 with
      | panic => exact absurd e this
      | abort => rfl
      | ub => rfl
      | ok p h2 =>
        simp only
        by_cases h0 : p = 0
        · rw [if_pos h0, if_pos h0]
          simp only [m_bind, meth_bind, Meth.step]
          cases e2 : layoutArray newCap h2 with
          | panic =>
            exfalso
            unfold layoutArray at e2
            split at e2
            · cases e2
            · rename_i hn
              unfold realloc at e
              split at e
              · cases e
              · rw [if_neg (fun hh => hn hh.2.2)] at e
                cases e
          | abort => rfl
          | ub => rfl
          | ok _ h3 => rfl
        · rw [if_neg h0, if_neg h0]; rfl

variable {b : UE} {h : Heap} {s : List Cell} {l : Nat} {fp : Option Nat}

theorem poke_out (off : Nat) (vals : Bytes) (hr : Rep b h s l fp) (ho : s.length < off + vals.length) : b.poke off vals h = .ub := by
  obtain ⟨v, hi, hh⟩ := hr
  cases hh with
  | inline h1 h2 =>
    obtain ⟨rfl, hl⟩ := hi
    rw [List.length_map] at ho
    rw [UE.poke, inline_isStack hl, if_pos rfl, bind_ok (stackField_run _ _ h), if_neg (by omega)]
    rfl
  | heap h1 h2 h3 h4 h5 h6 =>
    obtain ⟨rfl, hl⟩ := hi
    rw [UE.poke, heap_isStack hl, if_neg (by decide), bind_ok (heapField_run _ _ _ h), m_bind, store, h3]
    simp only []
    rw [if_neg (by simp; omega)]

theorem extend_out (m : Build) (vals : Bytes) (hr : Rep b h s l fp) (ho : s.length < l + vals.length) : b.extend m vals h = .ub := by
  rw [UE.extend, rep_len hr, bind_ub (poke_out l vals hr ho)]

theorem like_extend (m : Build) (vals : Bytes) (hr : Rep b h s l fp) : Like b h (b.extend m vals h) (extendU m vals b h) := by
  by_cases ho : l + vals.length ≤ s.length
  · obtain ⟨b', h', e, hr', _⟩ := rep_poke l vals hr ho
    have h1 := rep_len hr
    have h2 := rep_len hr'
    have e3 := like_poke l vals b h
    rw [e] at e3
    obtain ⟨b2, e5, _⟩ := rep_setLen m (l + vals.length) hr' (by rw [patch_length _ _ _ (by simpa using ho)]; exact ho)
    have e4 := like_setLen m (l + vals.length) b' h'
    unfold UE.extend extendU
    simp only [meth_bind, meth_self, h1, m_bind, e, e3.symm ▸ e3, h2]
    rw [show pokeU l vals b h = .ok () b' h' from e3]
    simp only [h2]
    rw [e5] at e4 ⊢
    exact e4
  · rw [extend_out m vals hr (by omega)]
    unfold extendU
    have e3 := like_poke l vals b h
    rw [poke_out l vals hr (by omega)] at e3
    simp only [meth_bind, meth_self, rep_len hr]
    rw [show pokeU l vals b h = .ub from e3]
    rfl

theorem like_push (m : Build) (v : UInt8) (hr : Rep b h s l fp) (hl : l < s.length) : Like b h (b.push m v h) (pushU m v b h) := by
  obtain ⟨b1, e1, h1⟩ := rep_setLen m (l + 1) hr hl
  have e2 := like_setLen m (l + 1) b h
  rw [e1] at e2
  have hb := rep_len hr
  have hlt : l < b1.len := by rw [rep_len h1]; omega
  unfold UE.push pushU
  rw [meth_bind, meth_self]
  simp only [hb]
  refine like_step (still_capacity _ _) ?_
  intro cap _
  refine like_step (still_assert _ _ _) ?_
  intro _ _
  rw [bind_ok e1, meth_bind, show setLenU m (l + 1) b h = .ok () b1 h from e2]
  unfold UE.setAt setAtU pokeU
  simp only [meth_bind, meth_self, if_pos hlt]
  have := poke_np b1 l [v] h
  simp only [Meth.step]
  cases e : b1.poke l [v] h with
  | panic => exact absurd e this
  | _ => rfl

theorem like_withCapacity (m : Build) (al : Allocator) (n : Nat) (h : Heap) :
    LikeU h (withCapacity m al n h) (universalU.withCapacity m al n h) := by
  show LikeU h (UE.withCapacity m al n h) ((if n ≤ INIT_CAPACITY then (pure new : U UE) else (heapNewU m al n >>= fun d =>
    pure (⟨0 ||| HEAP_FLAG, .heap d.1 d.2⟩ : UE)) : U UE) h)
  unfold UE.withCapacity
  by_cases hn : n ≤ INIT_CAPACITY
  · simp only [if_pos hn]; rfl
  · simp only [if_neg hn]
    have := heapNewU_eq m al n h
    simp only [m_bind, u_bind]
    cases e : heapNew m al n h with
    | panic =>
      rw [e] at this
      obtain ⟨h', e1, e2⟩ := this
      rw [e1]; exact ⟨h', rfl, e2⟩
    | abort => rw [e] at this; simp only [LikeU] at this; rw [this]; rfl
    | ub => rw [e] at this; simp only [LikeU] at this; rw [this]; rfl
    | ok d h' => rw [e] at this; simp only [LikeU] at this; rw [this]; rfl

theorem unwinds : Unwinds universalU Rep where
  withCapacity := like_withCapacity
  push m v _ _ _ _ _ hr hl := like_push m v hr hl
  extend m vals _ _ _ _ _ hr := like_extend m vals hr
  reserve := like_reserve
  setLen := like_setLen
  poke := like_poke
  copyWithin := like_copyWithin
  setAt := like_setAt
  poke_out off vals _ _ _ _ _ hr ho := poke_out off vals hr ho
  extend_out m vals _ _ _ _ _ hr ho := extend_out m vals hr ho
  poke_np off vals b h := poke_np b off vals h
  copyWithin_np src dst n b h := copyWithin_np b src dst n h
  beyond m al n h h1 h2 := by
    have h0 : ¬ n ≤ INIT_CAPACITY := by have := init_le; unfold INIT_CAPACITY; omega
    show UE.withCapacity m al n h = .panic
    unfold UE.withCapacity heapNew
    rw [if_neg h0, m_bind, bind_ok (debugAssert_ok m (by omega) h)]
    unfold layoutArray
    rw [if_neg (by omega)]
    rfl

end UE
end Bsn1.Buf
