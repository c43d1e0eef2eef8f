import Verif.Lemmas.BufferLittle
/-!
# Both layouts: what every function does to the storage and to the blocks
-/

namespace Bsn1.Buf

/-- What a struct says: inline data and the length, or the words. -/
inductive View where
  | inline (data : Bytes) (len : Nat)
  | heap (p cap len : Nat)

/-- The storage, the length and the block owned. -/
inductive Holds (init : Nat) : View → Heap → List Cell → Nat → Option Nat → Prop
  | inline {data : Bytes} {len : Nat} {h : Heap} : data.length = init → len ≤ init →
      Holds init (.inline data len) h (data.map some) len none
  | heap {p len : Nat} {h : Heap} {cells : List Cell} : 0 < p → p < usizeSize → h.blocks p = some cells → 0 < cells.length →
      cells.length ≤ isizeMax → len ≤ cells.length →
      Holds init (.heap p cells.length len) h cells len (some p)

/-- What every function of a layout does, where `Rep b h store len fp` says that the buffer `b` has the storage `store`, whose first
`len` cells are the contents, and owns the block `fp`. -/
structure Correct (I : Impl) (Rep : I.B → Heap → List Cell → Nat → Option Nat → Prop) : Prop where
  near : ∀ {b h h' s l fp}, Rep b h s l fp → (∀ p, fp = some p → h'.blocks p = h.blocks p) → Rep b h' s l fp
  live : ∀ {b h s l p}, Rep b h s l (some p) → h.blocks p = some s
  bound : ∀ {b h s l fp}, Rep b h s l fp → l ≤ s.length ∧ s.length ≤ isizeMax
  len : ∀ {b h s l fp}, Rep b h s l fp → I.len b = l
  capacity : ∀ {b h s l fp}, Rep b h s l fp → I.capacity b h = .ok s.length h
  cells : ∀ {b h s l fp}, Rep b h s l fp → I.cells b h = .ok (s.take l) h
  new : ∀ h, ∃ s, Rep I.new h s 0 none ∧ 0 < s.length
  withCapacity : ∀ m {al : Allocator} n h, al.Valid → n ≤ isizeMax → I.withCapacity m al n h = .abort ∨
    ∃ b h' fp s, I.withCapacity m al n h = .ok b h' ∧ Rep b h' s 0 fp ∧ n ≤ s.length ∧ Frame h h' none fp
  fromVec : ∀ {v h s l fp}, VecRep v h s l fp → ∃ s', Rep (I.fromVec v) h s' l fp ∧ s <+: s'
  push : ∀ m {b h s l fp} v, Rep b h s l fp → l < s.length →
    ∃ b' h', I.push m b v h = .ok b' h' ∧ Rep b' h' (patch s l [some v]) (l + 1) fp ∧ Frame h h' fp fp
  extend : ∀ m {b h s l fp} (vals : Bytes), Rep b h s l fp → l + vals.length ≤ s.length →
    ∃ b' h', I.extend m b vals h = .ok b' h' ∧ Rep b' h' (patch s l (vals.map some)) (l + vals.length) fp ∧ Frame h h' fp fp
  reserve : ∀ m {al : Allocator} {b h s l fp} n, al.Valid → Rep b h s l fp → l + n ≤ isizeMax →
    I.reserve m al b n h = .abort ∨
    ∃ b' h' fp' s', I.reserve m al b n h = .ok b' h' ∧ Rep b' h' s' l fp' ∧ l + n ≤ s'.length ∧ s.length ≤ s'.length ∧
      s'.take l = s.take l ∧ Frame h h' fp fp'
  setLen : ∀ m {b h s l fp} n, Rep b h s l fp → n ≤ s.length → ∃ b', I.setLen m b n h = .ok b' h ∧ Rep b' h s n fp
  poke : ∀ {b h s l fp} off (vals : Bytes), Rep b h s l fp → off + vals.length ≤ s.length →
    ∃ b' h', I.poke b off vals h = .ok b' h' ∧ Rep b' h' (patch s off (vals.map some)) l fp ∧ Frame h h' fp fp
  copyWithin : ∀ {b h s l fp} src dst n, Rep b h s l fp → src + n ≤ s.length → dst + n ≤ s.length →
    ∃ b' h', I.copyWithin b src dst n h = .ok b' h' ∧ Rep b' h' (patch s dst ((s.drop src).take n)) l fp ∧ Frame h h' fp fp
  setAt : ∀ {b h s l fp} i v, Rep b h s l fp → i < l →
    ∃ b' h', I.setAt b i v h = .ok b' h' ∧ Rep b' h' (patch s i [some v]) l fp ∧ Frame h h' fp fp
  setAt_out : ∀ {b h s l fp} i v, Rep b h s l fp → l ≤ i → I.setAt b i v h = .panic
  clone : ∀ m {al : Allocator} {b h s l fp} (vals : Bytes), al.Valid → Rep b h s l fp → s.take l = vals.map some →
    I.clone m al b h = .abort ∨
    ∃ b' h' fp' s', I.clone m al b h = .ok b' h' ∧ Rep b' h' s' l fp' ∧ s'.take l = vals.map some ∧ Frame h h' none fp'
  intoVec : ∀ {al : Allocator} {b h s l fp}, al.Valid → Rep b h s l fp →
    I.intoVec al b h = .abort ∨
    ∃ v h' fp' s', I.intoVec al b h = .ok v h' ∧ VecRep v h' s' l fp' ∧ s'.take l = s.take l ∧ Frame h h' fp fp'
  drop : ∀ {b h s l fp}, Rep b h s l fp → ∃ h', I.drop b h = .ok () h' ∧ Frame h h' fp none

/-! ### Lists -/

theorem patch_map {α β : Type} (f : α → β) (d vals : List α) (off : Nat) :
    (patch d off vals).map f = patch (d.map f) off (vals.map f) := by
  simp [patch]

theorem take_patch {α : Type} (d vals : List α) (len : Nat) (h : len ≤ d.length) :
    (patch d len vals).take (len + vals.length) = d.take len ++ vals := by
  have hl : (d.take len ++ vals).length = len + vals.length := by simp; omega
  rw [patch, List.take_append_of_le_length (by omega), List.take_of_length_le (by omega)]

theorem getElem?_patch {α : Type} (d vals : List α) (off i : Nat) (h : off ≤ d.length) :
    (patch d off vals)[i]? = if i < off then d[i]? else if i < off + vals.length then vals[i - off]? else d[i]? := by
  have h1 : (d.take off).length = off := by simp; omega
  have h2 : (d.take off ++ vals).length = off + vals.length := by simp; omega
  rw [patch]
  by_cases hi : i < off
  · rw [if_pos hi, List.getElem?_append_left (by omega), List.getElem?_append_left (by omega), List.getElem?_take, if_pos hi]
  · rw [if_neg hi]
    by_cases hj : i < off + vals.length
    · rw [if_pos hj, List.getElem?_append_left (by omega), List.getElem?_append_right (by omega), h1]
    · rw [if_neg hj, List.getElem?_append_right (by omega), h2, List.getElem?_drop]
      congr 1
      omega

/-! ### Stores keep what is held -/

theorem Holds.near {init : Nat} {v : View} {h h' : Heap} {s : List Cell} {l : Nat} {fp : Option Nat}
    (hh : Holds init v h s l fp) (e : ∀ p, fp = some p → h'.blocks p = h.blocks p) : Holds init v h' s l fp := by
  cases hh with
  | inline h1 h2 => exact .inline h1 h2
  | heap h1 h2 h3 h4 h5 h6 => exact .heap h1 h2 ((e _ rfl).trans h3) h4 h5 h6

theorem Holds.live {init : Nat} {v : View} {h : Heap} {s : List Cell} {l p : Nat} (hh : Holds init v h s l (some p)) :
    h.blocks p = some s := by
  cases hh with
  | heap h1 h2 h3 h4 h5 h6 => exact h3

theorem Holds.bound {init : Nat} (hi : init ≤ isizeMax) {v : View} {h : Heap} {s : List Cell} {l : Nat} {fp : Option Nat}
    (hh : Holds init v h s l fp) : l ≤ s.length ∧ s.length ≤ isizeMax := by
  cases hh with
  | inline h1 h2 => simp; omega
  | heap h1 h2 h3 h4 h5 h6 => omega

/-- Inline data after octets were overwritten. -/
theorem Holds.patchedInline {init len off : Nat} {h : Heap} {data vals : Bytes} (h1 : data.length = init) (h2 : len ≤ init)
    (ho : off + vals.length ≤ init) :
    Holds init (.inline (patch data off vals) len) h (patch (data.map some) off (vals.map some)) len none := by
  rw [← patch_map]
  exact .inline (by rw [patch_length _ _ _ (by omega), h1]) h2

/-- A heap buffer after cells were overwritten. -/
theorem Holds.patched {init p len off : Nat} {h : Heap} {cells vals : List Cell} (h1 : 0 < p) (h2 : p < usizeSize)
    (h4 : 0 < cells.length) (h5 : cells.length ≤ isizeMax) (h6 : len ≤ cells.length) (ho : off + vals.length ≤ cells.length) :
    Holds init (.heap p cells.length len) ⟨h.blocks.put p (some (patch cells off vals)), h.clock⟩ (patch cells off vals) len
      (some p) := by
  have hl := patch_length cells vals off ho
  have := Holds.heap (init := init) (len := len) (h := ⟨h.blocks.put p
    (some (patch cells off vals)), h.clock⟩) h1 h2 (put_self _ _ _) (by omega) (by omega) (by omega)
  rwa [hl] at this

theorem Frame.patched (h : Heap) (p : Nat) (x : Option (List Cell)) (c : Nat) :
    Frame h ⟨h.blocks.put p x, c⟩ (some p) (some p) := by
  rw [Frame, erase_put]

/-- A frame that starts from no block keeps every live block. -/
theorem Frame.keeps {h h' : Heap} {fp : Option Nat} (hf : Frame h h' none fp) {p : Nat} {cells : List Cell}
    (hp : h.blocks p = some cells) : h'.blocks p = some cells := by
  have := congrFun hf p
  rw [erase_none, hp] at this
  simp only [erase] at this
  split at this
  · simp at this
  · exact this.symm

end Bsn1.Buf
