import Verif.Lemmas.BufferHistory
/-!
# C35 to C38: buffers
-/

namespace Bsn1
open Buf Spec

/-! ### Parts of the proofs that both layouts share -/

namespace Buf

variable {I : Impl} {Rep : I.B → Heap → List Cell → Nat → Option Nat → Prop} {h0 h h' : Heap} {objs : List (Obj I)}
  {abs : List AObj} {m : Build} {al : Allocator}

theorem Agree.shows {v : AVec} {s : List Cell} (h : Agree v.mem s) (hl : v.len ≤ v.mem.length) : Shows v.contents (s.take v.len) := by
  constructor
  · have := h.1
    simp [AVec.contents]
    omega
  · intro i x e
    rw [AVec.contents, List.getElem?_take] at e
    rw [List.getElem?_take]
    split at e
    · rename_i hi
      rw [if_pos hi]
      exact h.2 i x e
    · simp at e

theorem shows_known {spec cells : List Cell} (h : Shows spec cells) (hk : none ∉ spec) : cells = spec := by
  apply List.ext_getElem?
  intro i
  rcases Nat.lt_or_ge i spec.length with hl | hl
  · cases hs : spec[i]? with
    | none => rw [List.getElem?_eq_getElem hl] at hs; simp at hs
    | some c =>
      cases c with
      | none => exact absurd (List.mem_of_getElem? hs) hk
      | some x => exact h.2 i x hs
  · rw [List.getElem?_eq_none hl, List.getElem?_eq_none (by rw [h.1]; exact hl)]

theorem history_buf (hc : Correct I Rep) (hv : al.Valid) (hh : History I m al h0 objs h abs) {i : Nat} {b : I.B}
    (e : objs[i]? = some (.buf b)) : ∃ v, abs[i]? = some (.buf v) ∧ I.len b = v.len ∧
    ∃ cs, I.cells b h = .ok cs h ∧ Shows v.contents cs ∧ (none ∉ v.contents → cs = v.contents) := by
  obtain ⟨fps, hi⟩ := History.inv hc hv hh
  obtain ⟨v, f, s, ea, ef, h1, h2, h3⟩ := hi.buf e
  exact ⟨v, ea, hc.len h1, _, hc.cells h1, h2.shows h3, shows_known (h2.shows h3)⟩

theorem history_vec (hc : Correct I Rep) (hv : al.Valid) (hh : History I m al h0 objs h abs) {i : Nat} {r : RVec}
    (e : objs[i]? = some (.vec r)) : ∃ v, abs[i]? = some (.vec v) ∧ r.len = v.len ∧
    ∃ cs, vecCells r h = .ok cs h ∧ Shows v.contents cs ∧ (none ∉ v.contents → cs = v.contents) := by
  obtain ⟨fps, hi⟩ := History.inv hc hv hh
  obtain ⟨v, f, s, ea, ef, h1, h2, h3⟩ := hi.vec e
  have hl : r.len = v.len := by generalize v.len = l at *; cases h1 <;> rfl
  have hcs : vecCells r h = .ok (s.take v.len) h := by
    generalize v.len = l at *
    cases h1 with
    | empty => rfl
    | block a1 a2 a3 a4 a5 a6 =>
      rw [vecCells, if_neg (by simp only; omega)]
      exact load_spec _ _ _ h a3 a6
  exact ⟨v, ea, hl, _, hcs, h2.shows h3, shows_known (h2.shows h3)⟩

theorem history_step (hc : Correct I Rep) (hv : al.Valid) (hh : History I m al h0 objs h abs) {op : BufOp} (ha : Allowed objs h abs op) :
    Spec.step m al objs op h = .abort ∨ ∃ objs' h', Spec.step m al objs op h = .ok objs' h' := by
  obtain ⟨fps, hi⟩ := History.inv hc hv hh
  rcases hi.step hc m hv ha with e | ⟨objs', h', _, e, _⟩
  · exact .inl e
  · exact .inr ⟨objs', h', e⟩

theorem history_capacity (hc : Correct I Rep) (hv : al.Valid) (hh : History I m al h0 objs h abs) {i : Nat} {b : I.B}
    (e : objs[i]? = some (.buf b)) : ∃ cap, I.capacity b h = .ok cap h ∧ I.len b ≤ cap := by
  obtain ⟨fps, hi⟩ := History.inv hc hv hh
  obtain ⟨v, f, s, ea, ef, h1, h2, h3⟩ := hi.buf e
  exact ⟨_, hc.capacity h1, by rw [hc.len h1]; exact (hc.bound h1).1⟩

/-- The blocks of the objects: live, of the right size, each with one owner, and no others. -/
theorem inv_blocks (hc : Correct I Rep) (ow : I.B → Option Nat) (how : ∀ {b h s l fp}, Rep b h s l fp → ow b = fp)
    {fps : List (Option Nat)} (hi : Inv Rep h0 objs h abs fps) :
    (∀ (i : Nat) o p, objs[i]? = some o → o.owner ow = some p → h0.blocks p = none ∧ ∃ cells, h.blocks p = some cells ∧
      match o with
      | .buf b => I.capacity b h = .ok cells.length h
      | .vec v => v.cap = cells.length
      | .gone => False) ∧
    (∀ (i j : Nat) o o' p, objs[i]? = some o → objs[j]? = some o' → o.owner ow = some p → o'.owner ow = some p → i = j) ∧
    (∀ q, (∀ (i : Nat) o, objs[i]? = some o → o.owner ow ≠ some q) → h.blocks q = h0.blocks q) := by
  have key : ∀ (i : Nat) o, objs[i]? = some o → fps[i]? = some (o.owner ow) := by
    intro i o e
    cases o with
    | buf b =>
      obtain ⟨v, f, s, ea, ef, h1, _⟩ := hi.buf e
      rw [ef, Obj.owner, how h1]
    | vec r =>
      obtain ⟨v, f, s, ea, ef, h1, _⟩ := hi.vec e
      rw [ef, Obj.owner]
      generalize v.len = l at *
      cases h1 with
      | empty => rfl
      | block a1 a2 a3 a4 a5 a6 => rw [if_neg (by simp only; omega)]
    | gone =>
      obtain ⟨a, f, ea, ef, hr⟩ := hi.at e
      cases a with
      | gone => rw [ef, show f = none from hr]; rfl
      | buf v => exact hr.elim
      | vec v => exact hr.elim
  refine ⟨?_, ?_, ?_⟩
  · intro i o p e eo
    have ef := key i o e
    rw [eo] at ef
    refine ⟨hi.new i p ef, ?_⟩
    cases o with
    | buf b =>
      obtain ⟨v, f, s, ea, ef', h1, _⟩ := hi.buf e
      rw [ef] at ef'
      cases ef'
      exact ⟨s, hc.live h1, hc.capacity h1⟩
    | vec r =>
      obtain ⟨v, f, s, ea, ef', h1, _⟩ := hi.vec e
      rw [ef] at ef'
      cases ef'
      refine ⟨s, h1.live, ?_⟩
      generalize v.len = l at *
      cases h1 with
      | block a1 a2 a3 a4 a5 a6 => rfl
    | gone => simp [Obj.owner] at eo
  · intro i j o o' p e e' eo eo'
    exact hi.one i j p (eo ▸ key i o e) (eo' ▸ key j o' e')
  · intro q hq
    apply hi.rest
    intro i ei
    have hF := hi.lenF
    have hl : i < objs.length := by
      rcases Nat.lt_or_ge i objs.length with hl | hl
      · exact hl
      · rw [List.getElem?_eq_none (by omega)] at ei; simp at ei
    have e : objs[i]? = some objs[i] := List.getElem?_eq_getElem _
    have := key i _ e
    rw [ei] at this
    simp only [Option.some.injEq] at this
    exact hq i _ e this.symm

theorem history_blocks (hc : Correct I Rep) (ow : I.B → Option Nat) (how : ∀ {b h s l fp}, Rep b h s l fp → ow b = fp) (hv : al.Valid)
    (hh : History I m al h0 objs h abs) :
    (∀ (i : Nat) o p, objs[i]? = some o → o.owner ow = some p → h0.blocks p = none ∧ ∃ cells, h.blocks p = some cells ∧
      match o with
      | .buf b => I.capacity b h = .ok cells.length h
      | .vec v => v.cap = cells.length
      | .gone => False) ∧
    (∀ (i j : Nat) o o' p, objs[i]? = some o → objs[j]? = some o' → o.owner ow = some p → o'.owner ow = some p → i = j) ∧
    (∀ q, (∀ (i : Nat) o, objs[i]? = some o → o.owner ow ≠ some q) → h.blocks q = h0.blocks q) := by
  obtain ⟨fps, hi⟩ := History.inv hc hv hh
  obtain ⟨h1, h2, h3⟩ := inv_blocks hc ow how hi
  refine ⟨fun i o p e eo => ?_, h2, h3⟩
  obtain ⟨h4, cells, h5, h6⟩ := h1 i o p e eo
  exact ⟨h4, cells, h5, by cases o <;> exact h6⟩

theorem history_reserve (hc : Correct I Rep) (hv : al.Valid) (hh : History I m al h0 objs h abs) {i : Nat} {b : I.B}
    (e : objs[i]? = some (.buf b)) (n : Nat) (hn : I.len b + n ≤ isizeMax) : I.reserve m al b n h = .abort ∨
    ∃ b' h' cap cap' cs, I.reserve m al b n h = .ok b' h' ∧ I.capacity b h = .ok cap h ∧ I.capacity b' h' = .ok cap' h' ∧
      I.len b + n ≤ cap' ∧ cap ≤ cap' ∧ I.len b' = I.len b ∧ I.cells b h = .ok cs h ∧ I.cells b' h' = .ok cs h' := by
  obtain ⟨fps, hi⟩ := History.inv hc hv hh
  obtain ⟨v, f, s, ea, ef, h1, h2, h3⟩ := hi.buf e
  rw [hc.len h1] at hn ⊢
  rcases hc.reserve m n hv h1 hn with e | ⟨b', h', fp', s', e, h4, h5, h6, h7, h8⟩
  · exact .inl e
  · refine .inr ⟨b', h', _, _, _, e, hc.capacity h1, hc.capacity h4, h5, h6, hc.len h4, hc.cells h1, ?_⟩
    rw [hc.cells h4, h7]

theorem any_withCapacity (hc : Correct I Rep) (hv : al.Valid) (h : Heap) (n : Nat) (hn : n ≤ isizeMax) :
    I.withCapacity m al n h = .abort ∨
    ∃ b h' cap, I.withCapacity m al n h = .ok b h' ∧ I.len b = 0 ∧ I.cells b h' = .ok [] h' ∧ I.capacity b h' = .ok cap h' ∧ n ≤ cap := by
  rcases hc.withCapacity m n h hv hn with e | ⟨b, h', fp, s, e, h1, h2, h3⟩
  · exact .inl e
  · exact .inr ⟨b, h', _, e, hc.len h1, hc.cells h1, hc.capacity h1, h2⟩

theorem ownerLE_eq {b : LE} {h : Heap} {s : List Cell} {l : Nat} {fp : Option Nat} (hr : LE.Rep b h s l fp) : ownerLE b = fp := by
  obtain ⟨v, hi, hh⟩ := hr
  rw [ownerLE]
  cases hh with
  | inline h1 h2 => rw [LE.InlineAt.isStack hi, if_pos rfl]
  | heap h1 h2 h3 h4 h5 h6 => rw [LE.HeapAt.isStack hi, if_neg (by decide), LE.HeapAt.data_ hi]

theorem ownerUE_eq {b : UE} {h : Heap} {s : List Cell} {l : Nat} {fp : Option Nat} (hr : UE.Rep b h s l fp) : ownerUE b = fp := by
  obtain ⟨v, hi, hh⟩ := hr
  cases hh with
  | inline h1 h2 => rw [hi.1]; rfl
  | heap h1 h2 h3 h4 h5 h6 => rw [hi.1]; rfl

end Buf

/-! ### C35, C36: contents -/

/-- An allocator that never uses an address again. -/
def bump : Allocator := fun c bl n => if (bl (c + 1)).isNone ∧ c + 1 < usizeSize then some (c + 1, List.replicate n none) else none

theorem bump_valid : bump.Valid := by
  intro c bl n a cells h
  unfold bump at h
  split at h
  · rename_i hc
    simp only [Option.some.injEq, Prod.mk.injEq] at h
    obtain ⟨rfl, rfl⟩ := h
    exact ⟨by omega, hc.2, by simpa using hc.1, by simp⟩
  · simp at h

/-- An empty heap. -/
def noHeap : Heap := ⟨fun _ => none, 0⟩

/-- **C35.** Whatever a program that keeps the rules did, with any allocator: each of its buffers of the little-endian layout has the
length of the ordinary vector that went through the same history, and `as_slice` shows its elements (exactly, when all of them are
specified; what is not specified comes from growing with `set_len`). -/
theorem C35_contents (m : Build) (al : Allocator) (hv : al.Valid) (h0 : Heap) (objs : List (Obj little)) (h : Heap) (abs : List AObj)
    (hh : History little m al h0 objs h abs) (i : Nat) (b : LE) (e : objs[i]? = some (.buf b)) :
    ∃ v, abs[i]? = some (.buf v) ∧ b.len = v.len ∧
      ∃ cs, b.cells h = .ok cs h ∧ Shows v.contents cs ∧ (none ∉ v.contents → cs = v.contents) :=
  history_buf LE.correct hv hh e

example : ∃ cs, (∃ b h, LE.cells b h = .ok cs h) ∧ cs = [some 1, some 2, some 3] := by
  have s1 : History little .debug bump noHeap _ _ _ := .step (op := .makeVec [1, 2] 1) .start (by change _ ≤ _; decide) rfl
  have s2 := History.step (op := .fromVec 0) s1 ⟨_, rfl⟩ rfl
  have s3 := History.step (op := .push 0 3) s2 ⟨_, _, ⟨rfl, rfl⟩, by decide⟩ rfl
  obtain ⟨v, e, _, cs, h1, _, h2⟩ := C35_contents .debug bump bump_valid _ _ _ _ s3 0 _ rfl
  cases e
  exact ⟨cs, ⟨_, _, h1⟩, h2 (by decide)⟩

/-- **C35.** The same for the vectors that come out of `into_vec` or go into `from`. -/
theorem C35_into_vec (m : Build) (al : Allocator) (hv : al.Valid) (h0 : Heap) (objs : List (Obj little)) (h : Heap) (abs : List AObj)
    (hh : History little m al h0 objs h abs) (i : Nat) (r : RVec) (e : objs[i]? = some (.vec r)) :
    ∃ v, abs[i]? = some (.vec v) ∧ r.len = v.len ∧
      ∃ cs, vecCells r h = .ok cs h ∧ Shows v.contents cs ∧ (none ∉ v.contents → cs = v.contents) :=
  history_vec LE.correct hv hh e

example : ∃ cs, (∃ r h, vecCells r h = .ok cs h) ∧ cs = [some 1, some 2, some 3] := by
  have s1 : History little .debug bump noHeap _ _ _ := .step (op := .fromSlice [1, 2]) .start (by change _ ≤ _; decide) rfl
  have s2 := History.step (op := .push 0 3) s1 ⟨_, _, ⟨rfl, rfl⟩, by decide⟩ rfl
  have s3 := History.step (op := .intoVec 0) s2 ⟨_, rfl⟩ rfl
  obtain ⟨v, e, _, cs, h1, _, h2⟩ := C35_into_vec .debug bump bump_valid _ _ _ _ s3 0 _ rfl
  cases e
  exact ⟨cs, ⟨_, _, h1⟩, h2 (by decide)⟩

/-- **C36.** The same as `C35_contents` for the other layout. -/
theorem C36_contents (m : Build) (al : Allocator) (hv : al.Valid) (h0 : Heap) (objs : List (Obj universal)) (h : Heap)
    (abs : List AObj) (hh : History universal m al h0 objs h abs) (i : Nat) (b : UE) (e : objs[i]? = some (.buf b)) :
    ∃ v, abs[i]? = some (.buf v) ∧ b.len = v.len ∧
      ∃ cs, b.cells h = .ok cs h ∧ Shows v.contents cs ∧ (none ∉ v.contents → cs = v.contents) :=
  history_buf UE.correct hv hh e

example : ∃ cs, (∃ b h, UE.cells b h = .ok cs h) ∧ cs = [some 1, some 2, some 3] := by
  have s1 : History universal .debug bump noHeap _ _ _ := .step (op := .makeVec [1, 2] 1) .start (by change _ ≤ _; decide) rfl
  have s2 := History.step (op := .fromVec 0) s1 ⟨_, rfl⟩ rfl
  have s3 := History.step (op := .push 0 3) s2 ⟨_, _, ⟨rfl, rfl⟩, by decide⟩ rfl
  obtain ⟨v, e, _, cs, h1, _, h2⟩ := C36_contents .debug bump bump_valid _ _ _ _ s3 0 _ rfl
  cases e
  exact ⟨cs, ⟨_, _, h1⟩, h2 (by decide)⟩

/-- **C36.** The same as `C35_into_vec` for the other layout. -/
theorem C36_into_vec (m : Build) (al : Allocator) (hv : al.Valid) (h0 : Heap) (objs : List (Obj universal)) (h : Heap)
    (abs : List AObj) (hh : History universal m al h0 objs h abs) (i : Nat) (r : RVec) (e : objs[i]? = some (.vec r)) :
    ∃ v, abs[i]? = some (.vec v) ∧ r.len = v.len ∧
      ∃ cs, vecCells r h = .ok cs h ∧ Shows v.contents cs ∧ (none ∉ v.contents → cs = v.contents) :=
  history_vec UE.correct hv hh e

/-! ### A case -/

/-- 23 octets. -/
def octets : Bytes := List.replicate 23 5

/-- A buffer of 23 octets is inline; it moves to the heap when one is written; then an octet is replaced, and the buffer is cut. -/
example : ∃ objs h abs, History little .debug bump noHeap objs h abs ∧
    ∃ b, objs[0]? = some (.buf b) ∧ b.cells h = .ok [some 7, some 5] h ∧ b.isStack = false := by
  have s1 : History little .debug bump noHeap _ _ _ := .step (op := .fromSlice octets) .start (by change _ ≤ _; decide) rfl
  have s2 := History.step (op := .write 0 [6]) s1 ⟨_, rfl, by decide⟩ rfl
  have s3 := History.step (op := .setAt 0 0 7) s2 ⟨_, rfl, by decide⟩ rfl
  have s4 := History.step (op := .setLen 0 2) s3 ⟨_, _, ⟨rfl, rfl⟩, by decide⟩ rfl
  exact ⟨_, _, _, s4, _, rfl, rfl, rfl⟩

/-- The same for the other layout, with a vector and a clone. -/
example : ∃ objs h abs, History universal .debug bump noHeap objs h abs ∧
    ∃ b c, objs[0]? = some (.buf b) ∧ b.cells h = .ok [some 1, some 2, some 3] h ∧ b.isStack = false ∧
      objs[1]? = some (.buf c) ∧ c.cells h = .ok [some 1, some 2] h ∧ c.isStack = true := by
  have s1 : History universal .debug bump noHeap _ _ _ := .step (op := .makeVec [1, 2] 1) .start (by change _ ≤ _; decide) rfl
  have s2 := History.step (op := .fromVec 0) s1 ⟨_, rfl⟩ rfl
  have s3 := History.step (op := .clone 0) s2 ⟨_, _, rfl, rfl, by decide⟩ rfl
  have s4 := History.step (op := .push 0 3) s3 ⟨_, _, ⟨rfl, rfl⟩, by decide⟩ rfl
  exact ⟨_, _, _, s4, _, _, rfl, rfl, rfl, rfl, rfl, rfl⟩

/-! ### C37: memory -/

/-- **C37.** A program that keeps the rules never does what Rust forbids: each call returns, unless the allocator refuses.  In the
model, an access outside of the storage, the use of a freed block, freeing twice or with another size, or reading uninitialised
cells would be `ub`.  (Partial: the rules forbid `reserve` above `isize::MAX`; see `C37_reserve_violated`.) -/
theorem C37_no_ub_partial (m : Build) (al : Allocator) (hv : al.Valid) (h0 h : Heap) (abs : List AObj) (op : BufOp) :
    (∀ objs : List (Obj little), History little m al h0 objs h abs → Allowed objs h abs op →
      Spec.step m al objs op h = .abort ∨ ∃ objs' h', Spec.step m al objs op h = .ok objs' h') ∧
    (∀ objs : List (Obj universal), History universal m al h0 objs h abs → Allowed objs h abs op →
      Spec.step m al objs op h = .abort ∨ ∃ objs' h', Spec.step m al objs op h = .ok objs' h') :=
  ⟨fun _ hh ha => history_step LE.correct hv hh ha, fun _ hh ha => history_step UE.correct hv hh ha⟩

example : ∃ (objs : List (Obj little)) (h : Heap) (abs : List AObj), History little .debug bump noHeap objs h abs ∧
    (Spec.step .debug bump objs (.push 0 3) h = .abort ∨ ∃ objs' h', Spec.step .debug bump objs (.push 0 3) h = .ok objs' h') := by
  have s1 : History little .debug bump noHeap _ _ _ := .step (op := .makeVec [1, 2] 1) .start (by change _ ≤ _; decide) rfl
  have s2 := History.step (op := .fromVec 0) s1 ⟨_, rfl⟩ rfl
  exact ⟨_, _, _, s2, (C37_no_ub_partial .debug bump bump_valid noHeap _ _ (.push 0 3)).1 _ s2 ⟨_, _, ⟨rfl, rfl⟩, by decide⟩⟩

/-- **C37.** The length never exceeds the capacity. -/
theorem C37_len (m : Build) (al : Allocator) (hv : al.Valid) (h0 h : Heap) (abs : List AObj) (i : Nat) :
    (∀ (objs : List (Obj little)) b, History little m al h0 objs h abs → objs[i]? = some (.buf b) →
      ∃ cap, little.capacity b h = .ok cap h ∧ little.len b ≤ cap) ∧
    (∀ (objs : List (Obj universal)) b, History universal m al h0 objs h abs → objs[i]? = some (.buf b) →
      ∃ cap, universal.capacity b h = .ok cap h ∧ universal.len b ≤ cap) :=
  ⟨fun _ _ hh e => history_capacity LE.correct hv hh e, fun _ _ hh e => history_capacity UE.correct hv hh e⟩

example : ∃ (b : UE) (h : Heap) (cap : Nat), universal.capacity b h = .ok cap h ∧ universal.len b = 3 ∧ universal.len b ≤ cap := by
  have s1 : History universal .debug bump noHeap _ _ _ := .step (op := .fromSlice [1, 2]) .start (by change _ ≤ _; decide) rfl
  have s2 := History.step (op := .push 0 3) s1 ⟨_, _, ⟨rfl, rfl⟩, by decide⟩ rfl
  obtain ⟨cap, h1, h2⟩ := (C37_len .debug bump bump_valid noHeap _ _ 0).2 _ _ s2 rfl
  exact ⟨_, _, cap, h1, rfl, h2⟩

/-- What `C37_blocks` says: the block of each buffer in heap mode (and of each vector) is live, was not there at the beginning and has
the size of the capacity; no block has two owners; and every other block is as it was at the beginning. -/
def BlocksOwned (I : Impl) (ow : I.B → Option Nat) (h0 : Heap) (objs : List (Obj I)) (h : Heap) : Prop :=
  (∀ (i : Nat) o p, objs[i]? = some o → o.owner ow = some p → h0.blocks p = none ∧ ∃ cells, h.blocks p = some cells ∧
    match o with
    | .buf b => I.capacity b h = .ok cells.length h
    | .vec v => v.cap = cells.length
    | .gone => False) ∧
  (∀ (i j : Nat) o o' p, objs[i]? = some o → objs[j]? = some o' → o.owner ow = some p → o'.owner ow = some p → i = j) ∧
  (∀ q, (∀ (i : Nat) o, objs[i]? = some o → o.owner ow ≠ some q) → h.blocks q = h0.blocks q)

/-- **C37.** Blocks and their owners: see `BlocksOwned`. -/
theorem C37_blocks (m : Build) (al : Allocator) (hv : al.Valid) (h0 h : Heap) (abs : List AObj) :
    (∀ objs, History little m al h0 objs h abs → BlocksOwned little ownerLE h0 objs h) ∧
    (∀ objs, History universal m al h0 objs h abs → BlocksOwned universal ownerUE h0 objs h) := by
  constructor
  · intro objs hh
    obtain ⟨h1, h2, h3⟩ := history_blocks LE.correct ownerLE ownerLE_eq hv hh
    refine ⟨fun i o p e eo => ?_, h2, h3⟩
    obtain ⟨h4, cells, h5, h6⟩ := h1 i o p e eo
    exact ⟨h4, cells, h5, by cases o <;> exact h6⟩
  · intro objs hh
    obtain ⟨h1, h2, h3⟩ := history_blocks UE.correct ownerUE ownerUE_eq hv hh
    refine ⟨fun i o p e eo => ?_, h2, h3⟩
    obtain ⟨h4, cells, h5, h6⟩ := h1 i o p e eo
    exact ⟨h4, cells, h5, by cases o <;> exact h6⟩

example : ∃ (objs : List (Obj little)) (h : Heap), objs.length = 2 ∧ BlocksOwned little ownerLE noHeap objs h := by
  have s1 : History little .debug bump noHeap _ _ _ := .step (op := .makeVec [1, 2] 1) .start (by change _ ≤ _; decide) rfl
  have s2 := History.step (op := .fromVec 0) s1 ⟨_, rfl⟩ rfl
  have s3 := History.step (op := .clone 0) s2 ⟨_, _, rfl, rfl, by decide⟩ rfl
  exact ⟨_, _, rfl, (C37_blocks .debug bump bump_valid noHeap _ _).1 _ s3⟩

/-- **C37.** When everything was dropped, the heap is as at the beginning: every allocation was freed. -/
theorem C37_balanced (m : Build) (al : Allocator) (hv : al.Valid) (h0 h : Heap) (abs : List AObj) :
    (∀ objs : List (Obj little), History little m al h0 objs h abs → (∀ o ∈ objs, o = .gone) → h.blocks = h0.blocks) ∧
    (∀ objs : List (Obj universal), History universal m al h0 objs h abs → (∀ o ∈ objs, o = .gone) → h.blocks = h0.blocks) := by
  constructor
  · intro objs hh hg
    funext q
    refine ((C37_blocks m al hv h0 h abs).1 objs hh).2.2 q fun i o e => ?_
    rw [hg o (List.mem_of_getElem? e)]
    simp [Obj.owner]
  · intro objs hh hg
    funext q
    refine ((C37_blocks m al hv h0 h abs).2 objs hh).2.2 q fun i o e => ?_
    rw [hg o (List.mem_of_getElem? e)]
    simp [Obj.owner]

/-- A buffer on the heap, a clone that is inline, and both dropped. -/
example : ∃ objs h abs, History little .debug bump noHeap objs h abs ∧ objs.length = 2 ∧ (∀ o ∈ objs, o = .gone) := by
  have s1 : History little .debug bump noHeap _ _ _ := .step (op := .makeVec [1, 2] 1) .start (by change _ ≤ _; decide) rfl
  have s2 := History.step (op := .fromVec 0) s1 ⟨_, rfl⟩ rfl
  have s3 := History.step (op := .clone 0) s2 ⟨_, _, rfl, rfl, by decide⟩ rfl
  have s4 := History.step (op := .drop 0) s3 ⟨_, rfl, by simp⟩ rfl
  have s5 := History.step (op := .drop 1) s4 ⟨_, rfl, by simp⟩ rfl
  refine ⟨_, _, _, s5, rfl, fun o ho => ?_⟩
  simpa [List.set] using ho

theorem Buf.realloc_over {al : Allocator} {p size n : Nat} (hn : isizeMax < n) (h : Heap) : realloc al p size n h = .ub := by
  rw [realloc]
  cases h.blocks p with
  | none => rfl
  | some cells => exact if_neg fun hh => by omega

theorem Buf.LE.reserve_over {m : Build} {al : Allocator} {b : Buf.LE} {n len cap : Nat} (hl : b.len = len) (hs : b.isStack = false)
    (hc : b.capacity = cap) (hm : cap ≤ isizeMax) (hn : isizeMax < len + n) (hu : len + n < usizeSize) (h : Heap) :
    b.reserve m al n h = .ub := by
  rw [Buf.LE.reserve, hl, bind_ok (usizeAdd_ok m hu h), hc, if_neg (by omega), hs, if_neg (by decide), bind_ok (layoutArray_ok hm h),
    bind_ub (realloc_over hn h)]

theorem Buf.UE.reserve_over {m : Build} {al : Allocator} {b : Buf.UE} {l p n len cap : Nat} (hb : b = ⟨l, .heap p cap⟩)
    (hl : Buf.UE.len ⟨l, .heap p cap⟩ = len) (hs : Buf.UE.isStack ⟨l, .heap p cap⟩ = false) (hm : cap ≤ isizeMax) (hn : isizeMax < len + n) (hu : len + n < usizeSize)
    (h : Heap) : b.reserve m al n h = .ub := by
  rw [hb]
  have hc : Buf.UE.capacity ⟨l, .heap p cap⟩ h = .ok cap h := by
    rw [Buf.UE.capacity, hs, if_neg (by decide), bind_ok (Buf.UE.heapField_run _ p cap h), pure_run]
  rw [Buf.UE.reserve, hl, bind_ok (usizeAdd_ok m hu h), bind_ok hc, if_neg (by omega), hs, if_neg (by decide),
    bind_ok (Buf.UE.heapField_run _ p cap h)]
  apply bind_ub
  rw [Buf.UE.heapRealloc, bind_ok (layoutArray_ok hm h), bind_ub (realloc_over hn h)]

/-- **C37, violated.** `reserve` is a safe function, but on a buffer in heap mode it hands sizes above `isize::MAX` to
`alloc::realloc`, whose contract forbids that: for example `Buffer::from(vec![1]).reserve(isize::MAX as usize)`. -/
theorem C37_reserve_violated (m : Build) :
    (∃ objs h abs b, History little m bump noHeap objs h abs ∧ objs[0]? = some (.buf b) ∧
      little.reserve m bump b isizeMax h = .ub) ∧
    (∃ objs h abs b, History universal m bump noHeap objs h abs ∧ objs[0]? = some (.buf b) ∧
      universal.reserve m bump b isizeMax h = .ub) := by
  constructor
  · have s1 : History little m bump noHeap _ _ _ := .step (op := .makeVec [1] 0) .start (by change _ ≤ _; decide) rfl
    have s2 := History.step (op := .fromVec 0) s1 ⟨_, rfl⟩ rfl
    exact ⟨_, _, _, _, s2, rfl, Buf.LE.reserve_over (len := 1) (cap := 1) rfl rfl rfl (by decide) (by decide) (by decide) _⟩
  · have s1 : History universal m bump noHeap _ _ _ := .step (op := .makeVec [1] 0) .start (by change _ ≤ _; decide) rfl
    have s2 := History.step (op := .fromVec 0) s1 ⟨_, rfl⟩ rfl
    refine ⟨_, _, _, _, s2, rfl, ?_⟩
    have hr : universal.reserve = Buf.UE.reserve := rfl
    rw [hr]
    refine Buf.UE.reserve_over (l := 2 ^ 63 + 1) (p := 1) (cap := 1) (len := 1) ?_ ?_ ?_ (by decide) (by decide) (by decide) _
    · rfl
    · rfl
    · rfl

/-! ### C38: reserving -/

/-- What `C38_reserve_partial` says of one call: the capacity is sufficient and not less than before, the length and the elements are
the same. -/
def ReserveDone (I : Impl) (b : I.B) (h : Heap) (n : Nat) (b' : I.B) (h' : Heap) : Prop :=
  ∃ cap cap' cs, I.capacity b h = .ok cap h ∧ I.capacity b' h' = .ok cap' h' ∧ I.len b + n ≤ cap' ∧ cap ≤ cap' ∧
    I.len b' = I.len b ∧ I.cells b h = .ok cs h ∧ I.cells b' h' = .ok cs h'

/-- **C38.** `reserve(n)` in every state, unless the allocator refuses.  (Partial: when the sum of the length and `n` is above
`isize::MAX`, see `C38_reserve_wraps_violated` and `C37_reserve_violated`.) -/
theorem C38_reserve_partial (m : Build) (al : Allocator) (hv : al.Valid) (h0 h : Heap) (abs : List AObj) (i n : Nat) :
    (∀ (objs : List (Obj little)) b, History little m al h0 objs h abs → objs[i]? = some (.buf b) → little.len b + n ≤ isizeMax →
      little.reserve m al b n h = .abort ∨
      ∃ b' h', little.reserve m al b n h = .ok b' h' ∧ ReserveDone little b h n b' h') ∧
    (∀ (objs : List (Obj universal)) b, History universal m al h0 objs h abs → objs[i]? = some (.buf b) →
      universal.len b + n ≤ isizeMax → universal.reserve m al b n h = .abort ∨
      ∃ b' h', universal.reserve m al b n h = .ok b' h' ∧ ReserveDone universal b h n b' h') := by
  constructor
  · intro objs b hh e hn
    rcases history_reserve LE.correct hv hh e n hn with e | ⟨b', h', cap, cap', cs, e, h1⟩
    · exact .inl e
    · exact .inr ⟨b', h', e, cap, cap', cs, h1⟩
  · intro objs b hh e hn
    rcases history_reserve UE.correct hv hh e n hn with e | ⟨b', h', cap, cap', cs, e, h1⟩
    · exact .inl e
    · exact .inr ⟨b', h', e, cap, cap', cs, h1⟩

example : ∃ (b : LE) (h : Heap), little.reserve .debug bump b 40 h = .abort ∨
    ∃ b' h', little.reserve .debug bump b 40 h = .ok b' h' ∧ ReserveDone little b h 40 b' h' := by
  have s1 : History little .debug bump noHeap _ _ _ := .step (op := .makeVec [1, 2] 1) .start (by change _ ≤ _; decide) rfl
  have s2 := History.step (op := .fromVec 0) s1 ⟨_, rfl⟩ rfl
  exact ⟨_, _, (C38_reserve_partial .debug bump bump_valid noHeap _ _ 0 40).1 _ _ s2 rfl (by decide)⟩

/-- **C38.** `with_capacity(n)`, for every `n`: an empty buffer of at least this capacity, unless the allocator refuses; above
`isize::MAX` it panics. -/
theorem C38_with_capacity (m : Build) (al : Allocator) (hv : al.Valid) (h : Heap) (n : Nat) (hu : n < usizeSize) :
    (n ≤ isizeMax → ∀ I ∈ [little, universal], I.withCapacity m al n h = .abort ∨
      ∃ b h' cap, I.withCapacity m al n h = .ok b h' ∧ I.len b = 0 ∧ I.cells b h' = .ok [] h' ∧ I.capacity b h' = .ok cap h' ∧
        n ≤ cap) ∧
    (isizeMax < n → ∀ I ∈ [little, universal], I.withCapacity m al n h = .panic) := by
  constructor
  · intro hn I hI
    simp only [List.mem_cons, List.not_mem_nil, or_false] at hI
    rcases hI with rfl | rfl
    · exact any_withCapacity LE.correct hv h n hn
    · exact any_withCapacity UE.correct hv h n hn
  · intro hn I hI
    simp only [List.mem_cons, List.not_mem_nil, or_false] at hI
    have hp : layoutArray n h = .panic := by rw [layoutArray, if_neg (by omega)]; rfl
    have h23 : 23 < isizeMax := by decide
    rcases hI with rfl | rfl
    · change LE.withCapacity m al n h = _
      rw [LE.withCapacity, LE.reserve, LE.rep_len (LE.rep_new h), LE.rep_capacity (LE.rep_new h),
        bind_ok (usizeAdd_ok m (by omega) h), Nat.zero_add, if_neg (by simp; omega),
        LE.InlineAt.isStack LE.inlineAt_new, if_pos rfl]
      exact bind_panic hp
    · change UE.withCapacity m al n h = _
      rw [UE.withCapacity, if_neg (by simp only [UE.INIT_CAPACITY]; omega)]
      apply bind_panic
      rw [UE.heapNew, bind_ok (debugAssert_ok m (by omega) h), bind_panic hp]

example (h : Heap) : universal.withCapacity .debug bump (2 ^ 63) h = .panic :=
  (C38_with_capacity .debug bump bump_valid h (2 ^ 63) (by decide)).2 (by decide) _ (by simp)

theorem Buf.usizeAdd_wraps {a b : Nat} (hb : usizeSize ≤ a + b) (h : Heap) :
    usizeAdd .release a b h = .ok ((a + b) % usizeSize) h := by
  unfold usizeAdd
  rw [if_neg (by omega)]
  exact pure_run _ h

theorem Buf.LE.reserve_wraps {al : Allocator} {b : Buf.LE} {n len cap : Nat} (hl : b.len = len) (hc : b.capacity = cap)
    (hn : usizeSize ≤ len + n) (hw : (len + n) % usizeSize ≤ cap) (h : Heap) : b.reserve .release al n h = .ok b h := by
  rw [Buf.LE.reserve, hl, bind_ok (usizeAdd_wraps hn h), hc, if_pos hw, pure_run]

theorem Buf.UE.reserve_wraps {al : Allocator} {b : Buf.UE} {n len cap : Nat} {h : Heap} (hl : b.len = len)
    (hc : b.capacity h = .ok cap h) (hn : usizeSize ≤ len + n) (hw : (len + n) % usizeSize ≤ cap) :
    b.reserve .release al n h = .ok b h := by
  rw [Buf.UE.reserve, hl, bind_ok (usizeAdd_wraps hn h), bind_ok hc, if_pos hw, pure_run]

/-- **C38, violated.** In a release build, `reserve(usize::MAX)` on a buffer that is not empty does nothing at all: the sum wraps
around. -/
theorem C38_reserve_wraps_violated :
    (∃ objs h abs b, History little .release bump noHeap objs h abs ∧ objs[0]? = some (.buf b) ∧ little.len b = 2 ∧
      little.reserve .release bump b (usizeSize - 1) h = .ok b h ∧ little.capacity b h = .ok 23 h) ∧
    (∃ objs h abs b, History universal .release bump noHeap objs h abs ∧ objs[0]? = some (.buf b) ∧ universal.len b = 2 ∧
      universal.reserve .release bump b (usizeSize - 1) h = .ok b h ∧ universal.capacity b h = .ok 16 h) := by
  constructor
  · have s1 : History little .release bump noHeap _ _ _ := .step (op := .fromSlice [1, 2]) .start (by change _ ≤ _; decide) rfl
    exact ⟨_, _, _, _, s1, rfl, rfl, Buf.LE.reserve_wraps (len := 2) (cap := 23) rfl rfl (by decide) (by decide) _, rfl⟩
  · have s1 : History universal .release bump noHeap _ _ _ := .step (op := .fromSlice [1, 2]) .start (by change _ ≤ _; decide) rfl
    exact ⟨_, _, _, _, s1, rfl, rfl, Buf.UE.reserve_wraps (len := 2) (cap := 16) rfl rfl (by decide) (by decide), rfl⟩

/-- A buffer in heap mode for `C38_reserve_partial`. -/
example : ∃ objs h abs b b' h', History little .debug bump noHeap objs h abs ∧ objs[0]? = some (.buf b) ∧ little.len b + 40 ≤ isizeMax ∧
    little.reserve .debug bump b 40 h = .ok b' h' ∧ little.capacity b h = .ok 3 h ∧ little.capacity b' h' = .ok 42 h' := by
  have s1 : History little .debug bump noHeap _ _ _ := .step (op := .makeVec [1, 2] 1) .start (by change _ ≤ _; decide) rfl
  have s2 := History.step (op := .fromVec 0) s1 ⟨_, rfl⟩ rfl
  exact ⟨_, _, _, _, _, _, s2, rfl, by decide, rfl, rfl, rfl⟩

end Bsn1
