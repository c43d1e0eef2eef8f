import Verif.Model.Access
import Verif.Lemmas.Buffer
/-!
# Functions as trees of accesses: run undisturbed they are the functions of `Model/Buffer`
-/

namespace Bsn1.Buf

namespace Prog

variable {α β : Type}

/-- All accesses one after the other, nothing in between. -/
def run (al : Allocator) : Prog α → M α
  | .ret a => fun h => .ok a h
  | .panic => M.panic
  | .abort => M.abort
  | .ub => M.ub
  | .alloc n k => fun h => match Buf.alloc al n h with
    | .ok a h' => (k a).run al h'
    | _ => .ub
  | .dealloc p n k => fun h => match Buf.dealloc p n h with
    | .ok _ h' => k.run al h'
    | _ => .ub
  | .realloc p n n' k => fun h => match Buf.realloc al p n n' h with
    | .ok a h' => (k a).run al h'
    | _ => .ub
  | .load p o n k => fun h => match Buf.load p o n h with
    | .ok c h' => (k c).run al h'
    | _ => .ub
  | .store p o v k => fun h => match Buf.store p o v h with
    | .ok _ h' => k.run al h'
    | _ => .ub

theorem run_seq (al : Allocator) (p : Prog α) (f : α → Prog β) : (p.seq f).run al = p.run al >>= fun a => (f a).run al := by
  induction p with
  | ret a => rfl
  | panic => rfl
  | abort => rfl
  | ub => rfl
  | alloc n k ih =>
    funext h
    simp only [seq, run, bind]
    cases Buf.alloc al n h <;> simp [ih, bind]
  | dealloc p n k ih =>
    funext h
    simp only [seq, run, bind]
    cases Buf.dealloc p n h <;> simp [ih, bind]
  | realloc p n n' k ih =>
    funext h
    simp only [seq, run, bind]
    cases Buf.realloc al p n n' h <;> simp [ih, bind]
  | load p o n k ih =>
    funext h
    simp only [seq, run, bind]
    cases Buf.load p o n h <;> simp [ih, bind]
  | store p o v k ih =>
    funext h
    simp only [seq, run, bind]
    cases Buf.store p o v h <;> simp [ih, bind]

theorem run_bind (al : Allocator) (p : Prog α) (f : α → Prog β) : (p >>= f).run al = p.run al >>= fun a => (f a).run al := run_seq al p f

theorem run_pure (al : Allocator) (a : α) : (pure a : Prog α).run al = pure a := rfl

theorem run_ite (al : Allocator) (c : Prop) [Decidable c] (p q : Prog α) :
    (if c then p else q).run al = if c then p.run al else q.run al := by split <;> rfl

theorem run_panic (al : Allocator) : (.panic : Prog α).run al = M.panic := rfl
theorem run_abort (al : Allocator) : (.abort : Prog α).run al = M.abort := rfl
theorem run_ub (al : Allocator) : (.ub : Prog α).run al = M.ub := rfl

theorem alloc_fails (al : Allocator) (n : Nat) (h : Heap) : (∃ a h', Buf.alloc al n h = .ok a h') ∨ Buf.alloc al n h = .ub := by
  unfold Buf.alloc
  split
  · exact .inr rfl
  · split <;> exact .inl ⟨_, _, rfl⟩

theorem realloc_fails (al : Allocator) (p n n' : Nat) (h : Heap) :
    (∃ a h', Buf.realloc al p n n' h = .ok a h') ∨ Buf.realloc al p n n' h = .ub := by
  unfold Buf.realloc
  split
  · exact .inr rfl
  · split
    · split <;> exact .inl ⟨_, _, rfl⟩
    · exact .inr rfl

theorem dealloc_fails (p n : Nat) (h : Heap) : (∃ a h', Buf.dealloc p n h = .ok a h') ∨ Buf.dealloc p n h = .ub := by
  unfold Buf.dealloc
  split
  · exact .inr rfl
  · split
    · exact .inl ⟨_, _, rfl⟩
    · exact .inr rfl

theorem load_fails (p o n : Nat) (h : Heap) : (∃ a, Buf.load p o n h = .ok a h) ∨ Buf.load p o n h = .ub := by
  unfold Buf.load
  split
  · exact .inr rfl
  · split
    · exact .inl ⟨_, rfl⟩
    · exact .inr rfl

theorem store_fails (p o : Nat) (v : List Cell) (h : Heap) : (∃ a h', Buf.store p o v h = .ok a h') ∨ Buf.store p o v h = .ub := by
  unfold Buf.store
  split
  · exact .inr rfl
  · split
    · exact .inl ⟨_, _, rfl⟩
    · exact .inr rfl

theorem run_alloc (al : Allocator) (n : Nat) (k : Nat → Prog α) : (Prog.alloc n k).run al = Buf.alloc al n >>= fun a => (k a).run al := by
  funext h
  simp only [run, bind]
  rcases alloc_fails al n h with ⟨a, h', e⟩ | e <;> rw [e]

theorem run_realloc (al : Allocator) (p n n' : Nat) (k : Nat → Prog α) :
    (Prog.realloc p n n' k).run al = Buf.realloc al p n n' >>= fun a => (k a).run al := by
  funext h
  simp only [run, bind]
  rcases realloc_fails al p n n' h with ⟨a, h', e⟩ | e <;> rw [e]

theorem run_dealloc (al : Allocator) (p n : Nat) (k : Prog α) : (Prog.dealloc p n k).run al = Buf.dealloc p n >>= fun _ => k.run al := by
  funext h
  simp only [run, bind]
  rcases dealloc_fails p n h with ⟨a, h', e⟩ | e <;> rw [e]

theorem run_load (al : Allocator) (p o n : Nat) (k : List Cell → Prog α) :
    (Prog.load p o n k).run al = Buf.load p o n >>= fun a => (k a).run al := by
  funext h
  simp only [run, bind]
  rcases load_fails p o n h with ⟨a, e⟩ | e <;> rw [e]

theorem run_store (al : Allocator) (p o : Nat) (v : List Cell) (k : Prog α) :
    (Prog.store p o v k).run al = Buf.store p o v >>= fun _ => k.run al := by
  funext h
  simp only [run, bind]
  rcases store_fails p o v h with ⟨a, h', e⟩ | e <;> rw [e]

theorem run_layoutArray (al : Allocator) (n : Nat) : (layoutArray n).run al = Buf.layoutArray n := by
  unfold layoutArray Buf.layoutArray
  split <;> rfl

theorem run_debugAssert (al : Allocator) (m : Build) (c : Prop) [Decidable c] : (debugAssert m c).run al = Buf.debugAssert m c := by
  cases m
  · unfold debugAssert Buf.debugAssert
    dsimp only
    split <;> rfl
  · rfl

theorem run_usizeAdd (al : Allocator) (m : Build) (a b : Nat) : (usizeAdd m a b).run al = Buf.usizeAdd m a b := by
  unfold usizeAdd Buf.usizeAdd
  split
  · rfl
  · cases m <;> rfl

theorem run_assumeInit (al : Allocator) (c : List Cell) : (assumeInit c).run al = Buf.assumeInit c := by
  unfold assumeInit Buf.assumeInit
  split <;> rfl

theorem M_bind_pure (x : M α) : (x >>= fun a => pure a) = x := by
  funext h
  simp only [bind, pure]
  cases x h <;> rfl

theorem M_bind_unit (x : M Unit) : (x >>= fun _ => pure ()) = x := M_bind_pure x

theorem run_mkVec (al : Allocator) (vals : Bytes) (spare : Nat) : (mkVec vals spare).run al = Buf.mkVec al vals spare := by
  unfold mkVec Buf.mkVec
  simp only [run_ite, run_alloc, run_store, run_pure, run_abort, run_panic]

theorem run_dropVec (al : Allocator) (v : RVec) : (dropVec v).run al = Buf.dropVec v := by
  unfold dropVec Buf.dropVec
  simp only [run_ite, run_dealloc, run_pure, M_bind_unit]

end Prog

open Prog

macro "erase" : tactic => `(tactic| simp only [run_bind, run_ite, run_alloc, run_dealloc, run_realloc, run_load, run_store, run_pure, run_abort, run_panic,
  run_ub, run_layoutArray, run_debugAssert, run_usizeAdd, run_assumeInit, run_mkVec, run_dropVec, M_bind_unit, M_bind_pure])

namespace LE

theorem run_pokeP (al : Allocator) (b : LE) (off : Nat) (vals : Bytes) : (b.pokeP off vals).run al = b.poke off vals := by
  unfold pokeP poke; erase

theorem run_cellsP (al : Allocator) (b : LE) : b.cellsP.run al = b.cells := by
  unfold cellsP cells peek; erase

theorem run_reserveP (al : Allocator) (m : Build) (b : LE) (n : Nat) : (reserveP m b n).run al = reserve m al b n := by
  unfold reserveP reserve; erase
  simp only [run_cellsP]; rfl

theorem run_withCapacityP (al : Allocator) (m : Build) (n : Nat) : (withCapacityP m n).run al = withCapacity m al n := run_reserveP al m _ n

theorem run_setAtP (al : Allocator) (b : LE) (i : Nat) (v : UInt8) : (b.setAtP i v).run al = b.setAt i v := by
  unfold setAtP setAt; erase; simp only [run_pokeP]

theorem run_pushP (al : Allocator) (m : Build) (b : LE) (v : UInt8) : (b.pushP m v).run al = b.push m v := by
  unfold pushP push; erase; simp only [run_setAtP]

theorem run_extendP (al : Allocator) (b : LE) (vals : Bytes) : (b.extendP vals).run al = b.extend vals := by
  unfold extendP extend; erase; simp only [run_pokeP]

theorem run_cloneP (al : Allocator) (m : Build) (b : LE) : (b.cloneP m).run al = b.clone m al := by
  unfold cloneP clone; erase; simp only [run_withCapacityP, run_cellsP, run_extendP]

theorem run_intoVecP (al : Allocator) (b : LE) : b.intoVecP.run al = b.intoVec al := by
  unfold intoVecP intoVec; erase; simp only [run_cellsP]

theorem run_dropP (al : Allocator) (b : LE) : b.dropP.run al = b.drop := by
  unfold dropP drop; erase

end LE

namespace UE

theorem run_heapFieldP (al : Allocator) (b : UE) : b.heapFieldP.run al = b.heapField := by
  unfold heapFieldP heapField; cases b.buffer_ <;> rfl

theorem run_stackFieldP (al : Allocator) (b : UE) : b.stackFieldP.run al = b.stackField := by
  unfold stackFieldP stackField; cases b.buffer_ <;> rfl

theorem run_capacityP (al : Allocator) (b : UE) : b.capacityP.run al = b.capacity := by
  unfold capacityP capacity; erase; simp only [run_heapFieldP]

theorem run_pokeP (al : Allocator) (b : UE) (off : Nat) (vals : Bytes) : (b.pokeP off vals).run al = b.poke off vals := by
  unfold pokeP poke; erase; simp only [run_heapFieldP, run_stackFieldP]

theorem run_cellsP (al : Allocator) (b : UE) : b.cellsP.run al = b.cells := by
  unfold cellsP cells peek; erase; simp only [run_heapFieldP, run_stackFieldP]

theorem run_heapNewP (al : Allocator) (m : Build) (n : Nat) : (heapNewP m n).run al = heapNew m al n := by
  unfold heapNewP heapNew; erase

theorem run_heapReallocP (al : Allocator) (h : Nat × Nat) (n : Nat) : (heapReallocP h n).run al = heapRealloc al h n := by
  unfold heapReallocP heapRealloc; erase

theorem run_withCapacityP (al : Allocator) (m : Build) (n : Nat) : (withCapacityP m n).run al = withCapacity m al n := by
  unfold withCapacityP withCapacity; erase; simp only [run_heapNewP]

theorem run_setLenP (al : Allocator) (m : Build) (b : UE) (n : Nat) : (b.setLenP m n).run al = b.setLen m n := by
  unfold setLenP setLen; erase; simp only [run_capacityP]

theorem run_reserveP (al : Allocator) (m : Build) (b : UE) (n : Nat) : (reserveP m b n).run al = reserve m al b n := by
  unfold reserveP reserve; erase
  simp only [run_cellsP, run_capacityP, run_heapNewP, run_heapReallocP, run_heapFieldP]; rfl

theorem run_setAtP (al : Allocator) (b : UE) (i : Nat) (v : UInt8) : (b.setAtP i v).run al = b.setAt i v := by
  unfold setAtP setAt; erase; simp only [run_pokeP]

theorem run_pushP (al : Allocator) (m : Build) (b : UE) (v : UInt8) : (b.pushP m v).run al = b.push m v := by
  unfold pushP push; erase; simp only [run_setAtP, run_capacityP, run_setLenP]

theorem run_extendP (al : Allocator) (m : Build) (b : UE) (vals : Bytes) : (b.extendP m vals).run al = b.extend m vals := by
  unfold extendP extend; erase; simp only [run_pokeP, run_setLenP]

theorem run_cloneP (al : Allocator) (m : Build) (b : UE) : (b.cloneP m).run al = b.clone m al := by
  unfold cloneP clone; erase; simp only [run_withCapacityP, run_cellsP, run_extendP]

theorem run_intoVecP (al : Allocator) (b : UE) : b.intoVecP.run al = b.intoVec al := by
  unfold intoVecP intoVec; erase; simp only [run_cellsP, run_heapFieldP]

theorem run_dropP (al : Allocator) (b : UE) : b.dropP.run al = b.drop := by
  unfold dropP drop; erase; simp only [run_heapFieldP]

end UE

/-- The functions of a layout, access by access, are those of the layout. -/
structure Erases {I : Impl} (P : PImpl I.B) : Prop where
  new : P.new = I.new
  withCapacity : ∀ m n al, (P.withCapacity m n).run al = I.withCapacity m al n
  fromVec : ∀ v, P.fromVec v = I.fromVec v
  push : ∀ m b v al, (P.push m b v).run al = I.push m b v
  extend : ∀ m b v al, (P.extend m b v).run al = I.extend m b v
  capacity : ∀ b al, (P.capacity b).run al = I.capacity b
  reserve : ∀ m b n al, (P.reserve m b n).run al = I.reserve m al b n
  setLen : ∀ m b n al, (P.setLen m b n).run al = I.setLen m b n
  cells : ∀ b al, (P.cells b).run al = I.cells b
  poke : ∀ b o v al, (P.poke b o v).run al = I.poke b o v
  setAt : ∀ b i v al, (P.setAt b i v).run al = I.setAt b i v
  clone : ∀ m b al, (P.clone m b).run al = I.clone m al b
  intoVec : ∀ b al, (P.intoVec b).run al = I.intoVec al b
  drop : ∀ b al, (P.drop b).run al = I.drop b

theorem little_erases : Erases (I := little) littleP where
  new := rfl
  withCapacity m n al := LE.run_withCapacityP al m n
  fromVec _ := rfl
  push m b v al := LE.run_pushP al m b v
  extend _ b v al := LE.run_extendP al b v
  capacity _ _ := rfl
  reserve m b n al := LE.run_reserveP al m b n
  setLen _ _ _ _ := rfl
  cells b al := LE.run_cellsP al b
  poke b o v al := LE.run_pokeP al b o v
  setAt b i v al := LE.run_setAtP al b i v
  clone m b al := LE.run_cloneP al m b
  intoVec b al := LE.run_intoVecP al b
  drop b al := LE.run_dropP al b

theorem universal_erases : Erases (I := universal) universalP where
  new := rfl
  withCapacity m n al := UE.run_withCapacityP al m n
  fromVec _ := rfl
  push m b v al := UE.run_pushP al m b v
  extend m b v al := UE.run_extendP al m b v
  capacity b al := UE.run_capacityP al b
  reserve m b n al := UE.run_reserveP al m b n
  setLen m b n al := UE.run_setLenP al m b n
  cells b al := UE.run_cellsP al b
  poke b o v al := UE.run_pokeP al b o v
  setAt b i v al := UE.run_setAtP al b i v
  clone m b al := UE.run_cloneP al m b
  intoVec b al := UE.run_intoVecP al b
  drop b al := UE.run_dropP al b

variable {I : Impl} {P : PImpl I.B}

theorem Erases.setLenChecked (he : Erases P) (m : Build) (b : I.B) (n : Nat) (al : Allocator) :
    (P.setLenChecked m b n).run al = I.setLenChecked m b n := by
  unfold PImpl.setLenChecked Impl.setLenChecked; erase; simp only [he.capacity, he.setLen]

theorem Erases.fromSlice (he : Erases P) (m : Build) (v : Bytes) (al : Allocator) : (P.fromSlice m v).run al = I.fromSlice m al v := by
  unfold PImpl.fromSlice Impl.fromSlice; erase; simp only [he.withCapacity, he.extend]

theorem Erases.write (he : Erases P) (m : Build) (b : I.B) (v : Bytes) (al : Allocator) : (P.write m b v).run al = I.write m al b v := by
  unfold PImpl.write Impl.write; erase; simp only [he.reserve, he.extend]

end Bsn1.Buf
