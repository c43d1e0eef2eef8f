import Verif.Model.Access
import Verif.Spec.Buffer
/-!
# Threads that use buffers: what they may do, how their accesses interleave, and what they should have done in the end
-/

namespace Bsn1.Spec
open Bsn1.Buf

variable {I : Impl} {α β : Type}

/-! ### A thread, access by access -/

/-- A function of a buffer is called. -/
def onBufP (objs : List (Obj I)) (i : Nat) (f : I.B → Prog (Obj I)) : Prog (List (Obj I)) :=
  match objs[i]? with
  | some (.buf b) => do
    let o ← f b
    return objs.set i o
  | _ => .ub

/-- `Spec.step`, access by access. -/
def stepP (P : PImpl I.B) (m : Build) (objs : List (Obj I)) : BufOp → Prog (List (Obj I))
  | .new => pure (objs ++ [.buf P.new])
  | .withCapacity n => do
    let b ← P.withCapacity m n
    return objs ++ [.buf b]
  | .fromSlice vals => do
    let b ← P.fromSlice m vals
    return objs ++ [.buf b]
  | .makeVec vals spare => do
    let v ← Prog.mkVec vals spare
    return objs ++ [.vec v]
  | .fromVec i => match objs[i]? with
    | some (.vec v) => pure (objs.set i (.buf (P.fromVec v)))
    | _ => .ub
  | .push i v => onBufP objs i fun b => do return .buf (← P.push m b v)
  | .extend i vals => onBufP objs i fun b => do return .buf (← P.extend m b vals)
  | .write i vals => onBufP objs i fun b => do return .buf (← P.write m b vals)
  | .reserve i n => onBufP objs i fun b => do return .buf (← P.reserve m b n)
  | .setLen i n => onBufP objs i fun b => do return .buf (← P.setLenChecked m b n)
  | .poke i off vals => onBufP objs i fun b => do return .buf (← P.poke b off vals)
  | .setAt i k v => onBufP objs i fun b => do return .buf (← P.setAt b k v)
  | .clone i => match objs[i]? with
    | some (.buf b) => do
      let c ← P.clone m b
      return objs ++ [.buf c]
    | _ => .ub
  | .intoVec i => onBufP objs i fun b => do return .vec (← P.intoVec b)
  | .drop i => match objs[i]? with
    | some (.buf b) => do
      P.drop b
      return objs.set i .gone
    | some (.vec v) => do
      Prog.dropVec v
      return objs.set i .gone
    | _ => .ub

/-- What a thread does.  It has objects of its own, numbered as in `BufOp`, and references to shared ones, which it may only read;
what it does next may depend on all it has read. -/
inductive Code (β : Type) where
  /-- The end, with a result. -/
  | done (b : β)
  /-- Something with the objects of its own. -/
  | op (o : BufOp) (k : Code β)
  /-- `as_slice()` of a buffer of its own, read to the end (as comparing, hashing and parsing do). -/
  | read (i : Nat) (k : Bytes → Code β)
  /-- `as_slice()` of a shared buffer. -/
  | readShared (j : Nat) (k : Bytes → Code β)
  /-- `clone()` of a shared buffer; the clone belongs to the thread. -/
  | cloneShared (j : Nat) (k : Code β)

/-- A function that reads a buffer is called. -/
def readP (objs : List (Obj I)) (i : Nat) (f : I.B → Prog α) : Prog α :=
  match objs[i]? with
  | some (.buf b) => f b
  | _ => .ub

/-- A thread, access by access. -/
def Code.prog (P : PImpl I.B) (m : Build) (shared : List (Obj I)) : Code β → List (Obj I) → Prog (β × List (Obj I))
  | .done b, objs => pure (b, objs)
  | .op o k, objs => do
    let objs ← stepP P m objs o
    k.prog P m shared objs
  | .read i k, objs => do
    let v ← readP objs i P.read
    (k v).prog P m shared objs
  | .readShared j k, objs => do
    let v ← readP shared j P.read
    (k v).prog P m shared objs
  | .cloneShared j k, objs => do
    let c ← readP shared j (P.clone m)
    k.prog P m shared (objs ++ [.buf c])

/-! ### What it should do -/

/-- The octets of an ordinary vector. -/
def octetsAt (abs : List AObj) (i : Nat) : Bytes :=
  match abs[i]? with
  | some (.buf v) => v.contents.filterMap fun c => c
  | _ => []

/-- The thread, alone, with ordinary vectors. -/
def Code.ideal (shared : List AObj) : Code β → List AObj → β × List AObj
  | .done b, abs => (b, abs)
  | .op o k, abs => k.ideal shared (absStep abs o)
  | .read i k, abs => (k (octetsAt abs i)).ideal shared abs
  | .readShared j k, abs => (k (octetsAt shared j)).ideal shared abs
  | .cloneShared j k, abs => k.ideal shared (absStep abs (.fromSlice (octetsAt shared j)))

/-- There is such a buffer, and it is initialised. -/
def Readable (objs : List (Obj I)) (abs : List AObj) (i : Nat) : Prop :=
  ∃ b v, objs[i]? = some (.buf b) ∧ abs[i]? = some (.buf v) ∧ none ∉ v.contents

/-- The thread keeps the rules: that is, when it runs alone, in a memory with nothing but the blocks `own` of its own objects and
whatever the allocator answers, then everything that it does is `Allowed`, and it reads only what is initialised. -/
def Code.Rules (m : Build) (shObjs : List (Obj I)) (shared : List AObj) : Code β → List (Obj I) → Blocks → List AObj → Prop
  | .done _, _, _, _ => True
  | .op o k, objs, own, abs => ∀ clock, Allowed objs ⟨own, clock⟩ abs o ∧
      ∀ (al : Allocator) objs' h', al.Valid → step m al objs o ⟨own, clock⟩ = .ok objs' h' →
        k.Rules m shObjs shared objs' h'.blocks (absStep abs o)
  | .read i k, objs, own, abs => Readable objs abs i ∧ (k (octetsAt abs i)).Rules m shObjs shared objs own abs
  | .readShared j k, objs, own, abs => Readable shObjs shared j ∧ (k (octetsAt shared j)).Rules m shObjs shared objs own abs
  | .cloneShared j k, objs, own, abs => Readable shObjs shared j ∧ ∀ clock,
      ∀ (al : Allocator) objs' h', al.Valid → step m al objs (.fromSlice (octetsAt shared j)) ⟨own, clock⟩ = .ok objs' h' →
        k.Rules m shObjs shared objs' h'.blocks (absStep abs (.fromSlice (octetsAt shared j)))

/-- What is `Allowed` whatever the capacities are. -/
def Easy (abs : List AObj) : BufOp → Prop
  | .new => True
  | .withCapacity n => n ≤ isizeMax
  | .fromSlice vals => vals.length ≤ isizeMax
  | .makeVec vals spare => vals.length + spare ≤ isizeMax
  | .fromVec i => ∃ v, abs[i]? = some (.vec v)
  | .push _ _ => False
  | .extend _ _ => False
  | .write i vals => ∃ v, abs[i]? = some (.buf v) ∧ v.len + vals.length ≤ isizeMax
  | .reserve i n => ∃ v, abs[i]? = some (.buf v) ∧ v.len + n ≤ isizeMax
  | .setLen i n => ∃ v, abs[i]? = some (.buf v) ∧ n ≤ v.len
  | .poke i off vals => ∃ v, abs[i]? = some (.buf v) ∧ off + vals.length ≤ v.len
  | .setAt i k _ => ∃ v, abs[i]? = some (.buf v) ∧ k < v.len
  | .clone i => ∃ v, abs[i]? = some (.buf v) ∧ none ∉ v.contents
  | .intoVec i => ∃ v, abs[i]? = some (.buf v)
  | .drop i => ∃ o, abs[i]? = some o ∧ o ≠ .gone

/-- Rules that can be checked with ordinary vectors. -/
def Code.Easy (shared : List AObj) : Code β → List AObj → Prop
  | .done _, _ => True
  | .op o k, abs => Spec.Easy abs o ∧ k.Easy shared (absStep abs o)
  | .read i k, abs => (∃ v, abs[i]? = some (.buf v) ∧ none ∉ v.contents) ∧ (k (octetsAt abs i)).Easy shared abs
  | .readShared j k, abs => (∃ v, shared[j]? = some (.buf v) ∧ none ∉ v.contents) ∧ (k (octetsAt shared j)).Easy shared abs
  | .cloneShared j k, abs => (∃ v, shared[j]? = some (.buf v) ∧ none ∉ v.contents) ∧
      k.Easy shared (absStep abs (.fromSlice (octetsAt shared j)))

/-! ### Interleaving -/

/-- The next access is made.  (One that is against the rules is undefined behaviour.) -/
def access (al : Allocator) : Prog α → Heap → Prog α × Heap
  | .alloc n k, h => match alloc al n h with
    | .ok a h' => (k a, h')
    | _ => (.ub, h)
  | .dealloc p n k, h => match dealloc p n h with
    | .ok _ h' => (k, h')
    | _ => (.ub, h)
  | .realloc p n n' k, h => match realloc al p n n' h with
    | .ok a h' => (k a, h')
    | _ => (.ub, h)
  | .load p o n k, h => match load p o n h with
    | .ok c h' => (k c, h')
    | _ => (.ub, h)
  | .store p o v k, h => match store p o v h with
    | .ok _ h' => (k, h')
    | _ => (.ub, h)
  | p, h => (p, h)

/-- It is the turn of thread `t`. -/
def turn (al : Allocator) (t : Nat) (s : List (Prog α) × Heap) : List (Prog α) × Heap :=
  match s.1[t]? with
  | none => s
  | some p => (s.1.set t (access al p s.2).1, (access al p s.2).2)

/-- The threads take turns as scheduled. -/
def turns (al : Allocator) (schedule : List Nat) (s : List (Prog α) × Heap) : List (Prog α) × Heap :=
  schedule.foldl (fun s t => turn al t s) s

/-- The block that the next access goes to, and whether the access is a write (or frees the block). -/
def nextAccess : Prog α → Option (Nat × Bool)
  | .dealloc p _ _ => some (p, true)
  | .realloc p _ _ _ => some (p, true)
  | .load p _ _ _ => some (p, false)
  | .store p _ _ _ => some (p, true)
  | _ => none

/-- A data race: two threads are about to access the same block, and one of them writes. -/
def Race (ps : List (Prog α)) : Prop :=
  ∃ (t u : Nat) (p q : Prog α) (b : Nat) (w w' : Bool), t ≠ u ∧ ps[t]? = some p ∧ ps[u]? = some q ∧ nextAccess p = some (b, w) ∧ nextAccess q = some (b, w') ∧
    (w = true ∨ w' = true)

/-! ### Fork and join -/

/-- The objects that `who` gives to `t` (to nobody in particular: these are shared), the others being `gone`. -/
def give (who : Nat → Option Nat) (t : Option Nat) (gone : α) (objs : List α) : List α :=
  objs.mapIdx fun i o => if who i = t then o else gone

/-- The blocks of the objects. -/
def blocksOf (ow : I.B → Option Nat) (objs : List (Obj I)) (h : Heap) : Blocks :=
  fun q => if (objs.any fun o => o.owner ow == some q) then h.blocks q else none

/-- The threads at the beginning. -/
def fork (P : PImpl I.B) (m : Build) (who : Nat → Option Nat) (codes : List (Code β)) (objs : List (Obj I)) :
    List (Prog (β × List (Obj I))) :=
  codes.mapIdx fun t c => c.prog P m (give who none .gone objs) (give who (some t) .gone objs)

/-- Every object is shared or given to one of the threads, and each thread keeps the rules. -/
def KeepRules (ow : I.B → Option Nat) (m : Build) (who : Nat → Option Nat) (codes : List (Code β)) (objs : List (Obj I)) (h : Heap)
    (abs : List AObj) : Prop :=
  (∀ i t, who i = some t → t < codes.length) ∧
  ∀ (t : Nat) (c : Code β), codes[t]? = some c → c.Rules m (give who none .gone objs) (give who none .gone abs) (give who (some t) .gone objs)
    (blocksOf ow (give who (some t) .gone objs) h) (give who (some t) .gone abs)

/-- What thread `t` should have got to. -/
def idealOf (who : Nat → Option Nat) (abs : List AObj) (t : Nat) (c : Code β) : β × List AObj :=
  c.ideal (give who none .gone abs) (give who (some t) .gone abs)

/-- What programs get to that do one thing after the other, and sometimes give their objects to threads, wait until all of these have
finished, and take back what they have. -/
inductive Forked (I : Impl) (P : PImpl I.B) (ow : I.B → Option Nat) (m : Build) (al : Allocator) (h0 : Heap) :
    List (Obj I) → Heap → List AObj → Prop
  | start : Forked I P ow m al h0 [] h0 []
  | step {objs h abs op objs' h'} : Forked I P ow m al h0 objs h abs → Allowed objs h abs op → Spec.step m al objs op h = .ok objs' h' →
      Forked I P ow m al h0 objs' h' (absStep abs op)
  | join {objs h abs h'} {β : Type} {codes : List (Code β)} {who schedule} {results : List (β × List (Obj I))} :
      Forked I P ow m al h0 objs h abs → KeepRules ow m who codes objs h abs →
      turns al schedule (fork P m who codes objs, h) = (results.map .ret, h') →
      Forked I P ow m al h0 (give who none .gone objs ++ (results.map (·.2)).flatten) h'
        (give who none .gone abs ++ (codes.mapIdx fun t c => (idealOf who abs t c).2).flatten)

end Bsn1.Spec
