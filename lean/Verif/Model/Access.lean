import Verif.Model.Buffer
/-!
# `Buffer` access by access: bsn1/src/buffer

`Model/Buffer` gives each function as a whole.  `unsafe impl Send` and `unsafe impl Sync` (bsn1/src/buffer/little_endian/mod.rs:34-35,
bsn1/src/buffer/universal_endian/mod.rs:133-134) are about functions that run in several threads at the same time, whose accesses to memory come
in any order.  Here a function is the tree of its accesses, so that other threads can come in between.  The functions are the same, statement by
statement; `Verif/Lemmas/Access` shows that one that runs undisturbed is the function of `Model/Buffer`.
-/

namespace Bsn1.Buf

/-- A function as the tree of its accesses to memory: each is followed by what depends on its result.
For the functions of bsn1/src/buffer/little_endian/mod.rs:37-206 and bsn1/src/buffer/universal_endian/mod.rs:26-300.  Simplified: an access to several octets
is one access, and the struct itself, which no `&self` function changes, is a value and not memory. -/
inductive Prog (α : Type) where
  | ret (a : α)
  | panic
  | abort
  | ub
  | alloc (size : Nat) (k : Nat → Prog α)
  | dealloc (p size : Nat) (k : Prog α)
  | realloc (p size newSize : Nat) (k : Nat → Prog α)
  | load (p off n : Nat) (k : List Cell → Prog α)
  | store (p off : Nat) (vals : List Cell) (k : Prog α)

namespace Prog

/-- One after the other, as the statements of bsn1/src/buffer/little_endian/mod.rs:37-206. -/
def seq {α β : Type} : Prog α → (α → Prog β) → Prog β
  | .ret a, f => f a
  | .panic, _ => .panic
  | .abort, _ => .abort
  | .ub, _ => .ub
  | .alloc n k, f => .alloc n fun a => (k a).seq f
  | .dealloc p n k, f => .dealloc p n (k.seq f)
  | .realloc p n n' k, f => .realloc p n n' fun a => (k a).seq f
  | .load p o n k, f => .load p o n fun c => (k c).seq f
  | .store p o v k, f => .store p o v (k.seq f)

/-- Statements in sequence, as everywhere in bsn1/src/buffer/little_endian/mod.rs:37-206. -/
instance : Monad Prog where
  pure := .ret
  bind := .seq

/-- `Layout::array::<u8>(n).unwrap()`.  bsn1/src/buffer/little_endian/mod.rs:133, 146, 149 and bsn1/src/buffer/universal_endian/mod.rs:39, 65, 69. -/
def layoutArray (n : Nat) : Prog Unit := if n ≤ isizeMax then pure () else .panic

/-- `debug_assert!(c)`.  bsn1/src/buffer/little_endian/mod.rs:95, bsn1/src/buffer/universal_endian/mod.rs:37, 205, 262 and bsn1/src/buffer/mod.rs:103. -/
def debugAssert (m : Build) (c : Prop) [Decidable c] : Prog Unit :=
  match m with
  | .debug => if c then pure () else .panic
  | .release => pure ()

/-- `a + b` of `usize`.  E.g. bsn1/src/buffer/little_endian/mod.rs:126. -/
def usizeAdd (m : Build) (a b : Nat) : Prog Nat :=
  if a + b < usizeSize then pure (a + b)
  else match m with
    | .debug => .panic
    | .release => pure ((a + b) % usizeSize)

/-- Reading octets.  Done with the slices of bsn1/src/buffer/little_endian/mod.rs:188 and 192. -/
def assumeInit (cells : List Cell) : Prog Bytes := if cells.all Option.isSome then pure (cells.filterMap (·)) else .ub

/-- A new `Vec`, as in `Buf.mkVec`.  `Vec::from` of bsn1/src/buffer/little_endian/mod.rs:197; not in /repo. -/
def mkVec (vals : Bytes) (spare : Nat) : Prog RVec :=
  let cap := vals.length + spare
  if cap = 0 then pure ⟨1, 0, 0⟩
  else if isizeMax < cap then .panic
  else .alloc cap fun p => if p = 0 then .abort else .store p 0 (vals.map some) (pure ⟨p, cap, vals.length⟩)

/-- Dropping a `Vec`.  For a `Vec` that bsn1/src/buffer/little_endian/mod.rs:195-205 returned; not in /repo. -/
def dropVec (v : RVec) : Prog Unit := if v.cap = 0 then pure () else .dealloc v.ptr v.cap (pure ())

end Prog

/-! ### bsn1/src/buffer/little_endian/mod.rs -/

namespace LE

/-- Writing through `as_mut_ptr` (bsn1/src/buffer/little_endian/mod.rs:169-181) at an offset. -/
def pokeP (b : LE) (off : Nat) (vals : Bytes) : Prog LE :=
  if b.isStack then
    if off + vals.length ≤ INIT_CAPACITY then
      pure ⟨b.bytes.take off ++ vals ++ b.bytes.drop (off + vals.length)⟩
    else .ub
  else .store b.data_ off (vals.map some) (pure b)

/-- `as_slice`, bsn1/src/buffer/little_endian/mod.rs:187-189, as cells. -/
def cellsP (b : LE) : Prog (List Cell) :=
  if b.isStack then
    if b.len ≤ INIT_CAPACITY then pure ((b.bytes.take b.len).map some) else .ub
  else .load b.data_ 0 b.len pure

/-- `reserve`, bsn1/src/buffer/little_endian/mod.rs:125-157. -/
def reserveP (m : Build) (b : LE) (additional : Nat) : Prog LE := do
  let newCap ← Prog.usizeAdd m b.len additional
  if newCap ≤ b.capacity then return b
  else if b.isStack then do
    Prog.layoutArray newCap
    .alloc newCap fun ptr =>
      if ptr = 0 then .abort
      else do
        let c ← b.cellsP
        .store ptr 0 c (
          let b := b.setWord 0 ptr
          let b := b.setWord 8 newCap
          pure (b.setWord 16 (b.len ||| HEAP_FLAG)))
  else do
    Prog.layoutArray b.capacity
    .realloc b.data_ b.capacity newCap fun ptr =>
      if ptr = 0 then do
        Prog.layoutArray newCap
        .abort
      else
        let b := b.setWord 0 ptr
        pure (b.setWord 8 newCap)

/-- `with_capacity`, bsn1/src/buffer/little_endian/mod.rs:67-71. -/
def withCapacityP (m : Build) (cap : Nat) : Prog LE := reserveP m new cap

/-- `as_mut_slice()[i] = v`, bsn1/src/buffer/little_endian/mod.rs:191-193. -/
def setAtP (b : LE) (i : Nat) (v : UInt8) : Prog LE := if i < b.len then b.pokeP i [v] else .panic

/-- `push`, bsn1/src/buffer/little_endian/mod.rs:92-98. -/
def pushP (m : Build) (b : LE) (v : UInt8) : Prog LE := do
  let oldLen := b.len
  Prog.debugAssert m (oldLen < b.capacity)
  let b := b.setLen (oldLen + 1)
  b.setAtP oldLen v

/-- `extend_from_slice`, bsn1/src/buffer/little_endian/mod.rs:103-107. -/
def extendP (b : LE) (vals : Bytes) : Prog LE := do
  let b ← b.pokeP b.len vals
  return b.setLen (b.len + vals.length)

/-- `clone`, bsn1/src/buffer/little_endian/mod.rs:50-56. -/
def cloneP (m : Build) (b : LE) : Prog LE := do
  let ret ← withCapacityP m b.len
  let c ← b.cellsP
  let vals ← Prog.assumeInit c
  ret.extendP vals

/-- `into_vec`, bsn1/src/buffer/little_endian/mod.rs:195-205. -/
def intoVecP (b : LE) : Prog RVec :=
  if b.isStack then do
    let c ← b.cellsP
    let vals ← Prog.assumeInit c
    Prog.mkVec vals 0
  else pure { ptr := b.data_, len := b.len, cap := b.cap_ }

/-- `drop`, bsn1/src/buffer/little_endian/mod.rs:37-48. -/
def dropP (b : LE) : Prog Unit := if b.isStack then pure () else .dealloc b.data_ b.cap_ (pure ())

end LE

/-! ### bsn1/src/buffer/universal_endian/mod.rs -/

namespace UE

/-- Access to the field `heap`.  bsn1/src/buffer/universal_endian/mod.rs:115. -/
def heapFieldP (b : UE) : Prog (Nat × Nat) :=
  match b.buffer_ with
  | .heap d c => pure (d, c)
  | .stack _ => .ub

/-- Access to the field `stack`.  bsn1/src/buffer/universal_endian/mod.rs:114. -/
def stackFieldP (b : UE) : Prog Bytes :=
  match b.buffer_ with
  | .stack d => pure d
  | .heap _ _ => .ub

/-- `capacity`, bsn1/src/buffer/universal_endian/mod.rs:223-229. -/
def capacityP (b : UE) : Prog Nat :=
  if b.isStack then pure INIT_CAPACITY
  else do
    let h ← b.heapFieldP
    return h.2

/-- Writing through `as_mut_ptr` (bsn1/src/buffer/universal_endian/mod.rs:267-275) at an offset. -/
def pokeP (b : UE) (off : Nat) (vals : Bytes) : Prog UE :=
  if b.isStack then do
    let d ← b.stackFieldP
    if off + vals.length ≤ d.length then return ⟨b.len_, .stack (d.take off ++ vals ++ d.drop (off + vals.length))⟩
    else .ub
  else do
    let h ← b.heapFieldP
    .store h.1 off (vals.map some) (pure b)

/-- `as_slice`, bsn1/src/buffer/universal_endian/mod.rs:293-295, as cells. -/
def cellsP (b : UE) : Prog (List Cell) :=
  if b.isStack then do
    let d ← b.stackFieldP
    if b.len ≤ d.length then return (d.take b.len).map some else .ub
  else do
    let h ← b.heapFieldP
    .load h.1 0 b.len pure

/-- `HeapBuffer::new`, bsn1/src/buffer/universal_endian/mod.rs:36-51. -/
def heapNewP (m : Build) (capacity : Nat) : Prog (Nat × Nat) := do
  Prog.debugAssert m (0 < capacity)
  Prog.layoutArray capacity
  .alloc capacity fun data => if data = 0 then .abort else pure (data, capacity)

/-- `HeapBuffer::realloc`, bsn1/src/buffer/universal_endian/mod.rs:64-76. -/
def heapReallocP (h : Nat × Nat) (newCapacity : Nat) : Prog (Nat × Nat) := do
  Prog.layoutArray h.2
  .realloc h.1 h.2 newCapacity fun data =>
    if data = 0 then do
      Prog.layoutArray newCapacity
      .abort
    else pure (data, newCapacity)

/-- `with_capacity`, bsn1/src/buffer/universal_endian/mod.rs:168-179. -/
def withCapacityP (m : Build) (capacity : Nat) : Prog UE :=
  if capacity ≤ INIT_CAPACITY then pure new
  else do
    let h ← heapNewP m capacity
    return ⟨0 ||| HEAP_FLAG, .heap h.1 h.2⟩

/-- `set_len`, bsn1/src/buffer/universal_endian/mod.rs:261-265. -/
def setLenP (m : Build) (b : UE) (newLen : Nat) : Prog UE := do
  let cap ← b.capacityP
  Prog.debugAssert m (newLen ≤ cap)
  return ⟨(b.len_ &&& HEAP_FLAG) ||| newLen, b.buffer_⟩

/-- `reserve`, bsn1/src/buffer/universal_endian/mod.rs:241-259. -/
def reserveP (m : Build) (b : UE) (additional : Nat) : Prog UE := do
  let newCap ← Prog.usizeAdd m b.len additional
  let cap ← b.capacityP
  if newCap ≤ cap then return b
  else if b.isStack then do
    let heap ← heapNewP m newCap
    let c ← b.cellsP
    .store heap.1 0 c (pure ⟨b.len_ ||| HEAP_FLAG, .heap heap.1 heap.2⟩)
  else do
    let h ← b.heapFieldP
    let h ← heapReallocP h newCap
    return ⟨b.len_, .heap h.1 h.2⟩

/-- `as_mut_slice()[i] = v`, bsn1/src/buffer/universal_endian/mod.rs:297-299. -/
def setAtP (b : UE) (i : Nat) (v : UInt8) : Prog UE := if i < b.len then b.pokeP i [v] else .panic

/-- `push`, bsn1/src/buffer/universal_endian/mod.rs:202-208. -/
def pushP (m : Build) (b : UE) (v : UInt8) : Prog UE := do
  let oldLen := b.len
  let cap ← b.capacityP
  Prog.debugAssert m (oldLen < cap)
  let b ← b.setLenP m (oldLen + 1)
  b.setAtP oldLen v

/-- `extend_from_slice`, bsn1/src/buffer/universal_endian/mod.rs:213-217. -/
def extendP (m : Build) (b : UE) (vals : Bytes) : Prog UE := do
  let b ← b.pokeP b.len vals
  b.setLenP m (b.len + vals.length)

/-- `clone`, bsn1/src/buffer/universal_endian/mod.rs:150-156. -/
def cloneP (m : Build) (b : UE) : Prog UE := do
  let ret ← withCapacityP m b.len
  let c ← b.cellsP
  let vals ← Prog.assumeInit c
  ret.extendP m vals

/-- `into_vec`, bsn1/src/buffer/universal_endian/mod.rs:281-291. -/
def intoVecP (b : UE) : Prog RVec :=
  if b.isStack then do
    let c ← b.cellsP
    let vals ← Prog.assumeInit c
    Prog.mkVec vals 0
  else do
    let h ← b.heapFieldP
    return { ptr := h.1, len := b.len, cap := h.2 }

/-- `drop`, bsn1/src/buffer/universal_endian/mod.rs:136-148, with that of `HeapBuffer`, 26-33. -/
def dropP (b : UE) : Prog Unit :=
  if b.isStack then pure ()
  else do
    let h ← b.heapFieldP
    .dealloc h.1 h.2 (pure ())

end UE

/-! ### bsn1/src/buffer/mod.rs -/

/-- The functions of `endian::Buffer` that bsn1/src/buffer/mod.rs calls, access by access. -/
structure PImpl (B : Type) where
  new : B
  withCapacity : Build → Nat → Prog B
  fromVec : RVec → B
  push : Build → B → UInt8 → Prog B
  extend : Build → B → Bytes → Prog B
  capacity : B → Prog Nat
  reserve : Build → B → Nat → Prog B
  setLen : Build → B → Nat → Prog B
  cells : B → Prog (List Cell)
  poke : B → Nat → Bytes → Prog B
  setAt : B → Nat → UInt8 → Prog B
  clone : Build → B → Prog B
  intoVec : B → Prog RVec
  drop : B → Prog Unit

/-- `little_endian`, bsn1/src/buffer/mod.rs:17-20. -/
def littleP : PImpl LE where
  new := LE.new
  withCapacity := LE.withCapacityP
  fromVec := LE.fromVec
  push := LE.pushP
  extend _ := LE.extendP
  capacity b := pure b.capacity
  reserve := LE.reserveP
  setLen _ b n := pure (b.setLen n)
  cells := LE.cellsP
  poke := LE.pokeP
  setAt := LE.setAtP
  clone := LE.cloneP
  intoVec := LE.intoVecP
  drop := LE.dropP

/-- `universal_endian`, bsn1/src/buffer/mod.rs:22-25. -/
def universalP : PImpl UE where
  new := UE.new
  withCapacity := UE.withCapacityP
  fromVec := UE.fromVec
  push := UE.pushP
  extend := UE.extendP
  capacity := UE.capacityP
  reserve := UE.reserveP
  setLen := UE.setLenP
  cells := UE.cellsP
  poke := UE.pokeP
  setAt := UE.setAtP
  clone := UE.cloneP
  intoVec := UE.intoVecP
  drop := UE.dropP

namespace PImpl

variable {B : Type} (P : PImpl B)

/-- `set_len`, bsn1/src/buffer/mod.rs:102-105. -/
def setLenChecked (m : Build) (b : B) (n : Nat) : Prog B := do
  let cap ← P.capacity b
  Prog.debugAssert m (n ≤ cap)
  P.setLen m b n

/-- `From<&[u8]>`, bsn1/src/buffer/mod.rs:43-49. -/
def fromSlice (m : Build) (vals : Bytes) : Prog B := do
  let b ← P.withCapacity m vals.length
  P.extend m b vals

/-- `Write::write`, bsn1/src/buffer/mod.rs:202-206. -/
def write (m : Build) (b : B) (vals : Bytes) : Prog B := do
  let b ← P.reserve m b vals.length
  P.extend m b vals

/-- The octets of `as_slice`, read.  bsn1/src/buffer/mod.rs:115-117, through bsn1/src/buffer/little_endian/mod.rs:187-189 or
bsn1/src/buffer/universal_endian/mod.rs:293-295. -/
def read (b : B) : Prog Bytes := do
  let c ← P.cells b
  Prog.assumeInit c

end PImpl
end Bsn1.Buf
