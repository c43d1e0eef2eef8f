import Verif.Model.Prim
/-!
# `Buffer`: bsn1/src/buffer

The model of memory: the heap is a set of blocks of cells, known by the address of their first octet; a cell is
uninitialised (`none`) or an octet.  An access goes to a block at an offset.  The allocator is arbitrary: its decisions (address
and initial cells of a new block, or refusal) may depend on the number of calls so far, on the heap and on the size.  What the
Rust reference or the contract of a called function forbids is `ub`.
-/

namespace Bsn1.Buf

/-- An octet of memory; `none` is uninitialised.
What the pointers of bsn1/src/buffer/little_endian/mod.rs:169-181 and bsn1/src/buffer/universal_endian/mod.rs:102-108 point to. -/
abbrev Cell := Option UInt8

/-- The live blocks by address, with their cells.
The blocks that bsn1/src/buffer/little_endian/mod.rs:134, 147 and bsn1/src/buffer/universal_endian/mod.rs:41, 67 get. -/
abbrev Blocks := Nat → Option (List Cell)

/-- The heap, with the number of calls of the allocator so far.
What `std::alloc`, used by bsn1/src/buffer/little_endian/mod.rs:17 and bsn1/src/buffer/universal_endian/mod.rs:17, manages.  Simplified: alignment is 1 everywhere, as for `u8`. -/
structure Heap where
  blocks : Blocks
  clock : Nat

/-- The global allocator: `alloc` returns null or the address of a new block with its cells.
Called at bsn1/src/buffer/little_endian/mod.rs:134, 147 and bsn1/src/buffer/universal_endian/mod.rs:41, 67; not in /repo. -/
abbrev Allocator := (clock : Nat) → Blocks → (size : Nat) → Option (Nat × List Cell)

/-- `GlobalAlloc`'s contract: a non-null address that is not in use, and as many cells as asked for.
What bsn1/src/buffer/little_endian/mod.rs:134-155 and bsn1/src/buffer/universal_endian/mod.rs:41-74 rely on; not in /repo, from the documentation of the standard library. -/
def Allocator.Valid (al : Allocator) : Prop :=
  ∀ clock bl size a cells, al clock bl size = some (a, cells) → 0 < a ∧ a < usizeSize ∧ bl a = none ∧ cells.length = size

/-- How a function ends.  `abort` is `handle_alloc_error`.
`panic` is e.g. the `unwrap` of bsn1/src/buffer/little_endian/mod.rs:133, `abort` is at bsn1/src/buffer/little_endian/mod.rs:136, 150 and bsn1/src/buffer/universal_endian/mod.rs:43, 70. -/
inductive Out (α : Type) where
  | ok (a : α) (h : Heap)
  | panic
  | abort
  | ub

/-- A function on memory.  The functions of bsn1/src/buffer/little_endian/mod.rs:37-206 and bsn1/src/buffer/universal_endian/mod.rs:26-300 are such. -/
def M (α : Type) := Heap → Out α

/-- Statements in sequence, as everywhere in bsn1/src/buffer/little_endian/mod.rs:37-206. -/
instance : Monad M where
  pure a := fun h => .ok a h
  bind x f := fun h => match x h with
    | .ok a h => f a h
    | .panic => .panic
    | .abort => .abort
    | .ub => .ub

/-- Undefined behaviour.
What the `# Safety` sections of bsn1/src/buffer/little_endian/mod.rs:89-91, 100-102 exclude, and more: see the functions below. -/
def M.ub {α : Type} : M α := fun _ => .ub
/-- A panic.  E.g. bsn1/src/buffer/little_endian/mod.rs:133. -/
def M.panic {α : Type} : M α := fun _ => .panic
/-- `handle_alloc_error`.  Called at bsn1/src/buffer/little_endian/mod.rs:136, 150 and bsn1/src/buffer/universal_endian/mod.rs:43, 70. -/
def M.abort {α : Type} : M α := fun _ => .abort

/-- The blocks with one of them changed.  Used for bsn1/src/buffer/little_endian/mod.rs:134, 147, 45. -/
def Blocks.put (bl : Blocks) (p : Nat) (x : Option (List Cell)) : Blocks := fun q => if q = p then x else bl q

/-- `alloc::alloc(layout)` for `size` octets; 0 is null.  A size of 0 or above `isize::MAX` is against the contract.
Called at bsn1/src/buffer/little_endian/mod.rs:134 and bsn1/src/buffer/universal_endian/mod.rs:41. -/
def alloc (al : Allocator) (size : Nat) : M Nat := fun h =>
  if size = 0 ∨ isizeMax < size then .ub
  else match al h.clock h.blocks size with
    | none => .ok 0 ⟨h.blocks, h.clock + 1⟩
    | some (a, cells) => .ok a ⟨h.blocks.put a (some cells), h.clock + 1⟩

/-- `alloc::dealloc(ptr, layout)` for `size` octets.  The block must be live and of this size.
Called at bsn1/src/buffer/little_endian/mod.rs:45 and bsn1/src/buffer/universal_endian/mod.rs:30. -/
def dealloc (p size : Nat) : M Unit := fun h =>
  match h.blocks p with
  | none => .ub
  | some cells => if cells.length = size then .ok () ⟨h.blocks.put p none, h.clock⟩ else .ub

/-- `alloc::realloc(ptr, layout, new_size)`, where the layout has `size` octets.  The block must be live and of this size, and the
new size neither 0 nor above `isize::MAX`.  The new block may be at the same place.  On null the block is left alone.
Called at bsn1/src/buffer/little_endian/mod.rs:147 and bsn1/src/buffer/universal_endian/mod.rs:67. -/
def realloc (al : Allocator) (p size newSize : Nat) : M Nat := fun h =>
  match h.blocks p with
  | none => .ub
  | some cells =>
    if cells.length = size ∧ newSize ≠ 0 ∧ newSize ≤ isizeMax then
      match al h.clock (h.blocks.put p none) newSize with
      | none => .ok 0 ⟨h.blocks, h.clock + 1⟩
      | some (a, junk) =>
        .ok a ⟨(h.blocks.put p none).put a (some ((cells ++ junk.drop cells.length).take newSize)), h.clock + 1⟩
    else .ub

/-- The `n` cells at `ptr.add(off)`.  The reads of bsn1/src/buffer/little_endian/mod.rs:139, 188 and bsn1/src/buffer/universal_endian/mod.rs:252. -/
def load (p off n : Nat) : M (List Cell) := fun h =>
  match h.blocks p with
  | none => .ub
  | some cells => if off + n ≤ cells.length then .ok ((cells.drop off).take n) h else .ub

/-- Overwriting the cells at `ptr.add(off)`.
The writes of bsn1/src/buffer/little_endian/mod.rs:97, 105, 139 and bsn1/src/buffer/universal_endian/mod.rs:215, 252. -/
def store (p off : Nat) (vals : List Cell) : M Unit := fun h =>
  match h.blocks p with
  | none => .ub
  | some cells =>
    if off + vals.length ≤ cells.length then
      .ok () ⟨h.blocks.put p (some (cells.take off ++ vals ++ cells.drop (off + vals.length))), h.clock⟩
    else .ub

/-- `Layout::array::<u8>(n).unwrap()`.  bsn1/src/buffer/little_endian/mod.rs:133, 146, 149 and bsn1/src/buffer/universal_endian/mod.rs:39, 65, 69. -/
def layoutArray (n : Nat) : M Unit := if n ≤ isizeMax then pure () else M.panic

/-- `debug_assert!(c)`.  bsn1/src/buffer/little_endian/mod.rs:95, bsn1/src/buffer/universal_endian/mod.rs:37, 205, 262 and bsn1/src/buffer/mod.rs:103. -/
def debugAssert (m : Build) (c : Prop) [Decidable c] : M Unit :=
  match m with
  | .debug => if c then pure () else M.panic
  | .release => pure ()

/-- `a + b` of `usize`.  E.g. bsn1/src/buffer/little_endian/mod.rs:126. -/
def usizeAdd (m : Build) (a b : Nat) : M Nat :=
  if a + b < usizeSize then pure (a + b)
  else match m with
    | .debug => M.panic
    | .release => pure ((a + b) % usizeSize)

/-- Reading octets: uninitialised cells must not be read.  Done with the slices of bsn1/src/buffer/little_endian/mod.rs:188 and 192. -/
def assumeInit (cells : List Cell) : M Bytes := if cells.all Option.isSome then pure (cells.filterMap (·)) else M.ub

/-- `Vec<u8>` of the standard library.  With capacity 0 there is no block.
The argument of bsn1/src/buffer/little_endian/mod.rs:73 and the result of bsn1/src/buffer/little_endian/mod.rs:195; not in /repo. -/
structure RVec where
  ptr : Nat
  cap : Nat
  len : Nat

/-- A `Vec` with these octets and a capacity of `spare` more, as from `Vec::with_capacity` and `extend_from_slice`.  The capacity
is exact; more than `isize::MAX` panics.
The `Vec` that a caller passes to bsn1/src/buffer/mod.rs:57-61, and `Vec::from` of bsn1/src/buffer/little_endian/mod.rs:197; not in /repo. -/
def mkVec (al : Allocator) (vals : Bytes) (spare : Nat) : M RVec := do
  let cap := vals.length + spare
  if cap = 0 then return ⟨1, 0, 0⟩
  else if isizeMax < cap then M.panic
  else
    let p ← alloc al cap
    if p = 0 then M.abort
    else
      store p 0 (vals.map some)
      return ⟨p, cap, vals.length⟩

/-- Dropping a `Vec`.  For a `Vec` that bsn1/src/buffer/little_endian/mod.rs:195-205 returned; not in /repo. -/
def dropVec (v : RVec) : M Unit := if v.cap = 0 then pure () else dealloc v.ptr v.cap

/-- `HEAP_FLAG`, bsn1/src/buffer/little_endian/mod.rs:21, bsn1/src/buffer/universal_endian/mod.rs:124. -/
def HEAP_FLAG : Nat := 1 <<< (64 - 1)
/-- `LEN_MASK`, bsn1/src/buffer/little_endian/mod.rs:22, bsn1/src/buffer/universal_endian/mod.rs:125. -/
def LEN_MASK : Nat := (2 ^ 64 - 1) ^^^ HEAP_FLAG

/-! ### bsn1/src/buffer/little_endian/mod.rs -/

/-- `struct Buffer`, bsn1/src/buffer/little_endian/mod.rs:27-32, as its 24 octets: with `repr(C)` on a little-endian target of 64 bits, octets 0 to
7 are `data_`, 8 to 15 are `cap_` and 16 to 23 are `len_`, each with the least significant octet first. -/
structure LE where
  bytes : Bytes

namespace LE

/-- `INIT_CAPACITY`, bsn1/src/buffer/little_endian/mod.rs:25. -/
def INIT_CAPACITY : Nat := 24 - 1

/-- The number with the octets, least significant first.  The fields of bsn1/src/buffer/little_endian/mod.rs:28-32 on a little-endian target. -/
def leNat : Bytes → Nat
  | [] => 0
  | b :: r => b.toNat + 256 * leNat r

/-- The `n` least significant octets.  The fields of bsn1/src/buffer/little_endian/mod.rs:28-32 on a little-endian target. -/
def leBytes : (n : Nat) → Nat → Bytes
  | 0, _ => []
  | n + 1, w => UInt8.ofNat (w % 256) :: leBytes n (w / 256)

/-- The field at the offset.  bsn1/src/buffer/little_endian/mod.rs:28-32. -/
def word (b : LE) (off : Nat) : Nat := leNat ((b.bytes.drop off).take 8)

/-- Assignment to the field at the offset.  bsn1/src/buffer/little_endian/mod.rs:28-32. -/
def setWord (b : LE) (off : Nat) (w : Nat) : LE := ⟨b.bytes.take off ++ leBytes 8 w ++ b.bytes.drop (off + 8)⟩

/-- The field `data_`.  bsn1/src/buffer/little_endian/mod.rs:29. -/
def data_ (b : LE) : Nat := b.word 0
/-- The field `cap_`.  bsn1/src/buffer/little_endian/mod.rs:30. -/
def cap_ (b : LE) : Nat := b.word 8
/-- The field `len_`.  bsn1/src/buffer/little_endian/mod.rs:31. -/
def len_ (b : LE) : Nat := b.word 16

/-- `is_stack`, bsn1/src/buffer/little_endian/mod.rs:183-185. -/
def isStack (b : LE) : Bool := b.len_ &&& HEAP_FLAG == 0

/-- `len`, bsn1/src/buffer/little_endian/mod.rs:109-115. -/
def len (b : LE) : Nat := if b.isStack then b.len_ >>> (64 - 8) else b.len_ &&& LEN_MASK

/-- `capacity`, bsn1/src/buffer/little_endian/mod.rs:117-123. -/
def capacity (b : LE) : Nat := if b.isStack then INIT_CAPACITY else b.cap_

/-- Writing through `as_mut_ptr` (bsn1/src/buffer/little_endian/mod.rs:169-181) at an offset.  Inline, an access beyond the 23 octets is `ub`: it
would overwrite the length or leave the struct. -/
def poke (b : LE) (off : Nat) (vals : Bytes) : M LE :=
  if b.isStack then
    if off + vals.length ≤ INIT_CAPACITY then
      pure ⟨b.bytes.take off ++ vals ++ b.bytes.drop (off + vals.length)⟩
    else M.ub
  else do
    store b.data_ off (vals.map some)
    return b

/-- `ptr::copy` inside the storage, from `as_ptr().add(src)` to `as_mut_ptr().add(dst)` (bsn1/src/buffer/little_endian/mod.rs:169-181). -/
def copyWithin (b : LE) (src dst n : Nat) : M LE :=
  if b.isStack then
    if src + n ≤ INIT_CAPACITY ∧ dst + n ≤ INIT_CAPACITY then
      pure ⟨b.bytes.take dst ++ (b.bytes.drop src).take n ++ b.bytes.drop (dst + n)⟩
    else M.ub
  else do
    let c ← load b.data_ src n
    store b.data_ dst c
    return b

/-- Reading through `as_ptr` from the beginning, as `as_slice` does (bsn1/src/buffer/little_endian/mod.rs:187-189). -/
def peek (b : LE) (n : Nat) : M (List Cell) :=
  if b.isStack then
    if n ≤ INIT_CAPACITY then pure ((b.bytes.take n).map some) else M.ub
  else load b.data_ 0 n

/-- `as_slice`, bsn1/src/buffer/little_endian/mod.rs:187-189, as cells. -/
def cells (b : LE) : M (List Cell) := b.peek b.len

/-- `new`, bsn1/src/buffer/little_endian/mod.rs:59-65. -/
def new : LE := ((LE.mk (List.replicate 24 0)).setWord 0 0).setWord 8 0 |>.setWord 16 0

/-- `set_len`, bsn1/src/buffer/little_endian/mod.rs:159-167. -/
def setLen (b : LE) (len : Nat) : LE :=
  if b.isStack then
    let mask := (255 <<< (64 - 8)) % 2 ^ 64
    let w := b.len_ &&& ((2 ^ 64 - 1) ^^^ mask)
    b.setWord 16 (w ||| ((len <<< (64 - 8)) % 2 ^ 64))
  else b.setWord 16 (len ||| HEAP_FLAG)

/-- `reserve`, bsn1/src/buffer/little_endian/mod.rs:125-157. -/
def reserve (m : Build) (al : Allocator) (b : LE) (additional : Nat) : M LE := do
  let newCap ← usizeAdd m b.len additional
  if newCap ≤ b.capacity then return b
  else if b.isStack then
    layoutArray newCap
    let ptr ← alloc al newCap
    if ptr = 0 then M.abort
    else
      let c ← b.peek b.len
      store ptr 0 c
      let b := b.setWord 0 ptr
      let b := b.setWord 8 newCap
      return b.setWord 16 (b.len ||| HEAP_FLAG)
  else
    layoutArray b.capacity
    let ptr ← realloc al b.data_ b.capacity newCap
    if ptr = 0 then do
      layoutArray newCap
      M.abort
    else
      let b := b.setWord 0 ptr
      return b.setWord 8 newCap

/-- `with_capacity`, bsn1/src/buffer/little_endian/mod.rs:67-71. -/
def withCapacity (m : Build) (al : Allocator) (cap : Nat) : M LE := reserve m al new cap

/-- `from_vec`, bsn1/src/buffer/little_endian/mod.rs:73-87. -/
def fromVec (v : RVec) : LE :=
  if v.cap = 0 then new
  else ((LE.mk (List.replicate 24 0)).setWord 0 v.ptr).setWord 8 v.cap |>.setWord 16 (v.len ||| HEAP_FLAG)

/-- `as_mut_slice()[i] = v`, bsn1/src/buffer/little_endian/mod.rs:191-193.  An index out of bounds panics. -/
def setAt (b : LE) (i : Nat) (v : UInt8) : M LE := if i < b.len then b.poke i [v] else M.panic

/-- `push`, bsn1/src/buffer/little_endian/mod.rs:92-98. -/
def push (m : Build) (b : LE) (v : UInt8) : M LE := do
  let oldLen := b.len
  debugAssert m (oldLen < b.capacity)
  let b := b.setLen (oldLen + 1)
  b.setAt oldLen v

/-- `extend_from_slice`, bsn1/src/buffer/little_endian/mod.rs:103-107.  The new length is within the storage just written to, so that the addition
does not overflow. -/
def extend (b : LE) (vals : Bytes) : M LE := do
  let b ← b.poke b.len vals
  return b.setLen (b.len + vals.length)

/-- `clone`, bsn1/src/buffer/little_endian/mod.rs:50-56. -/
def clone (m : Build) (al : Allocator) (b : LE) : M LE := do
  let ret ← withCapacity m al b.len
  let c ← b.cells
  let vals ← assumeInit c
  ret.extend vals

/-- `into_vec`, bsn1/src/buffer/little_endian/mod.rs:195-205. -/
def intoVec (al : Allocator) (b : LE) : M RVec := do
  if b.isStack then
    let c ← b.cells
    let vals ← assumeInit c
    mkVec al vals 0
  else return { ptr := b.data_, len := b.len, cap := b.cap_ }

/-- `drop`, bsn1/src/buffer/little_endian/mod.rs:37-48. -/
def drop (b : LE) : M Unit := if b.isStack then pure () else dealloc b.data_ b.cap_

end LE

/-! ### bsn1/src/buffer/universal_endian/mod.rs -/

/-- `union BufferWithoutLength`, bsn1/src/buffer/universal_endian/mod.rs:113-116, by the field written last.  Reading the other field is `ub` (the
language would allow some of it). -/
inductive Union where
  | stack (data : Bytes)
  | heap (data cap : Nat)

/-- `struct Buffer`, bsn1/src/buffer/universal_endian/mod.rs:128-131. -/
structure UE where
  len_ : Nat
  buffer_ : Union

namespace UE

/-- `INIT_CAPACITY`, bsn1/src/buffer/universal_endian/mod.rs:126: `HeapBuffer` is two words. -/
def INIT_CAPACITY : Nat := 16

/-- `is_stack`, bsn1/src/buffer/universal_endian/mod.rs:277-279. -/
def isStack (b : UE) : Bool := b.len_ &&& HEAP_FLAG == 0

/-- `len`, bsn1/src/buffer/universal_endian/mod.rs:219-221. -/
def len (b : UE) : Nat := b.len_ &&& LEN_MASK

/-- Access to the field `heap`.  bsn1/src/buffer/universal_endian/mod.rs:115. -/
def heapField (b : UE) : M (Nat × Nat) :=
  match b.buffer_ with
  | .heap d c => pure (d, c)
  | .stack _ => M.ub

/-- Access to the field `stack`.  bsn1/src/buffer/universal_endian/mod.rs:114. -/
def stackField (b : UE) : M Bytes :=
  match b.buffer_ with
  | .stack d => pure d
  | .heap _ _ => M.ub

/-- `capacity`, bsn1/src/buffer/universal_endian/mod.rs:223-229. -/
def capacity (b : UE) : M Nat :=
  if b.isStack then pure INIT_CAPACITY
  else do
    let h ← b.heapField
    return h.2

/-- Writing through `as_mut_ptr` (bsn1/src/buffer/universal_endian/mod.rs:267-275) at an offset. -/
def poke (b : UE) (off : Nat) (vals : Bytes) : M UE :=
  if b.isStack then do
    let d ← b.stackField
    if off + vals.length ≤ d.length then return ⟨b.len_, .stack (d.take off ++ vals ++ d.drop (off + vals.length))⟩
    else M.ub
  else do
    let h ← b.heapField
    store h.1 off (vals.map some)
    return b

/-- `ptr::copy` inside the storage, from `as_ptr().add(src)` to `as_mut_ptr().add(dst)` (bsn1/src/buffer/universal_endian/mod.rs:231-239,
267-275). -/
def copyWithin (b : UE) (src dst n : Nat) : M UE :=
  if b.isStack then do
    let d ← b.stackField
    if src + n ≤ d.length ∧ dst + n ≤ d.length then
      return ⟨b.len_, .stack (d.take dst ++ (d.drop src).take n ++ d.drop (dst + n))⟩
    else M.ub
  else do
    let h ← b.heapField
    let c ← load h.1 src n
    store h.1 dst c
    return b

/-- Reading through `as_ptr` (bsn1/src/buffer/universal_endian/mod.rs:231-239) from the beginning. -/
def peek (b : UE) (n : Nat) : M (List Cell) :=
  if b.isStack then do
    let d ← b.stackField
    if n ≤ d.length then return (d.take n).map some else M.ub
  else do
    let h ← b.heapField
    load h.1 0 n

/-- `as_slice`, bsn1/src/buffer/universal_endian/mod.rs:293-295, as cells. -/
def cells (b : UE) : M (List Cell) := b.peek b.len

/-- `new`, bsn1/src/buffer/universal_endian/mod.rs:159-166, with `StackBuffer::new`, 96-100. -/
def new : UE := ⟨0, .stack (List.replicate INIT_CAPACITY 0)⟩

/-- `HeapBuffer::new`, bsn1/src/buffer/universal_endian/mod.rs:36-51. -/
def heapNew (m : Build) (al : Allocator) (capacity : Nat) : M (Nat × Nat) := do
  debugAssert m (0 < capacity)
  layoutArray capacity
  let data ← alloc al capacity
  if data = 0 then M.abort else return (data, capacity)

/-- `HeapBuffer::realloc`, bsn1/src/buffer/universal_endian/mod.rs:64-76. -/
def heapRealloc (al : Allocator) (h : Nat × Nat) (newCapacity : Nat) : M (Nat × Nat) := do
  layoutArray h.2
  let data ← realloc al h.1 h.2 newCapacity
  if data = 0 then do
    layoutArray newCapacity
    M.abort
  else return (data, newCapacity)

/-- `with_capacity`, bsn1/src/buffer/universal_endian/mod.rs:168-179. -/
def withCapacity (m : Build) (al : Allocator) (capacity : Nat) : M UE := do
  if capacity ≤ INIT_CAPACITY then return new
  else
    let h ← heapNew m al capacity
    return ⟨0 ||| HEAP_FLAG, .heap h.1 h.2⟩

/-- `from_vec`, bsn1/src/buffer/universal_endian/mod.rs:181-197. -/
def fromVec (v : RVec) : UE := if v.cap = 0 then new else ⟨v.len ||| HEAP_FLAG, .heap v.ptr v.cap⟩

/-- `set_len`, bsn1/src/buffer/universal_endian/mod.rs:261-265. -/
def setLen (m : Build) (b : UE) (newLen : Nat) : M UE := do
  let cap ← b.capacity
  debugAssert m (newLen ≤ cap)
  return ⟨(b.len_ &&& HEAP_FLAG) ||| newLen, b.buffer_⟩

/-- `reserve`, bsn1/src/buffer/universal_endian/mod.rs:241-259. -/
def reserve (m : Build) (al : Allocator) (b : UE) (additional : Nat) : M UE := do
  let newCap ← usizeAdd m b.len additional
  let cap ← b.capacity
  if newCap ≤ cap then return b
  else if b.isStack then
    let heap ← heapNew m al newCap
    let c ← b.peek b.len
    store heap.1 0 c
    return ⟨b.len_ ||| HEAP_FLAG, .heap heap.1 heap.2⟩
  else
    let h ← b.heapField
    let h ← heapRealloc al h newCap
    return ⟨b.len_, .heap h.1 h.2⟩

/-- `as_mut_slice()[i] = v`, bsn1/src/buffer/universal_endian/mod.rs:297-299. -/
def setAt (b : UE) (i : Nat) (v : UInt8) : M UE := if i < b.len then b.poke i [v] else M.panic

/-- `push`, bsn1/src/buffer/universal_endian/mod.rs:202-208. -/
def push (m : Build) (b : UE) (v : UInt8) : M UE := do
  let oldLen := b.len
  let cap ← b.capacity
  debugAssert m (oldLen < cap)
  let b ← b.setLen m (oldLen + 1)
  b.setAt oldLen v

/-- `extend_from_slice`, bsn1/src/buffer/universal_endian/mod.rs:213-217.  As above, the addition does not overflow. -/
def extend (m : Build) (b : UE) (vals : Bytes) : M UE := do
  let b ← b.poke b.len vals
  b.setLen m (b.len + vals.length)

/-- `clone`, bsn1/src/buffer/universal_endian/mod.rs:150-156. -/
def clone (m : Build) (al : Allocator) (b : UE) : M UE := do
  let ret ← withCapacity m al b.len
  let c ← b.cells
  let vals ← assumeInit c
  ret.extend m vals

/-- `into_vec`, bsn1/src/buffer/universal_endian/mod.rs:281-291. -/
def intoVec (al : Allocator) (b : UE) : M RVec := do
  if b.isStack then
    let c ← b.cells
    let vals ← assumeInit c
    mkVec al vals 0
  else
    let h ← b.heapField
    return { ptr := h.1, len := b.len, cap := h.2 }

/-- `drop`, bsn1/src/buffer/universal_endian/mod.rs:136-148, with that of `HeapBuffer`, 26-33. -/
def drop (b : UE) : M Unit :=
  if b.isStack then pure ()
  else do
    let h ← b.heapField
    dealloc h.1 h.2

end UE

/-! ### bsn1/src/buffer/mod.rs -/

/-- The functions of `endian::Buffer` that bsn1/src/buffer/mod.rs calls.  `poke` is a write through the pointer from `as_mut_ptr`, and
`copyWithin` is `ptr::copy` between such pointers. -/
structure Impl where
  B : Type
  new : B
  withCapacity : Build → Allocator → Nat → M B
  fromVec : RVec → B
  push : Build → B → UInt8 → M B
  extend : Build → B → Bytes → M B
  len : B → Nat
  capacity : B → M Nat
  reserve : Build → Allocator → B → Nat → M B
  setLen : Build → B → Nat → M B
  cells : B → M (List Cell)
  poke : B → Nat → Bytes → M B
  copyWithin : B → (src dst n : Nat) → M B
  setAt : B → Nat → UInt8 → M B
  clone : Build → Allocator → B → M B
  intoVec : Allocator → B → M RVec
  drop : B → M Unit

/-- `little_endian`, bsn1/src/buffer/mod.rs:17-20. -/
def little : Impl where
  B := LE
  new := LE.new
  withCapacity := LE.withCapacity
  fromVec := LE.fromVec
  push := LE.push
  extend _ := LE.extend
  len := LE.len
  capacity b := pure b.capacity
  reserve := LE.reserve
  setLen _ b n := pure (b.setLen n)
  cells := LE.cells
  poke := LE.poke
  copyWithin := LE.copyWithin
  setAt := LE.setAt
  clone := LE.clone
  intoVec := LE.intoVec
  drop := LE.drop

/-- `universal_endian`, bsn1/src/buffer/mod.rs:22-25. -/
def universal : Impl where
  B := UE
  new := UE.new
  withCapacity := UE.withCapacity
  fromVec := UE.fromVec
  push := UE.push
  extend := UE.extend
  len := UE.len
  capacity := UE.capacity
  reserve := UE.reserve
  setLen := UE.setLen
  cells := UE.cells
  poke := UE.poke
  copyWithin := UE.copyWithin
  setAt := UE.setAt
  clone := UE.clone
  intoVec := UE.intoVec
  drop := UE.drop

namespace Impl

variable (I : Impl)

/-- `set_len`, bsn1/src/buffer/mod.rs:102-105. -/
def setLenChecked (m : Build) (b : I.B) (n : Nat) : M I.B := do
  let cap ← I.capacity b
  debugAssert m (n ≤ cap)
  I.setLen m b n

/-- `From<&[u8]>`, bsn1/src/buffer/mod.rs:43-49. -/
def fromSlice (m : Build) (al : Allocator) (vals : Bytes) : M I.B := do
  let b ← I.withCapacity m al vals.length
  I.extend m b vals

/-- `Write::write`, bsn1/src/buffer/mod.rs:202-206. -/
def write (m : Build) (al : Allocator) (b : I.B) (vals : Bytes) : M I.B := do
  let b ← I.reserve m al b vals.length
  I.extend m b vals

end Impl
end Bsn1.Buf
