import Verif.Spec.Alias
/-!
# Which pointers the functions make and through which ones they read and write

The functions of `Buffer` in both layouts, and those of `Der`, `Ber`, `Id`, `DerRef`, `BerRef` that have `unsafe` code with pointers, as the events of
`Spec/Alias`: each reference that is made, from which one, and each access.  What is read and written is in `Model/Raw`; here only where, so lengths
are parameters.

Simplified: a wrapper that only passes its reference on (`Buffer` around `Inner`, bsn1/src/buffer/mod.rs:63-126; the deref of
`ManuallyDrop`) makes no event of its own, for a reference made from another one to the same octets may do the same.  The reads of the
caller's arguments are left out: they are shared references to other memory.
-/

namespace Bsn1.Alias

/-- Events, with a supply of new tags.  Any code with references, e.g. bsn1/src/buffer/little_endian/mod.rs:103-107. -/
def Tr (α : Type) := Nat → α × Nat × List Ev

/-- Statements in sequence, e.g. bsn1/src/buffer/little_endian/mod.rs:103-107. -/
instance : Monad Tr where
  pure a := fun n => (a, n, [])
  bind x f := fun n =>
    let r := x n
    let q := f r.1 r.2.1
    (q.1, q.2.1, r.2.2 ++ q.2.2)

/-- A single event, e.g. the write of bsn1/src/buffer/little_endian/mod.rs:105. -/
def Tr.ev (e : Ev) : Tr Unit := fun n => ((), n, [e])

/-- A pointer is made from another one: `&`, `&mut`, a cast to a raw pointer.  E.g. bsn1/src/buffer/little_endian/mod.rs:171. -/
def Tr.borrow (k : Kind) (p : Tag) (r : Region) : Tr Tag := fun n => (n, n + 1, [.retag p n k r false])

/-- Block `a` is allocated.  bsn1/src/buffer/little_endian/mod.rs:134. -/
def Tr.alloc (a : Nat) : Tr Tag := fun n => (n, n + 1, [.alloc n a])

/-- A reference is made and a function called with it.  E.g. bsn1/src/buffer/little_endian/mod.rs:179, where `self.as_ptr()` makes
`&*self`. -/
def Tr.call {α : Type} (k : Kind) (p : Tag) (r : Region) (body : Tag → Tr α) : Tr α := fun n =>
  let q := body n (n + 1)
  (q.1, q.2.1, .retag p n k r true :: q.2.2 ++ [.release n])

/-- A buffer as the functions see it: the pointer to the heap, if it is there, and the block it points to; the number of octets and the
capacity.  The struct itself is block 0, of 24 octets.
bsn1/src/buffer/little_endian/mod.rs:27-32, bsn1/src/buffer/universal_endian/mod.rs:113-116, 128-131. -/
structure Value where
  heap : Option Tag
  blk : Nat
  len : Nat
  cap : Nat
deriving DecidableEq

/-- The struct.  bsn1/src/buffer/little_endian/mod.rs:27-32, bsn1/src/buffer/universal_endian/mod.rs:128-131. -/
def whole : Region := ⟨0, 0, 24⟩

/-- The two implementations of `Inner`.  bsn1/src/buffer/little_endian/mod.rs:58-206, bsn1/src/buffer/universal_endian/mod.rs:158-300. -/
structure Lay where
  /-- Where the octets of an inline buffer are. -/
  base : Nat
  room : Nat
  len : Value → Tag → Tr Unit
  capacity : Value → Tag → Tr Unit
  asPtr : Value → Tag → Tr Tag
  asMutPtr : Value → Tag → Tr Tag
  setLen : Bool → Value → Nat → Tag → Tr Value
  reserve : Value → Nat → Tag → Tr Value

/-- Octets of the buffer, in the struct or on the heap.  bsn1/src/buffer/little_endian/mod.rs:169-176. -/
def Value.data (L : Lay) (v : Value) (o n : Nat) : Region :=
  match v.heap with
  | none => ⟨0, L.base + o, n⟩
  | some _ => ⟨v.blk, o, n⟩

/-! ### Little-endian layout -/

namespace LE

/-- `len_` (the last octet of it holds the length if the buffer is inline).  bsn1/src/buffer/little_endian/mod.rs:31. -/
def lenF : Region := ⟨0, 16, 8⟩

/-- bsn1/src/buffer/little_endian/mod.rs:30. -/
def capF : Region := ⟨0, 8, 8⟩

/-- bsn1/src/buffer/little_endian/mod.rs:29. -/
def dataF : Region := ⟨0, 0, 8⟩

/-- bsn1/src/buffer/little_endian/mod.rs:183-185. -/
def isStack (self : Tag) : Tr Unit := Tr.call .shared self whole fun t => Tr.ev (.read t lenF)

/-- bsn1/src/buffer/little_endian/mod.rs:109-115. -/
def len (_ : Value) (self : Tag) : Tr Unit := Tr.call .shared self whole fun t => do
  isStack t
  Tr.ev (.read t lenF)

/-- bsn1/src/buffer/little_endian/mod.rs:117-123. -/
def capacity (v : Value) (self : Tag) : Tr Unit := Tr.call .shared self whole fun t => do
  isStack t
  match v.heap with
  | none => return
  | some _ => Tr.ev (.read t capF)

/-- bsn1/src/buffer/little_endian/mod.rs:169-176. -/
def asPtr (v : Value) (self : Tag) : Tr Tag := Tr.call .shared self whole fun t => do
  isStack t
  match v.heap with
  | none => Tr.borrow .rawConst t whole
  | some h => do
    Tr.ev (.read t dataF)
    return h

/-- `as_mut_ptr` calls `as_ptr`, which has `&self`.  bsn1/src/buffer/little_endian/mod.rs:178-181. -/
def asMutPtr (v : Value) (self : Tag) : Tr Tag := Tr.call .excl self whole fun t => asPtr v t

/-- With the assertion of the wrapper.  bsn1/src/buffer/little_endian/mod.rs:159-167, bsn1/src/buffer/mod.rs:102-105. -/
def setLen (dbg : Bool) (v : Value) (n : Nat) (self : Tag) : Tr Value := Tr.call .excl self whole fun t => do
  if dbg then capacity v t
  isStack t
  Tr.ev (.read t lenF)
  Tr.ev (.write t lenF)
  return { v with len := n }

/-- The new block is `v.blk + 1`; the allocator copies when it moves a block.  bsn1/src/buffer/little_endian/mod.rs:125-157. -/
def reserve (v : Value) (additional : Nat) (self : Tag) : Tr Value := Tr.call .excl self whole fun t => do
  len v t
  capacity v t
  if v.len + additional ≤ v.cap then return v
  isStack t
  match v.heap with
  | none => do
    let h ← Tr.alloc (v.blk + 1)
    let src ← asPtr v t
    len v t
    Tr.ev (.read src ⟨0, 0, v.len⟩)
    Tr.ev (.write h ⟨v.blk + 1, 0, v.len⟩)
    Tr.ev (.write t dataF)
    Tr.ev (.write t capF)
    len v t
    Tr.ev (.write t lenF)
    return ⟨some h, v.blk + 1, v.len, v.len + additional⟩
  | some p => do
    capacity v t
    Tr.ev (.read t dataF)
    Tr.ev (.read p ⟨v.blk, 0, v.cap⟩)
    let h ← Tr.alloc (v.blk + 1)
    Tr.ev (.write h ⟨v.blk + 1, 0, v.cap⟩)
    Tr.ev (.free p v.blk)
    Tr.ev (.write t dataF)
    Tr.ev (.write t capF)
    return ⟨some h, v.blk + 1, v.len, v.len + additional⟩

end LE

/-- bsn1/src/buffer/little_endian/mod.rs:25, 58-206. -/
def little : Lay where
  base := 0
  room := 23
  len := LE.len
  capacity := LE.capacity
  asPtr := LE.asPtr
  asMutPtr := LE.asMutPtr
  setLen := LE.setLen
  reserve := LE.reserve

/-! ### Universal layout -/

namespace UE

/-- Simplified: Rust may put the two fields of the struct in the other order.  bsn1/src/buffer/universal_endian/mod.rs:129. -/
def lenF : Region := ⟨0, 0, 8⟩

/-- The union.  bsn1/src/buffer/universal_endian/mod.rs:113-116, 130. -/
def unionF : Region := ⟨0, 8, 16⟩

/-- `data_` of `HeapBuffer`.  bsn1/src/buffer/universal_endian/mod.rs:22. -/
def dataF : Region := ⟨0, 8, 8⟩

/-- `cap_` of `HeapBuffer`.  bsn1/src/buffer/universal_endian/mod.rs:23. -/
def capF : Region := ⟨0, 16, 8⟩

/-- bsn1/src/buffer/universal_endian/mod.rs:277-279. -/
def isStack (self : Tag) : Tr Unit := Tr.call .shared self whole fun t => Tr.ev (.read t lenF)

/-- bsn1/src/buffer/universal_endian/mod.rs:219-221. -/
def len (_ : Value) (self : Tag) : Tr Unit := Tr.call .shared self whole fun t => Tr.ev (.read t lenF)

/-- With `HeapBuffer::capacity`.  bsn1/src/buffer/universal_endian/mod.rs:223-229, 60-62. -/
def capacity (v : Value) (self : Tag) : Tr Unit := Tr.call .shared self whole fun t => do
  isStack t
  match v.heap with
  | none => return
  | some _ => Tr.call .shared t unionF fun u => Tr.ev (.read u capF)

/-- With `as_ptr` of `StackBuffer` and `HeapBuffer`.  bsn1/src/buffer/universal_endian/mod.rs:231-239, 102-104, 78-80. -/
def asPtr (v : Value) (self : Tag) : Tr Tag := Tr.call .shared self whole fun t => do
  isStack t
  match v.heap with
  | none => Tr.call .shared t unionF fun u => do
    let a ← Tr.borrow .shared u unionF
    Tr.borrow .rawConst a unionF
  | some h => Tr.call .shared t unionF fun u => do
    Tr.ev (.read u dataF)
    return h

/-- With `as_mut_ptr` of `StackBuffer` and `HeapBuffer`.  bsn1/src/buffer/universal_endian/mod.rs:267-275, 106-108, 82-84. -/
def asMutPtr (v : Value) (self : Tag) : Tr Tag := Tr.call .excl self whole fun t => do
  isStack t
  match v.heap with
  | none => Tr.call .excl t unionF fun u => do
    let a ← Tr.borrow .excl u unionF
    Tr.borrow .raw a unionF
  | some h => Tr.call .excl t unionF fun u => do
    Tr.ev (.read u dataF)
    return h

/-- With the assertions here and of the wrapper, which are the same.  bsn1/src/buffer/universal_endian/mod.rs:261-265, bsn1/src/buffer/mod.rs:102-105. -/
def setLen (dbg : Bool) (v : Value) (n : Nat) (self : Tag) : Tr Value := Tr.call .excl self whole fun t => do
  if dbg then capacity v t
  Tr.ev (.read t lenF)
  Tr.ev (.write t lenF)
  return { v with len := n }

/-- With `HeapBuffer::new` and `realloc`.  The new block is `v.blk + 1`; the allocator copies when it moves a block.
bsn1/src/buffer/universal_endian/mod.rs:241-259, 36-51, 64-76. -/
def reserve (v : Value) (additional : Nat) (self : Tag) : Tr Value := Tr.call .excl self whole fun t => do
  len v t
  capacity v t
  if v.len + additional ≤ v.cap then return v
  isStack t
  match v.heap with
  | none => do
    let h ← Tr.alloc (v.blk + 1)
    let src ← asPtr v t
    len v t
    Tr.ev (.read src ⟨0, 8, v.len⟩)
    Tr.ev (.write h ⟨v.blk + 1, 0, v.len⟩)
    Tr.ev (.write t unionF)
    Tr.ev (.read t lenF)
    Tr.ev (.write t lenF)
    return ⟨some h, v.blk + 1, v.len, v.len + additional⟩
  | some p => Tr.call .excl t unionF fun u => do
    Tr.call .shared u unionF fun w => Tr.ev (.read w capF)
    Tr.ev (.read u dataF)
    Tr.ev (.read p ⟨v.blk, 0, v.cap⟩)
    let h ← Tr.alloc (v.blk + 1)
    Tr.ev (.write h ⟨v.blk + 1, 0, v.cap⟩)
    Tr.ev (.free p v.blk)
    Tr.ev (.write u dataF)
    Tr.ev (.write u capF)
    return ⟨some h, v.blk + 1, v.len, v.len + additional⟩

end UE

/-- bsn1/src/buffer/universal_endian/mod.rs:126, 158-300. -/
def universal : Lay where
  base := 8
  room := 16
  len := UE.len
  capacity := UE.capacity
  asPtr := UE.asPtr
  asMutPtr := UE.asMutPtr
  setLen := UE.setLen
  reserve := UE.reserve

/-! ### Functions of both -/

section both
variable (L : Lay) (dbg : Bool) (v : Value)

/-- bsn1/src/buffer/little_endian/mod.rs:187-189, bsn1/src/buffer/universal_endian/mod.rs:293-295. -/
def asSlice (self : Tag) : Tr Tag := Tr.call .shared self whole fun t => do
  let p ← L.asPtr v t
  L.len v t
  Tr.borrow .shared p (v.data L 0 v.len)

/-- bsn1/src/buffer/little_endian/mod.rs:191-193, bsn1/src/buffer/universal_endian/mod.rs:297-299. -/
def asMutSlice (self : Tag) : Tr Tag := Tr.call .excl self whole fun t => do
  let p ← L.asMutPtr v t
  L.len v t
  Tr.borrow .excl p (v.data L 0 v.len)

/-- bsn1/src/buffer/little_endian/mod.rs:92-98, bsn1/src/buffer/universal_endian/mod.rs:202-208. -/
def push (self : Tag) : Tr Value := Tr.call .excl self whole fun t => do
  L.len v t
  if dbg then L.capacity v t
  let v' ← L.setLen dbg v (v.len + 1) t
  let m ← asMutSlice L v' t
  Tr.ev (.write m (v.data L v.len 1))
  return v'

/-- bsn1/src/buffer/little_endian/mod.rs:103-107, bsn1/src/buffer/universal_endian/mod.rs:213-217. -/
def extend (n : Nat) (self : Tag) : Tr Value := Tr.call .excl self whole fun t => do
  let p ← L.asMutPtr v t
  L.len v t
  Tr.ev (.write p (v.data L v.len n))
  L.len v t
  L.setLen dbg v (v.len + n) t

/-- `buffer[i] = ..`: `IndexMut`.  bsn1/src/buffer/mod.rs:169-173. -/
def setAt (i : Nat) (self : Tag) : Tr Unit := Tr.call .excl self whole fun t => do
  let m ← asMutSlice L v t
  let e ← Tr.borrow .excl m (v.data L i 1)
  Tr.ev (.write e (v.data L i 1))

/-- `buffer.as_slice()`, and all octets are read.  bsn1/src/buffer/mod.rs:115-117. -/
def readAll (self : Tag) : Tr Unit := do
  let s ← asSlice L v self
  Tr.ev (.read s (v.data L 0 v.len))

/-- `self.id().len()` of `Der` or `Ber`: `deref`, then `parse_id_unchecked`, which reads the `idLen` octets of the identifier.
bsn1/src/der.rs:642-644, bsn1/src/der_ref.rs:252-254, bsn1/src/identifier_ref.rs:736-752. -/
def idLength (idLen : Nat) (self : Tag) : Tr Unit := Tr.call .shared self whole fun t => do
  let s ← asSlice L v t
  Tr.call .shared s (v.data L 0 v.len) fun r => do
    Tr.ev (.read r (v.data L 0 idLen))
    let _ ← Tr.borrow .shared r (v.data L 0 idLen)
    return

/-- `disassemble` of `DerRef` or `BerRef`, whose octets are those of `v`: identifier of `idLen` octets, length of `lenLen`, the rest contents.
bsn1/src/der_ref.rs:353-361, bsn1/src/ber_ref.rs:354-362. -/
def disassemble (idLen lenLen : Nat) (r : Tag) : Tr (Tag × Tag) := Tr.call .shared r (v.data L 0 v.len) fun t => do
  let b ← Tr.borrow .shared t (v.data L 0 v.len)
  Tr.ev (.read b (v.data L 0 idLen))
  let id ← Tr.borrow .shared b (v.data L 0 idLen)
  let b ← Tr.borrow .shared b (v.data L idLen (v.len - idLen))
  Tr.ev (.read b (v.data L idLen lenLen))
  let c ← Tr.borrow .shared b (v.data L (idLen + lenLen) (v.len - (idLen + lenLen)))
  return (id, c)

/-- `self.length()` of `Der` or `Ber`.  bsn1/src/der.rs:642-644, bsn1/src/der_ref.rs:298-300, bsn1/src/ber_ref.rs:298-300. -/
def lengthOf (idLen lenLen : Nat) (self : Tag) : Tr Unit := Tr.call .shared self whole fun t => do
  let s ← asSlice L v t
  let _ ← disassemble L v idLen lenLen s
  return

/-- `disassemble_mut` of `DerRef` or `BerRef`.  bsn1/src/der_ref.rs:382-391, bsn1/src/ber_ref.rs:383-392. -/
def disassembleMut (idLen lenLen : Nat) (r : Tag) : Tr (Tag × Tag) := Tr.call .excl r (v.data L 0 v.len) fun t => do
  let (id, c) ← disassemble L v idLen lenLen t
  let idPtr ← Tr.borrow .rawConst id (v.data L 0 idLen)
  let cPtr ← Tr.borrow .rawConst c (v.data L (idLen + lenLen) (v.len - (idLen + lenLen)))
  let id ← Tr.borrow .excl idPtr (v.data L 0 idLen)
  let c ← Tr.borrow .excl cPtr (v.data L (idLen + lenLen) (v.len - (idLen + lenLen)))
  return (id, c)

/-- `mut_id().set_class(..)` or `set_pc` of `Der` or `Ber`: `deref_mut`, `disassemble_mut`, and the first octet is read and written, twice.
bsn1/src/der.rs:648-650, bsn1/src/der_ref.rs:274-276, bsn1/src/identifier_ref.rs:617-622, 642-648. -/
def mutIdSet (idLen lenLen : Nat) (self : Tag) : Tr Unit := Tr.call .excl self whole fun t => do
  let s ← asMutSlice L v t
  let (id, _) ← disassembleMut L v idLen lenLen s
  Tr.call .excl id (v.data L 0 idLen) fun m => do
    let b ← Tr.borrow .excl m (v.data L 0 idLen)
    Tr.ev (.read b (v.data L 0 1))
    Tr.ev (.write b (v.data L 0 1))
    Tr.ev (.read b (v.data L 0 1))
    Tr.ev (.write b (v.data L 0 1))

/-- `mut_id()` of `Der` or `Ber`, and nothing is done with it.  bsn1/src/der.rs:648-650, bsn1/src/der_ref.rs:274-276. -/
def mutId (idLen lenLen : Nat) (self : Tag) : Tr Unit := Tr.call .excl self whole fun t => do
  let s ← asMutSlice L v t
  let _ ← disassembleMut L v idLen lenLen s
  return

/-- `mut_contents()[i] = ..` of `Der` or `Ber`.  bsn1/src/der.rs:648-650, bsn1/src/der_ref.rs:333-335. -/
def mutContentsSet (idLen lenLen i : Nat) (self : Tag) : Tr Unit := Tr.call .excl self whole fun t => do
  let s ← asMutSlice L v t
  let (_, c) ← disassembleMut L v idLen lenLen s
  Tr.call .excl c (v.data L (idLen + lenLen) (v.len - (idLen + lenLen))) fun m => do
    let e ← Tr.borrow .excl m (v.data L (idLen + lenLen + i) 1)
    Tr.ev (.write e (v.data L (idLen + lenLen + i) 1))

/-- `set_class` or `set_pc` of an `Id`: `deref_mut` is a transmute of the slice.
bsn1/src/identifier.rs:267-271, bsn1/src/identifier_ref.rs:617-622, 642-648. -/
def idSet (self : Tag) : Tr Unit := Tr.call .excl self whole fun t => do
  let s ← asMutSlice L v t
  Tr.call .excl s (v.data L 0 v.len) fun m => do
    let b ← Tr.borrow .excl m (v.data L 0 v.len)
    Tr.ev (.read b (v.data L 0 1))
    Tr.ev (.write b (v.data L 0 1))
    Tr.ev (.read b (v.data L 0 1))
    Tr.ev (.write b (v.data L 0 1))

/-- `Der::extend_from_slice` with `n` octets: identifier `idLen`, length octets `lenLen` before and `newLen` after, `c` octets of contents before.
bsn1/src/der.rs:375-429. -/
def derExtend (idLen lenLen newLen c n : Nat) (self : Tag) : Tr Value := Tr.call .excl self whole fun t => do
  idLength L v idLen t
  lengthOf L v idLen lenLen t
  let v ← L.reserve v (n + newLen - lenLen) t
  L.len v t
  let v ← L.setLen dbg v (v.len + (n + newLen - lenLen)) t
  let dest ← L.asMutPtr v t
  let src ← L.asPtr v t
  if newLen ≠ lenLen then
    Tr.ev (.read src (v.data L (idLen + lenLen) c))
    Tr.ev (.write dest (v.data L (idLen + newLen) c))
  Tr.ev (.write dest (v.data L (idLen + newLen + c) n))
  if dbg then
    let _ ← L.asPtr v t
    L.len v t
  let dest ← L.asMutPtr v t
  Tr.ev (.write dest (v.data L idLen newLen))
  return v

/-- `Der::truncate` to `c` octets of contents, which are fewer than before; length octets `lenLen` before, `newLen` after.
bsn1/src/der.rs:463-492. -/
def derTruncate (idLen lenLen newLen c : Nat) (self : Tag) : Tr Value := Tr.call .excl self whole fun t => do
  idLength L v idLen t
  lengthOf L v idLen lenLen t
  let dest ← L.asMutPtr v t
  Tr.ev (.write dest (v.data L idLen newLen))
  if newLen < lenLen then
    Tr.ev (.read dest (v.data L (idLen + lenLen) c))
    Tr.ev (.write dest (v.data L (idLen + newLen) c))
  L.setLen dbg v (idLen + newLen + c) t

/-- `Ber::extend_from_slice` with an indefinite length.  bsn1/src/ber.rs:601-623. -/
def berExtend (idLen n : Nat) (self : Tag) : Tr Value := Tr.call .excl self whole fun t => do
  lengthOf L v idLen 1 t
  let v ← L.reserve v n t
  let dst ← L.asMutPtr v t
  L.len v t
  Tr.ev (.write dst (v.data L v.len n))
  L.len v t
  L.setLen dbg v (v.len + n) t

/-- `Der::with_id_length`, `Ber::with_id_length_indefinite` on the empty buffer with room: `idLen` octets of the identifier, `lenLen` of the length, `c` for
contents.  `self` is the local variable.  bsn1/src/der.rs:102-119, bsn1/src/ber.rs:234-249. -/
def withIdLength (idLen lenLen c : Nat) (self : Tag) : Tr Value := do
  let dst ← L.asMutPtr v self
  Tr.ev (.write dst (v.data L 0 idLen))
  Tr.ev (.write dst (v.data L idLen lenLen))
  L.setLen dbg v (idLen + lenLen + c) self

/-- The end of `Contents::from_positive` and `from_negative`, on the empty buffer with room: the pointer is made, the length is set, `n` octets are
written.  `self` is the local variable.  bsn1/src/contents.rs:78-83, 113-119. -/
def fromInteger (n : Nat) (self : Tag) : Tr Value := do
  let dst ← L.asMutPtr v self
  let v ← L.setLen dbg v n self
  Tr.ev (.write dst (v.data L 0 n))
  return v

end both

/-- The layout is chosen when the crate is compiled.  bsn1/src/buffer/mod.rs:17-25. -/
def lay (le : Bool) : Lay := if le then little else universal

/-- What can be done with a buffer, or with the `Der`, `Ber`, `Id`, `Contents` around it.  The parameters are those of the functions above.
E.g. bsn1/src/buffer/mod.rs:63-126. -/
inductive Op
  | push
  | extend (n : Nat)
  | setAt (i : Nat)
  | readAll
  | reserve (n : Nat)
  | setLen (n : Nat)
  | idSet
  | mutId (idLen lenLen : Nat)
  | mutIdSet (idLen lenLen : Nat)
  | mutContentsSet (idLen lenLen i : Nat)
  | derExtend (idLen lenLen newLen c n : Nat)
  | derTruncate (idLen lenLen newLen c : Nat)
  | berExtend (idLen n : Nat)
  | withIdLength (idLen lenLen c : Nat)
  | fromInteger (n : Nat)
deriving DecidableEq

/-- One of them.  E.g. bsn1/src/buffer/mod.rs:63-126. -/
def runOp (L : Lay) (dbg : Bool) (v : Value) (t : Tag) : Op → Tr Value
  | .push => push L dbg v t
  | .extend n => extend L dbg v n t
  | .setAt i => do setAt L v i t; return v
  | .readAll => do readAll L v t; return v
  | .reserve n => L.reserve v n t
  | .setLen n => L.setLen dbg v n t
  | .idSet => do idSet L v t; return v
  | .mutId k l => do mutId L v k l t; return v
  | .mutIdSet k l => do mutIdSet L v k l t; return v
  | .mutContentsSet k l i => do mutContentsSet L v k l i t; return v
  | .derExtend k l l' c n => derExtend L dbg v k l l' c n t
  | .derTruncate k l l' c => derTruncate L dbg v k l l' c t
  | .berExtend k n => berExtend L dbg v k n t
  | .withIdLength k l c => withIdLength L dbg v k l c t
  | .fromInteger n => fromInteger L dbg v n t

/-- One after the other.  E.g. bsn1/src/der.rs:102-119. -/
def runOps (L : Lay) (dbg : Bool) (t : Tag) : Value → List Op → Tr Value
  | v, [] => return v
  | v, op :: r => do
    let v ← runOp L dbg v t op
    runOps L dbg t v r

/-- A local variable with a new buffer, and what is done with it.  bsn1/src/buffer/little_endian/mod.rs:59-65,
bsn1/src/buffer/universal_endian/mod.rs:159-166. -/
def program (le dbg : Bool) (ops : List Op) : List Ev :=
  .alloc 0 0 :: (runOps (lay le) dbg 0 ⟨none, 0, 0, (lay le).room⟩ ops 2).2.2

/-- The beginning of `Contents::from_positive`: `vals` (block 1) are two numbers of `size` octets, `skip` octets of the second are zero, `back`
says that the octet before the next one is needed too.  With the copy of the octets.  bsn1/src/contents.rs:60-83. -/
def positiveSource (size skip : Nat) (back : Bool) (vals : Tag) : Tr Unit := do
  let r ← Tr.borrow .shared vals ⟨1, size, size⟩
  let p ← Tr.borrow .rawConst r ⟨1, size, size⟩
  Tr.ev (.read p ⟨1, size, skip + 1⟩)
  if back then Tr.ev (.read p ⟨1, size + skip - 1, size - skip + 1⟩)
  else Tr.ev (.read p ⟨1, size + skip, size - skip⟩)

/-- `parse_mut` of `DerRef`, `BerRef`, `IdRef`: the `n` octets of block 1, behind `&mut [u8]` with tag `bytes`, start with a value of `k` octets, which
are read (and `m` octets more may be).  Returns the value and the rest.
bsn1/src/der_ref.rs:149-165, bsn1/src/ber_ref.rs:139-160, bsn1/src/identifier_ref.rs:132-146. -/
def parseMut (n k : Nat) (bytes : Tag) : Tr (Tag × Tag) := do
  let r ← Tr.borrow .shared bytes ⟨1, 0, n⟩
  Tr.ev (.read r ⟨1, 0, k⟩)
  Tr.call .shared bytes ⟨1, 0, n⟩ fun _ => return
  let p ← Tr.call .excl bytes ⟨1, 0, n⟩ fun s => Tr.borrow .raw s ⟨1, 0, n⟩
  Tr.call .shared bytes ⟨1, 0, n⟩ fun _ => return
  let rest ← Tr.borrow .excl p ⟨1, k, n - k⟩
  let read ← Tr.borrow .excl p ⟨1, 0, k⟩
  return (read, rest)

/-- The caller: a variable with the octets (block 1) is lent to a function with `&mut [u8]`, which calls `parse_mut` and reads and writes through the
two references, in any order.  An access is: first or rest, write or read, offset.  bsn1/src/der_ref.rs:149-165. -/
def parseUse (n k : Nat) (us : List (Bool × Bool × Nat)) : List Ev :=
  let r := parseMut n k 3 4
  .alloc 2 1 :: .retag 2 3 .excl ⟨1, 0, n⟩ true :: r.2.2 ++
    us.map fun u => (if u.2.1 then Ev.write else Ev.read) (if u.1 then r.1.1 else r.1.2) ⟨1, u.2.2, 1⟩

/-- The array of `Contents::from_positive` (block 1) and what is read from it.  bsn1/src/contents.rs:60-83. -/
def positiveUse (size skip : Nat) (back : Bool) : List Ev := .alloc 2 1 :: (positiveSource size skip back 2 3).2.2

end Bsn1.Alias
