import Verif.Model.RawSer
/-!
# Panics: which values there are when one passes, and what dropping them does

`Model/Buffer`, `Model/Raw` and `Model/RawSer` stop at a panic.  In Rust a panic unwinds: each function that it passes drops its local values, and
values behind `&mut` stay as they are at that moment.  Here the same functions have this too: a function that gets `&mut Buffer` is a `Meth`, which
says how the struct is when it panics, and a function with a local `Buffer` drops it when a panic passes.  Code of the caller that may panic (readers,
iterators, implementations of `Serialize`) may do so at any call.
-/

namespace Bsn1.Buf

/-- How a function ends.  `unwind` is a panic, with the heap after the local values were dropped.
E.g. bsn1/src/der.rs:169-198, where `buffer` is dropped. -/
inductive UOut (α : Type) where
  | ok (a : α) (h : Heap)
  | unwind (h : Heap)
  | abort
  | ub

/-- How a function that has `&mut self` ends: with the struct and the heap.
E.g. bsn1/src/buffer/little_endian/mod.rs:125-157. -/
inductive MOut (B α : Type) where
  | ok (a : α) (b : B) (h : Heap)
  | unwind (b : B) (h : Heap)
  | abort
  | ub

/-- A function.  E.g. bsn1/src/der.rs:59-67. -/
def U (α : Type) := Heap → UOut α

/-- A function that has `&mut self`, or the part of a function after `let mut buffer`.
E.g. bsn1/src/buffer/little_endian/mod.rs:125-157, bsn1/src/der.rs:173-197. -/
def Meth (B α : Type) := B → Heap → MOut B α

/-- Statements in sequence, as everywhere in bsn1/src/der.rs:59-198. -/
instance : Monad U where
  pure a := fun h => .ok a h
  bind x f := fun h => match x h with
    | .ok a h => f a h
    | .unwind h => .unwind h
    | .abort => .abort
    | .ub => .ub

/-- Statements in sequence, as everywhere in bsn1/src/buffer/little_endian/mod.rs:37-206. -/
instance {B : Type} : Monad (Meth B) where
  pure a := fun b h => .ok a b h
  bind x f := fun b h => match x b h with
    | .ok a b h => f a b h
    | .unwind b h => .unwind b h
    | .abort => .abort
    | .ub => .ub

/-- A step that has no local value to drop and changes no memory if it panics: the functions of the model of memory, arithmetic, `unwrap`, `debug_assert!`,
reading.  E.g. bsn1/src/der.rs:104. -/
def U.step {α : Type} (x : M α) : U α := fun h => match x h with
  | .ok a h => .ok a h
  | .panic => .unwind h
  | .abort => .abort
  | .ub => .ub

/-- A panic of the caller's code.  E.g. in `next`, bsn1/src/der.rs:306. -/
def U.unwind {α : Type} : U α := fun h => .unwind h

namespace Meth
variable {B α : Type}

/-- `*self`, read.  E.g. bsn1/src/buffer/little_endian/mod.rs:126. -/
def self : Meth B B := fun b h => .ok b b h
/-- An assignment to fields of `self`.  E.g. bsn1/src/buffer/little_endian/mod.rs:140. -/
def put (b : B) : Meth B Unit := fun _ h => .ok () b h
/-- As `U.step`.  E.g. bsn1/src/buffer/little_endian/mod.rs:133. -/
def step (x : M α) : Meth B α := fun b h => match x h with
  | .ok a h => .ok a b h
  | .panic => .unwind b h
  | .abort => .abort
  | .ub => .ub
/-- A call of a function that does not have the struct.  E.g. bsn1_serde/src/lib.rs:45-62, where `contents` is such a struct. -/
def call (x : U α) : Meth B α := fun b h => match x h with
  | .ok a h => .ok a b h
  | .unwind h => .unwind b h
  | .abort => .abort
  | .ub => .ub
/-- A panic.  E.g. in `write_der_contents`, bsn1_serde/src/lib.rs:40. -/
def unwind : Meth B α := fun b h => .unwind b h
/-- `handle_alloc_error`.  bsn1/src/buffer/little_endian/mod.rs:136, 150. -/
def abort : Meth B α := fun _ _ => .abort
/-- Undefined behaviour; where `Model/Raw` has it.  E.g. for bsn1/src/ber.rs:331. -/
def ub : Meth B α := fun _ _ => .ub

end Meth

/-! ### bsn1/src/buffer/little_endian/mod.rs -/

namespace LE

/-- Writing through `as_mut_ptr` (bsn1/src/buffer/little_endian/mod.rs:169-181) at an offset. -/
def pokeU (off : Nat) (vals : Bytes) : Meth LE Unit := do
  let b ← Meth.self
  let b ← Meth.step (b.poke off vals)
  Meth.put b

/-- `ptr::copy` inside the storage (bsn1/src/buffer/little_endian/mod.rs:169-181). -/
def copyWithinU (src dst n : Nat) : Meth LE Unit := do
  let b ← Meth.self
  let b ← Meth.step (b.copyWithin src dst n)
  Meth.put b

/-- `set_len`, bsn1/src/buffer/little_endian/mod.rs:159-167. -/
def setLenU (len : Nat) : Meth LE Unit := do
  let b ← Meth.self
  Meth.put (b.setLen len)

/-- `reserve`, bsn1/src/buffer/little_endian/mod.rs:125-157. -/
def reserveU (m : Build) (al : Allocator) (additional : Nat) : Meth LE Unit := do
  let b ← Meth.self
  let newCap ← Meth.step (usizeAdd m b.len additional)
  if newCap ≤ b.capacity then return ()
  else if b.isStack then
    Meth.step (layoutArray newCap)
    let ptr ← Meth.step (alloc al newCap)
    if ptr = 0 then Meth.abort
    else
      let c ← Meth.step (b.peek b.len)
      Meth.step (store ptr 0 c)
      Meth.put (b.setWord 0 ptr)
      let b ← Meth.self
      Meth.put (b.setWord 8 newCap)
      let b ← Meth.self
      Meth.put (b.setWord 16 (b.len ||| HEAP_FLAG))
  else
    Meth.step (layoutArray b.capacity)
    let ptr ← Meth.step (realloc al b.data_ b.capacity newCap)
    if ptr = 0 then do
      Meth.step (layoutArray newCap)
      Meth.abort
    else
      Meth.put (b.setWord 0 ptr)
      let b ← Meth.self
      Meth.put (b.setWord 8 newCap)

/-- `as_mut_slice()[i] = v`, bsn1/src/buffer/little_endian/mod.rs:191-193. -/
def setAtU (i : Nat) (v : UInt8) : Meth LE Unit := do
  let b ← Meth.self
  if i < b.len then pokeU i [v] else Meth.unwind

/-- `push`, bsn1/src/buffer/little_endian/mod.rs:92-98. -/
def pushU (m : Build) (v : UInt8) : Meth LE Unit := do
  let b ← Meth.self
  let oldLen := b.len
  Meth.step (debugAssert m (oldLen < b.capacity))
  setLenU (oldLen + 1)
  setAtU oldLen v

/-- `extend_from_slice`, bsn1/src/buffer/little_endian/mod.rs:103-107. -/
def extendU (vals : Bytes) : Meth LE Unit := do
  let b ← Meth.self
  pokeU b.len vals
  let b ← Meth.self
  setLenU (b.len + vals.length)

end LE

/-! ### bsn1/src/buffer/universal_endian/mod.rs -/

namespace UE

/-- Writing through `as_mut_ptr` (bsn1/src/buffer/universal_endian/mod.rs:267-275) at an offset. -/
def pokeU (off : Nat) (vals : Bytes) : Meth UE Unit := do
  let b ← Meth.self
  let b ← Meth.step (b.poke off vals)
  Meth.put b

/-- `ptr::copy` inside the storage (bsn1/src/buffer/universal_endian/mod.rs:231-239, 267-275). -/
def copyWithinU (src dst n : Nat) : Meth UE Unit := do
  let b ← Meth.self
  let b ← Meth.step (b.copyWithin src dst n)
  Meth.put b

/-- `set_len`, bsn1/src/buffer/universal_endian/mod.rs:261-265. -/
def setLenU (m : Build) (newLen : Nat) : Meth UE Unit := do
  let b ← Meth.self
  let cap ← Meth.step b.capacity
  Meth.step (debugAssert m (newLen ≤ cap))
  Meth.put ⟨b.len_ &&& HEAP_FLAG, b.buffer_⟩
  let b ← Meth.self
  Meth.put ⟨b.len_ ||| newLen, b.buffer_⟩

/-- `HeapBuffer::realloc`, bsn1/src/buffer/universal_endian/mod.rs:64-76, of `self.buffer_.heap`. -/
def heapReallocU (al : Allocator) (newCapacity : Nat) : Meth UE Unit := do
  let b ← Meth.self
  let h ← Meth.step b.heapField
  Meth.step (layoutArray h.2)
  let data ← Meth.step (realloc al h.1 h.2 newCapacity)
  if data = 0 then do
    Meth.step (layoutArray newCapacity)
    Meth.abort
  else do
    Meth.put ⟨b.len_, .heap data h.2⟩
    Meth.put ⟨b.len_, .heap data newCapacity⟩

/-- `HeapBuffer::new`, bsn1/src/buffer/universal_endian/mod.rs:36-51: nothing to drop until it returns. -/
def heapNewU (m : Build) (al : Allocator) (capacity : Nat) : U (Nat × Nat) := do
  U.step (debugAssert m (0 < capacity))
  U.step (layoutArray capacity)
  let data ← U.step (alloc al capacity)
  U.step (if data = 0 then M.abort else pure (data, capacity))

/-- `reserve`, bsn1/src/buffer/universal_endian/mod.rs:241-259.  (The local `heap` of line 249 is moved to the struct; nothing between may panic.) -/
def reserveU (m : Build) (al : Allocator) (additional : Nat) : Meth UE Unit := do
  let b ← Meth.self
  let newCap ← Meth.step (usizeAdd m b.len additional)
  let cap ← Meth.step b.capacity
  if newCap ≤ cap then return ()
  else if b.isStack then do
    let heap ← Meth.call (heapNewU m al newCap)
    let c ← Meth.step (b.peek b.len)
    Meth.step (store heap.1 0 c)
    Meth.put ⟨b.len_, .heap heap.1 heap.2⟩
    let b ← Meth.self
    Meth.put ⟨b.len_ ||| HEAP_FLAG, b.buffer_⟩
  else heapReallocU al newCap

/-- `as_mut_slice()[i] = v`, bsn1/src/buffer/universal_endian/mod.rs:297-299. -/
def setAtU (i : Nat) (v : UInt8) : Meth UE Unit := do
  let b ← Meth.self
  if i < b.len then pokeU i [v] else Meth.unwind

/-- `push`, bsn1/src/buffer/universal_endian/mod.rs:202-208. -/
def pushU (m : Build) (v : UInt8) : Meth UE Unit := do
  let b ← Meth.self
  let oldLen := b.len
  let cap ← Meth.step b.capacity
  Meth.step (debugAssert m (oldLen < cap))
  setLenU m (oldLen + 1)
  setAtU oldLen v

/-- `extend_from_slice`, bsn1/src/buffer/universal_endian/mod.rs:213-217. -/
def extendU (m : Build) (vals : Bytes) : Meth UE Unit := do
  let b ← Meth.self
  pokeU b.len vals
  let b ← Meth.self
  setLenU m (b.len + vals.length)

end UE

/-! ### Local values -/

/-- `let mut b = …;` and then `body`, which ends in `Ok` with `b` moved into the result, or in `Err`: then `b` is dropped, as it is if a panic passes.
(A panic in a drop during unwinding aborts.)  The shape of bsn1/src/der.rs:169-198. -/
def own {B α ε : Type} (drop : B → M Unit) (b : B) (body : Meth B (Except ε α)) : U (Except ε (α × B)) := fun h =>
  match body b h with
  | .ok (.ok a) b h => .ok (.ok (a, b)) h
  | .ok (.error e) b h => match drop b h with
    | .ok () h => .ok (.error e) h
    | .panic => .unwind h
    | .abort => .abort
    | .ub => .ub
  | .unwind b h => match drop b h with
    | .ok () h => .unwind h
    | .panic => .abort
    | .abort => .abort
    | .ub => .ub
  | .abort => .abort
  | .ub => .ub

/-- `let mut b = …;`, then `body`, and `b` is returned.  The shape of bsn1/src/der.rs:102-119. -/
def build {B α : Type} (drop : B → M Unit) (b : B) (body : Meth B α) : U (α × B) := fun h =>
  match body b h with
  | .ok a b h => .ok (a, b) h
  | .unwind b h => match drop b h with
    | .ok () h => .unwind h
    | .panic => .abort
    | .abort => .abort
    | .ub => .ub
  | .abort => .abort
  | .ub => .ub

/-- `let mut b = …;`, then `body`, and `b` is dropped at the end.  The shape of bsn1_serde/src/lib.rs:36-62 for `contents`. -/
def using_ {B α : Type} (drop : B → M Unit) (b : B) (body : Meth B α) : U α := fun h =>
  match body b h with
  | .ok a b h => match drop b h with
    | .ok () h => .ok a h
    | .panic => .unwind h
    | .abort => .abort
    | .ub => .ub
  | .unwind b h => match drop b h with
    | .ok () h => .unwind h
    | .panic => .abort
    | .abort => .abort
    | .ub => .ub
  | .abort => .abort
  | .ub => .ub

/-! ### bsn1/src/buffer/mod.rs -/

/-- The functions of `endian::Buffer` that bsn1/src/buffer/mod.rs calls and that change the struct or make one. -/
structure UImpl (I : Impl) where
  withCapacity : Build → Allocator → Nat → U I.B
  push : Build → UInt8 → Meth I.B Unit
  extend : Build → Bytes → Meth I.B Unit
  reserve : Build → Allocator → Nat → Meth I.B Unit
  setLen : Build → Nat → Meth I.B Unit
  poke : Nat → Bytes → Meth I.B Unit
  copyWithin : (src dst n : Nat) → Meth I.B Unit
  setAt : Nat → UInt8 → Meth I.B Unit

/-- `little_endian`, bsn1/src/buffer/mod.rs:17-20.  `with_capacity` is bsn1/src/buffer/little_endian/mod.rs:67-71. -/
def littleU : UImpl little where
  withCapacity m al cap := do
    let r ← build LE.drop LE.new (LE.reserveU m al cap)
    return r.2
  push := LE.pushU
  extend _ := LE.extendU
  reserve := LE.reserveU
  setLen _ := LE.setLenU
  poke := LE.pokeU
  copyWithin := LE.copyWithinU
  setAt := LE.setAtU

/-- `universal_endian`, bsn1/src/buffer/mod.rs:22-25.  `with_capacity` is bsn1/src/buffer/universal_endian/mod.rs:168-179. -/
def universalU : UImpl universal where
  withCapacity m al capacity :=
    if capacity ≤ UE.INIT_CAPACITY then pure UE.new
    else do
      let h ← UE.heapNewU m al capacity
      return ⟨0 ||| HEAP_FLAG, .heap h.1 h.2⟩
  push := UE.pushU
  extend := UE.extendU
  reserve := UE.reserveU
  setLen := UE.setLenU
  poke := UE.pokeU
  copyWithin := UE.copyWithinU
  setAt := UE.setAtU

namespace UImpl
variable {I : Impl} (V : UImpl I)

/-- `set_len`, bsn1/src/buffer/mod.rs:102-105. -/
def setLenChecked (m : Build) (n : Nat) : Meth I.B Unit := do
  let b ← Meth.self
  let cap ← Meth.step (I.capacity b)
  Meth.step (debugAssert m (n ≤ cap))
  V.setLen m n

/-- `Write::write`, bsn1/src/buffer/mod.rs:202-206. -/
def write (m : Build) (al : Allocator) (vals : Bytes) : Meth I.B Unit := do
  V.reserve m al vals.length
  V.extend m vals

end UImpl
end Bsn1.Buf

namespace Bsn1.Raw
open Bsn1.Buf

variable {I : Impl} (V : UImpl I) (m : Build) (al : Allocator)

/-- `mut_contents().as_mut().copy_from_slice(src)` (bsn1/src/der_ref.rs:333-335, ber_ref.rs:334-336). -/
def copyContentsU (src : Bytes) : Meth I.B Unit := do
  let b ← Meth.self
  let (_, _, off) ← Meth.step (header I b)
  if I.len b - off = src.length then V.poke off src else Meth.unwind

/-- `buffer[i]`, bsn1/src/buffer/mod.rs:161-167. -/
def getIdxU (i : Nat) : Meth I.B UInt8 := do
  let b ← Meth.self
  Meth.step (getIdx I b i)

/-- `extend_from_slice` for each part, bsn1/src/der.rs:304-306; `panics` if `next`, or `as_ref` of an item, panics after these. -/
def extendAllU (panics : Bool) : (parts : List Bytes) → Meth I.B Unit
  | [] => if panics then Meth.unwind else pure ()
  | p :: r => do
    V.extend m p
    extendAllU panics r

/-- `write_u8` (bsn1/src/misc.rs:40-50) of each octet to the buffer. -/
def writeAllU : (w : Bytes) → Meth I.B Unit
  | [] => pure ()
  | o :: r => do
    V.write m al [o]
    writeAllU r

/-- A reader that panics instead of returning the errors of `p`: what has become of the header when the reader panics.  bsn1/src/misc.rs:26-31. -/
def orPanic {σ α : Type} (p : IoKind → Bool) : Res α × σ × Bytes → Res α × σ × Bytes
  | (.err (.io k), s, w) => if p k then (.panic, s, w) else (.err (.io k), s, w)
  | x => x

namespace Der

/-- What `Der::with_id_length`, bsn1/src/der.rs:102-119, and `Ber::with_id_length_indefinite`, ber.rs:234-249, do with the octets of the
length. -/
def withHeaderU (id : Bytes) (length_ : Bytes) (length : Nat) : U I.B := do
  let t ← U.step (usizeAdd m id.length length_.length)
  let totalLen ← U.step (usizeAdd m t length)
  let b ← V.withCapacity m al totalLen
  let r ← build I.drop b do
    V.poke 0 id
    V.poke id.length length_
    V.setLenChecked m totalLen
  return r.2

/-- `Der::with_id_length`, bsn1/src/der.rs:102-119. -/
def withIdLengthU (id : Bytes) (length : Nat) : U I.B := do
  let length_ ← U.step (liftRes (Length.definite length).toBytes)
  withHeaderU V m al id length_ length

/-- `Der::new`, bsn1/src/der.rs:59-67. -/
def newU (id contents : Bytes) : U I.B := do
  let b ← withIdLengthU V m al id contents.length
  let r ← build I.drop b (copyContentsU V contents)
  return r.2

/-- What `Der::from_id_iterator`, bsn1/src/der.rs:291-310, and `Ber::from_id_iterator_indefinite`, ber.rs:470-489, do with the octets of
the length. -/
def fromPartsU (id lengthBytes : Bytes) (parts : List Bytes) (panics : Bool) (length : Nat) : U I.B := do
  let t ← U.step (usizeAdd m id.length lengthBytes.length)
  let totalLen ← U.step (usizeAdd m t length)
  let b ← V.withCapacity m al totalLen
  let r ← build I.drop b (extendAllU V m panics (id :: lengthBytes :: parts))
  return r.2

/-- The first pass, over the clone (bsn1/src/der.rs:296-298), which may panic after the items. -/
def countU (counted : List Bytes) (panics : Bool) : U Nat := do
  let n ← U.step (liftRes (Bsn1.Der.sumLen m counted 0))
  if panics then U.unwind else return n

/-- `Der::from_id_iterator`, bsn1/src/der.rs:291-310, for an iterator that may panic, in the first or in the second pass. -/
def fromPassesU (id : Bytes) (counted : List Bytes × Bool) (parts : List Bytes × Bool) : U I.B := do
  let length ← countU m counted.1 counted.2
  let lengthBytes ← U.step (liftRes (Length.definite length).toBytes)
  fromPartsU V m al id lengthBytes parts.1 parts.2 length

/-- `Der::extend_from_slice`, bsn1/src/der.rs:375-429. -/
def extendFromSliceU (bytes : Bytes) : Meth I.B Unit := do
  let b ← Meth.self
  let (id, oldLength, _) ← Meth.step (header I b)
  let idLen := id.length
  let old ← Meth.step (match oldLength.definite? with
    | some n => pure n
    | none => M.panic)
  let new ← Meth.step (usizeAdd m old bytes.length)
  let newLength := Length.definite new
  let t ← Meth.step (usizeAdd m bytes.length newLength.len)
  let offset ← Meth.step (liftRes (usub m t oldLength.len))
  V.reserve m al offset
  let b ← Meth.self
  let newLen ← Meth.step (usizeAdd m (I.len b) offset)
  V.setLenChecked m newLen
  let dest := idLen + newLength.len
  let src := idLen + oldLength.len
  if src ≠ dest then V.copyWithin src dest old
  let dest := dest + old
  V.poke dest bytes
  let dest := dest + bytes.length
  let b ← Meth.self
  Meth.step (debugAssert m (dest = I.len b))
  let newLengthBytes ← Meth.step (liftRes newLength.toBytes)
  V.poke idLen newLengthBytes

/-- `Der::truncate`, bsn1/src/der.rs:463-492. -/
def truncateU (newLength : Nat) : Meth I.B Unit := do
  let b ← Meth.self
  let (id, l, _) ← Meth.step (header I b)
  let idLen := id.length
  let oldLength ← Meth.step (match l.definite? with
    | some n => pure n
    | none => M.panic)
  if oldLength ≤ newLength then
    return ()
  else
    let oldLength_ ← Meth.step (liftRes (Length.definite oldLength).toBytes)
    let newLength_ ← Meth.step (liftRes (Length.definite newLength).toBytes)
    V.poke idLen newLength_
    if newLength_.length < oldLength_.length then
      V.copyWithin (idLen + oldLength_.length) (idLen + newLength_.length) newLength
    let newTotalLen := idLen + newLength_.length + newLength
    V.setLenChecked m newTotalLen

variable {σ : Type} [Reader σ]

/-- `Der::parse`, bsn1/src/der.rs:173-197, after `let mut buffer`.  The reader may panic while the header is read, instead of returning one of the errors of
`p`, and while the contents are. -/
def parseBodyU (p : IoKind → Bool) (rd : Nat → σ → ReadEffect σ) (s : σ) : Meth I.B (Except (Error × σ) σ) :=
  match orPanic p ((parseIdLength (σ := σ)).run s []) with
  | (r, s, w) => do
    writeAllU V m al w
    match r with
    | .ok .indefinite => return .error (.indefiniteLength, s)
    | .ok (.definite contentsLength) => do
      let b ← Meth.self
      let idLengthLen := I.len b
      let totalLength ← Meth.step (usizeAdd m idLengthLen contentsLength)
      V.reserve m al contentsLength
      V.setLenChecked m totalLength
      let b ← Meth.self
      if I.len b < idLengthLen then Meth.unwind
      else
        let n := I.len b - idLengthLen
        let e := rd n s
        V.poke idLengthLen (e.written.take n)
        match e.result with
        | .ok read => return if read < contentsLength then .error (.unterminatedBytes, e.next) else .ok e.next
        | .err er => return .error (er, e.next)
        | .panic => Meth.unwind
        | .ub => Meth.ub
    | .err er => return .error (er, s)
    | .panic => Meth.unwind
    | .ub => Meth.ub

/-- What the caller sees of the result and of its reader.  bsn1/src/der.rs:169. -/
def outcome {B : Type} : Except (Error × σ) (σ × B) → Except Error B × σ
  | .ok (s, b) => (.ok b, s)
  | .error (e, s) => (.error e, s)

/-- `Der::parse`, bsn1/src/der.rs:169-198. -/
def parseU (p : IoKind → Bool) (rd : Nat → σ → ReadEffect σ) (s : σ) : U (Except Error I.B × σ) := do
  let r ← own I.drop I.new (parseBodyU V m al p rd s)
  return outcome r

end Der

namespace Ber

/-- `Ber::with_id_length_indefinite`, bsn1/src/ber.rs:234-249. -/
def withIdLengthIndefiniteU (id : Bytes) (length : Nat) : U I.B := do
  let length_ ← U.step (liftRes Length.indefinite.toBytes)
  Der.withHeaderU V m al id length_ length

/-- `Ber::new_indefinite`, bsn1/src/ber.rs:141-148. -/
def newIndefiniteU (id contents : Bytes) : U I.B := do
  let b ← withIdLengthIndefiniteU V m al id contents.length
  let r ← build I.drop b (copyContentsU V contents)
  return r.2

/-- `Ber::from_id_iterator_indefinite`, bsn1/src/ber.rs:470-489, for an iterator that may panic. -/
def fromPassesIndefiniteU (id : Bytes) (counted : List Bytes × Bool) (parts : List Bytes × Bool) : U I.B := do
  let length ← Der.countU m counted.1 counted.2
  let lengthBytes ← U.step (liftRes Length.indefinite.toBytes)
  Der.fromPartsU V m al id lengthBytes parts.1 parts.2 length

variable {σ : Type} [Reader σ]

/-- `Ber::do_parse`, bsn1/src/ber.rs:318-342, with a reader that may panic. -/
def doParseU (p : IoKind → Bool) (rd : Nat → σ → ReadEffect σ) (s : σ) : Meth I.B (Except (Error × σ) (Int × σ)) :=
  match orPanic p ((parseIdLength (σ := σ)).run s []) with
  | (r, s, w) => do
    let b ← Meth.self
    let initLen := I.len b
    writeAllU V m al w
    match r with
    | .ok (.definite length) => do
      V.reserve m al length
      let b ← Meth.self
      let currentLen := I.len b
      let total ← Meth.step (usizeAdd m currentLen length)
      V.setLenChecked m total
      let b ← Meth.self
      if I.len b < currentLen then Meth.unwind
      else
        let n := I.len b - currentLen
        let e := rd n s
        V.poke currentLen (e.written.take n)
        match e.result with
        | .ok _ => do
          let b ← Meth.self
          let eoc ← Meth.step (isEoc I b initLen)
          return .ok (if eoc then -1 else 0, e.next)
        | .err er => return .error (er, e.next)
        | .panic => Meth.unwind
        | .ub => Meth.ub
    | .ok .indefinite => return .ok (1, s)
    | .err er => return .error (er, s)
    | .panic => Meth.unwind
    | .ub => Meth.ub

/-- The `while` loop of `Ber::parse`, bsn1/src/ber.rs:310-313. -/
def parseLoopU (p : IoKind → Bool) (rd : Nat → σ → ReadEffect σ) :
    (fuel : Nat) → (stackDepth : Int) → σ → Meth I.B (Except (Error × σ) σ)
  | 0, _, _ => Meth.unwind
  | fuel + 1, stackDepth, s => do
    match ← doParseU V m al p rd s with
    | .error e => return .error e
    | .ok (d, s) =>
      let stackDepth := stackDepth + d
      if isizeMax < stackDepth then Meth.unwind
      else if stackDepth > 0 then parseLoopU p rd fuel stackDepth s
      else return .ok s

/-- `Ber::parse`, bsn1/src/ber.rs:303-316. -/
def parseU (p : IoKind → Bool) (rd : Nat → σ → ReadEffect σ) (s : σ) : U (Except Error I.B × σ) := do
  let r ← own I.drop I.new (parseLoopU V m al p rd (Reader.size s + 1) 0 s)
  return Der.outcome r

/-- `Ber::extend_from_slice`, bsn1/src/ber.rs:601-623. -/
def extendFromSliceU (bytes : Bytes) : Meth I.B Unit := do
  let b ← Meth.self
  let (_, l, _) ← Meth.step (header I b)
  match l with
  | .definite _ => Der.extendFromSliceU V m al bytes
  | .indefinite => do
    V.reserve m al bytes.length
    let b ← Meth.self
    V.poke (I.len b) bytes
    let b ← Meth.self
    let newLen ← Meth.step (usizeAdd m (I.len b) bytes.length)
    V.setLenChecked m newLen

/-- `Ber::truncate`, bsn1/src/ber.rs:668-684. -/
def truncateU (newLength : Nat) : Meth I.B Unit := do
  let b ← Meth.self
  let (_, l, off) ← Meth.step (header I b)
  match l with
  | .definite _ => Der.truncateU V m newLength
  | .indefinite => do
    let oldLength := I.len b - off
    if oldLength ≤ newLength then return ()
    else
      let t ← Meth.step (usizeAdd m (I.len b) newLength)
      let newTotalLen ← Meth.step (liftRes (usub m t oldLength))
      V.setLenChecked m newTotalLen

end Ber

namespace Id

/-- The loops of `Id::new` and `Id::set_number`, bsn1/src/identifier.rs:80-84 and 209-213. -/
def fillDigitsU : (i : Nat) → (num : Nat) → Meth I.B Nat
  | 0, num => pure num
  | i + 1, num => do
    V.setAt (i + 1) (UInt8.ofNat num ||| IdRef.MORE_FLAG)
    fillDigitsU i (num / 128)

variable {σ : Type} [Reader σ]

/-- `Id::parse`, bsn1/src/identifier.rs:134-141, with a reader that may panic. -/
def parseU (p : IoKind → Bool) (s : σ) : U (Except Error I.B × σ) := do
  let r ← own I.drop I.new (match orPanic p ((parseId (σ := σ)).run s []) with
    | (r, s, w) => do
      writeAllU V m al w
      match r with
      | .ok _ => return (.ok s : Except (Error × σ) σ)
      | .err e => return .error (e, s)
      | .panic => Meth.unwind
      | .ub => Meth.ub)
  return Der.outcome r

/-- `Id::set_number`, bsn1/src/identifier.rs:183-217. -/
def setNumberU (num : Nat) : Meth I.B Unit := do
  let first ← getIdxU 0
  let c ← Meth.step (liftRes (IdRef.clazz [first]))
  let p ← Meth.step (liftRes (IdRef.pc [first]))
  if num ≤ IdRef.MAX_SHORT.toNat then do
    V.setAt 0 (c.toU8 + p.toU8 + UInt8.ofNat num)
    V.setLenChecked m 1
  else do
    let longFlag := c.toU8 + p.toU8 + IdRef.LONG_FLAG
    let numberBitsLen := 16 * 8 - leadingZeros 128 num
    let numberBytesLen := (numberBitsLen + 7 - 1) / 7
    let len := numberBytesLen + 1
    let b ← Meth.self
    if I.len b < len then V.reserve m al (len - I.len b)
    V.setLenChecked m len
    V.setAt 0 longFlag
    let n ← fillDigitsU V (len - 1) num
    let last ← getIdxU (len - 1)
    V.setAt (len - 1) (last &&& ~~~ IdRef.MORE_FLAG)
    Meth.step (debugAssert m (n = 0))

end Id

/-! ### bsn1_serde/src/lib.rs -/

/-- `Write::write_all` of each slice with `W = Buffer` (bsn1/src/buffer/mod.rs:202-206). -/
def writeChunksU : (chunks : List Bytes) → Meth I.B Unit
  | [] => pure ()
  | c :: r => do
    if c.isEmpty then pure () else V.write m al c
    writeChunksU r

/-- A method of `Serialize` that writes to the buffer, and may panic.  bsn1_serde/src/lib.rs:40, 53, 59. -/
def runWU (w : W Unit) : Meth I.B (Except Error Unit) := do
  writeChunksU V m al w.chunks
  match w.res with
  | .ok a => return .ok a
  | .err e => return .error e
  | .panic => Meth.unwind
  | .ub => Meth.ub

variable {α : Type} (s : Ser α) (value : α)

/-- bsn1_serde/src/lib.rs:48-51. -/
def reserveHintU (idLen : Option Nat) (lengthLen contentsLen : Nat) : Meth I.B Unit := do
  match idLen with
  | some idLen => do
    let t ← Meth.step (usizeAdd m idLen lengthLen)
    let derLen ← Meth.step (usizeAdd m t contentsLen)
    V.reserve m al derLen
  | none => return ()

/-- bsn1_serde/src/lib.rs:48-62: `buffer` is the local value, `contents` belongs to the caller. -/
def derBufferU (idLen : Option Nat) (length : Bytes) (contentsLen : Nat) (contents : Option I.B) : Meth I.B (Except Error Unit) := do
  reserveHintU V m al idLen length.length contentsLen
  match ← runWU V m al (s.writeId value) with
  | .error e => return .error e
  | .ok () => do
    writeChunksU V m al [length]
    match contents with
    | some c => do
      let cells ← Meth.step (I.cells c)
      let bytes ← Meth.step (assumeInit cells)
      writeChunksU V m al [bytes]
      return .ok ()
    | none => runWU V m al (s.writeDerContents value)

/-- bsn1_serde/src/lib.rs:45-62. -/
def derFromU (contentsLen : Nat) (contents : Option I.B) : U (Except Error I.B) := do
  let length ← U.step (liftRes (Length.definite contentsLen).toBytes)
  match s.idLen value with
  | .err e => return .error e
  | .panic => U.unwind
  | .ub => fun _ => .ub
  | .ok idLen => do
    let r ← own I.drop I.new (derBufferU V m al s value idLen length contentsLen contents)
    return r.map (·.2)

/-- `to_der`, bsn1_serde/src/lib.rs:32-63, for an implementation of `Serialize` whose methods may panic; `to_ber`, 66-72, wraps the same buffer.
The local `contents` is dropped at the end. -/
def toDerU : U (Except Error I.B) := do
  match s.derContentsLen value with
  | .err e => return .error e
  | .panic => U.unwind
  | .ub => fun _ => .ub
  | .ok (some len) => derFromU V m al s value len none
  | .ok none => using_ I.drop I.new do
    match ← runWU V m al (s.writeDerContents value) with
    | .error e => return .error e
    | .ok () => do
      let c ← Meth.self
      Meth.call (derFromU V m al s value (I.len c) (some c))

end Bsn1.Raw
