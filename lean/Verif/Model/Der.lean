import Verif.Model.Length
import Verif.Model.Id
/-!
# DER: bsn1/src/der_ref.rs, der.rs

`DerRef` and `Der` are represented by their octets.  The storage of `Der` (`Buffer`) is seen here
as a growable vector; that `Buffer` is one is the subject of `Verif.Model.Buffer*`.
-/

namespace Bsn1

/-- `a - b` on `usize`.  bsn1/src/der.rs:387, bsn1/src/ber.rs:679. -/
def usub (m : Build) (a b : Nat) : Res Nat :=
  if b ≤ a then .ok (a - b)
  else match m with
    | .debug => .panic
    | .release => .ok (usizeSize + a - b)

/-- `parse_id_length`, bsn1/src/misc.rs:59-66. -/
def parseIdLength {σ : Type} [Reader σ] : P σ Length := do
  let _ ← parseId
  parseLength

/-- `Buffer::reserve(additional)` on a buffer of `len` octets, as far as it can fail:
`len + additional` may overflow, and a capacity above `isize::MAX` panics in
`Layout::array(..).unwrap()` (bsn1/src/buffer/little_endian/mod.rs:125-157; on the `realloc` path
the allocator refuses such a size and line 149 panics).  When the sum wraps around, nothing is
reserved and the result is the wrapped sum.  Returns the guaranteed capacity. Failure of the
allocator on smaller sizes (abort of the process) is not modelled. -/
def bufReserve (m : Build) (len additional : Nat) : Res Nat := do
  let newCap ← uadd m len additional
  if newCap ≤ isizeMax then return newCap else .panic

/-- `Buffer`'s inline capacity, `INIT_CAPACITY`, bsn1/src/buffer/little_endian/mod.rs:25. -/
def initCapacity : Nat := 23

/-- Fresh, uninitialised cells: any octets.  What `set_len` at bsn1/src/der.rs:389 exposes. -/
def junkCells (junk : Nat → UInt8) (n : Nat) : Bytes := (List.range n).map junk

/-- Raw copy of `src` to the cells from `dst` on; outside of the buffer it is `ub`.  bsn1/src/der.rs:411, 426, 480, bsn1/src/ber.rs:618. -/
def memcpy (mem : Bytes) (dst : Nat) (src : Bytes) : Res Bytes :=
  if dst + src.length ≤ mem.length then
    .ok (mem.take dst ++ src ++ mem.drop (dst + src.length))
  else .ub

/-- `ptr::copy` inside the buffer (overlap allowed); outside of the buffer it is `ub`.  bsn1/src/der.rs:402, 486. -/
def memmove (mem : Bytes) (src dst count : Nat) : Res Bytes :=
  if src + count ≤ mem.length then memcpy mem dst ((mem.drop src).take count) else .ub

namespace DerRef

/-- `DerRef::boolean`, bsn1/src/der_ref.rs:44-49. -/
def boolean : Bool → Bytes
  | true => [0x01, 0x01, 0xff]
  | false => [0x01, 0x01, 0x00]

/-- `DerRef::do_parse`, bsn1/src/der_ref.rs:167-181.  Returns `*readable` too. -/
def doParse (readable : Bytes) : Res Unit × Bytes :=
  match (parseIdLength (σ := Bytes)).run readable [] with
  | (.ok .indefinite, readable, _) => (.err .indefiniteLength, readable)
  | (.ok (.definite length), readable, _) =>
    if readable.length < length then (.err .unterminatedBytes, readable)
    else
      match sliceFrom readable length with
      | .ok r => (.ok (), r)
      | .err e => (.err e, readable)
      | .panic => (.panic, readable)
      | .ub => (.ub, readable)
  | (.err e, readable, _) => (.err e, readable)
  | (.panic, readable, _) => (.panic, readable)
  | (.ub, readable, _) => (.ub, readable)

/-- `DerRef::parse`, bsn1/src/der_ref.rs:93-100.  Returns `*bytes` too.  The subtraction of line 97
cannot underflow as `do_parse` only advances; it is Lean's truncated subtraction. -/
def parse (bytes : Bytes) : Res Bytes × Bytes :=
  let initBytes := bytes
  match doParse bytes with
  | (.ok (), bytes) => (sliceTo initBytes (initBytes.length - bytes.length), bytes)
  | (.err e, bytes) => (.err e, bytes)
  | (.panic, bytes) => (.panic, bytes)
  | (.ub, bytes) => (.ub, bytes)

/-- `DerRef::parse_mut`, bsn1/src/der_ref.rs:149-165.  Returns `*bytes` too. -/
def parseMut (bytes : Bytes) : Res Bytes × Bytes :=
  match doParse bytes with
  | (.ok (), readable) =>
    let readBytes := bytes.length - readable.length
    if bytes.length < readBytes then (.ub, bytes)
    else (.ok (bytes.take readBytes), bytes.drop readBytes)
  | (.err e, _) => (.err e, bytes)
  | (.panic, _) => (.panic, bytes)
  | (.ub, _) => (.ub, bytes)

/-- `DerRef::id`, bsn1/src/der_ref.rs:252-254. -/
def id (self : Bytes) : Res Bytes := do
  let (id, _) ← parseIdUnchecked self
  return id

/-- `DerRef::disassemble`, bsn1/src/der_ref.rs:353-361; `disassemble_mut` (382-391) has the same
result. -/
def disassemble (self : Bytes) : Res (Bytes × Length × Bytes) := do
  let (id, bytes) ← parseIdUnchecked self
  let (length, bytes) ← parseLengthUnchecked bytes
  return (id, length, bytes)

/-- `DerRef::length`, bsn1/src/der_ref.rs:298-300. -/
def length (self : Bytes) : Res Length := do
  let (_, l, _) ← disassemble self
  return l

/-- `DerRef::contents`, bsn1/src/der_ref.rs:314-316. -/
def contents (self : Bytes) : Res Bytes := do
  let (_, _, c) ← disassemble self
  return c

/-- Writing octets through `mut_id()` (bsn1/src/der_ref.rs:274-276): `f` edits the identifier slice in
place, so it must keep its length. -/
def modifyId (self : Bytes) (f : Bytes → Res Bytes) : Res Bytes := do
  let (id, _, _) ← disassemble self
  let id' ← f id
  if id'.length = id.length then return id' ++ self.drop id.length else .panic

/-- `self.mut_contents().as_mut().copy_from_slice(src)` (bsn1/src/der_ref.rs:333-335): panics unless the
lengths agree. -/
def copyContents (self : Bytes) (src : Bytes) : Res Bytes := do
  let (_, _, c) ← disassemble self
  if c.length = src.length then
    return self.take (self.length - c.length) ++ src
  else .panic

end DerRef

namespace Der

/-- `Der::with_id_length`, bsn1/src/der.rs:102-119. -/
def withIdLength (m : Build) (junk : Nat → UInt8) (id : Bytes) (length : Nat) : Res Bytes := do
  let length_ ← (Length.definite length).toBytes
  let t ← uadd m id.length length_.length
  let totalLen ← uadd m t length
  let cap ← bufReserve m 0 totalLen
  let cap := max cap initCapacity
  -- the header is copied to raw memory
  if cap < id.length + length_.length then .ub
  else
    let header := id ++ length_
    -- `set_len(total_len)`
    return (header ++ junkCells junk (totalLen - header.length)).take totalLen

/-- `Der::new`, bsn1/src/der.rs:59-67. -/
def new (m : Build) (junk : Nat → UInt8) (id contents : Bytes) : Res Bytes := do
  let ret ← withIdLength m junk id contents.length
  DerRef.copyContents ret contents

/-- `Der::parse`, bsn1/src/der.rs:169-198.  Returns the reader too. -/
def parse {σ : Type} [Reader σ] (m : Build) (s : σ) : Res Bytes × σ :=
  match parseIdLength.run s [] with
  | (.ok .indefinite, s, _) => (.err .indefiniteLength, s)
  | (.ok (.definite contentsLength), s, w) =>
    let idLengthLen := w.length
    let r : Res Nat := do
      let totalLength ← uadd m idLengthLen contentsLength
      let _ ← bufReserve m idLengthLen contentsLength
      -- `writeable.as_mut_slice()[id_length_len..]` after `set_len(total_length)`
      if idLengthLen ≤ totalLength then return totalLength - idLengthLen else .panic
    match r with
    | .ok n =>
      match Reader.read n s with
      | (.fail k, s) => (.err (.io k), s)
      | (.data bs, s) =>
        if bs.length < contentsLength then (.err .unterminatedBytes, s)
        else (.ok (w ++ bs), s)
    | .err e => (.err e, s)
    | .panic => (.panic, s)
    | .ub => (.ub, s)
  | (.err e, s, _) => (.err e, s)
  | (.panic, s, _) => (.panic, s)
  | (.ub, s, _) => (.ub, s)

/-- The sum of line bsn1/src/der.rs:296-298. -/
def sumLen (m : Build) : (parts : List Bytes) → (acc : Nat) → Res Nat
  | [], acc => .ok acc
  | p :: r, acc => do
    let acc ← uadd m acc p.length
    sumLen m r acc

/-- `Buffer::extend_from_slice` for each part without further `reserve` (bsn1/src/der.rs:304-306):
exceeding the capacity is `ub`. -/
def extendAll (cap : Nat) : (parts : List Bytes) → (buffer : Bytes) → Res Bytes
  | [], buffer => .ok buffer
  | p :: r, buffer =>
    if cap < buffer.length + p.length then .ub else extendAll cap r (buffer ++ p)

/-- `Der::from_id_iterator`, bsn1/src/der.rs:291-310.  The iterator is the list of its items. -/
def fromIdIterator (m : Build) (id : Bytes) (parts : List Bytes) : Res Bytes := do
  let length ← sumLen m parts 0
  let lengthBytes ← (Length.definite length).toBytes
  let t ← uadd m id.length lengthBytes.length
  let totalLen ← uadd m t length
  let cap ← bufReserve m 0 totalLen
  let cap := max cap initCapacity
  extendAll cap (id :: lengthBytes :: parts) []

/-- `Der::extend_from_slice`, bsn1/src/der.rs:375-429. -/
def extendFromSlice (m : Build) (junk : Nat → UInt8) (self bytes : Bytes) : Res Bytes := do
  let id ← DerRef.id self
  let idLen := id.length
  let oldLength ← DerRef.length self
  let old ← match oldLength.definite? with
    | some n => Res.ok n
    | none => Res.panic
  let new ← uadd m old bytes.length
  let newLength := Length.definite new
  -- update the length of `buffer`
  let t ← uadd m bytes.length newLength.len
  let offset ← usub m t oldLength.len
  let _ ← bufReserve m self.length offset
  let newLen ← uadd m self.length offset
  let buffer := self ++ junkCells junk (newLen - self.length)
  -- copy the old contents octets if necessary
  let dest := idLen + newLength.len
  let src := idLen + oldLength.len
  let buffer ← if src ≠ dest then memmove buffer src dest old else .ok buffer
  let dest := dest + old
  -- copy `bytes`
  let buffer ← memcpy buffer dest bytes
  -- copy the length octets
  let newLengthBytes ← newLength.toBytes
  memcpy buffer idLen newLengthBytes

/-- `Der::push`, bsn1/src/der.rs:349-351. -/
def push (m : Build) (junk : Nat → UInt8) (self : Bytes) (byte : UInt8) : Res Bytes :=
  extendFromSlice m junk self [byte]

/-- `Der::truncate`, bsn1/src/der.rs:463-492. -/
def truncate (self : Bytes) (newLength : Nat) : Res Bytes := do
  let id ← DerRef.id self
  let idLen := id.length
  let l ← DerRef.length self
  let oldLength ← match l.definite? with
    | some n => Res.ok n
    | none => Res.panic
  if oldLength ≤ newLength then
    return self
  else
    let oldLength_ ← (Length.definite oldLength).toBytes
    let newLength_ ← (Length.definite newLength).toBytes
    -- copy the new length octets
    let dest := idLen
    let buffer ← memcpy self dest newLength_
    -- copy the contents octets if necessary
    let buffer ←
      if newLength_.length < oldLength_.length then
        memmove buffer (dest + oldLength_.length) (dest + newLength_.length) newLength
      else .ok buffer
    let newTotalLen := idLen + newLength_.length + newLength
    -- `set_len`
    if newTotalLen ≤ buffer.length then return buffer.take newTotalLen else .ub

end Der
end Bsn1
