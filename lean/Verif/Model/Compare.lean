import Verif.Model.Length
import Verif.Model.Id
/-!
# Comparison of identifiers, and the stack buffer of length octets
-/

namespace Bsn1

/-- `<[u8] as Ord>::cmp` of the standard library: the first octets that differ decide, else the lengths.
Called at bsn1/src/buffer/mod.rs:191 and 197, and by the derived `Ord` of bsn1/src/identifier_ref.rs:34; not in /repo. -/
def sliceCmp : Bytes → Bytes → Ordering
  | [], [] => .eq
  | [], _ :: _ => .lt
  | _ :: _, [] => .gt
  | a :: x, b :: y =>
    match compare a.toNat b.toNat with
    | .eq => sliceCmp x y
    | o => o

namespace IdRef

/-- `PartialEq` of `IdRef` and `Id`: derived on the octets, bsn1/src/identifier_ref.rs:34, 665-672; bsn1/src/identifier.rs:273-280. -/
def eq (self other : Bytes) : Bool := self == other

/-- `PartialOrd` of `IdRef` and `Id`: derived on the octets, bsn1/src/identifier_ref.rs:34, 674-682; bsn1/src/identifier.rs:282-289. -/
def partialCmp (self other : Bytes) : Option Ordering := some (sliceCmp self other)

/-- `Ord` of `IdRef` (derived, bsn1/src/identifier_ref.rs:34) and of `Id` (derived, bsn1/src/identifier.rs:32, through that of
`Buffer`, bsn1/src/buffer/mod.rs:195-199). -/
def cmp (self other : Bytes) : Ordering := sliceCmp self other

end IdRef

/-- `struct LengthBuffer`, bsn1/src/length_buffer.rs:21-25.  `buffer` is the array of `CAPACITY` octets. -/
structure LengthBuffer where
  buffer : Bytes
  len_ : UInt8

namespace LengthBuffer

/-- `LengthBuffer::new`, bsn1/src/length_buffer.rs:30-35. -/
def new : LengthBuffer := ⟨List.replicate Length.bufferCapacity 0, 0⟩

/-- `LengthBuffer::len`, bsn1/src/length_buffer.rs:55-57. -/
def len (self : LengthBuffer) : Nat := self.len_.toNat

/-- `LengthBuffer::capacity`, bsn1/src/length_buffer.rs:65-67. -/
def capacity (_ : LengthBuffer) : Nat := Length.bufferCapacity

/-- `LengthBuffer::push`, bsn1/src/length_buffer.rs:40-45: the assertion (debug builds only), the array access (which panics out of
bounds) and the addition on `u8`. -/
def push (m : Build) (self : LengthBuffer) (val : UInt8) : Res LengthBuffer :=
  if m = .debug ∧ ¬ self.len < self.capacity then .panic
  else if self.buffer.length ≤ self.len then .panic
  else if m = .debug ∧ self.len_ = 255 then .panic
  else .ok ⟨self.buffer.set self.len val, self.len_ + 1⟩

/-- `LengthBuffer::set_len`, bsn1/src/length_buffer.rs:59-63. -/
def setLen (m : Build) (self : LengthBuffer) (newLen : Nat) : Res LengthBuffer :=
  if m = .debug ∧ ¬ newLen ≤ self.capacity then .panic
  else .ok ⟨self.buffer, UInt8.ofNat newLen⟩

/-- `Deref`, bsn1/src/length_buffer.rs:75-81: a slice made of a pointer and a length, which must not reach beyond the array. -/
def deref (self : LengthBuffer) : Res Bytes :=
  if self.len ≤ self.buffer.length then .ok (self.buffer.take self.len) else .ub

/-- `IndexMut` (an assignment), bsn1/src/length_buffer.rs:83-87, 97-101. -/
def set (self : LengthBuffer) (i : Nat) (val : UInt8) : Res LengthBuffer :=
  if self.buffer.length < self.len then .ub
  else if self.len ≤ i then .panic
  else .ok { self with buffer := self.buffer.set i val }

/-- `self.as_mut_ptr().add(at).copy_from_nonoverlapping(src, src.len())`, bsn1/src/length_buffer.rs:51-53,
bsn1/src/length.rs:120-121: the array must have room. -/
def copyAt (self : LengthBuffer) (pos : Nat) (src : Bytes) : Res LengthBuffer :=
  if pos + src.length ≤ self.buffer.length then
    .ok { self with buffer := self.buffer.take pos ++ src ++ self.buffer.drop (pos + src.length) }
  else .ub

end LengthBuffer

/-- `Length::to_bytes`, bsn1/src/length.rs:94-128, statement by statement: pointers into `val` and into the buffer included.
`Length.toBytes` is the version without the buffer. -/
def Length.toBytesIn (m : Build) : Length → Res Bytes
  | indefinite => do
    let buffer ← LengthBuffer.new.push m INDEFINITE
    buffer.deref
  | definite val =>
    if val ≤ MAX_SHORT.toNat then do
      let buffer ← LengthBuffer.new.push m (UInt8.ofNat val)
      buffer.deref
    else do
      let bitLen := 8 * 8 - leadingZeros 64 val
      let byteLen := (bitLen + 8 - 1) / 8
      let flag := LONG_FLAG + UInt8.ofNat byteLen
      let buffer ← LengthBuffer.new.setLen m (byteLen + 1)
      let buffer ← buffer.set 0 flag
      if byteLen ≤ 8 then do
        let src := ((toBeBytes 8 val).drop (8 - byteLen)).take byteLen
        let buffer ← buffer.copyAt 1 src
        buffer.deref
      else .ub

end Bsn1
