import Verif.Model.Target
/-!
# Other word sizes: values that grow and shrink

The functions of `Model/Der` and `Model/Ber` that build a value from parts, grow it or shrink it, once more for any size of `usize`.
`C118_main_model` shows that for 8 octets they are the functions of the rest of the model.
-/

namespace Bsn1.Target
variable (t : Target)

/-- `a - b` on `usize`.  bsn1/src/der.rs:387, bsn1/src/ber.rs:679. -/
def usub (m : Build) (a b : Nat) : Res Nat :=
  if b ≤ a then .ok (a - b)
  else match m with
    | .debug => .panic
    | .release => .ok (t.usizeSize + a - b)

/-- `DerRef::length`, bsn1/src/der_ref.rs:298-300, and `BerRef::length`, bsn1/src/ber_ref.rs:298-300. -/
def refLength (self : Bytes) : Res Length := do
  let (_, l, _) ← t.disassemble self
  return l

/-- `BerRef::contents`, bsn1/src/ber_ref.rs:314-316. -/
def refContents (self : Bytes) : Res Bytes := do
  let (_, _, c) ← t.disassemble self
  return c

/-- `Der::extend_from_slice`, bsn1/src/der.rs:375-429. -/
def derExtend (m : Build) (junk : Nat → UInt8) (self bytes : Bytes) : Res Bytes := do
  let id ← DerRef.id self
  let idLen := id.length
  let oldLength ← t.refLength self
  let old ← match oldLength.definite? with
    | some n => Res.ok n
    | none => Res.panic
  let new ← t.uadd m old bytes.length
  let newLength := Length.definite new
  let s ← t.uadd m bytes.length (t.lengthLen newLength)
  let offset ← t.usub m s (t.lengthLen oldLength)
  let _ ← t.bufReserve m self.length offset
  let newLen ← t.uadd m self.length offset
  let buffer := self ++ junkCells junk (newLen - self.length)
  let dest := idLen + t.lengthLen newLength
  let src := idLen + t.lengthLen oldLength
  let buffer ← if src ≠ dest then memmove buffer src dest old else .ok buffer
  let dest := dest + old
  let buffer ← memcpy buffer dest bytes
  let newLengthBytes ← t.toBytes newLength
  memcpy buffer idLen newLengthBytes

/-- `Der::push`, bsn1/src/der.rs:349-351. -/
def derPush (m : Build) (junk : Nat → UInt8) (self : Bytes) (byte : UInt8) : Res Bytes :=
  t.derExtend m junk self [byte]

/-- `Der::truncate`, bsn1/src/der.rs:463-492. -/
def derTruncate (self : Bytes) (newLength : Nat) : Res Bytes := do
  let id ← DerRef.id self
  let idLen := id.length
  let l ← t.refLength self
  let oldLength ← match l.definite? with
    | some n => Res.ok n
    | none => Res.panic
  if oldLength ≤ newLength then
    return self
  else
    let oldLength_ ← t.toBytes (.definite oldLength)
    let newLength_ ← t.toBytes (.definite newLength)
    let dest := idLen
    let buffer ← memcpy self dest newLength_
    let buffer ←
      if newLength_.length < oldLength_.length then
        memmove buffer (dest + oldLength_.length) (dest + newLength_.length) newLength
      else .ok buffer
    let newTotalLen := idLen + newLength_.length + newLength
    if newTotalLen ≤ buffer.length then return buffer.take newTotalLen else .ub

/-- `Ber::with_id_length_indefinite`, bsn1/src/ber.rs:234-249. -/
def withIdLengthIndefinite (m : Build) (junk : Nat → UInt8) (id : Bytes) (length : Nat) : Res Bytes := do
  let length_ ← t.toBytes .indefinite
  let s ← t.uadd m id.length length_.length
  let totalLen ← t.uadd m s length
  let cap ← t.bufReserve m 0 totalLen
  let cap := max cap t.initCapacity
  if cap < id.length + length_.length then .ub
  else
    let header := id ++ length_
    return (header ++ junkCells junk (totalLen - header.length)).take totalLen

/-- `ret.mut_contents().as_mut().copy_from_slice(contents)` of bsn1/src/ber.rs:145. -/
def copyContents (self src : Bytes) : Res Bytes := do
  let (_, _, c) ← t.disassemble self
  if c.length = src.length then
    return self.take (self.length - c.length) ++ src
  else .panic

/-- `Ber::new_indefinite`, bsn1/src/ber.rs:141-148. -/
def newIndefinite (m : Build) (junk : Nat → UInt8) (id contents : Bytes) : Res Bytes := do
  let ret ← t.withIdLengthIndefinite m junk id contents.length
  t.copyContents ret contents

/-- `Ber::extend_from_slice`, bsn1/src/ber.rs:601-623. -/
def berExtend (m : Build) (junk : Nat → UInt8) (self bytes : Bytes) : Res Bytes := do
  match ← t.refLength self with
  | .definite _ => t.derExtend m junk self bytes
  | .indefinite =>
    let _ ← t.bufReserve m self.length bytes.length
    let newLen ← t.uadd m self.length bytes.length
    let cells := self ++ junkCells junk (newLen - self.length)
    memcpy cells self.length bytes

/-- `Ber::push`, bsn1/src/ber.rs:561-563. -/
def berPush (m : Build) (junk : Nat → UInt8) (self : Bytes) (byte : UInt8) : Res Bytes :=
  t.berExtend m junk self [byte]

/-- `Ber::truncate`, bsn1/src/ber.rs:668-684. -/
def berTruncate (m : Build) (self : Bytes) (newLength : Nat) : Res Bytes := do
  match ← t.refLength self with
  | .definite _ => t.derTruncate self newLength
  | .indefinite =>
    let c ← t.refContents self
    let oldLength := c.length
    if oldLength ≤ newLength then
      return self
    else
      let s ← t.uadd m self.length newLength
      let newTotalLen ← t.usub m s oldLength
      if newTotalLen ≤ self.length then return self.take newTotalLen else .ub

/-- The sum of line bsn1/src/der.rs:296-298. -/
def sumLen (m : Build) : (parts : List Bytes) → (acc : Nat) → Res Nat
  | [], acc => .ok acc
  | p :: r, acc => do
    let acc ← t.uadd m acc p.length
    sumLen m r acc

/-- `Der::from_id_iterator`, bsn1/src/der.rs:291-310 (`length_` is `Definite`), and `Ber::from_id_iterator_indefinite`, bsn1/src/ber.rs:470-489
(`Indefinite`).  The iterator is the list of its items. -/
def fromIter (m : Build) (indef : Bool) (id : Bytes) (parts : List Bytes) : Res Bytes := do
  let length ← t.sumLen m parts 0
  let lengthBytes ← t.toBytes (if indef then .indefinite else .definite length)
  let s ← t.uadd m id.length lengthBytes.length
  let totalLen ← t.uadd m s length
  let cap ← t.bufReserve m 0 totalLen
  let cap := max cap t.initCapacity
  Der.extendAll cap (id :: lengthBytes :: parts) []

end Bsn1.Target
