import Verif.Model.Reader
/-!
# `Length`, bsn1/src/length.rs
-/

namespace Bsn1

/-- `enum Length`, bsn1/src/length.rs:36-43. -/
inductive Length where
  | indefinite
  | definite (n : Nat)
  deriving DecidableEq, Repr

namespace Length

/-- bsn1/src/length.rs:46 -/
def LONG_FLAG : UInt8 := 0x80
/-- bsn1/src/length.rs:47 -/
def MAX_SHORT : UInt8 := LONG_FLAG - 1
/-- bsn1/src/length.rs:48 -/
def INDEFINITE : UInt8 := 0x80

/-- `Length::len`, bsn1/src/length.rs:147-164. -/
def len : Length → Nat
  | indefinite => 1
  | definite val =>
    if val ≤ MAX_SHORT.toNat then 1
    else
      let bitLen := 8 * 8 - leadingZeros 64 val
      let byteLen := (bitLen + (8 - 1)) / 8
      byteLen + 1

/-- `LengthBuffer::CAPACITY`, bsn1/src/length_buffer.rs:28. -/
def bufferCapacity : Nat := len (definite (usizeSize - 1))

/-- `Length::to_bytes`, bsn1/src/length.rs:94-128.  Writing more octets than the fixed array of
`LengthBuffer` holds would be `ub`. -/
def toBytes : Length → Res Bytes
  | indefinite => .ok [INDEFINITE]
  | definite val =>
    if val ≤ MAX_SHORT.toNat then .ok [UInt8.ofNat val]
    else
      let bitLen := 8 * 8 - leadingZeros 64 val
      let byteLen := (bitLen + 8 - 1) / 8
      let flag := LONG_FLAG + UInt8.ofNat byteLen
      if bufferCapacity < byteLen + 1 then .ub
      else .ok (flag :: (toBeBytes 8 val).drop (8 - byteLen))

/-- `Length::definite`, bsn1/src/length.rs:182-187. -/
def definite? : Length → Option Nat
  | indefinite => none
  | definite n => some n

/-- `Length::is_indefinite`, bsn1/src/length.rs:202-207. -/
def isIndefinite : Length → Bool
  | indefinite => true
  | _ => false

/-- `Length::is_definite`, bsn1/src/length.rs:222-227. -/
def isDefinite : Length → Bool
  | indefinite => false
  | _ => true

/-- `PartialEq::eq`, bsn1/src/length.rs:230-234. -/
def eq (self other : Length) : Bool :=
  self.isDefinite && (self.definite? == other.definite?)

/-- `PartialOrd::partial_cmp`, bsn1/src/length.rs:236-243. -/
def partialCmp (self other : Length) : Option Ordering := do
  let this ← self.definite?
  let other ← other.definite?
  return compare this other

end Length

variable {σ : Type} [Reader σ]

/-- The loop of `parse_length`, bsn1/src/length.rs:287-291 (`k` iterations left). -/
def parseLengthLoop : (k : Nat) → (len : Nat) → P σ Nat
  | 0, len => pure len
  | k + 1, len => do
    let byte ← readU8
    writeU8 byte
    parseLengthLoop k ((len * 256) % usizeSize + byte.toNat)

/-- `parse_length`, bsn1/src/length.rs:252-295. -/
def parseLength : P σ Length := do
  let first ← readU8
  writeU8 first
  if first = Length.INDEFINITE then
    return .indefinite
  else if first &&& Length.LONG_FLAG ≠ Length.LONG_FLAG then
    return .definite first.toNat
  else
    let second ← readU8
    if second = 0x00 then
      P.throw .redundantBytes
    else
      writeU8 second
      let followingsCount := (first ^^^ Length.LONG_FLAG).toNat
      if followingsCount = 1 ∧ second ≤ Length.MAX_SHORT then
        P.throw .redundantBytes
      else if 8 < followingsCount then
        P.throw .overFlow
      else
        let len ← parseLengthLoop (followingsCount - 1) second.toNat
        return .definite len

/-- `Length::parse`, bsn1/src/length.rs:73-79: the octets go to `sink()`.  Returns the reader too. -/
def Length.parse (s : σ) : Res Length × σ :=
  let r := parseLength.run s []
  (r.1, r.2.1)

/-- `parse_length_unchecked`, bsn1/src/length.rs:305-326.  Returns the length and the rest. -/
def parseLengthUnchecked (bytes : Bytes) : Res (Length × Bytes) := do
  let first ← getAt bytes 0
  let bytes ← sliceFrom bytes 1
  if first = Length.INDEFINITE then
    return (.indefinite, bytes)
  else if first &&& Length.LONG_FLAG ≠ Length.LONG_FLAG then
    return (.definite first.toNat, bytes)
  else
    let followingsCount := (first &&& ~~~ Length.LONG_FLAG).toNat
    let digits ← sliceTo bytes followingsCount
    let ret := digits.foldl (fun acc byte => (acc * 256) % usizeSize + byte.toNat) 0
    let rest ← sliceFrom bytes followingsCount
    return (.definite ret, rest)

end Bsn1
