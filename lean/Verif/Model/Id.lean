import Verif.Model.Reader
/-!
# Identifiers: bsn1/src/id_tags.rs, identifier.rs, identifier_ref.rs

`IdRef` and `Id` are represented by their octets.
-/

namespace Bsn1

/-- `enum ClassTag`, bsn1/src/id_tags.rs:20-29. -/
inductive ClassTag where
  | universal | application | contextSpecific | priv
  deriving DecidableEq, Repr

/-- `class as u8`, discriminants of bsn1/src/id_tags.rs:22-28. -/
def ClassTag.toU8 : ClassTag → UInt8
  | universal => 0x00
  | application => 0x40
  | contextSpecific => 0x80
  | priv => 0xc0

/-- `enum PCTag`, bsn1/src/id_tags.rs:32-39. -/
inductive PCTag where
  | primitive | constructed
  deriving DecidableEq, Repr

/-- `pc as u8`, discriminants of bsn1/src/id_tags.rs:36-38. -/
def PCTag.toU8 : PCTag → UInt8
  | primitive => 0x00
  | constructed => 0x20

namespace IdRef

/-- bsn1/src/identifier_ref.rs:23 -/
def LONG_FLAG : UInt8 := 0x1f
/-- bsn1/src/identifier_ref.rs:24 -/
def MAX_SHORT : UInt8 := LONG_FLAG - 1
/-- bsn1/src/identifier_ref.rs:25 -/
def MORE_FLAG : UInt8 := 0x80
/-- bsn1/src/identifier_ref.rs:26 -/
def CLASS_MASK : UInt8 := 0xc0
/-- bsn1/src/identifier_ref.rs:27 -/
def PC_MASK : UInt8 := 0x20

/-- `IdRef::eoc`, identifier_ref.rs:225-228 -/
def eoc : Bytes := [0x00]
/-- `IdRef::boolean`, identifier_ref.rs:243-246 -/
def boolean : Bytes := [0x01]
/-- `IdRef::integer`, identifier_ref.rs:261-264 -/
def integer : Bytes := [0x02]
/-- `IdRef::octet_string`, identifier_ref.rs:279-282 -/
def octetString : Bytes := [0x04]
/-- `IdRef::octet_string_constructed`, identifier_ref.rs:297-300 -/
def octetStringConstructed : Bytes := [0x24]
/-- `IdRef::null`, identifier_ref.rs:315-318 -/
def null : Bytes := [0x05]
/-- `IdRef::real`, identifier_ref.rs:333-336 -/
def real : Bytes := [0x09]
/-- `IdRef::utf8_string`, identifier_ref.rs:351-354 -/
def utf8String : Bytes := [0x0c]
/-- `IdRef::utf8_string_constructed`, identifier_ref.rs:369-372 -/
def utf8StringConstructed : Bytes := [0x2c]
/-- `IdRef::sequence`, identifier_ref.rs:388-391 -/
def sequence : Bytes := [0x30]
/-- `IdRef::set`, identifier_ref.rs:406-409 -/
def set : Bytes := [0x31]

end IdRef

variable {σ : Type} [Reader σ]

/-- The loop of `parse_id`, bsn1/src/identifier_ref.rs:716-724. -/
def parseIdLoop : (fuel : Nat) → (octet : UInt8) → (i : Nat) → P σ Nat
  | 0, _, _ => P.lift .panic
  | fuel + 1, octet, i => do
    writeU8 octet
    if octet &&& IdRef.MORE_FLAG ≠ IdRef.MORE_FLAG then
      return i
    else
      let octet ← readU8
      parseIdLoop fuel octet (i + 1)

/-- `parse_id`, bsn1/src/identifier_ref.rs:690-727. -/
def parseId : P σ Nat := do
  let first ← readU8
  writeU8 first
  if first &&& IdRef.LONG_FLAG ≠ IdRef.LONG_FLAG then
    return 1
  else
    let octet ← readU8
    if octet ≤ IdRef.MAX_SHORT then
      P.throw .redundantBytes
    else if octet = IdRef.MORE_FLAG then
      P.throw .redundantBytes
    else
      ⟨fun s w => (parseIdLoop (Reader.size s + 1) octet 2).run s w⟩

/-- The loop of `parse_id_unchecked`, bsn1/src/identifier_ref.rs:742-748: the first index `i` (from
the given one) whose octet has no continuation flag. -/
def parseIdUncheckedLoop (bytes : Bytes) : (fuel : Nat) → (i : Nat) → Res Nat
  | 0, _ => .panic
  | fuel + 1, i => do
    let o ← getAt bytes i
    if o &&& IdRef.MORE_FLAG ≠ IdRef.MORE_FLAG then return i
    else parseIdUncheckedLoop bytes fuel (i + 1)

/-- `parse_id_unchecked`, bsn1/src/identifier_ref.rs:736-752.  Returns the identifier and the rest. -/
def parseIdUnchecked (bytes : Bytes) : Res (Bytes × Bytes) := do
  let b0 ← getAt bytes 0
  if b0 &&& IdRef.LONG_FLAG ≠ IdRef.LONG_FLAG then
    let parsed ← sliceTo bytes 1
    let rest ← sliceFrom bytes 1
    return (parsed, rest)
  else
    let i ← parseIdUncheckedLoop bytes (bytes.length + 1) 1
    let parsed ← sliceTo bytes (i + 1)
    let rest ← sliceFrom bytes (i + 1)
    return (parsed, rest)

namespace IdRef

/-- `IdRef::parse`, bsn1/src/identifier_ref.rs:79-89.  Also returns the caller's `*bytes`. -/
def parse (bytes : Bytes) : Res Bytes × Bytes :=
  match (parseId (σ := Bytes)).run bytes [] with
  | (.ok len, readable, _) =>
    match sliceTo bytes len with
    | .ok ret => (.ok ret, readable)
    | r => (r, bytes)
  | (.err e, _, _) => (.err e, bytes)
  | (.panic, _, _) => (.panic, bytes)
  | (.ub, _, _) => (.ub, bytes)

/-- `IdRef::parse_mut`, bsn1/src/identifier_ref.rs:132-146.  Also returns the caller's `*bytes`.
The raw slices are `ub` when out of range. -/
def parseMut (bytes : Bytes) : Res Bytes × Bytes :=
  match (parseId (σ := Bytes)).run bytes [] with
  | (.ok readBytes, _, _) =>
    if bytes.length < readBytes then (.ub, bytes)
    else (.ok (bytes.take readBytes), bytes.drop readBytes)
  | (.err e, _, _) => (.err e, bytes)
  | (.panic, _, _) => (.panic, bytes)
  | (.ub, _, _) => (.ub, bytes)

/-- `IdRef::is_universal`, identifier_ref.rs:460-463 -/
def isUniversal (id : Bytes) : Res Bool := do
  let first ← getAt id 0
  return first &&& CLASS_MASK == ClassTag.universal.toU8
/-- `IdRef::is_application`, identifier_ref.rs:476-479 -/
def isApplication (id : Bytes) : Res Bool := do
  let first ← getAt id 0
  return first &&& CLASS_MASK == ClassTag.application.toU8
/-- `IdRef::is_context_specific`, identifier_ref.rs:492-495 -/
def isContextSpecific (id : Bytes) : Res Bool := do
  let first ← getAt id 0
  return first &&& CLASS_MASK == ClassTag.contextSpecific.toU8
/-- `IdRef::is_private`, identifier_ref.rs:508-511 -/
def isPrivate (id : Bytes) : Res Bool := do
  let first ← getAt id 0
  return first &&& CLASS_MASK == ClassTag.priv.toU8

/-- `IdRef::class`, identifier_ref.rs:437-447 -/
def clazz (id : Bytes) : Res ClassTag := do
  if ← isUniversal id then return .universal
  else if ← isApplication id then return .application
  else if ← isContextSpecific id then return .contextSpecific
  else return .priv

/-- `IdRef::is_primitive`, identifier_ref.rs:546-549 -/
def isPrimitive (id : Bytes) : Res Bool := do
  let first ← getAt id 0
  return first &&& PC_MASK == PCTag.primitive.toU8
/-- `IdRef::is_constructed`, identifier_ref.rs:562-565 -/
def isConstructed (id : Bytes) : Res Bool := do
  let first ← getAt id 0
  return first &&& PC_MASK == PCTag.constructed.toU8

/-- `IdRef::pc`, identifier_ref.rs:527-533 -/
def pc (id : Bytes) : Res PCTag := do
  if ← isPrimitive id then return .primitive else return .constructed

/-- The loop of `IdRef::number`, identifier_ref.rs:590-595.  `ret +=` panics or wraps on overflow
depending on the build; both are modelled as `panic` here (it never happens). -/
def numberLoop : Bytes → Nat → Res Nat
  | [], ret => .ok ret
  | octet :: r, ret =>
    if ret * 128 < u128Size then
      let ret := ret * 128 + (octet &&& ~~~ MORE_FLAG).toNat
      if ret < u128Size then numberLoop r ret else .panic
    else .err .overFlow

/-- `IdRef::number`, identifier_ref.rs:579-599. -/
def number (id : Bytes) : Res Nat := do
  if id.length = 1 then
    let b ← getAt id 0
    return (b &&& LONG_FLAG).toNat
  else
    let r ← sliceFrom id 1
    numberLoop r 0

/-- `IdRef::set_class`, identifier_ref.rs:617-622 -/
def setClass (id : Bytes) (cls : ClassTag) : Res Bytes := do
  let b ← getAt id 0
  setAt id 0 ((b &&& ~~~ CLASS_MASK) ||| cls.toU8)

/-- `IdRef::set_pc`, identifier_ref.rs:642-648 -/
def setPc (id : Bytes) (p : PCTag) : Res Bytes := do
  let b ← getAt id 0
  setAt id 0 ((b &&& ~~~ PC_MASK) ||| p.toU8)

end IdRef

namespace Id

/-- The loops of `Id::new` and `Id::set_number`, bsn1/src/identifier.rs:80-84 and 209-213
(`for i in (1..len).rev()`, `i` is the index still to be written).  Returns the buffer and the
remaining value of `num`. -/
def fillDigits : (i : Nat) → (num : Nat) → (buffer : Bytes) → Res (Bytes × Nat)
  | 0, num, buffer => .ok (buffer, num)
  | i + 1, num, buffer => do
    let o := UInt8.ofNat num ||| IdRef.MORE_FLAG
    let buffer ← setAt buffer (i + 1) o
    fillDigits i (num / 128) buffer

/-- `Id::new`, bsn1/src/identifier.rs:56-89.  `number` is the value of the `TagNumber`, which is that of the unsigned integer it was made of
(`From` widens it to `u128`, `get` returns it: bsn1/src/id_tags.rs:45-86).  `junk` is the octet found in not yet written buffer
cells (all cells are overwritten). -/
def new (junk : UInt8) (clazz : ClassTag) (pc : PCTag) (number : Nat) : Res Bytes := do
  if number ≤ IdRef.MAX_SHORT.toNat then
    return [clazz.toU8 + pc.toU8 + UInt8.ofNat number]
  else
    let longFlag := clazz.toU8 + pc.toU8 + IdRef.LONG_FLAG
    let numberBitsLen := 16 * 8 - leadingZeros 128 number
    let numberBytesLen := (numberBitsLen + 7 - 1) / 7
    let len := numberBytesLen + 1
    let buffer := List.replicate len junk
    let buffer ← setAt buffer 0 longFlag
    let (buffer, _) ← fillDigits (len - 1) number buffer
    let last ← getAt buffer (len - 1)
    setAt buffer (len - 1) (last ^^^ IdRef.MORE_FLAG)

/-- `Id::parse`, bsn1/src/identifier.rs:134-141.  Also returns the reader. -/
def parse {σ : Type} [Reader σ] (s : σ) : Res Bytes × σ :=
  match parseId.run s [] with
  | (.ok _, s', buffer) => (.ok buffer, s')
  | (.err e, s', _) => (.err e, s')
  | (.panic, s', _) => (.panic, s')
  | (.ub, s', _) => (.ub, s')

/-- `buffer.set_len(len)` after `reserve`: keeps a prefix, new cells hold `junk`.  bsn1/src/identifier.rs:189, 201-204. -/
def resize (junk : UInt8) (buffer : Bytes) (len : Nat) : Bytes :=
  buffer.take len ++ List.replicate (len - buffer.length) junk

/-- `Id::set_number`, bsn1/src/identifier.rs:183-217. -/
def setNumber (junk : UInt8) (id : Bytes) (num : Nat) : Res Bytes := do
  let c ← IdRef.clazz id
  let p ← IdRef.pc id
  if num ≤ IdRef.MAX_SHORT.toNat then
    let o := c.toU8 + p.toU8 + UInt8.ofNat num
    let buffer ← setAt id 0 o
    return resize junk buffer 1
  else
    let longFlag := c.toU8 + p.toU8 + IdRef.LONG_FLAG
    let numberBitsLen := 16 * 8 - leadingZeros 128 num
    let numberBytesLen := (numberBitsLen + 7 - 1) / 7
    let len := numberBytesLen + 1
    let buffer := resize junk id len
    let buffer ← setAt buffer 0 longFlag
    let (buffer, n) ← fillDigits (len - 1) num buffer
    let last ← getAt buffer (len - 1)
    let buffer ← setAt buffer (len - 1) (last &&& ~~~ IdRef.MORE_FLAG)
    -- `debug_assert!(n == 0)`, identifier.rs:215
    if n = 0 then return buffer else .panic

end Id
end Bsn1
