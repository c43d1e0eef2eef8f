import Verif.Model.Ber
import Verif.Model.Contents
/-!
# Other word sizes

The rest of the model is for 64-bit targets.  Here the functions whose behaviour depends on the size of `usize` and that octets from outside go
through are modelled once more, for any size of `usize`: length octets, `parse` of `DerRef`, `BerRef`, `Der` and `Ber`, construction, and the
choice of the integer types `isize` and `usize`.  `C95_main_model` shows that for 8 octets they are the functions of the rest of the model.
-/

namespace Bsn1

/-- A target: `word` is `size_of::<usize>()`, bsn1/src/length.rs:107, 156, 282. -/
structure Target where
  word : Nat

namespace Target
variable (t : Target)

/-- `usize::MAX + 1`.  The type of `Definite`, bsn1/src/length.rs:42. -/
def usizeSize : Nat := 256 ^ t.word

/-- `isize::MAX`, the largest size of an allocation or slice.  The bound of `Layout::array`, bsn1/src/buffer/little_endian/mod.rs:133. -/
def isizeMax : Nat := 256 ^ t.word / 2 - 1

/-- The targets there are: `usize` has 2, 4 or 8 octets.  A fact about Rust; bsn1/src/length.rs:282 works for all of them. -/
def Real : Prop := t.word = 2 ∨ t.word = 4 ∨ t.word = 8

/-- `INIT_CAPACITY`, bsn1/src/buffer/little_endian/mod.rs:25: three words but one octet. -/
def initCapacity : Nat := 3 * t.word - 1

/-- `a + b` on `usize`.  E.g. bsn1/src/der.rs:104. -/
def uadd (m : Build) (a b : Nat) : Res Nat :=
  if a + b < t.usizeSize then .ok (a + b)
  else match m with
    | .debug => .panic
    | .release => .ok ((a + b) % t.usizeSize)

/-- `Buffer::reserve`, bsn1/src/buffer/little_endian/mod.rs:125-157, simplified as `bufReserve`. -/
def bufReserve (m : Build) (len additional : Nat) : Res Nat := do
  let newCap ← t.uadd m len additional
  if newCap ≤ t.isizeMax then return newCap else .panic

/-- `Length::len`, bsn1/src/length.rs:147-164. -/
def lengthLen : Length → Nat
  | .indefinite => 1
  | .definite val =>
    if val ≤ Length.MAX_SHORT.toNat then 1
    else
      let bitLen := 8 * t.word - leadingZeros (8 * t.word) val
      let byteLen := (bitLen + (8 - 1)) / 8
      byteLen + 1

/-- `LengthBuffer::CAPACITY`, bsn1/src/length_buffer.rs:28. -/
def bufferCapacity : Nat := t.lengthLen (.definite (t.usizeSize - 1))

/-- `Length::to_bytes`, bsn1/src/length.rs:94-128.  Writing more octets than the fixed array of `LengthBuffer` holds would be `ub`. -/
def toBytes : Length → Res Bytes
  | .indefinite => .ok [Length.INDEFINITE]
  | .definite val =>
    if val ≤ Length.MAX_SHORT.toNat then .ok [UInt8.ofNat val]
    else
      let bitLen := 8 * t.word - leadingZeros (8 * t.word) val
      let byteLen := (bitLen + 8 - 1) / 8
      let flag := Length.LONG_FLAG + UInt8.ofNat byteLen
      if t.bufferCapacity < byteLen + 1 then .ub
      else .ok (flag :: (toBeBytes t.word val).drop (t.word - byteLen))

section
variable {σ : Type} [Reader σ]

/-- The loop of `parse_length`, bsn1/src/length.rs:287-291 (`k` iterations left). -/
def parseLengthLoop : (k : Nat) → (len : Nat) → P σ Nat
  | 0, len => pure len
  | k + 1, len => do
    let byte ← readU8
    writeU8 byte
    parseLengthLoop k ((len * 256) % t.usizeSize + byte.toNat)

/-- `parse_length`, bsn1/src/length.rs:252-295. -/
def parseLength : P σ Length := do
  let first ← readU8
  writeU8 first
  if first = Length.INDEFINITE then
    return .indefinite
  else if first &&& Length.LONG_FLAG ≠ Length.LONG_FLAG then
    return .definite first.toNat
  else
    let second ← readU8
    if second = 0x00 then
      P.throw .redundantBytes
    else
      writeU8 second
      let followingsCount := (first ^^^ Length.LONG_FLAG).toNat
      if followingsCount = 1 ∧ second ≤ Length.MAX_SHORT then
        P.throw .redundantBytes
      else if t.word < followingsCount then
        P.throw .overFlow
      else
        let len ← t.parseLengthLoop (followingsCount - 1) second.toNat
        return .definite len

/-- `parse_id_length`, bsn1/src/misc.rs:59-66. -/
def parseIdLength : P σ Length := do
  let _ ← parseId
  t.parseLength

end

/-- `Length::parse`, bsn1/src/length.rs:73-79, on a slice. -/
def lengthParse (bytes : Bytes) : Res Length × Bytes :=
  let r := t.parseLength.run bytes []
  (r.1, r.2.1)

/-- `DerRef::do_parse`, bsn1/src/der_ref.rs:167-181.  Returns `*readable` too. -/
def derDoParse (readable : Bytes) : Res Unit × Bytes :=
  match (t.parseIdLength (σ := Bytes)).run readable [] with
  | (.ok .indefinite, readable, _) => (.err .indefiniteLength, readable)
  | (.ok (.definite length), readable, _) =>
    if readable.length < length then (.err .unterminatedBytes, readable)
    else
      match sliceFrom readable length with
      | .ok r => (.ok (), r)
      | .err e => (.err e, readable)
      | .panic => (.panic, readable)
      | .ub => (.ub, readable)
  | (.err e, readable, _) => (.err e, readable)
  | (.panic, readable, _) => (.panic, readable)
  | (.ub, readable, _) => (.ub, readable)

/-- `DerRef::parse`, bsn1/src/der_ref.rs:93-100.  Returns `*bytes` too. -/
def derRefParse (bytes : Bytes) : Res Bytes × Bytes :=
  let initBytes := bytes
  match t.derDoParse bytes with
  | (.ok (), bytes) => (sliceTo initBytes (initBytes.length - bytes.length), bytes)
  | (.err e, bytes) => (.err e, bytes)
  | (.panic, bytes) => (.panic, bytes)
  | (.ub, bytes) => (.ub, bytes)

/-- `BerRef::do_parse`, bsn1/src/ber_ref.rs:162-182.  Returns `*readable` too. -/
def berDoParse (readable : Bytes) : Res Int × Bytes :=
  if BerRef.eoc.isPrefixOf readable then
    match sliceFrom readable BerRef.eoc.length with
    | .ok r => (.ok (-1), r)
    | .err e => (.err e, readable)
    | .panic => (.panic, readable)
    | .ub => (.ub, readable)
  else
    match (t.parseIdLength (σ := Bytes)).run readable [] with
    | (.ok (.definite contentsLen), readable, _) =>
      if readable.length < contentsLen then (.err .unterminatedBytes, readable)
      else
        match sliceFrom readable contentsLen with
        | .ok r => (.ok 0, r)
        | .err e => (.err e, readable)
        | .panic => (.panic, readable)
        | .ub => (.ub, readable)
    | (.ok .indefinite, readable, _) => (.ok 1, readable)
    | (.err e, readable, _) => (.err e, readable)
    | (.panic, readable, _) => (.panic, readable)
    | (.ub, readable, _) => (.ub, readable)

/-- The `while` loop of `BerRef::parse`, bsn1/src/ber_ref.rs:92-95.  `stack_depth` is an `isize`; an overflow would be `panic`. -/
def berParseLoop : (fuel : Nat) → (stackDepth : Int) → (bytes : Bytes) → Res Unit × Bytes
  | 0, _, bytes => (.panic, bytes)
  | fuel + 1, stackDepth, bytes =>
    match t.berDoParse bytes with
    | (.ok d, bytes) =>
      let stackDepth := stackDepth + d
      if t.isizeMax < stackDepth then (.panic, bytes)
      else if stackDepth > 0 then berParseLoop fuel stackDepth bytes
      else (.ok (), bytes)
    | (.err e, bytes) => (.err e, bytes)
    | (.panic, bytes) => (.panic, bytes)
    | (.ub, bytes) => (.ub, bytes)

/-- `BerRef::parse`, bsn1/src/ber_ref.rs:88-99.  Returns `*bytes` too. -/
def berRefParse (bytes : Bytes) : Res Bytes × Bytes :=
  let initBytes := bytes
  match t.berParseLoop (bytes.length + 1) 0 bytes with
  | (.ok (), bytes) => (sliceTo initBytes (initBytes.length - bytes.length), bytes)
  | (.err e, bytes) => (.err e, bytes)
  | (.panic, bytes) => (.panic, bytes)
  | (.ub, bytes) => (.ub, bytes)

/-- `parse_length_unchecked`, bsn1/src/length.rs:305-326.  Returns the length and the rest. -/
def parseLengthUnchecked (bytes : Bytes) : Res (Length × Bytes) := do
  let first ← getAt bytes 0
  let bytes ← sliceFrom bytes 1
  if first = Length.INDEFINITE then
    return (.indefinite, bytes)
  else if first &&& Length.LONG_FLAG ≠ Length.LONG_FLAG then
    return (.definite first.toNat, bytes)
  else
    let followingsCount := (first &&& ~~~ Length.LONG_FLAG).toNat
    let digits ← sliceTo bytes followingsCount
    let ret := digits.foldl (fun acc byte => (acc * 256) % t.usizeSize + byte.toNat) 0
    let rest ← sliceFrom bytes followingsCount
    return (.definite ret, rest)

/-- `disassemble` of `DerRef` (bsn1/src/der_ref.rs:353-361) and `BerRef` (ber_ref.rs:354-362). -/
def disassemble (self : Bytes) : Res (Bytes × Length × Bytes) := do
  let (id, bytes) ← parseIdUnchecked self
  let (length, bytes) ← t.parseLengthUnchecked bytes
  return (id, length, bytes)

/-- `Der::with_id_length`, bsn1/src/der.rs:102-119. -/
def withIdLength (m : Build) (junk : Nat → UInt8) (id : Bytes) (length : Nat) : Res Bytes := do
  let length_ ← t.toBytes (.definite length)
  let s ← t.uadd m id.length length_.length
  let totalLen ← t.uadd m s length
  let cap ← t.bufReserve m 0 totalLen
  let cap := max cap t.initCapacity
  if cap < id.length + length_.length then .ub
  else
    let header := id ++ length_
    return (header ++ junkCells junk (totalLen - header.length)).take totalLen

/-- `Der::new`, bsn1/src/der.rs:59-67; with `copy_from_slice` into `mut_contents` as in `DerRef.copyContents`. -/
def derNew (m : Build) (junk : Nat → UInt8) (id contents : Bytes) : Res Bytes := do
  let ret ← t.withIdLength m junk id contents.length
  let (_, _, c) ← t.disassemble ret
  if c.length = contents.length then
    return ret.take (ret.length - c.length) ++ contents
  else .panic

section
variable {σ : Type} [Reader σ]

/-- `Der::parse`, bsn1/src/der.rs:169-198.  Returns the reader too. -/
def derParse (m : Build) (s : σ) : Res Bytes × σ :=
  match t.parseIdLength.run s [] with
  | (.ok .indefinite, s, _) => (.err .indefiniteLength, s)
  | (.ok (.definite contentsLength), s, w) =>
    let idLengthLen := w.length
    let r : Res Nat := do
      let totalLength ← t.uadd m idLengthLen contentsLength
      let _ ← t.bufReserve m idLengthLen contentsLength
      -- `writeable.as_mut_slice()[id_length_len..]` after `set_len(total_length)`
      if idLengthLen ≤ totalLength then return totalLength - idLengthLen else .panic
    match r with
    | .ok n =>
      match Reader.read n s with
      | (.fail k, s) => (.err (.io k), s)
      | (.data bs, s) =>
        if bs.length < contentsLength then (.err .unterminatedBytes, s)
        else (.ok (w ++ bs), s)
    | .err e => (.err e, s)
    | .panic => (.panic, s)
    | .ub => (.ub, s)
  | (.err e, s, _) => (.err e, s)
  | (.panic, s, _) => (.panic, s)
  | (.ub, s, _) => (.ub, s)

/-- `Ber::do_parse`, bsn1/src/ber.rs:318-342.  `w` is `*writeable`. -/
def berReadOne (m : Build) : P σ Int where
  run s w :=
    let initLen := w.length
    match t.parseIdLength.run s w with
    | (.ok (.definite length), s, w) =>
      let currentLen := w.length
      let r : Res Nat := do
        let _ ← t.bufReserve m currentLen length
        let total ← t.uadd m currentLen length
        if currentLen ≤ total then return total - currentLen else .panic
      match r with
      | .ok n =>
        match readExact n s with
        | (.ok bs, s) =>
          let w := w ++ bs
          match sliceFrom w initLen with
          | .ok read => (.ok (if read = BerRef.eoc then -1 else 0), s, w)
          | .err e => (.err e, s, w)
          | .panic => (.panic, s, w)
          | .ub => (.ub, s, w)
        | (.err e, s) => (.err e, s, w)
        | (.panic, s) => (.panic, s, w)
        | (.ub, s) => (.ub, s, w)
      | .err e => (.err e, s, w)
      | .panic => (.panic, s, w)
      | .ub => (.ub, s, w)
    | (.ok .indefinite, s, w) => (.ok 1, s, w)
    | (.err e, s, w) => (.err e, s, w)
    | (.panic, s, w) => (.panic, s, w)
    | (.ub, s, w) => (.ub, s, w)

/-- The `while` loop of `Ber::parse`, bsn1/src/ber.rs:310-313. -/
def berReadLoop (m : Build) : (fuel : Nat) → (stackDepth : Int) → P σ Unit
  | 0, _ => P.lift .panic
  | fuel + 1, stackDepth => do
    let d ← t.berReadOne m
    let stackDepth := stackDepth + d
    if t.isizeMax < stackDepth then P.lift .panic
    else if stackDepth > 0 then berReadLoop m fuel stackDepth
    else return ()

/-- `Ber::parse`, bsn1/src/ber.rs:303-316.  Returns the reader too. -/
def berParse (m : Build) (s : σ) : Res Bytes × σ :=
  match (t.berReadLoop m (Reader.size s + 1) 0).run s [] with
  | (.ok (), s, w) => (.ok w, s)
  | (.err e, s, _) => (.err e, s)
  | (.panic, s, _) => (.panic, s)
  | (.ub, s, _) => (.ub, s)

end

/-- Which integer type `isize` and `usize` are like; the others are what they are everywhere.  The types of bsn1/src/contents.rs:176-270. -/
def intTy : IntTy → IntTy
  | .isize => if t.word = 2 then .i16 else if t.word = 4 then .i32 else .i64
  | .usize => if t.word = 2 then .u16 else if t.word = 4 then .u32 else .u64
  | i => i

end Target
end Bsn1
