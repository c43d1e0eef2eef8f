import Verif.Model.Der
/-!
# BER: bsn1/src/ber_ref.rs, ber.rs

`BerRef` and `Ber` are represented by their octets.
-/

namespace Bsn1

namespace BerRef

/-- `BerRef::eoc`, bsn1/src/ber_ref.rs:42-45. -/
def eoc : Bytes := [0x00, 0x00]

/-- `BerRef::do_parse`, bsn1/src/ber_ref.rs:162-182.  Returns `*readable` too. -/
def doParse (readable : Bytes) : Res Int × Bytes :=
  if eoc.isPrefixOf readable then
    match sliceFrom readable eoc.length with
    | .ok r => (.ok (-1), r)
    | .err e => (.err e, readable)
    | .panic => (.panic, readable)
    | .ub => (.ub, readable)
  else
    match (parseIdLength (σ := Bytes)).run readable [] with
    | (.ok (.definite contentsLen), readable, _) =>
      if readable.length < contentsLen then (.err .unterminatedBytes, readable)
      else
        match sliceFrom readable contentsLen with
        | .ok r => (.ok 0, r)
        | .err e => (.err e, readable)
        | .panic => (.panic, readable)
        | .ub => (.ub, readable)
    | (.ok .indefinite, readable, _) => (.ok 1, readable)
    | (.err e, readable, _) => (.err e, readable)
    | (.panic, readable, _) => (.panic, readable)
    | (.ub, readable, _) => (.ub, readable)

/-- The `while` loop of `BerRef::parse`, bsn1/src/ber_ref.rs:92-95.  `stack_depth` is an `isize`; an
overflow would be `panic`. -/
def parseLoop : (fuel : Nat) → (stackDepth : Int) → (bytes : Bytes) → Res Unit × Bytes
  | 0, _, bytes => (.panic, bytes)
  | fuel + 1, stackDepth, bytes =>
    match doParse bytes with
    | (.ok d, bytes) =>
      let stackDepth := stackDepth + d
      if isizeMax < stackDepth then (.panic, bytes)
      else if stackDepth > 0 then parseLoop fuel stackDepth bytes
      else (.ok (), bytes)
    | (.err e, bytes) => (.err e, bytes)
    | (.panic, bytes) => (.panic, bytes)
    | (.ub, bytes) => (.ub, bytes)

/-- `BerRef::parse`, bsn1/src/ber_ref.rs:88-99.  Returns `*bytes` too. -/
def parse (bytes : Bytes) : Res Bytes × Bytes :=
  let initBytes := bytes
  match parseLoop (bytes.length + 1) 0 bytes with
  | (.ok (), bytes) => (sliceTo initBytes (initBytes.length - bytes.length), bytes)
  | (.err e, bytes) => (.err e, bytes)
  | (.panic, bytes) => (.panic, bytes)
  | (.ub, bytes) => (.ub, bytes)

/-- `BerRef::parse_mut`, bsn1/src/ber_ref.rs:139-160.  Returns `*bytes` too. -/
def parseMut (bytes : Bytes) : Res Bytes × Bytes :=
  match parseLoop (bytes.length + 1) 0 bytes with
  | (.ok (), readable) =>
    let readBytes := bytes.length - readable.length
    if bytes.length < readBytes then (.ub, bytes)
    else (.ok (bytes.take readBytes), bytes.drop readBytes)
  | (.err e, _) => (.err e, bytes)
  | (.panic, _) => (.panic, bytes)
  | (.ub, _) => (.ub, bytes)

/-- `BerRef::id`, bsn1/src/ber_ref.rs:252-254. -/
def id (self : Bytes) : Res Bytes := do
  let (id, _) ← parseIdUnchecked self
  return id

/-- `BerRef::disassemble`, bsn1/src/ber_ref.rs:354-362; `disassemble_mut` (383-392) has the same
result. -/
def disassemble (self : Bytes) : Res (Bytes × Length × Bytes) := do
  let (id, bytes) ← parseIdUnchecked self
  let (length, bytes) ← parseLengthUnchecked bytes
  return (id, length, bytes)

/-- `BerRef::length`, bsn1/src/ber_ref.rs:298-300. -/
def length (self : Bytes) : Res Length := do
  let (_, l, _) ← disassemble self
  return l

/-- `BerRef::contents`, bsn1/src/ber_ref.rs:314-316. -/
def contents (self : Bytes) : Res Bytes := do
  let (_, _, c) ← disassemble self
  return c

/-- `self.mut_contents().as_mut().copy_from_slice(src)` (bsn1/src/ber_ref.rs:334-336). -/
def copyContents (self : Bytes) (src : Bytes) : Res Bytes := do
  let (_, _, c) ← disassemble self
  if c.length = src.length then
    return self.take (self.length - c.length) ++ src
  else .panic

end BerRef

namespace Ber

/-- `Ber::new`, bsn1/src/ber.rs:76-78. -/
def new (m : Build) (junk : Nat → UInt8) (id contents : Bytes) : Res Bytes :=
  Der.new m junk id contents

/-- `Ber::with_id_length`, bsn1/src/ber.rs:182-184. -/
def withIdLength (m : Build) (junk : Nat → UInt8) (id : Bytes) (length : Nat) : Res Bytes :=
  Der.withIdLength m junk id length

/-- `Ber::with_id_length_indefinite`, bsn1/src/ber.rs:234-249. -/
def withIdLengthIndefinite (m : Build) (junk : Nat → UInt8) (id : Bytes) (length : Nat) :
    Res Bytes := do
  let length_ ← Length.indefinite.toBytes
  let t ← uadd m id.length length_.length
  let totalLen ← uadd m t length
  let cap ← bufReserve m 0 totalLen
  let cap := max cap initCapacity
  if cap < id.length + length_.length then .ub
  else
    let header := id ++ length_
    return (header ++ junkCells junk (totalLen - header.length)).take totalLen

/-- `Ber::new_indefinite`, bsn1/src/ber.rs:141-148. -/
def newIndefinite (m : Build) (junk : Nat → UInt8) (id contents : Bytes) : Res Bytes := do
  let ret ← withIdLengthIndefinite m junk id contents.length
  BerRef.copyContents ret contents

/-- `Ber::do_parse`, bsn1/src/ber.rs:318-342.  `w` is `*writeable`. -/
def doParse {σ : Type} [Reader σ] (m : Build) : P σ Int where
  run s w :=
    let initLen := w.length
    match parseIdLength.run s w with
    | (.ok (.definite length), s, w) =>
      let currentLen := w.length
      let r : Res Nat := do
        let _ ← bufReserve m currentLen length
        let total ← uadd m currentLen length
        if currentLen ≤ total then return total - currentLen else .panic
      match r with
      | .ok n =>
        match readExact n s with
        | (.ok bs, s) =>
          let w := w ++ bs
          match sliceFrom w initLen with
          | .ok read => (.ok (if read = BerRef.eoc then -1 else 0), s, w)
          | .err e => (.err e, s, w)
          | .panic => (.panic, s, w)
          | .ub => (.ub, s, w)
        | (.err e, s) => (.err e, s, w)
        | (.panic, s) => (.panic, s, w)
        | (.ub, s) => (.ub, s, w)
      | .err e => (.err e, s, w)
      | .panic => (.panic, s, w)
      | .ub => (.ub, s, w)
    | (.ok .indefinite, s, w) => (.ok 1, s, w)
    | (.err e, s, w) => (.err e, s, w)
    | (.panic, s, w) => (.panic, s, w)
    | (.ub, s, w) => (.ub, s, w)

/-- The `while` loop of `Ber::parse`, bsn1/src/ber.rs:310-313. -/
def parseLoop {σ : Type} [Reader σ] (m : Build) : (fuel : Nat) → (stackDepth : Int) → P σ Unit
  | 0, _ => P.lift .panic
  | fuel + 1, stackDepth => do
    let d ← doParse m
    let stackDepth := stackDepth + d
    if isizeMax < stackDepth then P.lift .panic
    else if stackDepth > 0 then parseLoop m fuel stackDepth
    else return ()

/-- `Ber::parse`, bsn1/src/ber.rs:303-316.  Returns the reader too. -/
def parse {σ : Type} [Reader σ] (m : Build) (s : σ) : Res Bytes × σ :=
  match (parseLoop m (Reader.size s + 1) 0).run s [] with
  | (.ok (), s, w) => (.ok w, s)
  | (.err e, s, _) => (.err e, s)
  | (.panic, s, _) => (.panic, s)
  | (.ub, s, _) => (.ub, s)

/-- `Ber::from_id_iterator`, bsn1/src/ber.rs:430-437. -/
def fromIdIterator (m : Build) (id : Bytes) (parts : List Bytes) : Res Bytes :=
  Der.fromIdIterator m id parts

/-- `Ber::from_id_iterator_indefinite`, bsn1/src/ber.rs:470-489. -/
def fromIdIteratorIndefinite (m : Build) (id : Bytes) (parts : List Bytes) : Res Bytes := do
  let length ← Der.sumLen m parts 0
  let lengthBytes ← Length.indefinite.toBytes
  let t ← uadd m id.length lengthBytes.length
  let totalLen ← uadd m t length
  let cap ← bufReserve m 0 totalLen
  let cap := max cap initCapacity
  Der.extendAll cap (id :: lengthBytes :: parts) []

/-- `Ber::extend_from_slice`, bsn1/src/ber.rs:601-623. -/
def extendFromSlice (m : Build) (junk : Nat → UInt8) (self bytes : Bytes) : Res Bytes := do
  match ← BerRef.length self with
  | .definite _ => Der.extendFromSlice m junk self bytes
  | .indefinite =>
    let _ ← bufReserve m self.length bytes.length
    let newLen ← uadd m self.length bytes.length
    let cells := self ++ junkCells junk (newLen - self.length)
    memcpy cells self.length bytes

/-- `Ber::push`, bsn1/src/ber.rs:561-563. -/
def push (m : Build) (junk : Nat → UInt8) (self : Bytes) (byte : UInt8) : Res Bytes :=
  extendFromSlice m junk self [byte]

/-- `Ber::truncate`, bsn1/src/ber.rs:668-684. -/
def truncate (m : Build) (self : Bytes) (newLength : Nat) : Res Bytes := do
  match ← BerRef.length self with
  | .definite _ => Der.truncate self newLength
  | .indefinite =>
    let c ← BerRef.contents self
    let oldLength := c.length
    if oldLength ≤ newLength then
      return self
    else
      let t ← uadd m self.length newLength
      let newTotalLen ← usub m t oldLength
      if newTotalLen ≤ self.length then return self.take newTotalLen else .ub

end Ber
end Bsn1
