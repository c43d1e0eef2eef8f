import Verif.Model.Buffer
import Verif.Model.Ber
import Verif.Model.Contents
/-!
# The `unsafe` code of der.rs, ber.rs, identifier.rs and contents.rs on real storage

`Verif.Model.Der`, `Verif.Model.Ber`, `Verif.Model.Id` and `Verif.Model.Contents` see a `Buffer` as a list of octets.  Here the
same functions run on the buffers of `Verif.Model.Buffer`: each allocation, each write through a pointer, each `set_len` and each
drop is one of the memory model, so that a wrong offset, a missing `reserve` or a leak shows.  Everything is generic in the layout
`I` of the buffer.  Slices that the caller passes (`&IdRef`, `&ContentsRef`, `&[u8]`) are initialised memory that is not the
buffer's (the borrow checker), and are represented by their octets.
-/

namespace Bsn1.Raw
open Bsn1.Buf

variable (I : Impl) (m : Build) (al : Allocator)

/-- A computation that does not touch memory.  None of those used here returns `Err`.  E.g. `to_bytes`, bsn1/src/der.rs:103. -/
def liftRes {α : Type} : Res α → M α
  | .ok a => pure a
  | .err _ => M.panic
  | .panic => M.panic
  | .ub => M.ub

/-- The known octets at the beginning of some cells.  What `self.id()` and `self.length()` of bsn1/src/der.rs:381-382 can read. -/
def known (cells : List Cell) : Bytes := (cells.takeWhile Option.isSome).filterMap (·)

/-- `self.id()` and `self.length()` (bsn1/src/der_ref.rs:252-254, 298-300; ber_ref.rs:252-254, 298-300): the identifier, the length
and how many octets both take.  Only these octets are read, so that the contents need not be initialised; running into cells that
are not is `ub`. -/
def header (b : I.B) : M (Bytes × Length × Nat) := do
  let cells ← I.cells b
  match DerRef.disassemble (known cells) with
  | .ok (id, length, rest) => return (id, length, (known cells).length - rest.length)
  | .ub => M.ub
  | _ => if (known cells).length = cells.length then M.panic else M.ub

/-- `buffer[i]`, bsn1/src/buffer/mod.rs:161-167. -/
def getIdx (b : I.B) (i : Nat) : M UInt8 := do
  let cells ← I.cells b
  match cells[i]? with
  | none => M.panic
  | some none => M.ub
  | some (some v) => return v

/-- `mut_contents().as_mut().copy_from_slice(src)` on a `Der` or `Ber` (bsn1/src/der_ref.rs:333-335, ber_ref.rs:334-336): panics
unless the lengths agree. -/
def copyContents (b : I.B) (src : Bytes) : M I.B := do
  let (_, _, off) ← header I b
  if I.len b - off = src.length then I.poke b off src else M.panic

/-- `mut_contents().as_mut()[k] = v` on a `Der` or `Ber` (bsn1/src/der_ref.rs:333-335, ber_ref.rs:334-336). -/
def setContents (b : I.B) (k : Nat) (v : UInt8) : M I.B := do
  let (_, _, off) ← header I b
  I.setAt b (off + k) v

namespace Der

/-- What `Der::with_id_length`, bsn1/src/der.rs:102-119, and `Ber::with_id_length_indefinite`, ber.rs:234-249, do with the octets of the
length. -/
def withHeader (id : Bytes) (length_ : Bytes) (length : Nat) : M I.B := do
  let t ← usizeAdd m id.length length_.length
  let totalLen ← usizeAdd m t length
  let b ← I.withCapacity m al totalLen
  let b ← I.poke b 0 id
  let b ← I.poke b id.length length_
  I.setLenChecked m b totalLen

/-- `Der::with_id_length`, bsn1/src/der.rs:102-119.  The contents are not initialised. -/
def withIdLength (id : Bytes) (length : Nat) : M I.B := do
  let length_ ← liftRes (Length.definite length).toBytes
  withHeader I m al id length_ length

/-- `Der::new`, bsn1/src/der.rs:59-67. -/
def new (id contents : Bytes) : M I.B := do
  let b ← withIdLength I m al id contents.length
  copyContents I b contents

/-- `extend_from_slice` for each part, bsn1/src/der.rs:304-306. -/
def extendAll : (parts : List Bytes) → (b : I.B) → M I.B
  | [], b => pure b
  | p :: r, b => do
    let b ← I.extend m b p
    extendAll r b

/-- What `Der::from_id_iterator`, bsn1/src/der.rs:291-310, and `Ber::from_id_iterator_indefinite`, ber.rs:470-489, do with the octets of
the length. -/
def fromParts (id lengthBytes : Bytes) (parts : List Bytes) (length : Nat) : M I.B := do
  let t ← usizeAdd m id.length lengthBytes.length
  let totalLen ← usizeAdd m t length
  let b ← I.withCapacity m al totalLen
  extendAll I m (id :: lengthBytes :: parts) b

/-- `Der::from_id_iterator`, bsn1/src/der.rs:291-310, for any iterator: `counted` are the octets of the items that its clone gives (296-298), `parts`
those that it gives itself (306).  `Clone`, `Iterator` and `AsRef` are safe traits of the caller, so that the two may differ.  One that panics is in
`Model/Unwind`; one that does not end is not modelled. -/
def fromPasses (id : Bytes) (counted parts : List Bytes) : M I.B := do
  let length ← liftRes (Bsn1.Der.sumLen m counted 0)
  let lengthBytes ← liftRes (Length.definite length).toBytes
  fromParts I m al id lengthBytes parts length

/-- `Der::from_id_iterator`, bsn1/src/der.rs:291-310, for an iterator that gives the same octets as its clone. -/
def fromIdIterator (id : Bytes) (parts : List Bytes) : M I.B := fromPasses I m al id parts parts

/-- `Der::extend_from_slice`, bsn1/src/der.rs:375-429. -/
def extendFromSlice (b : I.B) (bytes : Bytes) : M I.B := do
  let (id, oldLength, _) ← header I b
  let idLen := id.length
  let old ← match oldLength.definite? with
    | some n => pure n
    | none => M.panic
  let new ← usizeAdd m old bytes.length
  let newLength := Length.definite new
  -- update the length of `buffer`
  let t ← usizeAdd m bytes.length newLength.len
  let offset ← liftRes (usub m t oldLength.len)
  let b ← I.reserve m al b offset
  let newLen ← usizeAdd m (I.len b) offset
  let b ← I.setLenChecked m b newLen
  -- copy the old contents octets if necessary
  let dest := idLen + newLength.len
  let src := idLen + oldLength.len
  let b ← if src ≠ dest then I.copyWithin b src dest old else pure b
  let dest := dest + old
  -- copy `bytes`
  let b ← I.poke b dest bytes
  let dest := dest + bytes.length
  debugAssert m (dest = I.len b)
  -- copy the length octets
  let newLengthBytes ← liftRes newLength.toBytes
  I.poke b idLen newLengthBytes

/-- `Der::truncate`, bsn1/src/der.rs:463-492. -/
def truncate (b : I.B) (newLength : Nat) : M I.B := do
  let (id, l, _) ← header I b
  let idLen := id.length
  let oldLength ← match l.definite? with
    | some n => pure n
    | none => M.panic
  if oldLength ≤ newLength then
    return b
  else
    let oldLength_ ← liftRes (Length.definite oldLength).toBytes
    let newLength_ ← liftRes (Length.definite newLength).toBytes
    -- copy the new length octets
    let b ← I.poke b idLen newLength_
    -- copy the contents octets if necessary
    let b ←
      if newLength_.length < oldLength_.length then
        I.copyWithin b (idLen + oldLength_.length) (idLen + newLength_.length) newLength
      else pure b
    let newTotalLen := idLen + newLength_.length + newLength
    I.setLenChecked m b newTotalLen

end Der

/-- `write_u8` (bsn1/src/misc.rs:40-50) of each octet to the buffer. -/
def writeAll : (w : Bytes) → (b : I.B) → M I.B
  | [], b => pure b
  | o :: r, b => do
    let b ← I.write m al b [o]
    writeAll r b

/-- What a call of `Read::read` or `Read::read_exact` with a buffer does: the octets written to the beginning of the buffer, what it
returns (`read_exact` returns `Ok(())`; then the number does not matter), and the reader after.  bsn1/src/der.rs:188, bsn1/src/ber.rs:331. -/
structure ReadEffect (σ : Type) where
  written : Bytes
  result : Res Nat
  next : σ

/-- `Read::read` of a reader that does what it says.  bsn1/src/der.rs:188; not in /repo. -/
def honestRead {σ : Type} [Reader σ] (n : Nat) (s : σ) : ReadEffect σ :=
  match Reader.read n s with
  | (.fail k, s) => ⟨[], .err (.io k), s⟩
  | (.data bs, s) => ⟨bs, .ok bs.length, s⟩

/-- `Read::read_exact` of a reader that does what it says.  (What was written before a failure does not matter: the buffer is
dropped.)  bsn1/src/ber.rs:331; not in /repo. -/
def honestReadExact {σ : Type} [Reader σ] (n : Nat) (s : σ) : ReadEffect σ :=
  match readExact n s with
  | (.ok bs, s) => ⟨bs, .ok bs.length, s⟩
  | (.err e, s) => ⟨[], .err e, s⟩
  | (.panic, s) => ⟨[], .panic, s⟩
  | (.ub, s) => ⟨[], .ub, s⟩

variable {σ : Type} [Reader σ]

/-- `Der::parse`, bsn1/src/der.rs:169-198.  The header is read octet by octet (`Verif.Model.Reader`); its octets are written to the
buffer one by one, here after all of them were read.  The contents are read by `rd`, which gets a slice of the buffer that is not
initialised.  On `Err` the buffer is dropped. -/
def Der.parse (rd : Nat → σ → ReadEffect σ) (s : σ) : M (Except Error I.B × σ) :=
  match (parseIdLength (σ := σ)).run s [] with
  | (r, s, w) => do
    let b ← writeAll I m al w I.new
    match r with
    | .ok .indefinite => do
      I.drop b
      return (.error .indefiniteLength, s)
    | .ok (.definite contentsLength) => do
      let idLengthLen := I.len b
      let totalLength ← usizeAdd m idLengthLen contentsLength
      let b ← I.reserve m al b contentsLength
      let b ← I.setLenChecked m b totalLength
      -- `as_mut_slice()[id_length_len..]`
      if I.len b < idLengthLen then M.panic
      else
        let n := I.len b - idLengthLen
        let e := rd n s
        let b ← I.poke b idLengthLen (e.written.take n)
        match e.result with
        | .ok read =>
          if read < contentsLength then do
            I.drop b
            return (.error .unterminatedBytes, e.next)
          else return (.ok b, e.next)
        | .err er => do
          I.drop b
          return (.error er, e.next)
        | .panic => M.panic
        | .ub => M.ub
    | .err er => do
      I.drop b
      return (.error er, s)
    | .panic => M.panic
    | .ub => M.ub

namespace Ber

/-- `Ber::with_id_length_indefinite`, bsn1/src/ber.rs:234-249. -/
def withIdLengthIndefinite (id : Bytes) (length : Nat) : M I.B := do
  let length_ ← liftRes Length.indefinite.toBytes
  Der.withHeader I m al id length_ length

/-- `Ber::new_indefinite`, bsn1/src/ber.rs:141-148. -/
def newIndefinite (id contents : Bytes) : M I.B := do
  let b ← withIdLengthIndefinite I m al id contents.length
  copyContents I b contents

/-- `Ber::from_id_iterator`, bsn1/src/ber.rs:430-437, for any iterator; see `Der.fromPasses`.  The conversion of `Der` to `Ber` moves the buffer. -/
def fromPasses (id : Bytes) (counted parts : List Bytes) : M I.B := Der.fromPasses I m al id counted parts

/-- `Ber::from_id_iterator_indefinite`, bsn1/src/ber.rs:470-489, for any iterator; see `Der.fromPasses`. -/
def fromPassesIndefinite (id : Bytes) (counted parts : List Bytes) : M I.B := do
  let length ← liftRes (Bsn1.Der.sumLen m counted 0)
  let lengthBytes ← liftRes Length.indefinite.toBytes
  Der.fromParts I m al id lengthBytes parts length

/-- `Ber::from_id_iterator_indefinite`, bsn1/src/ber.rs:470-489, for an iterator that gives the same octets as its clone. -/
def fromIdIteratorIndefinite (id : Bytes) (parts : List Bytes) : M I.B := fromPassesIndefinite I m al id parts parts

/-- `read == BerRef::eoc().as_ref()`, bsn1/src/ber.rs:334-335: slices of other lengths are not read. -/
def isEoc (b : I.B) (initLen : Nat) : M Bool := do
  let cells ← I.cells b
  if cells.length < initLen then M.panic
  else
    let read := cells.drop initLen
    if read.length = BerRef.eoc.length then
      let v ← assumeInit read
      return decide (v = BerRef.eoc)
    else return false

/-- `Ber::do_parse`, bsn1/src/ber.rs:318-342.  The buffer is dropped by the caller on `Err`; as nothing happens in between, that is done
here. -/
def doParse (rd : Nat → σ → ReadEffect σ) (b : I.B) (s : σ) : M (Except Error (Int × I.B) × σ) :=
  match (parseIdLength (σ := σ)).run s [] with
  | (r, s, w) => do
    let initLen := I.len b
    let b ← writeAll I m al w b
    match r with
    | .ok (.definite length) => do
      let b ← I.reserve m al b length
      let currentLen := I.len b
      let total ← usizeAdd m currentLen length
      let b ← I.setLenChecked m b total
      if I.len b < currentLen then M.panic
      else
        let n := I.len b - currentLen
        let e := rd n s
        let b ← I.poke b currentLen (e.written.take n)
        match e.result with
        | .ok _ => do
          let eoc ← isEoc I b initLen
          return (.ok (if eoc then -1 else 0, b), e.next)
        | .err er => do
          I.drop b
          return (.error er, e.next)
        | .panic => M.panic
        | .ub => M.ub
    | .ok .indefinite => return (.ok (1, b), s)
    | .err er => do
      I.drop b
      return (.error er, s)
    | .panic => M.panic
    | .ub => M.ub

/-- The `while` loop of `Ber::parse`, bsn1/src/ber.rs:310-313. -/
def parseLoop (rd : Nat → σ → ReadEffect σ) : (fuel : Nat) → (stackDepth : Int) → (b : I.B) → σ → M (Except Error I.B × σ)
  | 0, _, _, _ => M.panic
  | fuel + 1, stackDepth, b, s => do
    match ← doParse I m al rd b s with
    | (.error e, s) => return (.error e, s)
    | (.ok (d, b), s) =>
      let stackDepth := stackDepth + d
      if isizeMax < stackDepth then M.panic
      else if stackDepth > 0 then parseLoop rd fuel stackDepth b s
      else return (.ok b, s)

/-- `Ber::parse`, bsn1/src/ber.rs:303-316. -/
def parse (rd : Nat → σ → ReadEffect σ) (s : σ) : M (Except Error I.B × σ) :=
  parseLoop I m al rd (Reader.size s + 1) 0 I.new s

/-- `Ber::extend_from_slice`, bsn1/src/ber.rs:601-623. -/
def extendFromSlice (b : I.B) (bytes : Bytes) : M I.B := do
  let (_, l, _) ← header I b
  match l with
  | .definite _ => Der.extendFromSlice I m al b bytes
  | .indefinite => do
    let b ← I.reserve m al b bytes.length
    let b ← I.poke b (I.len b) bytes
    let newLen ← usizeAdd m (I.len b) bytes.length
    I.setLenChecked m b newLen

/-- `Ber::truncate`, bsn1/src/ber.rs:668-684. -/
def truncate (b : I.B) (newLength : Nat) : M I.B := do
  let (_, l, off) ← header I b
  match l with
  | .definite _ => Der.truncate I m b newLength
  | .indefinite => do
    let oldLength := I.len b - off
    if oldLength ≤ newLength then return b
    else
      let t ← usizeAdd m (I.len b) newLength
      let newTotalLen ← liftRes (usub m t oldLength)
      I.setLenChecked m b newTotalLen

end Ber

namespace Id

/-- The loops of `Id::new` and `Id::set_number`, bsn1/src/identifier.rs:80-84 and 209-213. -/
def fillDigits : (i : Nat) → (num : Nat) → (b : I.B) → M (I.B × Nat)
  | 0, num, b => pure (b, num)
  | i + 1, num, b => do
    let o := UInt8.ofNat num ||| IdRef.MORE_FLAG
    let b ← I.setAt b (i + 1) o
    fillDigits i (num / 128) b

/-- `Id::new`, bsn1/src/identifier.rs:56-89. -/
def new (clazz : ClassTag) (pc : PCTag) (number : Nat) : M I.B := do
  if number ≤ IdRef.MAX_SHORT.toNat then
    I.push m I.new (clazz.toU8 + pc.toU8 + UInt8.ofNat number)
  else
    let longFlag := clazz.toU8 + pc.toU8 + IdRef.LONG_FLAG
    let numberBitsLen := 16 * 8 - leadingZeros 128 number
    let numberBytesLen := (numberBitsLen + 7 - 1) / 7
    let len := numberBytesLen + 1
    let b ← I.reserve m al I.new len
    let b ← I.setLenChecked m b len
    let b ← I.setAt b 0 longFlag
    let (b, _) ← fillDigits I (len - 1) number b
    let last ← getIdx I b (len - 1)
    I.setAt b (len - 1) (last ^^^ IdRef.MORE_FLAG)

/-- `Id::parse`, bsn1/src/identifier.rs:134-141. -/
def parse (s : σ) : M (Except Error I.B × σ) :=
  match (parseId (σ := σ)).run s [] with
  | (r, s, w) => do
    let b ← writeAll I m al w I.new
    match r with
    | .ok _ => return (.ok b, s)
    | .err e => do
      I.drop b
      return (.error e, s)
    | .panic => M.panic
    | .ub => M.ub

/-- `IdRef::set_class`, bsn1/src/identifier_ref.rs:617-622, of an `Id`, or of `mut_id()` of a `Der` or `Ber` (bsn1/src/der_ref.rs:274-276,
ber_ref.rs:276-278), which starts where the buffer starts. -/
def setClass (b : I.B) (cls : ClassTag) : M I.B := do
  let first ← getIdx I b 0
  I.setAt b 0 ((first &&& ~~~ IdRef.CLASS_MASK) ||| cls.toU8)

/-- `IdRef::set_pc`, bsn1/src/identifier_ref.rs:642-648, likewise. -/
def setPc (b : I.B) (pc : PCTag) : M I.B := do
  let first ← getIdx I b 0
  I.setAt b 0 ((first &&& ~~~ IdRef.PC_MASK) ||| pc.toU8)

/-- `Id::set_number`, bsn1/src/identifier.rs:183-217.  `class()` and `pc()` read the first octet. -/
def setNumber (b : I.B) (num : Nat) : M I.B := do
  let first ← getIdx I b 0
  let c ← liftRes (IdRef.clazz [first])
  let p ← liftRes (IdRef.pc [first])
  if num ≤ IdRef.MAX_SHORT.toNat then
    let o := c.toU8 + p.toU8 + UInt8.ofNat num
    let b ← I.setAt b 0 o
    I.setLenChecked m b 1
  else
    let longFlag := c.toU8 + p.toU8 + IdRef.LONG_FLAG
    let numberBitsLen := 16 * 8 - leadingZeros 128 num
    let numberBytesLen := (numberBitsLen + 7 - 1) / 7
    let len := numberBytesLen + 1
    let b ← if I.len b < len then I.reserve m al b (len - I.len b) else pure b
    let b ← I.setLenChecked m b len
    let b ← I.setAt b 0 longFlag
    let (b, n) ← fillDigits I (len - 1) num b
    let last ← getIdx I b (len - 1)
    let b ← I.setAt b (len - 1) (last &&& ~~~ IdRef.MORE_FLAG)
    debugAssert m (n = 0)
    return b

end Id

/-- `From<T> for Contents` for the integers: bsn1/src/contents.rs:48-122 and 176-270.  The octets come from the stack
(`Verif.Model.Contents`); from_zero pushes, the others copy. -/
def Contents.ofInt (t : IntTy) (val : Int) : M I.B :=
  if val = 0 then I.push m I.new 0x00
  else do
    let vals ← liftRes (if val < 0 then Bsn1.Contents.fromNegative t val else Bsn1.Contents.fromPositive t val)
    let b ← I.withCapacity m al vals.length
    let b ← I.setLenChecked m b vals.length
    I.poke b 0 vals

/-! ### Conversions -/

/-- `Der::from_bytes_unchecked`, bsn1/src/der.rs:222-226, `Ber::from_bytes_unchecked`, ber.rs:366-370, and `Id::from_bytes_unchecked`,
identifier.rs:164-168. -/
def fromBytesUnchecked (bytes : Bytes) : M I.B := I.fromSlice m al bytes

/-- `Der::from_vec_unchecked`, bsn1/src/der.rs:251-255, `Ber::from_vec_unchecked`, ber.rs:395-399, and `From<Vec<u8>>` and `From<String>` for
`Contents`, contents.rs:160-174, all through bsn1/src/buffer/mod.rs:57-61. -/
def fromVecUnchecked (v : RVec) : I.B := I.fromVec v

/-- `Der::into_vec`, bsn1/src/der.rs:323-325, and `Ber::into_vec`, ber.rs:506-508. -/
def intoVec (b : I.B) : M RVec := I.intoVec al b

/-- `From<Der> for Ber`, bsn1/src/ber.rs:700-706, with `disassemble_der`, der.rs:662-664: the buffer is moved. -/
def Ber.fromDer (b : I.B) : I.B := b

/-- Reading all octets of `as_ref()`: bsn1/src/der.rs:615-619, ber.rs:819-823, identifier.rs:235-239, contents.rs:285-289; and of `deref()`, `borrow()`
and `as_ref()` as `DerRef`, `BerRef`, `IdRef` and `ContentsRef`, which are these octets (der.rs:621-644, der_ref.rs:206-208, 394-398; likewise
ber.rs, identifier.rs, contents.rs). -/
def asRef (b : I.B) : M Bytes := do
  let cells ← I.cells b
  assumeInit cells

/-- `to_owned()` of what `deref()` gives: bsn1/src/der_ref.rs:403-405, ber_ref.rs:410-412, identifier_ref.rs:660-662, contents_ref.rs:325-327 with
contents.rs:132-138; `From<&DerRef>` for `Der` and `Ber`, der.rs:502-506, ber.rs:694-698; `From<&BerRef> for Ber`, ber.rs:708-712; and
`From<&IdRef> for Id`, identifier.rs:220-226. -/
def toOwned (b : I.B) : M I.B := do
  let bytes ← asRef I b
  fromBytesUnchecked I m al bytes

/-- `id().to_owned()` of a `Der` or `Ber`: bsn1/src/der_ref.rs:252-254, ber_ref.rs:252-254, identifier_ref.rs:660-662. -/
def idToOwned (b : I.B) : M I.B := do
  let (id, _, _) ← header I b
  fromBytesUnchecked I m al id

/-- `contents().to_owned()` of a `Der` or `Ber`: bsn1/src/der_ref.rs:314-316, ber_ref.rs:314-316, contents_ref.rs:325-327. -/
def contentsToOwned (b : I.B) : M I.B := do
  let (_, _, off) ← header I b
  let cells ← I.cells b
  let bytes ← assumeInit (cells.drop off)
  I.fromSlice m al bytes

end Bsn1.Raw
