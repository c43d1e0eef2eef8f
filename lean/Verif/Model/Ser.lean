import Verif.Model.Der
import Verif.Model.Ber
import Verif.Model.Contents
/-!
# Serialization: bsn1_serde/src/ser/mod.rs, lib.rs:32-121, octet_string.rs:63-80
-/

namespace Bsn1

/-- A computation that writes to a generic `W: Write`.  All code that writes does so with `write_all`,
and hands an error of `write_all` to its caller at once by `?` or as its result.  Hence the computation is
given by the octet slices it passes to `write_all`, in order, and its result when all of them succeed.
The calls are bsn1_serde/src/lib.rs:96-103 and those in bsn1_serde/src/ser/mod.rs:54-661. -/
structure W (α : Type) where
  /-- The arguments of the calls of `write_all`. -/
  chunks : List Bytes
  /-- The result if no `write_all` fails. -/
  res : Res α

namespace W
variable {α β : Type}

/-- Sequencing with `?`.  E.g. bsn1_serde/src/lib.rs:96-97. -/
def bind (x : W α) (f : α → W β) : W β :=
  match x.res with
  | .ok a => ⟨x.chunks ++ (f a).chunks, (f a).res⟩
  | .err e => ⟨x.chunks, .err e⟩
  | .panic => ⟨x.chunks, .panic⟩
  | .ub => ⟨x.chunks, .ub⟩

/-- `?` in sequence, e.g. bsn1_serde/src/lib.rs:96-97. -/
instance : Monad W where
  pure a := ⟨[], .ok a⟩
  bind := W.bind

/-- A computation that does not write.  E.g. bsn1_serde/src/lib.rs:85. -/
def lift (r : Res α) : W α := ⟨[], r⟩

/-- `write.write_all(bytes)?`.  E.g. bsn1_serde/src/lib.rs:97, 100. -/
def writeAll (bytes : Bytes) : W Unit := ⟨[bytes], .ok ()⟩

end W

/-- `Write for Buffer`, bsn1/src/buffer/mod.rs:202-206: each `write_all` of a non-empty slice reserves room and
appends; it only fails by the panic of `reserve`. -/
def writeBuffer (m : Build) : (chunks : List Bytes) → (buffer : Bytes) → Res Bytes
  | [], buffer => .ok buffer
  | c :: r, buffer => do
    let _ ← bufReserve m buffer.length c.length
    writeBuffer m r (buffer ++ c)

/-- Running a computation with `W = Buffer`.  Returns the result and the buffer.  bsn1_serde/src/lib.rs:40, 53, 59, 89. -/
def W.toBuffer {α : Type} (m : Build) (w : W α) (buffer : Bytes) : Res (α × Bytes) := do
  let b ← writeBuffer m w.chunks buffer
  let a ← w.res
  return (a, b)

/-- `trait Serialize`, bsn1_serde/src/ser/mod.rs:24-52, as the dictionary of its methods
(in `Type 1` only because mutual definitions in `Verif.Model.Types` need one universe). -/
structure Ser (α : Type) : Type 1 where
  writeId : α → W Unit
  writeDerContents : α → W Unit
  idLen : α → Res (Option Nat)
  derContentsLen : α → Res (Option Nat)

variable {α β : Type}

/-- `match value.der_contents_len()? { .. }`, bsn1_serde/src/lib.rs:36-43 and 85-92. -/
def contentsLen (m : Build) (s : Ser α) (value : α) : Res (Nat × Option Bytes) := do
  match ← s.derContentsLen value with
  | some len => return (len, none)
  | none =>
    let (_, contents) ← (s.writeDerContents value).toBuffer m []
    return (contents.length, some contents)

/-- `write_der`, bsn1_serde/src/lib.rs:80-106. -/
def writeDer (m : Build) (s : Ser α) (value : α) : W Unit := do
  let (contentsLen, contents) ← W.lift (contentsLen m s value)
  let length ← W.lift (Length.definite contentsLen).toBytes
  s.writeId value
  W.writeAll length
  match contents with
  | some contents => W.writeAll contents
  | none => s.writeDerContents value

/-- `if let Some(id_len) = value.id_len()? { .. reserve .. }`, bsn1_serde/src/lib.rs:48-51. -/
def reserveDer (m : Build) (idLen : Option Nat) (lengthLen contentsLen : Nat) : Res Unit := do
  match idLen with
  | some idLen =>
    let t ← uadd m idLen lengthLen
    let derLen ← uadd m t contentsLen
    let _ ← bufReserve m 0 derLen
    return ()
  | none => return ()

/-- `to_der`, bsn1_serde/src/lib.rs:32-63.  The result is the buffer, unchecked. -/
def toDer (m : Build) (s : Ser α) (value : α) : Res Bytes := do
  let (contentsLen, contents) ← contentsLen m s value
  let length ← (Length.definite contentsLen).toBytes
  let idLen ← s.idLen value
  reserveDer m idLen length.length contentsLen
  let (_, buffer) ← (s.writeId value).toBuffer m []
  let buffer ← writeBuffer m [length] buffer
  match contents with
  | some contents => writeBuffer m [contents] buffer
  | none =>
    let (_, buffer) ← (s.writeDerContents value).toBuffer m buffer
    return buffer

/-- `to_ber`, bsn1_serde/src/lib.rs:66-72. -/
def toBer (m : Build) (s : Ser α) (value : α) : Res Bytes := toDer m s value

/-- `write_ber`, bsn1_serde/src/lib.rs:114-121. -/
def writeBer (m : Build) (s : Ser α) (value : α) : W Unit := writeDer m s value

/-- `der_len`, bsn1_serde/src/ser/mod.rs:663-675. -/
def derLen (m : Build) (s : Ser α) (t : α) : Res (Option Nat) := do
  match ← s.derContentsLen t with
  | some contentsLen =>
    match ← s.idLen t with
    | some idLen =>
      let a ← uadd m idLen (Length.definite contentsLen).len
      let n ← uadd m a contentsLen
      return some n
    | none => return none
  | none => return none

/-- The loop of `der_contents_len`, bsn1_serde/src/ser/mod.rs:682-690, from the accumulator `ret` on. -/
def derContentsLenLoop (m : Build) (s : Ser α) : (it : List α) → (ret : Nat) → Res (Option Nat)
  | [], ret => .ok (some ret)
  | t :: r, ret => do
    match ← derLen m s t with
    | some len =>
      let ret ← uadd m ret len
      derContentsLenLoop m s r ret
    | none => return none

/-- `der_contents_len`, bsn1_serde/src/ser/mod.rs:677-691.  The iterator is the list of its items. -/
def derContentsLen (m : Build) (s : Ser α) (it : List α) : Res (Option Nat) :=
  derContentsLenLoop m s it 0

/-- `for t in self.iter() { write_der(t, buffer)?; } Ok(())`, e.g. bsn1_serde/src/ser/mod.rs:401-405. -/
def writeEach (m : Build) (s : Ser α) : (it : List α) → W Unit
  | [] => pure ()
  | t :: r => do
    writeDer m s t
    writeEach m s r

/-- `match der_len(k)? { Some(..) .. None => to_der(k)? .. }`, bsn1_serde/src/ser/mod.rs:508-523 and 603-618. -/
def entryLen (m : Build) (s : Ser α) (k : α) : Res (Nat × Option Bytes) := do
  match ← derLen m s k with
  | some kLen => return (kLen, none)
  | none =>
    let derK ← toDer m s k
    return (derK.length, some derK)

/-- `if let Some(der_k) = der_k { .. } else { write_der(k, buffer)? }`, bsn1_serde/src/ser/mod.rs:530-540 and
626-636. -/
def writeEntry (m : Build) (s : Ser α) (k : α) (derK : Option Bytes) : W Unit :=
  match derK with
  | some derK => W.writeAll derK
  | none => writeDer m s k

/-- The loop body of `write_der_contents` of `BTreeMap` and `HashMap`,
bsn1_serde/src/ser/mod.rs:508-540 and 603-636. -/
def writePair (m : Build) (sk : Ser α) (sv : Ser β) (kv : α × β) : W Unit := do
  let (kLen, derK) ← W.lift (entryLen m sk kv.1)
  let (vLen, derV) ← W.lift (entryLen m sv kv.2)
  let contentLen ← W.lift (uadd m kLen vLen)
  W.writeAll IdRef.sequence
  let length ← W.lift (Length.definite contentLen).toBytes
  W.writeAll length
  writeEntry m sk kv.1 derK
  writeEntry m sv kv.2 derV

/-- `for (k, v) in self.iter() { .. } Ok(())`, bsn1_serde/src/ser/mod.rs:507-542 and 602-639. -/
def writePairs (m : Build) (sk : Ser α) (sv : Ser β) : (it : List (α × β)) → W Unit
  | [] => pure ()
  | kv :: r => do
    writePair m sk sv kv
    writePairs m sk sv r

/-- `ret += IdRef::sequence().len() + length.len() + content_len`, bsn1_serde/src/ser/mod.rs:554-556 and 651-653. -/
def addPair (m : Build) (ret kLen vLen : Nat) : Res Nat := do
  let contentLen ← uadd m kLen vLen
  let a ← uadd m IdRef.sequence.length (Length.definite contentLen).len
  let a ← uadd m a contentLen
  uadd m ret a

/-- `BTreeMap::der_contents_len`, bsn1_serde/src/ser/mod.rs:549-565, from the accumulator on. -/
def btreeMapLen (m : Build) (sk : Ser α) (sv : Ser β) : (it : List (α × β)) → (ret : Nat) → Res (Option Nat)
  | [], ret => .ok (some ret)
  | kv :: r, ret => do
    match ← derLen m sk kv.1 with
    | some kLen =>
      match ← derLen m sv kv.2 with
      | some vLen =>
        let ret ← addPair m ret kLen vLen
        btreeMapLen m sk sv r ret
      | none => return none
    | none => return none

/-- `HashMap::der_contents_len`, bsn1_serde/src/ser/mod.rs:646-660, from the accumulator on.  A pair whose key has
no size hint is passed over. -/
def hashMapLen (m : Build) (sk : Ser α) (sv : Ser β) : (it : List (α × β)) → (ret : Nat) → Res (Option Nat)
  | [], ret => .ok (some ret)
  | kv :: r, ret => do
    match ← derLen m sk kv.1 with
    | some kLen =>
      match ← derLen m sv kv.2 with
      | some vLen =>
        let ret ← addPair m ret kLen vLen
        hashMapLen m sk sv r ret
      | none => return none
    | none => hashMapLen m sk sv r ret

/-- `leading_zeros` of the two's complement representation in `w` bits.  bsn1_serde/src/ser/mod.rs:194, 218. -/
def leadingZerosInt (w : Nat) (v : Int) : Nat := leadingZeros w (v % 2 ^ w).toNat

/-- `leading_ones` of the two's complement representation in `w` bits: the leading zeros of `!v`.  bsn1_serde/src/ser/mod.rs:192. -/
def leadingOnesInt (w : Nat) (v : Int) : Nat := leadingZeros w ((-v - 1) % 2 ^ w).toNat

/-- `der_contents_len` of the signed types from `i32` on, bsn1_serde/src/ser/mod.rs:190-198, 239-247, 288-296,
337-345. -/
def signedLen (t : IntTy) (v : Int) : Nat :=
  if v < 0 then (8 * t.size + 8 - leadingOnesInt (8 * t.size) v) / 8
  else (8 * t.size + 8 - leadingZerosInt (8 * t.size) v) / 8

/-- `der_contents_len` of the unsigned types from `u32` on, bsn1_serde/src/ser/mod.rs:217-220, 266-269, 315-318,
364-367. -/
def unsignedLen (t : IntTy) (v : Int) : Nat := (8 * t.size + 8 - leadingZerosInt (8 * t.size) v) / 8

/-- `der_contents_len` of the integer types. -/
def intLen (t : IntTy) (v : Int) : Nat :=
  match t with
  -- bsn1_serde/src/ser/mod.rs:92-94
  | .i8 => 1
  -- bsn1_serde/src/ser/mod.rs:113-119
  | .u8 => if v ≤ 127 then 1 else 2
  -- bsn1_serde/src/ser/mod.rs:138-144
  | .i16 => if -128 ≤ v ∧ v ≤ 127 then 1 else 2
  -- bsn1_serde/src/ser/mod.rs:163-171
  | .u16 => if v ≤ 127 then 1 else if v ≤ 32767 then 2 else 3
  | .i32 => signedLen .i32 v
  | .u32 => unsignedLen .u32 v
  | .i64 => signedLen .i64 v
  | .u64 => unsignedLen .u64 v
  | .i128 => signedLen .i128 v
  | .u128 => unsignedLen .u128 v
  | .isize => signedLen .isize v
  | .usize => unsignedLen .usize v

namespace Ser

/-- `Serialize for bool`, bsn1_serde/src/ser/mod.rs:54-74. -/
def bool : Ser Bool where
  writeId _ := W.writeAll IdRef.boolean
  writeDerContents v := W.writeAll (Contents.ofBool v)
  idLen _ := .ok (some 1)
  derContentsLen _ := .ok (some 1)

/-- `Serialize` for the integer types, bsn1_serde/src/ser/mod.rs:76-368. -/
def int (t : IntTy) : Ser Int where
  writeId _ := W.writeAll IdRef.integer
  writeDerContents v := do
    let contents ← W.lift (Contents.ofInt t v)
    W.writeAll contents
  idLen _ := .ok (some 1)
  derContentsLen v := .ok (some (intLen t v))

/-- `Serialize for String`, bsn1_serde/src/ser/mod.rs:370-388. -/
def string : Ser String where
  writeId _ := W.writeAll IdRef.utf8String
  writeDerContents v := W.writeAll v.toByteArray.data.toList
  idLen _ := .ok (some 1)
  derContentsLen v := .ok (some v.toByteArray.size)

/-- `Serialize for OctetString`, bsn1_serde/src/octet_string.rs:63-80.  The value is its octets; whether they are
borrowed or owned (`Cow`) makes no difference. -/
def octetString : Ser Bytes where
  writeId _ := W.writeAll [0x04]
  writeDerContents v := W.writeAll v
  idLen _ := .ok (some 1)
  derContentsLen v := .ok (some v.length)

/-- `Serialize for Vec<T>`, bsn1_serde/src/ser/mod.rs:390-415. -/
def vec (m : Build) (s : Ser α) : Ser (List α) where
  writeId _ := W.writeAll IdRef.sequence
  writeDerContents v := writeEach m s v
  idLen _ := .ok (some 1)
  derContentsLen v := Bsn1.derContentsLen m s v

/-- `Serialize for LinkedList<T>`, bsn1_serde/src/ser/mod.rs:417-441. -/
def linkedList (m : Build) (s : Ser α) : Ser (List α) where
  writeId _ := W.writeAll IdRef.sequence
  writeDerContents v := writeEach m s v
  idLen _ := .ok (some 1)
  derContentsLen v := Bsn1.derContentsLen m s v

/-- `Serialize for VecDeque<T>`, bsn1_serde/src/ser/mod.rs:443-467. -/
def vecDeque (m : Build) (s : Ser α) : Ser (List α) where
  writeId _ := W.writeAll IdRef.sequence
  writeDerContents v := writeEach m s v
  idLen _ := .ok (some 1)
  derContentsLen v := Bsn1.derContentsLen m s v

/-- `Serialize for BTreeSet<T>`, bsn1_serde/src/ser/mod.rs:469-493.  The value is the list of the elements in
ascending order, which is the order of `iter()`. -/
def btreeSet (m : Build) (s : Ser α) : Ser (List α) where
  writeId _ := W.writeAll IdRef.sequence
  writeDerContents v := writeEach m s v
  idLen _ := .ok (some 1)
  derContentsLen v := Bsn1.derContentsLen m s v

/-- `Serialize for BTreeMap<K, V>`, bsn1_serde/src/ser/mod.rs:495-566.  The value is the list of the pairs in
ascending order of the keys. -/
def btreeMap (m : Build) (sk : Ser α) (sv : Ser β) : Ser (List (α × β)) where
  writeId _ := W.writeAll IdRef.sequence
  writeDerContents v := writePairs m sk sv v
  idLen _ := .ok (some 1)
  derContentsLen v := btreeMapLen m sk sv v 0

/-- `Serialize for HashSet<T>`, bsn1_serde/src/ser/mod.rs:568-590.  The value is the list of the elements in the
order of `iter()`, which the code does not control. -/
def hashSet (m : Build) (s : Ser α) : Ser (List α) where
  writeId _ := W.writeAll IdRef.set
  writeDerContents v := writeEach m s v
  idLen _ := .ok (some 1)
  derContentsLen v := Bsn1.derContentsLen m s v

/-- `Serialize for HashMap<K, V>`, bsn1_serde/src/ser/mod.rs:592-661.  The value is the list of the pairs in the
order of `iter()`. -/
def hashMap (m : Build) (sk : Ser α) (sv : Ser β) : Ser (List (α × β)) where
  writeId _ := W.writeAll IdRef.set
  writeDerContents v := writePairs m sk sv v
  idLen _ := .ok (some 1)
  derContentsLen v := hashMapLen m sk sv v 0

end Ser
end Bsn1
