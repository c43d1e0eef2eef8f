import Verif.Model.Target
import Verif.Model.Types
/-!
# Serialization on targets with another pointer width

The functions of `Verif.Model.Ser` and `Verif.Model.Derive` that compute with `usize`, with the size of `usize` as a parameter.  The dictionaries
(`Ser`, `SerFields`, `SerVariants`, `W`) and all that does not depend on the pointer width are those of the main model.
-/

namespace Bsn1
namespace Target
open Spec

variable (tg : Target) {α β : Type}

/-- `Write for Buffer`, bsn1/src/buffer/mod.rs:202-206: each `write_all` of a non-empty slice reserves room and
appends; it only fails by the panic of `reserve`. -/
def writeBuffer (m : Build) : (chunks : List Bytes) → (buffer : Bytes) → Res Bytes
  | [], buffer => .ok buffer
  | c :: r, buffer => do
    let _ ← tg.bufReserve m buffer.length c.length
    writeBuffer m r (buffer ++ c)

/-- Running a computation with `W = Buffer`.  Returns the result and the buffer.  bsn1_serde/src/lib.rs:40, 53, 59, 89. -/
def toBuffer {α : Type} (m : Build) (w : W α) (buffer : Bytes) : Res (α × Bytes) := do
  let b ← tg.writeBuffer m w.chunks buffer
  let a ← w.res
  return (a, b)

/-- `match value.der_contents_len()? { .. }`, bsn1_serde/src/lib.rs:36-43 and 85-92. -/
def contentsLen (m : Build) (s : Ser α) (value : α) : Res (Nat × Option Bytes) := do
  match ← s.derContentsLen value with
  | some len => return (len, none)
  | none =>
    let (_, contents) ← tg.toBuffer m (s.writeDerContents value) []
    return (contents.length, some contents)

/-- `write_der`, bsn1_serde/src/lib.rs:80-106. -/
def writeDer (m : Build) (s : Ser α) (value : α) : W Unit := do
  let (contentsLen, contents) ← W.lift (tg.contentsLen m s value)
  let length ← W.lift (tg.toBytes (.definite contentsLen))
  s.writeId value
  W.writeAll length
  match contents with
  | some contents => W.writeAll contents
  | none => s.writeDerContents value

/-- `if let Some(id_len) = value.id_len()? { .. reserve .. }`, bsn1_serde/src/lib.rs:48-51. -/
def reserveDer (m : Build) (idLen : Option Nat) (lengthLen contentsLen : Nat) : Res Unit := do
  match idLen with
  | some idLen =>
    let t ← tg.uadd m idLen lengthLen
    let derLen ← tg.uadd m t contentsLen
    let _ ← tg.bufReserve m 0 derLen
    return ()
  | none => return ()

/-- `to_der`, bsn1_serde/src/lib.rs:32-63.  The result is the buffer, unchecked. -/
def toDer (m : Build) (s : Ser α) (value : α) : Res Bytes := do
  let (contentsLen, contents) ← tg.contentsLen m s value
  let length ← (tg.toBytes (.definite contentsLen))
  let idLen ← s.idLen value
  tg.reserveDer m idLen length.length contentsLen
  let (_, buffer) ← tg.toBuffer m (s.writeId value) []
  let buffer ← tg.writeBuffer m [length] buffer
  match contents with
  | some contents => tg.writeBuffer m [contents] buffer
  | none =>
    let (_, buffer) ← tg.toBuffer m (s.writeDerContents value) buffer
    return buffer

/-- `to_ber`, bsn1_serde/src/lib.rs:66-72. -/
def toBer (m : Build) (s : Ser α) (value : α) : Res Bytes := tg.toDer m s value

/-- `write_ber`, bsn1_serde/src/lib.rs:114-121. -/
def writeBer (m : Build) (s : Ser α) (value : α) : W Unit := tg.writeDer m s value

/-- `der_len`, bsn1_serde/src/ser/mod.rs:663-675. -/
def derLen (m : Build) (s : Ser α) (t : α) : Res (Option Nat) := do
  match ← s.derContentsLen t with
  | some contentsLen =>
    match ← s.idLen t with
    | some idLen =>
      let a ← tg.uadd m idLen (tg.lengthLen (.definite contentsLen))
      let n ← tg.uadd m a contentsLen
      return some n
    | none => return none
  | none => return none

/-- The loop of `der_contents_len`, bsn1_serde/src/ser/mod.rs:682-690, from the accumulator `ret` on. -/
def derContentsLenLoop (m : Build) (s : Ser α) : (it : List α) → (ret : Nat) → Res (Option Nat)
  | [], ret => .ok (some ret)
  | t :: r, ret => do
    match ← tg.derLen m s t with
    | some len =>
      let ret ← tg.uadd m ret len
      derContentsLenLoop m s r ret
    | none => return none

/-- `der_contents_len`, bsn1_serde/src/ser/mod.rs:677-691.  The iterator is the list of its items. -/
def derContentsLen (m : Build) (s : Ser α) (it : List α) : Res (Option Nat) :=
  tg.derContentsLenLoop m s it 0

/-- `for t in self.iter() { write_der(t, buffer)?; } Ok(())`, e.g. bsn1_serde/src/ser/mod.rs:401-405. -/
def writeEach (m : Build) (s : Ser α) : (it : List α) → W Unit
  | [] => pure ()
  | t :: r => do
    tg.writeDer m s t
    writeEach m s r

/-- `match der_len(k)? { Some(..) .. None => to_der(k)? .. }`, bsn1_serde/src/ser/mod.rs:508-523 and 603-618. -/
def entryLen (m : Build) (s : Ser α) (k : α) : Res (Nat × Option Bytes) := do
  match ← tg.derLen m s k with
  | some kLen => return (kLen, none)
  | none =>
    let derK ← tg.toDer m s k
    return (derK.length, some derK)

/-- `if let Some(der_k) = der_k { .. } else { write_der(k, buffer)? }`, bsn1_serde/src/ser/mod.rs:530-540 and
626-636. -/
def writeEntry (m : Build) (s : Ser α) (k : α) (derK : Option Bytes) : W Unit :=
  match derK with
  | some derK => W.writeAll derK
  | none => tg.writeDer m s k

/-- The loop body of `write_der_contents` of `BTreeMap` and `HashMap`,
bsn1_serde/src/ser/mod.rs:508-540 and 603-636. -/
def writePair (m : Build) (sk : Ser α) (sv : Ser β) (kv : α × β) : W Unit := do
  let (kLen, derK) ← W.lift (tg.entryLen m sk kv.1)
  let (vLen, derV) ← W.lift (tg.entryLen m sv kv.2)
  let contentLen ← W.lift (tg.uadd m kLen vLen)
  W.writeAll IdRef.sequence
  let length ← W.lift (tg.toBytes (.definite contentLen))
  W.writeAll length
  tg.writeEntry m sk kv.1 derK
  tg.writeEntry m sv kv.2 derV

/-- `for (k, v) in self.iter() { .. } Ok(())`, bsn1_serde/src/ser/mod.rs:507-542 and 602-639. -/
def writePairs (m : Build) (sk : Ser α) (sv : Ser β) : (it : List (α × β)) → W Unit
  | [] => pure ()
  | kv :: r => do
    tg.writePair m sk sv kv
    writePairs m sk sv r

/-- `ret += IdRef::sequence().len() + length.len() + content_len`, bsn1_serde/src/ser/mod.rs:554-556 and 651-653. -/
def addPair (m : Build) (ret kLen vLen : Nat) : Res Nat := do
  let contentLen ← tg.uadd m kLen vLen
  let a ← tg.uadd m IdRef.sequence.length (tg.lengthLen (.definite contentLen))
  let a ← tg.uadd m a contentLen
  tg.uadd m ret a

/-- `BTreeMap::der_contents_len`, bsn1_serde/src/ser/mod.rs:549-565, from the accumulator on. -/
def btreeMapLen (m : Build) (sk : Ser α) (sv : Ser β) : (it : List (α × β)) → (ret : Nat) → Res (Option Nat)
  | [], ret => .ok (some ret)
  | kv :: r, ret => do
    match ← tg.derLen m sk kv.1 with
    | some kLen =>
      match ← tg.derLen m sv kv.2 with
      | some vLen =>
        let ret ← tg.addPair m ret kLen vLen
        btreeMapLen m sk sv r ret
      | none => return none
    | none => return none

/-- `HashMap::der_contents_len`, bsn1_serde/src/ser/mod.rs:646-660, from the accumulator on.  A pair whose key has
no size hint is passed over. -/
def hashMapLen (m : Build) (sk : Ser α) (sv : Ser β) : (it : List (α × β)) → (ret : Nat) → Res (Option Nat)
  | [], ret => .ok (some ret)
  | kv :: r, ret => do
    match ← tg.derLen m sk kv.1 with
    | some kLen =>
      match ← tg.derLen m sv kv.2 with
      | some vLen =>
        let ret ← tg.addPair m ret kLen vLen
        hashMapLen m sk sv r ret
      | none => return none
    | none => hashMapLen m sk sv r ret

/-- `der_contents_len` of the integer types: as `Bsn1.intLen`, but `BITS` of `isize` and `usize` is that of the target.
bsn1_serde/src/ser/mod.rs:337-345 (`isize`), 364-367 (`usize`). -/
def intLen (i : IntTy) (v : Int) : Nat :=
  match i with
  | .isize => signedLen (tg.intTy .isize) v
  | .usize => unsignedLen (tg.intTy .usize) v
  | i => Bsn1.intLen i v

/-- `Serialize` for the integer types, bsn1_serde/src/ser/mod.rs:76-368. -/
def serInt (i : IntTy) : Ser Int where
  writeId _ := W.writeAll IdRef.integer
  writeDerContents v := do
    let contents ← W.lift (Contents.ofInt (tg.intTy i) v)
    W.writeAll contents
  idLen _ := .ok (some 1)
  derContentsLen v := .ok (some (tg.intLen i v))

/-- `Serialize for Vec<T>`, bsn1_serde/src/ser/mod.rs:390-415. -/
def serVec (m : Build) (s : Ser α) : Ser (List α) where
  writeId _ := W.writeAll IdRef.sequence
  writeDerContents v := tg.writeEach m s v
  idLen _ := .ok (some 1)
  derContentsLen v := tg.derContentsLen m s v

/-- `Serialize for LinkedList<T>`, bsn1_serde/src/ser/mod.rs:417-441. -/
def serLinkedList (m : Build) (s : Ser α) : Ser (List α) where
  writeId _ := W.writeAll IdRef.sequence
  writeDerContents v := tg.writeEach m s v
  idLen _ := .ok (some 1)
  derContentsLen v := tg.derContentsLen m s v

/-- `Serialize for VecDeque<T>`, bsn1_serde/src/ser/mod.rs:443-467. -/
def serVecDeque (m : Build) (s : Ser α) : Ser (List α) where
  writeId _ := W.writeAll IdRef.sequence
  writeDerContents v := tg.writeEach m s v
  idLen _ := .ok (some 1)
  derContentsLen v := tg.derContentsLen m s v

/-- `Serialize for BTreeSet<T>`, bsn1_serde/src/ser/mod.rs:469-493.  The value is the list of the elements in
ascending order, which is the order of `iter()`. -/
def serBtreeSet (m : Build) (s : Ser α) : Ser (List α) where
  writeId _ := W.writeAll IdRef.sequence
  writeDerContents v := tg.writeEach m s v
  idLen _ := .ok (some 1)
  derContentsLen v := tg.derContentsLen m s v

/-- `Serialize for BTreeMap<K, V>`, bsn1_serde/src/ser/mod.rs:495-566.  The value is the list of the pairs in
ascending order of the keys. -/
def serBtreeMap (m : Build) (sk : Ser α) (sv : Ser β) : Ser (List (α × β)) where
  writeId _ := W.writeAll IdRef.sequence
  writeDerContents v := tg.writePairs m sk sv v
  idLen _ := .ok (some 1)
  derContentsLen v := tg.btreeMapLen m sk sv v 0

/-- `Serialize for HashSet<T>`, bsn1_serde/src/ser/mod.rs:568-590.  The value is the list of the elements in the
order of `iter()`, which the code does not control. -/
def serHashSet (m : Build) (s : Ser α) : Ser (List α) where
  writeId _ := W.writeAll IdRef.set
  writeDerContents v := tg.writeEach m s v
  idLen _ := .ok (some 1)
  derContentsLen v := tg.derContentsLen m s v

/-- `Serialize for HashMap<K, V>`, bsn1_serde/src/ser/mod.rs:592-661.  The value is the list of the pairs in the
order of `iter()`. -/
def serHashMap (m : Build) (sk : Ser α) (sv : Ser β) : Ser (List (α × β)) where
  writeId _ := W.writeAll IdRef.set
  writeDerContents v := tg.writePairs m sk sv v
  idLen _ := .ok (some 1)
  derContentsLen v := tg.hashMapLen m sk sv v 0

/-- The statement generated for one field in `write_der_contents`, bsn1_serde_macros/src/data_container.rs:213-225. -/
def writeField (m : Build) {β : Type} : SerField β → β → W Unit
  | .skip, _ => pure ()
  | .plain s, v => tg.writeDer m s v
  | .conv s f, v => tg.writeDer m s (f v)

/-- `write_der_contents`, bsn1_serde_macros/src/data_container.rs:183-231. -/
def writeFields (m : Build) {γ : Type} : SerFields γ → γ → W Unit
  | .nil, _ => pure ()
  | .cons f r, v => do
    tg.writeField m f v.1
    writeFields m r v.2

/-- The accumulation of the field sizes, bsn1_serde_macros/src/data_container.rs:285-315, from `ret` on.  The `conv` case is excluded by
lines 269-275 and 290-291. -/
def fieldsLenLoop (m : Build) {γ : Type} : SerFields γ → γ → (ret : Nat) → Res (Option Nat)
  | .nil, _, ret => .ok (some ret)
  | .cons .skip r, v, ret => fieldsLenLoop m r v.2 ret
  | .cons (.plain s) r, v, ret => do
    match ← s.derContentsLen v.1 with
    | some contentsLen =>
      match ← s.idLen v.1 with
      | some idLen =>
        let lengthLen := (tg.lengthLen (.definite contentsLen))
        let a ← tg.uadd m idLen lengthLen
        let a ← tg.uadd m a contentsLen
        let ret ← tg.uadd m ret a
        fieldsLenLoop m r v.2 ret
      | none => return none
    | none => return none
  | .cons (.conv _ _) _, _, _ => .panic

/-- `der_contents_len`, bsn1_serde_macros/src/data_container.rs:264-316. -/
def fieldsLen (m : Build) {γ : Type} (fs : SerFields γ) (v : γ) : Res (Option Nat) :=
  if anyConv fs then .ok none else tg.fieldsLenLoop m fs v 0

/-- The methods generated for a struct with the identifier octets `id`, bsn1_serde_macros/src/ser/mod.rs:121-168
with bsn1_serde_macros/src/data_container.rs:109-115 (`write_id`), 148-154 (`id_len`), 183-231, 264-316. -/
def serStruct (m : Build) {γ : Type} (id : Bytes) (fs : SerFields γ) : Ser γ where
  writeId _ := W.writeAll id
  writeDerContents v := tg.writeFields m fs v
  idLen _ := .ok (some id.length)
  derContentsLen v := tg.fieldsLen m fs v

/-- The `match self` over the variants, bsn1_serde_macros/src/ser/mod.rs:195-227: the methods of the variant of the
value. -/
def pickVariant (m : Build) {ρ α : Type} (k : {γ : Type} → Ser γ → γ → α) : SerVariants ρ → ρ → α
  | .cons id fs _, .inl v => k (tg.serStruct m id fs) v
  | .cons _ _ r, .inr v => pickVariant m k r v

/-- The methods generated for an enum, bsn1_serde_macros/src/ser/mod.rs:171-228. -/
def serEnum (m : Build) {ρ : Type} (vs : SerVariants ρ) : Ser ρ where
  writeId := fun v => tg.pickVariant m (fun s v => s.writeId v) vs v
  writeDerContents := fun v => tg.pickVariant m (fun s v => s.writeDerContents v) vs v
  idLen := fun v => tg.pickVariant m (fun s v => s.idLen v) vs v
  derContentsLen := fun v => tg.pickVariant m (fun s v => s.derContentsLen v) vs v

mutual
/-- `Serialize` of a type: bsn1_serde/src/ser/mod.rs:54-661, octet_string.rs:63-80, bsn1_serde_macros/src/ser/mod.rs. -/
def tySer (m : Build) : {α : Type} → Ty α → Ser α
  | _, .bool => Ser.bool
  | _, .int t => tg.serInt t
  | _, .string => Ser.string
  | _, .octetString => Ser.octetString
  | _, .vec t => tg.serVec m (tySer m t)
  | _, .linkedList t => tg.serLinkedList m (tySer m t)
  | _, .vecDeque t => tg.serVecDeque m (tySer m t)
  | _, .btreeSet _ _ _ t => tg.serBtreeSet m (tySer m t)
  | _, .btreeMap _ _ _ k t => tg.serBtreeMap m (tySer m k) (tySer m t)
  | _, .hashSet _ t => tg.serHashSet m (tySer m t)
  | _, .hashMap _ k t => tg.serHashMap m (tySer m k) (tySer m t)
  | _, .struct id fs => tg.serStruct m id (fieldsSer m fs)
  | _, .enum vs => tg.serEnum m (variantsSer m vs)
  | _, .transparent fs =>
    -- a transparent struct that does not compile has no implementation; then this is not used
    (Ser.transparent (fieldsSer m fs)).getD (tg.serStruct m [] (fieldsSer m fs))
  | _, .conv t f _ => Ser.conv (tySer m t) f
  -- the generated methods work on the fields, which `f` gives
  | _, .named t f _ _ _ => Ser.comap (tySer m t) f
  | _, .hole => Ser.hole
/-- The serializers of the fields, bsn1_serde_macros/src/data_container.rs:186-208. -/
def fieldsSer (m : Build) : {γ : Type} → Fields γ → SerFields γ
  | _, .nil => .nil
  | _, .plain t r => .cons (.plain (tySer m t)) (fieldsSer m r)
  | _, .skip _ r => .cons .skip (fieldsSer m r)
  | _, .skipSer _ r => .cons .skip (fieldsSer m r)
  | _, .skipDe t _ r => .cons (.plain (tySer m t)) (fieldsSer m r)
  | _, .conv t f _ r => .cons (.conv (tySer m t) f) (fieldsSer m r)
/-- The serializers of the variants, bsn1_serde_macros/src/ser/mod.rs:195-201. -/
def variantsSer (m : Build) : {ρ : Type} → Variants ρ → SerVariants ρ
  | _, .nil => .nil
  | _, .cons id fs r => .cons id (fieldsSer m fs) (variantsSer m r)
end


end Target
end Bsn1
