import Verif.Model.Types
/-!
# Work: the decoders once more, with the number of octets they look at

The definitions follow bsn1_serde/src/de/mod.rs, lib.rs and the generated code as `Verif.Model.De`, `Verif.Model.Derive` and
`Verif.Model.Types` do, and count. `C92_same_result` shows that they compute the same.

What is counted: the octets of the headers that `BerRef::parse`, `DerRef::parse`, `disassemble`, `id` and `contents` go over, each time
they do, and the contents of primitive values once. Not counted, being at most a constant for each of these calls: comparisons of
identifiers, and the comparison with the end-of-contents in `BerRef::do_parse` (bsn1/src/ber_ref.rs:164) when it fails. Not counted as not part of the
crates: what the collections of the standard library do to insert an element.
-/

namespace Bsn1
open Spec

/-- A result together with the number of octets looked at.  The result is that of the function modelled, e.g. bsn1_serde/src/de/mod.rs:25-37. -/
structure Work (α : Type) where
  res : Res α
  octets : Nat

namespace Work
variable {α β : Type}

/-- `?` in sequence, e.g. bsn1_serde/src/de/mod.rs:324-331: what was looked at adds up. -/
def bind (x : Work α) (f : α → Work β) : Work β :=
  match x.res with
  | .ok a => ⟨(f a).res, x.octets + (f a).octets⟩
  | .err e => ⟨.err e, x.octets⟩
  | .panic => ⟨.panic, x.octets⟩
  | .ub => ⟨.ub, x.octets⟩

/-- `?` in sequence, e.g. bsn1_serde/src/de/mod.rs:324-331. -/
instance : Monad Work where
  pure a := ⟨.ok a, 0⟩
  bind := Work.bind

/-- `.map_err(|err| err.context(..))`, e.g. bsn1_serde/src/de/mod.rs:607-616. -/
def context (x : Work α) : Work α := ⟨mapErrContext x.res, x.octets⟩

/-- A step that looks at no octets of the input, or at octets already counted.  E.g. bsn1_serde/src/de/mod.rs:47. -/
def free (r : Res α) : Work α := ⟨r, 0⟩

end Work

/-- The octets read by `parse_id_length`, bsn1/src/misc.rs:59-66, from a slice. -/
def headerOctets (bytes : Bytes) : Nat := bytes.length - ((parseIdLength (σ := Bytes)).run bytes []).2.1.length

/-- The octets `DerRef::parse` looks at, bsn1/src/der_ref.rs:93-100, 167-181: the contents are skipped. -/
def DerRef.parseOctets (bytes : Bytes) : Nat := headerOctets bytes

/-- The octets `BerRef::do_parse` looks at, bsn1/src/ber_ref.rs:162-182: an end-of-contents, or a header; contents of definite length are skipped. -/
def BerRef.doParseOctets (readable : Bytes) : Nat := if eoc.isPrefixOf readable then eoc.length else headerOctets readable

/-- The octets the `while` loop of `BerRef::parse` looks at, bsn1/src/ber_ref.rs:92-95. -/
def BerRef.parseLoopOctets : (fuel : Nat) → (stackDepth : Int) → (bytes : Bytes) → Nat
  | 0, _, _ => 0
  | fuel + 1, stackDepth, bytes =>
    match doParse bytes with
    | (.ok d, rest) =>
      if isizeMax < stackDepth + d then doParseOctets bytes
      else if stackDepth + d > 0 then doParseOctets bytes + parseLoopOctets fuel (stackDepth + d) rest
      else doParseOctets bytes
    | _ => doParseOctets bytes

/-- The octets `BerRef::parse` looks at, bsn1/src/ber_ref.rs:88-99. -/
def BerRef.parseOctets (bytes : Bytes) : Nat := parseLoopOctets (bytes.length + 1) 0 bytes

/-- The octets `disassemble` of `DerRef` (bsn1/src/der_ref.rs:353-361) and `BerRef` (ber_ref.rs:354-362) looks at: the header.  `contents`
(der_ref.rs:314-316, ber_ref.rs:314-316) does the same. -/
def disassembleOctets (self : Bytes) : Nat :=
  match BerRef.disassemble self with
  | .ok (_, _, c) => self.length - c.length
  | _ => self.length

/-- The octets `id` of `DerRef` (bsn1/src/der_ref.rs:252-254) and `BerRef` (ber_ref.rs:252-254) looks at. -/
def idOctets (self : Bytes) : Nat :=
  match parseIdUnchecked self with
  | .ok (id, _) => id.length
  | _ => self.length

/-- `trait Deserialize`, bsn1_serde/src/de/mod.rs:24-38. -/
structure WDe (α : Type) : Type 1 where
  fromBer : Bytes → Length → Bytes → Work α
  fromDer : Bytes → Bytes → Work α

variable {α β γ : Type}

/-- `DeserializeHelper::der_to_val`, bsn1_serde/src/de/mod.rs:598-620. -/
def WDe.derToVal (d : WDe α) (contents : Bytes) : Work (Option (α × Bytes)) :=
  if contents.isEmpty then pure none
  else do
    let der ← ⟨mapErrContext (DerRef.parse contents).1, DerRef.parseOctets contents⟩
    let (id, _, c) ← ⟨DerRef.disassemble der, disassembleOctets der⟩
    let val ← (d.fromDer id c).context
    return some (val, (DerRef.parse contents).2)

/-- `DeserializeHelper::ber_to_val`, bsn1_serde/src/de/mod.rs:622-646. -/
def WDe.berToVal (d : WDe α) (contents : Bytes) : Work (Option (α × Bytes)) :=
  if contents.isEmpty then pure none
  else do
    let ber ← ⟨mapErrContext (BerRef.parse contents).1, BerRef.parseOctets contents⟩
    let (id, length, c) ← ⟨BerRef.disassemble ber, disassembleOctets ber⟩
    let val ← (d.fromBer id length c).context
    return some (val, (BerRef.parse contents).2)

/-- `DeserializeHelper::der_to_key_val`, bsn1_serde/src/de/mod.rs:648-711. -/
def WDe.derToKeyVal (dk : WDe α) (dv : WDe β) (contents : Bytes) : Work (Option ((α × β) × Bytes)) :=
  if contents.isEmpty then pure none
  else do
    let pair ← ⟨mapErrContext (DerRef.parse contents).1, DerRef.parseOctets contents⟩
    let pairId ← ⟨DerRef.id pair, idOctets pair⟩
    if pairId ≠ IdRef.sequence then Work.free (.err (Error.invalidKeyValuePair.context))
    else
      let pairContents ← ⟨DerRef.contents pair, disassembleOctets pair⟩
      let key ← ⟨mapErrContext (DerRef.parse pairContents).1, DerRef.parseOctets pairContents⟩
      let pairContents := (DerRef.parse pairContents).2
      let val ← ⟨mapErrContext (DerRef.parse pairContents).1, DerRef.parseOctets pairContents⟩
      let pairContents := (DerRef.parse pairContents).2
      if pairContents.isEmpty then
        let (id, _, c) ← ⟨DerRef.disassemble key, disassembleOctets key⟩
        let key ← (dk.fromDer id c).context
        let (id, _, c) ← ⟨DerRef.disassemble val, disassembleOctets val⟩
        let val ← (dv.fromDer id c).context
        return some ((key, val), (DerRef.parse contents).2)
      else Work.free (.err (Error.invalidKeyValuePair.context))

/-- `DeserializeHelper::ber_to_key_val`, bsn1_serde/src/de/mod.rs:713-780. -/
def WDe.berToKeyVal (dk : WDe α) (dv : WDe β) (contents : Bytes) : Work (Option ((α × β) × Bytes)) :=
  if contents.isEmpty then pure none
  else do
    let pair ← ⟨mapErrContext (BerRef.parse contents).1, BerRef.parseOctets contents⟩
    let pairId ← ⟨BerRef.id pair, idOctets pair⟩
    if pairId ≠ IdRef.sequence then Work.free (.err (Error.invalidKeyValuePair.context))
    else
      let pairContents ← ⟨BerRef.contents pair, disassembleOctets pair⟩
      let key ← ⟨mapErrContext (BerRef.parse pairContents).1, BerRef.parseOctets pairContents⟩
      let pairContents := (BerRef.parse pairContents).2
      let val ← ⟨mapErrContext (BerRef.parse pairContents).1, BerRef.parseOctets pairContents⟩
      let pairContents := (BerRef.parse pairContents).2
      if pairContents.isEmpty then
        let (id, length, c) ← ⟨BerRef.disassemble key, disassembleOctets key⟩
        let key ← (dk.fromBer id length c).context
        let (id, length, c) ← ⟨BerRef.disassemble val, disassembleOctets val⟩
        let val ← (dv.fromBer id length c).context
        return some ((key, val), (BerRef.parse contents).2)
      else Work.free (.err (Error.invalidKeyValuePair.context))

/-- `while let Some(t) = next()? { .. }`, e.g. bsn1_serde/src/de/mod.rs:324-331. -/
def Work.collectLoop (next : Bytes → Work (Option (α × Bytes))) (insert : γ → α → γ) :
    (fuel : Nat) → (contents : Bytes) → (ret : γ) → Work γ
  | 0, _, _ => Work.free .panic
  | fuel + 1, contents, ret => do
    match ← next contents with
    | some (t, contents) => collectLoop next insert fuel contents (insert ret t)
    | none => return ret

/-- The loop with enough fuel.  bsn1_serde/src/de/mod.rs:324-331. -/
def Work.collect (next : Bytes → Work (Option (α × Bytes))) (insert : γ → α → γ) (contents : Bytes) (ret : γ) : Work γ :=
  Work.collectLoop next insert (contents.length + 1) contents ret

namespace WDe

/-- A type without parts: bsn1_serde/src/de/mod.rs:40-314, octet_string.rs:82-105.  All octets of the contents are counted, though some of these
functions look at fewer. -/
def leaf (d : De α) : WDe α where
  fromBer id length contents := ⟨d.fromBer id length contents, contents.length⟩
  fromDer id contents := ⟨d.fromDer id contents, contents.length⟩

/-- A collection, bsn1_serde/src/de/mod.rs:316-561: the identifier is `seq`, `nextBer` and `nextDer` give the elements, `insert` inserts one and
`order` gives the result from the elements inserted. -/
def coll (m : Build) (seq : Bytes) (nextBer nextDer : Bytes → Work (Option (α × Bytes))) (insert : List β → α → List β)
    (order : List β → List β) : WDe (List β) where
  fromBer id length contents :=
    if id ≠ seq then Work.free (.err .unmatchedId)
    else do
      let contents ← Work.free (excludeEoc m length contents)
      let ret ← Work.collect nextBer insert contents []
      return order ret
  fromDer id contents :=
    if id ≠ seq then Work.free (.err .unmatchedId)
    else do
      let ret ← Work.collect nextDer insert contents []
      return order ret

end WDe

/-- What the generator does with a field when deserializing, bsn1_serde_macros/src/data_container.rs:380-402 and 565-587. -/
inductive WField : Type → Type 1
  | skip {β : Type} (dflt : β) : WField β
  | plain {β : Type} (d : WDe β) : WField β
  | from_ {β δ : Type} (d : WDe δ) (f : δ → β) : WField β
  | tryFrom {β δ : Type} (d : WDe δ) (f : δ → Except Chain β) : WField β

/-- The fields of a struct or variant, in order.  The zip of bsn1_serde_macros/src/data_container.rs:352 and 539. -/
inductive WFields : Type → Type 1
  | nil : WFields Unit
  | cons {β γ : Type} (f : WField β) (r : WFields γ) : WFields (β × γ)

/-- `tmp_val` of `from_der_contents`, bsn1_serde_macros/src/data_container.rs:546-563. -/
def WDe.derTmpVal (d : WDe β) (bytes : Bytes) : Work (β × Bytes) := do
  let der ← ⟨mapErrContext (DerRef.parse bytes).1, DerRef.parseOctets bytes⟩
  let (id, _, contents) ← ⟨DerRef.disassemble der, disassembleOctets der⟩
  let v ← (d.fromDer id contents).context
  return (v, (DerRef.parse bytes).2)

/-- `tmp_val` of `from_ber_contents`, bsn1_serde_macros/src/data_container.rs:360-378. -/
def WDe.berTmpVal (d : WDe β) (bytes : Bytes) : Work (β × Bytes) := do
  let ber ← ⟨mapErrContext (BerRef.parse bytes).1, BerRef.parseOctets bytes⟩
  let (id, length, contents) ← ⟨BerRef.disassemble ber, disassembleOctets ber⟩
  let v ← (d.fromBer id length contents).context
  return (v, (BerRef.parse bytes).2)

/-- The constructor expression of a field, bsn1_serde_macros/src/data_container.rs:380-402 and 565-587. -/
def Work.field (tmp : {δ : Type} → WDe δ → Bytes → Work (δ × Bytes)) : WField β → Bytes → Work (β × Bytes)
  | .skip dflt, bytes => pure (dflt, bytes)
  | .plain d, bytes => tmp d bytes
  | .from_ d f, bytes => do
    let (v, bytes) ← tmp d bytes
    return (f v, bytes)
  | .tryFrom d f, bytes => do
    let (v, bytes) ← tmp d bytes
    let v ← Work.free (convErr (f v))
    return (v, bytes)

/-- The constructor expression of the struct, bsn1_serde_macros/src/data_container.rs:406-413 and 591-598. -/
def Work.fields (tmp : {δ : Type} → WDe δ → Bytes → Work (δ × Bytes)) {γ : Type} : WFields γ → Bytes → Work (γ × Bytes)
  | .nil, bytes => pure ((), bytes)
  | .cons f r, bytes => do
    let (v, bytes) ← Work.field tmp f bytes
    let (vs, bytes) ← Work.fields tmp r bytes
    return ((v, vs), bytes)

/-- `from_der_contents`, bsn1_serde_macros/src/data_container.rs:528-613. -/
def Work.fromDerContents (fs : WFields γ) (contents : Bytes) : Work γ := do
  let r ← Work.fields WDe.derTmpVal fs contents
  Work.free (finish r)

/-- `from_ber_contents`, bsn1_serde_macros/src/data_container.rs:336-444. -/
def Work.fromBerContents (m : Build) (fs : WFields γ) (length : Length) (contents : Bytes) : Work γ := do
  let bytes ← Work.free (structContents m length contents)
  let r ← Work.fields WDe.berTmpVal fs bytes
  Work.free (finish r)

/-- The constructor expression of a field in a transparent struct, bsn1_serde_macros/src/data_container.rs:465-507, 633-674. -/
def Work.fieldTransparent (tmp : {δ : Type} → WDe δ → Work δ) : WField β → Work β
  | .skip dflt => pure dflt
  | .plain d => (tmp d).context
  | .from_ d f => do
    let v ← (tmp d).context
    return f v
  | .tryFrom d f => do
    let v ← (tmp d).context
    Work.free (convErr (f v))

/-- The constructor expression of a transparent struct, bsn1_serde_macros/src/data_container.rs:509-515, 676-682. -/
def Work.fieldsTransparent (tmp : {δ : Type} → WDe δ → Work δ) {γ : Type} : WFields γ → Work γ
  | .nil => pure ()
  | .cons f r => do
    let v ← Work.fieldTransparent tmp f
    let vs ← Work.fieldsTransparent tmp r
    return (v, vs)

/-- `deserialized_fields`, bsn1_serde_macros/src/data_container.rs:463-505, 631-672. -/
def WFields.deserialized {γ : Type} : WFields γ → Nat
  | .nil => 0
  | .cons (.skip _) r => r.deserialized
  | .cons _ r => r.deserialized + 1

/-- The variants of an enum.  bsn1_serde_macros/src/de/mod.rs:195-205. -/
inductive WVariants : Type → Type 1
  | nil : WVariants Empty
  | cons {γ ρ : Type} (id : Bytes) (fs : WFields γ) (r : WVariants ρ) : WVariants (γ ⊕ ρ)

/-- The chain of `if id == .. { .. } else`, bsn1_serde_macros/src/de/mod.rs:207-224. -/
def WVariants.pick (id : Bytes) (k : {γ : Type} → WFields γ → Work γ) {ρ : Type} : WVariants ρ → Work ρ
  | .nil => Work.free (.err .unmatchedId)
  | .cons i fs r =>
    if id = i then do
      let v ← k fs
      return .inl v
    else do
      let v ← WVariants.pick id k r
      return .inr v

namespace WDe

/-- The methods generated for a struct, bsn1_serde_macros/src/de/mod.rs:118-171. -/
def struct (m : Build) (idSlice : Bytes) (fs : WFields γ) : WDe γ where
  fromBer id length contents :=
    if id ≠ idSlice then Work.free (.err .unmatchedId) else Work.fromBerContents m fs length contents
  fromDer id contents :=
    if id ≠ idSlice then Work.free (.err .unmatchedId) else Work.fromDerContents fs contents

/-- The methods generated for a transparent struct, bsn1_serde_macros/src/data_container.rs:447-525 and 616-692; as `De.transparent`, used in
`Ty.de`. -/
def transparent (m : Build) (fs : WFields γ) : WDe γ :=
  if fs.deserialized = 1 then {
      fromBer := fun id length contents => Work.fieldsTransparent (fun d => d.fromBer id length contents) fs
      fromDer := fun id contents => Work.fieldsTransparent (fun d => d.fromDer id contents) fs }
  else struct m [] fs

/-- The methods generated for an enum, bsn1_serde_macros/src/de/mod.rs:174-225. -/
def enum (m : Build) {ρ : Type} (vs : WVariants ρ) : WDe ρ where
  fromBer id length contents := vs.pick id fun fs => Work.fromBerContents m fs length contents
  fromDer id contents := vs.pick id fun fs => Work.fromDerContents fs contents

/-- The methods generated for a container with `from` or `try_from`, bsn1_serde_macros/src/de/mod.rs:61-83, 86-115.  `f` is the conversion. -/
def conv (d : WDe β) (f : β → Res α) : WDe α where
  fromBer id length contents := do
    let val ← d.fromBer id length contents
    Work.free (f val)
  fromDer id contents := do
    let val ← d.fromDer id contents
    Work.free (f val)

end WDe

/-- The conversion of a container, bsn1_serde_macros/src/de/mod.rs:34-37. -/
def Work.back : Back β α → β → Res α
  | .from_ g => fun v => .ok (g v)
  | .tryFrom g => fun v => convErr (g v)

/-- The decoding of a converted field.  bsn1_serde_macros/src/data_container.rs:383-399, 568-584. -/
def WDe.backField {δ : Type} (d : WDe δ) : Back δ β → WField β
  | .from_ g => .from_ d g
  | .tryFrom g => .tryFrom d g

mutual
/-- `Deserialize` of a type: bsn1_serde/src/de/mod.rs:40-561, octet_string.rs:82-105, bsn1_serde_macros/src/de/mod.rs. -/
def Ty.work (m : Build) (o : HashOrder) : {α : Type} → Ty α → WDe α
  | _, .bool => .leaf (De.bool m)
  | _, .int t => .leaf (De.int m t)
  | _, .string => .leaf (De.string m)
  | _, .octetString => .leaf De.octetString
  | _, .vec t => .coll m IdRef.sequence (Ty.work m o t).berToVal (Ty.work m o t).derToVal (fun ret t => ret ++ [t]) fun l => l
  | _, .linkedList t => .coll m IdRef.sequence (Ty.work m o t).berToVal (Ty.work m o t).derToVal (fun ret t => ret ++ [t]) fun l => l
  | _, .vecDeque t => .coll m IdRef.sequence (Ty.work m o t).berToVal (Ty.work m o t).derToVal (fun ret t => ret ++ [t]) fun l => l
  | _, .btreeSet cmp _ _ t =>
    .coll m IdRef.sequence (Ty.work m o t).berToVal (Ty.work m o t).derToVal (fun ret t => btreeInsert cmp t ret) fun l => l
  | _, .btreeMap cmp _ _ k t => .coll m IdRef.sequence ((Ty.work m o k).berToKeyVal (Ty.work m o t))
      ((Ty.work m o k).derToKeyVal (Ty.work m o t)) (fun ret kv => btreeMapInsert cmp kv.1 kv.2 ret) fun l => l
  | _, .hashSet _ t =>
    .coll m IdRef.set (Ty.work m o t).berToVal (Ty.work m o t).derToVal (fun ret t => hashInsert t ret) (o.order _)
  | _, .hashMap _ k t => .coll m IdRef.set ((Ty.work m o k).berToKeyVal (Ty.work m o t))
      ((Ty.work m o k).derToKeyVal (Ty.work m o t)) (fun ret kv => hashMapInsert kv.1 kv.2 ret) (o.order _)
  | _, .struct id fs => .struct m id (Fields.work m o fs)
  | _, .enum vs => .enum m (Variants.work m o vs)
  | _, .transparent fs => .transparent m (Fields.work m o fs)
  | _, .conv t _ g => .conv (Ty.work m o t) (Work.back g)
  | _, .named t _ g _ _ => .conv (Ty.work m o t) fun v => .ok (g v)
  | _, .hole => ⟨fun _ _ _ => Work.free (.err .unmatchedId), fun _ _ => Work.free (.err .unmatchedId)⟩
/-- The decoders of the fields, bsn1_serde_macros/src/data_container.rs:380-402 and 565-587. -/
def Fields.work (m : Build) (o : HashOrder) : {γ : Type} → Fields γ → WFields γ
  | _, .nil => .nil
  | _, .plain t r => .cons (.plain (Ty.work m o t)) (Fields.work m o r)
  | _, .skip d r => .cons (.skip d) (Fields.work m o r)
  | _, .skipSer t r => .cons (.plain (Ty.work m o t)) (Fields.work m o r)
  | _, .skipDe _ d r => .cons (.skip d) (Fields.work m o r)
  | _, .conv t _ g r => .cons ((Ty.work m o t).backField g) (Fields.work m o r)
/-- The decoders of the variants, bsn1_serde_macros/src/de/mod.rs:195-205. -/
def Variants.work (m : Build) (o : HashOrder) : {ρ : Type} → Variants ρ → WVariants ρ
  | _, .nil => .nil
  | _, .cons id fs r => .cons id (Fields.work m o fs) (Variants.work m o r)
end

/-- `from_ber`, bsn1_serde/src/lib.rs:124-130. -/
def WDe.ofBer (d : WDe α) (ber : Bytes) : Work α := do
  let (id, length, contents) ← ⟨BerRef.disassemble ber, disassembleOctets ber⟩
  d.fromBer id length contents

/-- `from_der`, bsn1_serde/src/lib.rs:133-139. -/
def WDe.ofDer (d : WDe α) (der : Bytes) : Work α := do
  let (id, _, contents) ← ⟨DerRef.disassemble der, disassembleOctets der⟩
  d.fromDer id contents

/-- `parse_ber`, bsn1_serde/src/lib.rs:148-154. -/
def WDe.parseBer (d : WDe α) (buffer : Bytes) : Work α := do
  let ber ← ⟨(BerRef.parse buffer).1, BerRef.parseOctets buffer⟩
  d.ofBer ber

/-- `parse_der`, bsn1_serde/src/lib.rs:163-169. -/
def WDe.parseDer (d : WDe α) (buffer : Bytes) : Work α := do
  let der ← ⟨(DerRef.parse buffer).1, DerRef.parseOctets buffer⟩
  d.ofDer der

end Bsn1
