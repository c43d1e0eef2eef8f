import Verif.Model.TargetSer
/-!
# Deserialization on targets with another pointer width

The functions of `Verif.Model.De` and `Verif.Model.Derive` that call the parsers, with the parsers of the target.  The dictionaries (`De`,
`DeFields`, `DeVariants`) and all that does not depend on the pointer width are those of the main model.
-/

namespace Bsn1
namespace Target
open Spec

variable (tg : Target) {α β : Type}

/-- `contents` of `DerRef` (bsn1/src/der_ref.rs:314-316) and `BerRef` (ber_ref.rs:314-316). -/
def contents (self : Bytes) : Res Bytes := do
  let (_, _, c) ← tg.disassemble self
  return c

/-- `DeserializeHelper::der_to_val`, bsn1_serde/src/de/mod.rs:598-620.  The helper is its `contents`; `index` is used
only in messages.  Returns the value and the remaining contents. -/
def derToVal (d : De α) (contents : Bytes) : Res (Option (α × Bytes)) :=
  if contents.isEmpty then .ok none
  else
    let (r, contents) := tg.derRefParse contents
    do
      let der ← mapErrContext r
      let (id, _, c) ← tg.disassemble der
      let val ← mapErrContext (d.fromDer id c)
      return some (val, contents)

/-- `DeserializeHelper::ber_to_val`, bsn1_serde/src/de/mod.rs:622-646. -/
def berToVal (d : De α) (contents : Bytes) : Res (Option (α × Bytes)) :=
  if contents.isEmpty then .ok none
  else
    let (r, contents) := tg.berRefParse contents
    do
      let ber ← mapErrContext r
      let (id, length, c) ← tg.disassemble ber
      let val ← mapErrContext (d.fromBer id length c)
      return some (val, contents)

/-- `DeserializeHelper::der_to_key_val`, bsn1_serde/src/de/mod.rs:648-711. -/
def derToKeyVal (dk : De α) (dv : De β) (contents : Bytes) : Res (Option ((α × β) × Bytes)) :=
  if contents.isEmpty then .ok none
  else
    let (r, contents) := tg.derRefParse contents
    do
      let pair ← mapErrContext r
      let pairId ← DerRef.id pair
      if pairId ≠ IdRef.sequence then .err (Error.invalidKeyValuePair.context)
      else
        let pairContents ← tg.contents pair
        let (r, pairContents) := tg.derRefParse pairContents
        let key ← mapErrContext r
        let (r, pairContents) := tg.derRefParse pairContents
        let val ← mapErrContext r
        if pairContents.isEmpty then
          let (id, _, c) ← tg.disassemble key
          let key ← mapErrContext (dk.fromDer id c)
          let (id, _, c) ← tg.disassemble val
          let val ← mapErrContext (dv.fromDer id c)
          return some ((key, val), contents)
        else .err (Error.invalidKeyValuePair.context)

/-- `DeserializeHelper::ber_to_key_val`, bsn1_serde/src/de/mod.rs:713-780. -/
def berToKeyVal (dk : De α) (dv : De β) (contents : Bytes) : Res (Option ((α × β) × Bytes)) :=
  if contents.isEmpty then .ok none
  else
    let (r, contents) := tg.berRefParse contents
    do
      let pair ← mapErrContext r
      let pairId ← BerRef.id pair
      if pairId ≠ IdRef.sequence then .err (Error.invalidKeyValuePair.context)
      else
        let pairContents ← tg.contents pair
        let (r, pairContents) := tg.berRefParse pairContents
        let key ← mapErrContext r
        let (r, pairContents) := tg.berRefParse pairContents
        let val ← mapErrContext r
        if pairContents.isEmpty then
          let (id, length, c) ← tg.disassemble key
          let key ← mapErrContext (dk.fromBer id length c)
          let (id, length, c) ← tg.disassemble val
          let val ← mapErrContext (dv.fromBer id length c)
          return some ((key, val), contents)
        else .err (Error.invalidKeyValuePair.context)

/-- `from_der` of the integer types, e.g. bsn1_serde/src/de/mod.rs:71-77. -/
def intFromDer (i : IntTy) (id contents : Bytes) : Res Int :=
  if id ≠ IdRef.integer then .err .unmatchedId
  else ContentsRef.toInteger (tg.intTy i) contents

/-- `Deserialize` of the integer types, bsn1_serde/src/de/mod.rs:61-287. -/
def deInt (m : Build) (i : IntTy) : De Int where
  fromBer id length contents :=
    if length.eq .indefinite then .err .indefiniteLength
    else do
      debugAssert m (length.definite? == some contents.length)
      tg.intFromDer i id contents
  fromDer := tg.intFromDer i

/-- `Deserialize for Vec<T>`, bsn1_serde/src/de/mod.rs:316-349. -/
def deVec (m : Build) (d : De α) : De (List α) where
  fromBer id length contents :=
    if id ≠ IdRef.sequence then .err .unmatchedId
    else do
      let contents ← excludeEoc m length contents
      collect (tg.berToVal d) (fun ret t => ret ++ [t]) contents []
  fromDer id contents :=
    if id ≠ IdRef.sequence then .err .unmatchedId
    else collect (tg.derToVal d) (fun ret t => ret ++ [t]) contents []

/-- `Deserialize for LinkedList<T>`, bsn1_serde/src/de/mod.rs:351-384. -/
def deLinkedList (m : Build) (d : De α) : De (List α) where
  fromBer id length contents :=
    if id ≠ IdRef.sequence then .err .unmatchedId
    else do
      let contents ← excludeEoc m length contents
      collect (tg.berToVal d) (fun ret t => ret ++ [t]) contents []
  fromDer id contents :=
    if id ≠ IdRef.sequence then .err .unmatchedId
    else collect (tg.derToVal d) (fun ret t => ret ++ [t]) contents []

/-- `Deserialize for VecDeque<T>`, bsn1_serde/src/de/mod.rs:386-419. -/
def deVecDeque (m : Build) (d : De α) : De (List α) where
  fromBer id length contents :=
    if id ≠ IdRef.sequence then .err .unmatchedId
    else do
      let contents ← excludeEoc m length contents
      collect (tg.berToVal d) (fun ret t => ret ++ [t]) contents []
  fromDer id contents :=
    if id ≠ IdRef.sequence then .err .unmatchedId
    else collect (tg.derToVal d) (fun ret t => ret ++ [t]) contents []

/-- `Deserialize for BTreeSet<T>`, bsn1_serde/src/de/mod.rs:421-454.  `cmp` is `Ord for T`. -/
def deBtreeSet (m : Build) (cmp : α → α → Ordering) (d : De α) : De (List α) where
  fromBer id length contents :=
    if id ≠ IdRef.sequence then .err .unmatchedId
    else do
      let contents ← excludeEoc m length contents
      collect (tg.berToVal d) (fun ret t => btreeInsert cmp t ret) contents []
  fromDer id contents :=
    if id ≠ IdRef.sequence then .err .unmatchedId
    else collect (tg.derToVal d) (fun ret t => btreeInsert cmp t ret) contents []

/-- `Deserialize for BTreeMap<K, V>`, bsn1_serde/src/de/mod.rs:456-490. -/
def deBtreeMap (m : Build) (cmp : α → α → Ordering) (dk : De α) (dv : De β) : De (List (α × β)) where
  fromBer id length contents :=
    if id ≠ IdRef.sequence then .err .unmatchedId
    else do
      let contents ← excludeEoc m length contents
      collect (tg.berToKeyVal dk dv) (fun ret kv => btreeMapInsert cmp kv.1 kv.2 ret) contents []
  fromDer id contents :=
    if id ≠ IdRef.sequence then .err .unmatchedId
    else collect (tg.derToKeyVal dk dv) (fun ret kv => btreeMapInsert cmp kv.1 kv.2 ret) contents []

/-- `Deserialize for HashSet<T>`, bsn1_serde/src/de/mod.rs:492-525.  A value is the list of its elements in the order of
`iter()`, which the code does not control: `order` gives it from the elements in order of insertion. -/
def deHashSet [DecidableEq α] (m : Build) (order : List α → List α) (d : De α) : De (List α) where
  fromBer id length contents :=
    if id ≠ IdRef.set then .err .unmatchedId
    else do
      let contents ← excludeEoc m length contents
      let ret ← collect (tg.berToVal d) (fun ret t => hashInsert t ret) contents []
      return order ret
  fromDer id contents :=
    if id ≠ IdRef.set then .err .unmatchedId
    else do
      let ret ← collect (tg.derToVal d) (fun ret t => hashInsert t ret) contents []
      return order ret

/-- `Deserialize for HashMap<K, V>`, bsn1_serde/src/de/mod.rs:527-561.  For `order` see `De.hashSet`. -/
def deHashMap [DecidableEq α] (m : Build) (order : List (α × β) → List (α × β)) (dk : De α)
    (dv : De β) : De (List (α × β)) where
  fromBer id length contents :=
    if id ≠ IdRef.set then .err .unmatchedId
    else do
      let contents ← excludeEoc m length contents
      let ret ← collect (tg.berToKeyVal dk dv) (fun ret kv => hashMapInsert kv.1 kv.2 ret) contents []
      return order ret
  fromDer id contents :=
    if id ≠ IdRef.set then .err .unmatchedId
    else do
      let ret ← collect (tg.derToKeyVal dk dv) (fun ret kv => hashMapInsert kv.1 kv.2 ret) contents []
      return order ret

/-- `tmp_val` of `from_der_contents`, bsn1_serde_macros/src/data_container.rs:546-563.  Returns the remaining `contents_bytes` too. -/
def derTmpVal {β : Type} (d : De β) (bytes : Bytes) : Res (β × Bytes) :=
  let (r, bytes) := tg.derRefParse bytes
  do
    let der ← mapErrContext r
    let (id, _, contents) ← tg.disassemble der
    let v ← mapErrContext (d.fromDer id contents)
    return (v, bytes)

/-- `tmp_val` of `from_ber_contents`, bsn1_serde_macros/src/data_container.rs:360-378. -/
def berTmpVal {β : Type} (d : De β) (bytes : Bytes) : Res (β × Bytes) :=
  let (r, bytes) := tg.berRefParse bytes
  do
    let ber ← mapErrContext r
    let (id, length, contents) ← tg.disassemble ber
    let v ← mapErrContext (d.fromBer id length contents)
    return (v, bytes)

/-- `from_der_contents`, bsn1_serde_macros/src/data_container.rs:528-613. -/
def fromDerContents {γ : Type} (fs : DeFields γ) (contents : Bytes) : Res γ := do
  let r ← deFields tg.derTmpVal fs contents
  finish r

/-- `from_ber_contents`, bsn1_serde_macros/src/data_container.rs:336-444. -/
def fromBerContents (m : Build) {γ : Type} (fs : DeFields γ) (length : Length) (contents : Bytes) : Res γ := do
  let bytes ← structContents m length contents
  let r ← deFields tg.berTmpVal fs bytes
  finish r

/-- The methods generated for a struct, bsn1_serde_macros/src/de/mod.rs:118-171. -/
def deStruct (m : Build) {γ : Type} (idSlice : Bytes) (fs : DeFields γ) : De γ where
  fromBer id length contents :=
    if id ≠ idSlice then .err .unmatchedId else tg.fromBerContents m fs length contents
  fromDer id contents :=
    if id ≠ idSlice then .err .unmatchedId else tg.fromDerContents fs contents

/-- The methods generated for an enum, bsn1_serde_macros/src/de/mod.rs:174-225. -/
def deEnum (m : Build) {ρ : Type} (vs : DeVariants ρ) : De ρ where
  fromBer id length contents := vs.pick id fun fs => tg.fromBerContents m fs length contents
  fromDer id contents := vs.pick id fun fs => tg.fromDerContents fs contents

mutual
/-- `Deserialize` of a type: bsn1_serde/src/de/mod.rs:40-561, octet_string.rs:82-105, bsn1_serde_macros/src/de/mod.rs. -/
def tyDe (m : Build) (o : HashOrder) : {α : Type} → Ty α → De α
  | _, .bool => De.bool m
  | _, .int t => tg.deInt m t
  | _, .string => De.string m
  | _, .octetString => De.octetString
  | _, .vec t => tg.deVec m (tyDe m o t)
  | _, .linkedList t => tg.deLinkedList m (tyDe m o t)
  | _, .vecDeque t => tg.deVecDeque m (tyDe m o t)
  | _, .btreeSet cmp _ _ t => tg.deBtreeSet m cmp (tyDe m o t)
  | _, .btreeMap cmp _ _ k t => tg.deBtreeMap m cmp (tyDe m o k) (tyDe m o t)
  | _, .hashSet _ t => tg.deHashSet m (o.order _) (tyDe m o t)
  | _, .hashMap _ k t => tg.deHashMap m (o.order _) (tyDe m o k) (tyDe m o t)
  | _, .struct id fs => tg.deStruct m id (fieldsDe m o fs)
  | _, .enum vs => tg.deEnum m (variantsDe m o vs)
  | _, .transparent fs => (De.transparent (fieldsDe m o fs)).getD (tg.deStruct m [] (fieldsDe m o fs))
  | _, .conv t _ g => De.back (tyDe m o t) g
  -- the generated methods end with the constructor, which is `g`
  | _, .named t _ g _ _ => De.from_ (tyDe m o t) g
  | _, .hole => De.hole
/-- The decoders of the fields, bsn1_serde_macros/src/data_container.rs:380-402 and 565-587. -/
def fieldsDe (m : Build) (o : HashOrder) : {γ : Type} → Fields γ → DeFields γ
  | _, .nil => .nil
  | _, .plain t r => .cons (.plain (tyDe m o t)) (fieldsDe m o r)
  | _, .skip d r => .cons (.skip d) (fieldsDe m o r)
  | _, .skipSer t r => .cons (.plain (tyDe m o t)) (fieldsDe m o r)
  | _, .skipDe _ d r => .cons (.skip d) (fieldsDe m o r)
  | _, .conv t _ g r => .cons (backField (tyDe m o t) g) (fieldsDe m o r)
/-- The decoders of the variants, bsn1_serde_macros/src/de/mod.rs:195-205. -/
def variantsDe (m : Build) (o : HashOrder) : {ρ : Type} → Variants ρ → DeVariants ρ
  | _, .nil => .nil
  | _, .cons id fs r => .cons id (fieldsDe m o fs) (variantsDe m o r)
end

/-- `from_ber`, bsn1_serde/src/lib.rs:124-130.  The argument is the octets of the `BerRef`. -/
def fromBer (d : De α) (ber : Bytes) : Res α := do
  let (id, length, contents) ← tg.disassemble ber
  d.fromBer id length contents

/-- `from_der`, bsn1_serde/src/lib.rs:133-139. -/
def fromDer (d : De α) (der : Bytes) : Res α := do
  let (id, _, contents) ← tg.disassemble der
  d.fromDer id contents

/-- `parse_ber`, bsn1_serde/src/lib.rs:148-154.  Returns `*buffer` too. -/
def parseBer (d : De α) (buffer : Bytes) : Res α × Bytes :=
  match tg.berRefParse buffer with
  | (.ok ber, buffer) => (tg.fromBer d ber, buffer)
  | (.err e, buffer) => (.err e, buffer)
  | (.panic, buffer) => (.panic, buffer)
  | (.ub, buffer) => (.ub, buffer)

/-- `parse_der`, bsn1_serde/src/lib.rs:163-169. -/
def parseDer (d : De α) (buffer : Bytes) : Res α × Bytes :=
  match tg.derRefParse buffer with
  | (.ok der, buffer) => (tg.fromDer d der, buffer)
  | (.err e, buffer) => (.err e, buffer)
  | (.panic, buffer) => (.panic, buffer)
  | (.ub, buffer) => (.ub, buffer)

/-- `read_ber`, bsn1_serde/src/lib.rs:177-184.  Returns the reader too. -/
def readBer {σ : Type} [Reader σ] (m : Build) (d : De α) (read : σ) : Res α × σ :=
  match tg.berParse m read with
  | (.ok ber, read) => (tg.fromBer d ber, read)
  | (.err e, read) => (.err e, read)
  | (.panic, read) => (.panic, read)
  | (.ub, read) => (.ub, read)

/-- `read_der`, bsn1_serde/src/lib.rs:192-199. -/
def readDer {σ : Type} [Reader σ] (m : Build) (d : De α) (read : σ) : Res α × σ :=
  match tg.derParse m read with
  | (.ok der, read) => (tg.fromDer d der, read)
  | (.err e, read) => (.err e, read)
  | (.panic, read) => (.panic, read)
  | (.ub, read) => (.ub, read)

end Target
end Bsn1
