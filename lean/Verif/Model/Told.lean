import Verif.Model.Types
import Verif.Model.Message
/-!
# The messages of errors

`Verif.Model.De` and `Verif.Model.Derive` leave the messages out.  Here are the same functions once more, with the message of each
context: bsn1_serde/src/de/mod.rs:316-780, bsn1_serde_macros/src/data_container.rs:336-692,
bsn1_serde_macros/src/de/mod.rs:61-225.
-/

namespace Bsn1
open Spec

/-- `Res` with such an error.  `Result<_, Error>` is e.g. the result of bsn1_serde/src/de/mod.rs:598. -/
inductive TRes (α : Type u) where
  | ok (a : α)
  | err (e : Told)
  | panic
  | ub
  deriving DecidableEq

namespace TRes

/-- The `?` operator.  E.g. bsn1_serde/src/de/mod.rs:609. -/
def bind {α : Type u} {β : Type v} (x : TRes α) (f : α → TRes β) : TRes β :=
  match x with
  | ok a => f a
  | err e => err e
  | panic => panic
  | ub => ub

/-- `?` in sequence, e.g. bsn1_serde/src/de/mod.rs:607-616. -/
instance : Monad TRes where
  pure := TRes.ok
  bind := TRes.bind

/-- The result of a function that adds no context, e.g. `DerRef::parse` at bsn1_serde/src/de/mod.rs:607. -/
def of {α : Type u} : Res α → TRes α
  | .ok a => ok a
  | .err e => err ⟨e, []⟩
  | .panic => panic
  | .ub => ub

/-- `.map_err(|err| err.context(message))`.  E.g. bsn1_serde/src/de/mod.rs:607-609. -/
def mapErrContext {α : Type u} (message : String) : TRes α → TRes α
  | err e => err (e.context message)
  | r => r

end TRes

/-- `trait Deserialize`, bsn1_serde/src/de/mod.rs:24-38, as the dictionary of its methods. -/
structure DeT (α : Type) : Type 1 where
  /-- `from_ber(id, length, contents)` -/
  fromBer : Bytes → Length → Bytes → TRes α
  /-- `from_der(id, contents)` -/
  fromDer : Bytes → Bytes → TRes α

/-- An implementation that adds no context: bsn1_serde/src/de/mod.rs:40-314, octet_string.rs:82-105. -/
def De.told {α : Type} (d : De α) : DeT α where
  fromBer id length contents := TRes.of (d.fromBer id length contents)
  fromDer id contents := TRes.of (d.fromDer id contents)

variable {α β γ : Type}

namespace Message

/-- bsn1_serde/src/de/mod.rs:608. -/
def derAt (index : Nat) : String := s!"Failed to parse DER at index {index - 1}"

/-- bsn1_serde/src/de/mod.rs:613. -/
def derInto (index : Nat) : String := s!"Failed to deserialize DER into element at index {index - 1}"

/-- bsn1_serde/src/de/mod.rs:632. -/
def berAt (index : Nat) : String := s!"Failed to parse BER at index {index - 1}"

/-- bsn1_serde/src/de/mod.rs:638. -/
def berInto (index : Nat) : String := s!"Failed to deserialize BER into element at index {index - 1}"

/-- bsn1_serde/src/de/mod.rs:660. -/
def derPair (index : Nat) : String := s!"Failed to parse DER of the key-value pair at index {index - 1}"

/-- bsn1_serde/src/de/mod.rs:667 and 732. -/
def notSequence (index : Nat) : String := s!"The id of key-value pair at index {index - 1} is not SEQUENCE"

/-- bsn1_serde/src/de/mod.rs:675. -/
def derKey (index : Nat) : String := s!"Failed to parse DER of the key at index {index - 1}"

/-- bsn1_serde/src/de/mod.rs:681. -/
def derValue (index : Nat) : String := s!"Failed to parse DER of the value at index {index - 1}"

/-- bsn1_serde/src/de/mod.rs:690. -/
def derIntoKey (index : Nat) : String := s!"Failed to deserialize DER into the key at index {index - 1}"

/-- bsn1_serde/src/de/mod.rs:698. -/
def derIntoValue (index : Nat) : String := s!"Failed to deserialize DER into the value at index {index - 1}"

/-- bsn1_serde/src/de/mod.rs:706 and 775. -/
def extraOctets (index : Nat) : String := s!"The key-value pair at index {index - 1} includes (an) extra octet(s)"

/-- bsn1_serde/src/de/mod.rs:725. -/
def berPair (index : Nat) : String := s!"Failed to parse BER of the key-value pair at index {index - 1}"

/-- bsn1_serde/src/de/mod.rs:740. -/
def berKey (index : Nat) : String := s!"Failed to parse BER of the key at index {index - 1}"

/-- bsn1_serde/src/de/mod.rs:746. -/
def berValue (index : Nat) : String := s!"Failed to parse BER of the value at index {index - 1}"

/-- bsn1_serde/src/de/mod.rs:756. -/
def berIntoKey (index : Nat) : String := s!"Failed to deserialize BER into the key at index {index - 1}"

/-- bsn1_serde/src/de/mod.rs:766. -/
def berIntoValue (index : Nat) : String := s!"Failed to deserialize BER into the value at index {index - 1}"

end Message

/-- `struct DeserializeHelper`, bsn1_serde/src/de/mod.rs:583-586. -/
structure Helper where
  contents : Bytes
  index : Nat

/-- `DeserializeHelper::from`, bsn1_serde/src/de/mod.rs:588-595. -/
def Helper.from_ (contents : Bytes) : Helper := ⟨contents, 0⟩

/-- `DeserializeHelper::der_to_val`, bsn1_serde/src/de/mod.rs:598-620.  Returns the helper too.  Simplified: `index += 1` does not overflow, since
each round takes an octet of a slice. -/
def Helper.derToVal (d : DeT α) (self : Helper) : TRes (Option (α × Helper)) :=
  if self.contents.isEmpty then .ok none
  else
    let index := self.index + 1
    let (r, contents) := DerRef.parse self.contents
    do
      let der ← TRes.mapErrContext (Message.derAt index) (.of r)
      let (id, _, c) ← TRes.of (DerRef.disassemble der)
      let val ← TRes.mapErrContext (Message.derInto index) (d.fromDer id c)
      return some (val, ⟨contents, index⟩)

/-- `DeserializeHelper::ber_to_val`, bsn1_serde/src/de/mod.rs:622-646. -/
def Helper.berToVal (d : DeT α) (self : Helper) : TRes (Option (α × Helper)) :=
  if self.contents.isEmpty then .ok none
  else
    let index := self.index + 1
    let (r, contents) := BerRef.parse self.contents
    do
      let ber ← TRes.mapErrContext (Message.berAt index) (.of r)
      let (id, length, c) ← TRes.of (BerRef.disassemble ber)
      let val ← TRes.mapErrContext (Message.berInto index) (d.fromBer id length c)
      return some (val, ⟨contents, index⟩)

/-- `Error::InvalidKeyValuePair.context(message)`, e.g. bsn1_serde/src/de/mod.rs:665-668. -/
def invalidPair (message : String) : Told := Told.context ⟨.invalidKeyValuePair, []⟩ message

/-- `DeserializeHelper::der_to_key_val`, bsn1_serde/src/de/mod.rs:648-711. -/
def Helper.derToKeyVal (dk : DeT α) (dv : DeT β) (self : Helper) : TRes (Option ((α × β) × Helper)) :=
  if self.contents.isEmpty then .ok none
  else
    let index := self.index + 1
    let (r, contents) := DerRef.parse self.contents
    do
      let pair ← TRes.mapErrContext (Message.derPair index) (.of r)
      let pairId ← TRes.of (DerRef.id pair)
      if pairId ≠ IdRef.sequence then .err (invalidPair (Message.notSequence index))
      else
        let pairContents ← TRes.of (DerRef.contents pair)
        let (r, pairContents) := DerRef.parse pairContents
        let key ← TRes.mapErrContext (Message.derKey index) (.of r)
        let (r, pairContents) := DerRef.parse pairContents
        let val ← TRes.mapErrContext (Message.derValue index) (.of r)
        if pairContents.isEmpty then
          let (id, _, c) ← TRes.of (DerRef.disassemble key)
          let key ← TRes.mapErrContext (Message.derIntoKey index) (dk.fromDer id c)
          let (id, _, c) ← TRes.of (DerRef.disassemble val)
          let val ← TRes.mapErrContext (Message.derIntoValue index) (dv.fromDer id c)
          return some ((key, val), ⟨contents, index⟩)
        else .err (invalidPair (Message.extraOctets index))

/-- `DeserializeHelper::ber_to_key_val`, bsn1_serde/src/de/mod.rs:713-780. -/
def Helper.berToKeyVal (dk : DeT α) (dv : DeT β) (self : Helper) : TRes (Option ((α × β) × Helper)) :=
  if self.contents.isEmpty then .ok none
  else
    let index := self.index + 1
    let (r, contents) := BerRef.parse self.contents
    do
      let pair ← TRes.mapErrContext (Message.berPair index) (.of r)
      let pairId ← TRes.of (BerRef.id pair)
      if pairId ≠ IdRef.sequence then .err (invalidPair (Message.notSequence index))
      else
        let pairContents ← TRes.of (BerRef.contents pair)
        let (r, pairContents) := BerRef.parse pairContents
        let key ← TRes.mapErrContext (Message.berKey index) (.of r)
        let (r, pairContents) := BerRef.parse pairContents
        let val ← TRes.mapErrContext (Message.berValue index) (.of r)
        if pairContents.isEmpty then
          let (id, length, c) ← TRes.of (BerRef.disassemble key)
          let key ← TRes.mapErrContext (Message.berIntoKey index) (dk.fromBer id length c)
          let (id, length, c) ← TRes.of (BerRef.disassemble val)
          let val ← TRes.mapErrContext (Message.berIntoValue index) (dv.fromBer id length c)
          return some ((key, val), ⟨contents, index⟩)
        else .err (invalidPair (Message.extraOctets index))

/-- `while let Some(t) = next()? { ret.push(t); } Ok(ret)`, e.g. bsn1_serde/src/de/mod.rs:326-330.  See `collectLoop`. -/
def Helper.loop (next : Helper → TRes (Option (α × Helper))) (insert : γ → α → γ) : (fuel : Nat) → Helper → (ret : γ) → TRes γ
  | 0, _, _ => .panic
  | fuel + 1, helper, ret => do
    match ← next helper with
    | some (t, helper) => Helper.loop next insert fuel helper (insert ret t)
    | none => return ret

/-- The loop from a new helper, e.g. bsn1_serde/src/de/mod.rs:324-331.  See `collect`. -/
def Helper.collect (next : Helper → TRes (Option (α × Helper))) (insert : γ → α → γ) (contents : Bytes) (ret : γ) : TRes γ :=
  Helper.loop next insert (contents.length + 1) (.from_ contents) ret

namespace DeT

/-- A collection of elements: `Vec`, `LinkedList`, `VecDeque`, `BTreeSet`, `HashSet`, bsn1_serde/src/de/mod.rs:316-454 and 492-525, which differ
in the identifier, in `insert`, and in the order of iteration that `finish` stands for. -/
def elements (m : Build) (tag : Bytes) (d : DeT α) (insert : List α → α → List α) (finish : List α → List α) : DeT (List α) where
  fromBer id length contents :=
    if id ≠ tag then .err ⟨.unmatchedId, []⟩
    else do
      let contents ← TRes.of (excludeEoc m length contents)
      let ret ← Helper.collect (Helper.berToVal d) insert contents []
      return finish ret
  fromDer id contents :=
    if id ≠ tag then .err ⟨.unmatchedId, []⟩
    else do
      let ret ← Helper.collect (Helper.derToVal d) insert contents []
      return finish ret

/-- A collection of key-value pairs: `BTreeMap`, `HashMap`, bsn1_serde/src/de/mod.rs:456-490 and 527-561. -/
def pairs (m : Build) (tag : Bytes) (dk : DeT α) (dv : DeT β) (insert : List (α × β) → α × β → List (α × β))
    (finish : List (α × β) → List (α × β)) : DeT (List (α × β)) where
  fromBer id length contents :=
    if id ≠ tag then .err ⟨.unmatchedId, []⟩
    else do
      let contents ← TRes.of (excludeEoc m length contents)
      let ret ← Helper.collect (Helper.berToKeyVal dk dv) insert contents []
      return finish ret
  fromDer id contents :=
    if id ≠ tag then .err ⟨.unmatchedId, []⟩
    else do
      let ret ← Helper.collect (Helper.derToKeyVal dk dv) insert contents []
      return finish ret

end DeT

/-! ### The generated code -/

/-- What the generator does with a field, bsn1_serde_macros/src/data_container.rs:380-402 and 565-587.  `label` is `stringify!(#ty.#field)` and
`source` is `stringify!(#try_from_ty)`; the compiler makes them. -/
inductive DeFieldT : Type → Type 1
  | skip {β : Type} (dflt : β) : DeFieldT β
  | plain {β : Type} (label : String) (d : DeT β) : DeFieldT β
  | from_ {β δ : Type} (label : String) (d : DeT δ) (f : δ → β) : DeFieldT β
  | tryFrom {β δ : Type} (label source : String) (d : DeT δ) (f : δ → Except Chain β) : DeFieldT β

/-- The fields of a struct or variant, in order, bsn1_serde_macros/src/data_container.rs:352 and 539. -/
inductive DeFieldsT : Type → Type 1
  | nil : DeFieldsT Unit
  | cons {β γ : Type} (f : DeFieldT β) (r : DeFieldsT γ) : DeFieldsT (β × γ)

/-- `.map_err(|err| Error::from(anyhow::Error::new(err)).context(message))`, bsn1_serde_macros/src/data_container.rs:389-398, 574-583,
bsn1_serde_macros/src/de/mod.rs:103-105, 110-112. -/
def convErrT {β : Type} (message : String) : Except Chain β → TRes β
  | .ok v => .ok v
  | .error c => .err (Told.context ⟨.anyhow c, []⟩ message)

/-- `tmp_val` of `from_der_contents`, bsn1_serde_macros/src/data_container.rs:546-563. -/
def derTmpValT {β : Type} (label : String) (d : DeT β) (bytes : Bytes) : TRes (β × Bytes) :=
  let (r, bytes) := DerRef.parse bytes
  do
    let der ← TRes.mapErrContext ("Failed to parse DER for `" ++ label ++ "`") (.of r)
    let (id, _, contents) ← TRes.of (DerRef.disassemble der)
    let v ← TRes.mapErrContext ("Failed to deserialize DER into `" ++ label ++ "`") (d.fromDer id contents)
    return (v, bytes)

/-- `tmp_val` of `from_ber_contents`, bsn1_serde_macros/src/data_container.rs:360-378. -/
def berTmpValT {β : Type} (label : String) (d : DeT β) (bytes : Bytes) : TRes (β × Bytes) :=
  let (r, bytes) := BerRef.parse bytes
  do
    let ber ← TRes.mapErrContext ("Failed to parse BER for `" ++ label ++ "`") (.of r)
    let (id, length, contents) ← TRes.of (BerRef.disassemble ber)
    let v ← TRes.mapErrContext ("Failed to deserialize BER into `" ++ label ++ "`") (d.fromBer id length contents)
    return (v, bytes)

/-- The constructor expression of a field, bsn1_serde_macros/src/data_container.rs:380-402 and 565-587. -/
def deFieldT {β : Type} (tmp : {δ : Type} → String → DeT δ → Bytes → TRes (δ × Bytes)) : DeFieldT β → Bytes → TRes (β × Bytes)
  | .skip dflt, bytes => .ok (dflt, bytes)
  | .plain label d, bytes => tmp label d bytes
  | .from_ label d f, bytes => do
    let (v, bytes) ← tmp label d bytes
    return (f v, bytes)
  | .tryFrom label source d f, bytes => do
    let (v, bytes) ← tmp label d bytes
    let v ← convErrT ("Failed to convert `" ++ source ++ "` into `" ++ label ++ "`") (f v)
    return (v, bytes)

/-- The constructor expression of the struct, bsn1_serde_macros/src/data_container.rs:406-413 and 591-598. -/
def deFieldsT (tmp : {δ : Type} → String → DeT δ → Bytes → TRes (δ × Bytes)) {γ : Type} : DeFieldsT γ → Bytes → TRes (γ × Bytes)
  | .nil, bytes => .ok ((), bytes)
  | .cons f r, bytes => do
    let (v, bytes) ← deFieldT tmp f bytes
    let (vs, bytes) ← deFieldsT tmp r bytes
    return ((v, vs), bytes)

/-- `if contents_bytes.len() == 0 { Ok(ret) } else { Err(ExtraContentsOctet) }`, bsn1_serde_macros/src/data_container.rs:438-442, 607-611. -/
def finishT {γ : Type} (p : γ × Bytes) : TRes γ := .of (finish p)

/-- `from_der_contents`, bsn1_serde_macros/src/data_container.rs:528-613. -/
def fromDerContentsT {γ : Type} (fs : DeFieldsT γ) (contents : Bytes) : TRes γ := do
  let r ← deFieldsT derTmpValT fs contents
  finishT r

/-- `from_ber_contents`, bsn1_serde_macros/src/data_container.rs:336-444. -/
def fromBerContentsT (m : Build) {γ : Type} (fs : DeFieldsT γ) (length : Length) (contents : Bytes) : TRes γ := do
  let bytes ← TRes.of (structContents m length contents)
  let r ← deFieldsT berTmpValT fs bytes
  finishT r

/-- The constructor expression of a field in a transparent struct, bsn1_serde_macros/src/data_container.rs:465-507, 633-674.  `rules` is `BER` in
`from_ber_transparent` and `DER` in `from_der_transparent`. -/
def deFieldTransparentT {β : Type} (rules : String) (tmp : {δ : Type} → DeT δ → TRes δ) : DeFieldT β → TRes β
  | .skip dflt => .ok dflt
  | .plain label d => TRes.mapErrContext ("Failed to deserialize " ++ rules ++ " into `" ++ label ++ "`") (tmp d)
  | .from_ label d f => do
    let v ← TRes.mapErrContext ("Failed to deserialize " ++ rules ++ " into `" ++ label ++ "`") (tmp d)
    return f v
  | .tryFrom label source d f => do
    let v ← TRes.mapErrContext ("Failed to deserialize " ++ rules ++ " into `" ++ label ++ "`") (tmp d)
    convErrT ("Failed to convert `" ++ source ++ "` into `" ++ label ++ "`") (f v)

/-- The constructor expression of a transparent struct, bsn1_serde_macros/src/data_container.rs:509-515, 676-682. -/
def deFieldsTransparentT (rules : String) (tmp : {δ : Type} → DeT δ → TRes δ) {γ : Type} : DeFieldsT γ → TRes γ
  | .nil => .ok ()
  | .cons f r => do
    let v ← deFieldTransparentT rules tmp f
    let vs ← deFieldsTransparentT rules tmp r
    return (v, vs)

/-- The variants of an enum, bsn1_serde_macros/src/de/mod.rs:195-205. -/
inductive DeVariantsT : Type → Type 1
  | nil : DeVariantsT Empty
  | cons {γ ρ : Type} (id : Bytes) (fs : DeFieldsT γ) (r : DeVariantsT ρ) : DeVariantsT (γ ⊕ ρ)

/-- The chain of `if id == .. { .. } else`, bsn1_serde_macros/src/de/mod.rs:207-224. -/
def DeVariantsT.pick (id : Bytes) (k : {γ : Type} → DeFieldsT γ → TRes γ) {ρ : Type} : DeVariantsT ρ → TRes ρ
  | .nil => .err ⟨.unmatchedId, []⟩
  | .cons i fs r =>
    if id = i then do
      let v ← k fs
      return .inl v
    else do
      let v ← DeVariantsT.pick id k r
      return .inr v

namespace DeT

/-- The methods generated for a struct, bsn1_serde_macros/src/de/mod.rs:118-171. -/
def struct (m : Build) {γ : Type} (idSlice : Bytes) (fs : DeFieldsT γ) : DeT γ where
  fromBer id length contents :=
    if id ≠ idSlice then .err ⟨.unmatchedId, []⟩ else fromBerContentsT m fs length contents
  fromDer id contents :=
    if id ≠ idSlice then .err ⟨.unmatchedId, []⟩ else fromDerContentsT fs contents

/-- The methods generated for a transparent struct, bsn1_serde_macros/src/data_container.rs:447-525 and 616-692.  The compile error of lines 517-522
and 684-689 is in `De.transparent` only. -/
def transparent {γ : Type} (fs : DeFieldsT γ) : DeT γ where
  fromBer id length contents := deFieldsTransparentT "BER" (fun d => d.fromBer id length contents) fs
  fromDer id contents := deFieldsTransparentT "DER" (fun d => d.fromDer id contents) fs

/-- The methods generated for an enum, bsn1_serde_macros/src/de/mod.rs:174-225. -/
def enum (m : Build) {ρ : Type} (vs : DeVariantsT ρ) : DeT ρ where
  fromBer id length contents := vs.pick id fun fs => fromBerContentsT m fs length contents
  fromDer id contents := vs.pick id fun fs => fromDerContentsT fs contents

/-- The methods generated for a container with `from`, bsn1_serde_macros/src/de/mod.rs:61-83. -/
def from_ {α β : Type} (d : DeT β) (f : β → α) : DeT α where
  fromBer id length contents := do
    let val ← d.fromBer id length contents
    return f val
  fromDer id contents := do
    let val ← d.fromDer id contents
    return f val

/-- The methods generated for a container with `try_from`, bsn1_serde_macros/src/de/mod.rs:86-115.  `source` is `stringify!(#ty)`. -/
def tryFrom {α β : Type} (source : String) (d : DeT β) (f : β → Except Chain α) : DeT α where
  fromBer id length contents := do
    let val ← d.fromBer id length contents
    convErrT ("Failed to convert from `" ++ source ++ "`") (f val)
  fromDer id contents := do
    let val ← d.fromDer id contents
    convErrT ("Failed to convert from `" ++ source ++ "`") (f val)

/-- The decoding of a converted container, bsn1_serde_macros/src/de/mod.rs:34-37. -/
def back {α β : Type} (source : String) (d : DeT β) : Back β α → DeT α
  | .from_ g => DeT.from_ d g
  | .tryFrom g => DeT.tryFrom source d g

end DeT

/-- The decoding of a converted field, bsn1_serde_macros/src/data_container.rs:383-399, 568-584. -/
def backFieldT {β δ : Type} (label source : String) (d : DeT δ) : Back δ β → DeFieldT β
  | .from_ g => .from_ label d g
  | .tryFrom g => .tryFrom label source d g

mutual
/-- `Deserialize` of a type, see `Ty.de`.  bsn1_serde/src/de/mod.rs:40-561, octet_string.rs:82-105, bsn1_serde_macros/src/de/mod.rs.  The names that
`stringify!` makes are given by the place in the type expression. -/
def Ty.deT (m : Build) (o : HashOrder) : {α : Type} → Ty α → Labels → DeT α
  | _, .bool, _ => (De.bool m).told
  | _, .int t, _ => (De.int m t).told
  | _, .string, _ => (De.string m).told
  | _, .octetString, _ => De.octetString.told
  | _, .vec t, l => DeT.elements m IdRef.sequence (Ty.deT m o t (l.part 0)) (fun ret t => ret ++ [t]) id
  | _, .linkedList t, l => DeT.elements m IdRef.sequence (Ty.deT m o t (l.part 0)) (fun ret t => ret ++ [t]) id
  | _, .vecDeque t, l => DeT.elements m IdRef.sequence (Ty.deT m o t (l.part 0)) (fun ret t => ret ++ [t]) id
  | _, .btreeSet cmp _ _ t, l => DeT.elements m IdRef.sequence (Ty.deT m o t (l.part 0)) (fun ret t => btreeInsert cmp t ret) id
  | _, .btreeMap cmp _ _ k t, l => DeT.pairs m IdRef.sequence (Ty.deT m o k (l.part 0)) (Ty.deT m o t (l.part 1))
      (fun ret kv => btreeMapInsert cmp kv.1 kv.2 ret) id
  | _, .hashSet _ t, l => DeT.elements m IdRef.set (Ty.deT m o t (l.part 0)) (fun ret t => hashInsert t ret) (o.order _)
  | _, .hashMap _ k t, l => DeT.pairs m IdRef.set (Ty.deT m o k (l.part 0)) (Ty.deT m o t (l.part 1))
      (fun ret kv => hashMapInsert kv.1 kv.2 ret) (o.order _)
  | _, .struct id fs, l => DeT.struct m id (Fields.deT m o fs l 0)
  | _, .enum vs, l => DeT.enum m (Variants.deT m o vs l 0)
  | _, .transparent fs, l => DeT.transparent (Fields.deT m o fs l 0)
  | _, .conv t _ g, l => DeT.back (l.converted []) (Ty.deT m o t (l.part 0)) g
  | _, .named t _ g _ _, l => DeT.from_ (Ty.deT m o t l) g
  | _, .hole, _ => De.hole.told
/-- The decoders of the fields, from number `k` on, bsn1_serde_macros/src/data_container.rs:380-402 and 565-587. -/
def Fields.deT (m : Build) (o : HashOrder) : {γ : Type} → Fields γ → Labels → (k : Nat) → DeFieldsT γ
  | _, .nil, _, _ => .nil
  | _, .plain t r, l, k => .cons (.plain (l.field [k]) (Ty.deT m o t (l.part k))) (Fields.deT m o r l (k + 1))
  | _, .skip d r, l, k => .cons (.skip d) (Fields.deT m o r l (k + 1))
  | _, .skipSer t r, l, k => .cons (.plain (l.field [k]) (Ty.deT m o t (l.part k))) (Fields.deT m o r l (k + 1))
  | _, .skipDe _ d r, l, k => .cons (.skip d) (Fields.deT m o r l (k + 1))
  | _, .conv t _ g r, l, k => .cons (backFieldT (l.field [k]) (l.source [k]) (Ty.deT m o t (l.part k)) g) (Fields.deT m o r l (k + 1))
/-- The decoders of the variants, from number `k` on, bsn1_serde_macros/src/de/mod.rs:195-205. -/
def Variants.deT (m : Build) (o : HashOrder) : {ρ : Type} → Variants ρ → Labels → (k : Nat) → DeVariantsT ρ
  | _, .nil, _, _ => .nil
  | _, .cons id fs r, l, k => .cons id (Fields.deT m o fs (l.part k) 0) (Variants.deT m o r l (k + 1))
end

/-- `from_ber`, bsn1_serde/src/lib.rs:124-130. -/
def fromBerT (d : DeT α) (ber : Bytes) : TRes α := do
  let (id, length, contents) ← TRes.of (BerRef.disassemble ber)
  d.fromBer id length contents

/-- `from_der`, bsn1_serde/src/lib.rs:133-139. -/
def fromDerT (d : DeT α) (der : Bytes) : TRes α := do
  let (id, _, contents) ← TRes.of (DerRef.disassemble der)
  d.fromDer id contents

/-- `parse_ber`, bsn1_serde/src/lib.rs:148-154. -/
def parseBerT (d : DeT α) (buffer : Bytes) : TRes α × Bytes :=
  let (ber, buffer) := BerRef.parse buffer
  (do
    let ber ← TRes.of ber
    fromBerT d ber, buffer)

/-- `parse_der`, bsn1_serde/src/lib.rs:163-169. -/
def parseDerT (d : DeT α) (buffer : Bytes) : TRes α × Bytes :=
  let (der, buffer) := DerRef.parse buffer
  (do
    let der ← TRes.of der
    fromDerT d der, buffer)

end Bsn1
