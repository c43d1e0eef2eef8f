import Verif.Model.Ser
import Verif.Model.De
/-!
# The code generated by `#[derive(Serialize, Deserialize)]`

bsn1_serde_macros/src/ser/mod.rs, de/mod.rs, data_container.rs.  The model is of the generated code:
a struct (or the fields of a variant) is the tuple of its fields `β₁ × (β₂ × (... × Unit))`, an enum the sum of
its variants `γ₁ ⊕ (γ₂ ⊕ (... ⊕ Empty))`.  Which branch of the generator is taken for which attribute is in
`Verif.Model.Attribute`.
-/

namespace Bsn1

/-- What the generator does with a field when serializing, bsn1_serde_macros/src/data_container.rs:190-208. -/
inductive SerField : Type → Type 1
  /-- `skip` or `skip_serializing` -/
  | skip {β : Type} : SerField β
  /-- no conversion -/
  | plain {β : Type} (s : Ser β) : SerField β
  /-- `into = ".."` (`Into::into(Clone::clone(field))`) or `to = ".."` (`path(field)`); both are a function of
  the field to another type -/
  | conv {β δ : Type} (s : Ser δ) (f : β → δ) : SerField β

/-- The fields of a struct or variant, in order.  The zip of bsn1_serde_macros/src/data_container.rs:187-190. -/
inductive SerFields : Type → Type 1
  | nil : SerFields Unit
  | cons {β γ : Type} (f : SerField β) (r : SerFields γ) : SerFields (β × γ)

/-- The statement generated for one field in `write_der_contents`, bsn1_serde_macros/src/data_container.rs:213-225. -/
def writeField (m : Build) {β : Type} : SerField β → β → W Unit
  | .skip, _ => pure ()
  | .plain s, v => writeDer m s v
  | .conv s f, v => writeDer m s (f v)

/-- `write_der_contents`, bsn1_serde_macros/src/data_container.rs:183-231. -/
def writeFields (m : Build) {γ : Type} : SerFields γ → γ → W Unit
  | .nil, _ => pure ()
  | .cons f r, v => do
    writeField m f v.1
    writeFields m r v.2

/-- `field_attributes().iter().any(|attr| attr.into_type().is_some() || ..)`, bsn1_serde_macros/src/data_container.rs:269-275. -/
def anyConv {γ : Type} : SerFields γ → Bool
  | .nil => false
  | .cons (.conv _ _) _ => true
  | .cons .skip r => anyConv r
  | .cons (.plain _) r => anyConv r

/-- The accumulation of the field sizes, bsn1_serde_macros/src/data_container.rs:285-315, from `ret` on.  The `conv` case is excluded by
lines 269-275 and 290-291. -/
def fieldsLenLoop (m : Build) {γ : Type} : SerFields γ → γ → (ret : Nat) → Res (Option Nat)
  | .nil, _, ret => .ok (some ret)
  | .cons .skip r, v, ret => fieldsLenLoop m r v.2 ret
  | .cons (.plain s) r, v, ret => do
    match ← s.derContentsLen v.1 with
    | some contentsLen =>
      match ← s.idLen v.1 with
      | some idLen =>
        let lengthLen := (Length.definite contentsLen).len
        let a ← uadd m idLen lengthLen
        let a ← uadd m a contentsLen
        let ret ← uadd m ret a
        fieldsLenLoop m r v.2 ret
      | none => return none
    | none => return none
  | .cons (.conv _ _) _, _, _ => .panic

/-- `der_contents_len`, bsn1_serde_macros/src/data_container.rs:264-316. -/
def fieldsLen (m : Build) {γ : Type} (fs : SerFields γ) (v : γ) : Res (Option Nat) :=
  if anyConv fs then .ok none else fieldsLenLoop m fs v 0

/-- A field that is serialized by a transparent struct, as a function of the struct: its serializer and whether it is converted.
What bsn1_serde_macros/src/data_container.rs:122-123 and 163-164 find out. -/
structure TransparentField (γ : Type) where
  ser : Ser γ
  converted : Bool

/-- `Serialize` of a value obtained by a function, in a transparent struct (bsn1_serde_macros/src/data_container.rs:125-144, 241-260): the
methods are called on the result of the function. -/
def Ser.comap {α β : Type} (s : Ser β) (f : α → β) : Ser α where
  writeId v := s.writeId (f v)
  writeDerContents v := s.writeDerContents (f v)
  idLen v := s.idLen (f v)
  derContentsLen v := s.derContentsLen (f v)

/-- The fields not skipped, `transparent_field_var(true)` and `transparent_field_attribute(true)`,
bsn1_serde_macros/src/data_container.rs:753-779 and 792-814. -/
def activeFields {γ : Type} : SerFields γ → List (TransparentField γ)
  | .nil => []
  | .cons f r =>
    let rest := (activeFields r).map fun t => ⟨t.ser.comap Prod.snd, t.converted⟩
    match f with
    | .skip => rest
    | .plain s => ⟨s.comap Prod.fst, false⟩ :: rest
    | .conv s g => ⟨s.comap (fun v => g v.1), true⟩ :: rest

namespace Ser

/-- The methods generated for a struct with the identifier octets `id`, bsn1_serde_macros/src/ser/mod.rs:121-168
with bsn1_serde_macros/src/data_container.rs:109-115 (`write_id`), 148-154 (`id_len`), 183-231, 264-316. -/
def struct (m : Build) {γ : Type} (id : Bytes) (fs : SerFields γ) : Ser γ where
  writeId _ := W.writeAll id
  writeDerContents v := writeFields m fs v
  idLen _ := .ok (some id.length)
  derContentsLen v := fieldsLen m fs v

/-- The methods generated for a transparent struct, bsn1_serde_macros/src/data_container.rs:118-145, 157-171, 234-261, 319-333.  `none` is the
compile error of lines 774-777 and 809-812. -/
def transparent {γ : Type} (fs : SerFields γ) : Option (Ser γ) :=
  match activeFields fs with
  | [t] => some {
      writeId := t.ser.writeId
      writeDerContents := t.ser.writeDerContents
      idLen := fun v => if t.converted then .ok none else t.ser.idLen v
      derContentsLen := fun v => if t.converted then .ok none else t.ser.derContentsLen v }
  | _ => none

/-- The methods generated for a container with `into` or `to`, bsn1_serde_macros/src/ser/mod.rs:59-89 and 92-118. -/
def conv {α β : Type} (s : Ser β) (f : α → β) : Ser α where
  writeId v := s.writeId (f v)
  writeDerContents v := s.writeDerContents (f v)
  idLen _ := .ok none
  derContentsLen _ := .ok none

end Ser

/-- The variants of an enum: identifier octets and fields.  bsn1_serde_macros/src/ser/mod.rs:183-186. -/
inductive SerVariants : Type → Type 1
  | nil : SerVariants Empty
  | cons {γ ρ : Type} (id : Bytes) (fs : SerFields γ) (r : SerVariants ρ) : SerVariants (γ ⊕ ρ)

/-- The `match self` over the variants, bsn1_serde_macros/src/ser/mod.rs:195-227: the methods of the variant of the
value. -/
def SerVariants.pick (m : Build) {ρ α : Type} (k : {γ : Type} → Ser γ → γ → α) : SerVariants ρ → ρ → α
  | .cons id fs _, .inl v => k (Ser.struct m id fs) v
  | .cons _ _ r, .inr v => SerVariants.pick m k r v

/-- The methods generated for an enum, bsn1_serde_macros/src/ser/mod.rs:171-228. -/
def Ser.enum (m : Build) {ρ : Type} (vs : SerVariants ρ) : Ser ρ where
  writeId := vs.pick m fun s v => s.writeId v
  writeDerContents := vs.pick m fun s v => s.writeDerContents v
  idLen := vs.pick m fun s v => s.idLen v
  derContentsLen := vs.pick m fun s v => s.derContentsLen v

/-- What the generator does with a field when deserializing, bsn1_serde_macros/src/data_container.rs:380-402 and 565-587. -/
inductive DeField : Type → Type 1
  /-- `skip` or `skip_deserializing`: the value of `default_path()()` -/
  | skip {β : Type} (dflt : β) : DeField β
  | plain {β : Type} (d : De β) : DeField β
  /-- `from = ".."` -/
  | from_ {β δ : Type} (d : De δ) (f : δ → β) : DeField β
  /-- `try_from = ".."`; the error is given as the chain `anyhow::Error::new(err)` -/
  | tryFrom {β δ : Type} (d : De δ) (f : δ → Except Chain β) : DeField β

/-- The fields of a struct or variant, in order.  The zip of bsn1_serde_macros/src/data_container.rs:352 and 539. -/
inductive DeFields : Type → Type 1
  | nil : DeFields Unit
  | cons {β γ : Type} (f : DeField β) (r : DeFields γ) : DeFields (β × γ)

/-- `TryFrom::try_from(val).map_err(|err| Error::from(anyhow::Error::new(err)).context(..))`,
bsn1_serde_macros/src/data_container.rs:389-398, 574-583. -/
def convErr {β : Type} : Except Chain β → Res β
  | .ok v => .ok v
  | .error c => .err (Error.anyhow c).context

/-- `tmp_val` of `from_der_contents`, bsn1_serde_macros/src/data_container.rs:546-563.  Returns the remaining `contents_bytes` too. -/
def derTmpVal {β : Type} (d : De β) (bytes : Bytes) : Res (β × Bytes) :=
  let (r, bytes) := DerRef.parse bytes
  do
    let der ← mapErrContext r
    let (id, _, contents) ← DerRef.disassemble der
    let v ← mapErrContext (d.fromDer id contents)
    return (v, bytes)

/-- `tmp_val` of `from_ber_contents`, bsn1_serde_macros/src/data_container.rs:360-378. -/
def berTmpVal {β : Type} (d : De β) (bytes : Bytes) : Res (β × Bytes) :=
  let (r, bytes) := BerRef.parse bytes
  do
    let ber ← mapErrContext r
    let (id, length, contents) ← BerRef.disassemble ber
    let v ← mapErrContext (d.fromBer id length contents)
    return (v, bytes)

/-- The constructor expression of a field, bsn1_serde_macros/src/data_container.rs:380-402 and 565-587.  `tmp` is the expression `tmp_val`
for the type the field is decoded as. -/
def deField {β : Type} (tmp : {δ : Type} → De δ → Bytes → Res (δ × Bytes)) :
    DeField β → Bytes → Res (β × Bytes)
  | .skip dflt, bytes => .ok (dflt, bytes)
  | .plain d, bytes => tmp d bytes
  | .from_ d f, bytes => do
    let (v, bytes) ← tmp d bytes
    return (f v, bytes)
  | .tryFrom d f, bytes => do
    let (v, bytes) ← tmp d bytes
    let v ← convErr (f v)
    return (v, bytes)

/-- The constructor expression of the struct, bsn1_serde_macros/src/data_container.rs:406-413 and 591-598: the fields in order. -/
def deFields (tmp : {δ : Type} → De δ → Bytes → Res (δ × Bytes)) {γ : Type} : DeFields γ → Bytes → Res (γ × Bytes)
  | .nil, bytes => .ok ((), bytes)
  | .cons f r, bytes => do
    let (v, bytes) ← deField tmp f bytes
    let (vs, bytes) ← deFields tmp r bytes
    return ((v, vs), bytes)

/-- `if contents_bytes.len() == 0 { Ok(ret) } else { Err(ExtraContentsOctet) }`, bsn1_serde_macros/src/data_container.rs:438-442, 607-611. -/
def finish {γ : Type} : γ × Bytes → Res γ
  | (ret, bytes) => if bytes.length = 0 then .ok ret else .err .extraContentsOctet

/-- `from_der_contents`, bsn1_serde_macros/src/data_container.rs:528-613. -/
def fromDerContents {γ : Type} (fs : DeFields γ) (contents : Bytes) : Res γ := do
  let r ← deFields derTmpVal fs contents
  finish r

/-- The contents without end-of-contents, bsn1_serde_macros/src/data_container.rs:420-434. -/
def structContents (m : Build) (length : Length) (contents : Bytes) : Res Bytes :=
  match length with
  | .definite len => do
    debugAssert m (len == contents.length)
    return contents
  | .indefinite =>
    if BerRef.eoc.isSuffixOf contents then sliceTo contents (contents.length - BerRef.eoc.length)
    else .err .unterminatedBytes

/-- `from_ber_contents`, bsn1_serde_macros/src/data_container.rs:336-444. -/
def fromBerContents (m : Build) {γ : Type} (fs : DeFields γ) (length : Length) (contents : Bytes) : Res γ := do
  let bytes ← structContents m length contents
  let r ← deFields berTmpVal fs bytes
  finish r

/-- The constructor expression of a field in a transparent struct, bsn1_serde_macros/src/data_container.rs:465-507, 633-674.  `tmp` decodes the
whole input. -/
def deFieldTransparent {β : Type} (tmp : {δ : Type} → De δ → Res δ) : DeField β → Res β
  | .skip dflt => .ok dflt
  | .plain d => mapErrContext (tmp d)
  | .from_ d f => do
    let v ← mapErrContext (tmp d)
    return f v
  | .tryFrom d f => do
    let v ← mapErrContext (tmp d)
    convErr (f v)

/-- The constructor expression of a transparent struct, bsn1_serde_macros/src/data_container.rs:509-515, 676-682. -/
def deFieldsTransparent (tmp : {δ : Type} → De δ → Res δ) {γ : Type} : DeFields γ → Res γ
  | .nil => .ok ()
  | .cons f r => do
    let v ← deFieldTransparent tmp f
    let vs ← deFieldsTransparent tmp r
    return (v, vs)

/-- `deserialized_fields`, bsn1_serde_macros/src/data_container.rs:463-505, 631-672. -/
def deserializedFields {γ : Type} : DeFields γ → Nat
  | .nil => 0
  | .cons (.skip _) r => deserializedFields r
  | .cons (.plain _) r => deserializedFields r + 1
  | .cons (.from_ _ _) r => deserializedFields r + 1
  | .cons (.tryFrom _ _) r => deserializedFields r + 1

/-- The variants of an enum: identifier octets and fields.  bsn1_serde_macros/src/de/mod.rs:195-205. -/
inductive DeVariants : Type → Type 1
  | nil : DeVariants Empty
  | cons {γ ρ : Type} (id : Bytes) (fs : DeFields γ) (r : DeVariants ρ) : DeVariants (γ ⊕ ρ)

/-- The chain of `if id == .. { .. } else`, bsn1_serde_macros/src/de/mod.rs:207-224.  `k` decodes the contents of the
fields of a variant. -/
def DeVariants.pick (id : Bytes) (k : {γ : Type} → DeFields γ → Res γ) {ρ : Type} : DeVariants ρ → Res ρ
  | .nil => .err .unmatchedId
  | .cons i fs r =>
    if id = i then do
      let v ← k fs
      return .inl v
    else do
      let v ← DeVariants.pick id k r
      return .inr v

namespace De

/-- The methods generated for a struct, bsn1_serde_macros/src/de/mod.rs:118-171. -/
def struct (m : Build) {γ : Type} (idSlice : Bytes) (fs : DeFields γ) : De γ where
  fromBer id length contents :=
    if id ≠ idSlice then .err .unmatchedId else fromBerContents m fs length contents
  fromDer id contents :=
    if id ≠ idSlice then .err .unmatchedId else fromDerContents fs contents

/-- The methods generated for a transparent struct, bsn1_serde_macros/src/data_container.rs:447-525 and 616-692.  `none` is the compile error
of lines 517-522 and 684-689. -/
def transparent {γ : Type} (fs : DeFields γ) : Option (De γ) :=
  if deserializedFields fs = 1 then
    some {
      fromBer := fun id length contents => deFieldsTransparent (fun d => d.fromBer id length contents) fs
      fromDer := fun id contents => deFieldsTransparent (fun d => d.fromDer id contents) fs }
  else none

/-- The methods generated for an enum, bsn1_serde_macros/src/de/mod.rs:174-225. -/
def enum (m : Build) {ρ : Type} (vs : DeVariants ρ) : De ρ where
  fromBer id length contents := vs.pick id fun fs => fromBerContents m fs length contents
  fromDer id contents := vs.pick id fun fs => fromDerContents fs contents

/-- The methods generated for a container with `from`, bsn1_serde_macros/src/de/mod.rs:61-83. -/
def from_ {α β : Type} (d : De β) (f : β → α) : De α where
  fromBer id length contents := do
    let val ← d.fromBer id length contents
    return f val
  fromDer id contents := do
    let val ← d.fromDer id contents
    return f val

/-- The methods generated for a container with `try_from`, bsn1_serde_macros/src/de/mod.rs:86-115. -/
def tryFrom {α β : Type} (d : De β) (f : β → Except Chain α) : De α where
  fromBer id length contents := do
    let val ← d.fromBer id length contents
    convErr (f val)
  fromDer id contents := do
    let val ← d.fromDer id contents
    convErr (f val)

end De
end Bsn1
