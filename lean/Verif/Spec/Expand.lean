import Verif.Model.Expand
import Verif.Spec.Attribute
import Verif.Spec.Handwritten
import Verif.Spec.Decode
/-!
# What a declaration with its attributes stands for

Following bsn1_serde_macros/annotation_bsn1_serde.md, for the arguments as they are written: which fields are encoded, by which type, and what is got back.  From the
model only the types of declarations are used.
-/

namespace Bsn1.Spec
open Expand

variable {Pa : Type} {T : Types Pa}

/-- The arguments say to encode the value as one of the type `p`, by this function. -/
inductive ToSide {β : Type} (c : Conversions T β) (as : List (Arg Pa)) : (p : Pa) → (β → T.ty p) → Prop
  | into {p : Pa} : Arg.into p ∈ as → ToSide c as p (c.into p)
  | to {p : Pa} : Arg.to p ∈ as → ToSide c as (T.result p) (c.to p)

/-- The arguments say to decode a value of the type `p`, and to convert it by this function. -/
inductive FromSide {β : Type} (c : Conversions T β) (as : List (Arg Pa)) : (p : Pa) → Back (T.ty p) β → Prop
  | from_ {p : Pa} : Arg.from_ p ∈ as → FromSide c as p (.from_ (c.from_ p))
  | tryFrom {p : Pa} : Arg.tryFrom p ∈ as → FromSide c as p (.tryFrom (c.tryFrom p))

/-- The field is skipped on both sides. -/
def BothSkip (as : List (Arg Pa)) : Prop := kinds as .skip ∨ kinds as .skipSerializing ∧ kinds as .skipDeserializing

/-- The field is skipped on no side, and converted on none. -/
def Untouched (as : List (Arg Pa)) : Prop :=
  ∀ k, kinds as k → k = .default ∨ k.group ≠ .skip ∧ k.group ≠ .conversion

/-- What a field with the arguments is.  A field that is treated differently by the two sides is none of these. -/
inductive Means {β : Type} (f : FieldType T β) (as : List (Arg Pa)) : HandField β → Prop
  | plain (C : Codec β) : Untouched as → Means f as (.plain f.ser f.de C)
  | skipBy {p : Pa} : BothSkip as → Arg.default p ∈ as → Means f as (.skip (f.dfltBy p))
  | skip : BothSkip as → ¬ kinds as .default → Means f as (.skip f.dflt)
  | conv {p : Pa} {g : β → T.ty p} {b : Back (T.ty p) β} (C : Codec (T.ty p)) :
      ToSide f.toConversions as p g → FromSide f.toConversions as p b → Means f as (.conv (T.ser p) (T.de p) C g b)

/-- What the fields are. -/
inductive FieldsMean (pp : String → Option Pa) : {γ : Type} → Decl T γ → HandFields γ → Prop
  | nil : FieldsMean pp .nil .nil
  | cons {β γ : Type} {attrs : List SynAttr} {as : List (Arg Pa)} {f : FieldType T β} {h : HandField β} {r : Decl T γ} {hs : HandFields γ} :
      Documented pp .field attrs as → Means f as h → FieldsMean pp r hs → FieldsMean pp (.cons attrs f r) (.cons h hs)

/-- What the variants are. -/
inductive VariantsMean (pp : String → Option Pa) : {ρ : Type} → DeclVariants T ρ → HandVariants ρ → Prop
  | nil : VariantsMean pp .nil .nil
  | cons {γ ρ : Type} {attrs : List SynAttr} {as : List (Arg Pa)} {c p n : Nat} {fs : Decl T γ} {hs : HandFields γ} {r : DeclVariants T ρ}
      {vs : HandVariants ρ} : Documented pp .variant attrs as → IdentOf as c p n → FieldsMean pp fs hs → VariantsMean pp r vs →
      VariantsMean pp (.cons attrs fs r) (.cons (idOctets c p n) hs vs)

/-! ### One side alone

For a declaration with only one of the derives, or with fields that the two sides treat differently. -/

/-- The implementation writes these identifier and contents octets for the value, and what it says of their lengths, if anything, is true. -/
structure Encodes {α : Type} (s : Ser α) (v : α) (id c : List UInt8) : Prop where
  writesId : (s.writeId v).res = .ok () ∧ (s.writeId v).chunks.flatten = id
  writesContents : (s.writeDerContents v).res = .ok () ∧ (s.writeDerContents v).chunks.flatten = c
  idLen : s.idLen v = .ok none ∨ s.idLen v = .ok (some id.length)
  contentsLen : s.derContentsLen v = .ok none ∨ s.derContentsLen v = .ok (some c.length)

/-- The octets of a field. -/
inductive FieldGives {β : Type} (f : FieldType T β) (as : List (Arg Pa)) (v : β) : List UInt8 → Prop
  | skip : kinds as .skip ∨ kinds as .skipSerializing → FieldGives f as v []
  | conv {p : Pa} {g : β → T.ty p} {id c : List UInt8} : ToSide f.toConversions as p g → Encodes (T.ser p) (g v) id c → FieldGives f as v (tlv id c)
  | plain {id c : List UInt8} : ¬ kinds as .skip → ¬ kinds as .skipSerializing → ¬ kinds as .into → ¬ kinds as .to → Encodes f.ser v id c →
      FieldGives f as v (tlv id c)

/-- The octets of the fields. -/
def FieldsGive (pp : String → Option Pa) : {γ : Type} → Decl T γ → γ → List UInt8 → Prop
  | _, .nil, _, o => o = []
  | _, .cons attrs f r, v, o => ∃ as a b, Documented pp .field attrs as ∧ FieldGives f as v.1 a ∧ FieldsGive pp r v.2 b ∧ o = a ++ b

/-- The octets are a DER value that the implementation takes for `x`. -/
def FromDerValue {δ : Type} (d : De δ) (o : List UInt8) (x : δ) : Prop :=
  ∃ id c, IsId id ∧ c.length < 2 ^ 64 ∧ o = tlv id c ∧ d.fromDer id c = .ok x

/-- The octets are a BER value that the implementation takes for `x`. -/
def FromBerValue {δ : Type} (d : De δ) (o : List UInt8) (x : δ) : Prop :=
  ∃ id indef raw, BerValue o id indef raw ∧ d.fromBer id (if indef then .indefinite else .definite raw.length) raw = .ok x

/-- The field is this value, and takes these octets. -/
inductive FieldTakes (R : {δ : Type} → De δ → List UInt8 → δ → Prop) {β : Type} (f : FieldType T β) (as : List (Arg Pa)) : List UInt8 → β → Prop
  | skipBy {p : Pa} : kinds as .skip ∨ kinds as .skipDeserializing → Arg.default p ∈ as → FieldTakes R f as [] (f.dfltBy p)
  | skip : kinds as .skip ∨ kinds as .skipDeserializing → ¬ kinds as .default → FieldTakes R f as [] f.dflt
  | from_ {p : Pa} {o : List UInt8} {u : T.ty p} : Arg.from_ p ∈ as → R (T.de p) o u → FieldTakes R f as o (f.from_ p u)
  | tryFrom {p : Pa} {o : List UInt8} {u : T.ty p} {v : β} : Arg.tryFrom p ∈ as → R (T.de p) o u → f.tryFrom p u = .ok v → FieldTakes R f as o v
  | plain {o : List UInt8} {v : β} : ¬ kinds as .skip → ¬ kinds as .skipDeserializing → ¬ kinds as .from_ → ¬ kinds as .tryFrom → R f.de o v →
      FieldTakes R f as o v

/-- The fields are these values, and take these octets. -/
def FieldsTake (pp : String → Option Pa) (R : {δ : Type} → De δ → List UInt8 → δ → Prop) : {γ : Type} → Decl T γ → List UInt8 → γ → Prop
  | _, .nil, o, _ => o = []
  | _, .cons attrs f r, o, v =>
      ∃ as a b, Documented pp .field attrs as ∧ FieldTakes R f as a v.1 ∧ FieldsTake pp R r b v.2 ∧ o = a ++ b

/-- The arguments of every field are documented ones. -/
def FieldsDocumented (pp : String → Option Pa) {γ : Type} (fs : Decl T γ) : Prop :=
  ∀ attrs ∈ fs.attrs, ∃ as, Documented pp .field attrs as

/-- The arguments of every variant and of its fields are documented ones. -/
def VariantsDocumented (pp : String → Option Pa) : {ρ : Type} → DeclVariants T ρ → Prop
  | _, .nil => True
  | _, .cons attrs fs r => (∃ as, Documented pp .variant attrs as) ∧ FieldsDocumented pp fs ∧ VariantsDocumented pp r

/-- The attributes of a variant say that its identifier is this one. -/
def VariantId (pp : String → Option Pa) (attrs : List SynAttr) (id : List UInt8) : Prop :=
  ∃ as c p n, Documented pp .variant attrs as ∧ IdentOf as c p n ∧ id = idOctets c p n

/-- The identifier and the octets of the fields, for a value of the enum. -/
def VariantsGive (pp : String → Option Pa) : {ρ : Type} → DeclVariants T ρ → ρ → List UInt8 → List UInt8 → Prop
  | _, .cons attrs fs _, .inl v, id, o => VariantId pp attrs id ∧ FieldsGive pp fs v o
  | _, .cons _ _ r, .inr v, id, o => VariantsGive pp r v id o

/-- The value is of the first variant with the identifier, and its fields take these octets. -/
def VariantsTake (pp : String → Option Pa) (R : {δ : Type} → De δ → List UInt8 → δ → Prop) : {ρ : Type} → DeclVariants T ρ → List UInt8 →
    List UInt8 → ρ → Prop
  | _, .cons attrs fs _, id, o, .inl v => VariantId pp attrs id ∧ FieldsTake pp R fs o v
  | _, .cons attrs _ r, id, o, .inr v => ¬ VariantId pp attrs id ∧ VariantsTake pp R r id o v

/-- The container is not converted. -/
def Unconverted (as : List (Arg Pa)) : Prop := ∀ k, kinds as k → k.group ≠ .conversion

end Bsn1.Spec
