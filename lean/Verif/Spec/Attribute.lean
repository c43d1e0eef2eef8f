import Verif.Spec.Basic
import Verif.Model.Attribute
/-!
# Independent specification of the attribute `bsn1_serde`

Following bsn1_serde_macros/annotation_bsn1_serde.md.  From the model only the types of tokens and of attributes in the
source (`Tok`, `SynAttr`), of parsed attributes (`Attribute`) and of what is generated (`Plan`) are used.
-/

namespace Bsn1.Spec

/-- The arguments. -/
inductive ArgKind where
  | id | tagClass | tagPc | tagNum
  | skipSerializing | skipDeserializing | default | skip
  | into | from_ | to | tryFrom
  | transparent
  deriving DecidableEq

/-- The sections of the documentation. -/
inductive Group where
  | identifier | skip | conversion | transparent
  deriving DecidableEq

/-- The section of an argument. -/
def ArgKind.group : ArgKind → Group
  | .id | .tagClass | .tagPc | .tagNum => .identifier
  | .skipSerializing | .skipDeserializing | .default | .skip => .skip
  | .into | .from_ | .to | .tryFrom => .conversion
  | .transparent => .transparent

/-- Where an attribute is. -/
inductive Position where
  | struct | enum | variant | field
  deriving DecidableEq

/-- "These arguments can be passed to attribute for ..". -/
def Position.admits : Position → Group → Prop
  | .struct, g => g = .identifier ∨ g = .conversion ∨ g = .transparent
  | .enum, g => g = .conversion
  | .variant, g => g = .identifier
  | .field, g => g = .skip ∨ g = .conversion

/-- The set of arguments is documented for the position: it belongs to one section, which the position admits, and does not
have both `from` and `try_from` or both `into` and `to`. -/
def Accepted (p : Position) (s : ArgKind → Prop) : Prop :=
  (∀ k, s k → p.admits k.group) ∧ (∀ k k', s k → s k' → k.group = k'.group) ∧
  ¬ (s .from_ ∧ s .tryFrom) ∧ ¬ (s .into ∧ s .to)

/-- The names for `id`, with class, primitive or constructed, and number. -/
def idNames : List (String × Nat × Nat × Nat) :=
  [("EOC", 0, 0, 0x00), ("Boolean", 0, 0, 0x01), ("Integer", 0, 0, 0x02), ("BitString", 0, 0, 0x03),
    ("OctetString", 0, 0, 0x04), ("Null", 0, 0, 0x05), ("Real", 0, 0, 0x09), ("UTF8String", 0, 0, 0x0c),
    ("Sequence", 0, 1, 0x10), ("Set", 0, 1, 0x11)]

/-- The names for `tag_class`. -/
def classNames : List (String × Nat) := [("UNIVERSAL", 0), ("APPLICATION", 1), ("CONTEXT_SPECIFIC", 2), ("PRIVATE", 3)]

/-- The names for `tag_pc`. -/
def pcNames : List (String × Nat) := [("PRIMITIVE", 0), ("CONSTRUCTED", 1)]

/-- The prefixes of number literals with their radix. -/
def radixPrefixes : List (List Char × Nat) :=
  [([], 10), (['0', 'b'], 2), (['0', 'B'], 2), (['0', 'o'], 8), (['0', 'O'], 8), (['0', 'x'], 16), (['0', 'X'], 16)]

/-- The character is the digit `d`. -/
def IsDigit (d : Nat) (c : Char) : Prop := "0123456789abcdef".toList[d]? = some c ∨ "0123456789ABCDEF".toList[d]? = some c

/-- The characters are a number in the radix. -/
def Numeral (radix : Nat) (s : List Char) (n : Nat) : Prop :=
  s ≠ [] ∧ ∃ ds : List Nat, List.Forall₂ IsDigit ds s ∧ (∀ d ∈ ds, d < radix) ∧ n = Nat.ofDigits radix ds.reverse

/-- An optional sign. -/
def OptPlus (s : List Char) : Prop := s = [] ∨ s = ['+']

/-- The literal denotes the tag number: a prefix and digits, below 2^128, where `+` may be before and after the prefix (no
literal of Rust contains one). -/
def TagNumLit (s : List Char) (n : Nat) : Prop :=
  ∃ plus pre radix plus' digits, OptPlus plus ∧ (pre, radix) ∈ radixPrefixes ∧ OptPlus plus' ∧
    s = plus ++ pre ++ plus' ++ digits ∧ Numeral radix digits n ∧ n < 2 ^ 128

/-- An argument with its value. -/
inductive Arg (Pa : Type) where
  | id (c p n : Nat)
  | tagClass (c : Nat)
  | tagPc (p : Nat)
  | tagNum (n : Nat)
  | skipSerializing
  | skipDeserializing
  | default (path : Pa)
  | skip
  | into (ty : Pa)
  | from_ (ty : Pa)
  | to (path : Pa)
  | tryFrom (ty : Pa)
  | transparent

/-- Without the value. -/
def Arg.kind {Pa : Type} : Arg Pa → ArgKind
  | .id _ _ _ => .id
  | .tagClass _ => .tagClass
  | .tagPc _ => .tagPc
  | .tagNum _ => .tagNum
  | .skipSerializing => .skipSerializing
  | .skipDeserializing => .skipDeserializing
  | .default _ => .default
  | .skip => .skip
  | .into _ => .into
  | .from_ _ => .from_
  | .to _ => .to
  | .tryFrom _ => .tryFrom
  | .transparent => .transparent

/-- `name = value` -/
def assign (name : String) (v : Tok) : List Tok := [.ident name, .punct '=', v]

/-- A literal for a path: quotes around are ignored. -/
def PathLit {Pa : Type} (pp : String → Option Pa) (s : String) (p : Pa) : Prop :=
  ∃ (i j : Nat) (t : List Char), s.toList = List.replicate i '"' ++ t ++ List.replicate j '"' ∧ t.head? ≠ some '"' ∧
    t.getLast? ≠ some '"' ∧ pp (String.ofList t) = some p

/-- The tokens of an argument. -/
def Arg.Tokens {Pa : Type} (pp : String → Option Pa) : Arg Pa → List Tok → Prop
  | .id c p n, ts => ∃ name, (name, c, p, n) ∈ idNames ∧ ts = assign "id" (.ident name)
  | .tagClass c, ts => ∃ name, (name, c) ∈ classNames ∧ ts = assign "tag_class" (.ident name)
  | .tagPc p, ts => ∃ name, (name, p) ∈ pcNames ∧ ts = assign "tag_pc" (.ident name)
  | .tagNum n, ts => ∃ s, TagNumLit s.toList n ∧ ts = assign "tag_num" (.literal s)
  | .skipSerializing, ts => ts = [.ident "skip_serializing"]
  | .skipDeserializing, ts => ts = [.ident "skip_deserializing"]
  | .default p, ts => ∃ s, PathLit pp s p ∧ ts = assign "default" (.literal s)
  | .skip, ts => ts = [.ident "skip"]
  | .into p, ts => ∃ s, PathLit pp s p ∧ ts = assign "into" (.literal s)
  | .from_ p, ts => ∃ s, PathLit pp s p ∧ ts = assign "from" (.literal s)
  | .to p, ts => ∃ s, PathLit pp s p ∧ ts = assign "to" (.literal s)
  | .tryFrom p, ts => ∃ s, PathLit pp s p ∧ ts = assign "try_from" (.literal s)
  | .transparent, ts => ts = [.ident "transparent"]

/-- The tokens are a list of arguments; commas may be before, between and after them, and may be omitted. -/
inductive ArgList {Pa : Type} (pp : String → Option Pa) : List Tok → List (Arg Pa) → Prop
  | nil : ArgList pp [] []
  | comma {ts : List Tok} {as : List (Arg Pa)} : ArgList pp ts as → ArgList pp (.punct ',' :: ts) as
  | arg {ts ts' : List Tok} {a : Arg Pa} {as : List (Arg Pa)} : a.Tokens pp ts → ArgList pp ts' as →
      ArgList pp (ts ++ ts') (a :: as)

/-- The kinds of the arguments. -/
def kinds {Pa : Type} (as : List (Arg Pa)) (k : ArgKind) : Prop := ∃ a ∈ as, a.kind = k

/-- The identifier: class, primitive or constructed, and number are given by an argument of their own, else by `id`, else they
are those of SEQUENCE. -/
def IdentOf {Pa : Type} (as : List (Arg Pa)) (c p n : Nat) : Prop :=
  ∃ c' p' n', (Arg.id c' p' n' ∈ as ∨ ¬ kinds as .id ∧ (c', p', n') = (0, 1, 16)) ∧
    (Arg.tagClass c ∈ as ∨ ¬ kinds as .tagClass ∧ c = c') ∧
    (Arg.tagPc p ∈ as ∨ ¬ kinds as .tagPc ∧ p = p') ∧
    (Arg.tagNum n ∈ as ∨ ¬ kinds as .tagNum ∧ n = n')

/-- The attributes at one position have the arguments: at most one of them is a `bsn1_serde` list, and no argument is given
twice. -/
def HasArgs {Pa : Type} (pp : String → Option Pa) (attrs : List SynAttr) (as : List (Arg Pa)) : Prop :=
  (as.map Arg.kind).Nodup ∧
  ((∀ x ∈ attrs, x = .other) ∧ as = [] ∨
   ∃ l ts r, attrs = l ++ .bsn1Serde ts :: r ∧ (∀ x ∈ l, x = .other) ∧ (∀ x ∈ r, x = .other) ∧ ArgList pp ts as)

/-- The attributes are well-formed and documented for the position. -/
def Documented {Pa : Type} (pp : String → Option Pa) (p : Position) (attrs : List SynAttr) (as : List (Arg Pa)) : Prop :=
  HasArgs pp attrs as ∧ Accepted p (kinds as)

/-- The parsed attribute has exactly these arguments. -/
structure Describes {Pa : Type} (as : List (Arg Pa)) (a : Attribute Pa) : Prop where
  id_ : ∀ v, a.id_ = some v ↔ ∃ c p n, Arg.id c p n ∈ as ∧ v = UInt8.ofNat (64 * c + 32 * p + n)
  tagClass : ∀ v, a.tagClass = some v ↔ ∃ c, Arg.tagClass c ∈ as ∧ v = UInt8.ofNat (64 * c)
  tagPc : ∀ v, a.tagPc = some v ↔ ∃ p, Arg.tagPc p ∈ as ∧ v = UInt8.ofNat (32 * p)
  tagNum : ∀ n, a.tagNum = some n ↔ Arg.tagNum n ∈ as
  skipSerializing : a.skipSerializing = some () ↔ Arg.skipSerializing ∈ as
  skipDeserializing : a.skipDeserializing = some () ↔ Arg.skipDeserializing ∈ as
  default_ : ∀ p, a.default_ = some p ↔ Arg.default p ∈ as
  skip : a.skip = some () ↔ Arg.skip ∈ as
  into : ∀ p, a.into = some p ↔ Arg.into p ∈ as
  from_ : ∀ p, a.from_ = some p ↔ Arg.from_ p ∈ as
  to_ : ∀ p, a.to = some p ↔ Arg.to p ∈ as
  tryFrom : ∀ p, a.tryFrom = some p ↔ Arg.tryFrom p ∈ as
  transparent : a.transparent = some () ↔ Arg.transparent ∈ as

/-- How a field with the arguments is serialized. -/
def SerField {Pa : Type} (as : List (Arg Pa)) : SerFieldPlan Pa → Prop
  | .skip => kinds as .skip ∨ kinds as .skipSerializing
  | .into ty => Arg.into ty ∈ as
  | .to path => Arg.to path ∈ as
  | .plain => ¬ kinds as .skip ∧ ¬ kinds as .skipSerializing ∧ ¬ kinds as .into ∧ ¬ kinds as .to

/-- How a field with the arguments is deserialized. -/
def DeField {Pa : Type} (as : List (Arg Pa)) : DeFieldPlan Pa → Prop
  | .skip (some path) => (kinds as .skip ∨ kinds as .skipDeserializing) ∧ Arg.default path ∈ as
  | .skip none => (kinds as .skip ∨ kinds as .skipDeserializing) ∧ ¬ kinds as .default
  | .from_ ty => Arg.from_ ty ∈ as
  | .tryFrom ty => Arg.tryFrom ty ∈ as
  | .plain => ¬ kinds as .skip ∧ ¬ kinds as .skipDeserializing ∧ ¬ kinds as .from_ ∧ ¬ kinds as .tryFrom

/-- The field is not serialized. -/
def serSkips {Pa : Type} : SerFieldPlan Pa → Bool
  | .skip => true
  | _ => false

/-- The field is not deserialized. -/
def deSkips {Pa : Type} : DeFieldPlan Pa → Bool
  | .skip _ => true
  | _ => false

/-- The attributes of a field are documented, and it is treated as they say. -/
def FieldPlan {Pa F : Type} (pp : String → Option Pa) (field : List (Arg Pa) → F → Prop) (attrs : List SynAttr) (f : F) : Prop :=
  ∃ as, Documented pp .field attrs as ∧ field as f

/-- The attributes of a variant and of its fields are documented, and its identifier and fields are as they say. -/
def VariantPlan {Pa F : Type} (pp : String → Option Pa) (field : List (Arg Pa) → F → Prop)
    (v : List SynAttr × List (List SynAttr)) (r : Bytes × List F) : Prop :=
  ∃ as c p n, Documented pp .variant v.1 as ∧ IdentOf as c p n ∧ r.1 = idOctets c p n ∧ List.Forall₂ (FieldPlan pp field) v.2 r.2

/-- The derive input is documented, and what is generated is as documented, for a container without the conversion in
question (`noConv`).  `field` is the treatment of fields and `skips` says which treatment skips the field. -/
inductive DerivePlan {Pa F : Type} (pp : String → Option Pa) (field : List (Arg Pa) → F → Prop) (skips : F → Bool)
    (noConv : List (Arg Pa) → Prop) : List SynAttr → Data → Plan Pa F → Prop
  | struct {attrs : List SynAttr} {as : List (Arg Pa)} {c p n : Nat} {fs : List (List SynAttr)} {ps : List F} :
      Documented pp .struct attrs as → noConv as → ¬ kinds as .transparent → IdentOf as c p n →
      List.Forall₂ (FieldPlan pp field) fs ps → DerivePlan pp field skips noConv attrs (.struct fs) (.struct (idOctets c p n) ps)
  | transparent {attrs : List SynAttr} {as : List (Arg Pa)} {fs : List (List SynAttr)} {l r : List F} {f : F} :
      Documented pp .struct attrs as → kinds as .transparent → (∀ x ∈ l, skips x = true) → skips f = false →
      (∀ x ∈ r, skips x = true) → List.Forall₂ (FieldPlan pp field) fs (l ++ f :: r) →
      DerivePlan pp field skips noConv attrs (.struct fs) (.transparent (l ++ f :: r))
  | enum {attrs : List SynAttr} {as : List (Arg Pa)} {vs : List (List SynAttr × List (List SynAttr))}
      {ps : List (Bytes × List F)} :
      Documented pp .enum attrs as → noConv as → List.Forall₂ (VariantPlan pp field) vs ps →
      DerivePlan pp field skips noConv attrs (.enum vs) (.enum ps)

end Bsn1.Spec
