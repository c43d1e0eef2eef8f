import Verif.Model.Prim
/-!
# Attributes of the derive macros: bsn1_serde_macros/src/attribute.rs

A compile error (`Err(syn::Error)`) is `none`; the message and position are not modelled.  Paths (`syn::Path`) are of an
arbitrary type `Pa`, and `syn::parse_str::<syn::Path>` is a parameter `pp : String → Option Pa`.
-/

namespace Bsn1

/-- `proc_macro2::TokenTree`.  An identifier, a punctuation character, a literal as written in the source, or a group in
delimiters, whose contents are never looked at.
Matched at bsn1_serde_macros/src/attribute.rs:90-206.  Simplified: the crate proc_macro2 is not in /repo, spans are left out. -/
inductive Tok where
  | ident (s : String)
  | punct (c : Char)
  | literal (s : String)
  | group
  deriving DecidableEq, Repr

/-- `struct Attribute`, bsn1_serde_macros/src/attribute.rs:25-54.  `AttrArgument` without the identifier token, which is for messages. -/
structure Attribute (Pa : Type) where
  id_ : Option UInt8 := none
  tagClass : Option UInt8 := none
  tagPc : Option UInt8 := none
  tagNum : Option Nat := none
  skipSerializing : Option Unit := none
  skipDeserializing : Option Unit := none
  default_ : Option Pa := none
  skip : Option Unit := none
  into : Option Pa := none
  from_ : Option Pa := none
  to : Option Pa := none
  tryFrom : Option Pa := none
  transparent : Option Unit := none

namespace Attribute

variable {Pa : Type}

/-- `take_value`, bsn1_serde_macros/src/attribute.rs:466-480, with the two calls of `it.next()`; also returns the remaining tokens. -/
def takeValue : List Tok → Option (Tok × List Tok)
  | .punct '=' :: v :: rest => some (v, rest)
  | _ => none

/-- The loop over `VALUES`, bsn1_serde_macros/src/attribute.rs:507-511, 533-537, 554-558. -/
def lookup (values : List (String × UInt8)) (ident : String) : Option UInt8 :=
  match values with
  | [] => none
  | (s, v) :: rest => if ident = s then some v else lookup rest ident

/-- `VALUES`, bsn1_serde_macros/src/attribute.rs:485-496. -/
def idValues : List (String × UInt8) :=
  [("EOC", 0x00), ("Boolean", 0x01), ("Integer", 0x02), ("BitString", 0x03), ("OctetString", 0x04), ("Null", 0x05),
    ("Real", 0x09), ("UTF8String", 0x0c), ("Sequence", 0x30), ("Set", 0x31)]

/-- `VALUES`, bsn1_serde_macros/src/attribute.rs:517-522. -/
def tagClassValues : List (String × UInt8) :=
  [("UNIVERSAL", 0x00), ("APPLICATION", 0x40), ("CONTEXT_SPECIFIC", 0x80), ("PRIVATE", 0xc0)]

/-- `VALUES`, bsn1_serde_macros/src/attribute.rs:543. -/
def tagPcValues : List (String × UInt8) := [("PRIMITIVE", 0x00), ("CONSTRUCTED", 0x20)]

/-- `parse_id_value`, bsn1_serde_macros/src/attribute.rs:482-514. -/
def parseIdValue : Tok → Option UInt8
  | .ident s => lookup idValues s
  | _ => none

/-- `parse_tag_class_value`, bsn1_serde_macros/src/attribute.rs:516-540. -/
def parseTagClassValue : Tok → Option UInt8
  | .ident s => lookup tagClassValues s
  | _ => none

/-- `parse_tag_pc_value`, bsn1_serde_macros/src/attribute.rs:542-561. -/
def parseTagPcValue : Tok → Option UInt8
  | .ident s => lookup tagPcValues s
  | _ => none

/-- `char::to_digit` of the standard library, for a radix up to 36.
Reached from bsn1_serde_macros/src/attribute.rs:585; not in /repo, modelled from its documentation. -/
def toDigit (radix : Nat) (c : Char) : Option Nat :=
  let d :=
    if '0' ≤ c ∧ c ≤ '9' then some (c.toNat - '0'.toNat)
    else if 'a' ≤ c ∧ c ≤ 'z' then some (c.toNat - 'a'.toNat + 10)
    else if 'A' ≤ c ∧ c ≤ 'Z' then some (c.toNat - 'A'.toNat + 10)
    else none
  d.filter (· < radix)

/-- The loop of `u128::from_str_radix`: `checked_mul`, then `checked_add`.  Reached from bsn1_serde_macros/src/attribute.rs:585; not in /repo. -/
def fromStrRadixLoop (radix : Nat) : List Char → Nat → Option Nat
  | [], result => some result
  | c :: rest, result =>
    match toDigit radix c with
    | none => none
    | some d =>
      if result * radix + d < 2 ^ 128 then fromStrRadixLoop radix rest (result * radix + d) else none

/-- `u128::from_str_radix` of the standard library: an empty string and a single sign are errors, a leading `+` is
skipped, `-` is not a digit.  Called at bsn1_serde_macros/src/attribute.rs:585; not in /repo. -/
def fromStrRadix (s : List Char) (radix : Nat) : Option Nat :=
  match s with
  | [] => none
  | ['+'] => none
  | '+' :: digits => fromStrRadixLoop radix digits 0
  | digits => fromStrRadixLoop radix digits 0

/-- `PREFIXES`, bsn1_serde_macros/src/attribute.rs:573-581. -/
def prefixes : List (List Char × Nat) :=
  [(['0', 'b'], 2), (['0', 'B'], 2), (['0', 'o'], 8), (['0', 'O'], 8), (['0', 'x'], 16), (['0', 'X'], 16), ([], 10)]

/-- The loop over `PREFIXES`, bsn1_serde_macros/src/attribute.rs:582-591.  The end of the list is `unreachable!()`; `none` stands for it. -/
def parsePrefixed (val : List Char) : List (List Char × Nat) → Option Nat
  | [] => none
  | (p, radix) :: rest =>
    if p.isPrefixOf val then fromStrRadix (val.drop p.length) radix else parsePrefixed val rest

/-- `parse_tag_num_value`, bsn1_serde_macros/src/attribute.rs:563-598. -/
def parseTagNumValue : Tok → Option Nat
  | .literal s =>
    let val := s.toList
    let val := if ['+'].isPrefixOf val then val.drop 1 else val
    parsePrefixed val prefixes
  | _ => none

/-- `str::trim_matches('"')` of the standard library.  Called at bsn1_serde_macros/src/attribute.rs:604; not in /repo. -/
def trimQuotes (s : List Char) : List Char :=
  ((s.dropWhile (· = '"')).reverse.dropWhile (· = '"')).reverse

/-- `parse_path`, bsn1_serde_macros/src/attribute.rs:600-612. -/
def parsePath (pp : String → Option Pa) : Tok → Option Pa
  | .literal s => pp (String.ofList (trimQuotes s.toList))
  | _ => none

/-- One turn of the loop of `parse`, bsn1_serde_macros/src/attribute.rs:90-207, for the token `tt` and the tokens after it.  Returns the tokens
that remain. -/
def step (pp : String → Option Pa) (ret : Attribute Pa) (tt : Tok) (it : List Tok) : Option (Attribute Pa × List Tok) :=
  match tt with
  | .ident "id" =>
    if ret.id_.isSome then none
    else do
      let (value, it) ← takeValue it
      let val ← parseIdValue value
      return ({ ret with id_ := some val }, it)
  | .ident "tag_class" =>
    if ret.tagClass.isSome then none
    else do
      let (value, it) ← takeValue it
      let val ← parseTagClassValue value
      return ({ ret with tagClass := some val }, it)
  | .ident "tag_pc" =>
    if ret.tagPc.isSome then none
    else do
      let (value, it) ← takeValue it
      let val ← parseTagPcValue value
      return ({ ret with tagPc := some val }, it)
  | .ident "tag_num" =>
    if ret.tagNum.isSome then none
    else do
      let (value, it) ← takeValue it
      let val ← parseTagNumValue value
      return ({ ret with tagNum := some val }, it)
  | .ident "skip_serializing" =>
    if ret.skipSerializing.isSome then none else some ({ ret with skipSerializing := some () }, it)
  | .ident "skip_deserializing" =>
    if ret.skipDeserializing.isSome then none else some ({ ret with skipDeserializing := some () }, it)
  | .ident "default" =>
    if ret.default_.isSome then none
    else do
      let (value, it) ← takeValue it
      let val ← parsePath pp value
      return ({ ret with default_ := some val }, it)
  | .ident "skip" =>
    if ret.skip.isSome then none else some ({ ret with skip := some () }, it)
  | .ident "into" =>
    if ret.into.isSome then none
    else do
      let (value, it) ← takeValue it
      let val ← parsePath pp value
      return ({ ret with into := some val }, it)
  | .ident "from" =>
    if ret.from_.isSome then none
    else do
      let (value, it) ← takeValue it
      let val ← parsePath pp value
      return ({ ret with from_ := some val }, it)
  | .ident "to" =>
    if ret.to.isSome then none
    else do
      let (value, it) ← takeValue it
      let val ← parsePath pp value
      return ({ ret with to := some val }, it)
  | .ident "try_from" =>
    if ret.tryFrom.isSome then none
    else do
      let (value, it) ← takeValue it
      let val ← parsePath pp value
      return ({ ret with tryFrom := some val }, it)
  | .ident "transparent" =>
    if ret.transparent.isSome then none else some ({ ret with transparent := some () }, it)
  | .punct ',' => some (ret, it)
  | _ => none

/-- The loop of `parse`, bsn1_serde_macros/src/attribute.rs:89-208.  Every turn takes at least one token, so `fuel` equal to the number of tokens is
enough. -/
def parseLoop (pp : String → Option Pa) : (fuel : Nat) → Attribute Pa → List Tok → Option (Attribute Pa)
  | _, ret, [] => some ret
  | 0, _, _ => none
  | fuel + 1, ret, tt :: it =>
    match step pp ret tt it with
    | none => none
    | some (ret, it) => parseLoop pp fuel ret it

/-- `Attribute::parse` for the tokens of a `bsn1_serde` list, bsn1_serde_macros/src/attribute.rs:79-211. -/
def parse (pp : String → Option Pa) (tokens : List Tok) : Option (Attribute Pa) := parseLoop pp tokens.length {} tokens

/-- `loop_exclusive!`, bsn1_serde_macros/src/attribute.rs:230-242, with `exclusive!`, 214-228: whether it passes, given which arguments are
there. -/
def loopExclusive (a b : List Bool) : Bool := a.all fun x => b.all fun y => !(x && y)

/-- The identifier arguments, for `loop_exclusive!`.  bsn1_serde_macros/src/attribute.rs:244-251, 260. -/
def idArgs (a : Attribute Pa) : List Bool := [a.id_.isSome, a.tagClass.isSome, a.tagPc.isSome, a.tagNum.isSome]
/-- The skip arguments, for `loop_exclusive!`.  bsn1_serde_macros/src/attribute.rs:244-247, 252-255, 261-264. -/
def skipArgs (a : Attribute Pa) : List Bool :=
  [a.skipSerializing.isSome, a.skipDeserializing.isSome, a.skip.isSome, a.default_.isSome]
/-- The conversion arguments, for `loop_exclusive!`.  bsn1_serde_macros/src/attribute.rs:248-255, 265. -/
def convArgs (a : Attribute Pa) : List Bool := [a.into.isSome, a.from_.isSome, a.to.isSome, a.tryFrom.isSome]

/-- `sanitize`, bsn1_serde_macros/src/attribute.rs:213-268: whether it passes. -/
def sanitize (a : Attribute Pa) : Bool :=
  loopExclusive a.idArgs a.skipArgs &&
  loopExclusive a.idArgs a.convArgs &&
  loopExclusive a.skipArgs a.convArgs &&
  loopExclusive [a.from_.isSome] [a.tryFrom.isSome] &&
  loopExclusive [a.into.isSome] [a.to.isSome] &&
  loopExclusive a.idArgs [a.transparent.isSome] &&
  loopExclusive a.skipArgs [a.transparent.isSome] &&
  loopExclusive a.convArgs [a.transparent.isSome]

/-- `not_allowed!`: whether it passes for these arguments.  bsn1_serde_macros/src/attribute.rs:273-285, 300-309, 322-331, 349-358. -/
def notAllowed (l : List Bool) : Bool := l.all (!·)

/-- `sanitize_as_container`, bsn1_serde_macros/src/attribute.rs:272-293. -/
def sanitizeAsContainer (a : Attribute Pa) : Bool :=
  notAllowed [a.skipSerializing.isSome, a.skipDeserializing.isSome, a.skip.isSome, a.default_.isSome] && a.sanitize

/-- `sanitize_as_struct`, bsn1_serde_macros/src/attribute.rs:295-297. -/
def sanitizeAsStruct (a : Attribute Pa) : Bool := a.sanitizeAsContainer

/-- `sanitize_as_enum`, bsn1_serde_macros/src/attribute.rs:299-319. -/
def sanitizeAsEnum (a : Attribute Pa) : Bool :=
  notAllowed [a.id_.isSome, a.tagClass.isSome, a.tagPc.isSome, a.tagNum.isSome] &&
  notAllowed [a.transparent.isSome] && a.sanitizeAsContainer

/-- `sanitize_as_variant`, bsn1_serde_macros/src/attribute.rs:321-346. -/
def sanitizeAsVariant (a : Attribute Pa) : Bool :=
  notAllowed [a.skipSerializing.isSome, a.skipDeserializing.isSome, a.skip.isSome, a.default_.isSome] &&
  notAllowed [a.into.isSome, a.from_.isSome, a.to.isSome, a.tryFrom.isSome] &&
  notAllowed [a.transparent.isSome] && a.sanitize

/-- `sanitize_as_field`, bsn1_serde_macros/src/attribute.rs:348-368. -/
def sanitizeAsField (a : Attribute Pa) : Bool :=
  notAllowed [a.id_.isSome, a.tagClass.isSome, a.tagPc.isSome, a.tagNum.isSome] &&
  notAllowed [a.transparent.isSome] && a.sanitize

/-- The loop pushing the digits of the tag number, bsn1_serde_macros/src/attribute.rs:406-409, on the octets after the first.  `fuel` 19 is enough
for a `u128`. -/
def pushDigits : (fuel : Nat) → (tagNum : Nat) → Bytes → Bytes
  | 0, _, octets => octets
  | fuel + 1, tagNum, octets =>
    if 0 < tagNum then pushDigits fuel (tagNum / 0x80) (octets ++ [UInt8.ofNat (tagNum % 0x80)]) else octets

/-- `for i in 2..octets.len() { octets[i] |= 0x80; }`, bsn1_serde_macros/src/attribute.rs:411-413, on the octets after the first. -/
def markMore : Bytes → Bytes
  | [] => []
  | d :: rest => d :: rest.map (· ||| 0x80)

/-- `id`, bsn1_serde_macros/src/attribute.rs:370-420.  The first octet and the octets after it are kept apart. -/
def id (a : Attribute Pa) (defaultId : UInt8) : Option Bytes :=
  if a.id_.isNone && a.tagClass.isNone && a.tagPc.isNone && a.tagNum.isNone then none
  else
    let first := match a.id_ with
      | some v => v
      | none => defaultId
    let first := match a.tagClass with
      | some v => (first &&& 0x3f) ||| v
      | none => first
    let first := match a.tagPc with
      | some v => (first &&& 0xdf) ||| v
      | none => first
    match a.tagNum with
    | some n =>
      if n < 0x1f then some [(first &&& 0xe0) ||| UInt8.ofNat n]
      else some ((first ||| 0x1f) :: (markMore (pushDigits 19 n [])).reverse)
    | none => some [first]

/-- `id_slice`, bsn1_serde_macros/src/data_container.rs:173-180. -/
def idSlice (a : Attribute Pa) : Bytes :=
  match a.id 0x30 with
  | some id => id
  | none => [0x30]

/-- `is_skip_serializing`, bsn1_serde_macros/src/attribute.rs:422-424. -/
def isSkipSerializing (a : Attribute Pa) : Bool := a.skip.isSome || a.skipSerializing.isSome

/-- `is_skip_deserializing`, bsn1_serde_macros/src/attribute.rs:426-428. -/
def isSkipDeserializing (a : Attribute Pa) : Bool := a.skip.isSome || a.skipDeserializing.isSome

end Attribute

/-- `syn::Attribute`: a list `#[bsn1_serde(..)]` with its tokens, or any other attribute (bsn1_serde_macros/src/attribute.rs:80-85; also
`#[bsn1_serde]` and `#[bsn1_serde = ..]`). -/
inductive SynAttr where
  | bsn1Serde (tokens : List Tok)
  | other

/-- The loop of `Attribute::try_from`, bsn1_serde_macros/src/attribute.rs:62-69. -/
def Attribute.tryFromLoop {Pa : Type} (pp : String → Option Pa) :
    List SynAttr → Option (Attribute Pa) → Option (Option (Attribute Pa))
  | [], ret => some ret
  | .other :: rest, ret => tryFromLoop pp rest ret
  | .bsn1Serde tokens :: rest, ret =>
    match Attribute.parse pp tokens with
    | none => none
    | some a =>
      match ret with
      | none => tryFromLoop pp rest (some a)
      | some _ => none

/-- `Attribute::try_from`, bsn1_serde_macros/src/attribute.rs:59-75. -/
def Attribute.tryFromAttrs {Pa : Type} (pp : String → Option Pa) (attrs : List SynAttr) : Option (Attribute Pa) :=
  match Attribute.tryFromLoop pp attrs none with
  | none => none
  | some ret =>
    match ret with
    | some a => if a.sanitize then some a else none
    | none => some {}

/-- `syn::Data` with the attributes of the fields and variants.
Matched at bsn1_serde_macros/src/ser/mod.rs:39-45 and bsn1_serde_macros/src/de/mod.rs:39-47.  Simplified: names and types of fields are left out. -/
inductive Data where
  | struct (fields : List (List SynAttr))
  | enum (variants : List (List SynAttr × List (List SynAttr)))
  | union

/-- What is generated to serialize a field, bsn1_serde_macros/src/data_container.rs:191-207 (and 125-144 if transparent). -/
inductive SerFieldPlan (Pa : Type) where
  | skip
  | into (ty : Pa)
  | to (path : Pa)
  | plain
  deriving DecidableEq

/-- What is generated to deserialize a field, bsn1_serde_macros/src/data_container.rs:380-402 (and 481-506, 565-587, 651-672).  The path of `skip` is
`none` for `Default::default`, bsn1_serde_macros/src/attribute.rs:430-435. -/
inductive DeFieldPlan (Pa : Type) where
  | skip (dflt : Option Pa)
  | from_ (ty : Pa)
  | tryFrom (ty : Pa)
  | plain
  deriving DecidableEq

/-- What is generated for a container, bsn1_serde_macros/src/ser/mod.rs:34-46 and bsn1_serde_macros/src/de/mod.rs:34-48, where `F` is the plan of a field.  `conv1` and
`conv2` are `into` and `to`, or `from` and `try_from`. -/
inductive Plan (Pa F : Type) where
  | conv1 (ty : Pa)
  | conv2 (path : Pa)
  | struct (id : Bytes) (fields : List F)
  | transparent (fields : List F)
  | enum (variants : List (Bytes × List F))

namespace Attribute

variable {Pa : Type}

/-- The branches of bsn1_serde_macros/src/data_container.rs:191-207. -/
def serField (a : Attribute Pa) : SerFieldPlan Pa :=
  if a.isSkipSerializing then .skip
  else match a.into with
    | some ty => .into ty
    | none => match a.to with
      | some path => .to path
      | none => .plain

/-- The branches of bsn1_serde_macros/src/data_container.rs:380-402. -/
def deField (a : Attribute Pa) : DeFieldPlan Pa :=
  if a.isSkipDeserializing then .skip a.default_
  else match a.from_ with
    | some ty => .from_ ty
    | none => match a.tryFrom with
      | some ty => .tryFrom ty
      | none => .plain

/-- The field attributes in `DataContainer::try_from`, bsn1_serde_macros/src/data_container.rs:46-51, 69-74. -/
def fields (pp : String → Option Pa) : List (List SynAttr) → Option (List (Attribute Pa))
  | [] => some []
  | f :: rest =>
    match tryFromAttrs pp f with
    | none => none
    | some a =>
      if a.sanitizeAsField then
        match fields pp rest with
        | none => none
        | some l => some (a :: l)
      else none

/-- `DataContainer::try_from` for each variant, bsn1_serde_macros/src/data_container.rs:62-84 (bsn1_serde_macros/src/ser/mod.rs:184-187, bsn1_serde_macros/src/de/mod.rs:198-199). -/
def variants (pp : String → Option Pa) :
    List (List SynAttr × List (List SynAttr)) → Option (List (Attribute Pa × List (Attribute Pa)))
  | [] => some []
  | (v, fs) :: rest =>
    match tryFromAttrs pp v with
    | none => none
    | some a =>
      if a.sanitizeAsVariant then
        match fields pp fs with
        | none => none
        | some l =>
          match variants pp rest with
          | none => none
          | some r => some ((a, l) :: r)
      else none

/-- The branches of `do_serialize_struct` and `do_deserialize_struct`, bsn1_serde_macros/src/ser/mod.rs:121-168 with bsn1_serde_macros/src/data_container.rs:753-779,
and bsn1_serde_macros/src/de/mod.rs:118-171 with bsn1_serde_macros/src/data_container.rs:517-522.  `skipped` is `is_skip_serializing` or `is_skip_deserializing`. -/
def structPlan {F : Type} (pp : String → Option Pa) (field : Attribute Pa → F) (skipped : Attribute Pa → Bool) (a : Attribute Pa)
    (fs : List (List SynAttr)) : Option (Plan Pa F) :=
  if a.sanitizeAsStruct then
    match fields pp fs with
    | none => none
    | some l =>
      if a.transparent.isSome then
        if (l.filter fun f => !skipped f).length = 1 then some (.transparent (l.map field)) else none
      else some (.struct a.idSlice (l.map field))
  else none

/-- `do_serialize_enum` and `do_deserialize_enum`, bsn1_serde_macros/src/ser/mod.rs:171-228 and bsn1_serde_macros/src/de/mod.rs:174-225. -/
def enumPlan {F : Type} (pp : String → Option Pa) (field : Attribute Pa → F) (a : Attribute Pa)
    (vs : List (List SynAttr × List (List SynAttr))) : Option (Plan Pa F) :=
  if a.sanitizeAsEnum then
    match variants pp vs with
    | none => none
    | some l => some (.enum (l.map fun v => (v.1.idSlice, v.2.map field)))
  else none

/-- `do_serialize`, bsn1_serde_macros/src/ser/mod.rs:23-56, and `do_deserialize`, bsn1_serde_macros/src/de/mod.rs:23-58, which differ in the conversions `conv1` and
`conv2` they look for and in the generated code. -/
def derive {F : Type} (pp : String → Option Pa) (conv1 conv2 : Attribute Pa → Option Pa) (field : Attribute Pa → F)
    (skipped : Attribute Pa → Bool) (attrs : List SynAttr) (data : Data) : Option (Plan Pa F) :=
  match tryFromAttrs pp attrs with
  | none => none
  | some a =>
    if a.sanitizeAsContainer then
      match conv1 a with
      | some ty => some (.conv1 ty)
      | none =>
        match conv2 a with
        | some path => some (.conv2 path)
        | none =>
          match data with
          | .struct fs => structPlan pp field skipped a fs
          | .enum vs => enumPlan pp field a vs
          | .union => none
    else none

/-- `do_serialize`, bsn1_serde_macros/src/ser/mod.rs:23-56. -/
def doSerialize (pp : String → Option Pa) (attrs : List SynAttr) (data : Data) : Option (Plan Pa (SerFieldPlan Pa)) :=
  derive pp Attribute.into Attribute.to serField isSkipSerializing attrs data

/-- `do_deserialize`, bsn1_serde_macros/src/de/mod.rs:23-58. -/
def doDeserialize (pp : String → Option Pa) (attrs : List SynAttr) (data : Data) : Option (Plan Pa (DeFieldPlan Pa)) :=
  derive pp Attribute.from_ Attribute.tryFrom deField isSkipDeserializing attrs data

end Attribute
end Bsn1
