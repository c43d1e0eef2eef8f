import Verif.Model.Names
/-!
# Names in the code that the derive macros generate

Which names the generated code declares, and where it mentions paths: those of the attributes, which are copied from the declaration of the user, and
names of the prelude.  Simplified throughout: paths that begin with `::` (`::std::…`, `::bsn1_serde::…`, `::anyhow::…`), `self` and `Self`, primitive types and
macros of the standard library are left out; so are expressions that mention no other path.  The `where` clause and the bounds of the declaration stand in front of the methods
(`implHeader` in `Model/Names`), where nothing of the macro is declared.
-/

namespace Bsn1

/-- A `syn::Path` as far as the search for its first segment goes, bsn1_serde_macros/src/attribute.rs:430-450. -/
structure UPath where
  /-- It begins with `::`. -/
  global : Bool
  /-- The first segment. -/
  head : String
  /-- There are more segments. -/
  more : Bool
deriving DecidableEq

/-- A path in the generated code, bsn1_serde_macros/src/data_container.rs:183-233 and others. -/
structure Mention where
  path : UPath
  /-- It stands for a value, such as a function; otherwise for a type. -/
  value : Bool
  /-- It comes from an attribute; otherwise it is meant to be a name of the prelude. -/
  user : Bool
deriving DecidableEq

/-- A statement of the generated code, bsn1_serde_macros/src/data_container.rs:196-199. -/
inductive GStmt where
  /-- `let x = …;` -/
  | bind (x : String) (mentions : List Mention)
  | eval (mentions : List Mention)

/-- An arm of a `match`, or the whole body, bsn1_serde_macros/src/ser/mod.rs:205-207: the variables of the pattern and blocks one after another. -/
structure GArm where
  vars : List String
  blocks : List (List GStmt)

/-- A method of a generated `impl`, bsn1_serde_macros/src/ser/mod.rs:151-167. -/
structure GMethod where
  name : String
  /-- the generic parameters it declares -/
  generics : List String
  args : List String
  arms : List GArm

/-- The attributes of a field that matter for `derive(Serialize)`, bsn1_serde_macros/src/data_container.rs:191-207. -/
inductive SerAttr where
  | skip
  | into (ty : UPath)
  | to (path : UPath)
  | plain

/-- `quote! { Some(..) }`, bsn1_serde_macros/src/data_container.rs:297. -/
def someMention : Mention := ⟨⟨false, "Some", false⟩, true, false⟩

/-- `field_builders` and `write_fields` for one field, bsn1_serde_macros/src/data_container.rs:186-226. -/
def SerAttr.writeField : SerAttr → List GStmt
  | .skip => []
  | .into ty => [.bind "bsn1_macro_1711342495_field_ref" [⟨ty, false, true⟩], .bind "bsn1_macro_1711342495_field_ref" [], .eval []]
  | .to path => [.bind "bsn1_macro_1711342495_field_ref" [⟨path, true, true⟩], .bind "bsn1_macro_1711342495_field_ref" [], .eval []]
  | .plain => [.bind "bsn1_macro_1711342495_field_ref" [], .eval []]

/-- `DataContainer::write_der_contents`, bsn1_serde_macros/src/data_container.rs:183-232: a block for each field. -/
def writeDerContentsNames (fields : List SerAttr) : List (List GStmt) := fields.map SerAttr.writeField

/-- Whether a field has a conversion, bsn1_serde_macros/src/data_container.rs:272. -/
def SerAttr.converts : SerAttr → Bool
  | .into _ => true
  | .to _ => true
  | _ => false

/-- `DataContainer::der_contents_len`, bsn1_serde_macros/src/data_container.rs:264-316.  Simplified: the variables of the `if let` are left out, nothing
of the user is mentioned where they are in scope. -/
def derContentsLenNames (fields : List SerAttr) : List (List GStmt) :=
  if fields.any SerAttr.converts then []
  else [.bind "bsn1_macro_1704043457_ret" []] :: fields.map fun
    | .skip => []
    | _ => [.eval [someMention]]

/-- Whether a field is serialized, bsn1_serde_macros/src/data_container.rs:796. -/
def SerAttr.counts : SerAttr → Bool
  | .skip => false
  | _ => true

/-- `transparent_field_attribute`, bsn1_serde_macros/src/data_container.rs:792-810: the one field that is not skipped; none is an error. -/
def transparentField (fields : List SerAttr) : Option SerAttr :=
  match fields.filter SerAttr.counts with
  | [f] => some f
  | _ => none

/-- `write_id_transparent` and `write_der_contents_transparent`, bsn1_serde_macros/src/data_container.rs:118-145 and 234-261.  Simplified: the
numbers in the names of the variables differ. -/
def SerAttr.transparent : SerAttr → List GStmt
  | .into ty => [.bind "bsn1_macro_1704044765_this" [], .bind "bsn1_macro_1704044765_this" [⟨ty, false, true⟩], .eval []]
  | .to path => [.bind "bsn1_macro_1706411411_this" [⟨path, true, true⟩], .eval []]
  | _ => [.eval []]

/-- The four methods of `Serialize`, bsn1_serde_macros/src/ser/mod.rs:151-167 and 203-227. -/
def serMethods (writeId writeDerContents idLen derContentsLen : List GArm) : List GMethod :=
  [⟨"write_id", ["W"], ["buffer"], writeId⟩, ⟨"write_der_contents", ["W"], ["buffer"], writeDerContents⟩,
    ⟨"id_len", [], [], idLen⟩, ⟨"der_contents_len", [], [], derContentsLen⟩]

/-- `do_into_serialize`, bsn1_serde_macros/src/ser/mod.rs:59-89. -/
def serIntoNames (ty : UPath) : List GMethod :=
  let body : List GArm := [⟨[], [[.bind "this" [], .bind "this" [⟨ty, false, true⟩], .eval []]]⟩]
  serMethods body body [⟨[], []⟩] [⟨[], []⟩]

/-- `do_to_serialize`, bsn1_serde_macros/src/ser/mod.rs:92-118. -/
def serToNames (path : UPath) : List GMethod :=
  let body : List GArm := [⟨[], [[.bind "this" [⟨path, true, true⟩], .eval []]]⟩]
  serMethods body body [⟨[], []⟩] [⟨[], []⟩]

/-- `do_serialize_struct`, bsn1_serde_macros/src/ser/mod.rs:121-168.  `none` is a compile error of `transparent`. -/
def serStructNames (transparent : Bool) (fields : List SerAttr) : Option (List GMethod) :=
  if transparent then do
    let f ← transparentField fields
    let body : List GArm := [⟨[], [f.transparent]⟩]
    return serMethods body body [⟨[], []⟩] [⟨[], []⟩]
  else
    some (serMethods [⟨[], []⟩] [⟨[], writeDerContentsNames fields⟩] [⟨[], []⟩] [⟨[], derContentsLenNames fields⟩])

/-- `do_serialize_enum`, bsn1_serde_macros/src/ser/mod.rs:171-228, for variants with the variables of their patterns. -/
def serEnumNames (variants : List (List String × List SerAttr)) : List GMethod :=
  serMethods (variants.map fun v => ⟨v.1, []⟩) (variants.map fun v => ⟨v.1, writeDerContentsNames v.2⟩)
    (variants.map fun v => ⟨v.1, []⟩) (variants.map fun v => ⟨v.1, derContentsLenNames v.2⟩)

/-- The attributes of a field that matter for `derive(Deserialize)`, bsn1_serde_macros/src/data_container.rs:380-403. -/
inductive DeAttr where
  | skip (dflt : Option UPath)
  | from (ty : UPath)
  | tryFrom (ty : UPath)
  | plain

/-- `Attribute::default_path`, bsn1_serde_macros/src/attribute.rs:430-435. -/
def defaultMention : Option UPath → Mention
  | some path => ⟨path, true, true⟩
  | none => ⟨⟨false, "Default", true⟩, true, false⟩

/-- What is mentioned in the constructor of a field, bsn1_serde_macros/src/data_container.rs:380-403, 482-505, 565-588 and 649-672.  The variables of the block
that parses are not in scope there. -/
def DeAttr.mentions : DeAttr → List Mention
  | .skip dflt => [defaultMention dflt]
  | .from ty => [⟨ty, false, true⟩]
  | .tryFrom ty => [⟨ty, false, true⟩]
  | .plain => []

/-- How the fields of a struct or a variant are written, bsn1_serde_macros/src/data_container.rs:405-412. -/
inductive CtorStyle where
  | named
  | unnamed
  | unit
deriving DecidableEq

/-- Whether a path stands for a function or a constant when the fields are written so, bsn1_serde_macros/src/data_container.rs:405-412. -/
def CtorStyle.isValue : CtorStyle → Bool
  | .named => false
  | _ => true

/-- `DataContainer::ty` in front of the fields, bsn1_serde_macros/src/data_container.rs:405-412 and 701-711: the name of a struct, or that of an enum followed by `::` and the
variant.  With braces it is a type, otherwise a function or a constant. -/
def ctorMention (name : String) (variant : Bool) (style : CtorStyle) : Mention :=
  ⟨⟨false, name, variant⟩, style.isValue, true⟩

/-- `from_ber_contents` and `from_der_contents`, bsn1_serde_macros/src/data_container.rs:419-443 and 602-612, for what `ctorMention` gives.  Simplified: the
variables of the first statement, which mentions nothing of the user, are left out. -/
def fromContentsNames (ctor : Mention) (fields : List DeAttr) : List GStmt :=
  [.bind "bsn1_macro_1704080283_contents_bytes" [], .bind "bsn1_macro_1704080283_contents_bytes" [],
    .bind "bsn1_macro_1704080283_ret" (ctor :: fields.flatMap DeAttr.mentions), .eval []]

/-- The two methods of `Deserialize`, bsn1_serde_macros/src/de/mod.rs:161-170 and 213-231. -/
def deMethods (arms : List GArm) : List GMethod :=
  [⟨"from_ber", [], ["id", "length", "contents"], arms⟩, ⟨"from_der", [], ["id", "contents"], arms⟩]

/-- `do_from_deserialize` and `do_try_from_deserialize`, bsn1_serde_macros/src/de/mod.rs:61-83 and 86-115. -/
def deFromNames (ty : UPath) : List GMethod := deMethods [⟨[], [[.bind "val" [⟨ty, false, true⟩], .eval []]]⟩]

/-- `do_deserialize_struct`, bsn1_serde_macros/src/de/mod.rs:118-171, and `from_ber_transparent` and `from_der_transparent`,
bsn1_serde_macros/src/data_container.rs:447-525 and 616-692.  Simplified: that `transparent` needs one field that is not skipped is left to `Model/Derive`. -/
def deStructNames (transparent : Bool) (name : String) (style : CtorStyle) (fields : List DeAttr) : List GMethod :=
  let ctor := ctorMention name false style
  if transparent then deMethods [⟨[], [[.eval (ctor :: fields.flatMap DeAttr.mentions)]]⟩]
  else deMethods [⟨[], [fromContentsNames ctor fields]⟩]

/-- `do_deserialize_enum`, bsn1_serde_macros/src/de/mod.rs:174-232. -/
def deEnumNames (name : String) (variants : List (CtorStyle × List DeAttr)) : List GMethod :=
  deMethods (variants.map fun v => ⟨[], [fromContentsNames (ctorMention name true v.1) v.2]⟩)

end Bsn1
