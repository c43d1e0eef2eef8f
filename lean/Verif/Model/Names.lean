import Verif.Model.Prim
/-!
# The names in generated code: bsn1_serde_macros/src/data_container.rs, generics.rs

The model is of the generator.  A name is the list of its characters.
-/

namespace Bsn1

/-- Which characters may begin and which may continue an identifier: the Unicode tables proc_macro2 uses under
`format_ident!`, bsn1_serde_macros/src/data_container.rs:741.  They are not in /repo and are a parameter here. -/
structure IdentChars where
  start : Char → Bool
  cont : Char → Bool

/-- The name of a field as it stands in the source: the tokens `field_idents` returns,
bsn1_serde_macros/src/data_container.rs:721-731. -/
inductive FieldIdent where
  /-- `name` -/
  | plain (name : List Char)
  /-- `r#name` -/
  | raw (name : List Char)
  /-- the `i`-th field of a tuple -/
  | index (i : Nat)
deriving DecidableEq

/-- `ident.to_string()`, bsn1_serde_macros/src/data_container.rs:741.  The text of a raw identifier keeps its `r#`. -/
def FieldIdent.text : FieldIdent → List Char
  | .plain name => name
  | .raw name => 'r' :: '#' :: name
  | .index i => Nat.toDigits 10 i

/-- `Ident::new` of proc_macro2, called by `format_ident!` at bsn1_serde_macros/src/data_container.rs:741: panics unless
the text is an identifier.  Simplified: not in /repo, modelled from its documentation. -/
def identNew (ic : IdentChars) (text : List Char) : Res (List Char) :=
  match text with
  | [] => .panic
  | c :: r => if (ic.start c || c == '_') && r.all ic.cont then .ok text else .panic

/-- `format_ident!` of quote, bsn1_serde_macros/src/data_container.rs:741: a text that begins with `r#` makes a raw
identifier.  Simplified: not in /repo, modelled from its documentation. -/
def formatIdent (ic : IdentChars) (text : List Char) : Res (List Char) :=
  match text with
  | 'r' :: '#' :: r => do
    let i ← identNew ic r
    return 'r' :: '#' :: i
  | text => identNew ic text

/-- `syn::Fields` as far as the names go, bsn1_serde_macros/src/data_container.rs:713-718. -/
inductive FieldNames where
  | named (names : List FieldIdent)
  | unnamed (n : Nat)
  | unit

/-- `DataContainer::field_idents`, bsn1_serde_macros/src/data_container.rs:720-732. -/
def fieldIdents : FieldNames → List FieldIdent
  | .named names => names
  | .unnamed n => (List.range n).map .index
  | .unit => []

/-- `PREFIX` with the underscore of the format string, bsn1_serde_macros/src/data_container.rs:737 and 741. -/
def varPrefix : List Char := "bsn1_macro_field_1701146321_".toList

/-- The iterator chain `into_iter().map(…).collect()`, bsn1_serde_macros/src/data_container.rs:738-743; a panic stops it. -/
def resMap {α β : Type} (f : α → Res β) : List α → Res (List β)
  | [] => .ok []
  | a :: r => do
    let b ← f a
    let bs ← resMap f r
    return b :: bs

/-- `DataContainer::field_vars` of a variant, bsn1_serde_macros/src/data_container.rs:736-744: the names of the variables. -/
def fieldVars (ic : IdentChars) (fields : FieldNames) : Res (List (List Char)) :=
  resMap (fun ident => formatIdent ic (varPrefix ++ ident.text)) (fieldIdents fields)

/-- `DataContainer::field_vars` of a struct, bsn1_serde_macros/src/data_container.rs:745-749: the fields in the expressions `&self.field`. -/
def fieldVarsStruct (fields : FieldNames) : List FieldIdent := fieldIdents fields

/-- The pattern of an arm, bsn1_serde_macros/src/data_container.rs:97-99, without the name of the variant. -/
inductive Pattern where
  | named (binds : List (FieldIdent × List Char))
  | unnamed (binds : List (List Char))
  | unit

/-- `DataContainer::to_match_arm`, bsn1_serde_macros/src/data_container.rs:89-106, of a variant (for a
struct, which no caller passes, it panics). -/
def toMatchArm (ic : IdentChars) (fields : FieldNames) : Res Pattern := do
  let idents := fieldIdents fields
  let vars ← fieldVars ic fields
  match fields with
  | .named _ => return .named (idents.zip vars)
  | .unnamed _ => return .unnamed vars
  | .unit => return .unit

/-- `syn::GenericParam`, bsn1_serde_macros/src/generics.rs:33-45.  Bounds, types and defaults are kept as they stand in the source. -/
inductive GenericParam where
  /-- `'name: bounds` -/
  | lifetime (name bounds : String)
  /-- `name: bounds = default` -/
  | type (name bounds : String) (dflt : Option String)
  /-- `const name: ty = default` -/
  | const (name ty : String) (dflt : Option String)

/-- `Generics::ident_bounds`, bsn1_serde_macros/src/generics.rs:29-49: the parameters of the `impl`; no list at all if there are none. -/
def identBounds (params : List GenericParam) : Option (List GenericParam) :=
  if params.isEmpty then none
  else some (params.map fun
    | .lifetime name bounds => .lifetime name bounds
    | .type name bounds _ => .type name bounds none
    | .const name ty _ => .const name ty none)

/-- The header of a generated `impl`, bsn1_serde_macros/src/ser/mod.rs:51 and bsn1_serde_macros/src/de/mod.rs:53: `impl<params> … for Name<args>`. -/
structure ImplHeader where
  params : List GenericParam
  args : List String

/-- `Generics::idents`, bsn1_serde_macros/src/generics.rs:51-62: the arguments of the type. -/
def genericIdents (params : List GenericParam) : Option (List String) :=
  if params.isEmpty then none
  else some (params.map fun
    | .lifetime name _ => name
    | .type name _ _ => name
    | .const name _ _ => name)

/-- The header as `do_serialize` and `do_deserialize` write it, bsn1_serde_macros/src/ser/mod.rs:30-31 and 51, bsn1_serde_macros/src/de/mod.rs:30-31 and 53.
Simplified: no list is the empty list; the where clause is copied as it stands and left out here. -/
def implHeader (params : List GenericParam) : ImplHeader :=
  ⟨(identBounds params).getD [], (genericIdents params).getD []⟩

end Bsn1
