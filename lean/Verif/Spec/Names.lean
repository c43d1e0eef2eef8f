import Verif.Model.Names
/-!
# What a pattern means in Rust

Independent of the generator: when the compiler accepts a pattern, and what it binds.
-/

namespace Bsn1.Spec

open Bsn1

/-- What is known of the compiler's tables: ASCII letters begin identifiers, ASCII letters, digits and the underscore
continue them, what begins one also continues one, and `#` does neither. -/
structure RustChars (ic : IdentChars) : Prop where
  letter : ∀ c : Char, c.isAlpha = true → ic.start c = true
  sub : ∀ c : Char, ic.start c = true → ic.cont c = true
  digit : ∀ c : Char, c.isDigit = true → ic.cont c = true
  underscore : ic.cont '_' = true
  hash : ic.cont '#' = false

/-- An identifier: a letter or underscore and characters that continue one. -/
def IsIdent (ic : IdentChars) (name : List Char) : Prop :=
  ∃ c r, name = c :: r ∧ (ic.start c = true ∨ c = '_') ∧ ∀ d ∈ r, ic.cont d = true

/-- The fields of a variant the compiler accepts: identifiers, pairwise distinct. -/
def Declared (ic : IdentChars) : FieldNames → Prop
  | .named names => names.Nodup ∧ ∀ n ∈ names, ∃ s, (n = .plain s ∨ n = .raw s) ∧ IsIdent ic s
  | .unnamed _ => True
  | .unit => True

/-- The fields have a name written `r#…`. -/
def HasRaw : FieldNames → Prop
  | .named names => ∃ s, .raw s ∈ names
  | .unnamed _ => False
  | .unit => False

/-- A value of a variant: a value for each field. -/
inductive Value (α : Type) where
  | named (fields : List (FieldIdent × α))
  | unnamed (fields : List α)
  | unit

/-- The value is of the variant with these fields, in whatever order they are written. -/
def Value.Of {α : Type} : Value α → FieldNames → Prop
  | .named fields, .named names => (fields.map Prod.fst).Perm names
  | .unnamed fields, .unnamed n => fields.length = n
  | .unit, .unit => True
  | _, _ => False

/-- Field `n` has the value `a`. -/
def Value.Has {α : Type} : Value α → FieldIdent → α → Prop
  | .named fields, n, a => (n, a) ∈ fields
  | .unnamed fields, .index i, a => fields[i]? = some a
  | _, _, _ => False

/-- The variables of a pattern. -/
def vars : Pattern → List (List Char)
  | .named binds => binds.map Prod.snd
  | .unnamed binds => binds
  | .unit => []

/-- The compiler accepts the pattern for the variant: every field is named once and no other, every variable is an
identifier, and no variable is bound twice. -/
def Accepts (ic : IdentChars) (fields : FieldNames) (p : Pattern) : Prop :=
  (vars p).Nodup ∧ (∀ v ∈ vars p, IsIdent ic v) ∧
    match p, fields with
    | .named binds, .named names => (binds.map Prod.fst).Perm names
    | .unnamed binds, .unnamed n => binds.length = n
    | .unit, .unit => True
    | _, _ => False

/-- Matching the value against the pattern gives the variable `v` the value `a`. -/
def Binds {α : Type} (p : Pattern) (value : Value α) (v : List Char) (a : α) : Prop :=
  match p, value with
  | .named binds, .named fields => ∃ n, (n, v) ∈ binds ∧ (n, a) ∈ fields
  | .unnamed binds, .unnamed fields => ∃ i : Nat, binds[i]? = some v ∧ fields[i]? = some a
  | _, _ => False

/-- The parameter `b` of an `impl` stands for the parameter `a` of a declaration: same kind, name and bound or type, and no default
(the compiler rejects defaults in an `impl`). -/
inductive StandsFor : GenericParam → GenericParam → Prop where
  | lifetime (name bounds : String) : StandsFor (.lifetime name bounds) (.lifetime name bounds)
  | type (name bounds : String) (d : Option String) : StandsFor (.type name bounds d) (.type name bounds none)
  | const (name ty : String) (d : Option String) : StandsFor (.const name ty d) (.const name ty none)

/-- The name a parameter declares. -/
inductive HasName : GenericParam → String → Prop where
  | lifetime (name bounds : String) : HasName (.lifetime name bounds) name
  | type (name bounds : String) (d : Option String) : HasName (.type name bounds d) name
  | const (name ty : String) (d : Option String) : HasName (.const name ty d) name

end Bsn1.Spec
