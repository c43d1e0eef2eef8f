import Verif.Model.Scope
/-!
# What a name stands for

The rule of Rust by which the first segment of a path is found: the names that the method declares come first, then those of the user's module and of the declaration, then the prelude.
-/

namespace Bsn1
namespace Spec

/-- The names that the user has in scope where the declaration stands, its own parameters included. -/
structure UserScope where
  types : List String
  values : List String

/-- What the first segment of a path stands for. -/
inductive Meaning where
  /-- a parameter or a variable that the macro declares -/
  | generated
  /-- something of the user -/
  | declared
  /-- something outside: of the prelude, or of a crate named with `::` -/
  | outside
deriving DecidableEq

/-- The first of several segments is looked up among types (and modules); so is a path that stands for a type. -/
def amongTypes (m : Mention) : Bool := m.path.more || !m.value

/-- What the path stands for where the macro has declared the given types and values. -/
def meaning (E : UserScope) (types values : List String) (m : Mention) : Meaning :=
  if m.path.global then .outside
  else if m.path.head ∈ (if amongTypes m then types else values) then .generated
  else if m.path.head ∈ (if amongTypes m then E.types else E.values) then .declared
  else .outside

/-- The path stands for what its author meant: the user never means anything of the macro, the macro means the prelude. -/
def Right (E : UserScope) (types values : List String) (m : Mention) : Prop :=
  if m.user then meaning E types values m ≠ .generated else meaning E types values m = .outside

/-- All paths of a block stand for what was meant.  A variable is in scope after its statement. -/
def RightBlock (E : UserScope) (types : List String) : List String → List GStmt → Prop
  | _, [] => True
  | values, .bind x ms :: r => (∀ m ∈ ms, Right E types values m) ∧ RightBlock E types (x :: values) r
  | values, .eval ms :: r => (∀ m ∈ ms, Right E types values m) ∧ RightBlock E types values r

/-- All paths of the methods stand for what was meant.  The outermost statements of a body count as a block of their own. -/
def RightMethods (E : UserScope) (ms : List GMethod) : Prop :=
  ∀ μ ∈ ms, ∀ a ∈ μ.arms, ∀ b ∈ a.blocks, RightBlock E μ.generics (a.vars ++ μ.args) b

/-- A method may not declare a parameter that its `impl` declares (rustc error E0403). -/
def ParamsDistinct (params : List String) (ms : List GMethod) : Prop := ∀ μ ∈ ms, ∀ g ∈ μ.generics, g ∉ params

end Spec
end Bsn1
