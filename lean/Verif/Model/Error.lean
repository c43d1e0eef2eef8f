import Verif.Model.Prim
/-!
# `bsn1::Error`, bsn1/src/lib.rs:51-190

The type itself is in `Verif.Model.Prim`.
-/

namespace Bsn1

/-- `anyhow::Error::chain` (of the crate `anyhow`, not part of the repository) followed by
`downcast_ref::<bsn1::Error>()` on each item: `some e` where the link is a `bsn1::Error`.
A link made by `anyhow::Error::context` is a private wrapper type of `anyhow`, so the downcast of
the link fails.  bsn1/src/lib.rs:177-178. -/
def Chain.links : Chain → List (Option Error)
  | .err e => [some e]
  | .foreign => [none]
  | .context c => none :: c.links

namespace Error

/-- `PartialEq::eq`, bsn1/src/lib.rs:111-128. -/
def eq (self other : Error) : Bool :=
  match self with
  | .unterminatedBytes => match other with | .unterminatedBytes => true | _ => false
  | .redundantBytes => match other with | .redundantBytes => true | _ => false
  | .overFlow => match other with | .overFlow => true | _ => false
  | .indefiniteLength => match other with | .indefiniteLength => true | _ => false
  | .badEoc => match other with | .badEoc => true | _ => false
  | .extraContentsOctet => match other with | .extraContentsOctet => true | _ => false
  | .unmatchedId => match other with | .unmatchedId => true | _ => false
  | .invalidUtf8 => match other with | .invalidUtf8 => true | _ => false
  | .invalidDerBooleanContents => match other with | .invalidDerBooleanContents => true | _ => false
  | .invalidKeyValuePair => match other with | .invalidKeyValuePair => true | _ => false
  | .io _ => false
  | .anyhow _ => false

/-- `Error::into_anyhow`, bsn1/src/lib.rs:147-152. -/
def intoAnyhow : Error → Chain
  | .anyhow c => c
  | e => .err e

/-- `Error::as_anyhow`, bsn1/src/lib.rs:156-161. -/
def asAnyhow : Error → Option Chain
  | .anyhow c => some c
  | _ => none

/-- `Error::context`, bsn1/src/lib.rs:164-169.  The message is not modelled. -/
def context (self : Error) : Error := .anyhow (.context self.intoAnyhow)

/-- The loop of `Error::root_cause`, bsn1/src/lib.rs:177-183. -/
def rootCauseLoop : (causes : List (Option Error)) → (ret : Error) → Error
  | [], ret => ret
  | some e :: r, _ => rootCauseLoop r e
  | none :: _, ret => ret

/-- `Error::root_cause`, bsn1/src/lib.rs:173-188. -/
def rootCause (self : Error) : Error :=
  match self with
  | .anyhow c => rootCauseLoop c.links self
  | _ => self

end Error
end Bsn1
