import Verif.Model.Prim
/-!
# What the documentation says about chained errors
-/

namespace Bsn1.Spec

/-- The first error of this crate in a chain of causes, outermost first. -/
def firstOwn : Chain → Option Error
  | .err e => some e
  | .foreign => none
  | .context c => firstOwn c

/-- `n` context layers around `c`. -/
def layers : Nat → Chain → Chain
  | 0, c => c
  | n + 1, c => .context (layers n c)

/-- The kinds of errors, without their payload. -/
inductive Kind where
  | unterminatedBytes | redundantBytes | overFlow | indefiniteLength | badEoc | extraContentsOctet
  | unmatchedId | invalidUtf8 | invalidDerBooleanContents | invalidKeyValuePair | io | anyhow
  deriving DecidableEq

/-- The kind of an error. -/
def kind : Error → Kind
  | .unterminatedBytes => .unterminatedBytes
  | .redundantBytes => .redundantBytes
  | .overFlow => .overFlow
  | .indefiniteLength => .indefiniteLength
  | .badEoc => .badEoc
  | .extraContentsOctet => .extraContentsOctet
  | .unmatchedId => .unmatchedId
  | .invalidUtf8 => .invalidUtf8
  | .invalidDerBooleanContents => .invalidDerBooleanContents
  | .invalidKeyValuePair => .invalidKeyValuePair
  | .io _ => .io
  | .anyhow _ => .anyhow

end Bsn1.Spec
