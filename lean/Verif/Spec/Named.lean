import Verif.Spec.Tags
/-!
# Universal tags of X.680 (8.4, table 1) that have a name in the API
-/

namespace Bsn1.Spec

/-- A universal type of X.680 together with the form (X.690 8.2 – 8.14) of its encoding. -/
inductive Universal where
  | endOfContents | boolean | integer | octetString (constructed : Bool) | null | real | utf8String (constructed : Bool)
  | sequence | set
  deriving DecidableEq

/-- X.680 8.4, table 1. -/
def Universal.tagNumber : Universal → Nat
  | .endOfContents => 0
  | .boolean => 1
  | .integer => 2
  | .octetString _ => 4
  | .null => 5
  | .real => 9
  | .utf8String _ => 12
  | .sequence => 16
  | .set => 17

/-- X.690: end-of-contents 8.1.5, boolean 8.2.1, integer 8.3.1, real 8.5.1 and null 8.8.1 are primitive, sequence 8.9.1 and set 8.11.1
constructed, strings (8.7.1, 8.23.1) either. -/
def Universal.form : Universal → PCTag
  | .octetString true | .utf8String true | .sequence | .set => .constructed
  | _ => .primitive

/-- The function of the API that names the identifier: bsn1/src/identifier_ref.rs:225-409. -/
def Universal.named : Universal → Bytes
  | .endOfContents => IdRef.eoc
  | .boolean => IdRef.boolean
  | .integer => IdRef.integer
  | .octetString false => IdRef.octetString
  | .octetString true => IdRef.octetStringConstructed
  | .null => IdRef.null
  | .real => IdRef.real
  | .utf8String false => IdRef.utf8String
  | .utf8String true => IdRef.utf8StringConstructed
  | .sequence => IdRef.sequence
  | .set => IdRef.set

end Bsn1.Spec
