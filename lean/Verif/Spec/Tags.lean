import Verif.Model.Id
/-!
# Numbers of the tag classes and the primitive/constructed bit (X.690 8.1.2.2 table 1, 8.1.2.5)
-/

namespace Bsn1.Spec

/-- Class bits (bits 8 and 7) as a number. -/
def classNum : ClassTag → Nat
  | .universal => 0
  | .application => 1
  | .contextSpecific => 2
  | .priv => 3

/-- Primitive/constructed bit (bit 6). -/
def pcNum : PCTag → Nat
  | .primitive => 0
  | .constructed => 1

/-- A tag number the API can represent (`u128`). -/
def U128 (n : Nat) : Prop := n < 2 ^ 128

end Bsn1.Spec
