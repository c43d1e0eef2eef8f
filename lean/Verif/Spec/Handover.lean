import Verif.Spec.Raw
/-!
# Conversions that move a value
-/

namespace Bsn1.Spec
open Bsn1.Buf

/-- A call that moves the `i`-th value into another type: `from_vec_unchecked` or `Contents::from` of a `Vec`, `Ber::from` of a `Der`,
`into_vec`. -/
def Moves (i : Nat) (op : TOp) : Prop := op = .fromVec i ∨ op = .berFromDer i ∨ op = .intoVec i

/-- A call that makes a new value from the `i`-th one. -/
def Copies (i : Nat) (op : TOp) : Prop := op = .clone i ∨ op = .toOwned i ∨ op = .idToOwned i ∨ op = .contentsToOwned i

end Bsn1.Spec
