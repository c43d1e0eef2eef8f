import Verif.Spec.Serde
import Verif.Spec.Decode
/-!
# How deep the values of a type are nested
-/

namespace Bsn1.Spec

mutual
/-- How many values can be inside each other below a value of the type: a collection, struct or enum is around its elements or fields, and in a map there is a pair
between.  (A transparent struct is counted like any other.) -/
def Ty.levels : {α : Type} → Ty α → Nat
  | _, .bool => 0
  | _, .int _ => 0
  | _, .string => 0
  | _, .octetString => 0
  | _, .vec t => t.levels + 1
  | _, .linkedList t => t.levels + 1
  | _, .vecDeque t => t.levels + 1
  | _, .btreeSet _ _ _ t => t.levels + 1
  | _, .btreeMap _ _ _ k t => max k.levels t.levels + 2
  | _, .hashSet _ t => t.levels + 1
  | _, .hashMap _ k t => max k.levels t.levels + 2
  | _, .struct _ fs => fs.levels + 1
  | _, .enum vs => vs.levels + 1
  | _, .transparent fs => fs.levels + 1
  | _, .conv t _ _ => t.levels
  | _, .named t _ _ _ _ => t.levels
  | _, .hole => 0
/-- The deepest of the fields. -/
def Fields.levels : {γ : Type} → Fields γ → Nat
  | _, .nil => 0
  | _, .plain t r => max t.levels r.levels
  | _, .skip _ r => r.levels
  | _, .skipSer t r => max t.levels r.levels
  | _, .skipDe t _ r => max t.levels r.levels
  | _, .conv t _ _ r => max t.levels r.levels
/-- The deepest of the variants. -/
def Variants.levels : {ρ : Type} → Variants ρ → Nat
  | _, .nil => 0
  | _, .cons _ fs r => max fs.levels r.levels
end

/-- Nowhere among the octets is there a BER value of indefinite length. -/
def NoIndefinite (bs : List UInt8) : Prop := ∀ p id raw, p <:+: bs → ¬ BerValue p id true raw

end Bsn1.Spec
