import Verif.Spec.Serde
import Verif.Model.Error
/-!
# The same declaration on another target
-/

namespace Bsn1.Spec

mutual
/-- The type with other integer types: `f .usize` in place of `usize`, and so on. -/
def Ty.withInts (f : IntTy → IntTy) : {α : Type} → Ty α → Ty α
  | _, .bool => .bool
  | _, .int i => .int (f i)
  | _, .string => .string
  | _, .octetString => .octetString
  | _, .vec t => .vec (t.withInts f)
  | _, .linkedList t => .linkedList (t.withInts f)
  | _, .vecDeque t => .vecDeque (t.withInts f)
  | _, .btreeSet cmp h h' t => .btreeSet cmp h h' (t.withInts f)
  | _, .btreeMap cmp h h' k t => .btreeMap cmp h h' (k.withInts f) (t.withInts f)
  | _, .hashSet eq t => .hashSet eq (t.withInts f)
  | _, .hashMap eq k t => .hashMap eq (k.withInts f) (t.withInts f)
  | _, .struct id fs => .struct id (fs.withInts f)
  | _, .enum vs => .enum (vs.withInts f)
  | _, .transparent fs => .transparent (fs.withInts f)
  | _, .conv t g h => .conv (t.withInts f) g h
  | _, .named t g h k k' => .named (t.withInts f) g h k k'
  | _, .hole => .hole
/-- The same for the fields. -/
def Fields.withInts (f : IntTy → IntTy) : {γ : Type} → Fields γ → Fields γ
  | _, .nil => .nil
  | _, .plain t r => .plain (t.withInts f) (r.withInts f)
  | _, .skip d r => .skip d (r.withInts f)
  | _, .skipSer t r => .skipSer (t.withInts f) (r.withInts f)
  | _, .skipDe t d r => .skipDe (t.withInts f) d (r.withInts f)
  | _, .conv t g h r => .conv (t.withInts f) g h (r.withInts f)
/-- The same for the variants. -/
def Variants.withInts (f : IntTy → IntTy) : {ρ : Type} → Variants ρ → Variants ρ
  | _, .nil => .nil
  | _, .cons id fs r => .cons id (fs.withInts f) (r.withInts f)
end

mutual
/-- The value may be of any size, but each of its parts fits `n` octets: the encoding of every element, pair or field, and the contents of a
primitive value. -/
def Ty.PartsFit (n : Nat) : {α : Type} → Ty α → α → Prop
  | _, .bool, _ => True
  | _, .int _, _ => True
  | _, .string, v => v.toByteArray.data.toList.length ≤ n
  | _, .octetString, v => v.length ≤ n
  | _, .vec t, v => ∀ x ∈ v, (t.der x).length ≤ n
  | _, .linkedList t, v => ∀ x ∈ v, (t.der x).length ≤ n
  | _, .vecDeque t, v => ∀ x ∈ v, (t.der x).length ≤ n
  | _, .btreeSet _ _ _ t, v => ∀ x ∈ v, (t.der x).length ≤ n
  | _, .btreeMap _ _ _ k t, v => ∀ x ∈ v, (pairOctets (k.der x.1) (t.der x.2)).length ≤ n
  | _, .hashSet _ t, v => ∀ x ∈ v, (t.der x).length ≤ n
  | _, .hashMap _ k t, v => ∀ x ∈ v, (pairOctets (k.der x.1) (t.der x.2)).length ≤ n
  | _, .struct _ fs, v => fs.PartsFit n v
  | _, .enum vs, v => vs.PartsFit n v
  | _, .transparent fs, v => fs.PartsFitOne n v
  | _, .conv t f _, v => t.PartsFit n (f v)
  | _, .named t f _ _ _, v => t.PartsFit n (f v)
  | _, .hole, _ => True
/-- Each field that is encoded fits. -/
def Fields.PartsFit (n : Nat) : {γ : Type} → Fields γ → γ → Prop
  | _, .nil, _ => True
  | _, .plain t r, v => (t.der v.1).length ≤ n ∧ r.PartsFit n v.2
  | _, .skip _ r, v => r.PartsFit n v.2
  | _, .skipSer _ r, v => r.PartsFit n v.2
  | _, .skipDe t _ r, v => (t.der v.1).length ≤ n ∧ r.PartsFit n v.2
  | _, .conv t f _ r, v => (t.der (f v.1)).length ≤ n ∧ r.PartsFit n v.2
/-- The parts of the first field that is encoded fit. -/
def Fields.PartsFitOne (n : Nat) : {γ : Type} → Fields γ → γ → Prop
  | _, .nil, _ => True
  | _, .plain t _, v => t.PartsFit n v.1
  | _, .skip _ r, v => r.PartsFitOne n v.2
  | _, .skipSer _ r, v => r.PartsFitOne n v.2
  | _, .skipDe t _ _, v => t.PartsFit n v.1
  | _, .conv t f _ _, v => t.PartsFit n (f v.1)
/-- The fields of the variant of the value fit. -/
def Variants.PartsFit (n : Nat) : {ρ : Type} → Variants ρ → ρ → Prop
  | _, .cons _ fs _, .inl v => fs.PartsFit n v
  | _, .cons _ _ r, .inr v => r.PartsFit n v
end

/-- The error of a header that announces too much: the target says `OverFlow` where 64 bits say `UnterminatedBytes`, in the same contexts. -/
inductive Overlong : Error → Error → Prop
  | base : Overlong .overFlow .unterminatedBytes
  | context {e e' : Error} : Overlong e e' → Overlong e.context e'.context

end Bsn1.Spec
