import Verif.Spec.Decode
/-!
# Independent specification of equality of values
-/

namespace Bsn1.Spec

mutual
/-- Two values are the same to the user of the crate: sets and maps are compared by what they contain, skipped fields
do not matter, converted values are compared after the conversion. -/
def Ty.same : {α : Type} → Ty α → α → α → Prop
  | _, .bool, v, w => v = w
  | _, .int _, v, w => v = w
  | _, .string, v, w => v = w
  | _, .octetString, v, w => v = w
  | _, .vec t, v, w => List.Forall₂ t.same v w
  | _, .linkedList t, v, w => List.Forall₂ t.same v w
  | _, .vecDeque t, v, w => List.Forall₂ t.same v w
  | _, .btreeSet _ _ _ _, v, w => ∀ x, x ∈ v ↔ x ∈ w
  | _, .btreeMap _ _ _ _ t, v, w =>
    (∀ k x, (k, x) ∈ v → ∃ y, (k, y) ∈ w ∧ t.same x y) ∧ ∀ k y, (k, y) ∈ w → ∃ x, (k, x) ∈ v ∧ t.same x y
  | _, .hashSet _ _, v, w => ∀ x, x ∈ v ↔ x ∈ w
  | _, .hashMap _ _ t, v, w =>
    (∀ k x, (k, x) ∈ v → ∃ y, (k, y) ∈ w ∧ t.same x y) ∧ ∀ k y, (k, y) ∈ w → ∃ x, (k, x) ∈ v ∧ t.same x y
  | _, .struct _ fs, v, w => fs.same v w
  | _, .enum vs, v, w => vs.same v w
  | _, .transparent fs, v, w => fs.same v w
  | _, .conv t f _, v, w => t.same (f v) (f w)
  | _, .named t f _ _ _, v, w => t.same (f v) (f w)
  | _, .hole, _, _ => False
/-- The same for fields. -/
def Fields.same : {γ : Type} → Fields γ → γ → γ → Prop
  | _, .nil, _, _ => True
  | _, .plain t r, v, w => t.same v.1 w.1 ∧ r.same v.2 w.2
  | _, .skip _ r, v, w => r.same v.2 w.2
  | _, .skipSer _ r, v, w => r.same v.2 w.2
  | _, .skipDe t _ r, v, w => t.same v.1 w.1 ∧ r.same v.2 w.2
  | _, .conv t f _ r, v, w => t.same (f v.1) (f w.1) ∧ r.same v.2 w.2
/-- The same for an enum. -/
def Variants.same : {ρ : Type} → Variants ρ → ρ → ρ → Prop
  | _, .cons _ fs _, .inl v, .inl w => fs.same v w
  | _, .cons _ _ r, .inr v, .inr w => r.same v w
  | _, .cons _ _ _, .inl _, .inr _ => False
  | _, .cons _ _ _, .inr _, .inl _ => False
end

mutual
/-- There is no hashed collection in what is encoded. -/
def Ty.hashFree : {α : Type} → Ty α → Prop
  | _, .bool => True
  | _, .int _ => True
  | _, .string => True
  | _, .octetString => True
  | _, .vec t => t.hashFree
  | _, .linkedList t => t.hashFree
  | _, .vecDeque t => t.hashFree
  | _, .btreeSet _ _ _ t => t.hashFree
  | _, .btreeMap _ _ _ k t => k.hashFree ∧ t.hashFree
  | _, .hashSet _ _ => False
  | _, .hashMap _ _ _ => False
  | _, .struct _ fs => fs.hashFree
  | _, .enum vs => vs.hashFree
  | _, .transparent fs => fs.hashFree
  | _, .conv t _ _ => t.hashFree
  | _, .named t _ _ _ _ => t.hashFree
  | _, .hole => True
/-- The same for fields. -/
def Fields.hashFree : {γ : Type} → Fields γ → Prop
  | _, .nil => True
  | _, .plain t r => t.hashFree ∧ r.hashFree
  | _, .skip _ r => r.hashFree
  | _, .skipSer _ r => r.hashFree
  | _, .skipDe t _ r => t.hashFree ∧ r.hashFree
  | _, .conv t _ _ r => t.hashFree ∧ r.hashFree
/-- The same for variants. -/
def Variants.hashFree : {ρ : Type} → Variants ρ → Prop
  | _, .nil => True
  | _, .cons _ fs r => fs.hashFree ∧ r.hashFree
end

end Bsn1.Spec
