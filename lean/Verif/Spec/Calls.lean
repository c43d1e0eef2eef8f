import Verif.Spec.Serde
/-!
# The values inside a value, how deep they are, and the conversions
-/

namespace Bsn1.Spec

mutual
/-- How many values are encoded: the value itself and those inside.  The key and the value of an entry of a map count, their pair does not. -/
def Ty.parts : {α : Type} → Ty α → α → Nat
  | _, .bool, _ => 1
  | _, .int _, _ => 1
  | _, .string, _ => 1
  | _, .octetString, _ => 1
  | _, .vec t, v => 1 + (v.map t.parts).sum
  | _, .linkedList t, v => 1 + (v.map t.parts).sum
  | _, .vecDeque t, v => 1 + (v.map t.parts).sum
  | _, .btreeSet _ _ _ t, v => 1 + (v.map t.parts).sum
  | _, .btreeMap _ _ _ k t, v => 1 + (v.map fun x => k.parts x.1 + t.parts x.2).sum
  | _, .hashSet _ t, v => 1 + (v.map t.parts).sum
  | _, .hashMap _ k t, v => 1 + (v.map fun x => k.parts x.1 + t.parts x.2).sum
  | _, .struct _ fs, v => 1 + fs.parts v
  | _, .enum vs, v => 1 + vs.parts v
  | _, .transparent fs, v => fs.partsOne v
  | _, .conv t f _, v => t.parts (f v)
  | _, .named t f _ _ _, v => t.parts (f v)
  | _, .hole, _ => 1
/-- The same in the fields that are encoded. -/
def Fields.parts : {γ : Type} → Fields γ → γ → Nat
  | _, .nil, _ => 0
  | _, .plain t r, v => t.parts v.1 + r.parts v.2
  | _, .skip _ r, v => r.parts v.2
  | _, .skipSer _ r, v => r.parts v.2
  | _, .skipDe t _ r, v => t.parts v.1 + r.parts v.2
  | _, .conv t f _ r, v => t.parts (f v.1) + r.parts v.2
/-- The same in the first field that is encoded. -/
def Fields.partsOne : {γ : Type} → Fields γ → γ → Nat
  | _, .nil, _ => 1
  | _, .plain t _, v => t.parts v.1
  | _, .skip _ r, v => r.partsOne v.2
  | _, .skipSer _ r, v => r.partsOne v.2
  | _, .skipDe t _ _, v => t.parts v.1
  | _, .conv t f _ _, v => t.parts (f v.1)
/-- The same in the fields of the variant. -/
def Variants.parts : {ρ : Type} → Variants ρ → ρ → Nat
  | _, .cons _ fs _, .inl v => fs.parts v
  | _, .cons _ _ r, .inr v => r.parts v
end

mutual
/-- The sum, over the values encoded, of their depths: the value itself has depth 1, the elements and fields are one deeper than that around, the keys and values of
a map two. -/
def Ty.depths : {α : Type} → Ty α → α → Nat
  | _, .bool, _ => 1
  | _, .int _, _ => 1
  | _, .string, _ => 1
  | _, .octetString, _ => 1
  | _, .vec t, v => 1 + (v.map fun x => t.depths x + t.parts x).sum
  | _, .linkedList t, v => 1 + (v.map fun x => t.depths x + t.parts x).sum
  | _, .vecDeque t, v => 1 + (v.map fun x => t.depths x + t.parts x).sum
  | _, .btreeSet _ _ _ t, v => 1 + (v.map fun x => t.depths x + t.parts x).sum
  | _, .btreeMap _ _ _ k t, v => 1 + (v.map fun x => (k.depths x.1 + 2 * k.parts x.1) + (t.depths x.2 + 2 * t.parts x.2)).sum
  | _, .hashSet _ t, v => 1 + (v.map fun x => t.depths x + t.parts x).sum
  | _, .hashMap _ k t, v => 1 + (v.map fun x => (k.depths x.1 + 2 * k.parts x.1) + (t.depths x.2 + 2 * t.parts x.2)).sum
  | _, .struct _ fs, v => 1 + fs.depths v
  | _, .enum vs, v => 1 + vs.depths v
  | _, .transparent fs, v => fs.depthsOne v
  | _, .conv t f _, v => t.depths (f v)
  | _, .named t f _ _ _, v => t.depths (f v)
  | _, .hole, _ => 1
/-- The same for the fields that are encoded, one deeper. -/
def Fields.depths : {γ : Type} → Fields γ → γ → Nat
  | _, .nil, _ => 0
  | _, .plain t r, v => (t.depths v.1 + t.parts v.1) + r.depths v.2
  | _, .skip _ r, v => r.depths v.2
  | _, .skipSer _ r, v => r.depths v.2
  | _, .skipDe t _ r, v => (t.depths v.1 + t.parts v.1) + r.depths v.2
  | _, .conv t f _ r, v => (t.depths (f v.1) + t.parts (f v.1)) + r.depths v.2
/-- The same for the first field that is encoded. -/
def Fields.depthsOne : {γ : Type} → Fields γ → γ → Nat
  | _, .nil, _ => 1
  | _, .plain t _, v => t.depths v.1
  | _, .skip _ r, v => r.depthsOne v.2
  | _, .skipSer _ r, v => r.depthsOne v.2
  | _, .skipDe t _ _, v => t.depths v.1
  | _, .conv t f _ _, v => t.depths (f v.1)
/-- The same for the fields of the variant, one deeper. -/
def Variants.depths : {ρ : Type} → Variants ρ → ρ → Nat
  | _, .cons _ fs _, .inl v => fs.depths v
  | _, .cons _ _ r, .inr v => r.depths v
end

mutual
/-- How often conversions should be called to encode a value: for each field with a conversion once, for each value of a type with a conversion, or of a
transparent struct around a field with one, twice (for the identifier and for the contents). -/
def Ty.convs : {α : Type} → Ty α → α → Nat
  | _, .bool, _ => 0
  | _, .int _, _ => 0
  | _, .string, _ => 0
  | _, .octetString, _ => 0
  | _, .vec t, v => (v.map t.convs).sum
  | _, .linkedList t, v => (v.map t.convs).sum
  | _, .vecDeque t, v => (v.map t.convs).sum
  | _, .btreeSet _ _ _ t, v => (v.map t.convs).sum
  | _, .btreeMap _ _ _ k t, v => (v.map fun x => k.convs x.1 + t.convs x.2).sum
  | _, .hashSet _ t, v => (v.map t.convs).sum
  | _, .hashMap _ k t, v => (v.map fun x => k.convs x.1 + t.convs x.2).sum
  | _, .struct _ fs, v => fs.convs v
  | _, .enum vs, v => vs.convs v
  | _, .transparent fs, v => fs.convsOne v
  | _, .conv t f _, v => 2 + t.convs (f v)
  | _, .named t f _ _ _, v => t.convs (f v)
  | _, .hole, _ => 0
/-- The same for the fields that are encoded. -/
def Fields.convs : {γ : Type} → Fields γ → γ → Nat
  | _, .nil, _ => 0
  | _, .plain t r, v => t.convs v.1 + r.convs v.2
  | _, .skip _ r, v => r.convs v.2
  | _, .skipSer _ r, v => r.convs v.2
  | _, .skipDe t _ r, v => t.convs v.1 + r.convs v.2
  | _, .conv t f _ r, v => (1 + t.convs (f v.1)) + r.convs v.2
/-- The same for the first field that is encoded. -/
def Fields.convsOne : {γ : Type} → Fields γ → γ → Nat
  | _, .nil, _ => 0
  | _, .plain t _, v => t.convs v.1
  | _, .skip _ r, v => r.convsOne v.2
  | _, .skipSer _ r, v => r.convsOne v.2
  | _, .skipDe t _ _, v => t.convs v.1
  | _, .conv t f _ _, v => 2 + t.convs (f v.1)
/-- The same for the fields of the variant. -/
def Variants.convs : {ρ : Type} → Variants ρ → ρ → Nat
  | _, .cons _ fs _, .inl v => fs.convs v
  | _, .cons _ _ r, .inr v => r.convs v
end

end Bsn1.Spec
