import Verif.Spec.Faults
/-!
# Independent specification: the identifiers of a type
-/

namespace Bsn1.Spec

mutual
/-- The identifiers of the values of a type. -/
def Ty.tag (r : Rules) : {α : Type} → Ty α → List UInt8 → Prop
  | _, .bool, id => id = [0x01]
  | _, .int _, id => id = [0x02]
  | _, .string, id => r.Tagged 0x0c 0x2c id
  | _, .octetString, id => r.Tagged 0x04 0x24 id
  | _, .vec _, id => id = [0x30]
  | _, .linkedList _, id => id = [0x30]
  | _, .vecDeque _, id => id = [0x30]
  | _, .btreeSet _ _ _ _, id => id = [0x30]
  | _, .btreeMap _ _ _ _ _, id => id = [0x30]
  | _, .hashSet _ _, id => id = [0x31]
  | _, .hashMap _ _ _, id => id = [0x31]
  | _, .struct i _, id => id = i
  | _, .enum vs, id => vs.tag id
  | _, .transparent fs, id => fs.tag r id
  | _, .conv t _ _, id => t.tag r id
  | _, .named t _ _ _ _, id => t.tag r id
  | _, .hole, _ => False
/-- Those of a transparent struct are those of its field. -/
def Fields.tag (r : Rules) : {γ : Type} → Fields γ → List UInt8 → Prop
  | _, .nil, _ => False
  | _, .plain t _, id => t.tag r id
  | _, .skip _ fs, id => fs.tag r id
  | _, .skipSer t _, id => t.tag r id
  | _, .skipDe _ _ fs, id => fs.tag r id
  | _, .conv t _ _ _, id => t.tag r id
/-- Those of an enum are those of its variants. -/
def Variants.tag : {ρ : Type} → Variants ρ → List UInt8 → Prop
  | _, .nil, _ => False
  | _, .cons i _ vs, id => id = i ∨ vs.tag id
end

mutual
/-- The type is an integer, or transparent or converted and made of one. -/
def Ty.integer : {α : Type} → Ty α → Prop
  | _, .int _ => True
  | _, .transparent fs => fs.integer
  | _, .conv t _ _ => t.integer
  | _, .named t _ _ _ _ => t.integer
  | _, .bool | _, .string | _, .octetString | _, .vec _ | _, .linkedList _ | _, .vecDeque _ | _, .btreeSet _ _ _ _
  | _, .btreeMap _ _ _ _ _ | _, .hashSet _ _ | _, .hashMap _ _ _ | _, .struct _ _ | _, .enum _ | _, .hole => False
/-- The field of a transparent struct is one. -/
def Fields.integer : {γ : Type} → Fields γ → Prop
  | _, .nil => False
  | _, .plain t _ => t.integer
  | _, .skip _ fs => fs.integer
  | _, .skipSer t _ => t.integer
  | _, .skipDe _ _ fs => fs.integer
  | _, .conv t _ _ _ => t.integer
end

mutual
/-- The error for another identifier: each transparent struct adds a context. -/
def Ty.mismatch : {α : Type} → Ty α → Error
  | _, .transparent fs => wrapped fs.mismatch
  | _, .conv t _ _ => t.mismatch
  | _, .named t _ _ _ _ => t.mismatch
  | _, .bool | _, .int _ | _, .string | _, .octetString | _, .vec _ | _, .linkedList _ | _, .vecDeque _ | _, .btreeSet _ _ _ _
  | _, .btreeMap _ _ _ _ _ | _, .hashSet _ _ | _, .hashMap _ _ _ | _, .struct _ _ | _, .enum _ | _, .hole => .unmatchedId
/-- That of the field of a transparent struct. -/
def Fields.mismatch : {γ : Type} → Fields γ → Error
  | _, .nil => .unmatchedId
  | _, .plain t _ => t.mismatch
  | _, .skip _ fs => fs.mismatch
  | _, .skipSer t _ => t.mismatch
  | _, .skipDe _ _ fs => fs.mismatch
  | _, .conv t _ _ _ => t.mismatch
end

/-- Not a transparent struct, also not one with a conversion. -/
def Ty.opaque : {α : Type} → Ty α → Prop
  | _, .transparent _ => False
  | _, .conv t _ _ => t.opaque
  | _, .named t _ _ _ _ => t.opaque
  | _, .bool | _, .int _ | _, .string | _, .octetString | _, .vec _ | _, .linkedList _ | _, .vecDeque _ | _, .btreeSet _ _ _ _
  | _, .btreeMap _ _ _ _ _ | _, .hashSet _ _ | _, .hashMap _ _ _ | _, .struct _ _ | _, .enum _ | _, .hole => True

end Bsn1.Spec
