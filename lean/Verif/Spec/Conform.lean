import Verif.Spec.Tree
import Verif.Spec.Utf8
/-!
# The rules of X.690 for DER, at every level of a document

Looked at without knowing the type, so only rules for values with universal identifiers can be checked.
-/

namespace Bsn1.Spec

/-- Order of encodings in a SET OF (X.690 11.6): as octet strings, the shorter one padded with zeros. -/
def octetsLe : List UInt8 → List UInt8 → Bool
  | [], _ => true
  | a :: r, [] => a == 0 && octetsLe r []
  | a :: r, b :: s => a < b || (a == b && octetsLe r s)

/-- Class "universal" (X.690 8.1.2.2). -/
def UniversalClass : List UInt8 → Prop
  | [] => False
  | b :: _ => b.toNat < 64

/-- Rules for primitive values: BOOLEAN (11.1), INTEGER (8.3.2), NULL (8.8.2), UTF8String (8.23.10); SEQUENCE and SET are not primitive (8.9.1, 8.11.1).
Nothing is asked of the other types. -/
def LeafRule (id c : List UInt8) : Prop :=
  (id = [0x01] → c = [0x00] ∨ c = [0xff]) ∧ (id = [0x02] → IntMinimal c) ∧ (id = [0x05] → c = []) ∧ (id = [0x0c] → ∃ ns, Utf8 c ns) ∧
  id ≠ [0x10] ∧ id ≠ [0x11]

/-- Rules for constructed values: the only universal ones are SEQUENCE and SET (strings are not in DER, 10.2; the rare EXTERNAL, EMBEDDED PDV and CHARACTER STRING are left out), and
the elements of a SET OF are in ascending order (11.6). -/
def NodeRule (id : List UInt8) (cs : List (List UInt8)) : Prop :=
  (UniversalClass id → id = [0x30] ∨ id = [0x31]) ∧ (id = [0x31] → cs.Pairwise fun a b => octetsLe a b = true)

mutual
/-- The rules hold at every level, and all lengths are definite (10.1). -/
def Doc.Conforms : Doc → Prop
  | .leaf id c => LeafRule id c
  | .node id indef cs => indef = false ∧ NodeRule id (cs.toList.map Doc.octets) ∧ cs.Conforms
/-- The same for all of them. -/
def Docs.Conforms : Docs → Prop
  | .nil => True
  | .cons d r => d.Conforms ∧ r.Conforms
end

mutual
/-- Structs and variants have the identifier of a SEQUENCE or one that is not universal. -/
def Ty.plainIds : {α : Type} → Ty α → Prop
  | _, .bool => True
  | _, .int _ => True
  | _, .string => True
  | _, .octetString => True
  | _, .vec t => t.plainIds
  | _, .linkedList t => t.plainIds
  | _, .vecDeque t => t.plainIds
  | _, .btreeSet _ _ _ t => t.plainIds
  | _, .btreeMap _ _ _ k t => k.plainIds ∧ t.plainIds
  | _, .hashSet _ t => t.plainIds
  | _, .hashMap _ k t => k.plainIds ∧ t.plainIds
  | _, .struct id fs => (id = [0x30] ∨ ¬ UniversalClass id) ∧ fs.plainIds
  | _, .enum vs => vs.plainIds
  | _, .transparent fs => fs.plainIds
  | _, .conv t _ _ => t.plainIds
  | _, .named t _ _ _ _ => t.plainIds
  | _, .hole => True
/-- The same for fields that are encoded. -/
def Fields.plainIds : {γ : Type} → Fields γ → Prop
  | _, .nil => True
  | _, .plain t r => t.plainIds ∧ r.plainIds
  | _, .skip _ r => r.plainIds
  | _, .skipSer _ r => r.plainIds
  | _, .skipDe t _ r => t.plainIds ∧ r.plainIds
  | _, .conv t _ _ r => t.plainIds ∧ r.plainIds
/-- The same for variants. -/
def Variants.plainIds : {ρ : Type} → Variants ρ → Prop
  | _, .nil => True
  | _, .cons id fs r => (id = [0x30] ∨ ¬ UniversalClass id) ∧ fs.plainIds ∧ r.plainIds
end

mutual
/-- Every `HashSet` and `HashMap` in the value, except below a primitive identifier, is iterated in the order of the encodings. -/
def Ty.inOrder : {α : Type} → Ty α → α → Prop
  | _, .bool, _ => True
  | _, .int _, _ => True
  | _, .string, _ => True
  | _, .octetString, _ => True
  | _, .vec t, v => ∀ x ∈ v, t.inOrder x
  | _, .linkedList t, v => ∀ x ∈ v, t.inOrder x
  | _, .vecDeque t, v => ∀ x ∈ v, t.inOrder x
  | _, .btreeSet _ _ _ t, v => ∀ x ∈ v, t.inOrder x
  | _, .btreeMap _ _ _ k t, v => ∀ x ∈ v, k.inOrder x.1 ∧ t.inOrder x.2
  | _, .hashSet _ t, v => (v.Pairwise fun x y => octetsLe (t.der x) (t.der y) = true) ∧ ∀ x ∈ v, t.inOrder x
  | _, .hashMap _ k t, v =>
    (v.Pairwise fun x y => octetsLe (pairOctets (k.der x.1) (t.der x.2)) (pairOctets (k.der y.1) (t.der y.2)) = true) ∧
      ∀ x ∈ v, k.inOrder x.1 ∧ t.inOrder x.2
  | _, .struct id fs, v => constructedBit id → fs.inOrder v
  | _, .enum vs, v => vs.inOrder v
  | _, .transparent fs, v => fs.inOrderOne v
  | _, .conv t f _, v => t.inOrder (f v)
  | _, .named t f _ _ _, v => t.inOrder (f v)
  | _, .hole, _ => True
/-- The same for the fields that are encoded. -/
def Fields.inOrder : {γ : Type} → Fields γ → γ → Prop
  | _, .nil, _ => True
  | _, .plain t r, v => t.inOrder v.1 ∧ r.inOrder v.2
  | _, .skip _ r, v => r.inOrder v.2
  | _, .skipSer _ r, v => r.inOrder v.2
  | _, .skipDe t _ r, v => t.inOrder v.1 ∧ r.inOrder v.2
  | _, .conv t f _ r, v => t.inOrder (f v.1) ∧ r.inOrder v.2
/-- The same for the first field that is encoded. -/
def Fields.inOrderOne : {γ : Type} → Fields γ → γ → Prop
  | _, .nil, _ => True
  | _, .plain t _, v => t.inOrder v.1
  | _, .skip _ r, v => r.inOrderOne v.2
  | _, .skipSer _ r, v => r.inOrderOne v.2
  | _, .skipDe t _ _, v => t.inOrder v.1
  | _, .conv t f _ _, v => t.inOrder (f v.1)
/-- The same for an enum. -/
def Variants.inOrder : {ρ : Type} → Variants ρ → ρ → Prop
  | _, .cons id fs _, .inl v => constructedBit id → fs.inOrder v
  | _, .cons _ _ r, .inr v => r.inOrder v
end

end Bsn1.Spec
