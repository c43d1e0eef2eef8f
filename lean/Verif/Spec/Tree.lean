import Verif.Spec.Document
import Verif.Spec.Serde
/-!
# The tree of a value of a type

What somebody sees who takes the encoding of a value apart at every level without knowing the type.
-/

namespace Bsn1.Spec

/-- The sixth bit of the first octet (X.690 8.1.2.5). -/
def constructedBit : List UInt8 → Bool
  | [] => false
  | b :: _ => b.toNat / 32 % 2 == 1

/-- A value with values inside; nobody can look into it if the identifier says "primitive". -/
def Doc.around (id : List UInt8) (cs : Docs) : Doc :=
  if constructedBit id then .node id false cs else .leaf id cs.octets

/-- Documents one after another, from a list. -/
def Docs.ofList : List Doc → Docs
  | [] => .nil
  | d :: r => .cons d (Docs.ofList r)

/-- A key and a value. -/
def Doc.pair (k v : Doc) : Doc := .node [0x30] false (.cons k (.cons v .nil))

mutual
/-- The tree of a value: leaves for booleans, integers and strings; nodes for collections, pairs, structs and variants. -/
def Ty.doc : {α : Type} → Ty α → α → Doc
  | _, .bool, v => .leaf [0x01] [if v then 0xff else 0x00]
  | _, .int _, v => .leaf [0x02] (intOctets v)
  | _, .string, v => .leaf [0x0c] v.toByteArray.data.toList
  | _, .octetString, v => .leaf [0x04] v
  | _, .vec t, v => .node [0x30] false (Docs.ofList (v.map fun x => t.doc x))
  | _, .linkedList t, v => .node [0x30] false (Docs.ofList (v.map fun x => t.doc x))
  | _, .vecDeque t, v => .node [0x30] false (Docs.ofList (v.map fun x => t.doc x))
  | _, .btreeSet _ _ _ t, v => .node [0x30] false (Docs.ofList (v.map fun x => t.doc x))
  | _, .btreeMap _ _ _ k t, v => .node [0x30] false (Docs.ofList (v.map fun x => Doc.pair (k.doc x.1) (t.doc x.2)))
  | _, .hashSet _ t, v => .node [0x31] false (Docs.ofList (v.map fun x => t.doc x))
  | _, .hashMap _ k t, v => .node [0x31] false (Docs.ofList (v.map fun x => Doc.pair (k.doc x.1) (t.doc x.2)))
  | _, .struct id fs, v => .around id (fs.docs v)
  | _, .enum vs, v => vs.doc v
  | _, .transparent fs, v => fs.docOne v
  | _, .conv t f _, v => t.doc (f v)
  | _, .named t f _ _ _, v => t.doc (f v)
  | _, .hole, _ => .leaf [0x05] []
/-- Those of the fields not skipped. -/
def Fields.docs : {γ : Type} → Fields γ → γ → Docs
  | _, .nil, _ => .nil
  | _, .plain t r, v => .cons (t.doc v.1) (r.docs v.2)
  | _, .skip _ r, v => r.docs v.2
  | _, .skipSer _ r, v => r.docs v.2
  | _, .skipDe t _ r, v => .cons (t.doc v.1) (r.docs v.2)
  | _, .conv t f _ r, v => .cons (t.doc (f v.1)) (r.docs v.2)
/-- That of the first field not skipped. -/
def Fields.docOne : {γ : Type} → Fields γ → γ → Doc
  | _, .nil, _ => .leaf [] []
  | _, .plain t _, v => t.doc v.1
  | _, .skip _ r, v => r.docOne v.2
  | _, .skipSer _ r, v => r.docOne v.2
  | _, .skipDe t _ _, v => t.doc v.1
  | _, .conv t f _ _, v => t.doc (f v.1)
/-- That of a value of an enum. -/
def Variants.doc : {ρ : Type} → Variants ρ → ρ → Doc
  | _, .cons id fs _, .inl v => .around id (fs.docs v)
  | _, .cons _ _ r, .inr v => r.doc v
end

end Bsn1.Spec
