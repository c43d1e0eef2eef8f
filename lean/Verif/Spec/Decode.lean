import Verif.Spec.Serde
/-!
# Independent specification of decoding

For each type expression, which octets denote which value.  These are relations between octets and values: contents are
*some* concatenation of values, nothing is parsed.
-/

namespace Bsn1.Spec

variable {α β γ : Type}

/-- The elements in order of first occurrence. -/
def firsts [DecidableEq α] : List α → List α
  | [] => []
  | x :: r => x :: (firsts r).filter (· ≠ x)

/-- `(k, y)` is the last entry of `l` with the key `k`. -/
def LastEntry (k : α) (y : β) (l : List (α × β)) : Prop := ∃ a b, l = a ++ (k, y) :: b ∧ ∀ e ∈ b, e.1 ≠ k

/-- `v` is the ascending list of the elements of `l`. -/
def SetOf (cmp : α → α → Ordering) (l v : List α) : Prop :=
  v.Pairwise (fun x y => cmp x y = .lt) ∧ ∀ x, x ∈ v ↔ x ∈ l

/-- `v` lists, in ascending order of the keys, for each key its last entry in `l`. -/
def MapOf (cmp : α → α → Ordering) (l v : List (α × β)) : Prop :=
  v.Pairwise (fun x y => cmp x.1 y.1 = .lt) ∧ ∀ k y, (k, y) ∈ v ↔ LastEntry k y l

/-- `v` lists, in order of first occurrence of the keys, for each key its last entry in `l`. -/
def HashMapOf [DecidableEq α] (l v : List (α × β)) : Prop :=
  v.map Prod.fst = firsts (l.map Prod.fst) ∧ ∀ e ∈ v, LastEntry e.1 e.2 l

/-! ### DER -/

/-- `c` is a concatenation of DER values which `R` relates to the elements of the list. -/
inductive DerElems (R : List UInt8 → List UInt8 → α → Prop) : List UInt8 → List α → Prop
  | nil : DerElems R [] []
  | cons (id b c : List UInt8) (x : α) (xs : List α) : IsId id → b.length < 2 ^ 64 → R id b x → DerElems R c xs →
      DerElems R (tlv id b ++ c) (x :: xs)

/-- `R` relates the key-value pair to the identifier and contents octets. -/
inductive DerPair (K : List UInt8 → List UInt8 → α → Prop) (V : List UInt8 → List UInt8 → β → Prop) :
    List UInt8 → List UInt8 → α × β → Prop
  | mk (ik ck iv cv : List UInt8) (k : α) (v : β) : IsId ik → ck.length < 2 ^ 64 → K ik ck k → IsId iv → cv.length < 2 ^ 64 →
      V iv cv v → DerPair K V [0x30] (tlv ik ck ++ tlv iv cv) (k, v)

mutual
/-- `t.derVal o id c v`: a DER value with identifier `id` and contents `c` denotes `v`.  `o` is the order of iteration
of hashed collections. -/
def Ty.derVal (o : (α : Type) → List α → List α) : {α : Type} → Ty α → List UInt8 → List UInt8 → α → Prop
  | _, .bool, id, c, v => id = [0x01] ∧ c = [if v then 0xff else 0x00]
  | _, .int t, id, c, v => id = [0x02] ∧ c = intOctets v ∧ t.InRange v
  | _, .string, id, c, v => id = [0x0c] ∧ c = v.toByteArray.data.toList
  | _, .octetString, id, c, v => id = [0x04] ∧ c = v
  | _, .vec t, id, c, v => id = [0x30] ∧ DerElems (t.derVal o) c v
  | _, .linkedList t, id, c, v => id = [0x30] ∧ DerElems (t.derVal o) c v
  | _, .vecDeque t, id, c, v => id = [0x30] ∧ DerElems (t.derVal o) c v
  | _, .btreeSet cmp _ _ t, id, c, v => id = [0x30] ∧ ∃ l, DerElems (t.derVal o) c l ∧ SetOf cmp l v
  | _, .btreeMap cmp _ _ k t, id, c, v =>
    id = [0x30] ∧ ∃ l, DerElems (DerPair (k.derVal o) (t.derVal o)) c l ∧ MapOf cmp l v
  | _, .hashSet _ t, id, c, v => id = [0x31] ∧ ∃ l, DerElems (t.derVal o) c l ∧ v = o _ (firsts l)
  | _, .hashMap _ k t, id, c, v =>
    id = [0x31] ∧ ∃ l u, DerElems (DerPair (k.derVal o) (t.derVal o)) c l ∧ HashMapOf l u ∧ v = o _ u
  | _, .struct i fs, id, c, v => id = i ∧ fs.derVal o c v
  | _, .enum vs, id, c, v => vs.derVal o id c v
  | _, .transparent fs, id, c, v => fs.derOne o id c v
  | _, .conv t _ g, id, c, v => ∃ u, t.derVal o id c u ∧ g.apply u = .ok v
  | _, .named t f _ _ _, id, c, v => t.derVal o id c (f v)
  | _, .hole, _, _, _ => False
/-- The contents are one value for each field that is not skipped, in order. -/
def Fields.derVal (o : (α : Type) → List α → List α) : {γ : Type} → Fields γ → List UInt8 → γ → Prop
  | _, .nil, c, _ => c = []
  | _, .plain t r, c, v => ∃ id b c', IsId id ∧ b.length < 2 ^ 64 ∧ c = tlv id b ++ c' ∧ t.derVal o id b v.1 ∧ r.derVal o c' v.2
  | _, .skip d r, c, v => v.1 = d ∧ r.derVal o c v.2
  | _, .skipSer t r, c, v => ∃ id b c', IsId id ∧ b.length < 2 ^ 64 ∧ c = tlv id b ++ c' ∧ t.derVal o id b v.1 ∧ r.derVal o c' v.2
  | _, .skipDe _ d r, c, v => v.1 = d ∧ r.derVal o c v.2
  | _, .conv t _ g r, c, v => ∃ id b c', IsId id ∧ b.length < 2 ^ 64 ∧ c = tlv id b ++ c' ∧
      (∃ u, t.derVal o id b u ∧ g.apply u = .ok v.1) ∧ r.derVal o c' v.2
/-- The whole value is that of each field that is not skipped. -/
def Fields.derOne (o : (α : Type) → List α → List α) : {γ : Type} → Fields γ → List UInt8 → List UInt8 → γ → Prop
  | _, .nil, _, _, _ => True
  | _, .plain t r, id, c, v => t.derVal o id c v.1 ∧ r.derOne o id c v.2
  | _, .skip d r, id, c, v => v.1 = d ∧ r.derOne o id c v.2
  | _, .skipSer t r, id, c, v => t.derVal o id c v.1 ∧ r.derOne o id c v.2
  | _, .skipDe _ d r, id, c, v => v.1 = d ∧ r.derOne o id c v.2
  | _, .conv t _ g r, id, c, v => (∃ u, t.derVal o id c u ∧ g.apply u = .ok v.1) ∧ r.derOne o id c v.2
/-- The variant is the first one with this identifier. -/
def Variants.derVal (o : (α : Type) → List α → List α) : {ρ : Type} → Variants ρ → List UInt8 → List UInt8 → ρ → Prop
  | _, .cons i fs _, id, c, .inl v => id = i ∧ fs.derVal o c v
  | _, .cons i _ r, id, c, .inr v => id ≠ i ∧ r.derVal o id c v
end

/-! ### BER -/

/-- `p` is a BER value with the identifier `id`, of indefinite or definite length, and `raw` is what follows the length
octets (with the end-of-contents, if any). -/
def BerValue (p id : List UInt8) (indef : Bool) (raw : List UInt8) : Prop :=
  IsId id ∧ match indef with
  | false => raw.length < 2 ^ 64 ∧ p = tlv id raw
  | true => ∃ c, BerSeq c ∧ raw = c ++ eoc ∧ p = id ++ indefOctets ++ raw

/-- `c` is `raw` without the end-of-contents of the indefinite form. -/
def IsBody (indef : Bool) (raw c : List UInt8) : Prop :=
  match indef with
  | false => raw = c
  | true => raw = c ++ eoc

/-- `c` is a concatenation of BER values which `R` relates to the elements of the list. -/
inductive BerElems (R : List UInt8 → Bool → List UInt8 → α → Prop) : List UInt8 → List α → Prop
  | nil : BerElems R [] []
  | cons (p id : List UInt8) (indef : Bool) (raw c : List UInt8) (x : α) (xs : List α) : BerValue p id indef raw →
      R id indef raw x → BerElems R c xs → BerElems R (p ++ c) (x :: xs)

/-- A key-value pair: what follows its length octets is the key and the value. -/
inductive BerPair (K : List UInt8 → Bool → List UInt8 → α → Prop) (V : List UInt8 → Bool → List UInt8 → β → Prop) :
    List UInt8 → Bool → List UInt8 → α × β → Prop
  | mk (indef : Bool) (pk ik : List UInt8) (dk : Bool) (ck : List UInt8) (pv iv : List UInt8) (dv : Bool)
      (cv : List UInt8) (k : α) (v : β) : BerValue pk ik dk ck → K ik dk ck k → BerValue pv iv dv cv → V iv dv cv v →
      BerPair K V [0x30] indef (pk ++ pv) (k, v)

mutual
/-- `t.berVal lax o id indef raw v`: a BER value with identifier `id`, indefinite or definite length, and `raw` after the
length octets, denotes `v`.  With `lax`, some primitive types are accepted with indefinite length, end-of-contents taken
as contents.  A constructed string is not put together from its segments, and pairs do not have indefinite length
(`raw` of a pair has no end-of-contents). -/
def Ty.berVal (lax : Bool) (o : (α : Type) → List α → List α) :
    {α : Type} → Ty α → List UInt8 → Bool → List UInt8 → α → Prop
  | _, .bool, id, indef, raw, v => id = [0x01] ∧ (indef → lax) ∧ ∃ b : UInt8, raw = [b] ∧ v = (b != 0)
  | _, .int t, id, indef, raw, v => id = [0x02] ∧ (indef → lax) ∧ raw = intOctets v ∧ t.InRange v
  | _, .string, id, indef, raw, v => (id = [0x0c] ∨ id = [0x2c]) ∧ (indef → lax) ∧ raw = v.toByteArray.data.toList
  | _, .octetString, id, indef, raw, v => (id = [0x04] ∨ id = [0x24]) ∧ indef = false ∧ raw = v
  | _, .vec t, id, indef, raw, v => id = [0x30] ∧ ∃ c, IsBody indef raw c ∧ BerElems (t.berVal lax o) c v
  | _, .linkedList t, id, indef, raw, v => id = [0x30] ∧ ∃ c, IsBody indef raw c ∧ BerElems (t.berVal lax o) c v
  | _, .vecDeque t, id, indef, raw, v => id = [0x30] ∧ ∃ c, IsBody indef raw c ∧ BerElems (t.berVal lax o) c v
  | _, .btreeSet cmp _ _ t, id, indef, raw, v =>
    id = [0x30] ∧ ∃ c l, IsBody indef raw c ∧ BerElems (t.berVal lax o) c l ∧ SetOf cmp l v
  | _, .btreeMap cmp _ _ k t, id, indef, raw, v =>
    id = [0x30] ∧ ∃ c l, IsBody indef raw c ∧ BerElems (BerPair (k.berVal lax o) (t.berVal lax o)) c l ∧ MapOf cmp l v
  | _, .hashSet _ t, id, indef, raw, v =>
    id = [0x31] ∧ ∃ c l, IsBody indef raw c ∧ BerElems (t.berVal lax o) c l ∧ v = o _ (firsts l)
  | _, .hashMap _ k t, id, indef, raw, v =>
    id = [0x31] ∧ ∃ c l u, IsBody indef raw c ∧ BerElems (BerPair (k.berVal lax o) (t.berVal lax o)) c l ∧
      HashMapOf l u ∧ v = o _ u
  | _, .struct i fs, id, indef, raw, v => id = i ∧ ∃ c, IsBody indef raw c ∧ fs.berVal lax o c v
  | _, .enum vs, id, indef, raw, v => vs.berVal lax o id indef raw v
  | _, .transparent fs, id, indef, raw, v => fs.berOne lax o id indef raw v
  | _, .conv t _ g, id, indef, raw, v => ∃ u, t.berVal lax o id indef raw u ∧ g.apply u = .ok v
  | _, .named t f _ _ _, id, indef, raw, v => t.berVal lax o id indef raw (f v)
  | _, .hole, _, _, _, _ => False
/-- The contents are one value for each field that is not skipped, in order. -/
def Fields.berVal (lax : Bool) (o : (α : Type) → List α → List α) : {γ : Type} → Fields γ → List UInt8 → γ → Prop
  | _, .nil, c, _ => c = []
  | _, .plain t r, c, v => ∃ p id indef raw c', BerValue p id indef raw ∧ c = p ++ c' ∧ t.berVal lax o id indef raw v.1 ∧
      r.berVal lax o c' v.2
  | _, .skip d r, c, v => v.1 = d ∧ r.berVal lax o c v.2
  | _, .skipSer t r, c, v => ∃ p id indef raw c', BerValue p id indef raw ∧ c = p ++ c' ∧ t.berVal lax o id indef raw v.1 ∧
      r.berVal lax o c' v.2
  | _, .skipDe _ d r, c, v => v.1 = d ∧ r.berVal lax o c v.2
  | _, .conv t _ g r, c, v => ∃ p id indef raw c', BerValue p id indef raw ∧ c = p ++ c' ∧
      (∃ u, t.berVal lax o id indef raw u ∧ g.apply u = .ok v.1) ∧ r.berVal lax o c' v.2
/-- The whole value is that of each field that is not skipped. -/
def Fields.berOne (lax : Bool) (o : (α : Type) → List α → List α) :
    {γ : Type} → Fields γ → List UInt8 → Bool → List UInt8 → γ → Prop
  | _, .nil, _, _, _, _ => True
  | _, .plain t r, id, indef, raw, v => t.berVal lax o id indef raw v.1 ∧ r.berOne lax o id indef raw v.2
  | _, .skip d r, id, indef, raw, v => v.1 = d ∧ r.berOne lax o id indef raw v.2
  | _, .skipSer t r, id, indef, raw, v => t.berVal lax o id indef raw v.1 ∧ r.berOne lax o id indef raw v.2
  | _, .skipDe _ d r, id, indef, raw, v => v.1 = d ∧ r.berOne lax o id indef raw v.2
  | _, .conv t _ g r, id, indef, raw, v =>
    (∃ u, t.berVal lax o id indef raw u ∧ g.apply u = .ok v.1) ∧ r.berOne lax o id indef raw v.2
/-- The variant is the first one with this identifier. -/
def Variants.berVal (lax : Bool) (o : (α : Type) → List α → List α) :
    {ρ : Type} → Variants ρ → List UInt8 → Bool → List UInt8 → ρ → Prop
  | _, .cons i fs _, id, indef, raw, .inl v => id = i ∧ ∃ c, IsBody indef raw c ∧ fs.berVal lax o c v
  | _, .cons i _ r, id, indef, raw, .inr v => id ≠ i ∧ r.berVal lax o id indef raw v
end

mutual
/-- A transparent struct has exactly one field to decode. -/
def Ty.deserializable : {α : Type} → Ty α → Prop
  | _, .bool => True
  | _, .int _ => True
  | _, .string => True
  | _, .octetString => True
  | _, .vec t => t.deserializable
  | _, .linkedList t => t.deserializable
  | _, .vecDeque t => t.deserializable
  | _, .btreeSet _ _ _ t => t.deserializable
  | _, .btreeMap _ _ _ k t => k.deserializable ∧ t.deserializable
  | _, .hashSet _ t => t.deserializable
  | _, .hashMap _ k t => k.deserializable ∧ t.deserializable
  | _, .struct _ fs => fs.deserializable
  | _, .enum vs => vs.deserializable
  | _, .transparent fs => fs.deCount = 1 ∧ fs.deserializable
  | _, .conv t _ _ => t.deserializable
  | _, .named t _ _ _ _ => t.deserializable
  | _, .hole => True
/-- The same for the fields that are decoded. -/
def Fields.deserializable : {γ : Type} → Fields γ → Prop
  | _, .nil => True
  | _, .plain t r => t.deserializable ∧ r.deserializable
  | _, .skip _ r => r.deserializable
  | _, .skipSer t r => t.deserializable ∧ r.deserializable
  | _, .skipDe _ _ r => r.deserializable
  | _, .conv t _ _ r => t.deserializable ∧ r.deserializable
/-- The same for all variants. -/
def Variants.deserializable : {ρ : Type} → Variants ρ → Prop
  | _, .nil => True
  | _, .cons _ fs r => fs.deserializable ∧ r.deserializable
end

mutual
/-- Conversions give values of the type they are converted to, and the defaults of encoded fields are values of the type
of the field.  (The Rust compiler checks this; here integers are unbounded and sets are lists.) -/
def Ty.wellTyped : {α : Type} → Ty α → Prop
  | _, .bool => True
  | _, .int _ => True
  | _, .string => True
  | _, .octetString => True
  | _, .vec t => t.wellTyped
  | _, .linkedList t => t.wellTyped
  | _, .vecDeque t => t.wellTyped
  | _, .btreeSet _ _ _ t => t.wellTyped
  | _, .btreeMap _ _ _ k t => k.wellTyped ∧ t.wellTyped
  | _, .hashSet _ t => t.wellTyped
  | _, .hashMap _ k t => k.wellTyped ∧ t.wellTyped
  | _, .struct _ fs => fs.wellTyped
  | _, .enum vs => vs.wellTyped
  | _, .transparent fs => fs.wellTyped
  | _, .conv t f _ => ∀ v, t.ok (f v)
  | _, .named t _ _ _ _ => t.wellTyped
  | _, .hole => True
/-- The same for fields. -/
def Fields.wellTyped : {γ : Type} → Fields γ → Prop
  | _, .nil => True
  | _, .plain t r => t.wellTyped ∧ r.wellTyped
  | _, .skip _ r => r.wellTyped
  | _, .skipSer _ r => r.wellTyped
  | _, .skipDe t d r => t.ok d ∧ r.wellTyped
  | _, .conv t f _ r => (∀ v, t.ok (f v)) ∧ r.wellTyped
/-- The same for variants. -/
def Variants.wellTyped : {ρ : Type} → Variants ρ → Prop
  | _, .nil => True
  | _, .cons _ fs r => fs.wellTyped ∧ r.wellTyped
end

mutual
/-- Types whose values have only one encoding: no sets, maps and conversions, and each field is either encoded and decoded,
or neither. -/
def Ty.canonical : {α : Type} → Ty α → Prop
  | _, .bool => True
  | _, .int _ => True
  | _, .string => True
  | _, .octetString => True
  | _, .vec t => t.canonical
  | _, .linkedList t => t.canonical
  | _, .vecDeque t => t.canonical
  | _, .btreeSet _ _ _ _ => False
  | _, .btreeMap _ _ _ _ _ => False
  | _, .hashSet _ _ => False
  | _, .hashMap _ _ _ => False
  | _, .struct _ fs => fs.canonical
  | _, .enum vs => vs.canonical
  | _, .transparent fs => fs.canonical ∧ fs.serCount = 1
  | _, .conv _ _ _ => False
  | _, .named t _ _ _ _ => t.canonical
  | _, .hole => True
/-- The same for fields. -/
def Fields.canonical : {γ : Type} → Fields γ → Prop
  | _, .nil => True
  | _, .plain t r => t.canonical ∧ r.canonical
  | _, .skip _ r => r.canonical
  | _, .skipSer _ _ => False
  | _, .skipDe _ _ _ => False
  | _, .conv _ _ _ _ => False
/-- The same for variants. -/
def Variants.canonical : {ρ : Type} → Variants ρ → Prop
  | _, .nil => True
  | _, .cons _ fs r => fs.canonical ∧ r.canonical
end

mutual
/-- Types without maps. -/
def Ty.mapFree : {α : Type} → Ty α → Prop
  | _, .bool => True
  | _, .int _ => True
  | _, .string => True
  | _, .octetString => True
  | _, .vec t => t.mapFree
  | _, .linkedList t => t.mapFree
  | _, .vecDeque t => t.mapFree
  | _, .btreeSet _ _ _ t => t.mapFree
  | _, .btreeMap _ _ _ _ _ => False
  | _, .hashSet _ t => t.mapFree
  | _, .hashMap _ _ _ => False
  | _, .struct _ fs => fs.mapFree
  | _, .enum vs => vs.mapFree
  | _, .transparent fs => fs.mapFree
  | _, .conv t _ _ => t.mapFree
  | _, .named t _ _ _ _ => t.mapFree
  | _, .hole => True
/-- The same for fields. -/
def Fields.mapFree : {γ : Type} → Fields γ → Prop
  | _, .nil => True
  | _, .plain t r => t.mapFree ∧ r.mapFree
  | _, .skip _ r => r.mapFree
  | _, .skipSer t r => t.mapFree ∧ r.mapFree
  | _, .skipDe _ _ r => r.mapFree
  | _, .conv t _ _ r => t.mapFree ∧ r.mapFree
/-- The same for variants. -/
def Variants.mapFree : {ρ : Type} → Variants ρ → Prop
  | _, .nil => True
  | _, .cons _ fs r => fs.mapFree ∧ r.mapFree
end

/-- The identifiers of the primitive types, and those of constructed strings. -/
def leafIds : List (List UInt8) := [[0x01], [0x02], [0x04], [0x24], [0x0c], [0x2c]]

/-- Two sequences of BER values that differ only in the form of the length (definite or indefinite) of some values, at any
depth, outside of values with the identifiers `leafIds`. -/
inductive SameSeq : List UInt8 → List UInt8 → Prop
  | nil : SameSeq [] []
  | same (p c c' : List UInt8) : IsBer p → SameSeq c c' → SameSeq (p ++ c) (p ++ c')
  | form (p p' id : List UInt8) (d d' : Bool) (raw raw' b b' c c' : List UInt8) : BerValue p id d raw →
      BerValue p' id d' raw' → id ∉ leafIds → IsBody d raw b → IsBody d' raw' b' → SameSeq b b' → SameSeq c c' →
      SameSeq (p ++ c) (p' ++ c')

end Bsn1.Spec
