import Verif.Spec.Decode
/-!
# Values that make a decoder meet a primitive of indefinite length

Independent of the model: octets are divided into values, and a value is met if all that precedes it denotes values of the types
expected there.
-/

namespace Bsn1.Spec

variable {α β : Type}

/-- In a concatenation of BER values, a value is met that satisfies `T`; those before denote something. -/
inductive ElemTrap (R : List UInt8 → Bool → List UInt8 → α → Prop) (T : List UInt8 → Bool → List UInt8 → Prop) : List UInt8 → Prop
  | here (p id : List UInt8) (indef : Bool) (raw c : List UInt8) : BerValue p id indef raw → T id indef raw → ElemTrap R T (p ++ c)
  | later (p id : List UInt8) (indef : Bool) (raw c : List UInt8) (x : α) : BerValue p id indef raw → R id indef raw x →
      ElemTrap R T c → ElemTrap R T (p ++ c)

/-- The same in a key-value pair: both values must be there before the first is looked at. -/
inductive PairTrap (K : List UInt8 → Bool → List UInt8 → α → Prop) (TK TV : List UInt8 → Bool → List UInt8 → Prop) :
    List UInt8 → Bool → List UInt8 → Prop
  | key (indef : Bool) (pk ik : List UInt8) (dk : Bool) (ck : List UInt8) (pv iv : List UInt8) (dv : Bool) (cv : List UInt8) :
      BerValue pk ik dk ck → BerValue pv iv dv cv → TK ik dk ck → PairTrap K TK TV [0x30] indef (pk ++ pv)
  | value (indef : Bool) (pk ik : List UInt8) (dk : Bool) (ck : List UInt8) (pv iv : List UInt8) (dv : Bool) (cv : List UInt8) (k : α) :
      BerValue pk ik dk ck → BerValue pv iv dv cv → K ik dk ck k → TV iv dv cv → PairTrap K TK TV [0x30] indef (pk ++ pv)

mutual
/-- `t.berTrap o id indef raw`: decoding this value as `t` meets a boolean, integer or string of indefinite length.  For integers any
identifier counts, for the others only that of the type. -/
def Ty.berTrap (o : (α : Type) → List α → List α) : {α : Type} → Ty α → List UInt8 → Bool → List UInt8 → Prop
  | _, .bool, id, indef, _ => id = [0x01] ∧ indef = true
  | _, .int _, _, indef, _ => indef = true
  | _, .string, id, indef, _ => (id = [0x0c] ∨ id = [0x2c]) ∧ indef = true
  | _, .octetString, _, _, _ => False
  | _, .vec t, id, indef, raw => id = [0x30] ∧ ∃ c, IsBody indef raw c ∧ ElemTrap (t.berVal false o) (t.berTrap o) c
  | _, .linkedList t, id, indef, raw => id = [0x30] ∧ ∃ c, IsBody indef raw c ∧ ElemTrap (t.berVal false o) (t.berTrap o) c
  | _, .vecDeque t, id, indef, raw => id = [0x30] ∧ ∃ c, IsBody indef raw c ∧ ElemTrap (t.berVal false o) (t.berTrap o) c
  | _, .btreeSet _ _ _ t, id, indef, raw => id = [0x30] ∧ ∃ c, IsBody indef raw c ∧ ElemTrap (t.berVal false o) (t.berTrap o) c
  | _, .btreeMap _ _ _ k t, id, indef, raw => id = [0x30] ∧ ∃ c, IsBody indef raw c ∧
      ElemTrap (BerPair (k.berVal false o) (t.berVal false o)) (PairTrap (k.berVal false o) (k.berTrap o) (t.berTrap o)) c
  | _, .hashSet _ t, id, indef, raw => id = [0x31] ∧ ∃ c, IsBody indef raw c ∧ ElemTrap (t.berVal false o) (t.berTrap o) c
  | _, .hashMap _ k t, id, indef, raw => id = [0x31] ∧ ∃ c, IsBody indef raw c ∧
      ElemTrap (BerPair (k.berVal false o) (t.berVal false o)) (PairTrap (k.berVal false o) (k.berTrap o) (t.berTrap o)) c
  | _, .struct i fs, id, indef, raw => id = i ∧ ∃ c, IsBody indef raw c ∧ fs.berTrap o c
  | _, .enum vs, id, indef, raw => vs.berTrap o id indef raw
  | _, .transparent fs, id, indef, raw => fs.berTrapOne o id indef raw
  | _, .conv t _ _, id, indef, raw => t.berTrap o id indef raw
  | _, .named t _ _ _ _, id, indef, raw => t.berTrap o id indef raw
  | _, .hole, _, _, _ => False
/-- The same for the fields of a struct, which are decoded in order. -/
def Fields.berTrap (o : (α : Type) → List α → List α) : {γ : Type} → Fields γ → List UInt8 → Prop
  | _, .nil, _ => False
  | _, .plain t r, c => ∃ p id indef raw c', BerValue p id indef raw ∧ c = p ++ c' ∧
      (t.berTrap o id indef raw ∨ (∃ v, t.berVal false o id indef raw v) ∧ r.berTrap o c')
  | _, .skip _ r, c => r.berTrap o c
  | _, .skipSer t r, c => ∃ p id indef raw c', BerValue p id indef raw ∧ c = p ++ c' ∧
      (t.berTrap o id indef raw ∨ (∃ v, t.berVal false o id indef raw v) ∧ r.berTrap o c')
  | _, .skipDe _ _ r, c => r.berTrap o c
  | _, .conv t _ g r, c => ∃ p id indef raw c', BerValue p id indef raw ∧ c = p ++ c' ∧
      (t.berTrap o id indef raw ∨ (∃ u v, t.berVal false o id indef raw u ∧ g.apply u = .ok v) ∧ r.berTrap o c')
/-- The same for a transparent struct: all fields are decoded from the whole value. -/
def Fields.berTrapOne (o : (α : Type) → List α → List α) : {γ : Type} → Fields γ → List UInt8 → Bool → List UInt8 → Prop
  | _, .nil, _, _, _ => False
  | _, .plain t r, id, indef, raw =>
    t.berTrap o id indef raw ∨ (∃ v, t.berVal false o id indef raw v) ∧ r.berTrapOne o id indef raw
  | _, .skip _ r, id, indef, raw => r.berTrapOne o id indef raw
  | _, .skipSer t r, id, indef, raw =>
    t.berTrap o id indef raw ∨ (∃ v, t.berVal false o id indef raw v) ∧ r.berTrapOne o id indef raw
  | _, .skipDe _ _ r, id, indef, raw => r.berTrapOne o id indef raw
  | _, .conv t _ g r, id, indef, raw =>
    t.berTrap o id indef raw ∨ (∃ u v, t.berVal false o id indef raw u ∧ g.apply u = .ok v) ∧ r.berTrapOne o id indef raw
/-- The same for an enum. -/
def Variants.berTrap (o : (α : Type) → List α → List α) : {ρ : Type} → Variants ρ → List UInt8 → Bool → List UInt8 → Prop
  | _, .nil, _, _, _ => False
  | _, .cons i fs r, id, indef, raw =>
    (id = i ∧ ∃ c, IsBody indef raw c ∧ fs.berTrap o c) ∨ (id ≠ i ∧ r.berTrap o id indef raw)
end

end Bsn1.Spec
