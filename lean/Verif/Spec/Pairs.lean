import Verif.Spec.Decode
/-!
# Independent specification of encodings without indefinite key-value pairs
-/

namespace Bsn1.Spec

/-- `c` is a concatenation of BER values that all have the property `P`. -/
inductive BerAll (P : List UInt8 → Bool → List UInt8 → Prop) : List UInt8 → Prop
  | nil : BerAll P []
  | cons (p id : List UInt8) (indef : Bool) (raw c : List UInt8) : BerValue p id indef raw → P id indef raw → BerAll P c → BerAll P (p ++ c)

/-- Two values with the properties `K` and `V`, and nothing behind them, are all that follows the length octets. (With an indefinite length, the
second one is the end-of-contents itself.) -/
def TwoValues (K V : List UInt8 → Bool → List UInt8 → Prop) (raw : List UInt8) : Prop :=
  ∃ pk ik dk ck pv iv dv cv, BerValue pk ik dk ck ∧ K ik dk ck ∧ BerValue pv iv dv cv ∧ V iv dv cv ∧ raw = pk ++ pv

mutual
/-- In the octets, where the type has key-value pairs, there are two values and no end-of-contents behind them. -/
def Ty.barePairs : {α : Type} → Ty α → List UInt8 → Bool → List UInt8 → Prop
  | _, .bool, _, _, _ => True
  | _, .int _, _, _, _ => True
  | _, .string, _, _, _ => True
  | _, .octetString, _, _, _ => True
  | _, .vec t, _, indef, raw => ∃ c, IsBody indef raw c ∧ BerAll t.barePairs c
  | _, .linkedList t, _, indef, raw => ∃ c, IsBody indef raw c ∧ BerAll t.barePairs c
  | _, .vecDeque t, _, indef, raw => ∃ c, IsBody indef raw c ∧ BerAll t.barePairs c
  | _, .btreeSet _ _ _ t, _, indef, raw => ∃ c, IsBody indef raw c ∧ BerAll t.barePairs c
  | _, .btreeMap _ _ _ k t, _, indef, raw =>
    ∃ c, IsBody indef raw c ∧ BerAll (fun _ _ raw => TwoValues k.barePairs t.barePairs raw) c
  | _, .hashSet _ t, _, indef, raw => ∃ c, IsBody indef raw c ∧ BerAll t.barePairs c
  | _, .hashMap _ k t, _, indef, raw =>
    ∃ c, IsBody indef raw c ∧ BerAll (fun _ _ raw => TwoValues k.barePairs t.barePairs raw) c
  | _, .struct _ fs, _, indef, raw => ∃ c, IsBody indef raw c ∧ fs.barePairs c
  | _, .enum vs, id, indef, raw => vs.barePairs id indef raw
  | _, .transparent fs, id, indef, raw => fs.bareOne id indef raw
  | _, .conv t _ _, id, indef, raw => t.barePairs id indef raw
  | _, .named t _ _ _ _, id, indef, raw => t.barePairs id indef raw
  | _, .hole, _, _, _ => True
/-- The same for the values of the fields. -/
def Fields.barePairs : {γ : Type} → Fields γ → List UInt8 → Prop
  | _, .nil, _ => True
  | _, .plain t r, c => ∃ p id indef raw c', BerValue p id indef raw ∧ c = p ++ c' ∧ t.barePairs id indef raw ∧ r.barePairs c'
  | _, .skip _ r, c => r.barePairs c
  | _, .skipSer t r, c => ∃ p id indef raw c', BerValue p id indef raw ∧ c = p ++ c' ∧ t.barePairs id indef raw ∧ r.barePairs c'
  | _, .skipDe _ _ r, c => r.barePairs c
  | _, .conv t _ _ r, c => ∃ p id indef raw c', BerValue p id indef raw ∧ c = p ++ c' ∧ t.barePairs id indef raw ∧ r.barePairs c'
/-- The same where the value is that of each field. -/
def Fields.bareOne : {γ : Type} → Fields γ → List UInt8 → Bool → List UInt8 → Prop
  | _, .nil, _, _, _ => True
  | _, .plain t r, id, indef, raw => t.barePairs id indef raw ∧ r.bareOne id indef raw
  | _, .skip _ r, id, indef, raw => r.bareOne id indef raw
  | _, .skipSer t r, id, indef, raw => t.barePairs id indef raw ∧ r.bareOne id indef raw
  | _, .skipDe _ _ r, id, indef, raw => r.bareOne id indef raw
  | _, .conv t _ _ r, id, indef, raw => t.barePairs id indef raw ∧ r.bareOne id indef raw
/-- The same for the variant with the identifier. -/
def Variants.barePairs : {ρ : Type} → Variants ρ → List UInt8 → Bool → List UInt8 → Prop
  | _, .nil, _, _, _ => True
  | _, .cons i fs r, id, indef, raw =>
    (id = i → ∃ c, IsBody indef raw c ∧ fs.barePairs c) ∧ (id ≠ i → r.barePairs id indef raw)
end

end Bsn1.Spec
