import Verif.Spec.Decode
import Verif.Spec.Header
/-!
# Independent specification: which error tells what is wrong

Octets are divided into values; the fault reported is that of the first value that is not in order, all before denoting values of
the types expected there.
-/

namespace Bsn1.Spec

variable {α β : Type}

/-! ### Octets that start with no value -/

/-- There is no identifier at the start: the octets end too early, or the number starts with a digit octet that a shorter form would do
without. -/
inductive IdFault : List UInt8 → Error → Prop
  | cut (bs : List UInt8) : Completable IsId bs → IdFault bs .unterminatedBytes
  | redundant (b o : UInt8) (r : List UInt8) : b.toNat % 32 = 31 → o.toNat < 31 ∨ o.toNat = 128 → IdFault (b :: o :: r) .redundantBytes

/-- There are no length octets at the start. -/
inductive LenFault : List UInt8 → Error → Prop
  | cut (bs : List UInt8) : LenCutOff bs → LenFault bs .unterminatedBytes
  | redundant (bs : List UInt8) : LenRedundant bs → LenFault bs .redundantBytes
  | overflow (bs : List UInt8) : LenOverflow bs → LenFault bs .overFlow

/-- There is no header at the start. -/
inductive HeaderFault : List UInt8 → Error → Prop
  | id (bs : List UInt8) (e : Error) : IdFault bs e → HeaderFault bs e
  | length (id r : List UInt8) (e : Error) : IsId id → LenFault r e → HeaderFault (id ++ r) e

/-- There is no header of definite length with as many octets behind as it says. -/
inductive DefiniteFault : List UInt8 → Error → Prop
  | header (bs : List UInt8) (e : Error) : HeaderFault bs e → DefiniteFault bs e
  | short (id r : List UInt8) (n : Nat) : IsId id → n < 2 ^ 64 → r.length < n →
      DefiniteFault (id ++ lenOctets n ++ r) .unterminatedBytes

/-- The octets start with no DER value, for the reason `e`. -/
inductive NoDer : List UInt8 → Error → Prop
  | definite (bs : List UInt8) (e : Error) : DefiniteFault bs e → NoDer bs e
  | indefinite (id r : List UInt8) : IsId id → NoDer (id ++ indefOctets ++ r) .indefiniteLength

/-- The octets start with no BER value, for the reason `e`: where a header is due, with `d` values of indefinite length open, there is
none. -/
inductive NoBer : List UInt8 → Error → Prop
  | mk (p r : List UInt8) (d : Nat) (e : Error) : Due 0 p d → DefiniteFault r e → NoBer (p ++ r) e

/-- The rules of a decoder: DER, or BER.  With `lax`, some primitive types are accepted with indefinite length. -/
inductive Rules where
  | der
  | ber (lax : Bool)

/-- `c` starts with a value with identifier `id`, indefinite or definite length and `raw` after the length octets, followed by
`rest`. -/
def Rules.Starts : Rules → (c id : List UInt8) → (indef : Bool) → (raw rest : List UInt8) → Prop
  | .der, c, id, indef, raw, rest => indef = false ∧ IsId id ∧ raw.length < 2 ^ 64 ∧ c = tlv id raw ++ rest
  | .ber _, c, id, indef, raw, rest => ∃ p, BerValue p id indef raw ∧ c = p ++ rest

/-- `c` starts with no value. -/
def Rules.NoValue : Rules → List UInt8 → Error → Prop
  | .der => NoDer
  | .ber _ => NoBer

/-- The identifier of a string: the constructed one counts in BER only. -/
def Rules.Tagged (prim cons : UInt8) (id : List UInt8) : Rules → Prop
  | .der => id = [prim]
  | .ber _ => id = [prim] ∨ id = [cons]

/-- A boolean, integer or string is looked at, if of indefinite length, by lax decoders only. -/
def Rules.Admits (indef : Bool) : Rules → Prop
  | .der => indef = false
  | .ber lax => indef = true → lax = true

/-- What the value denotes. -/
def Ty.denotes (r : Rules) (o : (α : Type) → List α → List α) (t : Ty α) (id : List UInt8) (indef : Bool) (raw : List UInt8) (v : α) : Prop :=
  match r with
  | .der => t.derVal o id raw v
  | .ber lax => t.berVal lax o id indef raw v

/-! ### Faults of values -/

/-- The error as reported by a decoder around: with one more context. -/
def wrapped : Error → Error
  | .anyhow c => .anyhow (.context c)
  | e => .anyhow (.context (.err e))

/-- What is wrong with the contents of a boolean. -/
def boolFault (r : Rules) (c : List UInt8) (e : Error) : Prop :=
  (c = [] ∧ e = .unterminatedBytes) ∨ (2 ≤ c.length ∧ e = .extraContentsOctet) ∨
  (r = .der ∧ ∃ b : UInt8, c = [b] ∧ b ≠ 0x00 ∧ b ≠ 0xff ∧ e = .invalidDerBooleanContents)

/-- What is wrong with the contents of an integer. -/
def intFault (t : IntTy) (c : List UInt8) (e : Error) : Prop :=
  (c = [] ∧ e = .unterminatedBytes) ∨ (c ≠ [] ∧ ¬ IntMinimal c ∧ e = .redundantBytes) ∨
  (IntMinimal c ∧ ¬ t.InRange (intVal c) ∧ e = .overFlow)

/-- The identifier is not that of the type, or the fault is `P`. -/
def tagFault (ok : Prop) (P : Error → Prop) (e : Error) : Prop := (¬ ok ∧ e = .unmatchedId) ∨ (ok ∧ P e)

/-- The end-of-contents is missing, or the fault `P` is in what precedes it. -/
def bodyFault (indef : Bool) (raw : List UInt8) (P : List UInt8 → Error → Prop) (e : Error) : Prop :=
  ((∀ c, ¬ IsBody indef raw c) ∧ e = .unterminatedBytes) ∨ ∃ c, IsBody indef raw c ∧ P c e

/-- In a sequence of values `R`, there is something else, or one with the fault `F`. -/
inductive ElemFault (r : Rules) (R : List UInt8 → Bool → List UInt8 → α → Prop) (F : List UInt8 → Bool → List UInt8 → Error → Prop) :
    List UInt8 → Error → Prop
  | octets (c : List UInt8) (e : Error) : c ≠ [] → r.NoValue c e → ElemFault r R F c (wrapped e)
  | here (c id : List UInt8) (indef : Bool) (raw rest : List UInt8) (e : Error) : r.Starts c id indef raw rest → F id indef raw e →
      ElemFault r R F c (wrapped e)
  | later (c id : List UInt8) (indef : Bool) (raw rest : List UInt8) (x : α) (e : Error) : r.Starts c id indef raw rest →
      R id indef raw x → ElemFault r R F rest e → ElemFault r R F c e

/-- The key-value pairs. -/
def Rules.Pair (r : Rules) (K : List UInt8 → Bool → List UInt8 → α → Prop) (V : List UInt8 → Bool → List UInt8 → β → Prop)
    (id : List UInt8) (indef : Bool) (raw : List UInt8) (x : α × β) : Prop :=
  match r with
  | .der => DerPair (fun id c => K id false c) (fun id c => V id false c) id raw x
  | .ber _ => BerPair K V id indef raw x

/-- What is wrong with a key-value pair: it must be a sequence of two values, of which the key is looked at first. -/
inductive PairFault (r : Rules) (K : List UInt8 → Bool → List UInt8 → α → Prop) (FK FV : List UInt8 → Bool → List UInt8 → Error → Prop) :
    List UInt8 → Bool → List UInt8 → Error → Prop
  | tag (id : List UInt8) (indef : Bool) (raw : List UInt8) : id ≠ [0x30] → PairFault r K FK FV id indef raw .invalidKeyValuePair
  | noKey (indef : Bool) (raw : List UInt8) (e : Error) : r.NoValue raw e → PairFault r K FK FV [0x30] indef raw e
  | noValue (indef : Bool) (raw ik : List UInt8) (dk : Bool) (ck rest : List UInt8) (e : Error) : r.Starts raw ik dk ck rest →
      r.NoValue rest e → PairFault r K FK FV [0x30] indef raw e
  | extra (indef : Bool) (raw ik : List UInt8) (dk : Bool) (ck rest iv : List UInt8) (dv : Bool) (cv rest' : List UInt8) :
      r.Starts raw ik dk ck rest → r.Starts rest iv dv cv rest' → rest' ≠ [] → PairFault r K FK FV [0x30] indef raw .invalidKeyValuePair
  | key (indef : Bool) (raw ik : List UInt8) (dk : Bool) (ck rest iv : List UInt8) (dv : Bool) (cv : List UInt8) (e : Error) :
      r.Starts raw ik dk ck rest → r.Starts rest iv dv cv [] → FK ik dk ck e → PairFault r K FK FV [0x30] indef raw e
  | value (indef : Bool) (raw ik : List UInt8) (dk : Bool) (ck rest iv : List UInt8) (dv : Bool) (cv : List UInt8) (k : α) (e : Error) :
      r.Starts raw ik dk ck rest → r.Starts rest iv dv cv [] → K ik dk ck k → FV iv dv cv e → PairFault r K FK FV [0x30] indef raw e

/-- What is wrong with a field: there is no value, or it has the fault `F`. -/
def firstFault (r : Rules) (F : List UInt8 → Bool → List UInt8 → Error → Prop) (c : List UInt8) (e : Error) : Prop :=
  ∃ e', e = wrapped e' ∧ (r.NoValue c e' ∨ ∃ id indef raw rest, r.Starts c id indef raw rest ∧ F id indef raw e')

/-- The value cannot be converted. -/
def convFault (g : Back β α) (u : β) (e : Error) : Prop := ∃ ch, g.apply u = .error ch ∧ e = .anyhow (.context ch)

mutual
/-- `t.fault r o id indef raw e`: a value with identifier `id`, indefinite or definite length and `raw` after the length octets denotes
nothing of type `t`, and the reason reported is `e`. -/
def Ty.fault (r : Rules) (o : (α : Type) → List α → List α) : {α : Type} → Ty α → List UInt8 → Bool → List UInt8 → Error → Prop
  | _, .bool, id, indef, raw, e => tagFault (id = [0x01]) (fun e => r.Admits indef ∧ boolFault r raw e) e
  | _, .int t, id, indef, raw, e => r.Admits indef ∧ tagFault (id = [0x02]) (intFault t raw) e
  | _, .string, id, indef, raw, e => tagFault (r.Tagged 0x0c 0x2c id)
      (fun e => r.Admits indef ∧ (¬ ∃ s : String, raw = s.toByteArray.data.toList) ∧ e = .invalidUtf8) e
  | _, .octetString, id, indef, _, e => tagFault (r.Tagged 0x04 0x24 id) (fun e => indef = true ∧ e = .indefiniteLength) e
  | _, .vec t, id, indef, raw, e => tagFault (id = [0x30]) (bodyFault indef raw (ElemFault r (t.denotes r o) (t.fault r o))) e
  | _, .linkedList t, id, indef, raw, e => tagFault (id = [0x30]) (bodyFault indef raw (ElemFault r (t.denotes r o) (t.fault r o))) e
  | _, .vecDeque t, id, indef, raw, e => tagFault (id = [0x30]) (bodyFault indef raw (ElemFault r (t.denotes r o) (t.fault r o))) e
  | _, .btreeSet _ _ _ t, id, indef, raw, e => tagFault (id = [0x30]) (bodyFault indef raw (ElemFault r (t.denotes r o) (t.fault r o))) e
  | _, .btreeMap _ _ _ k t, id, indef, raw, e => tagFault (id = [0x30]) (bodyFault indef raw
      (ElemFault r (r.Pair (k.denotes r o) (t.denotes r o)) (PairFault r (k.denotes r o) (k.fault r o) (t.fault r o)))) e
  | _, .hashSet _ t, id, indef, raw, e => tagFault (id = [0x31]) (bodyFault indef raw (ElemFault r (t.denotes r o) (t.fault r o))) e
  | _, .hashMap _ k t, id, indef, raw, e => tagFault (id = [0x31]) (bodyFault indef raw
      (ElemFault r (r.Pair (k.denotes r o) (t.denotes r o)) (PairFault r (k.denotes r o) (k.fault r o) (t.fault r o)))) e
  | _, .struct i fs, id, indef, raw, e => tagFault (id = i) (bodyFault indef raw (fs.fault r o)) e
  | _, .enum vs, id, indef, raw, e => vs.fault r o id indef raw e
  | _, .transparent fs, id, indef, raw, e => fs.faultOne r o id indef raw e
  | _, .conv t _ g, id, indef, raw, e => t.fault r o id indef raw e ∨ ∃ u, t.denotes r o id indef raw u ∧ convFault g u e
  | _, .named t _ _ _ _, id, indef, raw, e => t.fault r o id indef raw e
  | _, .hole, _, _, _, e => e = .unmatchedId
/-- The same for the fields of a struct, which are decoded in order; nothing may follow the last one. -/
def Fields.fault (r : Rules) (o : (α : Type) → List α → List α) : {γ : Type} → Fields γ → List UInt8 → Error → Prop
  | _, .nil, c, e => c ≠ [] ∧ e = .extraContentsOctet
  | _, .plain t fs, c, e => firstFault r (t.fault r o) c e ∨
      ∃ id indef raw rest v, r.Starts c id indef raw rest ∧ t.denotes r o id indef raw v ∧ fs.fault r o rest e
  | _, .skip _ fs, c, e => fs.fault r o c e
  | _, .skipSer t fs, c, e => firstFault r (t.fault r o) c e ∨
      ∃ id indef raw rest v, r.Starts c id indef raw rest ∧ t.denotes r o id indef raw v ∧ fs.fault r o rest e
  | _, .skipDe _ _ fs, c, e => fs.fault r o c e
  | _, .conv t _ g fs, c, e => firstFault r (t.fault r o) c e ∨
      ∃ id indef raw rest u, r.Starts c id indef raw rest ∧ t.denotes r o id indef raw u ∧
        (convFault g u e ∨ (∃ v, g.apply u = .ok v) ∧ fs.fault r o rest e)
/-- The same for a transparent struct: all fields are decoded from the whole value. -/
def Fields.faultOne (r : Rules) (o : (α : Type) → List α → List α) :
    {γ : Type} → Fields γ → List UInt8 → Bool → List UInt8 → Error → Prop
  | _, .nil, _, _, _, _ => False
  | _, .plain t fs, id, indef, raw, e => (∃ e', e = wrapped e' ∧ t.fault r o id indef raw e') ∨
      (∃ v, t.denotes r o id indef raw v) ∧ fs.faultOne r o id indef raw e
  | _, .skip _ fs, id, indef, raw, e => fs.faultOne r o id indef raw e
  | _, .skipSer t fs, id, indef, raw, e => (∃ e', e = wrapped e' ∧ t.fault r o id indef raw e') ∨
      (∃ v, t.denotes r o id indef raw v) ∧ fs.faultOne r o id indef raw e
  | _, .skipDe _ _ fs, id, indef, raw, e => fs.faultOne r o id indef raw e
  | _, .conv t _ g fs, id, indef, raw, e => (∃ e', e = wrapped e' ∧ t.fault r o id indef raw e') ∨
      ∃ u, t.denotes r o id indef raw u ∧ (convFault g u e ∨ (∃ v, g.apply u = .ok v) ∧ fs.faultOne r o id indef raw e)
/-- The same for an enum: only the first variant with this identifier counts. -/
def Variants.fault (r : Rules) (o : (α : Type) → List α → List α) :
    {ρ : Type} → Variants ρ → List UInt8 → Bool → List UInt8 → Error → Prop
  | _, .nil, _, _, _, e => e = .unmatchedId
  | _, .cons i fs vs, id, indef, raw, e =>
    (id = i ∧ bodyFault indef raw (fs.fault r o) e) ∨ (id ≠ i ∧ vs.fault r o id indef raw e)
end

end Bsn1.Spec
