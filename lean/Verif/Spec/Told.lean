import Verif.Spec.Faults
import Verif.Model.Message
/-!
# Independent specification: where the messages of an error lead

The messages, read from the first to the last, lead from the outermost value inwards: to a field, to the element, key or value with a certain number,
and so on, to the place of the fault.  Numbers are those of the values before, which are all in order.
-/

namespace Bsn1.Spec

variable {α β : Type}

/-- The name of the rules. -/
def Rules.name : Rules → String
  | .der => "DER"
  | .ber _ => "BER"

/-! ### The messages -/

/-- There is no value where the element number `n` is due. -/
def Rules.noElement (r : Rules) (n : Nat) : String := "Failed to parse " ++ r.name ++ " at index " ++ toString n

/-- The fault is in the element number `n`. -/
def Rules.inElement (r : Rules) (n : Nat) : String := "Failed to deserialize " ++ r.name ++ " into element at index " ++ toString n

/-- There is no value where the pair number `n` is due. -/
def Rules.noPair (r : Rules) (n : Nat) : String := "Failed to parse " ++ r.name ++ " of the key-value pair at index " ++ toString n

/-- The pair number `n` is something else. -/
def noSequence (n : Nat) : String := "The id of key-value pair at index " ++ toString n ++ " is not SEQUENCE"

/-- The pair number `n` goes on after the value. -/
def tooMuch (n : Nat) : String := "The key-value pair at index " ++ toString n ++ " includes (an) extra octet(s)"

/-- There is no value where the key, or the value, of pair number `n` is due. -/
def Rules.noPart (r : Rules) (part : String) (n : Nat) : String :=
  "Failed to parse " ++ r.name ++ " of the " ++ part ++ " at index " ++ toString n

/-- The fault is in the key, or in the value, of pair number `n`. -/
def Rules.inPart (r : Rules) (part : String) (n : Nat) : String :=
  "Failed to deserialize " ++ r.name ++ " into the " ++ part ++ " at index " ++ toString n

/-- There is no value where the field is due. -/
def Rules.noField (r : Rules) (field : String) : String := "Failed to parse " ++ r.name ++ " for `" ++ field ++ "`"

/-- The fault is in the field. -/
def Rules.inField (r : Rules) (field : String) : String := "Failed to deserialize " ++ r.name ++ " into `" ++ field ++ "`"

/-- The field has a value that cannot be converted. -/
def noConversion (source field : String) : String := "Failed to convert `" ++ source ++ "` into `" ++ field ++ "`"

/-- The value cannot be converted. -/
def noConversionFrom (source : String) : String := "Failed to convert from `" ++ source ++ "`"

/-! ### Faults, and the messages that lead there -/

/-- The place is inside of what the message names. -/
def within (message : String) (t : Told) : Told := ⟨t.cause, message :: t.messages⟩

/-- The fault is here. -/
def here (e : Error) : Told := ⟨e, []⟩

/-- In a sequence of values `R`, after `n` others, there is something else, or one with the fault `F`. -/
inductive ElemTold (r : Rules) (R : List UInt8 → Bool → List UInt8 → α → Prop) (no : Nat → String)
    (F : Nat → List UInt8 → Bool → List UInt8 → Told → Prop) : (n : Nat) → List UInt8 → Told → Prop
  | octets (n : Nat) (c : List UInt8) (e : Error) : c ≠ [] → r.NoValue c e → ElemTold r R no F n c (within (no n) (here e))
  | here (n : Nat) (c id : List UInt8) (indef : Bool) (raw rest : List UInt8) (t : Told) : r.Starts c id indef raw rest → F n id indef raw t →
      ElemTold r R no F n c t
  | later (n : Nat) (c id : List UInt8) (indef : Bool) (raw rest : List UInt8) (x : α) (t : Told) : r.Starts c id indef raw rest →
      R id indef raw x → ElemTold r R no F (n + 1) rest t → ElemTold r R no F n c t

/-- The fault `F` inside of what the message names. -/
def inside (message : String) (F : List UInt8 → Bool → List UInt8 → Told → Prop) (id : List UInt8) (indef : Bool) (raw : List UInt8) (t : Told) :
    Prop :=
  ∃ t', t = within message t' ∧ F id indef raw t'

/-- What is wrong with the key-value pair number `n`. -/
inductive PairTold (r : Rules) (K : List UInt8 → Bool → List UInt8 → α → Prop) (FK FV : List UInt8 → Bool → List UInt8 → Told → Prop) (n : Nat) :
    List UInt8 → Bool → List UInt8 → Told → Prop
  | tag (id : List UInt8) (indef : Bool) (raw : List UInt8) : id ≠ [0x30] →
      PairTold r K FK FV n id indef raw (within (noSequence n) (here .invalidKeyValuePair))
  | noKey (indef : Bool) (raw : List UInt8) (e : Error) : r.NoValue raw e →
      PairTold r K FK FV n [0x30] indef raw (within (r.noPart "key" n) (here e))
  | noValue (indef : Bool) (raw ik : List UInt8) (dk : Bool) (ck rest : List UInt8) (e : Error) : r.Starts raw ik dk ck rest →
      r.NoValue rest e → PairTold r K FK FV n [0x30] indef raw (within (r.noPart "value" n) (here e))
  | extra (indef : Bool) (raw ik : List UInt8) (dk : Bool) (ck rest iv : List UInt8) (dv : Bool) (cv rest' : List UInt8) :
      r.Starts raw ik dk ck rest → r.Starts rest iv dv cv rest' → rest' ≠ [] →
      PairTold r K FK FV n [0x30] indef raw (within (tooMuch n) (here .invalidKeyValuePair))
  | key (indef : Bool) (raw ik : List UInt8) (dk : Bool) (ck rest iv : List UInt8) (dv : Bool) (cv : List UInt8) (t : Told) :
      r.Starts raw ik dk ck rest → r.Starts rest iv dv cv [] → FK ik dk ck t →
      PairTold r K FK FV n [0x30] indef raw (within (r.inPart "key" n) t)
  | value (indef : Bool) (raw ik : List UInt8) (dk : Bool) (ck rest iv : List UInt8) (dv : Bool) (cv : List UInt8) (k : α) (t : Told) :
      r.Starts raw ik dk ck rest → r.Starts rest iv dv cv [] → K ik dk ck k → FV iv dv cv t →
      PairTold r K FK FV n [0x30] indef raw (within (r.inPart "value" n) t)

/-- What is wrong with a field: there is no value, or it has the fault `F`. -/
def firstTold (r : Rules) (field : String) (F : List UInt8 → Bool → List UInt8 → Told → Prop) (c : List UInt8) (t : Told) : Prop :=
  (∃ e, t = within (r.noField field) (here e) ∧ r.NoValue c e) ∨
  ∃ id indef raw rest, r.Starts c id indef raw rest ∧ inside (r.inField field) F id indef raw t

/-- The value cannot be converted; the cause is the error of the conversion. -/
def convTold (message : String) (g : Back β α) (u : β) (t : Told) : Prop := ∃ ch, g.apply u = .error ch ∧ t = within message (here (.anyhow ch))

/-- The fault is here and is one of a value without parts. -/
def hereIs (P : Error → Prop) (t : Told) : Prop := ∃ e, t = here e ∧ P e

/-- The identifier is not that of the type, or the fault is `P`. -/
def tagTold (ok : Prop) (P : Told → Prop) (t : Told) : Prop := (¬ ok ∧ t = here .unmatchedId) ∨ (ok ∧ P t)

/-- The end-of-contents is missing, or the fault `P` is in what precedes it. -/
def bodyTold (indef : Bool) (raw : List UInt8) (P : List UInt8 → Told → Prop) (t : Told) : Prop :=
  ((∀ c, ¬ IsBody indef raw c) ∧ t = here .unterminatedBytes) ∨ ∃ c, IsBody indef raw c ∧ P c t

/-- The faults of a sequence of elements. -/
def elemsTold (r : Rules) (R : List UInt8 → Bool → List UInt8 → α → Prop) (F : List UInt8 → Bool → List UInt8 → Told → Prop) :
    List UInt8 → Told → Prop :=
  ElemTold r R r.noElement (fun n => inside (r.inElement n) F) 0

/-- The faults of a sequence of key-value pairs. -/
def pairsTold (r : Rules) (K : List UInt8 → Bool → List UInt8 → α → Prop) (V : List UInt8 → Bool → List UInt8 → β → Prop)
    (FK FV : List UInt8 → Bool → List UInt8 → Told → Prop) : List UInt8 → Told → Prop :=
  ElemTold r (r.Pair K V) r.noPair (PairTold r K FK FV) 0

mutual
/-- `t.told r o l id indef raw x`: a value with identifier `id`, indefinite or definite length and `raw` after the length octets denotes nothing of
type `t`; the messages of `x` lead to the fault, and its cause is what is wrong there. -/
def Ty.told (r : Rules) (o : (α : Type) → List α → List α) :
    {α : Type} → Ty α → Labels → List UInt8 → Bool → List UInt8 → Told → Prop
  | _, .bool, _, id, indef, raw, x => hereIs (Ty.bool.fault r o id indef raw) x
  | _, .int t, _, id, indef, raw, x => hereIs ((Ty.int t).fault r o id indef raw) x
  | _, .string, _, id, indef, raw, x => hereIs (Ty.string.fault r o id indef raw) x
  | _, .octetString, _, id, indef, raw, x => hereIs (Ty.octetString.fault r o id indef raw) x
  | _, .vec t, l, id, indef, raw, x => tagTold (id = [0x30]) (bodyTold indef raw (elemsTold r (t.denotes r o) (t.told r o (l.part 0)))) x
  | _, .linkedList t, l, id, indef, raw, x => tagTold (id = [0x30]) (bodyTold indef raw (elemsTold r (t.denotes r o) (t.told r o (l.part 0)))) x
  | _, .vecDeque t, l, id, indef, raw, x => tagTold (id = [0x30]) (bodyTold indef raw (elemsTold r (t.denotes r o) (t.told r o (l.part 0)))) x
  | _, .btreeSet _ _ _ t, l, id, indef, raw, x => tagTold (id = [0x30]) (bodyTold indef raw (elemsTold r (t.denotes r o) (t.told r o (l.part 0)))) x
  | _, .btreeMap _ _ _ k t, l, id, indef, raw, x => tagTold (id = [0x30]) (bodyTold indef raw
      (pairsTold r (k.denotes r o) (t.denotes r o) (k.told r o (l.part 0)) (t.told r o (l.part 1)))) x
  | _, .hashSet _ t, l, id, indef, raw, x => tagTold (id = [0x31]) (bodyTold indef raw (elemsTold r (t.denotes r o) (t.told r o (l.part 0)))) x
  | _, .hashMap _ k t, l, id, indef, raw, x => tagTold (id = [0x31]) (bodyTold indef raw
      (pairsTold r (k.denotes r o) (t.denotes r o) (k.told r o (l.part 0)) (t.told r o (l.part 1)))) x
  | _, .struct i fs, l, id, indef, raw, x => tagTold (id = i) (bodyTold indef raw (fs.told r o l 0)) x
  | _, .enum vs, l, id, indef, raw, x => vs.told r o l 0 id indef raw x
  | _, .transparent fs, l, id, indef, raw, x => fs.toldOne r o l 0 id indef raw x
  | _, .conv t _ g, l, id, indef, raw, x => t.told r o (l.part 0) id indef raw x ∨
      ∃ u, t.denotes r o id indef raw u ∧ convTold (noConversionFrom (l.converted [])) g u x
  | _, .named t _ _ _ _, l, id, indef, raw, x => t.told r o l id indef raw x
  | _, .hole, _, _, _, _, x => x = here .unmatchedId
/-- The same for the fields of a struct from number `k` on. -/
def Fields.told (r : Rules) (o : (α : Type) → List α → List α) : {γ : Type} → Fields γ → Labels → (k : Nat) → List UInt8 → Told → Prop
  | _, .nil, _, _, c, x => c ≠ [] ∧ x = here .extraContentsOctet
  | _, .plain t fs, l, k, c, x => firstTold r (l.field [k]) (t.told r o (l.part k)) c x ∨
      ∃ id indef raw rest v, r.Starts c id indef raw rest ∧ t.denotes r o id indef raw v ∧ fs.told r o l (k + 1) rest x
  | _, .skip _ fs, l, k, c, x => fs.told r o l (k + 1) c x
  | _, .skipSer t fs, l, k, c, x => firstTold r (l.field [k]) (t.told r o (l.part k)) c x ∨
      ∃ id indef raw rest v, r.Starts c id indef raw rest ∧ t.denotes r o id indef raw v ∧ fs.told r o l (k + 1) rest x
  | _, .skipDe _ _ fs, l, k, c, x => fs.told r o l (k + 1) c x
  | _, .conv t _ g fs, l, k, c, x => firstTold r (l.field [k]) (t.told r o (l.part k)) c x ∨
      ∃ id indef raw rest u, r.Starts c id indef raw rest ∧ t.denotes r o id indef raw u ∧
        (convTold (noConversion (l.source [k]) (l.field [k])) g u x ∨ (∃ v, g.apply u = .ok v) ∧ fs.told r o l (k + 1) rest x)
/-- The same for a transparent struct: all fields are decoded from the whole value. -/
def Fields.toldOne (r : Rules) (o : (α : Type) → List α → List α) :
    {γ : Type} → Fields γ → Labels → (k : Nat) → List UInt8 → Bool → List UInt8 → Told → Prop
  | _, .nil, _, _, _, _, _, _ => False
  | _, .plain t fs, l, k, id, indef, raw, x => inside (r.inField (l.field [k])) (t.told r o (l.part k)) id indef raw x ∨
      (∃ v, t.denotes r o id indef raw v) ∧ fs.toldOne r o l (k + 1) id indef raw x
  | _, .skip _ fs, l, k, id, indef, raw, x => fs.toldOne r o l (k + 1) id indef raw x
  | _, .skipSer t fs, l, k, id, indef, raw, x => inside (r.inField (l.field [k])) (t.told r o (l.part k)) id indef raw x ∨
      (∃ v, t.denotes r o id indef raw v) ∧ fs.toldOne r o l (k + 1) id indef raw x
  | _, .skipDe _ _ fs, l, k, id, indef, raw, x => fs.toldOne r o l (k + 1) id indef raw x
  | _, .conv t _ g fs, l, k, id, indef, raw, x => inside (r.inField (l.field [k])) (t.told r o (l.part k)) id indef raw x ∨
      ∃ u, t.denotes r o id indef raw u ∧ (convTold (noConversion (l.source [k]) (l.field [k])) g u x ∨
        (∃ v, g.apply u = .ok v) ∧ fs.toldOne r o l (k + 1) id indef raw x)
/-- The same for an enum, the variants being numbered from `k` on. -/
def Variants.told (r : Rules) (o : (α : Type) → List α → List α) :
    {ρ : Type} → Variants ρ → Labels → (k : Nat) → List UInt8 → Bool → List UInt8 → Told → Prop
  | _, .nil, _, _, _, _, _, x => x = here .unmatchedId
  | _, .cons i fs vs, l, k, id, indef, raw, x =>
    (id = i ∧ bodyTold indef raw (fs.told r o (l.part k) 0) x) ∨ (id ≠ i ∧ vs.told r o l (k + 1) id indef raw x)
end

/-! ### Reading the messages -/

/-- What a message says. -/
inductive Step where
  | noElement (n : Nat)
  | inElement (n : Nat)
  | noPair (n : Nat)
  | noSequence (n : Nat)
  | tooMuch (n : Nat)
  | noKey (n : Nat)
  | inKey (n : Nat)
  | noValue (n : Nat)
  | inValue (n : Nat)
  | noField (field : String)
  | inField (field : String)
  | noConversion (source field : String)
  | noConversionFrom (source : String)

/-- The message. -/
def Step.text (r : Rules) : Step → String
  | .noElement n => r.noElement n
  | .inElement n => r.inElement n
  | .noPair n => r.noPair n
  | .noSequence n => Spec.noSequence n
  | .tooMuch n => Spec.tooMuch n
  | .noKey n => r.noPart "key" n
  | .inKey n => r.inPart "key" n
  | .noValue n => r.noPart "value" n
  | .inValue n => r.inPart "value" n
  | .noField f => r.noField f
  | .inField f => r.inField f
  | .noConversion s f => Spec.noConversion s f
  | .noConversionFrom s => Spec.noConversionFrom s

/-- The names have no back quote, as names in Rust. -/
def Step.Plain : Step → Prop
  | .noConversion s f => '`' ∉ s.toList ∧ '`' ∉ f.toList
  | _ => True

end Bsn1.Spec
