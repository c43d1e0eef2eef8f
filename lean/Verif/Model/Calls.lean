import Verif.Model.Types
/-!
# What serializing calls: `der_contents_len` and the conversions of the user

The functions follow bsn1_serde/src/ser/mod.rs, lib.rs:32-121 and the generated code as `Verif.Model.Ser`, `Verif.Model.Derive` and
`Verif.Model.Types` do, and count.  Which way they go is decided by the results of those models.

Simplified: the calls are counted as if no call failed (a failure ends all of them at once, and fewer are made).  A call that a transparent struct hands on
to its field, or a derived type to the tuple or sum that stands for it, is counted once.
-/

namespace Bsn1
open Spec

/-- What is counted: how much a call of `der_contents_len` (bsn1_serde/src/ser/mod.rs:49) and how much a call of a conversion of the user (`into` and `to`,
bsn1_serde_macros/src/data_container.rs:193-204) weighs. -/
structure Weights where
  len : Nat
  conv : Nat

variable {α β γ : Type}

/-- Serializing a value of some type: what `der_contents_len`, `write_id` and `write_der_contents` (bsn1_serde/src/ser/mod.rs:24-52) cost, beside the
methods themselves. -/
structure Costs (α : Type) : Type 1 where
  ser : Ser α
  len : α → Nat
  id : α → Nat
  contents : α → Nat

namespace Costs
variable (w : Weights) (m : Build)

/-- `write_der`, bsn1_serde/src/lib.rs:80-106. -/
def writeDer (s : Costs α) (value : α) : Nat :=
  s.len value + match s.ser.derContentsLen value with
    | .ok (some _) => s.id value + s.contents value
    | .ok none => s.contents value + s.id value
    | _ => 0

/-- `to_der`, bsn1_serde/src/lib.rs:32-63.  (`id_len` calls nothing that is counted.) -/
def toDer (s : Costs α) (value : α) : Nat :=
  s.len value + match s.ser.derContentsLen value with
    | .ok (some _) => s.id value + s.contents value
    | .ok none => s.contents value + s.id value
    | _ => 0

/-- `der_len`, bsn1_serde/src/ser/mod.rs:663-675. -/
def derLen (s : Costs α) (t : α) : Nat := s.len t

/-- The loop of `der_contents_len`, bsn1_serde/src/ser/mod.rs:682-690. -/
def eachLen (s : Costs α) : List α → Nat
  | [] => 0
  | t :: r => s.derLen t + match Bsn1.derLen m s.ser t with
    | .ok (some _) => eachLen s r
    | _ => 0

/-- `for t in self.iter() { write_der(t, buffer)?; } Ok(())`, e.g. bsn1_serde/src/ser/mod.rs:401-405. -/
def writeEach (s : Costs α) : List α → Nat
  | [] => 0
  | t :: r => s.writeDer t + writeEach s r

/-- `match der_len(k)? { Some(..) .. None => to_der(k)? .. }`, bsn1_serde/src/ser/mod.rs:508-523 and 603-618. -/
def entryLen (s : Costs α) (k : α) : Nat :=
  s.derLen k + match Bsn1.derLen m s.ser k with
    | .ok none => s.toDer k
    | _ => 0

/-- `if let Some(der_k) = der_k { .. } else { write_der(k, buffer)? }`, bsn1_serde/src/ser/mod.rs:530-540 and
626-636. -/
def writeEntry (s : Costs α) (k : α) : Nat :=
  match Bsn1.derLen m s.ser k with
  | .ok (some _) => s.writeDer k
  | _ => 0

/-- The loop of `write_der_contents` of `BTreeMap` and `HashMap`, bsn1_serde/src/ser/mod.rs:507-542 and 602-639. -/
def writePairs (sk : Costs α) (sv : Costs β) : List (α × β) → Nat
  | [] => 0
  | kv :: r => sk.entryLen m kv.1 + sv.entryLen m kv.2 + sk.writeEntry m kv.1 + sv.writeEntry m kv.2 + writePairs sk sv r

/-- The loop of `BTreeMap::der_contents_len`, bsn1_serde/src/ser/mod.rs:549-565. -/
def btreeMapLen (sk : Costs α) (sv : Costs β) : List (α × β) → Nat
  | [] => 0
  | kv :: r => sk.derLen kv.1 + match Bsn1.derLen m sk.ser kv.1 with
    | .ok (some _) => sv.derLen kv.2 + match Bsn1.derLen m sv.ser kv.2 with
      | .ok (some _) => btreeMapLen sk sv r
      | _ => 0
    | _ => 0

/-- The loop of `HashMap::der_contents_len`, bsn1_serde/src/ser/mod.rs:646-660. -/
def hashMapLen (sk : Costs α) (sv : Costs β) : List (α × β) → Nat
  | [] => 0
  | kv :: r => sk.derLen kv.1 + match Bsn1.derLen m sk.ser kv.1 with
    | .ok (some _) => sv.derLen kv.2 + match Bsn1.derLen m sv.ser kv.2 with
      | .ok (some _) => hashMapLen sk sv r
      | _ => 0
    | .ok none => hashMapLen sk sv r
    | _ => 0

/-- A type without parts: bsn1_serde/src/ser/mod.rs:54-388, octet_string.rs:63-80. -/
def leaf (s : Ser α) : Costs α := ⟨s, fun _ => w.len, fun _ => 0, fun _ => 0⟩

/-- A collection other than a map: bsn1_serde/src/ser/mod.rs:390-493, 568-590. -/
def coll (t : Costs α) (s : Ser (List α)) : Costs (List α) :=
  ⟨s, fun v => w.len + t.eachLen m v, fun _ => 0, fun v => t.writeEach v⟩

end Costs

/-- What the generator does with a field when serializing, bsn1_serde_macros/src/data_container.rs:190-208. -/
inductive CostField : Type → Type 1
  | skip {β : Type} : CostField β
  | plain {β : Type} (s : Costs β) : CostField β
  | conv {β δ : Type} (s : Costs δ) (f : β → δ) : CostField β

/-- The fields of a struct or variant, in order.  The zip of bsn1_serde_macros/src/data_container.rs:187-190. -/
inductive CostFields : Type → Type 1
  | nil : CostFields Unit
  | cons {β γ : Type} (f : CostField β) (r : CostFields γ) : CostFields (β × γ)

namespace CostFields
variable (w : Weights) (m : Build)

/-- `write_der_contents`, bsn1_serde_macros/src/data_container.rs:183-231. -/
def write {γ : Type} : CostFields γ → γ → Nat
  | .nil, _ => 0
  | .cons .skip r, v => r.write v.2
  | .cons (.plain s) r, v => s.writeDer v.1 + r.write v.2
  | .cons (.conv s f) r, v => w.conv + s.writeDer (f v.1) + r.write v.2

/-- `der_contents_len`, bsn1_serde_macros/src/data_container.rs:269-275. -/
def anyConv {γ : Type} : CostFields γ → Bool
  | .nil => false
  | .cons (.conv _ _) _ => true
  | .cons .skip r => r.anyConv
  | .cons (.plain _) r => r.anyConv

/-- The accumulation of the field sizes, bsn1_serde_macros/src/data_container.rs:285-315. -/
def lenLoop {γ : Type} : CostFields γ → γ → Nat
  | .nil, _ => 0
  | .cons .skip r, v => r.lenLoop v.2
  | .cons (.plain s) r, v => s.len v.1 + match s.ser.derContentsLen v.1 with
    | .ok (some _) => match s.ser.idLen v.1 with
      | .ok (some _) => r.lenLoop v.2
      | _ => 0
    | _ => 0
  | .cons (.conv _ _) _, _ => 0

/-- `der_contents_len`, bsn1_serde_macros/src/data_container.rs:264-316. -/
def len {γ : Type} (fs : CostFields γ) (v : γ) : Nat := w.len + if fs.anyConv then 0 else fs.lenLoop v

/-- `der_contents_len` of a transparent struct, bsn1_serde_macros/src/data_container.rs:319-333: of the first field not skipped (it is the only one). -/
def oneLen {γ : Type} : CostFields γ → γ → Nat
  | .nil, _ => 0
  | .cons .skip r, v => r.oneLen v.2
  | .cons (.plain s) _, v => s.len v.1
  | .cons (.conv _ _) _, _ => w.len

/-- `write_id` of a transparent struct, bsn1_serde_macros/src/data_container.rs:118-145. -/
def oneId {γ : Type} : CostFields γ → γ → Nat
  | .nil, _ => 0
  | .cons .skip r, v => r.oneId v.2
  | .cons (.plain s) _, v => s.id v.1
  | .cons (.conv s f) _, v => w.conv + s.id (f v.1)

/-- `write_der_contents` of a transparent struct, bsn1_serde_macros/src/data_container.rs:234-261. -/
def oneContents {γ : Type} : CostFields γ → γ → Nat
  | .nil, _ => 0
  | .cons .skip r, v => r.oneContents v.2
  | .cons (.plain s) _, v => s.contents v.1
  | .cons (.conv s f) _, v => w.conv + s.contents (f v.1)

end CostFields

/-- The variants of an enum.  bsn1_serde_macros/src/ser/mod.rs:183-186. -/
inductive CostVariants : Type → Type 1
  | nil : CostVariants Empty
  | cons {γ ρ : Type} (fs : CostFields γ) (r : CostVariants ρ) : CostVariants (γ ⊕ ρ)

/-- The `match self` over the variants, bsn1_serde_macros/src/ser/mod.rs:195-227. -/
def CostVariants.pick {ρ : Type} (k : {γ : Type} → CostFields γ → γ → Nat) : CostVariants ρ → ρ → Nat
  | .cons fs _, .inl v => k fs v
  | .cons _ r, .inr v => r.pick k v

mutual
/-- `Serialize` of a type: bsn1_serde/src/ser/mod.rs:54-661, octet_string.rs:63-80, bsn1_serde_macros/src/ser/mod.rs. -/
def Ty.costs (w : Weights) (m : Build) : {α : Type} → Ty α → Costs α
  | _, .bool => .leaf w (Ty.ser m .bool)
  | _, .int t => .leaf w (Ty.ser m (.int t))
  | _, .string => .leaf w (Ty.ser m .string)
  | _, .octetString => .leaf w (Ty.ser m .octetString)
  | _, .vec t => .coll w m (Ty.costs w m t) (Ty.ser m (.vec t))
  | _, .linkedList t => .coll w m (Ty.costs w m t) (Ty.ser m (.linkedList t))
  | _, .vecDeque t => .coll w m (Ty.costs w m t) (Ty.ser m (.vecDeque t))
  | _, .btreeSet cmp h h' t => .coll w m (Ty.costs w m t) (Ty.ser m (.btreeSet cmp h h' t))
  -- bsn1_serde/src/ser/mod.rs:495-566
  | _, .btreeMap cmp h h' k t => ⟨Ty.ser m (.btreeMap cmp h h' k t), fun v => w.len + (Ty.costs w m k).btreeMapLen m (Ty.costs w m t) v, fun _ => 0,
      fun v => (Ty.costs w m k).writePairs m (Ty.costs w m t) v⟩
  | _, .hashSet eq t => .coll w m (Ty.costs w m t) (Ty.ser m (.hashSet eq t))
  -- bsn1_serde/src/ser/mod.rs:592-661
  | _, .hashMap eq k t => ⟨Ty.ser m (.hashMap eq k t), fun v => w.len + (Ty.costs w m k).hashMapLen m (Ty.costs w m t) v, fun _ => 0,
      fun v => (Ty.costs w m k).writePairs m (Ty.costs w m t) v⟩
  -- bsn1_serde_macros/src/ser/mod.rs:121-168
  | _, .struct id fs => ⟨Ty.ser m (.struct id fs), (Fields.costs w m fs).len w, fun _ => 0, (Fields.costs w m fs).write w⟩
  -- bsn1_serde_macros/src/ser/mod.rs:171-228
  | _, .enum vs => ⟨Ty.ser m (.enum vs), (Variants.costs w m vs).pick fun fs => fs.len w, fun _ => 0,
      (Variants.costs w m vs).pick fun fs => fs.write w⟩
  | _, .transparent fs => ⟨Ty.ser m (.transparent fs), (Fields.costs w m fs).oneLen w, (Fields.costs w m fs).oneId w, (Fields.costs w m fs).oneContents w⟩
  -- bsn1_serde_macros/src/ser/mod.rs:59-118
  | _, .conv t f g => ⟨Ty.ser m (.conv t f g), fun _ => w.len, fun v => w.conv + (Ty.costs w m t).id (f v),
      fun v => w.conv + (Ty.costs w m t).contents (f v)⟩
  -- the generated methods work on the fields, which `f` gives
  | _, .named t f g h h' => ⟨Ty.ser m (.named t f g h h'), fun v => (Ty.costs w m t).len (f v), fun v => (Ty.costs w m t).id (f v),
      fun v => (Ty.costs w m t).contents (f v)⟩
  | _, .hole => ⟨Ty.ser m .hole, fun _ => 0, fun _ => 0, fun _ => 0⟩
/-- The serializers of the fields, bsn1_serde_macros/src/data_container.rs:186-208. -/
def Fields.costs (w : Weights) (m : Build) : {γ : Type} → Fields γ → CostFields γ
  | _, .nil => .nil
  | _, .plain t r => .cons (.plain (Ty.costs w m t)) (Fields.costs w m r)
  | _, .skip _ r => .cons .skip (Fields.costs w m r)
  | _, .skipSer _ r => .cons .skip (Fields.costs w m r)
  | _, .skipDe t _ r => .cons (.plain (Ty.costs w m t)) (Fields.costs w m r)
  | _, .conv t f _ r => .cons (.conv (Ty.costs w m t) f) (Fields.costs w m r)
/-- The serializers of the variants, bsn1_serde_macros/src/ser/mod.rs:195-201. -/
def Variants.costs (w : Weights) (m : Build) : {ρ : Type} → Variants ρ → CostVariants ρ
  | _, .nil => .nil
  | _, .cons _ fs r => .cons (Fields.costs w m fs) (Variants.costs w m r)
end

end Bsn1
