import Verif.Spec.Basic
import Verif.Model.Contents
/-!
# Independent specification of the encodings of the supported types

A small language of type expressions, and for each the DER encoding its values must have, the values it has, and
what decoding must restore.  Nothing here refers to the functions of the model; from its modules only the names of
the integer types (`IntTy`) with their ranges and the type of error chains (`Chain`) are used.
-/

namespace Bsn1.Spec

/-- Octets of `n` with a clear first bit. -/
def signedOctets (n : Nat) : List UInt8 :=
  match natOctets n with
  | [] => [0]
  | b :: r => if 128 ≤ b.toNat then 0 :: b :: r else b :: r

/-- Contents octets of an integer (X.690 8.3): shortest two's complement. -/
def intOctets (v : Int) : List UInt8 :=
  if 0 ≤ v then signedOctets v.toNat
  else (signedOctets (-v - 1).toNat).map fun b => 255 - b

/-- How a value is converted back: `from = ".."` or `try_from = ".."`. -/
inductive Back (β α : Type) : Type where
  | from_ (g : β → α)
  | tryFrom (g : β → Except Chain α)

/-- The result of converting back. -/
def Back.apply {β α : Type} : Back β α → β → Except Chain α
  | .from_ g, b => .ok (g b)
  | .tryFrom g, b => g b

mutual
/-- The supported types.  `Ty α` is an expression for a type with values in `α`: integers are `Int`s in a range, ordered
sets and maps the ascending lists of their elements, hashed ones lists without repetition in the order of iteration, structs
tuples of their fields, enums sums of their variants. -/
inductive Ty : Type → Type 1
  | bool : Ty Bool
  | int (t : IntTy) : Ty Int
  | string : Ty String
  | octetString : Ty (List UInt8)
  | vec {α : Type} (t : Ty α) : Ty (List α)
  | linkedList {α : Type} (t : Ty α) : Ty (List α)
  | vecDeque {α : Type} (t : Ty α) : Ty (List α)
  | btreeSet {α : Type} (cmp : α → α → Ordering) (h : Std.TransCmp cmp) (h' : Std.LawfulEqCmp cmp)
      (t : Ty α) : Ty (List α)
  | btreeMap {α β : Type} (cmp : α → α → Ordering) (h : Std.TransCmp cmp) (h' : Std.LawfulEqCmp cmp)
      (k : Ty α) (v : Ty β) : Ty (List (α × β))
  | hashSet {α : Type} (eq : DecidableEq α) (t : Ty α) : Ty (List α)
  | hashMap {α β : Type} (eq : DecidableEq α) (k : Ty α) (v : Ty β) : Ty (List (α × β))
  /-- a derived struct with the identifier octets `id` -/
  | struct {γ : Type} (id : List UInt8) (fs : Fields γ) : Ty γ
  /-- a derived enum -/
  | enum {ρ : Type} (vs : Variants ρ) : Ty ρ
  /-- a derived struct with `transparent` -/
  | transparent {γ : Type} (fs : Fields γ) : Ty γ
  /-- a derived struct or enum with `into` or `to`, and `from` or `try_from` -/
  | conv {α β : Type} (t : Ty β) (f : α → β) (g : Back β α) : Ty α
  /-- a declared type in place of the tuple or sum: `f` takes its values apart and `g` puts them together -/
  | named {α β : Type} (t : Ty β) (f : α → β) (g : β → α) (h : ∀ v, g (f v) = v) (h' : ∀ u, f (g u) = u) : Ty α
  /-- no values: stands for a recursive type below a certain depth (see `Verif.Spec.Rec`) -/
  | hole {α : Type} : Ty α
/-- The fields of a struct or variant. -/
inductive Fields : Type → Type 1
  | nil : Fields Unit
  | plain {β γ : Type} (t : Ty β) (r : Fields γ) : Fields (β × γ)
  /-- `skip`, with the value of `default` -/
  | skip {β γ : Type} (dflt : β) (r : Fields γ) : Fields (β × γ)
  /-- `skip_serializing` only -/
  | skipSer {β γ : Type} (t : Ty β) (r : Fields γ) : Fields (β × γ)
  /-- `skip_deserializing` only, with the value of `default` -/
  | skipDe {β γ : Type} (t : Ty β) (dflt : β) (r : Fields γ) : Fields (β × γ)
  /-- `into` or `to`, and `from` or `try_from`, with the same type -/
  | conv {β δ γ : Type} (t : Ty δ) (f : β → δ) (g : Back δ β) (r : Fields γ) : Fields (β × γ)
/-- The variants of an enum. -/
inductive Variants : Type → Type 1
  | nil : Variants Empty
  | cons {γ ρ : Type} (id : List UInt8) (fs : Fields γ) (r : Variants ρ) : Variants (γ ⊕ ρ)
end

/-- A value in definite form, from its identifier and contents octets. -/
def tlvOf (x : List UInt8 × List UInt8) : List UInt8 := tlv x.1 x.2

/-- A key-value pair: a SEQUENCE of the two values. -/
def pairOctets (k v : List UInt8) : List UInt8 := tlv [0x30] (k ++ v)

mutual
/-- Identifier and contents octets of a value. -/
def Ty.enc : {α : Type} → Ty α → α → List UInt8 × List UInt8
  | _, .bool, v => ([0x01], [if v then 0xff else 0x00])
  | _, .int _, v => ([0x02], intOctets v)
  | _, .string, v => ([0x0c], v.toByteArray.data.toList)
  | _, .octetString, v => ([0x04], v)
  | _, .vec t, v => ([0x30], v.flatMap fun x => tlvOf (t.enc x))
  | _, .linkedList t, v => ([0x30], v.flatMap fun x => tlvOf (t.enc x))
  | _, .vecDeque t, v => ([0x30], v.flatMap fun x => tlvOf (t.enc x))
  | _, .btreeSet _ _ _ t, v => ([0x30], v.flatMap fun x => tlvOf (t.enc x))
  | _, .btreeMap _ _ _ k t, v => ([0x30], v.flatMap fun x => pairOctets (tlvOf (k.enc x.1)) (tlvOf (t.enc x.2)))
  | _, .hashSet _ t, v => ([0x31], v.flatMap fun x => tlvOf (t.enc x))
  | _, .hashMap _ k t, v => ([0x31], v.flatMap fun x => pairOctets (tlvOf (k.enc x.1)) (tlvOf (t.enc x.2)))
  | _, .struct id fs, v => (id, fs.enc v)
  | _, .enum vs, v => vs.enc v
  | _, .transparent fs, v => fs.encOne v
  | _, .conv t f _, v => t.enc (f v)
  | _, .named t f _ _ _, v => t.enc (f v)
  | _, .hole, _ => ([0x05], [])
/-- Contents octets of a struct: the encodings of the fields not skipped, in order. -/
def Fields.enc : {γ : Type} → Fields γ → γ → List UInt8
  | _, .nil, _ => []
  | _, .plain t r, v => tlvOf (t.enc v.1) ++ r.enc v.2
  | _, .skip _ r, v => r.enc v.2
  | _, .skipSer _ r, v => r.enc v.2
  | _, .skipDe t _ r, v => tlvOf (t.enc v.1) ++ r.enc v.2
  | _, .conv t f _ r, v => tlvOf (t.enc (f v.1)) ++ r.enc v.2
/-- Identifier and contents octets of the first field not skipped. -/
def Fields.encOne : {γ : Type} → Fields γ → γ → List UInt8 × List UInt8
  | _, .nil, _ => ([], [])
  | _, .plain t _, v => t.enc v.1
  | _, .skip _ r, v => r.encOne v.2
  | _, .skipSer _ r, v => r.encOne v.2
  | _, .skipDe t _ _, v => t.enc v.1
  | _, .conv t f _ _, v => t.enc (f v.1)
/-- Identifier and contents octets of a value of an enum. -/
def Variants.enc : {ρ : Type} → Variants ρ → ρ → List UInt8 × List UInt8
  | _, .cons id fs _, .inl v => (id, fs.enc v)
  | _, .cons _ _ r, .inr v => r.enc v
end

/-- The DER encoding of a value. -/
def Ty.der {α : Type} (t : Ty α) (v : α) : List UInt8 := tlvOf (t.enc v)

mutual
/-- `t.restores v w`: decoding the encoding of `v` shall give `w`.  This is equality, except that hashed
collections are restored in some order, a skipped field gets its default, and a converted value is converted
back. -/
def Ty.restores : {α : Type} → Ty α → α → α → Prop
  | _, .bool, v, w => w = v
  | _, .int _, v, w => w = v
  | _, .string, v, w => w = v
  | _, .octetString, v, w => w = v
  | _, .vec t, v, w => List.Forall₂ t.restores v w
  | _, .linkedList t, v, w => List.Forall₂ t.restores v w
  | _, .vecDeque t, v, w => List.Forall₂ t.restores v w
  | _, .btreeSet _ _ _ t, v, w => List.Forall₂ t.restores v w
  | _, .btreeMap _ _ _ k t, v, w => List.Forall₂ (fun x y => k.restores x.1 y.1 ∧ t.restores x.2 y.2) v w
  | _, .hashSet _ t, v, w => ∃ u, List.Forall₂ t.restores v u ∧ w.Perm u
  | _, .hashMap _ k t, v, w =>
    ∃ u, List.Forall₂ (fun x y => k.restores x.1 y.1 ∧ t.restores x.2 y.2) v u ∧ w.Perm u
  | _, .struct _ fs, v, w => fs.restores v w
  | _, .enum vs, v, w => vs.restores v w
  | _, .transparent fs, v, w => fs.restores v w
  | _, .conv t f g, v, w => ∃ u, t.restores (f v) u ∧ g.apply u = .ok w
  | _, .named t f _ _ _, v, w => t.restores (f v) (f w)
  | _, .hole, _, _ => False
/-- The same for the fields of a struct. -/
def Fields.restores : {γ : Type} → Fields γ → γ → γ → Prop
  | _, .nil, _, _ => True
  | _, .plain t r, v, w => t.restores v.1 w.1 ∧ r.restores v.2 w.2
  | _, .skip d r, v, w => w.1 = d ∧ r.restores v.2 w.2
  | _, .skipSer t r, v, w => t.restores v.1 w.1 ∧ r.restores v.2 w.2
  | _, .skipDe _ d r, v, w => w.1 = d ∧ r.restores v.2 w.2
  | _, .conv t f g r, v, w => (∃ u, t.restores (f v.1) u ∧ g.apply u = .ok w.1) ∧ r.restores v.2 w.2
/-- The same for an enum: the variant is restored. -/
def Variants.restores : {ρ : Type} → Variants ρ → ρ → ρ → Prop
  | _, .cons _ fs _, .inl v, .inl w => fs.restores v w
  | _, .cons _ _ r, .inr v, .inr w => r.restores v w
  | _, .cons _ _ _, _, _ => False
end

mutual
/-- The values of a type. -/
def Ty.ok : {α : Type} → Ty α → α → Prop
  | _, .bool, _ => True
  | _, .int t, v => t.InRange v
  | _, .string, _ => True
  | _, .octetString, _ => True
  | _, .vec t, v => ∀ x ∈ v, t.ok x
  | _, .linkedList t, v => ∀ x ∈ v, t.ok x
  | _, .vecDeque t, v => ∀ x ∈ v, t.ok x
  | _, .btreeSet cmp _ _ t, v => v.Pairwise (fun x y => cmp x y = .lt) ∧ ∀ x ∈ v, t.ok x
  | _, .btreeMap cmp _ _ k t, v => v.Pairwise (fun x y => cmp x.1 y.1 = .lt) ∧ ∀ x ∈ v, k.ok x.1 ∧ t.ok x.2
  | _, .hashSet _ t, v => v.Nodup ∧ ∀ x ∈ v, t.ok x
  | _, .hashMap _ k t, v => (v.map Prod.fst).Nodup ∧ ∀ x ∈ v, k.ok x.1 ∧ t.ok x.2
  | _, .struct _ fs, v => fs.ok v
  | _, .enum vs, v => vs.ok v
  | _, .transparent fs, v => fs.ok v
  | _, .conv t f _, v => t.ok (f v)
  | _, .named t f _ _ _, v => t.ok (f v)
  | _, .hole, _ => False
/-- The values of the fields: those that are encoded. -/
def Fields.ok : {γ : Type} → Fields γ → γ → Prop
  | _, .nil, _ => True
  | _, .plain t r, v => t.ok v.1 ∧ r.ok v.2
  | _, .skip _ r, v => r.ok v.2
  | _, .skipSer _ r, v => r.ok v.2
  | _, .skipDe t _ r, v => t.ok v.1 ∧ r.ok v.2
  | _, .conv t f _ r, v => t.ok (f v.1) ∧ r.ok v.2
/-- The values of an enum. -/
def Variants.ok : {ρ : Type} → Variants ρ → ρ → Prop
  | _, .cons _ fs _, .inl v => fs.ok v
  | _, .cons _ _ r, .inr v => r.ok v
end

mutual
/-- Whether the size of an encoding is known in advance for each value: no conversion in the type. -/
def Ty.sized : {α : Type} → Ty α → Bool
  | _, .bool => true
  | _, .int _ => true
  | _, .string => true
  | _, .octetString => true
  | _, .vec t => t.sized
  | _, .linkedList t => t.sized
  | _, .vecDeque t => t.sized
  | _, .btreeSet _ _ _ t => t.sized
  | _, .btreeMap _ _ _ k t => k.sized && t.sized
  | _, .hashSet _ t => t.sized
  | _, .hashMap _ k t => k.sized && t.sized
  | _, .struct _ fs => fs.sized
  | _, .enum vs => vs.sized
  | _, .transparent fs => fs.sized
  | _, .conv _ _ _ => false
  | _, .named t _ _ _ _ => t.sized
  | _, .hole => true
/-- The same for the fields that are encoded. -/
def Fields.sized : {γ : Type} → Fields γ → Bool
  | _, .nil => true
  | _, .plain t r => t.sized && r.sized
  | _, .skip _ r => r.sized
  | _, .skipSer _ r => r.sized
  | _, .skipDe t _ r => t.sized && r.sized
  | _, .conv _ _ _ _ => false
/-- The same for all variants. -/
def Variants.sized : {ρ : Type} → Variants ρ → Bool
  | _, .nil => true
  | _, .cons _ fs r => fs.sized && r.sized
end

/-- Number of fields that are encoded. -/
def Fields.serCount : {γ : Type} → Fields γ → Nat
  | _, .nil => 0
  | _, .plain _ r => r.serCount + 1
  | _, .skip _ r => r.serCount
  | _, .skipSer _ r => r.serCount
  | _, .skipDe _ _ r => r.serCount + 1
  | _, .conv _ _ _ r => r.serCount + 1

/-- Number of fields that are decoded. -/
def Fields.deCount : {γ : Type} → Fields γ → Nat
  | _, .nil => 0
  | _, .plain _ r => r.deCount + 1
  | _, .skip _ r => r.deCount
  | _, .skipSer _ r => r.deCount + 1
  | _, .skipDe _ _ r => r.deCount
  | _, .conv _ _ _ r => r.deCount + 1

mutual
/-- The type expression is a type the crate can serialize: identifiers are identifiers, a transparent struct has
exactly one field to encode, the keys of hash maps have known sizes (otherwise see C42). -/
def Ty.serializable : {α : Type} → Ty α → Prop
  | _, .bool => True
  | _, .int _ => True
  | _, .string => True
  | _, .octetString => True
  | _, .vec t => t.serializable
  | _, .linkedList t => t.serializable
  | _, .vecDeque t => t.serializable
  | _, .btreeSet _ _ _ t => t.serializable
  | _, .btreeMap _ _ _ k t => k.serializable ∧ t.serializable
  | _, .hashSet _ t => t.serializable
  | _, .hashMap _ k t => k.serializable ∧ t.serializable ∧ k.sized = true
  | _, .struct id fs => IsId id ∧ fs.serializable
  | _, .enum vs => vs.serializable
  | _, .transparent fs => fs.serCount = 1 ∧ fs.serializable
  | _, .conv t _ _ => t.serializable
  | _, .named t _ _ _ _ => t.serializable
  | _, .hole => True
/-- The same for the fields that are encoded. -/
def Fields.serializable : {γ : Type} → Fields γ → Prop
  | _, .nil => True
  | _, .plain t r => t.serializable ∧ r.serializable
  | _, .skip _ r => r.serializable
  | _, .skipSer _ r => r.serializable
  | _, .skipDe t _ r => t.serializable ∧ r.serializable
  | _, .conv t _ _ r => t.serializable ∧ r.serializable
/-- The same for all variants. -/
def Variants.serializable : {ρ : Type} → Variants ρ → Prop
  | _, .nil => True
  | _, .cons id fs r => IsId id ∧ fs.serializable ∧ r.serializable
end

/-- The identifiers of the variants. -/
def Variants.ids : {ρ : Type} → Variants ρ → List (List UInt8)
  | _, .nil => []
  | _, .cons id _ r => id :: r.ids

/-- Decoding restores each value exactly. -/
def Ty.Faithful {α : Type} (t : Ty α) : Prop := ∀ v w, t.ok v → t.restores v w → w = v

mutual
/-- The type expression describes a type that can be restored: elements of sets and keys of maps are restored
exactly, the variants of an enum have different identifiers, the same fields are encoded and decoded. -/
def Ty.restorable : {α : Type} → Ty α → Prop
  | _, .bool => True
  | _, .int _ => True
  | _, .string => True
  | _, .octetString => True
  | _, .vec t => t.restorable
  | _, .linkedList t => t.restorable
  | _, .vecDeque t => t.restorable
  | _, .btreeSet _ _ _ t => t.restorable ∧ t.Faithful
  | _, .btreeMap _ _ _ k t => k.restorable ∧ t.restorable ∧ k.Faithful
  | _, .hashSet _ t => t.restorable ∧ t.Faithful
  | _, .hashMap _ k t => k.restorable ∧ t.restorable ∧ k.Faithful
  | _, .struct _ fs => fs.restorable
  | _, .enum vs => vs.restorable ∧ vs.ids.Nodup
  | _, .transparent fs => fs.restorable
  | _, .conv t _ _ => t.restorable
  | _, .named t _ _ _ _ => t.restorable
  | _, .hole => True
/-- The same for fields. -/
def Fields.restorable : {γ : Type} → Fields γ → Prop
  | _, .nil => True
  | _, .plain t r => t.restorable ∧ r.restorable
  | _, .skip _ r => r.restorable
  | _, .skipSer _ _ => False
  | _, .skipDe _ _ _ => False
  | _, .conv t _ _ r => t.restorable ∧ r.restorable
/-- The same for variants. -/
def Variants.restorable : {ρ : Type} → Variants ρ → Prop
  | _, .nil => True
  | _, .cons _ fs r => fs.restorable ∧ r.restorable
end

mutual
/-- The conversions inside the value can be undone: `try_from` does not fail on what is restored. -/
def Ty.convertible : {α : Type} → Ty α → α → Prop
  | _, .bool, _ => True
  | _, .int _, _ => True
  | _, .string, _ => True
  | _, .octetString, _ => True
  | _, .vec t, v => ∀ x ∈ v, t.convertible x
  | _, .linkedList t, v => ∀ x ∈ v, t.convertible x
  | _, .vecDeque t, v => ∀ x ∈ v, t.convertible x
  | _, .btreeSet _ _ _ t, v => ∀ x ∈ v, t.convertible x
  | _, .btreeMap _ _ _ k t, v => ∀ x ∈ v, k.convertible x.1 ∧ t.convertible x.2
  | _, .hashSet _ t, v => ∀ x ∈ v, t.convertible x
  | _, .hashMap _ k t, v => ∀ x ∈ v, k.convertible x.1 ∧ t.convertible x.2
  | _, .struct _ fs, v => fs.convertible v
  | _, .enum vs, v => vs.convertible v
  | _, .transparent fs, v => fs.convertible v
  | _, .conv t f g, v => t.convertible (f v) ∧ ∀ u, t.restores (f v) u → ∃ w, g.apply u = .ok w
  | _, .named t f _ _ _, v => t.convertible (f v)
  | _, .hole, _ => True
/-- The same for fields. -/
def Fields.convertible : {γ : Type} → Fields γ → γ → Prop
  | _, .nil, _ => True
  | _, .plain t r, v => t.convertible v.1 ∧ r.convertible v.2
  | _, .skip _ r, v => r.convertible v.2
  | _, .skipSer _ r, v => r.convertible v.2
  | _, .skipDe _ _ r, v => r.convertible v.2
  | _, .conv t f g r, v =>
    (t.convertible (f v.1) ∧ ∀ u, t.restores (f v.1) u → ∃ w, g.apply u = .ok w) ∧ r.convertible v.2
/-- The same for an enum. -/
def Variants.convertible : {ρ : Type} → Variants ρ → ρ → Prop
  | _, .cons _ fs _, .inl v => fs.convertible v
  | _, .cons _ _ r, .inr v => r.convertible v
end

mutual
/-- Types without hashed collections and skipped fields, and with inverse conversions: these are restored exactly. -/
def Ty.exact : {α : Type} → Ty α → Prop
  | _, .bool => True
  | _, .int _ => True
  | _, .string => True
  | _, .octetString => True
  | _, .vec t => t.exact
  | _, .linkedList t => t.exact
  | _, .vecDeque t => t.exact
  | _, .btreeSet _ _ _ t => t.exact
  | _, .btreeMap _ _ _ k t => k.exact ∧ t.exact
  | _, .hashSet _ _ => False
  | _, .hashMap _ _ _ => False
  | _, .struct _ fs => fs.exact
  | _, .enum vs => vs.exact
  | _, .transparent fs => fs.exact
  | _, .conv t f g => t.exact ∧ ∀ v, g.apply (f v) = .ok v
  | _, .named t _ _ _ _ => t.exact
  | _, .hole => True
/-- The same for fields. -/
def Fields.exact : {γ : Type} → Fields γ → Prop
  | _, .nil => True
  | _, .plain t r => t.exact ∧ r.exact
  | _, .skip _ _ => False
  | _, .skipSer t r => t.exact ∧ r.exact
  | _, .skipDe _ _ _ => False
  | _, .conv t f g r => (t.exact ∧ ∀ v, g.apply (f v) = .ok v) ∧ r.exact
/-- The same for variants. -/
def Variants.exact : {ρ : Type} → Variants ρ → Prop
  | _, .nil => True
  | _, .cons _ fs r => fs.exact ∧ r.exact
end

end Bsn1.Spec
