import Verif.Model.Types
import Verif.Spec.Serde
/-!
# What an implementation of `Serialize` and `Deserialize` owes its users

The two traits can be implemented by hand for any type (bsn1_serde/README.md:63-139 does so), and such types may be fields of
derived types and elements of collections.  A `Codec` says how the values of a type are to be encoded; `Honors` is the promise
of an implementation to do so.  The codecs of collections, structs and enums are put together from those of their parts.
-/

namespace Bsn1.Spec
open Bsn1

variable {α β γ δ ρ : Type}

/-- How the values of a type are to be encoded. -/
structure Codec (α : Type) where
  /-- The identifier and the contents octets. -/
  enc : α → List UInt8 × List UInt8
  /-- The values that can be encoded. -/
  ok : α → Prop
  /-- The second value may be got back for the first. -/
  back : α → α → Prop

/-- The promise for one value: the methods of `Serialize` write the identifier and the contents, a size hint is absent or right, and
the methods of `Deserialize` give a value back from what was written, the same from DER and from BER. -/
structure Honest (s : Ser α) (d : De α) (C : Codec α) (v : α) : Prop where
  isId : IsId (C.enc v).1
  writeId : (s.writeId v).res = .ok () ∧ (s.writeId v).chunks.flatten = (C.enc v).1
  writeContents : (s.writeDerContents v).res = .ok () ∧ (s.writeDerContents v).chunks.flatten = (C.enc v).2
  idLen : s.idLen v = .ok none ∨ s.idLen v = .ok (some (C.enc v).1.length)
  contentsLen : s.derContentsLen v = .ok none ∨ s.derContentsLen v = .ok (some (C.enc v).2.length)
  back : ∃ w, C.back v w ∧ d.fromDer (C.enc v).1 (C.enc v).2 = .ok w ∧
    d.fromBer (C.enc v).1 (.definite (C.enc v).2.length) (C.enc v).2 = .ok w

/-- The promise, for all values whose encoding fits in memory. -/
def Honors (s : Ser α) (d : De α) (C : Codec α) : Prop :=
  ∀ v, C.ok v → (tlvOf (C.enc v)).length ≤ 2 ^ 63 - 1 → Honest s d C v

/-- Both size hints are given for every value. -/
def Sized (s : Ser α) (C : Codec α) : Prop :=
  ∀ v, C.ok v → (tlvOf (C.enc v)).length ≤ 2 ^ 63 - 1 →
    s.idLen v = .ok (some (C.enc v).1.length) ∧ s.derContentsLen v = .ok (some (C.enc v).2.length)

/-- No other value is given back. -/
def Codec.Exact (C : Codec α) : Prop := ∀ v w, C.ok v → C.back v w → w = v

namespace Codec

/-- A SEQUENCE of the elements. -/
def list (C : Codec α) : Codec (List α) where
  enc l := ([0x30], l.flatMap fun x => tlvOf (C.enc x))
  ok l := ∀ x ∈ l, C.ok x
  back := List.Forall₂ C.back

/-- A SEQUENCE of the elements of a set in ascending order. -/
def sorted (cmp : α → α → Ordering) (C : Codec α) : Codec (List α) where
  enc l := ([0x30], l.flatMap fun x => tlvOf (C.enc x))
  ok l := (l.Pairwise fun x y => cmp x y = .lt) ∧ ∀ x ∈ l, C.ok x
  back v w := w = v

/-- A SEQUENCE of the pairs of a map in ascending order of the keys. -/
def sortedPairs (cmp : α → α → Ordering) (K : Codec α) (V : Codec β) : Codec (List (α × β)) where
  enc l := ([0x30], l.flatMap fun x => pairOctets (tlvOf (K.enc x.1)) (tlvOf (V.enc x.2)))
  ok l := (l.Pairwise fun x y => cmp x.1 y.1 = .lt) ∧ ∀ x ∈ l, K.ok x.1 ∧ V.ok x.2
  back := List.Forall₂ fun x y => y.1 = x.1 ∧ V.back x.2 y.2

/-- A SET of the elements; they are given back in any order. -/
def unordered (C : Codec α) : Codec (List α) where
  enc l := ([0x31], l.flatMap fun x => tlvOf (C.enc x))
  ok l := l.Nodup ∧ ∀ x ∈ l, C.ok x
  back v w := w.Perm v

/-- A SET of the pairs; they are given back in any order. -/
def unorderedPairs (K : Codec α) (V : Codec β) : Codec (List (α × β)) where
  enc l := ([0x31], l.flatMap fun x => pairOctets (tlvOf (K.enc x.1)) (tlvOf (V.enc x.2)))
  ok l := (l.map Prod.fst).Nodup ∧ ∀ x ∈ l, K.ok x.1 ∧ V.ok x.2
  back v w := ∃ u, List.Forall₂ (fun x y => y.1 = x.1 ∧ V.back x.2 y.2) v u ∧ w.Perm u

/-- The encoding of another type, to and from which the values are converted. -/
def conv (C : Codec δ) (f : β → δ) (g : Back δ β) : Codec β where
  enc v := C.enc (f v)
  ok v := C.ok (f v) ∧ ∀ u, C.back (f v) u → ∃ w, g.apply u = .ok w
  back v w := ∃ u, C.back (f v) u ∧ g.apply u = .ok w

end Codec

/-- A field of a derived type, with the implementations for its type. -/
inductive HandField : Type → Type 1
  | plain {β : Type} (s : Ser β) (d : De β) (C : Codec β) : HandField β
  /-- `skip` -/
  | skip {β : Type} (dflt : β) : HandField β
  /-- `into` or `to`, and `from` or `try_from` -/
  | conv {β δ : Type} (s : Ser δ) (d : De δ) (C : Codec δ) (f : β → δ) (g : Back δ β) : HandField β

namespace HandField

/-- What the generator of `Serialize` is given. -/
def ser : HandField β → SerField β
  | .plain s _ _ => .plain s
  | .skip _ => .skip
  | .conv s _ _ f _ => .conv s f

/-- What the generator of `Deserialize` is given. -/
def de : HandField β → DeField β
  | .plain _ d _ => .plain d
  | .skip dflt => .skip dflt
  | .conv _ d _ _ (.from_ g) => .from_ d g
  | .conv _ d _ _ (.tryFrom g) => .tryFrom d g

/-- The implementations for the type of the field keep their promise. -/
def Honors : HandField β → Prop
  | .plain s d C => Spec.Honors s d C
  | .skip _ => True
  | .conv s d C _ _ => Spec.Honors s d C

/-- The octets of the field. -/
def enc : HandField β → β → List UInt8
  | .plain _ _ C, v => tlvOf (C.enc v)
  | .skip _, _ => []
  | .conv _ _ C f _, v => tlvOf (C.enc (f v))

/-- The values that can be encoded. -/
def ok : HandField β → β → Prop
  | .plain _ _ C, v => C.ok v
  | .skip _, _ => True
  | .conv _ _ C f g, v => (C.conv f g).ok v

/-- What may be got back. -/
def back : HandField β → β → β → Prop
  | .plain _ _ C, v, w => C.back v w
  | .skip dflt, _, w => w = dflt
  | .conv _ _ C f g, v, w => (C.conv f g).back v w

end HandField

/-- The fields of a struct or of a variant. -/
inductive HandFields : Type → Type 1
  | nil : HandFields Unit
  | cons {β γ : Type} (f : HandField β) (r : HandFields γ) : HandFields (β × γ)

namespace HandFields

/-- What the generator of `Serialize` is given. -/
def ser : {γ : Type} → HandFields γ → SerFields γ
  | _, .nil => .nil
  | _, .cons f r => .cons f.ser r.ser

/-- What the generator of `Deserialize` is given. -/
def de : {γ : Type} → HandFields γ → DeFields γ
  | _, .nil => .nil
  | _, .cons f r => .cons f.de r.de

/-- The implementations for the types of all fields keep their promise. -/
def Honors : {γ : Type} → HandFields γ → Prop
  | _, .nil => True
  | _, .cons f r => f.Honors ∧ r.Honors

/-- The octets of the fields in order. -/
def enc : {γ : Type} → HandFields γ → γ → List UInt8
  | _, .nil, _ => []
  | _, .cons f r, v => f.enc v.1 ++ r.enc v.2

/-- All fields can be encoded. -/
def ok : {γ : Type} → HandFields γ → γ → Prop
  | _, .nil, _ => True
  | _, .cons f r, v => f.ok v.1 ∧ r.ok v.2

/-- Field by field. -/
def back : {γ : Type} → HandFields γ → γ → γ → Prop
  | _, .nil, _, _ => True
  | _, .cons f r, v, w => f.back v.1 w.1 ∧ r.back v.2 w.2

/-- A struct with an identifier. -/
def codec (id : List UInt8) (fs : HandFields γ) : Codec γ where
  enc v := (id, fs.enc v)
  ok := fs.ok
  back := fs.back

/-- How many fields are not skipped. -/
def count : {γ : Type} → HandFields γ → Nat
  | _, .nil => 0
  | _, .cons (.skip _) r => r.count
  | _, .cons (.plain _ _ _) r => r.count + 1
  | _, .cons (.conv _ _ _ _ _) r => r.count + 1

/-- The identifier and the contents of the first field that is not skipped. -/
def encOne : {γ : Type} → HandFields γ → γ → List UInt8 × List UInt8
  | _, .nil, _ => ([], [])
  | _, .cons (.skip _) r, v => r.encOne v.2
  | _, .cons (.plain _ _ C) _, v => C.enc v.1
  | _, .cons (.conv _ _ C f _) _, v => C.enc (f v.1)

/-- A transparent struct: its field alone. -/
def codecOne (fs : HandFields γ) : Codec γ where
  enc := fs.encOne
  ok := fs.ok
  back := fs.back

end HandFields

/-- The variants of an enum. -/
inductive HandVariants : Type → Type 1
  | nil : HandVariants Empty
  | cons {γ ρ : Type} (id : List UInt8) (fs : HandFields γ) (r : HandVariants ρ) : HandVariants (γ ⊕ ρ)

namespace HandVariants

/-- What the generator of `Serialize` is given. -/
def ser : {ρ : Type} → HandVariants ρ → SerVariants ρ
  | _, .nil => .nil
  | _, .cons id fs r => .cons id fs.ser r.ser

/-- What the generator of `Deserialize` is given. -/
def de : {ρ : Type} → HandVariants ρ → DeVariants ρ
  | _, .nil => .nil
  | _, .cons id fs r => .cons id fs.de r.de

/-- The implementations for the types of all fields keep their promise. -/
def Honors : {ρ : Type} → HandVariants ρ → Prop
  | _, .nil => True
  | _, .cons _ fs r => fs.Honors ∧ r.Honors

/-- The identifiers of the variants. -/
def ids : {ρ : Type} → HandVariants ρ → List (List UInt8)
  | _, .nil => []
  | _, .cons id _ r => id :: r.ids

/-- The identifier and the fields of the variant. -/
def enc : {ρ : Type} → HandVariants ρ → ρ → List UInt8 × List UInt8
  | _, .cons id fs _, .inl v => (id, fs.enc v)
  | _, .cons _ _ r, .inr v => r.enc v

/-- The fields of the variant can be encoded. -/
def ok : {ρ : Type} → HandVariants ρ → ρ → Prop
  | _, .cons _ fs _, .inl v => fs.ok v
  | _, .cons _ _ r, .inr v => r.ok v

/-- The same variant, field by field. -/
def back : {ρ : Type} → HandVariants ρ → ρ → ρ → Prop
  | _, .cons _ fs _, .inl v, .inl w => fs.back v w
  | _, .cons _ _ r, .inr v, .inr w => r.back v w
  | _, .cons _ _ _, _, _ => False

/-- An enum. -/
def codec (vs : HandVariants ρ) : Codec ρ where
  enc := vs.enc
  ok := vs.ok
  back := vs.back

end HandVariants

end Bsn1.Spec
