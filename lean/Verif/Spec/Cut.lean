import Verif.Spec.Basic
/-!
# Independent specification: input that is cut off

Nothing here refers to the model.
-/

namespace Bsn1.Spec

/-- Some further octets, at least one, complete `bs` to one encoding `A`. -/
def Completable (A : List UInt8 → Prop) (bs : List UInt8) : Prop := ∃ t, t ≠ [] ∧ A (bs ++ t)

/-- A definite length in its shortest form, or the indefinite one. -/
def IsLen (l : List UInt8) : Prop := l = indefOctets ∨ ∃ n, n < 2 ^ 64 ∧ l = lenOctets n

/-- `bs` is an identifier and one length octet announcing more than eight further octets. -/
def WideLength (bs : List UInt8) : Prop := ∃ (id : List UInt8) (b : UInt8), IsId id ∧ 136 < b.toNat ∧ bs = id ++ [b]

/-- Reading `bs` header by header (skipping the contents of definite values) leads from `d` open values of
indefinite length to `d'` open ones, where another header is due. -/
inductive Due : Nat → List UInt8 → Nat → Prop
  | nil (d : Nat) : Due d [] d
  | skip (d d' : Nat) (id c bs : List UInt8) : 0 < d → IsId id → c.length < 2 ^ 64 → tlv id c ≠ eoc → Due d bs d' →
      Due d (tlv id c ++ bs) d'
  | open (d d' : Nat) (id bs : List UInt8) : IsId id → Due (d + 1) bs d' → Due d (id ++ indefOctets ++ bs) d'
  | close (d d' : Nat) (bs : List UInt8) : 0 < d → Due d bs d' → Due (d + 1) (eoc ++ bs) d'

/-- `bs` ends, where a header is due, with an identifier and one length octet announcing more than eight further
octets. -/
def WideLengthWithin (bs : List UInt8) : Prop := ∃ p q d, Due 0 p d ∧ WideLength q ∧ bs = p ++ q

/-- Identifier and length octets. -/
def IsHeader (h : List UInt8) : Prop := ∃ id l, IsId id ∧ IsLen l ∧ h = id ++ l

/-- With `d` open values of indefinite length, the octet number `j` of `bs` belongs to a header, not to the contents of a value of definite
length. -/
def HeaderOctet (d : Nat) (bs : List UInt8) (j : Nat) : Prop :=
  ∃ p d' h q, Due d p d' ∧ IsHeader h ∧ bs = p ++ (h ++ q) ∧ p.length ≤ j ∧ j < p.length + h.length

end Bsn1.Spec
