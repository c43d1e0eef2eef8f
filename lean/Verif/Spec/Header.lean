import Verif.Spec.Cut
/-!
# Independent specification: octets that start with no length octets

Nothing here refers to the model.
-/

namespace Bsn1.Spec

/-- The header is cut off: nothing at all, a long form without any value octet, or a legal long form start (the first value
octet is not zero, the form is needed, at most 8 octets are announced) with less octets than announced. -/
def LenCutOff (bs : List UInt8) : Prop :=
  bs = [] ∨ (∃ f, bs = [f] ∧ 128 < f.toNat) ∨
  ∃ f s r, bs = f :: s :: r ∧ 128 < f.toNat ∧ f.toNat ≤ 136 ∧ s ≠ 0 ∧ ¬ (f.toNat = 129 ∧ s.toNat < 128) ∧
    (s :: r).length < f.toNat - 128

/-- A long form whose first value octet is zero, or with one value octet below 128. -/
def LenRedundant (bs : List UInt8) : Prop :=
  ∃ f s r, bs = f :: s :: r ∧ 128 < f.toNat ∧ (s = 0 ∨ (f.toNat = 129 ∧ s.toNat < 128))

/-- A long form announcing more than 8 value octets, the first of which is not zero. -/
def LenOverflow (bs : List UInt8) : Prop :=
  ∃ f s r, bs = f :: s :: r ∧ 136 < f.toNat ∧ s ≠ 0

/-- The input starts with a shortest encoding, or `0x80`. -/
def LenAccepted (bs : List UInt8) : Prop :=
  (∃ n rest, n < 2 ^ 64 ∧ bs = lenOctets n ++ rest) ∨ ∃ rest, bs = 0x80 :: rest

end Bsn1.Spec
