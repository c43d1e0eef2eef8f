import Verif.Spec.Basic
/-!
# Independent specification: headers as they are read without any check

The accessors of `Der`, `Ber` trust their octets.  These are the shapes they read: shortest forms are not asked for.  Nothing here refers
to the model.
-/

namespace Bsn1.Spec

/-- One octet that does not start a long form; or one that does, octets of at least 128, and one below. -/
inductive LooseId : List UInt8 → Prop
  | short (b : UInt8) : b.toNat % 32 ≠ 31 → LooseId [b]
  | long (b : UInt8) (more : List UInt8) (last : UInt8) : b.toNat % 32 = 31 → (∀ o ∈ more, 128 ≤ o.toNat) → last.toNat < 128 →
    LooseId (b :: (more ++ [last]))

/-- The length that octets mean; `none` is the indefinite length.  Numbers are taken modulo `2^64`. -/
inductive LooseLen : List UInt8 → Option Nat → Prop
  | indefinite (b : UInt8) : b.toNat = 128 → LooseLen [b] none
  | short (b : UInt8) : b.toNat < 128 → LooseLen [b] (some b.toNat)
  | long (f : UInt8) (ds : List UInt8) : 128 < f.toNat → ds.length = f.toNat - 128 → LooseLen (f :: ds) (some (natVal ds % 2 ^ 64))

/-- The octets start with a header of this kind. -/
def LooseHeader (bs id : List UInt8) (n : Option Nat) (rest : List UInt8) : Prop :=
  ∃ l, LooseId id ∧ LooseLen l n ∧ bs = id ++ l ++ rest

end Bsn1.Spec
