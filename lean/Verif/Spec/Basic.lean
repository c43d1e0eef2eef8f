import Mathlib.Data.Nat.Digits.Lemmas
/-!
# Independent specifications: X.690 octet encodings

Nothing here refers to the model.  Octet strings are `List UInt8`.
-/

namespace Bsn1.Spec

/-- Digits of `n` in base `b`, most significant first, without leading zero. -/
def baseDigits (b n : Nat) : List Nat := (Nat.digits b n).reverse

/-- The natural number denoted by octets in base 256, most significant first. -/
def natVal : List UInt8 → Nat
  | [] => 0
  | b :: r => b.toNat * 256 ^ r.length + natVal r

/-- Octets of `n`, most significant first, without leading zero. -/
def natOctets (n : Nat) : List UInt8 := (baseDigits 256 n).map UInt8.ofNat

/-- Shortest definite length octets (X.690 8.1.3, 10.1). -/
def lenOctets (n : Nat) : List UInt8 :=
  if n < 128 then [UInt8.ofNat n]
  else UInt8.ofNat (128 + (natOctets n).length) :: natOctets n

/-- The octet of an indefinite length (X.690 8.1.3.6). -/
def indefOctets : List UInt8 := [0x80]

/-- Base 128 digits as octets with a continuation bit on all but the last (X.690 8.1.2.4.2). -/
def contOctets : List Nat → List UInt8
  | [] => []
  | [d] => [UInt8.ofNat d]
  | d :: r => UInt8.ofNat (128 + d) :: contOctets r

/-- Shortest identifier octets of class `c` (0 to 3), constructed bit `p` (0 or 1), tag number `n`
(X.690 8.1.2).  The number may be any natural number. -/
def idOctets (c p n : Nat) : List UInt8 :=
  if n < 31 then [UInt8.ofNat (64 * c + 32 * p + n)]
  else UInt8.ofNat (64 * c + 32 * p + 31) :: contOctets (baseDigits 128 n)

/-- A shortest identifier encoding. -/
def IsId (l : List UInt8) : Prop := ∃ c p n, c < 4 ∧ p < 2 ∧ l = idOctets c p n

/-- Two's complement value of octets, most significant first (X.690 8.3.3). -/
def intVal : List UInt8 → Int
  | [] => 0
  | b :: r => natVal (b :: r) - if 128 ≤ b.toNat then 256 ^ (r.length + 1) else 0

/-- Integer contents octets are minimal (X.690 8.3.2): not empty, and if longer than one octet the first nine
bits are not all equal. -/
def IntMinimal : List UInt8 → Prop
  | [] => False
  | [_] => True
  | a :: b :: _ => ¬ (a.toNat = 0 ∧ b.toNat < 128) ∧ ¬ (a.toNat = 255 ∧ 128 ≤ b.toNat)

/-- The identifier octets, length octets and contents octets in definite form. -/
def tlv (id c : List UInt8) : List UInt8 := id ++ lenOctets c.length ++ c

/-- One DER value at the level of tag, length, contents. -/
def IsDer (l : List UInt8) : Prop := ∃ id c, IsId id ∧ c.length < 2 ^ 64 ∧ l = tlv id c

/-- End of contents. -/
def eoc : List UInt8 := [0x00, 0x00]

mutual
/-- One BER value at the level of tag, length, contents: definite form with arbitrary contents, or
indefinite form, where the contents are values other than end-of-contents, up to end-of-contents. -/
inductive IsBer : List UInt8 → Prop
  | definite (id c : List UInt8) : IsId id → c.length < 2 ^ 64 → IsBer (tlv id c)
  | indefinite (id c : List UInt8) : IsId id → BerSeq c → IsBer (id ++ indefOctets ++ c ++ eoc)
/-- A sequence of BER values none of which is end-of-contents. -/
inductive BerSeq : List UInt8 → Prop
  | nil : BerSeq []
  | cons (v r : List UInt8) : IsBer v → v ≠ eoc → BerSeq r → BerSeq (v ++ r)
end

end Bsn1.Spec
