import Verif.Model.Prim
/-!
# UTF-8, from RFC 3629 (section 4)

Independent of the strings of Lean: which octets are the encoding of which code points, by the table of the RFC.
-/

namespace Bsn1.Spec

/-- `UTF8-tail`: 80 to BF. -/
def Utf8Tail (b : UInt8) : Prop := 0x80 ≤ b.toNat ∧ b.toNat ≤ 0xbf

/-- `UTF8-char`: the octets of one code point. -/
inductive Utf8Char : Bytes → Nat → Prop
  /-- `UTF8-1 = %x00-7F` -/
  | one (a : UInt8) : a.toNat ≤ 0x7f → Utf8Char [a] a.toNat
  /-- `UTF8-2 = %xC2-DF UTF8-tail` -/
  | two (a b : UInt8) : 0xc2 ≤ a.toNat → a.toNat ≤ 0xdf → Utf8Tail b → Utf8Char [a, b] ((a.toNat - 0xc0) * 0x40 + (b.toNat - 0x80))
  /-- `UTF8-3 = %xE0 %xA0-BF UTF8-tail / %xE1-EC 2( UTF8-tail ) / %xED %x80-9F UTF8-tail / %xEE-EF 2( UTF8-tail )` -/
  | three (a b c : UInt8) : 0xe0 ≤ a.toNat → a.toNat ≤ 0xef → Utf8Tail b → (a.toNat = 0xe0 → 0xa0 ≤ b.toNat) →
      (a.toNat = 0xed → b.toNat ≤ 0x9f) → Utf8Tail c →
      Utf8Char [a, b, c] ((a.toNat - 0xe0) * 0x1000 + (b.toNat - 0x80) * 0x40 + (c.toNat - 0x80))
  /-- `UTF8-4 = %xF0 %x90-BF 2( UTF8-tail ) / %xF1-F3 3( UTF8-tail ) / %xF4 %x80-8F 2( UTF8-tail )` -/
  | four (a b c d : UInt8) : 0xf0 ≤ a.toNat → a.toNat ≤ 0xf4 → Utf8Tail b → (a.toNat = 0xf0 → 0x90 ≤ b.toNat) →
      (a.toNat = 0xf4 → b.toNat ≤ 0x8f) → Utf8Tail c → Utf8Tail d →
      Utf8Char [a, b, c, d] ((a.toNat - 0xf0) * 0x40000 + (b.toNat - 0x80) * 0x1000 + (c.toNat - 0x80) * 0x40 + (d.toNat - 0x80))

/-- `UTF8-octets = *( UTF8-char )` -/
inductive Utf8 : Bytes → List Nat → Prop
  | nil : Utf8 [] []
  | cons {seq : Bytes} {n : Nat} {bs : Bytes} {ns : List Nat} : Utf8Char seq n → Utf8 bs ns → Utf8 (seq ++ bs) (n :: ns)

end Bsn1.Spec
