import Verif.Spec.Decode
/-!
# The bind request of LDAP (RFC 4511, 4.2), as the READMEs encode and accept it
-/

namespace Bsn1.Spec
open Bsn1

/-- The octets of a text. -/
def textOctets (s : String) : List UInt8 := s.toByteArray.data.toList

/-- What the program of bsn1_serde/README.md is to send: `[APPLICATION 0]` with an INTEGER, an OCTET STRING and `[UNIVERSAL 0]`. -/
def serdeRequest (version : Int) (name : String) (password : List UInt8) : List UInt8 :=
  tlv [0x60] (tlv [0x02] (intOctets version) ++ tlv [0x04] (textOctets name) ++ tlv [0x00] password)

/-- What the program of bsn1/README.md is to send, which is what RFC 4511 asks for: the password is `[CONTEXT 0]`. -/
def rfcRequest (name : String) (password : List UInt8) : List UInt8 :=
  tlv [0x60] (tlv [0x02] [0x03] ++ tlv [0x04] (textOctets name) ++ tlv [0x80] password)

/-- The identifiers with the number 0. -/
def ZeroId (id : List UInt8) : Prop := ∃ c p, c < 4 ∧ p < 2 ∧ id = idOctets c p 0

/-- The requests that the program of bsn1/README.md accepts: after the three values anything may follow. -/
def RawAccepts (req : List UInt8) (name : String) (password : List UInt8) : Prop :=
  ∃ id indef p2 id2 b2 p3 id3 b3 rest, (id = [0x40] ∨ id = [0x60]) ∧
    BerValue req id indef ([0x02, 0x01, 0x03] ++ p2 ++ p3 ++ rest) ∧
    (id2 = [0x04] ∨ id2 = [0x24]) ∧ BerValue p2 id2 b2 (textOctets name) ∧
    ZeroId id3 ∧ BerValue p3 id3 b3 password

/-- The requests that the program of bsn1_serde/README.md accepts, built without debug assertions (`lax`) or with: the version is an INTEGER of
any length form if `lax`, the two octet strings are of definite length, and nothing may follow. -/
def SerdeAccepts (lax : Bool) (req : List UInt8) (version : Int) (name : String) (password : List UInt8) : Prop :=
  ∃ indef raw p1 b1 p2 id2 p3 id3, BerValue req [0x60] indef raw ∧ IsBody indef raw (p1 ++ p2 ++ p3) ∧
    (b1 = true → lax = true) ∧ BerValue p1 [0x02] b1 (intOctets version) ∧ IntTy.InRange .i32 version ∧
    (id2 = [0x04] ∨ id2 = [0x24]) ∧ BerValue p2 id2 false (textOctets name) ∧
    ZeroId id3 ∧ BerValue p3 id3 false password

end Bsn1.Spec
