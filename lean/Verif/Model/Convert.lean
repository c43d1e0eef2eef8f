import Verif.Model.Ber
import Verif.Model.Contents
/-!
# Conversions to `Der` and `Ber`: bsn1/src/der.rs:508-613, ber.rs:694-817

A `&str` is a Lean `String`; its `as_bytes()` is the UTF-8 encoding.
-/

namespace Bsn1

namespace Der

/-- `From<bool> for Der`, bsn1/src/der.rs:508-513. -/
def ofBool (m : Build) (junk : Nat → UInt8) (contents : Bool) : Res Bytes :=
  Der.new m junk IdRef.boolean (Contents.ofBool contents)

/-- `From<i8>` … `From<usize> for Der`, bsn1/src/der.rs:515-597 (twelve times the same text). -/
def ofInt (m : Build) (junk : Nat → UInt8) (t : IntTy) (contents : Int) : Res Bytes := do
  let c ← Contents.ofInt t contents
  Der.new m junk IdRef.integer c

/-- `From<&str> for Der`, bsn1/src/der.rs:599-607. -/
def ofStr (m : Build) (junk : Nat → UInt8) (contents : String) : Res Bytes :=
  Der.new m junk IdRef.utf8String contents.toByteArray.data.toList

/-- `From<&[u8]> for Der`, bsn1/src/der.rs:609-613. -/
def ofBytes (m : Build) (junk : Nat → UInt8) (contents : Bytes) : Res Bytes :=
  Der.new m junk IdRef.octetString contents

end Der

namespace Ber

/-- `From<Der> for Ber`, bsn1/src/ber.rs:700-706: takes over the buffer. -/
def ofDer (der : Bytes) : Bytes := der

/-- `From<bool> for Ber`, bsn1/src/ber.rs:714-719. -/
def ofBool (m : Build) (junk : Nat → UInt8) (contents : Bool) : Res Bytes := do
  let der ← Der.ofBool m junk contents
  return ofDer der

/-- `From<i8>` … `From<usize> for Ber`, bsn1/src/ber.rs:721-803 (twelve times the same text). -/
def ofInt (m : Build) (junk : Nat → UInt8) (t : IntTy) (contents : Int) : Res Bytes := do
  let der ← Der.ofInt m junk t contents
  return ofDer der

/-- `From<&str> for Ber`, bsn1/src/ber.rs:805-810. -/
def ofStr (m : Build) (junk : Nat → UInt8) (contents : String) : Res Bytes := do
  let der ← Der.ofStr m junk contents
  return ofDer der

/-- `From<&[u8]> for Ber`, bsn1/src/ber.rs:812-817. -/
def ofBytes (m : Build) (junk : Nat → UInt8) (contents : Bytes) : Res Bytes := do
  let der ← Der.ofBytes m junk contents
  return ofDer der

end Ber

end Bsn1
