import Verif.Model.Ser
import Verif.Model.De
import Verif.Model.Hash
/-!
# `OctetString` and its conversions: bsn1_serde/src/octet_string.rs

A `&str` or `String` is a Lean `String`; `as_bytes()` and `into_bytes()` are its UTF-8 encoding (`Verif.Lemmas.Utf8` shows that it is
that of RFC 3629).
-/

namespace Bsn1

/-- `Cow<'a, [u8]>` of the standard library.  The field of bsn1_serde/src/octet_string.rs:37. -/
inductive Cow where
  | borrowed (octets : Bytes)
  | owned (octets : Bytes)

namespace Cow

/-- `Deref` of `Cow`, which is `AsRef` too.  bsn1_serde/src/octet_string.rs:70, 78. -/
def deref : Cow → Bytes
  | .borrowed b => b
  | .owned b => b

/-- `Cow::into_owned`.  bsn1_serde/src/octet_string.rs:52-60. -/
def intoOwned : Cow → Bytes
  | .borrowed b => b
  | .owned b => b

/-- `Clone` of `Cow`.  Derived at bsn1_serde/src/octet_string.rs:35. -/
def clone : Cow → Cow
  | .borrowed b => .borrowed b
  | .owned b => .owned b

end Cow

/-- `struct OctetString`, bsn1_serde/src/octet_string.rs:35-38. -/
structure OctetString where
  octets : Cow

namespace OctetString

/-- `OctetString::new`, bsn1_serde/src/octet_string.rs:41-49; `val` is what `AsRef<[u8]>` of the argument gives. -/
def new (val : Bytes) : OctetString := ⟨.borrowed val⟩

/-- `OctetString::into_vec`, bsn1_serde/src/octet_string.rs:51-54, and `From<OctetString> for Vec<u8>`, lines 107-111. -/
def intoVec (self : OctetString) : Bytes := self.octets.intoOwned

/-- `AsRef<[u8]>`, bsn1_serde/src/octet_string.rs:57-61. -/
def asRef (self : OctetString) : Bytes := self.octets.deref

/-- `From<Vec<u8>>`, bsn1_serde/src/octet_string.rs:113-119. -/
def fromVec (val : Bytes) : OctetString := ⟨.owned val⟩

/-- `From<&[u8]>`, bsn1_serde/src/octet_string.rs:121-127. -/
def fromSlice (val : Bytes) : OctetString := ⟨.borrowed val⟩

/-- `From<String>`, bsn1_serde/src/octet_string.rs:137-143. -/
def fromString (val : String) : OctetString := ⟨.owned val.toByteArray.data.toList⟩

/-- `From<&str>`, bsn1_serde/src/octet_string.rs:145-151. -/
def fromStr (val : String) : OctetString := ⟨.borrowed val.toByteArray.data.toList⟩

/-- `TryFrom<OctetString> for String`, bsn1_serde/src/octet_string.rs:129-135.  `FromUtf8Error` is the octets that it gives back
(`into_bytes`). -/
def tryIntoString (self : OctetString) : Except Bytes String :=
  match String.fromUTF8? ⟨self.intoVec.toArray⟩ with
  | some s => .ok s
  | none => .error self.intoVec

/-- `Clone` (derived), bsn1_serde/src/octet_string.rs:35. -/
def clone (self : OctetString) : OctetString := ⟨self.octets.clone⟩

/-- `PartialEq` (derived), bsn1_serde/src/octet_string.rs:35: that of `Cow` compares what is behind it. -/
def eq (self other : OctetString) : Bool := self.octets.deref == other.octets.deref

/-- `Ord` (derived), bsn1_serde/src/octet_string.rs:35. -/
def cmp (self other : OctetString) : Ordering := sliceCmp self.octets.deref other.octets.deref

/-- `Hash` (derived), bsn1_serde/src/octet_string.rs:35. -/
def hash (self : OctetString) : List HashCall := sliceHash self.octets.deref

/-- `Serialize for OctetString`, bsn1_serde/src/octet_string.rs:63-80. -/
def ser : Ser OctetString where
  writeId _ := W.writeAll [0x04]
  writeDerContents self := W.writeAll self.octets.deref
  idLen _ := .ok (some 1)
  derContentsLen self := .ok (some self.octets.deref.length)

/-- `Deserialize for OctetString`, bsn1_serde/src/octet_string.rs:82-105. -/
def de : De OctetString where
  fromBer id length contents :=
    if id ≠ IdRef.octetString ∧ id ≠ IdRef.octetStringConstructed then .err .unmatchedId
    else if length.isIndefinite then .err .indefiniteLength
    else .ok ⟨.owned contents⟩
  fromDer id contents :=
    if id ≠ IdRef.octetString then .err .unmatchedId
    else .ok ⟨.owned contents⟩

end OctetString
end Bsn1
