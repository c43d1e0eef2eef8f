import Verif.Model.Buffer
import Verif.Model.Compare
/-!
# Equality, order and hash of stored values

`Id`, `Contents`, `Der` and `Ber` are structs with the one field `buffer: Buffer`; the model takes them as this buffer.  `IdRef`, `ContentsRef`,
`DerRef` and `BerRef` are structs with the one field `bytes: [u8]`; the model takes them as the octets.
-/

namespace Bsn1

/-- A call of a `Hasher`.  What a hasher computes is not modelled: it is a function of the calls.  `state` of bsn1/src/buffer/mod.rs:156-157. -/
inductive HashCall where
  /-- `write_length_prefix(n)` -/
  | lengthPrefix (n : Nat)
  /-- `write(bytes)` -/
  | write (bytes : Bytes)
  /-- `write_isize(n)` -/
  | isize (n : Int)
  /-- `write_usize(n)` -/
  | usize (n : Nat)
deriving DecidableEq

/-- `<[u8] as Hash>::hash` of the standard library.  It is that of `IdRef`, `ContentsRef`, `DerRef` and `BerRef`, which derive `Hash`:
bsn1/src/identifier_ref.rs:34, contents_ref.rs:30, der_ref.rs:23, ber_ref.rs:35. -/
def sliceHash (bytes : Bytes) : List HashCall := [.lengthPrefix bytes.length, .write bytes]

/-- `Hash` of `Length` (derived), bsn1/src/length.rs:35-41: the discriminant, then the field. -/
def Length.hash : Length → List HashCall
  | .indefinite => [.isize 0]
  | .definite n => [.isize 1, .usize n]

namespace Buf.Impl

variable (I : Impl)

/-- `as_slice`, bsn1/src/buffer/mod.rs:115-117, with the octets read. -/
def asSlice (b : I.B) : M Bytes := do
  let c ← I.cells b
  assumeInit c

/-- `Hash for Buffer`, bsn1/src/buffer/mod.rs:155-159.  It is that of `Id`, `Contents`, `Der` and `Ber`, which derive `Hash`:
bsn1/src/identifier.rs:32, contents.rs:28, der.rs:27, ber.rs:38. -/
def hash (b : I.B) : M (List HashCall) := do
  let s ← I.asSlice b
  return sliceHash s

/-- `PartialEq` of an owned value and octets, bsn1/src/buffer/mod.rs:175-182.  It is that of `Id` and anything that borrows as `IdRef`,
bsn1/src/identifier.rs:273-280, and so on: bsn1/src/contents.rs:329-336, der.rs:653-660, ber.rs:857-864. -/
def eqSlice (b : I.B) (other : Bytes) : M Bool := do
  let s ← I.asSlice b
  return s == other

/-- `PartialEq` of two owned values (the same, where the other one is borrowed as its octets).  bsn1/src/buffer/mod.rs:175-182. -/
def eq (b other : I.B) : M Bool := do
  let o ← I.asSlice other
  I.eqSlice b o

/-- `PartialOrd` of an owned value and octets, bsn1/src/buffer/mod.rs:186-193.  It is that of `Id`, bsn1/src/identifier.rs:282-289. -/
def partialCmpSlice (b : I.B) (other : Bytes) : M (Option Ordering) := do
  let s ← I.asSlice b
  return some (sliceCmp s other)

/-- `Ord for Buffer`, bsn1/src/buffer/mod.rs:195-199.  It is that of `Id`, which derives `Ord`: bsn1/src/identifier.rs:32. -/
def cmp (b other : I.B) : M Ordering := do
  let s ← I.asSlice b
  let o ← I.asSlice other
  return sliceCmp s o

end Buf.Impl
end Bsn1
