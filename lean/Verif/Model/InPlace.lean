import Verif.Model.Ber
/-!
# Changes in place through `mut_id` and `mut_contents`: bsn1/src/der_ref.rs, ber_ref.rs

`&mut IdRef` offers `set_class` and `set_pc` only; `&mut ContentsRef` offers `IndexMut` and `AsMut<[u8]>`, neither changes
the length.
-/

namespace Bsn1

/-- `self.mut_id().set_class(cls)`, bsn1/src/der_ref.rs:274-276 and identifier_ref.rs:617-622. -/
def DerRef.setClass (self : Bytes) (cls : ClassTag) : Res Bytes :=
  DerRef.modifyId self fun id => IdRef.setClass id cls

/-- `self.mut_id().set_pc(pc)`, bsn1/src/der_ref.rs:274-276 and identifier_ref.rs:642-648. -/
def DerRef.setPc (self : Bytes) (pc : PCTag) : Res Bytes :=
  DerRef.modifyId self fun id => IdRef.setPc id pc

/-- `self.mut_contents()[i] = b`, bsn1/src/der_ref.rs:333-335 and contents_ref.rs:304-311. -/
def DerRef.setContentsAt (self : Bytes) (i : Nat) (b : UInt8) : Res Bytes := do
  let (_, _, c) ← DerRef.disassemble self
  let c' ← setAt c i b
  return self.take (self.length - c.length) ++ c'

/-- Writing octets through `mut_id()` (bsn1/src/ber_ref.rs:276-278): `f` edits the identifier slice in place, so it must keep
its length. -/
def BerRef.modifyId (self : Bytes) (f : Bytes → Res Bytes) : Res Bytes := do
  let (id, _, _) ← BerRef.disassemble self
  let id' ← f id
  if id'.length = id.length then return id' ++ self.drop id.length else .panic

/-- `self.mut_id().set_class(cls)`, bsn1/src/ber_ref.rs:276-278 and identifier_ref.rs:617-622. -/
def BerRef.setClass (self : Bytes) (cls : ClassTag) : Res Bytes :=
  BerRef.modifyId self fun id => IdRef.setClass id cls

/-- `self.mut_id().set_pc(pc)`, bsn1/src/ber_ref.rs:276-278 and identifier_ref.rs:642-648. -/
def BerRef.setPc (self : Bytes) (pc : PCTag) : Res Bytes :=
  BerRef.modifyId self fun id => IdRef.setPc id pc

/-- `self.mut_contents()[i] = b`, bsn1/src/ber_ref.rs:334-336 and contents_ref.rs:304-311. -/
def BerRef.setContentsAt (self : Bytes) (i : Nat) (b : UInt8) : Res Bytes := do
  let (_, _, c) ← BerRef.disassemble self
  let c' ← setAt c i b
  return self.take (self.length - c.length) ++ c'

end Bsn1
