import Verif.Conform.DerBer
/-!
# The examples in the documentation, on the model: bsn1/src/der.rs:48-462, ber.rs:65-667, der_ref.rs:33-381, ber_ref.rs:63-382, contents_ref.rs:40-223,
length.rs:56-221, identifier.rs:49-182, identifier_ref.rs:54-641

See `Verif/Conform/Length.lean`.  Each example is one program, whose assertions all have to hold, in both builds.
-/

namespace Bsn1.Conform

/-- The program ends, and its assertions hold. -/
def docHolds (f : Build → Res Bool) : Bool := [Build.debug, .release].all fun m => decide (f m = .ok true)

/-- `assert_eq!` -/
def same {α : Type} [DecidableEq α] (a b : α) : Res Bool := .ok (decide (a = b))

/-- All assertions -/
def all : List (Res Bool) → Res Bool
  | [] => .ok true
  | x :: r => do
    let a ← x
    let b ← all r
    return a && b

/-- `id()`, `length()` and `contents()` of a `Der` are these -/
def derHas (v id : Bytes) (l : Length) (c : Bytes) : Res Bool := .ok (derIs v id l c)
/-- Likewise, of a `Ber` -/
def berHas (v id : Bytes) (l : Length) (c : Bytes) : Res Bool := .ok (berIs v id l c)

/-- `"Foo".as_bytes()` -/
def foo : Bytes := [0x46, 0x6f, 0x6f]
/-- `"Boo".as_bytes()` -/
def boo : Bytes := [0x42, 0x6f, 0x6f]

/-! ### der.rs -/

/-- new: bsn1/src/der.rs:48-58 -/
example : docHolds (fun m => do
    let der ← Der.new m junk IdRef.octetString [10, 20, 30]
    all [same (← DerRef.id der) IdRef.octetString, same (← DerRef.contents der) [10, 20, 30]]) = true := by decide +kernel
/-- with_id_length: bsn1/src/der.rs:90-101 -/
example : docHolds (fun m => do
    let der ← Der.withIdLength m junk IdRef.octetString 5
    let der1 ← DerRef.copyContents der [1, 2, 3, 4, 5]
    all [same (← DerRef.id der) IdRef.octetString, same (← DerRef.length der) (.definite 5), same (← DerRef.contents der).length 5,
      same (← DerRef.contents der1) [1, 2, 3, 4, 5]]) = true := by decide +kernel
/-- parse: bsn1/src/der.rs:145-168 -/
example : docHolds (fun m => do
    let der ← Der.ofInt m junk .i32 10
    all [same (← (Der.parse m der).1) der, same (← (Der.parse m (der ++ [0x00, 0x01])).1) der, same (← (DerRef.parse (der ++ [0x00, 0x01])).1) der]) = true := by
  decide +kernel
/-- from_id_iterator: bsn1/src/der.rs:272-290 -/
example : docHolds (fun m => do
    let a ← Der.ofStr m junk "foo"
    let b ← Der.ofInt m junk .i32 29
    let der0 ← Der.fromIdIterator m IdRef.sequence [a, b]
    let der1 ← Der.new m junk IdRef.sequence (a ++ b)
    let der ← Der.fromIdIterator m IdRef.utf8String [foo, [0x42, 0x61, 0x72]]
    all [same der0 der1, same der (← Der.ofStr m junk "FooBar")]) = true := by decide +kernel
/-- push: bsn1/src/der.rs:338-348 -/
example : docHolds (fun m => do
    let der ← Der.ofBytes m junk (upTo 9)
    let der ← Der.push m junk der 9
    derHas der IdRef.octetString (.definite 10) (upTo 10)) = true := by decide +kernel
/-- extend_from_slice: bsn1/src/der.rs:364-374 -/
example : docHolds (fun m => do
    let der ← Der.ofBytes m junk (upTo 5)
    let der ← Der.extendFromSlice m junk der ((upTo 10).drop 5)
    derHas der IdRef.octetString (.definite 10) (upTo 10)) = true := by decide +kernel
/-- truncate: bsn1/src/der.rs:449-462 -/
example : docHolds (fun m => do
    let der ← Der.ofBytes m junk octets
    let der ← Der.truncate der 100
    derHas der IdRef.octetString (.definite 100) (upTo 100)) = true := by decide +kernel

/-! ### ber.rs -/

/-- new: bsn1/src/ber.rs:65-75 -/
example : docHolds (fun m => do
    let ber ← Ber.new m junk IdRef.octetString foo
    all [same (← BerRef.id ber) IdRef.octetString, same (← BerRef.length ber).isDefinite true, same (← BerRef.contents ber) foo]) = true := by decide +kernel
/-- new_indefinite, with_id_length_indefinite: bsn1/src/ber.rs:109-140, 214-233 -/
example : docHolds (fun m => do
    let c0 ← Ber.new m junk IdRef.utf8String foo
    let c1 ← Ber.new m junk IdRef.integer (← Contents.ofInt .i32 29)
    let contents := c0 ++ c1 ++ BerRef.eoc
    let ber ← Ber.newIndefinite m junk IdRef.sequence contents
    let ber1 ← Ber.withIdLengthIndefinite m junk IdRef.sequence contents.length
    let ber1 ← BerRef.copyContents ber1 contents
    let r ← BerRef.contents ber
    let (c0', r) := BerRef.parse r
    let (c1', r) := BerRef.parse r
    let (c2', r) := BerRef.parse r
    all [same (← BerRef.id ber) IdRef.sequence, same (← BerRef.length ber).isIndefinite true, same (← c0') c0, same (← c1') c1, same (← c2') BerRef.eoc,
      same r [], berHas ber1 IdRef.sequence .indefinite contents]) = true := by decide +kernel
/-- with_id_length: bsn1/src/ber.rs:170-181 -/
example : docHolds (fun m => do
    let ber ← Ber.withIdLength m junk IdRef.utf8String 5
    let ber1 ← BerRef.copyContents ber [0x48, 0x65, 0x6c, 0x6c, 0x6f]
    all [same (← BerRef.id ber) IdRef.utf8String, same (← BerRef.length ber) (.definite 5), same (← BerRef.contents ber).length 5,
      same (← BerRef.contents ber1) [0x48, 0x65, 0x6c, 0x6c, 0x6f]]) = true := by decide +kernel
/-- parse: bsn1/src/ber.rs:272-302 -/
example : docHolds (fun m => do
    let ber ← Ber.ofInt m junk .i32 10
    all [same (Ber.parse m ber) (.ok ber, []), same (Ber.parse m (ber ++ [0x00, 0x01])) (.ok ber, [0x00, 0x01]),
      same (← (BerRef.parse (ber ++ [0x00, 0x01])).1) ber]) = true := by decide +kernel
/-- from_id_iterator, from_id_iterator_indefinite: bsn1/src/ber.rs:411-429, 455-469 -/
example : docHolds (fun m => do
    let a ← Ber.ofStr m junk "foo"
    let b ← Ber.ofInt m junk .i32 29
    let ber0 ← Ber.fromIdIterator m IdRef.sequence [a, b]
    let ber1 ← Ber.new m junk IdRef.sequence (a ++ b)
    let ber ← Ber.fromIdIterator m IdRef.utf8String [foo, [0x42, 0x61, 0x72]]
    let ber2 ← Ber.fromIdIteratorIndefinite m IdRef.sequence [a, b, BerRef.eoc]
    let ber3 ← Ber.newIndefinite m junk IdRef.sequence (a ++ b ++ BerRef.eoc)
    all [same ber0 ber1, same ber (← Ber.ofStr m junk "FooBar"), same ber2 ber3]) = true := by decide +kernel
/-- push: bsn1/src/ber.rs:525-560 -/
example : docHolds (fun m => do
    let ber ← Ber.ofBytes m junk (upTo 9)
    let ber ← Ber.push m junk ber 9
    let c0 ← Ber.ofStr m junk "Foo"
    let c1 ← Ber.ofInt m junk .i32 (-5)
    let indef ← Ber.fromIdIteratorIndefinite m IdRef.sequence [c0, c1]
    let indef ← Ber.push m junk indef 0
    let indef ← Ber.push m junk indef 0
    let r ← BerRef.contents indef
    let (c0', r) := BerRef.parse r
    let (c1', r) := BerRef.parse r
    let (c2', r) := BerRef.parse r
    all [berHas ber IdRef.octetString (.definite 10) (upTo 10), same (← BerRef.id indef) IdRef.sequence, same (← BerRef.length indef).isIndefinite true,
      same r [], same (← c0') c0, same (← c1') c1, same (← c2') BerRef.eoc]) = true := by decide +kernel
/-- extend_from_slice: bsn1/src/ber.rs:580-600 -/
example : docHolds (fun m => do
    let ber ← Ber.ofBytes m junk (upTo 5)
    let ber ← Ber.extendFromSlice m junk ber ((upTo 10).drop 5)
    let indef ← Ber.newIndefinite m junk IdRef.octetString (upTo 5)
    let indef ← Ber.extendFromSlice m junk indef ((upTo 10).drop 5)
    all [berHas ber IdRef.octetString (.definite 10) (upTo 10), berHas indef IdRef.octetString .indefinite (upTo 10)]) = true := by decide +kernel
/-- truncate: bsn1/src/ber.rs:647-667 -/
example : docHolds (fun m => do
    let ber ← Ber.ofBytes m junk octets
    let ber ← Ber.truncate m ber 100
    let indef ← Ber.newIndefinite m junk IdRef.octetString octets
    let indef ← Ber.truncate m indef 100
    all [berHas ber IdRef.octetString (.definite 100) (upTo 100), berHas indef IdRef.octetString .indefinite (upTo 100)]) = true := by decide +kernel

/-! ### der_ref.rs -/

/-- boolean: bsn1/src/der_ref.rs:33-43 -/
example : docHolds (fun _ => do
    all [same (← DerRef.id (DerRef.boolean true)) IdRef.boolean, same ((DerRef.contents (DerRef.boolean true)).bind ContentsRef.toBoolDer) (.ok true),
      same (← DerRef.id (DerRef.boolean false)) IdRef.boolean, same ((DerRef.contents (DerRef.boolean false)).bind ContentsRef.toBoolDer) (.ok false)]) = true := by
  decide +kernel
/-- parse: bsn1/src/der_ref.rs:67-92 -/
example : docHolds (fun m => do
    let der ← Der.ofInt m junk .i32 8
    all [same (DerRef.parse der) (.ok der, []), same (DerRef.parse (der ++ [0xff, 0x00])) (.ok der, [0xff, 0x00])]) = true := by decide +kernel
/-- parse_mut, mut_contents, disassemble_mut: bsn1/src/der_ref.rs:119-148, 322-332, 367-381 -/
example : docHolds (fun m => do
    let der ← Der.ofStr m junk "Foo"
    let (d, rest) := DerRef.parseMut der
    let d1 ← DerRef.setContentsAt (← d) 0 0x42
    let (d2, rest2) := DerRef.parseMut d1
    all [same (← d) der, same rest [], same (← DerRef.contents d1) boo, same rest2 [], same (decide ((← d2) = der)) false, same (← DerRef.contents (← d2)) boo]) =
    true := by decide +kernel
/-- from_mut_bytes_unchecked: bsn1/src/der_ref.rs:224-236 -/
example : docHolds (fun m => do
    let der ← Der.ofInt m junk .i32 8
    let d ← DerRef.setContentsAt der 0 9
    same (decide (d = der)) false) = true := by decide +kernel
/-- id, mut_id: bsn1/src/der_ref.rs:245-251, 260-273 -/
example : docHolds (fun m => do
    let der ← Der.ofInt m junk .i32 4
    let d1 ← DerRef.setClass der .priv
    let d2 ← DerRef.setPc d1 .constructed
    all [same (← DerRef.id der) IdRef.integer, same (← IdRef.clazz (← DerRef.id der)) .universal, same (← IdRef.clazz (← DerRef.id d1)) .priv,
      same (← IdRef.pc (← DerRef.id d1)) .primitive, same (← IdRef.pc (← DerRef.id d2)) .constructed]) = true := by decide +kernel
/-- length, contents, disassemble: bsn1/src/der_ref.rs:290-297, 306-313, 341-352 -/
example : docHolds (fun m => do
    let der ← Der.ofStr m junk "Foo"
    all [derHas der IdRef.utf8String (.definite 3) foo, same (DerRef.disassemble der) (.ok (IdRef.utf8String, .definite 3, foo))]) = true := by decide +kernel

/-! ### ber_ref.rs -/

/-- parse: bsn1/src/ber_ref.rs:63-87 -/
example : docHolds (fun m => do
    let ber ← Ber.ofInt m junk .u8 8
    all [same (BerRef.parse ber) (.ok ber, []), same (BerRef.parse (ber ++ [0x00, 0xff])) (.ok ber, [0x00, 0xff])]) = true := by decide +kernel
/-- parse_mut, disassemble_mut: bsn1/src/ber_ref.rs:118-138, 368-382 -/
example : docHolds (fun m => do
    let ber ← Ber.ofStr m junk "Foo"
    let d ← (BerRef.parseMut ber).1
    let d1 ← BerRef.setContentsAt d 0 0x42
    all [same d ber, same d1 (← Ber.ofStr m junk "Boo"), same (← (BerRef.parseMut d1).1) (← Ber.ofStr m junk "Boo"), same (← BerRef.contents d1) boo]) = true := by
  decide +kernel
/-- from_mut_bytes_unchecked: bsn1/src/ber_ref.rs:225-236 -/
example : docHolds (fun m => do
    let ber ← Ber.ofInt m junk .u8 0x34
    let d ← BerRef.setContentsAt ber 0 0x35
    same (decide (d = ber)) false) = true := by decide +kernel
/-- id, mut_id: bsn1/src/ber_ref.rs:244-251, 260-275 -/
example : docHolds (fun m => do
    let ber ← Ber.ofInt m junk .u8 5
    let d1 ← BerRef.setClass ber .priv
    let d2 ← BerRef.setPc d1 .constructed
    all [same (← BerRef.id ber) IdRef.integer, same (← IdRef.clazz (← BerRef.id ber)) .universal, same (← IdRef.clazz (← BerRef.id d1)) .priv,
      same (← IdRef.pc (← BerRef.id d1)) .primitive, same (← IdRef.pc (← BerRef.id d2)) .constructed]) = true := by decide +kernel
/-- length, contents, mut_contents: bsn1/src/ber_ref.rs:290-297, 306-313, 322-333 -/
example : docHolds (fun m => do
    let ber ← Ber.ofBool m junk false
    let d ← BerRef.copyContents ber (Contents.ofBool true)
    all [same (← BerRef.length ber) (.definite (← BerRef.contents ber).length), same ((BerRef.contents ber).bind ContentsRef.toBoolBer) (.ok false),
      same ((BerRef.contents d).bind ContentsRef.toBoolBer) (.ok true)]) = true := by decide +kernel
/-- disassemble: bsn1/src/ber_ref.rs:342-353 -/
example : docHolds (fun m => do
    let ber ← Ber.ofStr m junk "Foo"
    same (BerRef.disassemble ber) (.ok (IdRef.utf8String, .definite 3, foo))) = true := by decide +kernel

/-! ### contents_ref.rs -/

/-- to_integer: bsn1/src/contents_ref.rs:77-90 -/
example : docHolds (fun _ => do
    all [same ((Contents.ofInt .i32 17).bind (ContentsRef.toInteger .i32)) (.ok 17), same ((Contents.ofInt .i32 (2 ^ 31 - 1)).bind (ContentsRef.toInteger .i16)) (.err .overFlow),
      same ((Contents.ofInt .i32 (-5)).bind (ContentsRef.toInteger .u32)) (.err .overFlow)]) = true := by decide +kernel
/-- to_bool_ber, to_bool_der: bsn1/src/contents_ref.rs:181-189, 215-223 -/
example : docHolds (fun _ => do
    all [same (ContentsRef.toBoolBer (Contents.ofBool true)) (.ok true), same (ContentsRef.toBoolBer (Contents.ofBool false)) (.ok false),
      same (ContentsRef.toBoolDer (Contents.ofBool true)) (.ok true), same (ContentsRef.toBoolDer (Contents.ofBool false)) (.ok false)]) = true := by decide +kernel

/-! ### length.rs -/

/-- parse, to_bytes: bsn1/src/length.rs:56-72, 85-93 -/
example : docHolds (fun _ => do
    let bytes ← (Length.definite 5).toBytes
    let bytes3 ← (Length.definite 3).toBytes
    all [same (Length.eq (.definite 5) (← (Length.parse bytes).1)) true, same (Length.eq (.definite 5) (← (Length.parse (bytes ++ [0x03, 0x04])).1)) true,
      same (Length.eq (.definite 3) (← (Length.parse bytes3).1)) true]) = true := by decide +kernel
/-- len, definite, is_indefinite, is_definite: bsn1/src/length.rs:134-146, 173-181, 193-201, 213-221 -/
example : docHolds (fun _ => do
    all [same (Length.len .indefinite) 1, same (Length.len (.definite 0)) 1, same (Length.len (.definite 127)) 1, same (Length.len (.definite 128)) 2,
      same (Length.definite? .indefinite) none, same (Length.definite? (.definite 45)) (some 45), same (Length.isIndefinite .indefinite) true,
      same (Length.isIndefinite (.definite 12)) false, same (Length.isDefinite .indefinite) false, same (Length.isDefinite (.definite 12)) true]) = true := by
  decide +kernel

/-! ### identifier.rs -/

/-- new: bsn1/src/identifier.rs:49-55 -/
example : docHolds (fun _ => do
    let id ← Id.new 0xaa (← IdRef.clazz IdRef.integer) (← IdRef.pc IdRef.integer) (← IdRef.number IdRef.integer)
    same id IdRef.integer) = true := by decide +kernel
/-- parse: bsn1/src/identifier.rs:113-133 -/
example : docHolds (fun _ => do
    all [same (← (Id.parse IdRef.utf8String).1) IdRef.utf8String, same (← (Id.parse (IdRef.utf8String ++ [0, 1])).1) IdRef.utf8String,
      same (← (IdRef.parse (IdRef.utf8String ++ [0, 1])).1) IdRef.utf8String]) = true := by decide +kernel
/-- set_number: bsn1/src/identifier.rs:174-182 -/
example : docHolds (fun _ => do
    let id ← Id.new 0xaa .priv .primitive 13
    let id1 ← Id.setNumber 0xbb id 34
    all [same (← IdRef.number id) 13, same (← IdRef.number id1) 34]) = true := by decide +kernel

/-! ### identifier_ref.rs -/

/-- parse: bsn1/src/identifier_ref.rs:54-78 -/
example : docHolds (fun _ => do
    all [same (IdRef.parse IdRef.utf8String) (.ok IdRef.utf8String, []), same (IdRef.parse (IdRef.utf8String ++ [0x00, 0x01])) (.ok IdRef.utf8String, [0x00, 0x01])]) =
    true := by decide +kernel
/-- parse_mut: bsn1/src/identifier_ref.rs:106-131 -/
example : docHolds (fun _ => do
    let (d, rest) := IdRef.parseMut IdRef.utf8String
    let d1 ← IdRef.setClass (← d) .priv
    let (d2, _) := IdRef.parseMut d1
    all [same (← d) IdRef.utf8String, same rest [], same (decide ((← d2) = IdRef.utf8String)) false]) = true := by decide +kernel
/-- from_mut_bytes_unchecked: bsn1/src/identifier_ref.rs:187-207 -/
example : docHolds (fun _ => do
    let d ← IdRef.setClass IdRef.eoc .application
    all [same (← IdRef.clazz IdRef.eoc) .universal, same (decide (d = IdRef.eoc)) false, same (← IdRef.clazz d) .application]) = true := by decide +kernel

/-- `class()`, `pc()` and `number()` of an identifier -/
def tagIs (id : Bytes) (f : PCTag) (n : Nat) : Res Bool := do
  all [same (← IdRef.clazz id) .universal, same (← IdRef.pc id) f, same (← IdRef.number id) n]

/-- eoc, boolean, integer, octet_string, octet_string_constructed, null, real, utf8_string, utf8_string_constructed, sequence, set: bsn1/src/identifier_ref.rs:216-405 -/
example : docHolds (fun _ => all [tagIs IdRef.eoc .primitive 0x00, tagIs IdRef.boolean .primitive 0x01, tagIs IdRef.integer .primitive 0x02,
    tagIs IdRef.octetString .primitive 0x04, tagIs IdRef.octetStringConstructed .constructed 0x04, tagIs IdRef.null .primitive 0x05, tagIs IdRef.real .primitive 0x09,
    tagIs IdRef.utf8String .primitive 0x0c, tagIs IdRef.utf8StringConstructed .constructed 0x0c, tagIs IdRef.sequence .constructed 0x10,
    tagIs IdRef.set .constructed 0x11]) = true := by decide +kernel
/-- len, class, is_universal, is_application, is_context_specific, is_private: bsn1/src/identifier_ref.rs:415-507 -/
example : docHolds (fun _ => do
    all [same IdRef.integer.length 1, same (← IdRef.clazz IdRef.eoc) .universal, IdRef.isUniversal (← Id.new 0xaa .universal .primitive 0),
      IdRef.isApplication (← Id.new 0xaa .application .primitive 0), IdRef.isContextSpecific (← Id.new 0xaa .contextSpecific .primitive 0),
      IdRef.isPrivate (← Id.new 0xaa .priv .primitive 0)]) = true := by decide +kernel
/-- pc, is_primitive, is_constructed, number: bsn1/src/identifier_ref.rs:517-578 -/
example : docHolds (fun _ => do
    all [same (← IdRef.pc (← Id.new 0xaa .universal .primitive 0)) .primitive, same (← IdRef.pc (← Id.new 0xaa .application .constructed 1)) .constructed,
      IdRef.isPrimitive (← Id.new 0xaa .universal .primitive 0), IdRef.isConstructed (← Id.new 0xaa .universal .constructed 0),
      same (← IdRef.number (← Id.new 0xaa .application .primitive 49)) 49]) = true := by decide +kernel
/-- set_class, set_pc: bsn1/src/identifier_ref.rs:605-641 -/
example : docHolds (fun _ => do
    let d ← (IdRef.parseMut IdRef.integer).1
    let d1 ← IdRef.setClass d .application
    let d2 ← IdRef.setPc d .constructed
    all [same (← IdRef.clazz d) .universal, same (← IdRef.clazz d1) .application, same (← IdRef.pc d) .primitive, same (← IdRef.pc d2) .constructed]) = true := by
  decide +kernel

end Bsn1.Conform
