import Verif.Conform.Length
import Verif.Model.Id
/-!
# The tests of the crate, on the model: bsn1/src/identifier.rs:291-473 and identifier_ref.rs:754-962

See `Verif/Conform/Length.lean`.
-/

namespace Bsn1.Conform

/-- `CLASSES` and `PCS` -/
def tags : List (ClassTag × PCTag) :=
  [.universal, .application, .contextSpecific, .priv].flatMap fun c => [(c, .primitive), (c, .constructed)]

/-- A part of `0..=u16::MAX`, with `u128::MAX` -/
def numbers : List Nat := List.range 34 ++ [126, 127, 128, 129, 255, 256, 1000, 0x3ffe, 0x3fff, 0x4000, 0x4001, 65535, 0x1fffff, 0x200000, 2 ^ 128 - 1]

/-- The checks that are done for each class, form and number -/
def eachId (p : ClassTag → PCTag → Nat → Bytes → Bool) : Bool :=
  tags.all fun (c, f) => numbers.all fun n =>
    match Id.new 0xaa c f n with
    | .ok id => p c f n id
    | _ => false

/-- `cl as u8 + pc as u8 + low` -/
def first (t : ClassTag × PCTag) (low : UInt8) : UInt8 := t.1.toU8 + t.2.toU8 + low

/-- The identifier and the rest that `IdRef::parse` gives. -/
def idIs (bytes id rest : Bytes) : Bool := decide (IdRef.parse bytes = (.ok id, rest))

/-- The error that `IdRef::parse` gives; the input is as before. -/
def idErr (bytes : Bytes) (e : Error) : Bool := decide (IdRef.parse bytes = (.err e, bytes))

/-- number_ok, new -/
example : eachId (fun c f n id => decide (IdRef.clazz id = .ok c) && decide (IdRef.pc id = .ok f) && decide (IdRef.number id = .ok n) && idIs id id []) = true := by
  decide +kernel
/-- number_overflow -/
example : tags.all (fun t =>
    let bytes : Bytes := first t 0x1f :: 0x84 :: List.replicate 17 0x80 ++ [0x00]
    decide (Id.parse bytes = (.ok bytes, [])) && decide (IdRef.number bytes = .err .overFlow)) = true := by decide +kernel
/-- new_1_byte -/
example : tags.all (fun t => (List.range 31).all fun i => decide (Id.new 0xaa t.1 t.2 i = .ok [first t (UInt8.ofNat i)])) = true := by decide +kernel
/-- new_2_byte, a part of the numbers -/
example : tags.all (fun t => [31, 32, 33, 63, 64, 65, 126, 127].all fun i => decide (Id.new 0xaa t.1 t.2 i = .ok [first t 0x1f, UInt8.ofNat i])) = true := by
  decide +kernel
/-- new_3_byte, a part of the numbers -/
example : tags.all (fun t => (List.range 17).all fun k =>
    let i := 128 + 1015 * k
    decide (Id.new 0xaa t.1 t.2 i = .ok [first t 0x1f, UInt8.ofNat (i / 128) ||| 0x80, UInt8.ofNat (i % 128)])) = true := by decide +kernel
/-- new_4_bytes -/
example : tags.all (fun t => [0x4000, 0x1fffff].all fun i =>
    decide (Id.new 0xaa t.1 t.2 i = .ok [first t 0x1f, UInt8.ofNat (i / 128 / 128) ||| 0x80, UInt8.ofNat (i / 128) ||| 0x80, UInt8.ofNat (i % 128)])) = true := by
  decide +kernel
/-- new_max_bytes -/
example : tags.all (fun t => decide (Id.new 0xaa t.1 t.2 (2 ^ 128 - 1) = .ok (first t 0x1f :: 0x83 :: List.replicate 17 0xff ++ [0x7f]))) = true := by decide +kernel
/-- set_number, to each number and back -/
example : tags.all (fun (c, f) =>
    match Id.new 0xaa c f 0 with
    | .ok id =>
      let (good, _) := (numbers.dropLast ++ numbers.dropLast.reverse).foldl (fun (good, id) n =>
        match Id.setNumber 0xbb id n with
        | .ok id => (good && decide (IdRef.clazz id = .ok c) && decide (IdRef.pc id = .ok f) && decide (IdRef.number id = .ok n), id)
        | _ => (false, id)) (true, id)
      good
    | _ => false) = true := by decide +kernel
/-- parse_1byte_ok -/
example : tags.all (fun t => (List.range 31).all fun i => idIs [first t (UInt8.ofNat i)] [first t (UInt8.ofNat i)] []) = true := by decide +kernel
/-- parse_2byte_ok, a part of the numbers -/
example : tags.all (fun t => [31, 32, 33, 63, 64, 65, 126, 127].all fun i => idIs [first t 0x1f, UInt8.ofNat i] [first t 0x1f, UInt8.ofNat i] []) = true := by
  decide +kernel
/-- parse_3byte_ok, a part of the numbers -/
example : tags.all (fun t => (List.range 17).all fun k =>
    let i := 128 + 1015 * k
    let bytes : Bytes := [first t 0x1f, UInt8.ofNat (i / 128) ||| 0x80, UInt8.ofNat (i % 128)]
    idIs bytes bytes []) = true := by decide +kernel
/-- parse_4byte_ok -/
example : tags.all (fun t => idIs [first t 0x1f, 0x81, 0x80, 0x00] [first t 0x1f, 0x81, 0x80, 0x00] []) = true := by decide +kernel
/-- parse_2byte_redundant -/
example : tags.all (fun t => (List.range 31).all fun i => idErr [first t 0x1f, UInt8.ofNat i] .redundantBytes) = true := by decide +kernel
/-- parse_3byte_redundant, a part of the octets -/
example : tags.all (fun t => [0x00, 0x01, 0x7f, 0x80, 0x81, 0xff].all fun i => idErr [first t 0x1f, 0x00, i] .redundantBytes) = true := by decide +kernel
/-- parse_empty_unterminated -/
example : idErr [] .unterminatedBytes = true := by decide +kernel
/-- parse_1byte_unterminated -/
example : tags.all (fun t => idErr [first t 0x1f] .unterminatedBytes) = true := by decide +kernel
/-- parse_2byte_unterminated, a part of the octets -/
example : tags.all (fun t => [0x81, 0x82, 0xaa, 0xfe, 0xff].all fun i => idErr [first t 0x1f, i] .unterminatedBytes) = true := by decide +kernel
/-- parse_3byte_unterminated, a part of the octets -/
example : tags.all (fun t => [0x81, 0xaa, 0xff].all fun i => [0x80, 0x81, 0xaa, 0xff].all fun j => idErr [first t 0x1f, i, j] .unterminatedBytes) = true := by
  decide +kernel
/-- set_class -/
example : [ClassTag.universal, .application, .contextSpecific, .priv].all (fun c1 => eachId fun _ f n id =>
    match IdRef.setClass id c1 with
    | .ok id => decide (IdRef.clazz id = .ok c1) && decide (IdRef.pc id = .ok f) && decide (IdRef.number id = .ok n)
    | _ => false) = true := by decide +kernel
/-- set_pc -/
example : [PCTag.primitive, .constructed].all (fun f1 => eachId fun c _ n id =>
    match IdRef.setPc id f1 with
    | .ok id => decide (IdRef.clazz id = .ok c) && decide (IdRef.pc id = .ok f1) && decide (IdRef.number id = .ok n)
    | _ => false) = true := by decide +kernel

end Bsn1.Conform
