import Verif.Conform.Length
import Verif.Model.Contents
/-!
# The tests of the crate, on the model: bsn1/src/contents.rs:338-866 and contents_ref.rs:330-348

See `Verif/Conform/Length.lean`.
-/

namespace Bsn1.Conform

/-- A value of an integer type becomes the octets. -/
def intIs (t : IntTy) (i : Int) (bytes : Bytes) : Bool := decide (Contents.ofInt t i = .ok bytes)

/-- The octets of a value are read to it again, with and without checks. -/
def intTrip (t : IntTy) (i : Int) : Bool :=
  match Contents.ofInt t i with
  | .ok c => decide (ContentsRef.toInteger t c = .ok i) && decide (ContentsRef.toIntegerUnchecked t c = .ok i)
  | _ => false

/-- Whether the octets are read to a value. -/
def intOk (t : IntTy) (c : Bytes) : Bool :=
  match ContentsRef.toInteger t c with
  | .ok _ => true
  | _ => false

/-- A part of `i16::MIN..=i16::MAX` -/
def i16s : List Int := ((List.range 100).map fun (k : Nat) => 6 * (k : Int) - 300) ++ [-32768, -32767, -20000, -1000, 1000, 32766, 32767]
/-- A part of `u16::MIN..=u16::MAX` -/
def u16s : List Int := ((List.range 100).map fun (k : Nat) => 6 * (k : Int)) ++ [1000, 32766, 32767, 32768, 50000, 65534, 65535]

/-- contents_from_i8 -/
example : (List.range 256).all (fun k => intIs .i8 ((k : Int) - 128) [UInt8.ofNat (k + 128)]) = true := by decide +kernel
/-- contents_from_u8 -/
example : (List.range 128).all (fun k => intIs .u8 k [UInt8.ofNat k]) = true ∧
    ((List.range 256).drop 128).all (fun k => intIs .u8 k [0x00, UInt8.ofNat k]) = true := by decide +kernel
/-- contents_from_i16, a part -/
example : i16s.all (fun i => decide (-128 ≤ i ∧ i ≤ 127) ||
    intIs .i16 i [UInt8.ofNat ((i % 65536).toNat / 256), UInt8.ofNat ((i % 65536).toNat % 256)]) = true := by decide +kernel
/-- contents_from_u16, a part -/
example : [0x8000, 0x8001, 0x80ff, 0x8100, 0xabcd, 0xfffe, 0xffff].all (fun (i : Nat) => intIs .u16 i [0, UInt8.ofNat (i / 256), UInt8.ofNat (i % 256)]) = true := by
  decide +kernel
/-- contents_from_i128 -/
example : intIs .i128 (- 2 ^ 127) (0x80 :: List.replicate 15 0x00) = true ∧ intIs .i128 (2 ^ 127 - 1) (0x7f :: List.replicate 15 0xff) = true := by decide +kernel
/-- contents_from_u128 -/
example : intIs .u128 (2 ^ 127) (0x00 :: 0x80 :: List.replicate 15 0x00) = true ∧ intIs .u128 (2 ^ 128 - 1) (0x00 :: List.replicate 16 0xff) = true := by
  decide +kernel
/-- contents_to_i8_unchecked, contents_to_u8_unchecked -/
example : (List.range 256).all (fun k => intTrip .i8 ((k : Int) - 128) && intTrip .u8 k) = true := by decide +kernel
/-- contents_to_i16_ok, contents_to_i16_unchecked, a part -/
example : i16s.all (intTrip .i16) = true := by decide +kernel
/-- contents_to_u16_ok, contents_to_u16_unchecked, a part -/
example : u16s.all (intTrip .u16) = true := by decide +kernel
/-- contents_to_i32_ok, contents_to_i32_unchecked -/
example : [- 2 ^ 31, - 2 ^ 15 - 1, 2 ^ 15, 2 ^ 31 - 1].all (intTrip .i32) = true := by decide +kernel
/-- contents_to_u32_ok, contents_to_u32_unchecked -/
example : [2 ^ 31, 2 ^ 32 - 1].all (intTrip .u32) = true := by decide +kernel
/-- contents_to_i128_ok, contents_to_i128_unchecked -/
example : [- 2 ^ 127, - 2 ^ 63 - 1, - 2 ^ 63, 2 ^ 63 - 1, 2 ^ 63, 2 ^ 127 - 1].all (intTrip .i128) = true := by decide +kernel
/-- contents_to_u128_ok, contents_to_u128_unchecked -/
example : [2 ^ 127, 2 ^ 128 - 1].all (intTrip .u128) = true := by decide +kernel
/-- empty_contents_to_integer -/
example : intOk .i32 [] = false := by decide +kernel
/-- redundant_contents_to_integer -/
example : intOk .i32 [0x00, 0x00] = false ∧ intOk .i32 [0x00, 0x7f] = false ∧ intOk .i32 [0x00, 0x80] = true ∧ intOk .i32 [0x00, 0xff] = true ∧
    intOk .i32 [0xff, 0xff] = false ∧ intOk .i32 [0xff, 0x80] = false ∧ intOk .i32 [0xff, 0x7f] = true ∧ intOk .i32 [0xff, 0x00] = true := by decide +kernel
/-- overflow_contents_to_integer -/
example : (intOk .i32 [0xff, 0x7f, 0xff, 0xff, 0xff] = false ∧ intOk .u32 [0xff, 0x7f, 0xff, 0xff, 0xff] = false) ∧
    (intOk .i32 [0x80, 0, 0, 0] = true ∧ intOk .u32 [0x80, 0, 0, 0] = false) ∧
    (intOk .i32 [0xff] = true ∧ intOk .u32 [0xff] = false) ∧
    (intOk .i32 [0x00] = true ∧ intOk .u32 [0x00] = true) ∧
    (intOk .i32 [0x7f, 0xff, 0xff, 0xff] = true ∧ intOk .u32 [0x7f, 0xff, 0xff, 0xff] = true) ∧
    (intOk .i32 [0x00, 0x80, 0, 0, 0] = false ∧ intOk .u32 [0x00, 0x80, 0, 0, 0] = true) := by decide +kernel

/-- Whether there is no value. -/
def noBool : Res Bool → Bool
  | .err _ => true
  | _ => false

/-- contents_to_bool_ber -/
example : noBool (ContentsRef.toBoolBer []) = true ∧ noBool (ContentsRef.toBoolBer [1, 2]) = true ∧ noBool (ContentsRef.toBoolBer [1, 2, 3]) = true ∧
    ContentsRef.toBoolBer [0x00] = .ok false ∧ (octets.drop 1).all (fun i => decide (ContentsRef.toBoolBer [i] = .ok true)) = true := by decide +kernel
/-- contents_to_bool_der -/
example : noBool (ContentsRef.toBoolDer []) = true ∧ noBool (ContentsRef.toBoolDer [1, 2]) = true ∧ noBool (ContentsRef.toBoolDer [1, 2, 3]) = true ∧
    ContentsRef.toBoolDer [0x00] = .ok false ∧ ContentsRef.toBoolDer [0xff] = .ok true ∧
    ((octets.drop 1).take 254).all (fun i => noBool (ContentsRef.toBoolDer [i])) = true := by decide +kernel
/-- from_bool -/
example : Contents.ofBool true = [0xff] ∧ Contents.ofBool false = [0x00] := by decide +kernel

end Bsn1.Conform
