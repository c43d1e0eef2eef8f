import Verif.Model.Length
/-!
# The tests of the crate, on the model: bsn1/src/length.rs:328-584

No theorems about all inputs are here: these are the tests that the authors wrote for the code, with the model in the place of the code.  What they assert is known to hold of the
code, so the model is checked, not the code.  Where a test has a loop, so has the check.
-/

namespace Bsn1.Conform
open Length

/-- `0..=u8::MAX` -/
def octets : List UInt8 := (List.range 256).map UInt8.ofNat

/-- `0..=Length::MAX_SHORT` -/
def shorts : List UInt8 := (List.range (Length.MAX_SHORT.toNat + 1)).map UInt8.ofNat

/-- `MAX_SHORT + 1..=u8::MAX` -/
def longs : List UInt8 := octets.drop (Length.MAX_SHORT.toNat + 1)

/-- `usize::MAX` -/
def usizeMax : Nat := 2 ^ 64 - 1

/-- The length and the rest that `parse_length` gives. -/
def lengthIs (bytes : Bytes) (l : Length) (rest : Bytes) : Bool := decide (Length.parse bytes = (.ok l, rest))

/-- The error that `parse_length` gives. -/
def lengthErr (bytes : Bytes) (e : Error) : Bool := decide ((Length.parse bytes).1 = .err e)

/-- indefinite_without_extra_octet -/
example : lengthIs [0x80] .indefinite [] = true := by decide +kernel
/-- indefinite_and_extra_octet -/
example : octets.all (fun i => lengthIs [0x80, i] .indefinite [i]) = true := by decide +kernel
/-- short_form_without_extra_octet -/
example : shorts.all (fun i => lengthIs [i] (.definite i.toNat) []) = true := by decide +kernel
/-- short_form_and_extra_octet, each 85th extra octet -/
example : shorts.all (fun i => (List.range 4).all fun j => lengthIs [i, UInt8.ofNat (85 * j)] (.definite i.toNat) [UInt8.ofNat (85 * j)]) = true := by
  decide +kernel
/-- two_bytes_without_extra_octet -/
example : longs.all (fun i => lengthIs [0x81, i] (.definite i.toNat) []) = true := by decide +kernel
/-- two_bytes_and_extra_octet, each 85th extra octet -/
example : longs.all (fun i => (List.range 4).all fun j => lengthIs [0x81, i, UInt8.ofNat (85 * j)] (.definite i.toNat) [UInt8.ofNat (85 * j)]) = true := by
  decide +kernel
/-- three_bytes_without_extra_octet -/
example : [0x0100, 0xffff].all (fun i => lengthIs [0x82, UInt8.ofNat (i / 256), UInt8.ofNat i] (.definite i) []) = true := by decide +kernel
/-- three_bytes_and_extra_octet -/
example : [0x0100, 0xffff].all (fun i => octets.all fun j => lengthIs [0x82, UInt8.ofNat (i / 256), UInt8.ofNat i, j] (.definite i) [j]) = true := by
  decide +kernel
/-- max_without_extra_octet -/
example : lengthIs (0x88 :: List.replicate 8 0xff) (.definite usizeMax) [] = true := by decide +kernel
/-- max_and_extra_octet -/
example : octets.all (fun j => lengthIs (0x88 :: List.replicate 8 0xff ++ [j]) (.definite usizeMax) [j]) = true := by decide +kernel
/-- overflow, each 85th `j` -/
example : (octets.drop 1).all (fun i => (List.range 4).all fun j => lengthErr (0x89 :: i :: List.replicate 8 (UInt8.ofNat (85 * j))) .overFlow) = true := by
  decide +kernel
/-- long_form_for_small_length -/
example : shorts.all (fun i => lengthErr [0x81, i] .redundantBytes) = true := by decide +kernel
/-- long_form_starting_with_0x00 -/
example : octets.all (fun i => (List.range 7).all fun j => lengthErr (UInt8.ofNat (0x80 + (j + 3) - 1) :: 0x00 :: List.replicate (j + 1) i) .redundantBytes) =
    true := by decide +kernel
/-- unterminated -/
example : (List.range 129 ++ [usizeMax]).all (fun i =>
    match (Length.definite i).toBytes with
    | .ok bytes => lengthErr (bytes.take (bytes.length - 1)) .unterminatedBytes
    | _ => false) = true := by decide +kernel
/-- to_bytes::indefinite -/
example : Length.indefinite.toBytes = .ok [0x80] := by decide +kernel
/-- to_bytes::definite -/
example : (List.range 257 ++ [usizeMax]).all (fun i =>
    match (Length.definite i).toBytes with
    | .ok bytes => lengthIs bytes (.definite i) []
    | _ => false) = true := by decide +kernel
/-- len -/
example : Length.indefinite.len = 1 ∧ (List.range 128).all (fun i => (Length.definite i).len == 1) = true ∧ (Length.definite 128).len = 2 ∧
    (Length.definite 255).len = 2 ∧ (Length.definite 257).len = 3 ∧ (Length.definite 65535).len = 3 ∧ (Length.definite usizeMax).len = 8 + 1 := by
  decide +kernel

end Bsn1.Conform
