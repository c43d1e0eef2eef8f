import Verif.Conform.Contents
import Verif.Model.Convert
import Verif.Model.InPlace
/-!
# The tests of the crate, on the model: bsn1/src/der.rs:666-958, ber.rs:866-1070, der_ref.rs:417-448, ber_ref.rs:424-545

See `Verif/Conform/Length.lean`.  Of loops over all lengths below 256 some lengths are taken, with those where the length octets grow.
-/

namespace Bsn1.Conform

/-- What the memory held before -/
def junk (i : Nat) : UInt8 := UInt8.ofNat (i + 0xa5)

/-- `(0..=u8::MAX).collect()`, the first `n` -/
def upTo (n : Nat) : Bytes := octets.take n

/-- A part of `0..bytes.len()` -/
def sizes : List Nat := [0, 1, 2, 3, 20, 21, 22, 23, 24, 125, 126, 127, 128, 129, 130, 253, 254, 255]

/-- A value is made in both builds, and the check holds of it. -/
def made (f : Build → Res Bytes) (p : Build → Bytes → Bool) : Bool :=
  [Build.debug, .release].all fun m =>
    match f m with
    | .ok v => p m v
    | _ => false

/-- Identifier, length and contents of a `Der` -/
def derIs (v id : Bytes) (l : Length) (c : Bytes) : Bool :=
  decide (DerRef.id v = .ok id) && decide (DerRef.length v = .ok l) && decide (DerRef.contents v = .ok c)

/-- Identifier, length and contents of a `Ber` -/
def berIs (v id : Bytes) (l : Length) (c : Bytes) : Bool :=
  decide (BerRef.id v = .ok id) && decide (BerRef.length v = .ok l) && decide (BerRef.contents v = .ok c)

/-- `byteses` in the tests -/
def byteses : List Bytes := [[], [0x00], [0xff], [0x00, 0x00], [0xff, 0xff]]

/-- der.rs: new, parse -/
example : byteses.all (fun c => made (fun m => Der.new m junk IdRef.octetString c) fun _ v =>
    derIs v IdRef.octetString (.definite c.length) c && decide (DerRef.parse v = (.ok v, []))) = true := by decide +kernel
/-- der.rs: from_id_iterator -/
example : [[], [[]], [[1, 2, 3]], [[], []], [[], [1, 2]], [[3], []], [[1, 2], [3]]].all (fun (parts : List Bytes) =>
    made (fun m => Der.fromIdIterator m IdRef.octetString parts) fun m v => decide (Der.new m junk IdRef.octetString parts.flatten = .ok v)) = true := by
  decide +kernel
/-- der.rs: from_bool -/
example : [false, true].all (fun b => made (fun m => Der.ofBool m junk b) fun _ v =>
    decide (DerRef.id v = .ok IdRef.boolean) && decide ((DerRef.contents v).bind ContentsRef.toBoolDer = .ok b)) = true := by decide +kernel

/-- A value of an integer type becomes an INTEGER and is read again. -/
def derInt (t : IntTy) (i : Int) : Bool :=
  made (fun m => Der.ofInt m junk t i) fun _ v =>
    decide (DerRef.id v = .ok IdRef.integer) && decide ((DerRef.contents v).bind (ContentsRef.toInteger t) = .ok i)

/-- A part of `i16::MIN - 1..=i16::MAX + 1` -/
def i16s' : List Int := [- 2 ^ 15 - 1, - 2 ^ 15, -32767, -257, -256, -255, -129, -128, -127, -1, 0, 1, 127, 128, 255, 256, 32767, 2 ^ 15]
/-- A part of `0..=u16::MAX + 1` -/
def u16s' : List Int := [0, 1, 127, 128, 255, 256, 257, 32767, 32768, 65535, 65536]

/-- der.rs: from_i8, from_u8 -/
example : (List.range 256).all (fun k => derInt .i8 ((k : Int) - 128) && derInt .u8 k) = true := by decide +kernel
/-- der.rs: from_i16, from_u16 -/
example : ((i16s'.drop 1).dropLast.all (derInt .i16) && u16s'.dropLast.all (derInt .u16)) = true := by decide +kernel
/-- der.rs: from_i32, from_u32 -/
example : ((- 2 ^ 31 :: i16s' ++ [2 ^ 31 - 1]).all (derInt .i32) && (u16s' ++ [2 ^ 32 - 1]).all (derInt .u32)) = true := by decide +kernel
/-- der.rs: from_i64, from_u64 -/
example : ((- 2 ^ 63 :: i16s' ++ [2 ^ 63 - 1]).all (derInt .i64) && (u16s' ++ [2 ^ 64 - 1]).all (derInt .u64)) = true := by decide +kernel
/-- der.rs: from_i128, from_u128 -/
example : ((- 2 ^ 127 :: i16s' ++ [2 ^ 127 - 1]).all (derInt .i128) && (u16s' ++ [2 ^ 128 - 1]).all (derInt .u128)) = true := by decide +kernel
/-- der.rs: from_isize, from_usize -/
example : ((- 2 ^ 63 :: i16s' ++ [2 ^ 63 - 1]).all (derInt .isize) && (u16s' ++ [2 ^ 64 - 1]).all (derInt .usize)) = true := by decide +kernel
/-- der.rs: from_str -/
example : made (fun m => Der.ofStr m junk "foo") (fun _ v => derIs v IdRef.utf8String (.definite 3) [0x66, 0x6f, 0x6f]) = true := by decide +kernel
/-- der.rs: extend_from_slice; ber.rs: extend_definite_from_slice -/
example : [0, 1, 126, 127, 128, 255].all (fun i => [0, 1, 2, 128, 255].all fun j =>
    made (fun m => (Der.ofBytes m junk (upTo i)).bind fun v => Der.extendFromSlice m junk v (upTo j)) (fun _ v =>
      derIs v IdRef.octetString (.definite (i + j)) (upTo i ++ upTo j)) &&
    made (fun m => (Ber.ofBytes m junk (upTo i)).bind fun v => Ber.extendFromSlice m junk v (upTo j)) (fun _ v =>
      berIs v IdRef.octetString (.definite (i + j)) (upTo i ++ upTo j))) = true := by decide +kernel
/-- ber.rs: extend_indefinite_from_slice -/
example : [0, 1, 127, 128, 255].all (fun i => [0, 1, 2, 128, 255].all fun j =>
    made (fun m => (Ber.newIndefinite m junk IdRef.octetString (upTo i)).bind fun v => Ber.extendFromSlice m junk v (upTo j)) fun _ v =>
      berIs v IdRef.octetString .indefinite (upTo i ++ upTo j)) = true := by decide +kernel
/-- der.rs: truncate; ber.rs: truncate_definite, truncate_indefinite -/
example : sizes.all (fun i =>
    made (fun m => (Der.ofBytes m junk octets).bind fun v => Der.truncate v i) (fun _ v => derIs v IdRef.octetString (.definite i) (upTo i)) &&
    made (fun m => (Ber.ofBytes m junk octets).bind fun v => Ber.truncate m v i) (fun _ v => berIs v IdRef.octetString (.definite i) (upTo i)) &&
    made (fun m => (Ber.newIndefinite m junk IdRef.octetString octets).bind fun v => Ber.truncate m v i) fun _ v =>
      berIs v IdRef.octetString .indefinite (upTo i)) = true := by decide +kernel
/-- The same, with lengths not below that of the contents -/
example : [256, 257].all (fun i =>
    made (fun m => ((Der.ofBytes m junk octets).bind fun v => Der.truncate v i).bind fun v => Der.truncate v (v.length + 1))
      (fun _ v => derIs v IdRef.octetString (.definite 256) octets) &&
    made (fun m => ((Ber.ofBytes m junk octets).bind fun v => Ber.truncate m v i).bind fun v => Ber.truncate m v (v.length + 1))
      (fun _ v => berIs v IdRef.octetString (.definite 256) octets) &&
    made (fun m => ((Ber.newIndefinite m junk IdRef.octetString octets).bind fun v => Ber.truncate m v i).bind fun v => Ber.truncate m v (v.length + 1))
      fun _ v => berIs v IdRef.octetString .indefinite octets) = true := by decide +kernel

/-- All parsers of BER read the value to its end. -/
def berParses (m : Build) (v : Bytes) : Bool := decide (BerRef.parse v = (.ok v, [])) && decide (Ber.parse m v = (.ok v, []))

/-- The INTEGERs 0 to `i - 1`, one after another -/
def ints (i : Nat) : Bytes := (List.range i).flatMap fun k => [0x02, 0x01, UInt8.ofNat k]

/-- der_ref.rs: parse_single, parse_recursive -/
example : sizes.all (fun i =>
    made (fun m => Der.ofBytes m junk (upTo i)) (fun _ v => decide (DerRef.parse v = (.ok v, []))) &&
    made (fun m => (Der.ofBytes m junk (upTo i)).bind (Der.new m junk IdRef.sequence)) fun _ v => decide (DerRef.parse v = (.ok v, []))) = true := by
  decide +kernel
/-- ber_ref.rs and ber.rs: parse_deinite, parse_deinite_in_definite -/
example : sizes.all (fun i =>
    made (fun m => Ber.ofBytes m junk (upTo i)) berParses &&
    made (fun m => (Ber.ofBytes m junk (upTo i)).bind (Ber.new m junk IdRef.sequence)) berParses) = true := by decide +kernel
/-- ber_ref.rs and ber.rs: parse_deinite_in_indefinite -/
example : sizes.all (fun i =>
    made (fun m => ((Ber.ofBytes m junk (upTo i)).bind (Ber.newIndefinite m junk IdRef.sequence)).bind fun v => Ber.extendFromSlice m junk v BerRef.eoc)
      berParses) = true := by decide +kernel
/-- ber_ref.rs and ber.rs: parse_indefinite -/
example : (List.range 10).all (fun i =>
    made (fun m => (Ber.newIndefinite m junk IdRef.sequence (ints i)).bind fun v => Ber.extendFromSlice m junk v BerRef.eoc) berParses) = true := by
  decide +kernel
/-- ber_ref.rs and ber.rs: parse_indeinite_in_definite -/
example : (List.range 10).all (fun i =>
    made (fun m => ((Ber.newIndefinite m junk IdRef.octetString (ints i)).bind fun v => Ber.extendFromSlice m junk v BerRef.eoc).bind
      (Ber.new m junk IdRef.sequence)) berParses) = true := by decide +kernel
/-- ber_ref.rs and ber.rs: parse_indeinite_in_indefinite -/
example : (List.range 10).all (fun i =>
    made (fun m => (((Ber.newIndefinite m junk IdRef.octetString (ints i)).bind fun v => Ber.extendFromSlice m junk v BerRef.eoc).bind
      (Ber.newIndefinite m junk IdRef.sequence)).bind fun v => Ber.extendFromSlice m junk v BerRef.eoc) berParses) = true := by decide +kernel

end Bsn1.Conform
