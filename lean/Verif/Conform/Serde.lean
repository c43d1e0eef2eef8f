import Verif.Conform.DerBer
import Verif.Model.Types
import Verif.Model.OctetString
/-!
# The tests of the crate, on the model: bsn1_serde/src/ser/mod.rs:693-1122, de/mod.rs:783-1046, lib.rs:201-615, octet_string.rs:153-190

See `Verif/Conform/Length.lean`.  Of loops over all values of a type some values are taken.
-/

namespace Bsn1.Conform

/-- What `to_der` gives: identifier and contents as expected, and the sizes said before are those of the octets. -/
def derSer {α : Type} (s : Build → Ser α) (v : α) (id contents : Bytes) : Bool :=
  made (fun m => toDer m (s m) v) fun m d =>
    derIs d id (.definite contents.length) contents &&
      decide ((s m).idLen v = .ok (some id.length)) && decide ((s m).derContentsLen v = .ok (some contents.length))

/-- What is written is read again, as BER and as DER, in both builds. -/
def back {α : Type} [DecidableEq α] (s : Build → Ser α) (d : Build → De α) (v : α) : Bool :=
  made (fun m => toBer m (s m) v) (fun m b => decide (fromBer (d m) b = .ok v)) &&
    made (fun m => toDer m (s m) v) (fun m b => decide (fromDer (d m) b = .ok v))

/-- The octets of an integer as a value of its own -/
def intTlv (t : IntTy) (v : Int) : Bytes :=
  match Contents.ofInt t v with
  | .ok c => [0x02, UInt8.ofNat c.length] ++ c
  | _ => []

/-- The octets of an integer alone -/
def intContents (t : IntTy) (v : Int) : Bytes :=
  match Contents.ofInt t v with
  | .ok c => c
  | _ => []

/-- The values of the tests of an integer type, or a part of them -/
def samples : IntTy → List Int
  | .i8 => [-128, -127, -1, 0, 1, 126, 127]
  | .u8 => [0, 1, 127, 128, 129, 255]
  | .i16 => [-32768, -32767, -257, -256, -129, -128, -127, -1, 0, 1, 127, 128, 255, 256, 32767]
  | .u16 => [0, 1, 127, 128, 255, 256, 32767, 32768, 65535]
  | t => [t.minVal, 0, t.maxVal]

/-- All integer types -/
def intTys : List IntTy := [.i8, .u8, .i16, .u16, .i32, .u32, .i64, .u64, .i128, .u128, .isize, .usize]

/-- ser/mod.rs: bool_to_der -/
example : derSer (fun _ => Ser.bool) true IdRef.boolean [0xff] && derSer (fun _ => Ser.bool) false IdRef.boolean [0x00] = true := by decide +kernel
/-- ser/mod.rs: i8_to_der … usize_to_der -/
example : intTys.all (fun t => (samples t).all fun v => derSer (fun _ => Ser.int t) v IdRef.integer (intContents t v)) = true := by decide +kernel
/-- ser/mod.rs: string_to_der -/
example : derSer (fun _ => Ser.string) "" IdRef.utf8String [] && derSer (fun _ => Ser.string) "a" IdRef.utf8String [0x61] &&
    derSer (fun _ => Ser.string) "abc" IdRef.utf8String [0x61, 0x62, 0x63] &&
    derSer (fun _ => Ser.string) "あいうえお" IdRef.utf8String
      [0xe3, 0x81, 0x82, 0xe3, 0x81, 0x84, 0xe3, 0x81, 0x86, 0xe3, 0x81, 0x88, 0xe3, 0x81, 0x8a] = true := by decide +kernel

/-- `(0..n).collect()` -/
def below (n : Nat) : List Int := (List.range n).map fun (k : Nat) => (k : Int)

/-- ser/mod.rs: vec_to_der -/
example : [0, 1, 2, 3, 42, 43, 99].all (fun n =>
    derSer (fun m => Ser.vec m (Ser.int .i32)) (below n) IdRef.sequence ((below n).flatMap (intTlv .i32))) = true := by decide +kernel
/-- ser/mod.rs: linked_list_to_der, vec_deque_to_der, btree_set_to_der, hash_set_to_der -/
example :
    [derSer (fun m => Ser.linkedList m Ser.string) [] IdRef.sequence [],
     derSer (fun m => Ser.linkedList m (Ser.int .i8)) (samples .i8) IdRef.sequence ((samples .i8).flatMap (intTlv .i8)),
     derSer (fun m => Ser.vecDeque m Ser.string) [] IdRef.sequence [],
     derSer (fun m => Ser.vecDeque m (Ser.int .i8)) (samples .i8) IdRef.sequence ((samples .i8).flatMap (intTlv .i8)),
     derSer (fun m => Ser.btreeSet m Ser.string) [] IdRef.sequence [],
     derSer (fun m => Ser.btreeSet m (Ser.int .i8)) (samples .i8) IdRef.sequence ((samples .i8).flatMap (intTlv .i8)),
     derSer (fun m => Ser.hashSet m Ser.string) [] IdRef.set [],
     derSer (fun m => Ser.hashSet m (Ser.int .i8)) (samples .i8) IdRef.set ((samples .i8).flatMap (intTlv .i8))].all id = true := by decide +kernel

/-- Pairs of the map tests: the number and its decimal notation -/
def pairs : List (Int × String) := [(-128, "-128"), (-1, "-1"), (0, "0"), (127, "127")]

/-- Their octets -/
def pairsOctets : Bytes :=
  [0x30, 0x09, 0x02, 0x01, 0x80, 0x0c, 0x04, 0x2d, 0x31, 0x32, 0x38, 0x30, 0x07, 0x02, 0x01, 0xff, 0x0c, 0x02, 0x2d, 0x31,
   0x30, 0x06, 0x02, 0x01, 0x00, 0x0c, 0x01, 0x30, 0x30, 0x08, 0x02, 0x01, 0x7f, 0x0c, 0x03, 0x31, 0x32, 0x37]

/-- ser/mod.rs: btree_map_to_der, hash_map_to_der -/
example :
    [derSer (fun m => Ser.btreeMap m (Ser.int .i32) Ser.string) [] IdRef.sequence [],
     derSer (fun m => Ser.btreeMap m (Ser.int .i8) Ser.string) pairs IdRef.sequence pairsOctets,
     derSer (fun m => Ser.hashMap m (Ser.int .i32) Ser.string) [] IdRef.set [],
     derSer (fun m => Ser.hashMap m (Ser.int .i8) Ser.string) pairs IdRef.set pairsOctets].all id = true := by decide +kernel

/-- de/mod.rs: boolean, i8 … usize -/
example : [false, true].all (back (fun _ => Ser.bool) De.bool) = true := by decide +kernel
example : intTys.all (fun t => (samples t).all (back (fun _ => Ser.int t) (De.int · t))) = true := by decide +kernel
/-- de/mod.rs: string -/
example : ["", "a", "abc", "あいうえお"].all (back (fun _ => Ser.string) De.string) = true := by decide +kernel
/-- de/mod.rs: vec, linked_list, vec_deque -/
example : [[-1, 0, 1], [1], []].all (fun v =>
    back (fun m => Ser.vec m (Ser.int .i32)) (fun m => De.vec m (De.int m .i32)) v &&
    back (fun m => Ser.linkedList m (Ser.int .i32)) (fun m => De.linkedList m (De.int m .i32)) v &&
    back (fun m => Ser.vecDeque m (Ser.int .i32)) (fun m => De.vecDeque m (De.int m .i32)) v) = true := by decide +kernel

/-- The first `n` of `-10..10` -/
def tens (n : Nat) : List Int := (List.range n).map fun (k : Nat) => (k : Int) - 10
/-- With the values `100..` -/
def tens' (n : Nat) : List (Int × Int) := (List.range n).map fun (k : Nat) => ((k : Int) - 10, (k : Int) + 100)

/-- de/mod.rs: btree_set, hash_set -/
example : [0, 1, 2, 10, 19].all (fun n =>
    back (fun m => Ser.btreeSet m (Ser.int .i32)) (fun m => De.btreeSet m compare (De.int m .i32)) (tens n) &&
    back (fun m => Ser.hashSet m (Ser.int .i32)) (fun m => De.hashSet m id (De.int m .i32)) (tens n)) = true := by decide +kernel
/-- de/mod.rs: btree_map, hash_map -/
example : [0, 1, 2, 10, 19].all (fun n =>
    back (fun m => Ser.btreeMap m (Ser.int .i32) (Ser.int .i32)) (fun m => De.btreeMap m compare (De.int m .i32) (De.int m .i32)) (tens' n) &&
    back (fun m => Ser.hashMap m (Ser.int .i32) (Ser.int .i32)) (fun m => De.hashMap m id (De.int m .i32) (De.int m .i32)) (tens' n)) = true := by
  decide +kernel

/-- octet_string.rs: serialize_octet_string, deserialize_octet_string -/
example : derSer (fun _ => OctetString.ser) (OctetString.new [0x01, 0x02, 0x03]) IdRef.octetString [0x01, 0x02, 0x03] = true := by decide +kernel
example : back (fun _ => Ser.octetString) (fun _ => De.octetString) [0x01, 0x02, 0x03] = true := by decide +kernel
example : made (fun m => toBer m OctetString.ser (OctetString.new [0x01, 0x02, 0x03])) (fun _ b =>
    match fromBer OctetString.de b with
    | .ok v => v.asRef == [0x01, 0x02, 0x03]
    | _ => false) = true := by decide +kernel

/-- lib.rs: test_to_der, test_to_ber -/
example : made (fun m => toDer m (Ser.int .u16) 0x1234) (fun _ d => derIs d IdRef.integer (.definite 2) [0x12, 0x34]) = true := by decide +kernel
example : made (fun m => toBer m Ser.string "abc") (fun _ d => berIs d IdRef.utf8String (.definite 3) [0x61, 0x62, 0x63]) = true := by decide +kernel
/-- lib.rs: test_from_ber, test_from_der -/
example : back (fun m => Ser.vec m (Ser.int .i32)) (fun m => De.vec m (De.int m .i32)) [1, 2, 3] = true := by decide +kernel
/-- lib.rs: test_from_ber_indefinite -/
example : made (fun m => do
      let b ← toBer m (Ser.vec m (Ser.int .i32)) [1, 2, 3]
      let c ← BerRef.contents b
      let b ← Ber.newIndefinite m junk IdRef.sequence c
      Ber.extendFromSlice m junk b BerRef.eoc)
    (fun m b => decide (fromBer (De.vec m (De.int m .i32)) b = .ok [1, 2, 3])) = true := by decide +kernel

/-- What `write_der(&value, &mut vec)` leaves in an empty `Vec`: the slices, one after the other -/
def written (w : W Unit) : Res Bytes :=
  match w.res with
  | .ok _ => .ok w.chunks.flatten
  | .err e => .err e
  | .panic => .panic
  | .ub => .ub

/-- lib.rs: test_write_der, test_write_ber (which calls `write_der`) -/
example : made (fun m => written (writeDer m Ser.bool true)) (fun m b => decide (toDer m Ser.bool true = .ok b)) = true := by decide +kernel
example : made (fun m => written (writeDer m (Ser.int .i32) 0x1234)) (fun m b => decide (toDer m (Ser.int .i32) 0x1234 = .ok b)) = true := by
  decide +kernel
/-- lib.rs: test_read_der, test_read_ber -/
example : made (fun m => written (writeDer m (Ser.int .i32) 0x1234)) (fun m b => decide (readDer m (De.int m .i32) b = (.ok 0x1234, []))) = true := by
  decide +kernel
example : made (fun m => written (writeBer m (Ser.int .i32) 0x1234)) (fun m b => decide (readBer m (De.int m .i32) b = (.ok 0x1234, []))) = true := by
  decide +kernel
/-- lib.rs: test_parse_der, test_parse_ber -/
example : made (fun m => written (writeDer m (Ser.int .i32) 0x1234)) (fun m b => decide (parseDer (De.int m .i32) b = (.ok 0x1234, []))) = true := by
  decide +kernel
example : made (fun m => written (writeBer m (Ser.int .i32) 0x1234)) (fun m b => decide (parseBer (De.int m .i32) b = (.ok 0x1234, []))) = true := by
  decide +kernel

/-- lib.rs:318-427: `i16` with a user implementation that does not say one of the sizes, or either -/
def noContentsLen : Ser Int := { Ser.int .i16 with derContentsLen := fun _ => .ok none }
def noIdLen : Ser Int := { Ser.int .i16 with idLen := fun _ => .ok none }
def noLen : Ser Int := { Ser.int .i16 with idLen := fun _ => .ok none, derContentsLen := fun _ => .ok none }

/-- What is made is what is made of an `i16`, alone and in a `Vec`. -/
def likeI16 (s : Ser Int) : Bool :=
  (samples .i16).all (fun v => made (fun m => toDer m (Ser.int .i16) v) fun m b => decide (toDer m s v = .ok b) && decide (toBer m s v = .ok b)) &&
    [0, 1, 2, 9].all fun n => made (fun m => toDer m (Ser.vec m (Ser.int .i16)) (below n)) fun m b =>
      decide (toDer m (Ser.vec m s) (below n) = .ok b) && decide (toBer m (Ser.vec m s) (below n) = .ok b)

/-- lib.rs: test_write_none_der_contents_len_into_der, .._ber, test_write_none_id_len_into_der, test_write_none_both_into_der, .._ber -/
example : [noContentsLen, noIdLen, noLen].all likeI16 = true := by decide +kernel

/-- lib.rs: `NoneLenEnum` -/
def noneLenEnum : Ser (Fin 6 × Int) where
  writeId v := (Ser.int .i16).writeId v.2
  writeDerContents v := (Ser.int .i16).writeDerContents v.2
  idLen v := if v.1 ≤ 1 then (Ser.int .i16).idLen v.2 else .ok none
  derContentsLen v := if v.1 = 2 ∨ v.1 = 3 then (Ser.int .i16).derContentsLen v.2 else .ok none

/-- lib.rs: test_write_none_len_enum_into_der, test_write_none_der_len_into_ber -/
example : (List.finRange 6).all (fun k => (samples .i16).all fun v =>
    made (fun m => toDer m (Ser.int .i16) v) fun m b => decide (toDer m noneLenEnum (k, v) = .ok b) && decide (toBer m noneLenEnum (k, v) = .ok b)) = true := by
  decide +kernel
example : [0, 1, 2, 9].all (fun n =>
    made (fun m => toDer m (Ser.vec m (Ser.int .i16)) ((below n).flatMap fun v => List.replicate 6 v)) fun m b =>
      decide (toDer m (Ser.vec m noneLenEnum) ((below n).flatMap fun v => (List.finRange 6).map fun k => (k, v)) = .ok b)) = true := by
  decide +kernel

end Bsn1.Conform
