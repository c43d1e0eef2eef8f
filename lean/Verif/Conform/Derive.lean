import Verif.Conform.Serde
import Verif.Model.Attribute
/-!
# The tests of the crate, on the model: bsn1_serde/tests/ser and bsn1_serde/tests/de

See `Verif/Conform/Length.lean`.  The attributes are given as tokens, read by the model of bsn1_serde_macros/src/attribute.rs, and the identifier that
comes of them goes into the derived implementation.
-/

namespace Bsn1.Conform
open Spec

/-- `name = value` -/
def setting (name : String) (value : Tok) : List Tok := [.ident name, .punct '=', value]

/-- `#[bsn1_serde(id = .., tag_class = .., tag_pc = .., tag_num = ..)]`: those that are given, in this order or the reverse -/
def attrOf (reversed : Bool) (id cls pc num : Option String) : List Tok :=
  let l := (id.map fun s => setting "id" (.ident s)).toList ++ (cls.map fun s => setting "tag_class" (.ident s)).toList ++
    (pc.map fun s => setting "tag_pc" (.ident s)).toList ++ (num.map fun s => setting "tag_num" (.literal s)).toList
  let l := if reversed then l.reverse else l
  match l with
  | [] => []
  | x :: r => r.foldl (fun acc y => acc ++ [.punct ','] ++ y) x

/-- The identifier octets of the generated code; empty if the attribute is rejected -/
def idOf (tokens : List Tok) : Bytes :=
  match Attribute.tryFromAttrs some [.bsn1Serde tokens] with
  | some a => a.idSlice
  | none => []

/-- The same attribute in the other position is accepted too. -/
def accepted (tokens : List Tok) : Bool :=
  match Attribute.tryFromAttrs some [.bsn1Serde tokens] with
  | some a => a.sanitizeAsStruct && a.sanitizeAsVariant
  | none => false

/-- The rows of the tables of attributes in the tests: which of `id`, `tag_class`, `tag_pc` are given, and the number with its notation -/
def rows : List (Bool × Bool × Bool × Option (String × Nat)) :=
  [(false, false, false, none), (true, false, false, none), (false, true, false, none), (true, true, false, none),
   (false, false, true, none), (true, false, true, none), (false, true, true, none), (true, true, true, none),
   (false, false, false, some ("0", 0)), (true, false, false, some ("1", 1)), (false, true, false, some ("0x1e", 0x1e)),
   (true, true, false, some ("0x1f", 0x1f)), (false, false, true, some ("0x7f", 0x7f)), (true, false, true, some ("0x80", 0x80)),
   (false, true, true, some ("0x3fff", 0x3fff)), (true, true, true, some ("0x4000", 0x4000))]

/-- What the tests say of the identifier for a row, `base` being the identifier that `id` names -/
def idAs (base : Bytes) (cls : ClassTag) (pc : PCTag) (row : Bool × Bool × Bool × Option (String × Nat)) (id : Bytes) : Bool :=
  let start := if row.1 then base else IdRef.sequence
  (if row.2.1 then decide (IdRef.clazz id = .ok cls) else decide (IdRef.clazz id = IdRef.clazz start)) &&
  (if row.2.2.1 then decide (IdRef.pc id = .ok pc) else decide (IdRef.pc id = IdRef.pc start)) &&
  match row.2.2.2 with
  | some (_, n) => decide (IdRef.number id = .ok n)
  | none => decide (IdRef.number id = IdRef.number start)

/-- The attribute of a row -/
def attrFor (reversed : Bool) (name cls pc : String) (row : Bool × Bool × Bool × Option (String × Nat)) : List Tok :=
  attrOf reversed (if row.1 then some name else none) (if row.2.1 then some cls else none) (if row.2.2.1 then some pc else none)
    (row.2.2.2.map Prod.fst)

/-- A struct of an `i32` and a `String` with these attributes: identifier, length, and the fields one after the other -/
def twoFields (id : Bytes) : Bool :=
  derSer (fun m => Ty.ser m (Ty.struct id (.plain (.int .i32) (.plain .string .nil)))) (315, "foo", ()) id
    ([0x02, 0x02, 0x01, 0x3b] ++ [0x0c, 0x03, 0x66, 0x6f, 0x6f])

/-- A struct without fields -/
def noFields (id : Bytes) : Bool := derSer (fun m => Ty.ser m (Ty.struct id .nil)) () id []

/-- The second variant of an enum, with these attributes -/
def secondVariant (id : Bytes) : Bool :=
  derSer (fun m => Ty.ser m (Ty.enum (.cons [0x30] .nil (.cons id (.plain (.int .i32) (.plain .string .nil)) .nil)))) (Sum.inr (Sum.inl (315, "foo", ()))) id
    ([0x02, 0x02, 0x01, 0x3b] ++ [0x0c, 0x03, 0x66, 0x6f, 0x6f])

/-- A whole table of attributes -/
def table (name : String) (base : Bytes) (cls : String) (cls' : ClassTag) (pc : String) (pc' : PCTag) (check : Bytes → Bool) : Bool :=
  rows.all fun row => [false, true].all fun rev =>
    accepted (attrFor rev name cls pc row) && idAs base cls' pc' row (idOf (attrFor rev name cls pc row)) && check (idOf (attrFor rev name cls pc row))

/-- tests/ser/named_field_struct.rs -/
example : table "Set" IdRef.set "CONTEXT_SPECIFIC" .contextSpecific "PRIMITIVE" .primitive twoFields = true := by decide +kernel
/-- tests/ser/tuple_struct.rs -/
example : table "Set" IdRef.set "UNIVERSAL" .universal "CONSTRUCTED" .constructed twoFields = true := by decide +kernel
/-- tests/ser/unit_struct.rs -/
example : table "Integer" IdRef.integer "APPLICATION" .application "CONSTRUCTED" .constructed noFields = true := by decide +kernel
/-- tests/ser/unit_enum.rs -/
example : table "Set" IdRef.set "UNIVERSAL" .universal "PRIMITIVE" .primitive noFields = true := by decide +kernel
/-- tests/ser/tuple_enum.rs -/
example : table "Null" IdRef.null "PRIVATE" .priv "CONSTRUCTED" .constructed secondVariant = true := by decide +kernel
/-- tests/ser/named_field_enum.rs -/
example : table "EOC" IdRef.eoc "APPLICATION" .application "PRIMITIVE" .primitive secondVariant = true := by decide +kernel
/-- tests/ser/skip.rs: the identifiers -/
example : table "UTF8String" IdRef.utf8String "PRIVATE" .priv "PRIMITIVE" .primitive (fun _ => true) = true := by decide +kernel

/-- tests/ser/skip.rs, skip_serializing.rs: B, C, D, E -/
example :
    [derSer (fun m => Ty.ser m (Ty.struct [0x30] (.skip (0 : Int) .nil))) (315, ()) [0x30] [],
     derSer (fun m => Ty.ser m (Ty.struct [0x0c] (.skip (0 : Int) (.plain .string .nil)))) (315, "foo", ()) [0x0c] [0x0c, 0x03, 0x66, 0x6f, 0x6f],
     derSer (fun m => Ty.ser m (Ty.struct [0xf0] (.plain (.int .i32) (.skip "" .nil)))) (315, "foo", ()) [0xf0] [0x02, 0x02, 0x01, 0x3b],
     derSer (fun m => Ty.ser m (Ty.struct [0xcc] (.plain (.int .i32) (.skipSer .string (.plain .bool .nil))))) (315, "foo", true, ()) [0xcc]
       [0x02, 0x02, 0x01, 0x3b, 0x01, 0x01, 0xff]].all id = true := by decide +kernel

/-- The sizes are not said, and what is made is what is made of the converted value. -/
def converted {α β : Type} (s : Build → Ser α) (t : Build → Ser β) (v : α) (w : β) : Bool :=
  made (fun m => toDer m (t m) w) fun m b =>
    decide (toDer m (s m) v = .ok b) && decide ((s m).idLen v = .ok none) && decide ((s m).derContentsLen v = .ok none)

/-- tests/ser/into_struct.rs, to_struct.rs, into_enum.rs, to_enum.rs -/
example :
    [converted (fun m => Ty.ser m (Ty.conv (.string) (fun (v : String × Unit) => v.1) (.from_ fun s => (s, ())))) (fun _ => Ser.string) ("inner", ()) "inner",
     converted (fun m => Ty.ser m (Ty.conv (.string) (fun (v : Int × String) => v.2) (.from_ fun s => (0, s)))) (fun _ => Ser.string) (10, "inner") "inner",
     converted (fun m => Ty.ser m (Ty.conv (.octetString) (fun (v : Bytes ⊕ (Int × Bytes)) => match v with | .inl b => b | .inr b => b.2)
       (.from_ fun s => .inl s))) (fun _ => Ser.octetString) (.inr (-2, [1, 2, 3])) [1, 2, 3]].all id = true := by decide +kernel

/-- A field with `into` -/
def wrapped {γ : Type} (r : Fields γ) : Fields (Int × γ) := .conv (.int .i32) (fun v => v) (.from_ fun v => v) r

/-- What `to_der` gives when the struct does not say the size of its contents -/
def derNoLen {α : Type} (s : Build → Ser α) (v : α) (id contents : Bytes) : Bool :=
  made (fun m => toDer m (s m) v) fun m d =>
    derIs d id (.definite contents.length) contents && decide ((s m).idLen v = .ok (some id.length)) && decide ((s m).derContentsLen v = .ok none)

/-- tests/ser/into_field.rs, to_field.rs -/
example :
    [derNoLen (fun m => Ty.ser m (Ty.struct [0x30] (wrapped .nil))) (123, ()) [0x30] [0x02, 0x01, 0x7b],
     derNoLen (fun m => Ty.ser m (Ty.struct [0x31] (wrapped (.plain (.int .i8) .nil)))) (123, -4, ()) [0x31] [0x02, 0x01, 0x7b, 0x02, 0x01, 0xfc],
     derNoLen (fun m => Ty.ser m (Ty.struct [0x01] (wrapped .nil))) (123, ()) [0x01] [0x02, 0x01, 0x7b],
     derNoLen (fun m => Ty.ser m (Ty.struct [0x05] (.plain (.int .i8) (wrapped .nil)))) (-4, 123, ()) [0x05] [0x02, 0x01, 0xfc, 0x02, 0x01, 0x7b]].all id = true := by
  decide +kernel

/-- tests/ser/transparent.rs: A, B -/
example :
    [derSer (fun m => Ty.ser m (Ty.transparent (.plain (.vec (.int .u8)) .nil))) ([1, 2, 3], ()) [0x30] [0x02, 0x01, 0x01, 0x02, 0x01, 0x02, 0x02, 0x01, 0x03],
     derSer (fun m => Ty.ser m (Ty.transparent (.plain .string .nil))) ("abc", ()) [0x0c] [0x61, 0x62, 0x63]].all id = true := by decide +kernel
/-- tests/ser/transparent.rs: C … F -/
example :
    [converted (fun m => Ty.ser m (Ty.transparent (.conv (.octetString) (fun (s : String) => s.toByteArray.data.toList) (.from_ fun _ => "") (.skip (0 : Int) .nil))))
       (fun _ => Ser.octetString) ("abc", 0x12, ()) [0x61, 0x62, 0x63],
     converted (fun m => Ty.ser m (Ty.transparent (.skipSer .string (.conv (.octetString) (fun (s : Bytes) => s) (.from_ fun s => s) .nil))))
       (fun _ => Ser.octetString) ("abc", [1, 2, 3], ()) [1, 2, 3]].all id = true := by decide +kernel

/-- tests/ser/non_length.rs: `i64` with a user implementation that does not say its sizes -/
def silent (idLen contentsLen : Bool) : Ser Int :=
  { Ser.int .i64 with
    idLen := fun v => if idLen then (Ser.int .i64).idLen v else .ok none
    derContentsLen := fun v => if contentsLen then (Ser.int .i64).derContentsLen v else .ok none }

/-- tests/ser/non_length.rs: A, F and the variants with one field -/
example : [(true, false), (false, true), (false, false)].all (fun (a, b) => [53, -34, 0, 1, -2 ^ 63, 2 ^ 63 - 1].all fun v =>
    made (fun m => toDer m (Ser.struct m [0x30] (.cons (.plain (silent a b)) .nil)) (v, ())) fun m d =>
      decide (DerRef.id d = .ok IdRef.sequence) && decide (DerRef.contents d = toDer m (Ser.int .i64) v)) = true := by decide +kernel
/-- tests/ser/non_length.rs: B, E, I, J -/
example : [(true, false), (false, true), (false, false)].all (fun (a, b) => [53, -34, 0, 1, -2 ^ 63, 2 ^ 63 - 1].all fun v =>
    made (fun m => toDer m (Ser.int .i64) v) fun m d =>
      match Ser.transparent (.cons (.plain (silent a b)) .nil) with
      | some s => decide (toDer m s (v, ()) = .ok d)
      | none => false) = true := by decide +kernel
/-- tests/ser/non_length.rs: Y, Z -/
example : made (fun m => toDer m (Ser.struct m [0x31] (.cons (.conv Ser.string (fun (_ : Int) => "-9223372036854775808"))
      (.cons (.conv Ser.string (fun (_ : Int) => "-9223372036854775808")) (.cons (.plain (silent false false)) .nil)))) (-2 ^ 63, -2 ^ 63, -2 ^ 63, ()))
    (fun m d => decide (DerRef.id d = .ok IdRef.set) && decide (DerRef.contents d = (do
      let s ← toDer m Ser.string "-9223372036854775808"
      let i ← toDer m (Ser.int .i64) (-2 ^ 63)
      return s ++ s ++ i))) = true := by decide +kernel

/-- No order in particular -/
def anyOrder : HashOrder := ⟨fun _ l => l, fun _ l => List.Perm.refl l⟩

/-- What is written is read again as `w`, as BER and as DER. -/
def readAs {α : Type} [DecidableEq α] (t : Ty α) (v w : α) : Bool :=
  made (fun m => toBer m (Ty.ser m t) v) (fun m b => decide (fromBer (Ty.de m anyOrder t) b = .ok w)) &&
    made (fun m => toDer m (Ty.ser m t) v) (fun m b => decide (fromDer (Ty.de m anyOrder t) b = .ok w))

/-- tests/de/named_field_struct.rs, tuple_struct.rs, unit_struct.rs with any of the identifiers -/
example : rows.all (fun row =>
    let id := idOf (attrFor false "Set" "CONTEXT_SPECIFIC" "PRIMITIVE" row)
    readAs (Ty.struct id (.plain (.int .i32) (.plain .string .nil))) (315, "foo", ()) (315, "foo", ()) &&
    readAs (Ty.struct id .nil) () ()) = true := by decide +kernel

/-- The variants `J`, `K`, `L` of an enum with numbers -/
def threeVariants : Ty ((Int × Unit) ⊕ ((Int × String × Unit) ⊕ ((Int × String × Unit) ⊕ Empty))) :=
  .enum (.cons (idOf (setting "tag_num" (.literal "0"))) (.skip (2 : Int) .nil)
    (.cons (idOf (attrOf false (some "Set") none none (some "1"))) (.skip (0 : Int) (.plain .string .nil))
      (.cons (idOf (attrOf false none (some "CONTEXT_SPECIFIC") none (some "0x1e"))) (.plain (.int .i32) (.skip "bar" .nil)) .nil)))

/-- tests/de/default.rs: B … I, J, K, L -/
example :
    [readAs (Ty.struct [0x30] (.skip (0 : Int) .nil)) (0, ()) (0, ()),
     readAs (Ty.struct [0x31] (.skip (2 : Int) (.plain .string .nil))) (1, "foo", ()) (2, "foo", ()),
     readAs (Ty.struct [0xb0] (.plain (.int .i32) (.skip "" .nil))) (0, "", ()) (0, "", ()),
     readAs (Ty.struct [0xb1] (.plain (.int .i32) (.skip "bar" (.plain .bool .nil)))) (1, "foo", true, ()) (1, "bar", true, ()),
     readAs (Ty.struct [0x10] (.skip (2 : Int) .nil)) (1, ()) (2, ()),
     readAs (Ty.struct [0x90] (.plain (.int .i32) (.skip "bar" .nil))) (1, "foo", ()) (1, "bar", ())].all id = true := by decide +kernel
example : [readAs threeVariants (.inl (0, ())) (.inl (2, ())), readAs threeVariants (.inr (.inl (1, "foo", ()))) (.inr (.inl (0, "foo", ()))),
    readAs threeVariants (.inr (.inr (.inl (0, "", ())))) (.inr (.inr (.inl (0, "bar", ()))))].all id = true := by decide +kernel

/-- tests/de/indefinite_length.rs: A -/
example : made (fun m => Ber.newIndefinite m junk IdRef.sequence BerRef.eoc) (fun m b =>
    decide (fromBer (Ty.de m anyOrder (Ty.struct [0x30] .nil)) b = .ok ())) = true := by decide +kernel
/-- tests/de/indefinite_length.rs: B -/
example : made (fun m => do
      let b ← Ber.withIdLengthIndefinite m junk IdRef.sequence 0
      let b ← Ber.extendFromSlice m junk b [0x02, 0x01, 0x7b]
      let b ← Ber.extendFromSlice m junk b [0x01, 0x01, 0xff]
      Ber.extendFromSlice m junk b BerRef.eoc)
    (fun m b => decide (fromBer (Ty.de m anyOrder (Ty.struct [0x30] (.plain (.int .i32) (.plain .bool .nil)))) b = .ok (123, true, ()))) = true := by
  decide +kernel

/-- tests/de/from_field.rs, try_from_field.rs, from_struct.rs, transparent.rs -/
example :
    [readAs (Ty.struct [0x30] (.conv .octetString (fun (b : Bytes) => b) (.tryFrom fun b => .ok b) .nil)) ([], ()) ([], ()),
     readAs (Ty.struct [0x30] (.conv .octetString (fun (b : Bytes) => b) (.from_ fun b => b) (.plain (.int .i8) .nil))) ([0], 1, ()) ([0], 1, ()),
     readAs (Ty.struct [0x05] (.plain (.int .i8) (.conv .octetString (fun (b : Bytes) => b) (.tryFrom fun b => .ok b) .nil))) (-2, [1, 2], ()) (-2, [1, 2], ()),
     readAs (Ty.transparent (.plain (.vec (.int .u8)) .nil)) ([1, 2, 3], ()) ([1, 2, 3], ()),
     readAs (Ty.transparent (.conv .octetString (fun (b : Bytes) => b) (.from_ fun b => b) (.skip (0 : Int) .nil))) ([1, 2, 3], 0x12, ()) ([1, 2, 3], 0, ()),
     readAs (Ty.conv .string (fun (v : String × Int) => v.1) (.from_ fun s => (s, 0))) ("inner", 10) ("inner", 0)].all id = true := by decide +kernel

/-- tests/de/generics.rs, ser/generics.rs -/
example :
    [readAs (Ty.enum (.cons [0x30] (.plain .bool .nil) (.cons [0x31] (.plain (.int .i32) .nil) .nil))) (.inl (true, ())) (.inl (true, ())),
     readAs (Ty.enum (.cons [0x30] (.plain .bool .nil) (.cons [0x31] (.plain (.int .i32) .nil) .nil))) (.inr (.inl (32, ()))) (.inr (.inl (32, ())))].all
      id = true := by decide +kernel

end Bsn1.Conform
