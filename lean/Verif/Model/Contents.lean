import Verif.Model.Prim
/-!
# Contents octets: bsn1/src/contents.rs, contents_ref.rs

`ContentsRef` and `Contents` are represented by their octets.
-/

namespace Bsn1

/-- The primitive integer types (`num::PrimInt`).  `isize`/`usize` are 64 bit.
The types of bsn1/src/contents.rs:176-270; `T` of bsn1/src/contents_ref.rs:91-93. -/
inductive IntTy where
  | i8 | u8 | i16 | u16 | i32 | u32 | i64 | u64 | i128 | u128 | isize | usize
  deriving DecidableEq, Repr

namespace IntTy

/-- Whether the type is signed.  Decides between bsn1/src/contents.rs:176-234 and 236-270. -/
def signed : IntTy → Bool
  | i8 | i16 | i32 | i64 | i128 | isize => true
  | u8 | u16 | u32 | u64 | u128 | usize => false

/-- `mem::size_of::<T>()`.  bsn1/src/contents.rs:63, 98, bsn1/src/contents_ref.rs:115. -/
def size : IntTy → Nat
  | i8 | u8 => 1
  | i16 | u16 => 2
  | i32 | u32 => 4
  | i64 | u64 | isize | usize => 8
  | i128 | u128 => 16

/-- The least value of the type.  A fact about Rust that bsn1/src/contents.rs:35-46 relies on. -/
def minVal (t : IntTy) : Int := if t.signed then - 2 ^ (8 * t.size - 1) else 0

/-- The greatest value of the type.  A fact about Rust that bsn1/src/contents.rs:35-46 relies on. -/
def maxVal (t : IntTy) : Int := if t.signed then 2 ^ (8 * t.size - 1) - 1 else 2 ^ (8 * t.size) - 1

/-- `v` is a value of the type.  What the type of `val` in bsn1/src/contents.rs:35 says. -/
def InRange (t : IntTy) (v : Int) : Prop := t.minVal ≤ v ∧ v ≤ t.maxVal

/-- To decide `InRange` (bsn1/src/contents.rs:35) in examples. -/
instance (t : IntTy) (v : Int) : Decidable (t.InRange v) := inferInstanceAs (Decidable (_ ∧ _))

/-- The memory octets of `v.to_be()`.  bsn1/src/contents.rs:60, 94. -/
def toBe (t : IntTy) (v : Int) : Bytes := toBeBytes t.size (v % 2 ^ (8 * t.size)).toNat

/-- `T::from_be(be)` for the memory octets `be` (`size` many).  bsn1/src/contents_ref.rs:165. -/
def fromBe (t : IntTy) (be : Bytes) : Int :=
  let n : Nat := be.foldl (fun acc b => acc * 256 + b.toNat) 0
  if t.signed && decide (2 ^ (8 * t.size - 1) ≤ n) then (n : Int) - 2 ^ (8 * t.size) else n

end IntTy

namespace Contents

/-- `Contents::from_zero`, bsn1/src/contents.rs:48-52 -/
def fromZero : Bytes := [0x00]

/-- The octet a raw pointer points to; outside of the object it is `ub`.  `*src`, bsn1/src/contents.rs:66, 70, 100, 105. -/
def deref (mem : Bytes) (src : Nat) : Res UInt8 :=
  match mem[src]? with
  | some b => .ok b
  | none => .ub

/-- The loop bsn1/src/contents.rs:66-69; the state is `(src, len)`. -/
def skipZeros (mem : Bytes) : (fuel : Nat) → (src len : Nat) → Res (Nat × Nat)
  | 0, _, _ => .panic
  | fuel + 1, src, len => do
    let b ← deref mem src
    if b = 0 then skipZeros mem fuel (src + 1) (len - 1) else return (src, len)

/-- The loop bsn1/src/contents.rs:100-103. -/
def skipOnes (mem : Bytes) : (fuel : Nat) → (src len : Nat) → Res (Nat × Nat)
  | 0, _, _ => .panic
  | fuel + 1, src, len => do
    if 1 < len then
      let b ← deref mem src
      if b = 0xff then skipOnes mem fuel (src + 1) (len - 1) else return (src, len)
    else return (src, len)

/-- `src.sub(1)`; in front of the object it is `ub`.  bsn1/src/contents.rs:71, 106. -/
def ptrSub1 (src : Nat) : Res Nat := if src = 0 then .ub else .ok (src - 1)

/-- `copy_from_nonoverlapping(src, len)` into a fresh buffer.  bsn1/src/contents.rs:78-83, 113-119. -/
def copyOut (mem : Bytes) (src len : Nat) : Res Bytes :=
  if src + len ≤ mem.length then .ok ((mem.drop src).take len) else .ub

/-- `Contents::from_positive`, bsn1/src/contents.rs:54-86.  `mem` is the array `vals` of
two integers seen as octets; `src` starts at the second. -/
def fromPositive (t : IntTy) (val : Int) : Res Bytes := do
  let mem := List.replicate t.size 0 ++ t.toBe val
  let (src, len) ← skipZeros mem (t.size + 1) t.size t.size
  let b ← deref mem src
  if b &&& 0x80 = 0x80 then
    let src ← ptrSub1 src
    copyOut mem src (len + 1)
  else copyOut mem src len

/-- `Contents::from_negative`, bsn1/src/contents.rs:88-122. -/
def fromNegative (t : IntTy) (val : Int) : Res Bytes := do
  let mem := t.toBe val
  let (src, len) ← skipOnes mem (t.size + 1) 0 t.size
  let b ← deref mem src
  if b &&& 0x80 = 0 then
    let src ← ptrSub1 src
    copyOut mem src (len + 1)
  else copyOut mem src len

/-- `Contents::from_integer`, bsn1/src/contents.rs:35-46 -/
def fromInteger (t : IntTy) (val : Int) : Res Bytes :=
  if val < 0 then fromNegative t val
  else if val = 0 then .ok fromZero
  else fromPositive t val

/-- `From<T> for Contents`: bsn1/src/contents.rs:176-234 (unsigned), 236-270 (signed). -/
def ofInt (t : IntTy) (val : Int) : Res Bytes :=
  if t.signed then fromInteger t val
  else if val = 0 then .ok fromZero
  else fromPositive t val

/-- `From<bool> for Contents`, bsn1/src/contents.rs:272-283; the same octets as
`From<bool> for &ContentsRef`, contents_ref.rs:269-279. -/
def ofBool (b : Bool) : Bytes := if b then [0xff] else [0x00]

end Contents

namespace ContentsRef

/-- `if self[0] == 0x00 { &self[1..] } else { self }`, bsn1/src/contents_ref.rs:110-114 and 150-154. -/
def stripZero (self : Bytes) : Res Bytes := do
  let b0 ← getAt self 0
  if b0 = 0x00 then sliceFrom self 1 else .ok self

/-- `ContentsRef::to_integer_unchecked`, bsn1/src/contents_ref.rs:144-166. -/
def toIntegerUnchecked (t : IntTy) (self : Bytes) : Res Int := do
  let b0 ← getAt self 0
  let bytes ← stripZero self
  let filler : UInt8 := if b0 &&& 0x80 = 0x00 then 0x00 else 0xff
  if t.size < bytes.length then .ub
  else
    let be := (List.replicate t.size filler).take (t.size - bytes.length) ++ bytes
    return t.fromBe be

/-- The tests for redundant leading octets, bsn1/src/contents_ref.rs:99-106. -/
def isRedundant (self : Bytes) : Res Bool := do
  if 1 < self.length then
    let s0 ← getAt self 0
    let s1 ← getAt self 1
    if s0 = 0 ∧ s1 &&& 0x80 = 0x00 then return true
    else if s0 = 0xff ∧ s1 &&& 0x80 = 0x80 then return true
    else return false
  else return false

/-- `ContentsRef::to_integer`, bsn1/src/contents_ref.rs:91-132. -/
def toInteger (t : IntTy) (self : Bytes) : Res Int := do
  if self.length = 0 then
    .err .unterminatedBytes
  else
    let redundant ← isRedundant self
    if redundant then .err .redundantBytes
    else
      let bytes ← stripZero self
      if t.size < bytes.length then .err .overFlow
      else
        let v ← toIntegerUnchecked t self
        let s0 ← getAt self 0
        if s0 &&& 0x80 = 0x00 then
          if v < 0 then .err .overFlow else return v
        else
          if 0 ≤ v then .err .overFlow else return v

/-- `ContentsRef::to_bool_ber`, bsn1/src/contents_ref.rs:190-200. -/
def toBoolBer (self : Bytes) : Res Bool := do
  if self.length = 0 then .err .unterminatedBytes
  else if 1 < self.length then .err .extraContentsOctet
  else
    let b ← getAt self 0
    if b = 0x00 then return false else return true

/-- `ContentsRef::to_bool_der`, bsn1/src/contents_ref.rs:224-236. -/
def toBoolDer (self : Bytes) : Res Bool := do
  if self.length = 0 then .err .unterminatedBytes
  else if 1 < self.length then .err .extraContentsOctet
  else
    let b ← getAt self 0
    if b = 0x00 then return false
    else if b = 0xff then pure true
    else .err .invalidDerBooleanContents

end ContentsRef
end Bsn1
