/-!
# Primitive notions of the model

Bytes, `Result`s, errors, build profiles and the machine integers used by the code.
-/

namespace Bsn1

/-- A slice or vector of octets (`&[u8]`, `Vec<u8>`).  E.g. the field of bsn1/src/contents_ref.rs:32. -/
abbrev Bytes := List UInt8

/-- `usize::MAX + 1`.  The model is for targets with 64-bit `usize`.  E.g. the type of `Definite`, bsn1/src/length.rs:42. -/
def usizeSize : Nat := 2 ^ 64

/-- `isize::MAX`: the largest size of an allocation or slice.  The bound of `Layout::array`, bsn1/src/buffer/little_endian/mod.rs:133. -/
def isizeMax : Nat := 2 ^ 63 - 1

/-- `u128::MAX + 1`.  The type of tag numbers, bsn1/src/id_tags.rs:43. -/
def u128Size : Nat := 2 ^ 128

/-- The kind of an `std::io::Error`; `other` stands for all kinds the code does not look at.  Inside of `Error::Io`, bsn1/src/lib.rs:78. -/
inductive IoKind where
  | interrupted
  | unexpectedEof
  | writeZero
  | other (code : Nat)
  deriving DecidableEq, Repr

mutual
/-- `bsn1::Error`, bsn1/src/lib.rs:51-84.  -/
inductive Error where
  | unterminatedBytes
  | redundantBytes
  | overFlow
  | indefiniteLength
  | badEoc
  | extraContentsOctet
  | unmatchedId
  | invalidUtf8
  | invalidDerBooleanContents
  | invalidKeyValuePair
  | io (k : IoKind)
  | anyhow (c : Chain)
/-- An `anyhow::Error` seen as the chain of its causes, outermost first
(the iteration order of `anyhow::Error::chain`).  Messages are not modelled.
`err e` is `anyhow::Error::new(e)` for an error of this crate: `bsn1::Error` has no `source()`
(lib.rs:109), so the chain ends there.  `foreign` is an error of another crate without a source.
`context c` is any link that is not a `bsn1::Error` and has the source `c`, in particular what
`anyhow::Error::context` adds. -/
inductive Chain where
  | err (e : Error)
  | foreign
  | context (c : Chain)
end

deriving instance DecidableEq for Error
deriving instance DecidableEq for Chain
deriving instance Repr for Error
deriving instance Repr for Chain

/-- Outcome of a Rust function returning `Result<α, Error>`:  `panic` is an unwinding panic, `ub` is
an access outside of the owned memory (only reachable through arithmetic wrap-around, see
`Der.withIdLength`).  `Result<_, Error>` is e.g. the result of bsn1/src/misc.rs:21. -/
inductive Res (α : Type u) where
  | ok (a : α)
  | err (e : Error)
  | panic
  | ub
  deriving DecidableEq, Repr

namespace Res

/-- The `?` operator.  E.g. bsn1/src/misc.rs:64-65. -/
def bind {α : Type u} {β : Type v} (x : Res α) (f : α → Res β) : Res β :=
  match x with
  | ok a => f a
  | err e => err e
  | panic => panic
  | ub => ub

/-- `?` in sequence, e.g. bsn1/src/misc.rs:64-65. -/
instance : Monad Res where
  pure := Res.ok
  bind := Res.bind

end Res

/-- The build profile: whether integer overflow panics (`debug`) or wraps (`release`).
It also decides whether `debug_assert!` is there, e.g. bsn1/src/buffer/mod.rs:103. -/
inductive Build where
  | debug
  | release
  deriving DecidableEq, Repr

/-- `a + b` on `usize`.  E.g. bsn1/src/der.rs:104. -/
def uadd (m : Build) (a b : Nat) : Res Nat :=
  if a + b < usizeSize then .ok (a + b)
  else match m with
    | .debug => .panic
    | .release => .ok ((a + b) % usizeSize)

/-- `leading_zeros` of a `w`-bit value.  bsn1/src/length.rs:107, 156, bsn1/src/identifier.rs:69, 196. -/
def leadingZeros : (w : Nat) → (v : Nat) → Nat
  | 0, _ => 0
  | w + 1, v => if v.testBit w then 0 else leadingZeros w v + 1

/-- The memory octets of `v.to_be()` for an unsigned `w`-octet value: most significant octet first.
bsn1/src/length.rs:115, bsn1/src/contents.rs:60, 94. -/
def toBeBytes : (w : Nat) → (v : Nat) → Bytes
  | 0, _ => []
  | w + 1, v => UInt8.ofNat (v / 256 ^ w) :: toBeBytes w v

/-- `slice[i]`, panicking when out of range.  E.g. bsn1/src/contents_ref.rs:100. -/
def getAt (l : Bytes) (i : Nat) : Res UInt8 :=
  match l[i]? with
  | some b => .ok b
  | none => .panic

/-- `slice[i] = v`, panicking when out of range.  E.g. bsn1/src/identifier.rs:77. -/
def setAt (l : Bytes) (i : Nat) (v : UInt8) : Res Bytes :=
  if i < l.length then .ok (l.set i v) else .panic

/-- `&slice[i..]`, panicking when out of range.  E.g. bsn1/src/contents_ref.rs:111. -/
def sliceFrom (l : Bytes) (i : Nat) : Res Bytes :=
  if i ≤ l.length then .ok (l.drop i) else .panic

/-- `&slice[..i]`, panicking when out of range.  E.g. bsn1/src/der_ref.rs:98. -/
def sliceTo (l : Bytes) (i : Nat) : Res Bytes :=
  if i ≤ l.length then .ok (l.take i) else .panic

end Bsn1
