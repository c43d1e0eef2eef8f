import Verif.Model.Prim
/-!
# `std::io::Read` and the octet-wise reader of bsn1/src/misc.rs
-/

namespace Bsn1

/-- Result of one call of `Read::read`.  Matched at bsn1/src/misc.rs:26-31 and bsn1/src/der.rs:188-197. -/
inductive ReadOut where
  | data (bs : Bytes)
  | fail (k : IoKind)
  deriving DecidableEq, Repr

/-- `std::io::Read`.  `read n s` is a call of `read` with a buffer of `n` octets; it returns the
octets copied to the buffer.  `size` bounds what the reader can still deliver and is used
only to bound loops.  Used by bsn1/src/misc.rs:26, bsn1/src/der.rs:188, bsn1/src/ber.rs:331; not in /repo. -/
class Reader (σ : Type) where
  read : Nat → σ → ReadOut × σ
  size : σ → Nat

/-- Contract of a reader: never more than asked for, and `size` is a termination measure.  What bsn1/src/misc.rs:26-31 relies on; not in /repo. -/
class LawfulReader (σ : Type) [Reader σ] : Prop where
  read_data : ∀ (n : Nat) (s s' : σ) (bs : Bytes), Reader.read n s = (.data bs, s') →
    bs.length ≤ n ∧ bs.length + Reader.size s' ≤ Reader.size s
  read_fail : ∀ (n : Nat) (s s' : σ) (k : IoKind), Reader.read n s = (.fail k, s') →
    Reader.size s' < Reader.size s

/-- `impl Read for &[u8]` of the standard library: copies `min(n, len)` octets and advances.
The reader of bsn1/src/der_ref.rs:167 and bsn1/src/ber_ref.rs:162; not in /repo. -/
instance : Reader Bytes where
  read n s := (.data (s.take n), s.drop n)
  size s := s.length

/-- One answer of a scripted reader.  For the readers of bsn1/src/der.rs:169 and bsn1/src/ber.rs:303. -/
inductive Event where
  /-- The next octets are available (a later `read` with a small buffer takes only a part). -/
  | chunk (bs : Bytes)
  /-- `read` returns `Err`. -/
  | fail (k : IoKind)
  deriving DecidableEq, Repr

/-- A reader given by the list of its future answers; end of file when the list is exhausted.
Each finite interaction of a program with any reader is the interaction with some script: take the list of the answers.
For the readers of bsn1/src/der.rs:169 and bsn1/src/ber.rs:303. -/
abbrev Script := List Event

/-- `read` of a script.  A `Read` for bsn1/src/der.rs:169 and bsn1/src/ber.rs:303. -/
def Script.read (n : Nat) : Script → ReadOut × Script
  | [] => (.data [], [])
  | .fail k :: r => (.fail k, r)
  | .chunk bs :: r =>
    if bs.length ≤ n then (.data bs, r)
    else (.data (bs.take n), .chunk (bs.drop n) :: r)

/-- Termination measure of a script.  For the loops of bsn1/src/ber.rs:310-313 and bsn1/src/identifier_ref.rs:716-724. -/
def Script.size : Script → Nat
  | [] => 0
  | .fail _ :: r => 1 + Script.size r
  | .chunk bs :: r => 1 + bs.length + Script.size r

/-- A `Read` for bsn1/src/der.rs:169 and bsn1/src/ber.rs:303. -/
instance : Reader Script where
  read := Script.read
  size := Script.size

/-- A function that reads from a `Read` and appends to a growable writer (`Buffer`, or `sink()` when
the caller forgets the log); both are returned also on errors.  The shape of bsn1/src/misc.rs:59-66. -/
structure P (σ : Type) (α : Type) where
  /-- Reader and log of written octets before; result, reader and log after. -/
  run : σ → Bytes → Res α × σ × Bytes

namespace P
variable {σ α β : Type}

/-- Sequencing with `?`.  E.g. bsn1/src/misc.rs:64-65. -/
def bind (x : P σ α) (f : α → P σ β) : P σ β where
  run s w :=
    match x.run s w with
    | (.ok a, s', w') => (f a).run s' w'
    | (.err e, s', w') => (.err e, s', w')
    | (.panic, s', w') => (.panic, s', w')
    | (.ub, s', w') => (.ub, s', w')

/-- `Ok(a)`.  E.g. bsn1/src/identifier_ref.rs:702. -/
def pure (a : α) : P σ α := ⟨fun s w => (.ok a, s, w)⟩

/-- `?` in sequence, e.g. bsn1/src/misc.rs:64-65. -/
instance : Monad (P σ) where
  pure := P.pure
  bind := P.bind

/-- `return Err(e)`.  E.g. bsn1/src/identifier_ref.rs:709. -/
def throw (e : Error) : P σ α := ⟨fun s w => (.err e, s, w)⟩

/-- A computation on neither the reader nor the writer.  E.g. the sum in bsn1/src/length.rs:287-291. -/
def lift (r : Res α) : P σ α := ⟨fun s w => (r, s, w)⟩

end P

variable {σ : Type} [Reader σ]

/-- `read_u8`, bsn1/src/misc.rs:21-32. -/
def readU8 : P σ UInt8 where
  run s w :=
    match Reader.read 1 s with
    | (.fail k, s') => (.err (.io k), s', w)
    | (.data [], s') => (.err .unterminatedBytes, s', w)
    | (.data [b], s') => (.ok b, s', w)
    | (.data _, s') => (.panic, s', w)

/-- `write_u8`, bsn1/src/misc.rs:40-50.  The writers used by the crate are `std::io::sink()` and
`Buffer` (bsn1/src/buffer/mod.rs:202-206); both always accept the octet. -/
def writeU8 (b : UInt8) : P σ Unit := ⟨fun s w => (.ok (), s, w ++ [b])⟩

/-- The loop of the default `Read::read_exact` of the standard library: interrupted reads are
retried, end of file gives `UnexpectedEof`.  Returns the octets read.  Called at bsn1/src/ber.rs:331; not in /repo. -/
def readExactLoop : (fuel : Nat) → (n : Nat) → (acc : Bytes) → σ → Res Bytes × σ
  | 0, _, _, s => (.panic, s)
  | fuel + 1, n, acc, s =>
    if n = 0 then (.ok acc, s)
    else match Reader.read n s with
      | (.data [], s') => (.err (.io .unexpectedEof), s')
      | (.data bs, s') => readExactLoop fuel (n - bs.length) (acc ++ bs) s'
      | (.fail .interrupted, s') => readExactLoop fuel n acc s'
      | (.fail k, s') => (.err (.io k), s')

/-- `readable.read_exact(buf)` for a `buf` of `n` octets.  bsn1/src/ber.rs:331; not in /repo. -/
def readExact (n : Nat) (s : σ) : Res Bytes × σ :=
  readExactLoop (Reader.size s + n + 1) n [] s

end Bsn1
