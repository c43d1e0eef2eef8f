import Verif.Model.Raw
import Verif.Model.Ser
/-!
# `to_der` on real storage: bsn1_serde/src/lib.rs:32-72

`toDer` of `Verif.Model.Ser` sees a `Buffer` as a list of octets.  Here it runs on the buffers of `Verif.Model.Buffer`.  The methods of the
`Serialize` implementation are, as there, given by the slices they pass to `write_all` and by their result; storage that they use themselves (the
buffers of nested values) is not part of this.
-/

namespace Bsn1.Raw
open Bsn1.Buf

variable (I : Impl) (m : Build) (al : Allocator)

/-- `Write::write_all` of each slice with `W = Buffer` (bsn1/src/buffer/mod.rs:202-206): nothing is called for an empty one. -/
def writeChunks : (chunks : List Bytes) → (b : I.B) → M I.B
  | [], b => pure b
  | c :: r, b => do
    let b ← if c.isEmpty then pure b else I.write m al b c
    writeChunks r b

/-- A method that writes to the buffer.  The caller has the buffer afterwards in any case.  bsn1_serde/src/lib.rs:40, 53, 59. -/
def runW (w : W Unit) (b : I.B) : M (Except Error Unit × I.B) := do
  let b ← writeChunks I m al w.chunks b
  match w.res with
  | .ok a => return (.ok a, b)
  | .err e => return (.error e, b)
  | .panic => M.panic
  | .ub => M.ub

/-- Dropping the buffer `contents` of `to_der`, bsn1_serde/src/lib.rs:36-43, if there is one. -/
def dropOption : Option I.B → M Unit
  | none => pure ()
  | some c => I.drop c

variable {α : Type} (s : Ser α) (value : α)

/-- `buffer.write_all(&contents.as_slice()).unwrap()`, bsn1_serde/src/lib.rs:57, after which `contents` is dropped; otherwise
`value.write_der_contents(&mut buffer)?`, 59. -/
def finishDer (contents : Option I.B) (b : I.B) : M (Except Error I.B) := do
  match contents with
  | some c =>
    let cells ← I.cells c
    let bytes ← assumeInit cells
    let b ← writeChunks I m al [bytes] b
    I.drop c
    return .ok b
  | none =>
    match ← runW I m al (s.writeDerContents value) b with
    | (.error e, b) => do
      I.drop b
      return .error e
    | (.ok (), b) => return .ok b

/-- bsn1_serde/src/lib.rs:48-51. -/
def reserveHint (idLen : Option Nat) (lengthLen contentsLen : Nat) (b : I.B) : M I.B := do
  match idLen with
  | some idLen =>
    let t ← usizeAdd m idLen lengthLen
    let derLen ← usizeAdd m t contentsLen
    I.reserve m al b derLen
  | none => return b

/-- bsn1_serde/src/lib.rs:45-62. -/
def derFrom (contentsLen : Nat) (contents : Option I.B) : M (Except Error I.B) := do
  let length ← liftRes (Length.definite contentsLen).toBytes
  match s.idLen value with
  | .err e => do
    dropOption I contents
    return .error e
  | .panic => M.panic
  | .ub => M.ub
  | .ok idLen => do
    let b ← reserveHint I m al idLen length.length contentsLen I.new
    match ← runW I m al (s.writeId value) b with
    | (.error e, b) => do
      I.drop b
      dropOption I contents
      return .error e
    | (.ok (), b) => do
      let b ← writeChunks I m al [length] b
      finishDer I m al s value contents b

/-- `to_der`, bsn1_serde/src/lib.rs:32-63; `to_ber`, 66-72, wraps the same buffer. -/
def toDer : M (Except Error I.B) := do
  match s.derContentsLen value with
  | .err e => return .error e
  | .panic => M.panic
  | .ub => M.ub
  | .ok (some len) => derFrom I m al s value len none
  | .ok none =>
    match ← runW I m al (s.writeDerContents value) I.new with
    | (.error e, c) => do
      I.drop c
      return .error e
    | (.ok (), c) => derFrom I m al s value (I.len c) (some c)

end Bsn1.Raw
