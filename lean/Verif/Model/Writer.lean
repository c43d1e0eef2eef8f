import Verif.Model.Ser
/-!
# Writers: `std::io::Write`
-/

namespace Bsn1

/-- One answer of a writer to `write(buf)` for a non-empty `buf`.  For the writers of bsn1_serde/src/lib.rs:80 and 114; not in /repo. -/
inductive WEvent where
  /-- `Ok(min(n, buf.len()))`: the writer takes that many octets. -/
  | accept (n : Nat)
  /-- `Err(kind)`: the writer takes nothing. -/
  | fail (k : IoKind)
  deriving DecidableEq, Repr

/-- A writer: the list of its future answers, and the octets it has taken.  When the list is exhausted it takes
everything.  Each finite interaction of a program with any writer is the interaction with some such list.
For the writers of bsn1_serde/src/lib.rs:80 and 114. -/
structure Writer where
  script : List WEvent
  taken : Bytes
  deriving DecidableEq, Repr

/-- The default `Write::write_all` of the standard library: `Ok(0)` gives `WriteZero`, `Interrupted` is retried.
Called e.g. at bsn1_serde/src/lib.rs:97; not in /repo. -/
def Writer.writeAllLoop : (script : List WEvent) → (taken buf : Bytes) → Res Unit × Writer
  | script, taken, [] => (.ok (), ⟨script, taken⟩)
  | [], taken, buf => (.ok (), ⟨[], taken ++ buf⟩)
  | .accept n :: script, taken, buf =>
    if n = 0 then (.err (.io .writeZero), ⟨script, taken⟩)
    else writeAllLoop script (taken ++ buf.take n) (buf.drop n)
  | .fail .interrupted :: script, taken, buf => writeAllLoop script taken buf
  | .fail k :: script, taken, _ => (.err (.io k), ⟨script, taken⟩)

/-- `write_all` on a writer.  E.g. bsn1_serde/src/lib.rs:97. -/
def Writer.writeAll (w : Writer) (buf : Bytes) : Res Unit × Writer :=
  Writer.writeAllLoop w.script w.taken buf

/-- Calls of `write_all` in order, up to the first that fails.  What bsn1_serde/src/lib.rs:96-103 does with the writer. -/
def Writer.writeChunks : (chunks : List Bytes) → Writer → Res Unit × Writer
  | [], w => (.ok (), w)
  | c :: r, w =>
    match w.writeAll c with
    | (.ok (), w) => writeChunks r w
    | (e, w) => (e, w)

/-- Running a computation with a writer.  A call of `write_der`, bsn1_serde/src/lib.rs:80. -/
def W.run {α : Type} (x : W α) (w : Writer) : Res α × Writer :=
  match Writer.writeChunks x.chunks w with
  | (.ok (), w) => (x.res, w)
  | (.err e, w) => (.err e, w)
  | (.panic, w) => (.panic, w)
  | (.ub, w) => (.ub, w)

end Bsn1
