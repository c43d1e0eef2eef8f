import Verif.Model.Reader
/-!
# What it means for a reader to deliver octets

Used in the statements about `Der::parse`, `Ber::parse` and the `read_*` functions.
-/

namespace Bsn1.Spec

/-- `R` relates a reader to the octets it is still going to deliver, in non-empty pieces whose sizes are up to
the reader, then end of file.  No `read` fails. -/
structure Delivers {σ : Type} [Reader σ] (R : σ → List UInt8 → Prop) : Prop where
  /-- A `read` with room for `n > 0` octets gives at least one octet unless there is none left. -/
  read_pos : ∀ (n : Nat) (s : σ) (bs : List UInt8), 0 < n → R s bs →
    ∃ k s', Reader.read n s = (.data (bs.take k), s') ∧ R s' (bs.drop k) ∧ k ≤ n ∧ (bs ≠ [] → 0 < k)
  /-- A `read` without room gives nothing. -/
  read_zero : ∀ (s : σ) (bs : List UInt8), R s bs → ∃ s', Reader.read 0 s = (.data [], s') ∧ R s' bs
  /-- The termination measure of the reader is not smaller than what it delivers. -/
  size_le : ∀ (s : σ) (bs : List UInt8), R s bs → bs.length ≤ Reader.size s

/-- A script that delivers `bs` in non-empty chunks. -/
inductive Chunks : Script → List UInt8 → Prop
  | nil : Chunks [] []
  | cons (c : List UInt8) (s : Script) (bs : List UInt8) : c ≠ [] → Chunks s bs →
      Chunks (.chunk c :: s) (c ++ bs)

/-- All octets a script can deliver, failing reads skipped. -/
def scriptData : Script → List UInt8
  | [] => []
  | .chunk c :: s => c ++ scriptData s
  | .fail _ :: s => scriptData s

/-- A script that delivers `bs` in non-empty chunks and goes on with `tail`. -/
inductive ChunksThen (tail : Script) : Script → List UInt8 → Prop
  | nil : ChunksThen tail tail []
  | cons (c : List UInt8) (s : Script) (bs : List UInt8) : c ≠ [] → ChunksThen tail s bs →
      ChunksThen tail (.chunk c :: s) (c ++ bs)

/-- A script that delivers `bs` in non-empty chunks, interrupted any number of times, and goes on with `tail`. -/
inductive InterruptedThen (tail : Script) : Script → List UInt8 → Prop
  | nil : InterruptedThen tail tail []
  | cons (c : List UInt8) (s : Script) (bs : List UInt8) : c ≠ [] → InterruptedThen tail s bs →
      InterruptedThen tail (.chunk c :: s) (c ++ bs)
  | interrupt (s : Script) (bs : List UInt8) : InterruptedThen tail s bs →
      InterruptedThen tail (.fail .interrupted :: s) bs

/-- What fails in a script, each with the count of octets that are delivered before. -/
def failures : Script → List (Nat × IoKind)
  | [] => []
  | .chunk c :: s => (failures s).map fun e => (e.1 + c.length, e.2)
  | .fail k :: s => (0, k) :: failures s

/-- No `read` says that there are no more octets while there are some. -/
def Steady (s : Script) : Prop := .chunk [] ∉ s

/-- One `read` ends, or fails, after the octets delivered are `j`. -/
def Joint (s : Script) (j : Nat) : Prop := ∃ a b, s = a ++ b ∧ (scriptData a).length = j

/-- `e` is the first element of the list with the property `P`. -/
def First {α : Type} (P : α → Prop) (l : List α) (e : α) : Prop := ∃ a b, l = a ++ e :: b ∧ P e ∧ ∀ x ∈ a, ¬ P x

end Bsn1.Spec
