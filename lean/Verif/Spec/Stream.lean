import Verif.Spec.Reader
import Verif.Spec.Basic
/-!
# Independent specification: when a function that reads from a stream waits

Nothing here refers to the parsers.
-/

namespace Bsn1.Spec

/-- On the answers `s` of the reader `f` comes to its result: it asks for none of the answers after them, which stay in the reader
whatever they are. -/
def Answered {α : Type} (f : Script → Res α × Script) (s : Script) : Prop := ∃ r left, ∀ tail, f (s ++ tail) = (r, left ++ tail)

/-- The first `n` octets of a stream without end. -/
def firstOctets (a : Nat → UInt8) (n : Nat) : List UInt8 := (List.range n).map a

/-- However the stream is cut in pieces, `f` has not come to a result after its first `n` octets. -/
def WaitsAt {α : Type} (f : Script → Res α × Script) (a : Nat → UInt8) (n : Nat) : Prop :=
  ∀ s, Chunks s (firstOctets a n) → ¬ Answered f s

/-- The octets `p` are the beginning of a header; or a whole one, and the contents it announces fit in memory. -/
def HeaderSoFar (limit : Nat) (p : List UInt8) : Prop :=
  ∃ id n t, IsId id ∧ n < 2 ^ 64 ∧ p ++ t = id ++ lenOctets n ∧ (t = [] → p.length + n ≤ limit)

/-- An answer of a reader without octets: a failure, or the count zero, which says that the octets have ended. -/
def IsStop (ev : Event) : Prop := ev = .chunk [] ∨ ∃ k, ev = .fail k

/-- The error due to such an answer; `cut` is that for the end of the octets. -/
def stopError (cut : Error) : Event → Error
  | .chunk _ => cut
  | .fail k => .io k

/-- Among the answers `s` of a reader, `ev` is the first without octets that disturbs; `W p ev` says that `ev` does so after the octets `p`.
The answers `l` are before it and `r` after it. -/
def FirstStop (W : List UInt8 → Event → Prop) (s l : Script) (ev : Event) (r : Script) : Prop :=
  s = l ++ ev :: r ∧ IsStop ev ∧ W (scriptData l) ev ∧ ∀ a e b, l = a ++ e :: b → IsStop e → ¬ W (scriptData a) e

/-- No answer without octets disturbs. -/
def NoStop (W : List UInt8 → Event → Prop) (s : Script) : Prop := ∀ a e b, s = a ++ e :: b → IsStop e → ¬ W (scriptData a) e

/-- What a reader is going to answer after it has delivered `n` octets. -/
def afterOctets : Nat → Script → Script
  | 0, s => s
  | _, [] => []
  | n + 1, .fail _ :: s => afterOctets (n + 1) s
  | n + 1, .chunk c :: s => if n + 1 < c.length then .chunk (c.drop (n + 1)) :: s else afterOctets (n + 1 - c.length) s

/-- An identifier that never ends. -/
def EndlessId (a : Nat → UInt8) : Prop := (a 0).toNat % 32 = 31 ∧ a 1 ≠ 128 ∧ ∀ i, 1 ≤ i → 128 ≤ (a i).toNat

end Bsn1.Spec
