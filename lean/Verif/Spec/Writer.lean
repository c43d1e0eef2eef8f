import Verif.Model.Writer
/-!
# Answers of a writer
-/

namespace Bsn1.Spec

/-- The writer goes on: it takes something, or was interrupted. -/
def goesOn : WEvent → Bool
  | .accept n => n != 0
  | .fail k => k == .interrupted

/-- The error `write_all` reports for an answer that does not go on. -/
def reported : WEvent → IoKind
  | .accept _ => .writeZero
  | .fail k => k

end Bsn1.Spec
