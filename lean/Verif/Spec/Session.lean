import Verif.Spec.Serde
import Verif.Spec.Writer
import Verif.Spec.Reader
import Verif.Model.Types
/-!
# A sender and a receiver

Two programs of a user: one writes values one after another, the other reads them.
-/

namespace Bsn1.Spec

variable {α σ : Type}

/-- The sender: `for v in values { write_der(&v, &mut writer)?; }`. -/
def send (m : Build) (t : Ty α) : List α → Writer → Res Unit × Writer
  | [], w => (.ok (), w)
  | v :: vs, w =>
    match (writeDer m (Ty.ser m t) v).run w with
    | (.ok (), w) => send m t vs w
    | (r, w) => (r, w)

/-- The receiver: reads up to `n` values, and stops at the first answer that is not a value.  Gives the values and that answer. -/
def receive (read : σ → Res α × σ) : Nat → σ → List α × Option (Res α)
  | 0, _ => ([], none)
  | n + 1, s =>
    match read s with
    | (.ok v, s) => (v :: (receive read n s).1, (receive read n s).2)
    | (r, _) => ([], some r)

/-- The octets of the values, one after another. -/
def octetsOf (t : Ty α) (vs : List α) : List UInt8 := (vs.map t.der).flatten

end Bsn1.Spec
