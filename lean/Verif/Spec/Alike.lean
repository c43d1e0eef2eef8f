import Verif.Spec.Decode
/-!
# Two calls that end alike
-/

namespace Bsn1.Spec

/-- Both calls fail with the same error, or do not return for the same reason, or both return values, and these are related. -/
inductive EndsAlike {α β : Type} (R : α → β → Prop) : Res α → Res β → Prop
  | ok (x : α) (y : β) : R x y → EndsAlike R (.ok x) (.ok y)
  | err (e : Error) : EndsAlike R (.err e) (.err e)
  | panic : EndsAlike R .panic .panic
  | ub : EndsAlike R .ub .ub

/-- `v` has the elements of `l`, in any order and each once. -/
def Distinct {α : Type} (l v : List α) : Prop := v.Nodup ∧ ∀ x, x ∈ v ↔ x ∈ l

/-- The maps have the same entries; no key is there twice. -/
def SameEntries {α β : Type} (v w : List (α × β)) : Prop := (v.map Prod.fst).Nodup ∧ (w.map Prod.fst).Nodup ∧ ∀ e, e ∈ v ↔ e ∈ w

/-- The same key, related values. -/
def EntryRel {α β γ : Type} (R : β → γ → Prop) (e : α × β) (e' : α × γ) : Prop := e.1 = e'.1 ∧ R e.2 e'.2

end Bsn1.Spec
