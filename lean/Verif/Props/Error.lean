import Verif.Model.Error
import Verif.Spec.Error
import Mathlib.Logic.Function.Iterate
/-!
# C61, C62: errors
-/

namespace Bsn1
open Spec

/-- C61 fails: `e.context(msg).root_cause()` is not `e` but the wrapper, although the chain contains
`e`: the loop stops at the first link, which is the context. -/
theorem C61_root_cause_violated :
    ¬ ∀ (c : Chain) (e : Error), firstOwn c = some e → (Error.anyhow c).rootCause = e := by
  intro h
  have := h (.context (.err .overFlow)) .overFlow rfl
  cases this

/-- C61, also in the form of the documented use: no number of context layers above zero is looked
through, for any error. -/
theorem C61_context_root_cause_violated (e : Error) (n : Nat) :
    (Error.anyhow (layers (n + 1) e.intoAnyhow)).rootCause =
      .anyhow (layers (n + 1) e.intoAnyhow) := rfl

/-- C61, the part that holds.  `root_cause` returns the first error of this crate whenever that is the
outermost link of the chain, or the error is not a chain, or the chain has no such error; in all
other cases (context on the outside of an error of this crate) it returns the whole chain. -/
theorem C61_root_cause_partial (x : Error) :
    (∀ e, x = .anyhow (.err e) → x.rootCause = e) ∧
    ((∀ c, x ≠ .anyhow c) → x.rootCause = x) ∧
    (∀ c, x = .anyhow c → firstOwn c = none → x.rootCause = x) ∧
    (∀ c, x = .anyhow (.context c) → x.rootCause = x) ∧
    (∀ e, (∀ c, e ≠ .anyhow c) → (Error.anyhow e.intoAnyhow).rootCause = e) := by
  refine ⟨?_, ?_, ?_, ?_, ?_⟩
  · rintro e rfl; rfl
  · intro h
    cases x <;> first | rfl | exact absurd rfl (h _)
  · rintro c rfl h
    cases c with
    | err e => cases h
    | foreign => rfl
    | context c => rfl
  · rintro c rfl; rfl
  · intro e h
    cases e <;> first | rfl | exact absurd rfl (h _)

example : (Error.anyhow (Error.intoAnyhow .badEoc)).rootCause = .badEoc := rfl
example : Error.badEoc.context.context = .anyhow (layers 2 (.err .badEoc)) := rfl
example : Error.badEoc.context.context.rootCause ≠ .badEoc := by decide

/-- `context` keeps the chain: an error that is not a chain becomes its only link, a chain is extended by one layer (and
not nested in a new one), for any number of layers. -/
theorem C61_context_layers (n : Nat) :
    (∀ e : Error, (∀ c, e ≠ .anyhow c) → Error.context^[n + 1] e = .anyhow (layers (n + 1) (.err e))) ∧
    (∀ c, Error.context^[n] (.anyhow c) = .anyhow (layers n c)) := by
  have h2 : ∀ n c, Error.context^[n] (.anyhow c) = .anyhow (layers n c) := by
    intro n c
    induction n with
    | zero => rfl
    | succ n ih => rw [Function.iterate_succ_apply', ih]; rfl
  refine ⟨fun e he => ?_, h2 n⟩
  have e1 : e.context = .anyhow (.context (.err e)) := by
    cases e <;> first | rfl | exact absurd rfl (he _)
  have e2 : ∀ k c, layers k (.context c) = layers (k + 1) c := by
    intro k c
    induction k with
    | zero => rfl
    | succ k ih => rw [layers, ih]; rfl
  rw [Function.iterate_succ_apply, e1, h2 n, e2]

example : Error.context^[3] Error.overFlow = .anyhow (layers 3 (.err .overFlow)) := (C61_context_layers 2).1 _ (by simp)

/-- The first error of this crate is that of the error wrapped, for any number of layers. -/
theorem C61_context_keeps_chain (n : Nat) :
    (∀ e : Error, (∀ c, e ≠ .anyhow c) → (Error.context^[n + 1] e).asAnyhow.bind firstOwn = some e) ∧
    (∀ c, (Error.context^[n] (.anyhow c)).asAnyhow.bind firstOwn = firstOwn c) := by
  have key : ∀ k c, firstOwn (layers k c) = firstOwn c := by
    intro k c
    induction k with
    | zero => rfl
    | succ k ih => exact ih
  constructor
  · intro e he
    rw [(C61_context_layers n).1 e he]
    exact key (n + 1) (.err e)
  · intro c
    rw [(C61_context_layers n).2 c]
    exact key n c

example : (Error.context^[3] Error.badEoc).asAnyhow.bind firstOwn = some .badEoc := rfl

/-- C62.  Two errors are equal exactly if they have the same kind and that kind is neither `Io` nor
`Anyhow`. -/
theorem C62_eq_iff (a b : Error) :
    a.eq b = true ↔ kind a = kind b ∧ kind a ≠ .io ∧ kind a ≠ .anyhow := by
  cases a <;> cases b <;> simp [Error.eq, kind]

example : Error.eq .badEoc .badEoc = true ∧ Error.eq .badEoc .overFlow = false ∧ Error.eq (.io .interrupted) (.io .interrupted) = false :=
  ⟨(C62_eq_iff _ _).2 ⟨rfl, by decide, by decide⟩, rfl, rfl⟩

/-- C62.  `==` on errors is symmetric. -/
theorem C62_symm (a b : Error) : a.eq b = b.eq a := by
  rw [Bool.eq_iff_iff, C62_eq_iff, C62_eq_iff]
  constructor <;> rintro ⟨h, h1, h2⟩ <;> exact ⟨h.symm, h ▸ h1, h ▸ h2⟩

example : Error.eq (.anyhow .foreign) .badEoc = Error.eq .badEoc (.anyhow .foreign) := C62_symm _ _

/-- C62.  `==` on errors is transitive. -/
theorem C62_trans (a b c : Error) (h : a.eq b = true) (h' : b.eq c = true) : a.eq c = true := by
  rw [C62_eq_iff] at *
  exact ⟨h.1.trans h'.1, h.2⟩

example : Error.eq .overFlow .overFlow = true := C62_trans .overFlow .overFlow .overFlow rfl rfl

/-- C62.  An error equals itself exactly if it is plain; a plain error equals only itself. -/
theorem C62_refl (a : Error) :
    (a.eq a = true ↔ ((∀ k, a ≠ .io k) ∧ ∀ c, a ≠ .anyhow c)) ∧ (∀ b, a.eq b = true → a = b) := by
  constructor
  · cases a <;> simp [Error.eq]
  · intro b h
    cases a <;> cases b <;> first | rfl | simp [Error.eq] at h

example : Error.eq .overFlow .overFlow = true := rfl
example : Error.eq (.io .unexpectedEof) (.io .unexpectedEof) = false := rfl

end Bsn1
