import Verif.Model.Reader
/-!
# Simplification rules for the two monads and the slice reader
-/

namespace Bsn1

namespace Res
variable {α β : Type}

@[simp] theorem pure_eq (a : α) : (pure a : Res α) = .ok a := rfl
@[simp] theorem bind_ok (a : α) (f : α → Res β) : (Res.ok a >>= f) = f a := rfl
@[simp] theorem bind_err (e : Error) (f : α → Res β) : (Res.err e >>= f) = .err e := rfl
@[simp] theorem bind_panic (f : α → Res β) : (Res.panic >>= f) = .panic := rfl
@[simp] theorem bind_ub (f : α → Res β) : (Res.ub >>= f) = .ub := rfl

theorem bind_eq_ok {x : Res α} {f : α → Res β} {b : β} :
    (x >>= f) = .ok b ↔ ∃ a, x = .ok a ∧ f a = .ok b := by
  cases x <;> simp

end Res

namespace P
variable {σ α β : Type}

theorem bind_def (x : P σ α) (f : α → P σ β) (s : σ) (w : Bytes) :
    (x >>= f).run s w = match x.run s w with
      | (.ok a, s', w') => (f a).run s' w'
      | (.err e, s', w') => (.err e, s', w')
      | (.panic, s', w') => (.panic, s', w')
      | (.ub, s', w') => (.ub, s', w') := rfl

@[simp] theorem pure_apply (a : α) (s : σ) (w : Bytes) : (Pure.pure a : P σ α).run s w = (.ok a, s, w) := rfl
@[simp] theorem throw_apply (e : Error) (s : σ) (w : Bytes) :
    (P.throw e : P σ α).run s w = (.err e, s, w) := rfl
@[simp] theorem lift_apply (r : Res α) (s : σ) (w : Bytes) : (P.lift r : P σ α).run s w = (r, s, w) := rfl

@[simp] theorem ite_apply {c : Prop} [Decidable c] (x y : P σ α) (s : σ) (w : Bytes) :
    (if c then x else y).run s w = if c then x.run s w else y.run s w := by
  split <;> rfl

end P

@[simp] theorem writeU8_apply {σ : Type} (b : UInt8) (s : σ) (w : Bytes) :
    (writeU8 b).run s w = (.ok (), s, w ++ [b]) := rfl

@[simp] theorem readU8_nil (w : Bytes) : (readU8 (σ := Bytes)).run [] w = (.err .unterminatedBytes, [], w) := rfl
@[simp] theorem readU8_cons (b : UInt8) (r w : Bytes) : (readU8 (σ := Bytes)).run (b :: r) w = (.ok b, r, w) := rfl

@[simp] theorem size_bytes (s : Bytes) : Reader.size (σ := Bytes) s = s.length := rfl
@[simp] theorem read_bytes (n : Nat) (s : Bytes) :
    Reader.read (σ := Bytes) n s = (.data (s.take n), s.drop n) := rfl

instance : LawfulReader Bytes where
  read_data n s s' bs h := by
    simp only [read_bytes, Prod.mk.injEq, ReadOut.data.injEq] at h
    obtain ⟨rfl, rfl⟩ := h
    simp only [List.length_take, size_bytes, List.length_drop]
    omega
  read_fail n s s' k h := by simp at h

instance : LawfulReader Script where
  read_data n s s' bs h := by
    match s with
    | [] =>
      simp only [Reader.read, Script.read, Prod.mk.injEq, ReadOut.data.injEq] at h
      obtain ⟨rfl, rfl⟩ := h
      simp
    | .fail k :: r => simp [Reader.read, Script.read] at h
    | .chunk c :: r =>
      simp only [Reader.read, Script.read] at h
      split at h
      · simp only [Prod.mk.injEq, ReadOut.data.injEq] at h
        obtain ⟨rfl, rfl⟩ := h
        refine ⟨by omega, ?_⟩
        simp only [Reader.size, Script.size]; omega
      · simp only [Prod.mk.injEq, ReadOut.data.injEq] at h
        obtain ⟨rfl, rfl⟩ := h
        simp only [Reader.size, Script.size, List.length_take, List.length_drop]; omega
  read_fail n s s' k h := by
    match s with
    | [] => simp [Reader.read, Script.read] at h
    | .fail k :: r =>
      simp only [Reader.read, Script.read, Prod.mk.injEq, ReadOut.fail.injEq] at h
      obtain ⟨rfl, rfl⟩ := h
      simp only [Reader.size, Script.size]; omega
    | .chunk c :: r =>
      simp only [Reader.read, Script.read] at h
      split at h <;> simp at h

end Bsn1
