import Verif.Lemmas.StreamBer
/-!
# Lemmas on readers that give any answers
-/

set_option linter.unusedSimpArgs false

namespace Bsn1
open Spec

/-- If `y` comes to the end of the slice `p` within a header, an answer without octets ends `x`. -/
def HStop {α : Type} (x : P Script α) (y : P Bytes α) : Prop := ∀ s p w, Chunks s p → (y.run p w).1 = .err .unterminatedBytes →
  ∀ ev tail, IsStop ev → ∃ w', x.run (s ++ ev :: tail) w = (.err (stopError .unterminatedBytes ev), tail, w')

/-- Both. -/
def Halt {α : Type} (x : P Script α) (y : P Bytes α) : Prop := Flow x y ∧ HStop x y

namespace Halt
variable {α β : Type}

theorem bind {x : P Script α} {y : P Bytes α} {f : α → P Script β} {g : α → P Bytes β} (h : Halt x y)
    (hf : ∀ a, Halt (f a) (g a)) : Halt (x >>= f) (y >>= g) := by
  refine ⟨h.1.bind fun a => (hf a).1, fun s p w hs he ev tail hev => ?_⟩
  rcases hy : y.run p w with ⟨r, p', w'⟩
  rw [P.bind_def, hy] at he
  cases r with
  | ok a =>
    obtain ⟨left, h3, h4⟩ := (h.1 s p w hs).2 (by simp [hy])
    rw [hy] at h3 h4
    obtain ⟨w'', h5⟩ := (hf a).2 left p' w' h3 he ev tail hev
    exact ⟨w'', by rw [P.bind_def, h4]; exact h5⟩
  | err e =>
    obtain ⟨w'', h5⟩ := h.2 s p w hs (by rw [hy]; simp only [Res.err.injEq] at he ⊢; exact he) ev tail hev
    exact ⟨w'', by rw [P.bind_def, h5]⟩
  | panic => cases he
  | ub => cases he

theorem pure (a : α) : Halt (Pure.pure a) (Pure.pure a) := ⟨Flow.pure a, fun s p w _ he => by simp [P.pure_apply] at he⟩

theorem throw {e : Error} (h1 : e ≠ .unterminatedBytes) (h2 : e ≠ .io .unexpectedEof) : Halt (α := α) (P.throw e) (P.throw e) :=
  ⟨Flow.throw h1 h2, fun s p w _ he => by simp [P.throw, h1] at he⟩

theorem write (b : UInt8) : Halt (writeU8 b) (writeU8 b) := ⟨Flow.write b, fun s p w _ he => by simp [writeU8_apply] at he⟩

theorem ite {c : Prop} [Decidable c] {x x' : P Script α} {y y' : P Bytes α} (h : Halt x y) (h' : Halt x' y') :
    Halt (if c then x else x') (if c then y else y') := by
  by_cases hc : c <;> simp [hc, h, h']

theorem read_stop {ev : Event} (h : IsStop ev) (tail : Script) (w : Bytes) :
    (readU8 (σ := Script)).run (ev :: tail) w = (.err (stopError .unterminatedBytes ev), tail, w) := by
  rcases h with rfl | ⟨k, rfl⟩ <;> rfl

theorem read : Halt (readU8 (σ := Script)) readU8 := by
  refine ⟨Flow.read, fun s p w hs he ev tail hev => ?_⟩
  match p with
  | [] =>
    rw [Chunks.nil_inv hs]
    exact ⟨w, read_stop hev tail w⟩
  | b :: r => rw [readU8_cons] at he; cases he

end Halt

theorem hstop_parseIdLoop : ∀ (g : Nat) (o : UInt8) (i : Nat) (s : Script) (p w : Bytes), Chunks s p → p.length < g →
    ((parseIdLoop g o i).run p w).1 = .err .unterminatedBytes → ∀ ev tail, IsStop ev → ∀ f, p.length < f →
      ∃ w', (parseIdLoop f o i).run (s ++ ev :: tail) w = (.err (stopError .unterminatedBytes ev), tail, w') := by
  intro g
  induction g with
  | zero => intro o i s p w _ h; omega
  | succ g ih =>
    intro o i s p w hs hg he ev tail hev f hf
    obtain ⟨f, rfl⟩ : ∃ j, f = j + 1 := ⟨f - 1, by omega⟩
    by_cases hm : o &&& IdRef.MORE_FLAG ≠ IdRef.MORE_FLAG
    · have e : ∀ (σ : Type) [Reader σ] (f : Nat) (s : σ), (parseIdLoop (f + 1) o i).run s w = (.ok i, s, w ++ [o]) := by
        intro σ _ f s
        simp only [parseIdLoop, P.bind_def, writeU8_apply, P.ite_apply, P.pure_apply, if_pos hm]
      rw [e] at he
      cases he
    · have e : ∀ (σ : Type) [Reader σ] (f : Nat) (s : σ), (parseIdLoop (f + 1) o i).run s w =
          (readU8 >>= fun octet => parseIdLoop f octet (i + 1)).run s (w ++ [o]) := by
        intro σ _ f s
        simp only [parseIdLoop, P.bind_def, writeU8_apply, P.ite_apply, P.pure_apply, if_neg hm]
      rw [e] at he ⊢
      match p with
      | [] =>
        rw [Chunks.nil_inv hs, List.nil_append, P.bind_def, Halt.read_stop hev]
        exact ⟨_, rfl⟩
      | b :: r =>
        obtain ⟨j, left, h1, -, h3, h4, h5⟩ := hs.read_tail (by simp) 1
        have : j = 1 := by have := h3 (by omega); omega
        subst this
        have h6 : (readU8 (σ := Script)).run (s ++ ev :: tail) (w ++ [o]) = (.ok b, left ++ ev :: tail, w ++ [o]) := by
          simp only [readU8, h5 (ev :: tail), List.take_succ_cons, List.take_zero]
        rw [P.bind_def, readU8_cons] at he
        rw [P.bind_def, h6]
        simp only [List.length_cons] at hg hf
        exact ih b (i + 1) left r (w ++ [o]) (by simpa using h4) (by omega) he ev tail hev f (by omega)

theorem halt_parseId : Halt (parseId (σ := Script)) parseId := by
  refine ⟨flow_parseId, ?_⟩
  suffices h : Halt (parseId (σ := Script)) parseId from h.2
  unfold parseId
  refine Halt.read.bind fun first => (Halt.write first).bind fun _ => ?_
  refine Halt.ite (Halt.pure 1) (Halt.read.bind fun o => ?_)
  refine Halt.ite (Halt.throw (by simp) (by simp)) (Halt.ite (Halt.throw (by simp) (by simp)) ⟨?_, ?_⟩)
  · intro s p w h
    obtain ⟨h1, h2⟩ := flow_parseIdLoop (Reader.size p + 1) o 2 s p w h (by simp [Reader.size])
    refine ⟨fun he k tail hk => h1 he k tail hk _ (h.size_append_lt _), fun he => ?_⟩
    obtain ⟨left, h3, h4⟩ := h2 he
    exact ⟨left, h3, fun tail => h4 tail _ (h.size_append_lt _)⟩
  · intro s p w h he ev tail hev
    exact hstop_parseIdLoop (Reader.size p + 1) o 2 s p w h (by simp [Reader.size]) he ev tail hev _ (h.size_append_lt _)

theorem halt_parseLengthLoop : ∀ k l, Halt (parseLengthLoop (σ := Script) k l) (parseLengthLoop k l)
  | 0, l => Halt.pure l
  | k + 1, l => Halt.read.bind fun b => (Halt.write b).bind fun _ => halt_parseLengthLoop k _

theorem halt_parseLength : Halt (parseLength (σ := Script)) parseLength := by
  unfold parseLength
  refine Halt.read.bind fun first => (Halt.write first).bind fun _ => ?_
  refine Halt.ite (Halt.pure _) (Halt.ite (Halt.pure _) (Halt.read.bind fun second => ?_))
  refine Halt.ite (Halt.throw (by simp) (by simp)) ((Halt.write _).bind fun _ => ?_)
  refine Halt.ite (Halt.throw (by simp) (by simp)) (Halt.ite (Halt.throw (by simp) (by simp)) ?_)
  exact (halt_parseLengthLoop _ _).bind fun _ => Halt.pure _

theorem halt_parseIdLength : Halt (parseIdLength (σ := Script)) parseIdLength := halt_parseId.bind fun _ => halt_parseLength

/-! ### `read_exact` -/

/-- The bound of the loop does not matter if it is large enough. -/
theorem readExactLoop_fuel : ∀ (f f' n : Nat) (acc : Bytes) (s : Script), Script.size s + n < f → Script.size s + n < f' →
    readExactLoop f n acc s = readExactLoop f' n acc s := by
  intro f
  induction f with
  | zero => intro f' n acc s h; omega
  | succ f ih =>
    intro f' n acc s h h'
    obtain ⟨f', rfl⟩ : ∃ j, f' = j + 1 := ⟨f' - 1, by omega⟩
    simp only [readExactLoop]
    by_cases hn : n = 0
    · rw [if_pos hn, if_pos hn]
    · rw [if_neg hn, if_neg hn]
      match s with
      | [] => rfl
      | .fail k :: s =>
        have e : Reader.read n (.fail k :: s : Script) = (.fail k, s) := rfl
        rw [e]
        simp only [Script.size] at h h'
        cases k with
        | interrupted => exact ih f' n acc s (by omega) (by omega)
        | _ => rfl
      | .chunk c :: s =>
        simp only [Script.size] at h h'
        by_cases hl : c.length ≤ n
        · have e : Reader.read n (.chunk c :: s : Script) = (.data c, s) := by simp [Reader.read, Script.read, hl]
          rw [e]
          cases c with
          | nil => rfl
          | cons x c =>
            simp only [List.length_cons] at hl h h' ⊢
            exact ih f' _ _ s (by omega) (by omega)
        · have e : Reader.read n (.chunk c :: s : Script) = (.data (c.take n), .chunk (c.drop n) :: s) := by simp [Reader.read, Script.read, hl]
          rw [e]
          have hlen : (c.take n).length = n := by simp; omega
          cases hc : c.take n with
          | nil => rfl
          | cons x c' =>
            rw [hc] at hlen
            simp only
            rw [hlen, Nat.sub_self]
            obtain ⟨f, rfl⟩ : ∃ j, f = j + 1 := ⟨f - 1, by omega⟩
            obtain ⟨f', rfl⟩ : ∃ j, f' = j + 1 := ⟨f' - 1, by omega⟩
            simp [readExactLoop]

/-- An answer without octets within the contents: the end or a failure is reported, an interruption is nothing. -/
theorem readExactLoop_stop : ∀ (n : Nat) (acc : Bytes) (s : Script) (p : Bytes), Chunks s p → p.length < n →
    (∀ ev tail, IsStop ev → ev ≠ .fail .interrupted → ∀ f, n < f →
      readExactLoop f n acc (s ++ ev :: tail) = (.err (stopError (.io .unexpectedEof) ev), tail)) ∧
    (∀ tail f f', Script.size (s ++ .fail .interrupted :: tail) + n < f → Script.size (s ++ tail) + n < f' →
      readExactLoop f n acc (s ++ .fail .interrupted :: tail) = readExactLoop f' n acc (s ++ tail)) := by
  intro n
  induction n using Nat.strong_induction_on with
  | _ n ih =>
    intro acc s p hs hlt
    have hn : n ≠ 0 := by omega
    by_cases hp : p = []
    · subst hp
      rw [Chunks.nil_inv hs]
      constructor
      · intro ev tail hev hne f hf
        obtain ⟨f, rfl⟩ : ∃ j, f = j + 1 := ⟨f - 1, by omega⟩
        simp only [readExactLoop, if_neg hn, List.nil_append]
        rcases hev with rfl | ⟨k, rfl⟩
        · have hread : Reader.read n ((.chunk [] :: tail : Script)) = (.data [], tail) := by simp [Reader.read, Script.read]
          rw [hread]; rfl
        · have hread : Reader.read n ((.fail k :: tail : Script)) = (.fail k, tail) := rfl
          rw [hread]
          cases k with
          | interrupted => exact absurd rfl hne
          | _ => rfl
      · intro tail f f' hf hf'
        obtain ⟨f, rfl⟩ : ∃ j, f = j + 1 := ⟨f - 1, by omega⟩
        simp only [List.nil_append, Script.size] at hf hf' ⊢
        have e : readExactLoop (f + 1) n acc (.fail .interrupted :: tail : Script) = readExactLoop f n acc tail := by
          simp only [readExactLoop, if_neg hn]
          have hread : Reader.read n ((.fail .interrupted :: tail : Script)) = (.fail .interrupted, tail) := rfl
          rw [hread]
        rw [e]
        exact readExactLoop_fuel f f' n acc tail (by omega) (by omega)
    · obtain ⟨j, left, h1, h2, h3, h4, h5⟩ := hs.read_tail hp n
      have hj : 0 < j := h3 (by omega)
      have hl : (p.take j).length = j := by simp; omega
      obtain ⟨x, c, hc⟩ : ∃ x c, p.take j = x :: c := by
        cases hx : p.take j with
        | nil => rw [hx] at hl; simp at hl; omega
        | cons x c => exact ⟨x, c, rfl⟩
      have step : ∀ tail f, readExactLoop (f + 1) n acc (s ++ tail) = readExactLoop f (n - j) (acc ++ p.take j) (left ++ tail) := by
        intro tail f
        simp only [readExactLoop, if_neg hn, h5 tail, hc]
        rw [← hc, hl]
      have hsize : ∀ tail, Script.size (left ++ tail) + j ≤ Script.size (s ++ tail) := by
        intro tail
        have := (LawfulReader.read_data n (s ++ tail) _ _ (h5 tail)).2
        rw [hl] at this
        have e : ∀ t : Script, Reader.size t = Script.size t := fun _ => rfl
        rw [e, e] at this
        omega
      obtain ⟨i1, i2⟩ := ih (n - j) (by omega) (acc ++ p.take j) left (p.drop j) h4 (by simp; omega)
      constructor
      · intro ev tail hev hne f hf
        obtain ⟨f, rfl⟩ : ∃ j, f = j + 1 := ⟨f - 1, by omega⟩
        rw [step]
        exact i1 ev tail hev hne f (by omega)
      · intro tail f f' hf hf'
        obtain ⟨f, rfl⟩ : ∃ j, f = j + 1 := ⟨f - 1, by omega⟩
        obtain ⟨f', rfl⟩ : ∃ j, f' = j + 1 := ⟨f' - 1, by omega⟩
        rw [step, step]
        have := hsize tail
        have := hsize (.fail .interrupted :: tail)
        exact i2 tail f f' (by omega) (by omega)

theorem readExact_stop (n : Nat) (s : Script) (p : Bytes) (h : Chunks s p) (hn : p.length < n) :
    (∀ ev tail, IsStop ev → ev ≠ .fail .interrupted → readExact n (s ++ ev :: tail) = (.err (stopError (.io .unexpectedEof) ev), tail)) ∧
    (∀ tail, readExact n (s ++ .fail .interrupted :: tail) = readExact n (s ++ tail)) := by
  obtain ⟨h1, h2⟩ := readExactLoop_stop n [] s p h hn
  exact ⟨fun ev tail hev hne => h1 ev tail hev hne _ (by omega),
    fun tail => h2 tail _ _ (by simp [Reader.size]) (by simp [Reader.size])⟩

end Bsn1
