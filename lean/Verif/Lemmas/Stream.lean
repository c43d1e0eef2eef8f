import Verif.Lemmas.Cut
import Verif.Lemmas.Script
import Verif.Spec.Stream
/-!
# Lemmas on parsing from a stream
-/

set_option linter.unusedSimpArgs false

namespace Bsn1
open Spec

/-- What parsing a slice says when it comes to the end of the slice. -/
def AtEnd {α : Type} (r : Res α) : Prop := r = .err .unterminatedBytes ∨ r = .err (.io .unexpectedEof)

@[simp] theorem atEnd_ok {α : Type} (a : α) : ¬ AtEnd (.ok a) := by simp [AtEnd]
@[simp] theorem atEnd_panic {α : Type} : ¬ AtEnd (.panic : Res α) := by simp [AtEnd]
@[simp] theorem atEnd_ub {α : Type} : ¬ AtEnd (.ub : Res α) := by simp [AtEnd]

theorem atEnd_err {α β : Type} {e : Error} (h : AtEnd (.err e : Res α)) : AtEnd (.err e : Res β) := by
  simpa [AtEnd] using h

/-- `x` on a script that starts with the octets `p` does what `y` does on the slice `p` and leaves alone what follows, unless `y` comes to
the end of the slice: then `x` asks for more. -/
def FlowAt {α : Type} (x : Script → Bytes → Res α × Script × Bytes) (y : Bytes → Bytes → Res α × Bytes × Bytes) (s : Script) (p w : Bytes) : Prop :=
  (AtEnd (y p w).1 → ∀ k tail, k ≠ .interrupted → ∃ w', x (s ++ .fail k :: tail) w = (.err (.io k), tail, w')) ∧
  (¬ AtEnd (y p w).1 → ∃ left, Chunks left (y p w).2.1 ∧ ∀ tail, x (s ++ tail) w = ((y p w).1, left ++ tail, (y p w).2.2))

/-- The same for all scripts. -/
def Flow {α : Type} (x : P Script α) (y : P Bytes α) : Prop := ∀ s p w, Chunks s p → FlowAt x.run y.run s p w

namespace Flow
variable {α β : Type}

theorem bindAt {x : P Script α} {y : P Bytes α} {f : α → P Script β} {g : α → P Bytes β} {s : Script} {p w : Bytes}
    (h : FlowAt x.run y.run s p w)
    (hf : ∀ a left p' w', y.run p w = (.ok a, p', w') → Chunks left p' → FlowAt (f a).run (g a).run left p' w') :
    FlowAt (x >>= f).run (y >>= g).run s p w := by
  obtain ⟨h1, h2⟩ := h
  rcases hy : y.run p w with ⟨r, p', w'⟩
  rw [hy] at h1 h2
  cases r with
  | ok a =>
    obtain ⟨left, h3, h4⟩ := h2 (by simp)
    obtain ⟨g1, g2⟩ := hf a left p' w' hy h3
    have e : (y >>= g).run p w = (g a).run p' w' := by rw [P.bind_def, hy]
    refine ⟨fun he k tail hk => ?_, fun he => ?_⟩
    · rw [e] at he
      obtain ⟨w'', h5⟩ := g1 he k tail hk
      exact ⟨w'', by rw [P.bind_def, h4]; exact h5⟩
    · rw [e] at he ⊢
      obtain ⟨l2, h5, h6⟩ := g2 he
      exact ⟨l2, h5, fun tail => by rw [P.bind_def, h4]; exact h6 tail⟩
  | err e =>
    have eq : (y >>= g).run p w = (.err e, p', w') := by rw [P.bind_def, hy]
    refine ⟨fun he k tail hk => ?_, fun he => ?_⟩
    · rw [eq] at he
      obtain ⟨w'', h5⟩ := h1 (atEnd_err he) k tail hk
      exact ⟨w'', by rw [P.bind_def, h5]⟩
    · rw [eq] at he ⊢
      obtain ⟨left, h5, h6⟩ := h2 (fun h => he (atEnd_err h))
      exact ⟨left, h5, fun tail => by rw [P.bind_def, h6]⟩
  | panic =>
    have eq : (y >>= g).run p w = (.panic, p', w') := by rw [P.bind_def, hy]
    refine ⟨fun he k tail hk => absurd he (by rw [eq]; simp), fun he => ?_⟩
    obtain ⟨left, h5, h6⟩ := h2 (by simp)
    rw [eq]
    exact ⟨left, h5, fun tail => by rw [P.bind_def, h6]⟩
  | ub =>
    have eq : (y >>= g).run p w = (.ub, p', w') := by rw [P.bind_def, hy]
    refine ⟨fun he k tail hk => absurd he (by rw [eq]; simp), fun he => ?_⟩
    obtain ⟨left, h5, h6⟩ := h2 (by simp)
    rw [eq]
    exact ⟨left, h5, fun tail => by rw [P.bind_def, h6]⟩

theorem bind {x : P Script α} {y : P Bytes α} {f : α → P Script β} {g : α → P Bytes β} (h : Flow x y)
    (hf : ∀ a, Flow (f a) (g a)) : Flow (x >>= f) (y >>= g) :=
  fun s p w hs => bindAt (h s p w hs) fun a left p' w' _ hl => hf a left p' w' hl

theorem pure (a : α) : Flow (Pure.pure a) (Pure.pure a) := by
  intro s p w hs
  refine ⟨fun he => absurd he (by simp [P.pure_apply]), fun _ => ⟨s, hs, fun tail => rfl⟩⟩

theorem throw {e : Error} (h1 : e ≠ .unterminatedBytes) (h2 : e ≠ .io .unexpectedEof) : Flow (α := α) (P.throw e) (P.throw e) := by
  intro s p w hs
  refine ⟨fun he => absurd he (by simp [P.throw, AtEnd, h1, h2]), fun _ => ⟨s, hs, fun tail => rfl⟩⟩

theorem lift (r : Res α) (h : ¬ AtEnd r) : Flow (P.lift r) (P.lift r) := by
  intro s p w hs
  exact ⟨fun he => absurd he h, fun _ => ⟨s, hs, fun tail => rfl⟩⟩

theorem write (b : UInt8) : Flow (writeU8 b) (writeU8 b) := by
  intro s p w hs
  refine ⟨fun he => absurd he (by simp [writeU8_apply]), fun _ => ⟨s, hs, fun tail => rfl⟩⟩

theorem ite {c : Prop} [Decidable c] {x x' : P Script α} {y y' : P Bytes α} (h : Flow x y) (h' : Flow x' y') :
    Flow (if c then x else x') (if c then y else y') := by
  by_cases hc : c <;> simp [hc, h, h']

end Flow

theorem Spec.Chunks.nil_inv {s : Script} (h : Chunks s []) : s = [] := by
  generalize hp : ([] : Bytes) = p at h
  cases h with
  | nil => rfl
  | cons c s bs hc _ => exact absurd (List.append_eq_nil_iff.mp hp.symm).1 hc

/-- A `read` on a script that has octets: the answer, and what it leaves, do not depend on the answers behind. -/
theorem Spec.Chunks.read_tail {s : Script} {p : Bytes} (h : Chunks s p) (hp : p ≠ []) (n : Nat) :
    ∃ j left, j ≤ n ∧ j ≤ p.length ∧ (0 < n → 0 < j) ∧ Chunks left (p.drop j) ∧
      ∀ tail, Reader.read n (s ++ tail) = (.data (p.take j), left ++ tail) := by
  cases h with
  | nil => exact absurd rfl hp
  | cons c s bs hc h =>
    have hcl : 0 < c.length := List.length_pos_iff.mpr hc
    by_cases hl : c.length ≤ n
    · refine ⟨c.length, s, hl, by simp, fun _ => hcl, by simpa using h, fun tail => ?_⟩
      simp only [Reader.read, List.cons_append, Script.read, if_pos hl]
      simp
    · refine ⟨n, .chunk (c.drop n) :: s, Nat.le_refl _, by simp; omega, id, ?_, fun tail => ?_⟩
      · rw [List.drop_append_of_le_length (by omega)]
        exact Chunks.cons _ _ _ (by simp; omega) h
      · simp only [Reader.read, List.cons_append, Script.read, if_neg hl]
        rw [List.take_append_of_le_length (by omega)]

theorem Flow.read : Flow (readU8 (σ := Script)) readU8 := by
  intro s p w hs
  match p with
  | [] =>
    rw [Chunks.nil_inv hs]
    refine ⟨fun _ k tail _ => ⟨w, rfl⟩, fun he => absurd (Or.inl ?_) he⟩
    rw [readU8_nil]
  | b :: r =>
    obtain ⟨j, left, h1, -, h3, h4, h5⟩ := hs.read_tail (by simp) 1
    have : j = 1 := by have := h3 (by omega); omega
    subst this
    rw [FlowAt, readU8_cons]
    refine ⟨fun he => absurd he (by simp), fun _ => ⟨left, by simpa using h4, fun tail => ?_⟩⟩
    simp only [readU8, h5 tail, List.take_succ_cons, List.take_zero]

/-- The loop of `parse_id`, with different bounds for the two runs. -/
theorem flow_parseIdLoop : ∀ (g : Nat) (o : UInt8) (i : Nat) (s : Script) (p w : Bytes), Chunks s p → p.length < g →
    (AtEnd ((parseIdLoop g o i).run p w).1 → ∀ k tail, k ≠ .interrupted → ∀ f, p.length < f →
      ∃ w', (parseIdLoop f o i).run (s ++ .fail k :: tail) w = (.err (.io k), tail, w')) ∧
    (¬ AtEnd ((parseIdLoop g o i).run p w).1 → ∃ left, Chunks left ((parseIdLoop g o i).run p w).2.1 ∧ ∀ tail f, p.length < f →
      (parseIdLoop f o i).run (s ++ tail) w = (((parseIdLoop g o i).run p w).1, left ++ tail, ((parseIdLoop g o i).run p w).2.2)) := by
  intro g
  induction g with
  | zero => intro o i s p w _ h; omega
  | succ g ih =>
    intro o i s p w hs hg
    by_cases hm : o &&& IdRef.MORE_FLAG ≠ IdRef.MORE_FLAG
    · have e : ∀ (σ : Type) [Reader σ] (f : Nat) (s : σ), (parseIdLoop (f + 1) o i).run s w = (.ok i, s, w ++ [o]) := by
        intro σ _ f s
        simp only [parseIdLoop, P.bind_def, writeU8_apply, P.ite_apply, P.pure_apply, if_pos hm]
      rw [e]
      refine ⟨fun he => absurd he (by simp), fun _ => ⟨s, hs, fun tail f hf => ?_⟩⟩
      obtain ⟨f, rfl⟩ : ∃ j, f = j + 1 := ⟨f - 1, by omega⟩
      rw [e]
    · have e : ∀ (σ : Type) [Reader σ] (f : Nat) (s : σ), (parseIdLoop (f + 1) o i).run s w =
          (readU8 >>= fun octet => parseIdLoop f octet (i + 1)).run s (w ++ [o]) := by
        intro σ _ f s
        simp only [parseIdLoop, P.bind_def, writeU8_apply, P.ite_apply, P.pure_apply, if_neg hm]
      rw [e]
      match p with
      | [] =>
        rw [Chunks.nil_inv hs]
        rw [P.bind_def, readU8_nil]
        refine ⟨fun _ k tail _ f hf => ?_, fun he => absurd (Or.inl rfl) he⟩
        obtain ⟨f, rfl⟩ : ∃ j, f = j + 1 := ⟨f - 1, by omega⟩
        rw [e]
        exact ⟨w ++ [o], rfl⟩
      | b :: r =>
        obtain ⟨j, left, h1, -, h3, h4, h5⟩ := hs.read_tail (by simp) 1
        have : j = 1 := by have := h3 (by omega); omega
        subst this
        have h6 : ∀ tail f, (readU8 >>= fun octet => parseIdLoop f octet (i + 1)).run (s ++ tail) (w ++ [o]) =
            (parseIdLoop f b (i + 1)).run (left ++ tail) (w ++ [o]) := by
          intro tail f
          rw [P.bind_def]
          have : (readU8 (σ := Script)).run (s ++ tail) (w ++ [o]) = (.ok b, left ++ tail, w ++ [o]) := by
            simp only [readU8, h5 tail, List.take_succ_cons, List.take_zero]
          rw [this]
        rw [P.bind_def, readU8_cons]
        simp only [List.length_cons] at hg
        obtain ⟨i1, i2⟩ := ih b (i + 1) left r (w ++ [o]) (by simpa using h4) (by omega)
        refine ⟨fun he k tail hk f hf => ?_, fun he => ?_⟩
        · obtain ⟨f, rfl⟩ : ∃ j, f = j + 1 := ⟨f - 1, by omega⟩
          simp only [List.length_cons] at hf
          rw [e, h6]
          exact i1 he k tail hk f (by omega)
        · obtain ⟨l2, h7, h8⟩ := i2 he
          refine ⟨l2, h7, fun tail f hf => ?_⟩
          obtain ⟨f, rfl⟩ : ∃ j, f = j + 1 := ⟨f - 1, by omega⟩
          simp only [List.length_cons] at hf
          rw [e, h6]
          exact h8 tail f (by omega)

theorem Spec.Chunks.size_append_lt {s : Script} {p : Bytes} (h : Chunks s p) (tail : Script) : p.length < Reader.size (s ++ tail) + 1 := by
  induction h with
  | nil => simp
  | cons c s bs _ _ ih =>
    simp only [Reader.size, List.cons_append, Script.size, List.length_append] at ih ⊢
    omega

theorem flow_parseId : Flow (parseId (σ := Script)) parseId := by
  unfold parseId
  refine Flow.read.bind fun first => (Flow.write first).bind fun _ => ?_
  refine Flow.ite (Flow.pure 1) (Flow.read.bind fun o => ?_)
  refine Flow.ite (Flow.throw (by simp) (by simp)) (Flow.ite (Flow.throw (by simp) (by simp)) ?_)
  intro s p w h
  obtain ⟨h1, h2⟩ := flow_parseIdLoop (Reader.size p + 1) o 2 s p w h (by simp [Reader.size])
  refine ⟨fun he k tail hk => h1 he k tail hk _ (h.size_append_lt _), fun he => ?_⟩
  obtain ⟨left, h3, h4⟩ := h2 he
  exact ⟨left, h3, fun tail => h4 tail _ (h.size_append_lt _)⟩

theorem flow_parseLengthLoop : ∀ k l, Flow (parseLengthLoop (σ := Script) k l) (parseLengthLoop k l)
  | 0, l => Flow.pure l
  | k + 1, l => Flow.read.bind fun b => (Flow.write b).bind fun _ => flow_parseLengthLoop k _

theorem flow_parseLength : Flow (parseLength (σ := Script)) parseLength := by
  unfold parseLength
  refine Flow.read.bind fun first => (Flow.write first).bind fun _ => ?_
  refine Flow.ite (Flow.pure _) (Flow.ite (Flow.pure _) (Flow.read.bind fun second => ?_))
  refine Flow.ite (Flow.throw (by simp) (by simp)) ((Flow.write _).bind fun _ => ?_)
  refine Flow.ite (Flow.throw (by simp) (by simp)) (Flow.ite (Flow.throw (by simp) (by simp)) ?_)
  exact (flow_parseLengthLoop _ _).bind fun _ => Flow.pure _

theorem flow_parseIdLength : Flow (parseIdLength (σ := Script)) parseIdLength := flow_parseId.bind fun _ => flow_parseLength

/-- The loop of `read_exact`: all there, or it asks for more. -/
theorem flow_readExactLoop : ∀ (n : Nat) (acc : Bytes) (s : Script) (p : Bytes), Chunks s p →
    (n ≤ p.length → ∃ left, Chunks left (p.drop n) ∧ ∀ tail f, n < f →
      readExactLoop f n acc (s ++ tail) = (.ok (acc ++ p.take n), left ++ tail)) ∧
    (p.length < n → ∀ k tail, k ≠ .interrupted → ∀ f, n < f → readExactLoop f n acc (s ++ .fail k :: tail) = (.err (.io k), tail)) := by
  intro n
  induction n using Nat.strong_induction_on with
  | _ n ih =>
    intro acc s p hs
    by_cases hn : n = 0
    · subst hn
      refine ⟨fun _ => ⟨s, by simpa using hs, fun tail f hf => ?_⟩, by omega⟩
      obtain ⟨f, rfl⟩ : ∃ j, f = j + 1 := ⟨f - 1, by omega⟩
      simp [readExactLoop]
    · by_cases hp : p = []
      · subst hp
        rw [Chunks.nil_inv hs]
        refine ⟨by simp; omega, fun _ k tail hk f hf => ?_⟩
        obtain ⟨f, rfl⟩ : ∃ j, f = j + 1 := ⟨f - 1, by omega⟩
        simp only [readExactLoop, if_neg hn, List.nil_append]
        have hread : Reader.read n ((.fail k :: tail : Script)) = (.fail k, tail) := rfl
        rw [hread]
        cases k with
        | interrupted => exact absurd rfl hk
        | _ => rfl
      · obtain ⟨j, left, h1, h2, h3, h4, h5⟩ := hs.read_tail hp n
        have hj : 0 < j := h3 (by omega)
        have hl : (p.take j).length = j := by simp; omega
        obtain ⟨x, c, hc⟩ : ∃ x c, p.take j = x :: c := by
          cases hx : p.take j with
          | nil => rw [hx] at hl; simp at hl; omega
          | cons x c => exact ⟨x, c, rfl⟩
        have step : ∀ tail f, readExactLoop (f + 1) n acc (s ++ tail) = readExactLoop f (n - j) (acc ++ p.take j) (left ++ tail) := by
          intro tail f
          simp only [readExactLoop, if_neg hn, h5 tail, hc]
          rw [← hc, hl]
        obtain ⟨i1, i2⟩ := ih (n - j) (by omega) (acc ++ p.take j) left (p.drop j) h4
        constructor
        · intro hle
          obtain ⟨l2, h6, h7⟩ := i1 (by simp; omega)
          refine ⟨l2, ?_, fun tail f hf => ?_⟩
          · rw [List.drop_drop] at h6
            have : j + (n - j) = n := by omega
            rwa [this] at h6
          · obtain ⟨f, rfl⟩ : ∃ j, f = j + 1 := ⟨f - 1, by omega⟩
            rw [step, h7 tail f (by omega), List.append_assoc]
            have : p.take n = p.take j ++ (p.drop j).take (n - j) := by
              rw [← List.take_add]; congr 1; omega
            rw [this]
        · intro hlt k tail hk f hf
          obtain ⟨f, rfl⟩ : ∃ j, f = j + 1 := ⟨f - 1, by omega⟩
          rw [step]
          exact i2 (by simp; omega) k tail hk f (by omega)

theorem flow_readExact (n : Nat) (s : Script) (p : Bytes) (h : Chunks s p) :
    (n ≤ p.length → ∃ left, Chunks left (p.drop n) ∧ ∀ tail, readExact n (s ++ tail) = (.ok (p.take n), left ++ tail)) ∧
    (p.length < n → ∀ k tail, k ≠ .interrupted → readExact n (s ++ .fail k :: tail) = (.err (.io k), tail)) := by
  obtain ⟨h1, h2⟩ := flow_readExactLoop n [] s p h
  refine ⟨fun hn => ?_, fun hn k tail hk => h2 hn k tail hk _ (by omega)⟩
  obtain ⟨left, h3, h4⟩ := h1 hn
  exact ⟨left, h3, fun tail => by rw [readExact, h4 tail _ (by omega)]; simp⟩

end Bsn1
