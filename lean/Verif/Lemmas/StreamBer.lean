import Verif.Lemmas.Stream
import Verif.Props.ReadBer
import Verif.Props.Cut
/-!
# Lemmas on `Ber::parse` and `Der::parse` from a stream
-/

set_option linter.unusedSimpArgs false

namespace Bsn1
open Spec

theorem berReserve_noErr (m : Build) (a n : Nat) (e : Error) :
    (do
      let _ ← bufReserve m a n
      let total ← uadd m a n
      if a ≤ total then return total - a else .panic : Res Nat) ≠ .err e := by
  have hu : ∀ e', uadd m a n ≠ .err e' := by
    intro e'; cases m <;> simp only [uadd] <;> split <;> simp
  cases h : uadd m a n with
  | ok t =>
    rw [bufReserve, h]
    simp only [Res.bind_ok]
    by_cases h1 : t ≤ isizeMax
    · rw [if_pos h1]
      simp only [Res.pure_eq, Res.bind_ok]
      by_cases h2 : a ≤ t
      · rw [if_pos h2]; simp
      · rw [if_neg h2]; simp
    · rw [if_neg h1]; exact nofun
  | err e' => exact absurd h (hu e')
  | panic => rw [bufReserve, h]; exact nofun
  | ub => rw [bufReserve, h]; exact nofun

theorem flow_berDoParse (m : Build) : Flow (Ber.doParse (σ := Script) m) (Ber.doParse m) := by
  intro s p w hs
  obtain ⟨h1, h2⟩ := flow_parseIdLength s p w hs
  rcases hy : (parseIdLength (σ := Bytes)).run p w with ⟨r, p', w'⟩
  rw [hy] at h1 h2
  match r with
  | .ok (.definite n) =>
    obtain ⟨left, h3, h4⟩ := h2 (by simp)
    rw [FlowAt]
    simp only [Ber.doParse, hy, h4]
    generalize hq : (do
      let _ ← bufReserve m w'.length n
      let total ← uadd m w'.length n
      if w'.length ≤ total then return total - w'.length else Res.panic) = q
    match q, hq with
    | .ok k, _ =>
      simp only
      obtain ⟨s2, h5, rfl⟩ := readExact_slice k p'
      obtain ⟨h6, h7⟩ := flow_readExact k left p' h3
      rw [h5]
      by_cases hk : k ≤ p'.length
      · obtain ⟨l2, h8, h9⟩ := h6 hk
        simp only [if_pos hk]
        by_cases ht : w.length ≤ (w' ++ p'.take k).length
        · have e : sliceFrom (w' ++ p'.take k) w.length = .ok ((w' ++ p'.take k).drop w.length) := by rw [sliceFrom, if_pos ht]
          refine ⟨fun he => absurd he (by simp [e]), fun _ => ⟨l2, by simpa [e] using h8, fun tail => ?_⟩⟩
          simp only [h4, h9, e]
        · have e : sliceFrom (w' ++ p'.take k) w.length = .panic := by rw [sliceFrom, if_neg ht]
          refine ⟨fun he => absurd he (by simp [e]), fun _ => ⟨l2, by simpa [e] using h8, fun tail => ?_⟩⟩
          simp only [h4, h9, e]
      · simp only [if_neg hk]
        refine ⟨fun _ k' tail hk' => ⟨w', ?_⟩, fun he => absurd (.inr rfl) he⟩
        simp only [h4, h7 (by omega) k' tail hk']
    | .err e, hq => exact absurd hq (berReserve_noErr m _ _ e)
    | .panic, _ => exact ⟨fun he => absurd he (by simp), fun _ => ⟨left, h3, fun tail => by simp only [h4]⟩⟩
    | .ub, _ => exact ⟨fun he => absurd he (by simp), fun _ => ⟨left, h3, fun tail => by simp only [h4]⟩⟩
  | .ok .indefinite =>
    obtain ⟨left, h3, h4⟩ := h2 (by simp)
    rw [FlowAt]
    simp only [Ber.doParse, hy, h4]
    exact ⟨fun he => absurd he (by simp), fun _ => ⟨left, h3, fun tail => rfl⟩⟩
  | .err e =>
    rw [FlowAt]
    simp only [Ber.doParse, hy]
    refine ⟨fun he k tail hk => ?_, fun he => ?_⟩
    · obtain ⟨w'', h5⟩ := h1 (atEnd_err he) k tail hk
      exact ⟨w'', by rw [h5]⟩
    · obtain ⟨left, h3, h4⟩ := h2 (fun h => he (atEnd_err h))
      exact ⟨left, h3, fun tail => by rw [h4]⟩
  | .panic =>
    obtain ⟨left, h3, h4⟩ := h2 (by simp)
    rw [FlowAt]
    simp only [Ber.doParse, hy, h4]
    exact ⟨fun he => absurd he (by simp), fun _ => ⟨left, h3, fun tail => rfl⟩⟩
  | .ub =>
    obtain ⟨left, h3, h4⟩ := h2 (by simp)
    rw [FlowAt]
    simp only [Ber.doParse, hy, h4]
    exact ⟨fun he => absurd he (by simp), fun _ => ⟨left, h3, fun tail => rfl⟩⟩

theorem berDoParse_rest_lt (m : Build) {bs w rest w' : Bytes} {δ : Int} (h : (Ber.doParse m).run bs w = (.ok δ, rest, w')) :
    rest.length < bs.length := by
  rcases berStep_agree m bs w with ⟨id, n, q, hid, hn, e, hq, h1, h2⟩ | ⟨id, n, q, s', w', hid, hn, e, hq, ho, h2⟩ | ⟨e, rest, w', h0, h1, h2⟩ |
      ⟨id, c, rest, hid, hc, hne, e, h1, h2⟩ | ⟨rest, e, h1, h2⟩ | ⟨id, rest, hid, e, h1, h2⟩
  · rcases h2 with ⟨ho, s', w', h2⟩ | ⟨ho, w', h2⟩ <;> rw [h] at h2 <;> cases h2
  · rw [h] at h2; cases h2
  · rw [h] at h2; cases h2
  · rw [h] at h2; cases h2
    have := isId_length_pos hid
    rw [e, List.length_append, tlv_length]; omega
  · rw [h] at h2; cases h2
    rw [e]; simp [Spec.eoc]
  · rw [h] at h2; cases h2
    have := isId_length_pos hid
    rw [e]; simp [indefOctets]; omega

theorem flow_berLoop (m : Build) : ∀ (g : Nat) (d : Int) (s : Script) (p w : Bytes), Chunks s p → p.length < g →
    (AtEnd ((Ber.parseLoop m g d).run p w).1 → ∀ k tail, k ≠ .interrupted → ∀ f, p.length < f →
      ∃ w', (Ber.parseLoop m f d).run (s ++ .fail k :: tail) w = (.err (.io k), tail, w')) ∧
    (¬ AtEnd ((Ber.parseLoop m g d).run p w).1 → ∃ left, Chunks left ((Ber.parseLoop m g d).run p w).2.1 ∧ ∀ tail f, p.length < f →
      (Ber.parseLoop m f d).run (s ++ tail) w = (((Ber.parseLoop m g d).run p w).1, left ++ tail, ((Ber.parseLoop m g d).run p w).2.2)) := by
  intro g
  induction g with
  | zero => intro d s p w _ h; omega
  | succ g ih =>
    intro d s p w hs hg
    obtain ⟨h1, h2⟩ := flow_berDoParse m s p w hs
    rcases hy : (Ber.doParse (σ := Bytes) m).run p w with ⟨r, p', w'⟩
    rw [hy] at h1 h2
    match r with
    | .ok δ =>
      obtain ⟨left, h3, h4⟩ := h2 (by simp)
      have hlt := berDoParse_rest_lt m hy
      by_cases ho : (isizeMax : Int) < d + δ
      · have e : (Ber.parseLoop m (g + 1) d).run p w = (.panic, p', w') := by
          simp only [Ber.parseLoop, P.bind_def, hy, P.ite_apply, P.lift_apply, P.pure_apply, if_pos ho]
        rw [e]
        refine ⟨fun he => absurd he (by simp), fun _ => ⟨left, h3, fun tail f hf => ?_⟩⟩
        obtain ⟨f, rfl⟩ : ∃ j, f = j + 1 := ⟨f - 1, by omega⟩
        simp only [Ber.parseLoop, P.bind_def, h4, P.ite_apply, P.lift_apply, P.pure_apply, if_pos ho]
      · by_cases hp : d + δ > 0
        · have e : (Ber.parseLoop m (g + 1) d).run p w = (Ber.parseLoop m g (d + δ)).run p' w' := by
            simp only [Ber.parseLoop, P.bind_def, hy, P.ite_apply, P.lift_apply, P.pure_apply, if_neg ho, if_pos hp]
          have e2 : ∀ tail f, (Ber.parseLoop m (f + 1) d).run (s ++ tail) w = (Ber.parseLoop m f (d + δ)).run (left ++ tail) w' := by
            intro tail f
            simp only [Ber.parseLoop, P.bind_def, h4, P.ite_apply, P.lift_apply, P.pure_apply, if_neg ho, if_pos hp]
          rw [e]
          obtain ⟨i1, i2⟩ := ih (d + δ) left p' w' h3 (by omega)
          refine ⟨fun he k tail hk f hf => ?_, fun he => ?_⟩
          · obtain ⟨f, rfl⟩ : ∃ j, f = j + 1 := ⟨f - 1, by omega⟩
            rw [e2]
            exact i1 he k tail hk f (by omega)
          · obtain ⟨l2, h5, h6⟩ := i2 he
            refine ⟨l2, h5, fun tail f hf => ?_⟩
            obtain ⟨f, rfl⟩ : ∃ j, f = j + 1 := ⟨f - 1, by omega⟩
            rw [e2]
            exact h6 tail f (by omega)
        · have e : (Ber.parseLoop m (g + 1) d).run p w = (.ok (), p', w') := by
            simp only [Ber.parseLoop, P.bind_def, hy, P.ite_apply, P.lift_apply, P.pure_apply, if_neg ho, if_neg hp]
          rw [e]
          refine ⟨fun he => absurd he (by simp), fun _ => ⟨left, h3, fun tail f hf => ?_⟩⟩
          obtain ⟨f, rfl⟩ : ∃ j, f = j + 1 := ⟨f - 1, by omega⟩
          simp only [Ber.parseLoop, P.bind_def, h4, P.ite_apply, P.lift_apply, P.pure_apply, if_neg ho, if_neg hp]
    | .err e =>
      have e1 : (Ber.parseLoop m (g + 1) d).run p w = (.err e, p', w') := by simp only [Ber.parseLoop, P.bind_def, hy]
      rw [e1]
      refine ⟨fun he k tail hk f hf => ?_, fun he => ?_⟩
      · obtain ⟨w'', h5⟩ := h1 (atEnd_err he) k tail hk
        obtain ⟨f, rfl⟩ : ∃ j, f = j + 1 := ⟨f - 1, by omega⟩
        exact ⟨w'', by simp only [Ber.parseLoop, P.bind_def, h5]⟩
      · obtain ⟨left, h3, h4⟩ := h2 (fun h => he (atEnd_err h))
        refine ⟨left, h3, fun tail f hf => ?_⟩
        obtain ⟨f, rfl⟩ : ∃ j, f = j + 1 := ⟨f - 1, by omega⟩
        simp only [Ber.parseLoop, P.bind_def, h4]
    | .panic =>
      obtain ⟨left, h3, h4⟩ := h2 (by simp)
      have e1 : (Ber.parseLoop m (g + 1) d).run p w = (.panic, p', w') := by simp only [Ber.parseLoop, P.bind_def, hy]
      rw [e1]
      refine ⟨fun he => absurd he (by simp), fun _ => ⟨left, h3, fun tail f hf => ?_⟩⟩
      obtain ⟨f, rfl⟩ : ∃ j, f = j + 1 := ⟨f - 1, by omega⟩
      simp only [Ber.parseLoop, P.bind_def, h4]
    | .ub =>
      obtain ⟨left, h3, h4⟩ := h2 (by simp)
      have e1 : (Ber.parseLoop m (g + 1) d).run p w = (.ub, p', w') := by simp only [Ber.parseLoop, P.bind_def, hy]
      rw [e1]
      refine ⟨fun he => absurd he (by simp), fun _ => ⟨left, h3, fun tail f hf => ?_⟩⟩
      obtain ⟨f, rfl⟩ : ∃ j, f = j + 1 := ⟨f - 1, by omega⟩
      simp only [Ber.parseLoop, P.bind_def, h4]

/-- The result of a step with `w` for its value. -/
def Res.withOk {α β : Type} (w : β) : Res α → Res β
  | .ok _ => .ok w
  | .err e => .err e
  | .panic => .panic
  | .ub => .ub

/-- What a function says on a script that starts with `p`, compared with what it says on the slice `p`. -/
def FlowTop {α : Type} (f : Script → Res α × Script) (g : Bytes → Res α × Bytes) (s : Script) (p : Bytes) : Prop :=
  (AtEnd (g p).1 → ∀ k tail, k ≠ .interrupted → f (s ++ .fail k :: tail) = (.err (.io k), tail)) ∧
  (¬ AtEnd (g p).1 → ∃ left, Chunks left (g p).2 ∧ ∀ tail, f (s ++ tail) = ((g p).1, left ++ tail))

/-- Two failures give two results, so that the function has not come to one before. -/
theorem FlowTop.answered_iff {α : Type} {f : Script → Res α × Script} {g : Bytes → Res α × Bytes} {s : Script} {p : Bytes}
    (h : FlowTop f g s p) : Answered f s ↔ ¬ AtEnd (g p).1 := by
  constructor
  · rintro ⟨r, left, h1⟩ he
    have h2 := h1 (.fail (.other 0) :: [])
    have h3 := h1 (.fail .unexpectedEof :: [])
    rw [h.1 he _ _ (by simp)] at h2 h3
    have h4 := (Prod.mk.inj h2).1.trans (Prod.mk.inj h3).1.symm
    simp at h4
  · intro he
    obtain ⟨left, _, h1⟩ := h.2 he
    exact ⟨_, left, h1⟩

theorem flow_berParse (m : Build) {s : Script} {p : Bytes} (h : Chunks s p) : FlowTop (Ber.parse m) (Ber.parse m) s p := by
  obtain ⟨h1, h2⟩ := flow_berLoop m (p.length + 1) 0 s p [] h (by omega)
  have hsz : ∀ tail, p.length < Reader.size (s ++ tail) + 1 := fun tail => h.size_append_lt tail
  rw [FlowTop]
  rcases hy : (Ber.parseLoop m (p.length + 1) 0).run p [] with ⟨r, p', w'⟩
  rw [hy] at h1 h2
  have e : Ber.parse m p = (r.withOk w', p') := by
    simp only [Ber.parse, size_bytes, hy]
    cases r <;> rfl
  rw [e]
  have hend : AtEnd (r.withOk w') ↔ AtEnd r := by
    cases r <;> simp [AtEnd, Res.withOk]
  refine ⟨fun he k tail hk => ?_, fun he => ?_⟩
  · obtain ⟨w'', h3⟩ := h1 (hend.1 he) k tail hk _ (hsz _)
    rw [Ber.parse, h3]
  · obtain ⟨left, h3, h4⟩ := h2 (fun h => he (hend.2 h))
    refine ⟨left, h3, fun tail => ?_⟩
    simp only [Ber.parse, h4 tail _ (hsz _)]
    cases r <;> rfl

theorem flow_idParse {s : Script} {p : Bytes} (h : Chunks s p) : FlowTop Id.parse Id.parse s p := by
  obtain ⟨h1, h2⟩ := flow_parseId s p [] h
  rw [FlowTop]
  rcases hy : (parseId (σ := Bytes)).run p [] with ⟨r, p', w'⟩
  rw [hy] at h1 h2
  have e : Id.parse p = (r.withOk w', p') := by
    simp only [Id.parse, hy]
    cases r <;> rfl
  rw [e]
  have hend : AtEnd (r.withOk w') ↔ AtEnd r := by
    cases r <;> simp [AtEnd, Res.withOk]
  refine ⟨fun he k tail hk => ?_, fun he => ?_⟩
  · obtain ⟨w'', h3⟩ := h1 (hend.1 he) k tail hk
    rw [Id.parse, h3]
  · obtain ⟨left, h3, h4⟩ := h2 (fun h => he (hend.2 h))
    refine ⟨left, h3, fun tail => ?_⟩
    simp only [Id.parse, h4 tail]
    cases r <;> rfl

theorem flow_lengthParse {s : Script} {p : Bytes} (h : Chunks s p) : FlowTop Length.parse Length.parse s p := by
  obtain ⟨h1, h2⟩ := flow_parseLength s p [] h
  refine ⟨fun he k tail hk => ?_, fun he => ?_⟩
  · obtain ⟨w'', h3⟩ := h1 he k tail hk
    simp only [Length.parse, h3]
  · obtain ⟨left, h3, h4⟩ := h2 he
    exact ⟨left, h3, fun tail => by simp only [Length.parse, h4 tail]⟩

end Bsn1
