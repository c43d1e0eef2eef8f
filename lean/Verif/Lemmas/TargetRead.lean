import Verif.Lemmas.TargetParse
/-!
# Lemmas on other word sizes: readers and construction
-/

set_option linter.unusedSimpArgs false
set_option linter.unusedVariables false

namespace Bsn1
open Spec

namespace Target
variable {t : Target} {σ : Type} [Reader σ] [LawfulReader σ]

theorem derParse_iff (hw : 1 ≤ t.word) (hw' : t.word ≤ 8) (m : Build) (s s' : σ) (v : Bytes) :
    t.derParse m s = (.ok v, s') ↔ Der.parse m s = (.ok v, s') ∧ v.length ≤ t.isizeMax := by
  have hi := isizeMax_lt hw
  have hle := isizeMax_le hw'
  have hul := usizeSize_le hw'
  rw [derParse, Der.parse]
  rcases parseIdLength_cases hw hw' s [] with ⟨he, hn⟩ | ⟨h1, k, c, s1, w1, h2, h3⟩
  · rw [he]
    rcases hp : (Bsn1.parseIdLength (σ := σ)).run s [] with ⟨r, s1, w⟩
    rw [hp] at hn
    match r with
    | .err e => simp
    | .panic => simp
    | .ub => simp
    | .ok .indefinite => simp
    | .ok (.definite n) =>
      have hn := hn n s1 w rfl
      simp only
      by_cases hfit : w.length + n ≤ t.isizeMax
      · rw [der_room_ok hw hfit, main_der_room_ok (by omega)]
        simp only
        rcases hr : Reader.read n s1 with ⟨o, s2⟩
        cases o with
        | fail k => simp
        | data bs =>
          have hl := (LawfulReader.read_data n s1 s2 bs hr).1
          simp only
          split
          · simp
          · constructor
            · intro h
              refine ⟨h, ?_⟩
              simp only [Prod.mk.injEq, Res.ok.injEq] at h
              rw [← h.1, List.length_append]; omega
            · exact fun h => h.1
      · constructor
        · intro h
          rcases hr : (do
            let totalLength ← t.uadd m w.length n
            let _ ← t.bufReserve m w.length n
            if w.length ≤ totalLength then return totalLength - w.length else .panic : Res Nat) with k | e | _ | _
          · exact absurd (der_room hn hr).1 hfit
          all_goals (rw [hr] at h; simp at h)
        · rintro ⟨h, hv⟩
          exfalso
          rcases hr : (do
            let totalLength ← Bsn1.uadd m w.length n
            let _ ← Bsn1.bufReserve m w.length n
            if w.length ≤ totalLength then return totalLength - w.length else .panic : Res Nat) with k | e | _ | _
          · rw [hr] at h
            obtain ⟨_, rfl⟩ := Raw.der_room (by omega) hr
            simp only at h
            rcases hrd : Reader.read k s1 with ⟨o, s2⟩
            rw [hrd] at h
            cases o with
            | fail k => simp at h
            | data bs =>
              simp only at h
              split at h
              · simp at h
              · simp only [Prod.mk.injEq, Res.ok.injEq] at h
                rw [← h.1, List.length_append] at hv
                omega
          all_goals (rw [hr] at h; simp at h)
  · constructor
    · intro h
      exfalso
      rcases hp : (t.parseIdLength (σ := σ)).run s [] with ⟨r, s2, w⟩
      rw [hp] at h h1
      simp only at h1
      subst h1
      simp at h
    · rintro ⟨h, hv⟩
      exfalso
      rw [h2, P.bind_def] at h
      rcases hp : (plainLoop (σ := σ) k c).run s1 w1 with ⟨r, s2, w⟩
      rw [hp] at h
      cases r with
      | err e => simp at h
      | panic => simp at h
      | ub => simp at h
      | ok n =>
        have hb := (plainLoop_bounds _ _ hp).1
        simp only [P.pure_apply] at h
        rcases hr : (do
          let totalLength ← Bsn1.uadd m w.length n
          let _ ← Bsn1.bufReserve m w.length n
          if w.length ≤ totalLength then return totalLength - w.length else .panic : Res Nat) with k' | e | _ | _
        · rw [hr] at h
          simp only at h
          rcases hrd : Reader.read k' s2 with ⟨o, s3⟩
          rw [hrd] at h
          cases o with
          | fail k => simp at h
          | data bs =>
            simp only at h
            split at h
            · simp at h
            · simp only [Prod.mk.injEq, Res.ok.injEq] at h
              rw [← h.1, List.length_append] at hv
              omega
        all_goals (rw [hr] at h; simp at h)

/-- A header read has at least one octet. -/
theorem header_grows {s s' : σ} {w w' : Bytes} {l : Length} (h : (Bsn1.parseIdLength (σ := σ)).run s w = (.ok l, s', w')) :
    w.length < w'.length := by
  rw [Bsn1.parseIdLength, parseId, P.bind_def, P.bind_def] at h
  rcases hr : (readU8 (σ := σ)).run s w with ⟨r, s1, w1⟩
  have hw1 : w1 = w := by
    rw [readU8] at hr
    simp only at hr
    split at hr <;> · simp only [Prod.mk.injEq] at hr; exact hr.2.2.symm
  rw [hr] at h
  subst hw1
  cases r with
  | err e => simp at h
  | panic => simp at h
  | ub => simp at h
  | ok f =>
    simp only at h
    have hl : Raw.Logs (σ := σ) 1 (writeU8 f >>= fun _ => if f &&& IdRef.LONG_FLAG ≠ IdRef.LONG_FLAG then return 1
        else do
          let octet ← readU8
          if octet ≤ IdRef.MAX_SHORT then P.throw .redundantBytes
          else if octet = IdRef.MORE_FLAG then P.throw .redundantBytes
          else ⟨fun s w => (parseIdLoop (Reader.size s + 1) octet 2).run s w⟩ : P σ Nat) := by
      refine .write (.ite (.pure _) (.read fun o => .ite (.throw _) (.ite (.throw _) ?_)))
      exact fun s => Raw.logs_parseIdLoop (Reader.size s + 1) o 2 s
    have hl2 : Raw.Logs (σ := σ) 0 (if f &&& IdRef.LONG_FLAG ≠ IdRef.LONG_FLAG then return 1
        else do
          let octet ← readU8
          if octet ≤ IdRef.MAX_SHORT then P.throw .redundantBytes
          else if octet = IdRef.MORE_FLAG then P.throw .redundantBytes
          else ⟨fun s w => (parseIdLoop (Reader.size s + 1) octet 2).run s w⟩ : P σ Nat) := by
      refine .ite (.pure _) (.read fun o => .ite (.throw _) (.ite (.throw _) ?_))
      exact fun s => Raw.logs_parseIdLoop (Reader.size s + 1) o 2 s
    obtain ⟨r, s2, w2, h1, _⟩ := hl2 s1
    have h1 := h1 (w1 ++ [f])
    rw [P.bind_def, writeU8_apply] at h
    simp only at h
    rw [h1] at h
    cases r with
    | err e => simp at h
    | panic => simp at h
    | ub => simp at h
    | ok n =>
      simp only at h
      obtain ⟨r, s3, w3, h2, _⟩ := Raw.logs_parseLength (σ := σ) s2
      rw [h2] at h
      simp only [Prod.mk.injEq] at h
      rw [← h.2.2]
      simp

theorem berReadOne_sound (hw : 1 ≤ t.word) (hw' : t.word ≤ 8) {m : Build} {s s' : σ} {w w' : Bytes} {δ : Int}
    (h : (t.berReadOne m).run s w = (.ok δ, s', w')) :
    (Ber.doParse m).run s w = (.ok δ, s', w') ∧ (δ ≤ 0 → w'.length ≤ t.isizeMax) := by
  have hi := isizeMax_lt hw
  have hle := isizeMax_le hw'
  rw [berReadOne] at h
  rw [Ber.doParse]
  simp only at h ⊢
  rcases parseIdLength_cases hw hw' s w with ⟨he, hn⟩ | ⟨h1, k, c, s1, w1, h2, h3⟩
  · rw [he] at h
    rcases hp : (Bsn1.parseIdLength (σ := σ)).run s w with ⟨r, s1, w1⟩
    rw [hp] at hn h
    match r with
    | .err e => simp at h
    | .panic => simp at h
    | .ub => simp at h
    | .ok .indefinite =>
      simp only at h ⊢
      refine ⟨h, ?_⟩
      simp only [Prod.mk.injEq, Res.ok.injEq] at h
      omega
    | .ok (.definite n) =>
      have hn := hn n s1 w1 rfl
      simp only at h ⊢
      rcases hr : (do
        let _ ← t.bufReserve m w1.length n
        let totalLength ← t.uadd m w1.length n
        if w1.length ≤ totalLength then return totalLength - w1.length else .panic : Res Nat) with k | e | _ | _
      · obtain ⟨hfit, rfl⟩ := ber_room hn hr
        rw [hr] at h
        rw [main_ber_room_ok (by omega)]
        simp only at h ⊢
        rcases hre : readExact k s1 with ⟨o, s2⟩
        rw [hre] at h
        cases o with
        | err e => simp at h
        | panic => simp at h
        | ub => simp at h
        | ok bs =>
          have hl := (Raw.readExact_ok hre).1
          simp only at h ⊢
          rcases hsl : sliceFrom (w1 ++ bs) w.length with o | e | _ | _
          · rw [hsl] at h
            simp only [Prod.mk.injEq, Res.ok.injEq] at h ⊢
            refine ⟨h, fun _ => ?_⟩
            rw [← h.2.2, List.length_append]; omega
          all_goals (rw [hsl] at h; simp at h)
      all_goals (rw [hr] at h; simp at h)
  · exfalso
    rcases hp : (t.parseIdLength (σ := σ)).run s w with ⟨r, s2, w2⟩
    rw [hp] at h h1
    simp only at h1
    subst h1
    simp at h

theorem berDoParse_grows {m : Build} {s s' : σ} {w w' : Bytes} {δ : Int} (h : (Ber.doParse m).run s w = (.ok δ, s', w')) :
    w.length < w'.length ∧ δ ≤ 1 := by
  rw [Ber.doParse] at h
  simp only at h
  rcases hp : (Bsn1.parseIdLength (σ := σ)).run s w with ⟨r, s1, w1⟩
  rw [hp] at h
  match r with
  | .err e => simp at h
  | .panic => simp at h
  | .ub => simp at h
  | .ok .indefinite =>
    have := header_grows hp
    simp only [Prod.mk.injEq, Res.ok.injEq] at h
    obtain ⟨rfl, _, rfl⟩ := h
    exact ⟨this, by omega⟩
  | .ok (.definite n) =>
    have := header_grows hp
    simp only at h
    rcases hr : (do
      let _ ← Bsn1.bufReserve m w1.length n
      let totalLength ← Bsn1.uadd m w1.length n
      if w1.length ≤ totalLength then return totalLength - w1.length else .panic : Res Nat) with k | e | _ | _
    · rw [hr] at h
      simp only at h
      rcases hre : readExact k s1 with ⟨o, s2⟩
      rw [hre] at h
      cases o with
      | err e => simp at h
      | panic => simp at h
      | ub => simp at h
      | ok bs =>
        simp only at h
        rcases hsl : sliceFrom (w1 ++ bs) w.length with o | e | _ | _
        · rw [hsl] at h
          simp only [Prod.mk.injEq, Res.ok.injEq] at h
          refine ⟨by rw [← h.2.2, List.length_append]; omega, ?_⟩
          rw [← h.1]; split <;> omega
        all_goals (rw [hsl] at h; simp at h)
    all_goals (rw [hr] at h; simp at h)

theorem berReadOne_complete (hw : 1 ≤ t.word) (hw' : t.word ≤ 8) {m : Build} {s s' : σ} {w w' : Bytes} {δ : Int}
    (h : (Ber.doParse m).run s w = (.ok δ, s', w')) (hv : w'.length ≤ t.isizeMax) :
    (t.berReadOne m).run s w = (.ok δ, s', w') := by
  have hi := isizeMax_lt hw
  have hle := isizeMax_le hw'
  have hul := usizeSize_le hw'
  have hlen : ∀ n s1 (w1 : Bytes), (Bsn1.parseIdLength (σ := σ)).run s w = (.ok (.definite n), s1, w1) → n < Bsn1.usizeSize ∧ w1.length + n ≤ w'.length := by
    intro n s1 w1 hp
    have hn : n < Bsn1.usizeSize := Raw.yields_parseIdLength s w _ _ _ hp
    refine ⟨hn, ?_⟩
    rw [Ber.doParse] at h
    simp only [hp] at h
    rcases hr : (do
      let _ ← Bsn1.bufReserve m w1.length n
      let totalLength ← Bsn1.uadd m w1.length n
      if w1.length ≤ totalLength then return totalLength - w1.length else .panic : Res Nat) with k | e | _ | _
    · rw [hr] at h
      obtain ⟨_, rfl⟩ := Raw.ber_room hn hr
      simp only at h
      rcases hre : readExact k s1 with ⟨o, s2⟩
      rw [hre] at h
      cases o with
      | err e => simp at h
      | panic => simp at h
      | ub => simp at h
      | ok bs =>
        have hl := (Raw.readExact_ok hre).1
        simp only at h
        rcases hsl : sliceFrom (w1 ++ bs) w.length with o | e | _ | _
        · rw [hsl] at h
          simp only [Prod.mk.injEq, Res.ok.injEq] at h
          rw [← h.2.2, List.length_append]; omega
        all_goals (rw [hsl] at h; simp at h)
    all_goals (rw [hr] at h; simp at h)
  rcases parseIdLength_cases hw hw' s w with ⟨he, hn⟩ | ⟨h1, k, c, s1, w1, h2, h3⟩
  · rw [berReadOne]
    rw [Ber.doParse] at h
    simp only at h ⊢
    rw [he]
    rcases hp : (Bsn1.parseIdLength (σ := σ)).run s w with ⟨r, s1, w1⟩
    rw [hp] at hn h hlen
    match r with
    | .err e => simp at h
    | .panic => simp at h
    | .ub => simp at h
    | .ok .indefinite => exact h
    | .ok (.definite n) =>
      have hl := (hlen n s1 w1 rfl).2
      simp only at h ⊢
      rw [ber_room_ok hw (by omega)]
      rw [main_ber_room_ok (by omega)] at h
      exact h
  · exfalso
    rw [h2, P.bind_def] at hlen
    rw [Ber.doParse] at h
    simp only [h2, P.bind_def] at h
    rcases hp : (plainLoop (σ := σ) k c).run s1 w1 with ⟨r, s2, w2⟩
    rw [hp] at h hlen
    cases r with
    | err e => simp at h
    | panic => simp at h
    | ub => simp at h
    | ok n =>
      have hb := (plainLoop_bounds _ _ hp).1
      have := (hlen n s2 w2 rfl).2
      omega

theorem berReadLoop_sound (hw : 1 ≤ t.word) (hw' : t.word ≤ 8) {m : Build} : ∀ (f : Nat) (d : Int) (s s' : σ) (w w' : Bytes), 0 ≤ d →
    (t.berReadLoop m f d).run s w = (.ok (), s', w') →
    (Ber.parseLoop m f d).run s w = (.ok (), s', w') ∧ w'.length ≤ t.isizeMax := by
  intro f
  induction f with
  | zero => intro d s s' w w' _ h; simp [berReadLoop] at h
  | succ f ih =>
    intro d s s' w w' h0 h
    have hle := isizeMax_le hw'
    rw [berReadLoop, P.bind_def] at h
    rw [Ber.parseLoop, P.bind_def]
    rcases hp : (t.berReadOne (σ := σ) m).run s w with ⟨r, s1, w1⟩
    rw [hp] at h
    cases r with
    | err e => simp at h
    | panic => simp at h
    | ub => simp at h
    | ok δ =>
      obtain ⟨h1, h2⟩ := berReadOne_sound hw hw' hp
      rw [h1]
      simp only [P.ite_apply] at h ⊢
      by_cases h3 : (t.isizeMax : Int) < d + δ
      · rw [if_pos h3] at h; simp at h
      rw [if_neg h3] at h
      rw [if_neg (show ¬ ((Bsn1.isizeMax : Int) < d + δ) by omega)]
      by_cases h4 : d + δ > 0
      · rw [if_pos h4] at h ⊢
        exact ih _ _ _ _ _ (by omega) h
      · rw [if_neg h4] at h ⊢
        refine ⟨h, ?_⟩
        simp only [P.pure_apply, Prod.mk.injEq] at h
        rw [← h.2.2]
        exact h2 (by omega)

theorem berReadLoop_complete (hw : 1 ≤ t.word) (hw' : t.word ≤ 8) {m : Build} : ∀ (f : Nat) (d : Int) (s s' : σ) (w w' : Bytes),
    d ≤ w.length → w'.length ≤ t.isizeMax → (Ber.parseLoop m f d).run s w = (.ok (), s', w') →
    (t.berReadLoop m f d).run s w = (.ok (), s', w') ∧ w.length ≤ w'.length := by
  intro f
  induction f with
  | zero => intro d s s' w w' _ _ h; simp [Ber.parseLoop] at h
  | succ f ih =>
    intro d s s' w w' h0 hv h
    have hle := isizeMax_le hw'
    rw [Ber.parseLoop, P.bind_def] at h
    rw [berReadLoop, P.bind_def]
    rcases hp : (Ber.doParse (σ := σ) m).run s w with ⟨r, s1, w1⟩
    rw [hp] at h
    cases r with
    | err e => simp at h
    | panic => simp at h
    | ub => simp at h
    | ok δ =>
      obtain ⟨hg, hδ⟩ := berDoParse_grows hp
      simp only [P.ite_apply] at h
      by_cases h3 : (Bsn1.isizeMax : Int) < d + δ
      · rw [if_pos h3] at h; simp at h
      rw [if_neg h3] at h
      by_cases h4 : d + δ > 0
      · rw [if_pos h4] at h
        obtain ⟨h5, h6⟩ := ih _ _ _ _ _ (by omega) hv h
        rw [berReadOne_complete hw hw' hp (by omega)]
        simp only [P.ite_apply]
        rw [if_neg (show ¬ ((t.isizeMax : Int) < d + δ) by omega), if_pos h4]
        exact ⟨h5, by omega⟩
      · rw [if_neg h4] at h
        simp only [P.pure_apply, Prod.mk.injEq] at h
        obtain ⟨_, rfl, rfl⟩ := h
        rw [berReadOne_complete hw hw' hp hv]
        simp only [P.ite_apply]
        rw [if_neg (show ¬ ((t.isizeMax : Int) < d + δ) by omega), if_neg h4]
        exact ⟨rfl, by omega⟩

theorem berParse_iff (hw : 1 ≤ t.word) (hw' : t.word ≤ 8) (m : Build) (s s' : σ) (v : Bytes) :
    t.berParse m s = (.ok v, s') ↔ Ber.parse m s = (.ok v, s') ∧ v.length ≤ t.isizeMax := by
  rw [berParse, Ber.parse]
  constructor
  · intro h
    rcases hp : (t.berReadLoop m (Reader.size s + 1) 0).run s [] with ⟨r, s1, w⟩
    rw [hp] at h
    cases r with
    | err e => simp at h
    | panic => simp at h
    | ub => simp at h
    | ok u =>
      obtain ⟨h1, h2⟩ := berReadLoop_sound hw hw' _ _ _ _ _ _ (by omega) hp
      simp only [Prod.mk.injEq, Res.ok.injEq] at h
      obtain ⟨rfl, rfl⟩ := h
      rw [h1]
      exact ⟨rfl, h2⟩
  · rintro ⟨h, hv⟩
    rcases hp : (Ber.parseLoop m (Reader.size s + 1) 0).run s [] with ⟨r, s1, w⟩
    rw [hp] at h
    cases r with
    | err e => simp at h
    | panic => simp at h
    | ub => simp at h
    | ok u =>
      simp only [Prod.mk.injEq, Res.ok.injEq] at h
      obtain ⟨rfl, rfl⟩ := h
      rw [(berReadLoop_complete hw hw' _ _ _ _ _ _ (by simp) hv hp).1]

end Target
end Bsn1
