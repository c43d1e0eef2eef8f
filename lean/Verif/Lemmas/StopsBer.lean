import Verif.Lemmas.Stops
import Verif.Lemmas.Panic
/-!
# Lemmas on `Ber::parse` with a reader that gives any answers
-/

set_option linter.unusedSimpArgs false

namespace Bsn1
open Spec

theorem berDoParse_script_lt (m : Build) {s s' : Script} {w w' : Bytes} {δ : Int} (h : (Ber.doParse m).run s w = (.ok δ, s', w')) :
    (scriptData s').length < (scriptData s).length := by
  simp only [Ber.doParse] at h
  have hspec := scriptHeader_spec s w
  generalize (parseIdLength (σ := Script)).run s w = r at hspec h
  cases hspec with
  | definite id n s1 h1 h2 h3 h4 =>
    have := isId_length_pos h1
    have hl := congrArg List.length h3
    simp only [List.length_append] at hl
    simp only at h
    generalize (do
      let _ ← bufReserve m (w ++ id ++ lenOctets n).length n
      let total ← uadd m (w ++ id ++ lenOctets n).length n
      if (w ++ id ++ lenOctets n).length ≤ total then return total - (w ++ id ++ lenOctets n).length else Res.panic) = q at h
    match q with
    | .ok k =>
      simp only at h
      rcases readExact_script k s1 with ⟨e, s'', h5⟩ | ⟨bs, s'', h5, h6, h7, h8⟩
      · rw [h5] at h; cases h
      · rw [h5] at h
        simp only at h
        have hl2 := congrArg List.length h7
        simp only [List.length_append] at hl2
        cases hsl : sliceFrom (w ++ id ++ lenOctets n ++ bs) w.length with
        | ok c => rw [hsl] at h; simp only [Prod.mk.injEq] at h; rw [← h.2.1]; omega
        | err e => rw [hsl] at h; cases h
        | panic => rw [hsl] at h; cases h
        | ub => rw [hsl] at h; cases h
    | .err e => cases h
    | .panic => cases h
    | .ub => cases h
  | indefinite id s1 h1 h2 h3 =>
    have := isId_length_pos h1
    have hl := congrArg List.length h2
    simp only [List.length_append] at hl
    simp only [Prod.mk.injEq] at h
    rw [← h.2.1]; omega
  | error e s1 w1 => cases h

/-- The bound of the loop does not matter if it is large enough. -/
theorem berLoop_fuel (m : Build) : ∀ (f f' : Nat) (d : Int) (s : Script) (w : Bytes), (scriptData s).length < f → (scriptData s).length < f' →
    (Ber.parseLoop m f d).run s w = (Ber.parseLoop m f' d).run s w := by
  intro f
  induction f with
  | zero => intro f' d s w h; omega
  | succ f ih =>
    intro f' d s w h h'
    obtain ⟨f', rfl⟩ : ∃ j, f' = j + 1 := ⟨f' - 1, by omega⟩
    simp only [Ber.parseLoop, P.bind_def]
    rcases hx : (Ber.doParse m).run s w with ⟨r, s1, w1⟩
    cases r with
    | ok δ =>
      have := berDoParse_script_lt m hx
      simp only [P.ite_apply]
      split
      · rfl
      · split
        · exact ih f' _ s1 w1 (by omega) (by omega)
        · rfl
    | err e => rfl
    | panic => rfl
    | ub => rfl

/-- One header and, if its length is definite, the contents: what an answer without octets does. -/
theorem berDoParse_stop (m : Build) {s : Script} {p w : Bytes} (hs : Chunks s p) :
    (∀ e, ((Ber.doParse m).run p w).1 = .err e → AtEnd (.err e : Res Int) → ∀ ev tail, IsStop ev →
      (ev = .fail .interrupted → e = .unterminatedBytes) →
      ∃ w', (Ber.doParse m).run (s ++ ev :: tail) w = (.err (stopError e ev), tail, w')) ∧
    (((Ber.doParse m).run p w).1 = .err (.io .unexpectedEof) → ∀ tail,
      (Ber.doParse m).run (s ++ .fail .interrupted :: tail) w = (Ber.doParse m).run (s ++ tail) w) := by
  have h1 := halt_parseIdLength.2 s p w hs
  obtain ⟨-, h2⟩ := flow_parseIdLength s p w hs
  have hio := NoIo.idLength p w
  rcases hy : (parseIdLength (σ := Bytes)).run p w with ⟨r, p', w'⟩
  rw [hy] at h1 h2 hio
  match r with
  | .ok (.definite n) =>
    obtain ⟨left, h3, h4⟩ := h2 (by simp)
    simp only [Ber.doParse, hy, h4]
    generalize hq : (do
      let _ ← bufReserve m w'.length n
      let total ← uadd m w'.length n
      if w'.length ≤ total then return total - w'.length else Res.panic) = q
    match q, hq with
    | .ok k, _ =>
      simp only
      obtain ⟨s2, h5, rfl⟩ := readExact_slice k p'
      rw [h5]
      by_cases hk : k ≤ p'.length
      · simp only [if_pos hk]
        by_cases ht : w.length ≤ (w' ++ p'.take k).length
        · have e : sliceFrom (w' ++ p'.take k) w.length = .ok ((w' ++ p'.take k).drop w.length) := by rw [sliceFrom, if_pos ht]
          simp only [e]
          exact ⟨nofun, nofun⟩
        · have e : sliceFrom (w' ++ p'.take k) w.length = .panic := by rw [sliceFrom, if_neg ht]
          simp only [e]
          exact ⟨nofun, nofun⟩
      · obtain ⟨h6, h7⟩ := readExact_stop k left p' h3 (by omega)
        simp only [if_neg hk]
        refine ⟨fun e he _ ev tail hev hne => ⟨w', ?_⟩, fun _ tail => ?_⟩
        · simp only [Res.err.injEq] at he
          subst he
          have hi : ev ≠ .fail .interrupted := fun h => by have := hne h; cases this
          simp only [h4, h6 ev tail hev hi]
        · simp only [h4, h7 tail]
    | .err e, hq => exact absurd hq (berReserve_noErr m _ _ e)
    | .panic, _ => exact ⟨nofun, nofun⟩
    | .ub, _ => exact ⟨nofun, nofun⟩
  | .ok .indefinite =>
    simp only [Ber.doParse, hy]
    exact ⟨nofun, nofun⟩
  | .err e =>
    simp only [Ber.doParse, hy]
    refine ⟨fun e' he' hend ev tail hev hne => ?_, fun he => ?_⟩
    · simp only [Res.err.injEq] at he'
      subst he'
      have : e = .unterminatedBytes := by
        rcases hend with h | h
        · exact Res.err.inj h
        · exact absurd (by rw [Res.err.inj h]) (hio .unexpectedEof)
      subst this
      obtain ⟨w'', h5⟩ := h1 rfl ev tail hev
      exact ⟨w'', by rw [h5]⟩
    · exact absurd (by rw [Res.err.inj he]) (hio .unexpectedEof)
  | .panic =>
    simp only [Ber.doParse, hy]
    exact ⟨nofun, nofun⟩
  | .ub =>
    simp only [Ber.doParse, hy]
    exact ⟨nofun, nofun⟩

theorem scriptData_append : ∀ a b : Script, scriptData (a ++ b) = scriptData a ++ scriptData b
  | [], _ => rfl
  | .chunk c :: a, b => by simp [scriptData, scriptData_append a b]
  | .fail k :: a, b => by simp [scriptData, scriptData_append a b]

theorem Spec.Chunks.data {s : Script} {p : Bytes} (h : Chunks s p) : scriptData s = p := by
  induction h with
  | nil => rfl
  | cons c s bs _ _ ih => simp [scriptData, ih]

theorem berLoop_stop (m : Build) : ∀ (g : Nat) (d : Int) (s : Script) (p w : Bytes), Chunks s p → p.length < g →
    (∀ e, ((Ber.parseLoop m g d).run p w).1 = .err e → AtEnd (.err e : Res Unit) → ∀ ev tail, IsStop ev →
      (ev = .fail .interrupted → e = .unterminatedBytes) → ∀ f, p.length < f →
      ∃ w', (Ber.parseLoop m f d).run (s ++ ev :: tail) w = (.err (stopError e ev), tail, w')) ∧
    (((Ber.parseLoop m g d).run p w).1 = .err (.io .unexpectedEof) → ∀ tail f f', (scriptData (s ++ tail)).length < f →
      (scriptData (s ++ tail)).length < f' →
      (Ber.parseLoop m f d).run (s ++ .fail .interrupted :: tail) w = (Ber.parseLoop m f' d).run (s ++ tail) w) := by
  intro g
  induction g with
  | zero => intro d s p w _ h; omega
  | succ g ih =>
    intro d s p w hs hg
    obtain ⟨h1, h1'⟩ := berDoParse_stop m (w := w) hs
    obtain ⟨-, h2⟩ := flow_berDoParse m s p w hs
    rcases hy : (Ber.doParse (σ := Bytes) m).run p w with ⟨r, p', w'⟩
    rw [hy] at h1 h1' h2
    match r with
    | .ok δ =>
      obtain ⟨left, h3, h4⟩ := h2 (by simp)
      have hlt := berDoParse_rest_lt m hy
      by_cases ho : (isizeMax : Int) < d + δ
      · have e : (Ber.parseLoop m (g + 1) d).run p w = (.panic, p', w') := by
          simp only [Ber.parseLoop, P.bind_def, hy, P.ite_apply, P.lift_apply, P.pure_apply, if_pos ho]
        rw [e]
        exact ⟨nofun, nofun⟩
      · by_cases hp : d + δ > 0
        · have e : (Ber.parseLoop m (g + 1) d).run p w = (Ber.parseLoop m g (d + δ)).run p' w' := by
            simp only [Ber.parseLoop, P.bind_def, hy, P.ite_apply, P.lift_apply, P.pure_apply, if_neg ho, if_pos hp]
          have e2 : ∀ tail f, (Ber.parseLoop m (f + 1) d).run (s ++ tail) w = (Ber.parseLoop m f (d + δ)).run (left ++ tail) w' := by
            intro tail f
            simp only [Ber.parseLoop, P.bind_def, h4, P.ite_apply, P.lift_apply, P.pure_apply, if_neg ho, if_pos hp]
          rw [e]
          obtain ⟨i1, i2⟩ := ih (d + δ) left p' w' h3 (by omega)
          refine ⟨fun e he hend ev tail hev hne f hf => ?_, fun he tail f f' hf hf' => ?_⟩
          · obtain ⟨f, rfl⟩ : ∃ j, f = j + 1 := ⟨f - 1, by omega⟩
            rw [e2]
            exact i1 e he hend ev tail hev hne f (by omega)
          · obtain ⟨f, rfl⟩ : ∃ j, f = j + 1 := ⟨f - 1, by omega⟩
            obtain ⟨f', rfl⟩ : ∃ j, f' = j + 1 := ⟨f' - 1, by omega⟩
            rw [e2, e2]
            rw [scriptData_append, List.length_append, hs.data] at hf hf'
            have hd : (scriptData (left ++ tail)).length = p'.length + (scriptData tail).length := by
              rw [scriptData_append, List.length_append, h3.data]
            exact i2 he tail f f' (by omega) (by omega)
        · have e : (Ber.parseLoop m (g + 1) d).run p w = (.ok (), p', w') := by
            simp only [Ber.parseLoop, P.bind_def, hy, P.ite_apply, P.lift_apply, P.pure_apply, if_neg ho, if_neg hp]
          rw [e]
          exact ⟨nofun, nofun⟩
    | .err e =>
      have e1 : (Ber.parseLoop m (g + 1) d).run p w = (.err e, p', w') := by simp only [Ber.parseLoop, P.bind_def, hy]
      rw [e1]
      refine ⟨fun e' he hend ev tail hev hne f hf => ?_, fun he tail f f' hf hf' => ?_⟩
      · simp only [Res.err.injEq] at he
        subst he
        obtain ⟨w'', h5⟩ := h1 e rfl (atEnd_err hend) ev tail hev hne
        obtain ⟨f, rfl⟩ : ∃ j, f = j + 1 := ⟨f - 1, by omega⟩
        exact ⟨w'', by simp only [Ber.parseLoop, P.bind_def, h5]⟩
      · simp only [Res.err.injEq] at he
        subst he
        have h5 := h1' rfl tail
        have hd : (scriptData (s ++ .fail .interrupted :: tail)).length = (scriptData (s ++ tail)).length := by
          simp [scriptData_append, scriptData]
        obtain ⟨f, rfl⟩ : ∃ j, f = j + 1 := ⟨f - 1, by omega⟩
        have e3 : (Ber.parseLoop m (f + 1) d).run (s ++ .fail .interrupted :: tail) w = (Ber.parseLoop m (f + 1) d).run (s ++ tail) w := by
          simp only [Ber.parseLoop, P.bind_def, h5]
        rw [e3]
        exact berLoop_fuel m _ _ d _ w hf hf'
    | .panic =>
      have e1 : (Ber.parseLoop m (g + 1) d).run p w = (.panic, p', w') := by simp only [Ber.parseLoop, P.bind_def, hy]
      rw [e1]
      exact ⟨nofun, nofun⟩
    | .ub =>
      have e1 : (Ber.parseLoop m (g + 1) d).run p w = (.ub, p', w') := by simp only [Ber.parseLoop, P.bind_def, hy]
      rw [e1]
      exact ⟨nofun, nofun⟩

/-- What an answer without octets does to `f`, compared with what `g` says on the slice `p`. -/
def StopTop {α : Type} (f : Script → Res α × Script) (g : Bytes → Res α × Bytes) (s : Script) (p : Bytes) : Prop :=
  (∀ e, (g p).1 = .err e → AtEnd (g p).1 → ∀ ev tail, IsStop ev → (ev = .fail .interrupted → e = .unterminatedBytes) →
    f (s ++ ev :: tail) = (.err (stopError e ev), tail)) ∧
  ((g p).1 = .err (.io .unexpectedEof) → ∀ tail, f (s ++ .fail .interrupted :: tail) = f (s ++ tail))

theorem stop_berParse (m : Build) {s : Script} {p : Bytes} (h : Chunks s p) : StopTop (Ber.parse m) (Ber.parse m) s p := by
  obtain ⟨h1, h2⟩ := berLoop_stop m (p.length + 1) 0 s p [] h (by omega)
  have hsz : ∀ tail, p.length < Reader.size (s ++ tail) + 1 := fun tail => h.size_append_lt tail
  rw [StopTop]
  rcases hy : (Ber.parseLoop m (p.length + 1) 0).run p [] with ⟨r, p', w'⟩
  rw [hy] at h1 h2
  have e : Ber.parse m p = (r.withOk w', p') := by
    simp only [Ber.parse, size_bytes, hy]
    cases r <;> rfl
  rw [e]
  have herr : ∀ e, r.withOk w' = .err e ↔ r = .err e := by
    intro e; cases r <;> simp [Res.withOk]
  refine ⟨fun e he hend ev tail hev hne => ?_, fun he tail => ?_⟩
  · simp only at he hend
    rw [he] at hend
    obtain ⟨w'', h3⟩ := h1 e ((herr e).1 he) (atEnd_err hend) ev tail hev hne _ (hsz _)
    rw [Ber.parse, h3]
  · have hd : (scriptData (s ++ .fail .interrupted :: tail)).length = (scriptData (s ++ tail)).length := by
      simp [scriptData_append, scriptData]
    have hl1 := scriptData_length_le (s ++ .fail .interrupted :: tail)
    have hl2 := scriptData_length_le (s ++ tail)
    have hr : ∀ t : Script, Reader.size t = Script.size t := fun _ => rfl
    have h3 := h2 ((herr _).1 he) tail (Reader.size (s ++ .fail .interrupted :: tail) + 1) (Reader.size (s ++ tail) + 1)
      (by rw [hr]; omega) (by rw [hr]; omega)
    rw [Ber.parse, h3, Ber.parse]

theorem noIo_parseId : NoIo (parseId (σ := Bytes)) :=
  .bind .read fun _ => .bind (.write _) fun _ => .ite (.pure _) <| .bind .read fun _ => .ite (.throw _ nofun) <| .ite (.throw _ nofun) <|
    fun s w k => show ¬ _ from NoIo.idLoop (Reader.size s + 1) _ 2 s w k

theorem stop_idParse {s : Script} {p : Bytes} (h : Chunks s p) : StopTop Id.parse Id.parse s p := by
  have h1 := halt_parseId.2 s p [] h
  have hio : ∀ k, ((parseId (σ := Bytes)).run p []).1 ≠ .err (.io k) := fun k => noIo_parseId p [] k
  rw [StopTop]
  rcases hy : (parseId (σ := Bytes)).run p [] with ⟨r, p', w'⟩
  rw [hy] at h1 hio
  have e : Id.parse p = (r.withOk w', p') := by
    simp only [Id.parse, hy]
    cases r <;> rfl
  rw [e]
  have herr : ∀ e, r.withOk w' = .err e ↔ r = .err e := by
    intro e; cases r <;> simp [Res.withOk]
  refine ⟨fun e he hend ev tail hev hne => ?_, fun he => absurd ((herr _).1 he) (hio _)⟩
  have hun : e = .unterminatedBytes := by
    simp only at he hend
    rw [he] at hend
    rcases hend with h | h
    · exact Res.err.inj h
    · exact absurd ((herr _).1 (he.trans h)) (hio _)
  subst hun
  obtain ⟨w'', h3⟩ := h1 ((herr _).1 he) ev tail hev
  rw [Id.parse, h3]

theorem stop_lengthParse {s : Script} {p : Bytes} (h : Chunks s p) : StopTop Length.parse Length.parse s p := by
  have h1 := halt_parseLength.2 s p [] h
  have hio : ∀ k, ((parseLength (σ := Bytes)).run p []).1 ≠ .err (.io k) := fun k => NoIo.length p [] k
  refine ⟨fun e he hend ev tail hev hne => ?_, fun he => absurd he (hio _)⟩
  have hun : e = .unterminatedBytes := by
    rcases hend with h | h
    · exact Res.err.inj (he.symm.trans h)
    · exact absurd h (hio _)
  subst hun
  obtain ⟨w'', h3⟩ := h1 he ev tail hev
  simp only [Length.parse, h3]

/-! ### The same octets without stops -/

theorem chunks_berParse (m : Build) {s : Script} {p : Bytes} (h : Chunks s p) :
    (Ber.parse m s).1 = (Ber.parse m p).1 ∧ Chunks (Ber.parse m s).2 (Ber.parse m p).2 := sim_berParse delivers_chunks m h

theorem chunks_idParse {s : Script} {p : Bytes} (h : Chunks s p) : (Id.parse s).1 = (Id.parse p).1 ∧ Chunks (Id.parse s).2 (Id.parse p).2 := by
  have hsim := sim_parseId delivers_chunks s p [] h
  simp only [Id.parse]
  rcases hx : (parseId (σ := Script)).run s [] with ⟨r, s', w'⟩
  rcases hy : (parseId (σ := Bytes)).run p [] with ⟨r2, p', w2⟩
  rw [hx, hy] at hsim
  obtain ⟨rfl, rfl, h3⟩ := hsim
  cases r <;> exact ⟨rfl, h3⟩

theorem chunks_lengthParse {s : Script} {p : Bytes} (h : Chunks s p) :
    (Length.parse s).1 = (Length.parse p).1 ∧ Chunks (Length.parse s).2 (Length.parse p).2 := by
  have hsim := sim_parseLength delivers_chunks s p [] h
  exact ⟨hsim.1, hsim.2.2⟩

/-! ### All answers -/

/-- Any answers: octets up to the first answer without any. -/
theorem script_split : ∀ s : Script, (∃ p, Chunks s p) ∨ ∃ c p ev r, s = c ++ ev :: r ∧ Chunks c p ∧ IsStop ev
  | [] => .inl ⟨[], .nil⟩
  | .fail k :: s => .inr ⟨[], [], .fail k, s, rfl, .nil, .inr ⟨k, rfl⟩⟩
  | .chunk [] :: s => .inr ⟨[], [], .chunk [], s, rfl, .nil, .inl rfl⟩
  | .chunk (b :: x) :: s => by
    rcases script_split s with ⟨p, h⟩ | ⟨c, p, ev, r, rfl, h, hev⟩
    · exact .inl ⟨_, .cons _ _ _ (by simp) h⟩
    · exact .inr ⟨.chunk (b :: x) :: c, _, ev, r, rfl, .cons _ _ _ (by simp) h, hev⟩

theorem Spec.Chunks.append {s t : Script} {p q : Bytes} (h : Chunks s p) (h' : Chunks t q) : Chunks (s ++ t) (p ++ q) := by
  induction h with
  | nil => exact h'
  | cons c s bs hc _ ih => rw [List.cons_append, List.append_assoc]; exact .cons _ _ _ hc ih

/-- An answer without octets is behind those with octets. -/
theorem stop_behind {c : Script} {p : Bytes} (h : Chunks c p) : ∀ {l' a b : Script} {x : Event}, c ++ l' = a ++ x :: b → IsStop x →
    ∃ a', a = c ++ a' ∧ l' = a' ++ x :: b := by
  induction h with
  | nil => intro l' a b x e _; exact ⟨a, rfl, e⟩
  | cons c s bs hc _ ih =>
    intro l' a b x e hx
    cases a with
    | nil =>
      simp only [List.cons_append, List.nil_append, List.cons.injEq] at e
      rcases hx with h | ⟨k, h⟩
      · rw [h] at e; exact absurd (Event.chunk.inj e.1) hc
      · rw [h] at e; cases e.1
    | cons y a =>
      simp only [List.cons_append, List.cons.injEq] at e
      obtain ⟨a', rfl, h2⟩ := ih e.2 hx
      exact ⟨a', by rw [← e.1]; rfl, h2⟩

/-- Whether the answer `ev` disturbs after the octets `p`, by what `g` says on the slice `p`. -/
def Disturbs {α : Type} (g : Bytes → Res α × Bytes) (p : Bytes) (ev : Event) : Prop :=
  AtEnd (g p).1 ∧ (ev = .fail .interrupted → (g p).1 = .err .unterminatedBytes)

section
variable {α : Type} {f : Script → Res α × Script} {g : Bytes → Res α × Bytes}

/-- What was decided stays so. -/
theorem decided_append (hflow : ∀ s p, Chunks s p → FlowTop f g s p) (heq : ∀ s p, Chunks s p → (f s).1 = (g p).1 ∧ Chunks (f s).2 (g p).2)
    {s : Script} {p : Bytes} (hs : Chunks s p) (he : ¬ AtEnd (g p).1) (q : Bytes) : g (p ++ q) = ((g p).1, (g p).2 ++ q) := by
  obtain ⟨left, h1, h2⟩ := (hflow s p hs).2 he
  obtain ⟨t, ht⟩ : ∃ t, Chunks t q := by
    cases q with
    | nil => exact ⟨[], .nil⟩
    | cons b r => exact ⟨[.chunk (b :: r)], by simpa using Chunks.cons (b :: r) [] [] (by simp) .nil⟩
  obtain ⟨h3, h4⟩ := heq _ _ (hs.append ht)
  rw [h2] at h3 h4
  refine Prod.ext h3.symm ?_
  rw [← h4.data, (h1.append ht).data]

theorem stops_first (hflow : ∀ s p, Chunks s p → FlowTop f g s p) (hstop : ∀ s p, Chunks s p → StopTop f g s p)
    (heq : ∀ s p, Chunks s p → (f s).1 = (g p).1 ∧ Chunks (f s).2 (g p).2) :
    ∀ (n : Nat) (s l : Script) (ev : Event) (r : Script), l.length = n → FirstStop (Disturbs g) s l ev r →
      ∀ cut, (g (scriptData l)).1 = .err cut → f s = (.err (stopError cut ev), r) := by
  intro n
  induction n using Nat.strong_induction_on with
  | _ n ih =>
    rintro s l ev r hn ⟨rfl, hev, ⟨h1, h2⟩, h3⟩ cut hcut
    rcases script_split l with ⟨p, hl⟩ | ⟨c, p, e, l', rfl, hc, he⟩
    · rw [hl.data] at hcut h1 h2
      exact (hstop l p hl).1 cut hcut h1 ev r hev fun h => by have := h2 h; rw [hcut] at this; exact Res.err.inj this
    · have hnd := h3 c e l' rfl he
      have hdata : scriptData (c ++ e :: l') = scriptData (c ++ l') := by
        rcases he with rfl | ⟨k, rfl⟩ <;> simp [scriptData_append, scriptData]
      have hend : AtEnd (g p).1 := by
        by_contra hx
        rw [scriptData_append, hc.data, decided_append hflow heq hc hx] at h1
        exact hx h1
      rw [hc.data] at hnd
      have hi : e = .fail .interrupted ∧ (g p).1 ≠ .err .unterminatedBytes := by
        by_contra hx
        refine hnd ⟨hend, fun h => ?_⟩
        by_contra hy
        exact hx ⟨h, hy⟩
      obtain ⟨rfl, hi⟩ := hi
      have hio : (g p).1 = .err (.io .unexpectedEof) := hend.resolve_left hi
      rw [List.append_assoc, List.cons_append, (hstop c p hc).2 hio, ← List.append_assoc]
      refine ih (c ++ l').length (by rw [← hn]; simp) _ (c ++ l') ev r rfl ⟨rfl, hev, ?_, ?_⟩ cut (by rw [← hdata]; exact hcut)
      · rw [← hdata]; exact ⟨h1, h2⟩
      · intro a x b hab hx
        obtain ⟨a', rfl, hab'⟩ := stop_behind hc hab hx
        have := h3 (c ++ .fail .interrupted :: a') x b (by rw [hab']; simp) hx
        simpa [scriptData_append, scriptData] using this

theorem stops_none (hflow : ∀ s p, Chunks s p → FlowTop f g s p) (hstop : ∀ s p, Chunks s p → StopTop f g s p)
    (heq : ∀ s p, Chunks s p → (f s).1 = (g p).1 ∧ Chunks (f s).2 (g p).2) :
    ∀ (n : Nat) (s : Script), s.length = n → NoStop (Disturbs g) s →
      (f s).1 = (g (scriptData s)).1 ∧ scriptData (f s).2 = (g (scriptData s)).2 := by
  intro n
  induction n using Nat.strong_induction_on with
  | _ n ih =>
    intro s hn h
    rcases script_split s with ⟨p, hs⟩ | ⟨c, p, e, l', rfl, hc, he⟩
    · obtain ⟨h1, h2⟩ := heq s p hs
      rw [hs.data]
      exact ⟨h1, h2.data⟩
    · have hnd := h c e l' rfl he
      rw [hc.data] at hnd
      have hdata : scriptData (c ++ e :: l') = scriptData (c ++ l') := by
        rcases he with rfl | ⟨k, rfl⟩ <;> simp [scriptData_append, scriptData]
      by_cases hend : AtEnd (g p).1
      · have hi : e = .fail .interrupted ∧ (g p).1 ≠ .err .unterminatedBytes := by
          by_contra hx
          refine hnd ⟨hend, fun h => ?_⟩
          by_contra hy
          exact hx ⟨h, hy⟩
        obtain ⟨rfl, hi⟩ := hi
        have hio : (g p).1 = .err (.io .unexpectedEof) := hend.resolve_left hi
        rw [(hstop c p hc).2 hio, hdata]
        refine ih (c ++ l').length (by rw [← hn]; simp) _ rfl ?_
        intro a x b hab hx
        obtain ⟨a', rfl, hab'⟩ := stop_behind hc hab hx
        have := h (c ++ .fail .interrupted :: a') x b (by rw [hab']; simp) hx
        simpa [scriptData_append, scriptData] using this
      · obtain ⟨left, h1, h2⟩ := (hflow c p hc).2 hend
        rw [h2, scriptData_append, hc.data, decided_append hflow heq hc hend, scriptData_append, h1.data]
        refine ⟨rfl, ?_⟩
        rcases he with rfl | ⟨k, rfl⟩ <;> simp [scriptData]

end

/-! ### Where a reader is left -/

theorem afterOctets_data : ∀ (n : Nat) (s : Script), scriptData (afterOctets n s) = (scriptData s).drop n
  | 0, s => by simp [afterOctets]
  | n + 1, [] => by simp [afterOctets, scriptData]
  | n + 1, .fail _ :: s => by simp [afterOctets, scriptData, afterOctets_data (n + 1) s]
  | n + 1, .chunk c :: s => by
    rw [afterOctets]
    split
    · rename_i h
      simp only [scriptData]
      rw [List.drop_append_of_le_length (by omega)]
    · rename_i h
      rw [afterOctets_data (n + 1 - c.length) s]
      simp only [scriptData]
      rw [List.drop_append, List.drop_eq_nil_of_le (as := c) (by omega), List.nil_append]

theorem afterOctets_add : ∀ (n k : Nat) (s : Script), afterOctets k (afterOctets n s) = afterOctets (n + k) s
  | 0, k, s => by simp [afterOctets]
  | n + 1, k, [] => by cases k <;> simp [afterOctets, Nat.succ_add]
  | n + 1, k, .fail _ :: s => by
    have := afterOctets_add (n + 1) k s
    have e : n + 1 + k = (n + k) + 1 := by omega
    rw [e] at this ⊢
    simpa [afterOctets] using this
  | n + 1, k, .chunk c :: s => by
    have e : n + 1 + k = (n + k) + 1 := by omega
    rw [e, afterOctets, afterOctets]
    by_cases h : n + 1 < c.length
    · rw [if_pos h]
      cases k with
      | zero => simp [afterOctets, h]
      | succ k =>
        rw [afterOctets]
        simp only [List.length_drop]
        by_cases h2 : n + (k + 1) + 1 < c.length
        · rw [if_pos h2, if_pos (by omega), List.drop_drop, e]
        · rw [if_neg h2, if_neg (by omega)]
          congr 1
          omega
    · rw [if_neg h, if_neg (by omega), afterOctets_add (n + 1 - c.length) k s]
      congr 1
      omega

/-- Success leaves the reader somewhere behind the octets it took. -/
def Walk {α : Type} (x : P Script α) : Prop :=
  ∀ s w a s' w', x.run s w = (.ok a, s', w') → ∃ k, k ≤ (scriptData s).length ∧ s' = afterOctets k s

namespace Walk
variable {α β : Type}

theorem bind {x : P Script α} {f : α → P Script β} (h : Walk x) (hf : ∀ a, Walk (f a)) : Walk (x >>= f) := by
  intro s w a s' w' e
  rw [P.bind_def] at e
  rcases hx : x.run s w with ⟨r, s1, w1⟩
  rw [hx] at e
  cases r with
  | ok b =>
    obtain ⟨k, h1, rfl⟩ := h s w b s1 w1 hx
    obtain ⟨k', h2, rfl⟩ := hf b _ w1 a s' w' e
    rw [afterOctets_data, List.length_drop] at h2
    exact ⟨k + k', by omega, afterOctets_add k k' s⟩
  | err _ => cases e
  | panic => cases e
  | ub => cases e

theorem pure (a : α) : Walk (Pure.pure a) := by
  intro s w a' s' w' e
  rw [P.pure_apply] at e
  cases e
  exact ⟨0, by omega, by simp [afterOctets]⟩

theorem throw (e : Error) : Walk (α := α) (P.throw e) := fun s w a s' w' h => by cases h

theorem write (b : UInt8) : Walk (writeU8 b) := by
  intro s w a' s' w' e
  rw [writeU8_apply] at e
  cases e
  exact ⟨0, by omega, by simp [afterOctets]⟩

theorem ite {c : Prop} [Decidable c] {x x' : P Script α} (h : Walk x) (h' : Walk x') : Walk (if c then x else x') := by
  by_cases hc : c <;> simp [hc, h, h']

theorem read : Walk (readU8 (σ := Script)) := by
  intro s w a s' w' e
  match s with
  | [] => cases e
  | .fail k :: s => cases e
  | .chunk [] :: s => cases e
  | .chunk (b :: c) :: s =>
    refine ⟨1, by simp [scriptData], ?_⟩
    by_cases hc : c.length = 0
    · have hread : Reader.read 1 (.chunk (b :: c) :: s : Script) = (.data [b], s) := by
        rw [List.length_eq_zero_iff] at hc
        simp [Reader.read, Script.read, hc]
      simp only [readU8, hread] at e
      cases e
      simp [afterOctets, hc]
    · have hread : Reader.read 1 (.chunk (b :: c) :: s : Script) = (.data [b], .chunk c :: s) := by
        simp [Reader.read, Script.read, hc]
      simp only [readU8, hread] at e
      cases e
      simp only [afterOctets, List.length_cons]
      rw [if_pos (by omega)]
      simp

end Walk

theorem walk_parseIdLoop : ∀ (f : Nat) (o : UInt8) (i : Nat), Walk (parseIdLoop (σ := Script) f o i)
  | 0, _, _ => fun s w a s' w' h => by cases h
  | f + 1, _, _ => .bind (.write _) fun _ => .ite (.pure _) (.bind .read fun _ => walk_parseIdLoop f _ _)

theorem walk_parseId : Walk (parseId (σ := Script)) :=
  .bind .read fun _ => .bind (.write _) fun _ => .ite (.pure _) <| .bind .read fun _ => .ite (.throw _) <| .ite (.throw _) <|
    fun s w a s' w' h => walk_parseIdLoop (Reader.size s + 1) _ 2 s w a s' w' h

theorem walk_parseLengthLoop : ∀ k l, Walk (parseLengthLoop (σ := Script) k l)
  | 0, _ => .pure _
  | k + 1, _ => .bind .read fun _ => .bind (.write _) fun _ => walk_parseLengthLoop k _

theorem walk_parseLength : Walk (parseLength (σ := Script)) :=
  .bind .read fun _ => .bind (.write _) fun _ => .ite (.pure _) <| .ite (.pure _) <| .bind .read fun _ => .ite (.throw _) <|
    .bind (.write _) fun _ => .ite (.throw _) <| .ite (.throw _) <| .bind (walk_parseLengthLoop _ _) fun _ => .pure _

theorem walk_parseIdLength : Walk (parseIdLength (σ := Script)) := .bind walk_parseId fun _ => walk_parseLength

end Bsn1
