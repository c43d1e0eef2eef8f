import Verif.Lemmas.UnwindMut
/-!
# Code of the caller that panics: as without the panic, up to it
-/

namespace Bsn1.Raw
open Bsn1.Buf

section cut
variable {B α β : Type}

/-- `x` does what `y` does, or panics. -/
def Cut (x y : Meth B α) : Prop := ∀ b h, x b h = y b h ∨ ∃ b' h', x b h = .unwind b' h'

theorem Cut.refl (x : Meth B α) : Cut x x := fun _ _ => .inl rfl

theorem Cut.bind {x y : Meth B α} {f g : α → Meth B β} (h1 : Cut x y) (h2 : ∀ a, Cut (f a) (g a)) : Cut (x >>= f) (y >>= g) := by
  intro b h
  simp only [meth_bind]
  rcases h1 b h with e | ⟨b', h', e⟩
  · rw [e]
    cases y b h with
    | ok a b' h' => exact h2 a b' h'
    | _ => exact .inl rfl
  · rw [e]; exact .inr ⟨b', h', rfl⟩

theorem Cut.unwind (y : Meth B α) : Cut Meth.unwind y := fun b h => .inr ⟨b, h, rfl⟩

/-- `x` does what `y` does, or panics, from a heap. -/
def CutU (x y : U α) (h : Heap) : Prop := x h = y h ∨ ∃ h', x h = .unwind h'

theorem CutU.refl (x : U α) (h : Heap) : CutU x x h := .inl rfl

theorem CutU.bind {x y : U α} {f g : α → U β} {h : Heap} (h1 : CutU x y h) (h2 : ∀ a h', CutU (f a) (g a) h') : CutU (x >>= f) (y >>= g) h := by
  unfold CutU
  simp only [u_bind]
  rcases h1 with e | ⟨h', e⟩
  · rw [e]
    cases y h with
    | ok a h' => exact h2 a h'
    | _ => exact .inl rfl
  · rw [e]; exact .inr ⟨h', rfl⟩

end cut

variable {I : Impl} {Rep : I.B → Heap → List Cell → Nat → Option Nat → Prop} {m : Build} {al : Allocator} {init : Nat} {V : UImpl I} {h h0 : Heap}
  {σ : Type} [Reader σ]

theorem cut_own (hc : Correct I Rep) {α ε : Type} {b : I.B} {x y : Meth I.B (Except ε α)} (hx : Cut x y) {Q : Except ε α → I.B → Heap → Prop}
    (ht : Tri x b h Q (Owned Rep h0)) : CutU (own I.drop b x) (own I.drop b y) h := by
  rcases hx b h with e | ⟨b', h', e⟩
  · left; unfold own; rw [e]
  · right
    unfold Tri at ht
    rw [e] at ht
    obtain ⟨h2, e2, _⟩ := Owned.drop hc ht
    exact ⟨h2, by unfold own; simp only [e, e2]⟩

theorem cut_build (hc : Correct I Rep) {α : Type} {b : I.B} {x y : Meth I.B α} (hx : Cut x y) {Q : α → I.B → Heap → Prop}
    (ht : Tri x b h Q (Owned Rep h0)) : CutU (build I.drop b x) (build I.drop b y) h := by
  rcases hx b h with e | ⟨b', h', e⟩
  · left; unfold build; rw [e]
  · right
    unfold Tri at ht
    rw [e] at ht
    obtain ⟨h2, e2, _⟩ := Owned.drop hc ht
    exact ⟨h2, by unfold build; simp only [e, e2]⟩

/-- What is read of a header when the reader panics is the same, and the result is a panic. -/
theorem orPanic_cases {α : Type} (p : IoKind → Bool) (x : Res α × σ × Bytes) :
    orPanic p x = x ∨ ∃ s w r, x = (r, s, w) ∧ orPanic p x = (.panic, s, w) := by
  unfold orPanic
  split
  · split
    · exact .inr ⟨_, _, _, rfl, rfl⟩
    · exact .inl rfl
  · exact .inl rfl

theorem cut_parseBody (p : IoKind → Bool) (rd : Nat → σ → ReadEffect σ) (s : σ) :
    Cut (Der.parseBodyU V m al p rd s) (Der.parseBodyU V m al (fun _ => false) rd s) := by
  unfold Der.parseBodyU
  rw [orPanic_never]
  rcases orPanic_cases p ((parseIdLength (σ := σ)).run s []) with e | ⟨s1, w, r, e1, e2⟩
  · rw [e]; exact .refl _
  · rw [e2, e1]
    exact .bind (.refl _) fun _ => .unwind _

theorem cut_doParse (p : IoKind → Bool) (rd : Nat → σ → ReadEffect σ) (s : σ) :
    Cut (Ber.doParseU V m al p rd s) (Ber.doParseU V m al (fun _ => false) rd s) := by
  unfold Ber.doParseU
  rw [orPanic_never]
  rcases orPanic_cases p ((parseIdLength (σ := σ)).run s []) with e | ⟨s1, w, r, e1, e2⟩
  · rw [e]; exact .refl _
  · rw [e2, e1]
    exact .bind (.refl _) fun _ => .bind (.refl _) fun _ => .unwind _

theorem cut_parseLoop (p : IoKind → Bool) (rd : Nat → σ → ReadEffect σ) (fuel : Nat) (d : Int) (s : σ) :
    Cut (Ber.parseLoopU V m al p rd fuel d s) (Ber.parseLoopU V m al (fun _ => false) rd fuel d s) := by
  induction fuel generalizing d s with
  | zero => exact .refl _
  | succ fuel ih =>
    unfold Ber.parseLoopU
    refine .bind (cut_doParse p rd s) fun r => ?_
    rcases r with e | ⟨k, s⟩
    · exact .refl _
    · simp only
      split
      · exact .refl _
      · split
        · exact ih _ _
        · exact .refl _

theorem cut_Der_parse (hc : Correct I Rep) (hi : Inline I Rep init) (hu : Unwinds V Rep) (hv : al.Valid) (p : IoKind → Bool)
    (rd : Nat → σ → ReadEffect σ) (s : σ) (h : Heap) :
    CutU (Der.parseU V m al p rd s) (Der.parseU V m al (fun _ => false) rd s) h :=
  .bind (cut_own hc (cut_parseBody p rd s) (tri_parseBody hc hi hu hv p rd s (owned_new hc rfl))) fun _ _ => .refl _ _

theorem cut_Ber_parse (hc : Correct I Rep) (hi : Inline I Rep init) (hu : Unwinds V Rep) (hv : al.Valid) (p : IoKind → Bool)
    (rd : Nat → σ → ReadEffect σ) (s : σ) (h : Heap) :
    CutU (Ber.parseU V m al p rd s) (Ber.parseU V m al (fun _ => false) rd s) h :=
  .bind (cut_own hc (cut_parseLoop p rd _ 0 s) (tri_parseLoop hc hi hu hv p rd _ 0 s _ h (owned_new hc rfl))) fun _ _ => .refl _ _

theorem cut_Id_parse (hc : Correct I Rep) (hi : Inline I Rep init) (hu : Unwinds V Rep) (hv : al.Valid) (p : IoKind → Bool) (s : σ) (h : Heap) :
    CutU (Id.parseU V m al p s) (Id.parseU V m al (fun _ => false) s) h := by
  unfold Id.parseU
  rw [orPanic_never]
  rcases orPanic_cases p ((parseId (σ := σ)).run s []) with e | ⟨s1, w, r, e1, e2⟩
  · rw [e]; exact .refl _ _
  · rw [e2, e1]
    refine .bind (cut_own hc (h0 := h) (Q := fun _ _ _ => True) (.bind (.refl _) fun _ => .unwind _) ?_) fun _ _ => .refl _ _
    exact (tri_writeAll hc hi hu hv w _ h (owned_new hc rfl)).bind fun _ b h ho => ho

theorem cut_extendAll (panics : Bool) (parts : List Bytes) : Cut (extendAllU V m panics parts) (extendAllU V m false parts) := by
  induction parts with
  | nil =>
    cases panics
    · exact .refl _
    · exact .unwind _
  | cons p r ih => exact .bind (.refl _) fun _ => ih

theorem cut_fromParts (hc : Correct I Rep) (hu : Unwinds V Rep) (hv : al.Valid) (id len : Bytes) (parts : List Bytes) (panics : Bool) (n : Nat) (h : Heap) :
    CutU (Der.fromPartsU V m al id len parts panics n) (Der.fromPartsU V m al id len parts false n) h := by
  unfold Der.fromPartsU
  unfold CutU
  simp only [u_bind]
  cases e1 : U.step (usizeAdd m id.length len.length) h with
  | ok t h1 =>
    simp only
    cases e2 : U.step (usizeAdd m t n) h1 with
    | ok total h2 =>
      simp only
      have hlt : total < usizeSize := by
        unfold U.step at e2
        cases e : usizeAdd m t n h1 with
        | ok a h' => rw [e] at e2; cases e2; exact usizeAdd_lt e
        | _ => rw [e] at e2; cases e2
      have hw := triU_withCapacity (m := m) hc hu hv hlt h2
      unfold TriU at hw
      cases e3 : V.withCapacity m al total h2 with
      | ok b h3 =>
        rw [e3] at hw
        obtain ⟨s, fp, hr, hs, fr⟩ := hw
        simp only
        exact CutU.bind (cut_build hc (cut_extendAll panics _) (tri_extendAll (m := m) hc hu panics _ b h3 ⟨s, 0, fp, hr, fr⟩)) fun _ _ => .refl _ _
      | _ => exact .inl rfl
    | _ => exact .inl rfl
  | _ => exact .inl rfl

theorem cut_count (counted : List Bytes) (panics : Bool) (h : Heap) : CutU (Der.countU m counted panics) (Der.countU m counted false) h := by
  unfold Der.countU
  refine .bind (.refl _ _) fun n h' => ?_
  cases panics
  · exact .refl _ _
  · exact .inr ⟨h', rfl⟩

theorem cut_fromPasses (hc : Correct I Rep) (hu : Unwinds V Rep) (hv : al.Valid) (id : Bytes) (counted parts : List Bytes × Bool) (h : Heap) :
    CutU (Der.fromPassesU V m al id counted parts) (Der.fromPassesU V m al id (counted.1, false) (parts.1, false)) h :=
  .bind (cut_count _ _ h) fun _ h => .bind (.refl _ h) fun _ h => cut_fromParts hc hu hv _ _ _ _ _ h

theorem cut_fromPassesIndefinite (hc : Correct I Rep) (hu : Unwinds V Rep) (hv : al.Valid) (id : Bytes) (counted parts : List Bytes × Bool) (h : Heap) :
    CutU (Ber.fromPassesIndefiniteU V m al id counted parts) (Ber.fromPassesIndefiniteU V m al id (counted.1, false) (parts.1, false)) h :=
  .bind (cut_count _ _ h) fun _ h => .bind (.refl _ h) fun _ h => cut_fromParts hc hu hv _ _ _ _ _ h

end Bsn1.Raw
