import Verif.Lemmas.Unwind
import Verif.Lemmas.RawSer
/-!
# Panics: what is left to drop
-/

set_option linter.unusedVariables false

namespace Bsn1.Raw
open Bsn1.Buf Bsn1.Spec

/-- If the part of a function returns, `Q`; if it panics, `E`. -/
def Tri {B α : Type} (x : Meth B α) (b : B) (h : Heap) (Q : α → B → Heap → Prop) (E : B → Heap → Prop) : Prop :=
  match x b h with
  | .ok a b h => Q a b h
  | .unwind b h => E b h
  | .abort => True
  | .ub => True

/-- If the function returns, `Q`; if it panics, `E`. -/
def TriU {α : Type} (x : U α) (h : Heap) (Q : α → Heap → Prop) (E : Heap → Prop) : Prop :=
  match x h with
  | .ok a h => Q a h
  | .unwind h => E h
  | .abort => True
  | .ub => True

section tri
variable {B α β : Type} {b : B} {h : Heap} {E : B → Heap → Prop} {F : Heap → Prop}

theorem Tri.bind {x : Meth B α} {f : α → Meth B β} {Q : α → B → Heap → Prop} {R : β → B → Heap → Prop} (hx : Tri x b h Q E)
    (hf : ∀ a b h, Q a b h → Tri (f a) b h R E) : Tri (x >>= f) b h R E := by
  unfold Tri at hx ⊢
  rw [meth_bind]
  cases e : x b h with
  | ok a b' h' => rw [e] at hx; exact hf a b' h' hx
  | unwind b' h' => rw [e] at hx; exact hx
  | abort => trivial
  | ub => trivial

theorem Tri.mono {x : Meth B α} {Q Q' : α → B → Heap → Prop} {E' : B → Heap → Prop} (hx : Tri x b h Q E) (hq : ∀ a b h, Q a b h → Q' a b h)
    (he : ∀ b h, E b h → E' b h) : Tri x b h Q' E' := by
  unfold Tri at hx ⊢
  cases e : x b h <;> rw [e] at hx
  · exact hq _ _ _ hx
  · exact he _ _ hx
  · trivial
  · trivial

theorem Tri.pure {a : α} {Q : α → B → Heap → Prop} (hq : Q a b h) : Tri (Pure.pure a) b h Q E := hq

theorem Tri.self {f : B → Meth B β} {R : β → B → Heap → Prop} (hf : Tri (f b) b h R E) : Tri (Meth.self >>= f) b h R E := hf

theorem Tri.unwind {Q : α → B → Heap → Prop} (he : E b h) : Tri (Meth.unwind : Meth B α) b h Q E := he

theorem Tri.ub {Q : α → B → Heap → Prop} : Tri (Meth.ub : Meth B α) b h Q E := trivial

theorem Tri.ite {c : Prop} [Decidable c] {x y : Meth B α} {Q : α → B → Heap → Prop} (h1 : c → Tri x b h Q E) (h2 : ¬ c → Tri y b h Q E) :
    Tri (if c then x else y) b h Q E := by
  by_cases hc : c
  · rw [if_pos hc]; exact h1 hc
  · rw [if_neg hc]; exact h2 hc

theorem Tri.step {x : M α} {f : α → Meth B β} {R : β → B → Heap → Prop} (hs : Still x h) (he : E b h)
    (hf : ∀ a, x h = .ok a h → Tri (f a) b h R E) : Tri (Meth.step x >>= f) b h R E := by
  unfold Tri
  rw [meth_bind, Meth.step]
  cases e : x h with
  | ok a h' => obtain rfl := hs a h' e; exact hf a e
  | panic => exact he
  | abort => trivial
  | ub => trivial

theorem TriU.bind {x : U α} {f : α → U β} {Q : α → Heap → Prop} {R : β → Heap → Prop} (hx : TriU x h Q F)
    (hf : ∀ a h, Q a h → TriU (f a) h R F) : TriU (x >>= f) h R F := by
  unfold TriU at hx ⊢
  rw [u_bind]
  cases e : x h with
  | ok a h' => rw [e] at hx; exact hf a h' hx
  | unwind h' => rw [e] at hx; exact hx
  | abort => trivial
  | ub => trivial

theorem TriU.pure {a : α} {Q : α → Heap → Prop} (hq : Q a h) : TriU (Pure.pure a) h Q F := hq

theorem TriU.step {x : M α} {f : α → U β} {R : β → Heap → Prop} (hs : Still x h) (he : F h) (hf : ∀ a, x h = .ok a h → TriU (f a) h R F) :
    TriU (U.step x >>= f) h R F := by
  unfold TriU
  rw [u_bind, U.step]
  cases e : x h with
  | ok a h' => obtain rfl := hs a h' e; exact hf a e
  | panic => exact he
  | abort => trivial
  | ub => trivial

end tri

variable {I : Impl} {Rep : I.B → Heap → List Cell → Nat → Option Nat → Prop} {m : Build} {al : Allocator} {init : Nat} {V : UImpl I}

/-- The buffer is in order, and beside its block there are just the blocks of `h0`. -/
def Owned (Rep : I.B → Heap → List Cell → Nat → Option Nat → Prop) (h0 : Heap) (b : I.B) (h : Heap) : Prop :=
  ∃ s l fp, Rep b h s l fp ∧ Frame h0 h none fp

theorem Owned.drop (hc : Correct I Rep) {h0 h : Heap} {b : I.B} (ho : Owned Rep h0 b h) : ∃ h', I.drop b h = .ok () h' ∧ h'.blocks = h0.blocks := by
  obtain ⟨s, l, fp, hr, fr⟩ := ho
  obtain ⟨h', e, fr'⟩ := hc.drop hr
  refine ⟨h', e, ?_⟩
  have := fr.trans fr'
  rw [Frame, erase_none, erase_none] at this
  exact this.symm

theorem owned_new (hc : Correct I Rep) {h0 h : Heap} (hh : h.blocks = h0.blocks) : Owned Rep h0 I.new h := by
  obtain ⟨s, hr, _⟩ := hc.new h
  exact ⟨s, 0, none, hr, by rw [Frame, hh]⟩

theorem Owned.blocks (hc : Correct I Rep) {h0 h h' : Heap} {b : I.B} (ho : Owned Rep h0 b h) (hh : h'.blocks = h.blocks) : Owned Rep h0 b h' := by
  obtain ⟨s, l, fp, hr, fr⟩ := ho
  exact ⟨s, l, fp, hc.near hr fun p _ => by rw [hh], by rw [Frame, hh]; exact fr⟩

theorem own_tri (hc : Correct I Rep) {α ε : Type} {b : I.B} {h h0 : Heap} {body : Meth I.B (Except ε α)}
    (hb : Tri body b h (fun _ b h => Owned Rep h0 b h) (Owned Rep h0)) :
    TriU (own I.drop b body) h (fun r h' => match r with
      | .ok (_, b) => Owned Rep h0 b h'
      | .error _ => h'.blocks = h0.blocks) (fun h' => h'.blocks = h0.blocks) := by
  unfold Tri at hb
  unfold TriU own
  cases e : body b h with
  | ok a b' h' =>
    rw [e] at hb
    cases a with
    | ok a => exact hb
    | error er =>
      obtain ⟨h2, e2, e3⟩ := Owned.drop hc hb
      simp only [e2]
      exact e3
  | unwind b' h' =>
    rw [e] at hb
    obtain ⟨h2, e2, e3⟩ := Owned.drop hc hb
    simp only [e2]
    exact e3
  | abort => trivial
  | ub => trivial

theorem build_tri (hc : Correct I Rep) {α : Type} {b : I.B} {h h0 : Heap} {body : Meth I.B α} {Q : α → I.B → Heap → Prop}
    (hb : Tri body b h Q (Owned Rep h0)) : TriU (build I.drop b body) h (fun r h' => Q r.1 r.2 h') (fun h' => h'.blocks = h0.blocks) := by
  unfold Tri at hb
  unfold TriU build
  cases e : body b h with
  | ok a b' h' => rw [e] at hb; exact hb
  | unwind b' h' =>
    rw [e] at hb
    obtain ⟨h2, e2, e3⟩ := Owned.drop hc hb
    simp only [e2]
    exact e3
  | abort => trivial
  | ub => trivial

/-! ### The methods of the buffer -/

section methods
variable {b : I.B} {h h0 : Heap} {s : List Cell} {l : Nat} {fp : Option Nat}

theorem tri_reserve (hc : Correct I Rep) (hi : Inline I Rep init) (hu : Unwinds V Rep) (hv : al.Valid) (hr : Rep b h s l fp)
    (fr : Frame h0 h none fp) {n : Nat} (hn : n < usizeSize) :
    Tri (V.reserve m al n) b h (fun _ b' h' => ∃ s' fp', Rep b' h' s' l fp' ∧ Frame h0 h' none fp' ∧
      (l + n ≤ s'.length ∨ m = .release ∧ usizeSize ≤ l + n)) (Owned Rep h0) := by
  have hlike := hu.reserve m al n b h
  unfold Tri
  by_cases hle : l + n ≤ isizeMax
  · rcases hc.reserve m n hv hr hle with e | ⟨b', h', fp', s', e, h1, h2, h3, h4, h5⟩
    · rw [e] at hlike
      rw [show V.reserve m al n b h = .abort from hlike]; trivial
    · rw [e] at hlike
      rw [show V.reserve m al n b h = .ok () b' h' from hlike]
      exact ⟨s', fp', h1, fr.trans h5, .inl h2⟩
  · have e := hi.beyond m al hr n hn (by omega)
    by_cases h1 : usizeSize ≤ l + n
    · rw [if_pos h1] at e
      cases m with
      | debug =>
        rw [if_pos rfl] at e
        rw [e] at hlike
        obtain ⟨h', e1, e2⟩ := hlike
        rw [e1]
        exact Owned.blocks hc ⟨s, l, fp, hr, fr⟩ e2
      | release =>
        rw [if_neg (by decide)] at e
        rw [e] at hlike
        rw [show V.reserve .release al n b h = .ok () b h from hlike]
        exact ⟨s, fp, hr, fr, .inr ⟨rfl, h1⟩⟩
    · rw [if_neg h1] at e
      by_cases h2 : fp = none
      · rw [if_pos h2] at e
        rw [e] at hlike
        obtain ⟨h', e1, e2⟩ := hlike
        rw [e1]
        exact Owned.blocks hc ⟨s, l, fp, hr, fr⟩ e2
      · rw [if_neg h2] at e
        rw [e] at hlike
        rw [show V.reserve m al n b h = .ub from hlike]; trivial

theorem tri_extend (hc : Correct I Rep) (hu : Unwinds V Rep) (vals : Bytes) (ho : Owned Rep h0 b h) :
    Tri (V.extend m vals) b h (fun _ b h => Owned Rep h0 b h) (Owned Rep h0) := by
  obtain ⟨s, l, fp, hr, fr⟩ := ho
  have hlike := hu.extend m vals hr
  unfold Tri
  by_cases hle : l + vals.length ≤ s.length
  · obtain ⟨b', h', e, h1, h2⟩ := hc.extend m vals hr hle
    rw [e] at hlike
    rw [show V.extend m vals b h = .ok () b' h' from hlike]
    exact ⟨_, _, _, h1, fr.trans h2⟩
  · rw [hu.extend_out m vals hr (by omega)] at hlike
    rw [show V.extend m vals b h = .ub from hlike]; trivial

theorem tri_poke (hc : Correct I Rep) (hu : Unwinds V Rep) (off : Nat) (vals : Bytes) (hr : Rep b h s l fp) (fr : Frame h0 h none fp)
    {E : I.B → Heap → Prop} :
    Tri (V.poke off vals) b h (fun _ b h => ∃ s', Rep b h s' l fp ∧ s'.length = s.length ∧ Frame h0 h none fp) E := by
  have hlike := hu.poke off vals b h
  unfold Tri
  by_cases hle : off + vals.length ≤ s.length
  · obtain ⟨b', h', e, h1, h2⟩ := hc.poke off vals hr hle
    rw [e] at hlike
    rw [show V.poke off vals b h = .ok () b' h' from hlike]
    exact ⟨_, h1, patch_length _ _ _ (by simpa using hle), fr.trans h2⟩
  · rw [hu.poke_out off vals hr (by omega)] at hlike
    rw [show V.poke off vals b h = .ub from hlike]; trivial

theorem tri_setLen (hc : Correct I Rep) (hu : Unwinds V Rep) (hr : Rep b h s l fp) (fr : Frame h0 h none fp) {n : Nat} (hn : n ≤ s.length)
    {E : I.B → Heap → Prop} : Tri (V.setLenChecked m n) b h (fun _ b h => Rep b h s n fp ∧ Frame h0 h none fp) E := by
  have hlike := hu.setLen m n b h
  obtain ⟨b', e, h1⟩ := hc.setLen m n hr hn
  rw [e] at hlike
  unfold Tri UImpl.setLenChecked
  simp only [meth_bind, meth_self, Meth.step, hc.capacity hr, debugAssert_ok m hn h]
  rw [show V.setLen m n b h = .ok () b' h from hlike]
  exact ⟨h1, fr⟩

theorem tri_write (hc : Correct I Rep) (hi : Inline I Rep init) (hu : Unwinds V Rep) (hv : al.Valid) {vals : Bytes} (hn : vals.length < usizeSize)
    (ho : Owned Rep h0 b h) : Tri (V.write m al vals) b h (fun _ b h => Owned Rep h0 b h) (Owned Rep h0) := by
  obtain ⟨s, l, fp, hr, fr⟩ := ho
  unfold UImpl.write
  refine (tri_reserve hc hi hu hv hr fr hn).bind ?_
  rintro _ b h ⟨s, fp, hr, fr, _⟩
  exact tri_extend hc hu vals ⟨s, l, fp, hr, fr⟩

theorem tri_writeAll (hc : Correct I Rep) (hi : Inline I Rep init) (hu : Unwinds V Rep) (hv : al.Valid) :
    ∀ (w : Bytes) (b : I.B) (h : Heap), Owned Rep h0 b h → Tri (writeAllU V m al w) b h (fun _ b h => Owned Rep h0 b h) (Owned Rep h0)
  | [], b, h, ho => ho
  | o :: r, b, h, ho => by
    unfold writeAllU
    refine (tri_write hc hi hu hv (by rw [usizeSize_eq]; simp) ho).bind ?_
    intro _ b h ho
    exact tri_writeAll hc hi hu hv r b h ho

theorem tri_extendAll (hc : Correct I Rep) (hu : Unwinds V Rep) (panics : Bool) :
    ∀ (parts : List Bytes) (b : I.B) (h : Heap), Owned Rep h0 b h →
      Tri (extendAllU V m panics parts) b h (fun _ b h => Owned Rep h0 b h) (Owned Rep h0)
  | [], b, h, ho => by
    unfold extendAllU
    cases panics <;> exact ho
  | p :: r, b, h, ho => by
    unfold extendAllU
    refine (tri_extend hc hu p ho).bind ?_
    intro _ b h ho
    exact tri_extendAll hc hu panics r b h ho

theorem tri_writeChunks (hc : Correct I Rep) (hi : Inline I Rep init) (hu : Unwinds V Rep) (hv : al.Valid) :
    ∀ (cs : List Bytes) (b : I.B) (h : Heap), (∀ c ∈ cs, c.length ≤ isizeMax) → Owned Rep h0 b h →
      Tri (writeChunksU V m al cs) b h (fun _ b h => Owned Rep h0 b h) (Owned Rep h0)
  | [], b, h, _, ho => ho
  | c :: r, b, h, hl, ho => by
    have hm := isizeMax_lt
    unfold writeChunksU
    have hcl := hl c (by simp)
    have hr := fun b h => tri_writeChunks hc hi hu hv r b h (fun c hm => hl c (by simp [hm]))
    by_cases hce : c.isEmpty
    · rw [if_pos hce]; exact hr b h ho
    · rw [if_neg hce]
      refine (tri_write hc hi hu hv (by omega) ho).bind ?_
      intro _ b h ho
      exact hr b h ho

theorem triU_withCapacity (hc : Correct I Rep) (hu : Unwinds V Rep) (hv : al.Valid) {n : Nat} (hn : n < usizeSize) (h : Heap) :
    TriU (V.withCapacity m al n) h (fun b h' => ∃ s fp, Rep b h' s 0 fp ∧ n ≤ s.length ∧ Frame h h' none fp) (fun h' => h'.blocks = h.blocks) := by
  have hlike := hu.withCapacity m al n h
  unfold TriU
  by_cases hle : n ≤ isizeMax
  · rcases hc.withCapacity m n h hv hle with e | ⟨b, h', fp, s, e, h1, h2, h3⟩
    · rw [e] at hlike
      rw [show V.withCapacity m al n h = .abort from hlike]; trivial
    · rw [e] at hlike
      rw [show V.withCapacity m al n h = .ok b h' from hlike]
      exact ⟨s, fp, h1, h2, h3⟩
  · rw [hu.beyond m al n h (by omega) hn] at hlike
    obtain ⟨h', e1, e2⟩ := hlike
    rw [e1]; exact e2

end methods

theorem still_liftRes {α : Type} (r : Res α) (h : Heap) : Still (liftRes r) h := by
  intro a h' e
  cases r <;> cases e; rfl

theorem usizeAdd_lt {a n t : Nat} {h h' : Heap} (e : usizeAdd m a n h = .ok t h') : t < usizeSize := by
  unfold usizeAdd at e
  split at e
  · cases e; assumption
  · cases m <;> cases e
    exact Nat.mod_lt _ (by rw [usizeSize_eq]; norm_num)

theorem usizeAdd_any {a n t : Nat} {h h' : Heap} (e : usizeAdd m a n h = .ok t h') (h1 : Heap) : usizeAdd m a n h1 = .ok t h1 := by
  unfold usizeAdd at e ⊢
  by_cases hc : a + n < usizeSize
  · rw [if_pos hc] at e ⊢
    cases e; rfl
  · rw [if_neg hc] at e ⊢
    cases m <;> cases e
    rfl

theorem still_cells (hc : Correct I Rep) {b : I.B} {h h0 : Heap} (ho : Owned Rep h0 b h) : Still (I.cells b) h := by
  obtain ⟨s, l, fp, hr, _⟩ := ho
  intro a h' e
  rw [hc.cells hr] at e
  cases e; rfl

theorem Still.bind {α β : Type} {x : M α} {f : α → M β} {h : Heap} (hx : Still x h) (hf : ∀ a, Still (f a) h) : Still (x >>= f) h := by
  intro a h' e
  rw [m_bind] at e
  cases e1 : x h with
  | ok c h2 => obtain rfl := hx _ _ e1; rw [e1] at e; exact hf c _ _ e
  | _ => rw [e1] at e; cases e

theorem still_pure {α : Type} (a : α) (h : Heap) : Still (pure a) h := by
  intro x h' e; cases e; rfl
theorem still_panic {α : Type} (h : Heap) : Still (M.panic : M α) h := by
  intro x h' e; cases e
theorem still_ub {α : Type} (h : Heap) : Still (M.ub : M α) h := by
  intro x h' e; cases e

theorem still_header (hc : Correct I Rep) {b : I.B} {h h0 : Heap} (ho : Owned Rep h0 b h) : Still (header I b) h := by
  unfold header
  refine Still.bind (still_cells hc ho) fun cells => ?_
  split
  · exact still_pure _ _
  · exact still_ub _
  · split
    · exact still_panic _
    · exact still_ub _

/-! ### The functions that make values -/

section functions
variable {h h0 : Heap}

theorem triU_withHeader (hc : Correct I Rep) (hu : Unwinds V Rep) (hv : al.Valid) (id len : Bytes) (n : Nat) (h : Heap) :
    TriU (Der.withHeaderU V m al id len n) h (fun b h' => Owned Rep h b h') (fun h' => h'.blocks = h.blocks) := by
  unfold Der.withHeaderU
  refine .step (still_usizeAdd _ _ _ _) rfl fun t _ => ?_
  refine .step (still_usizeAdd _ _ _ _) rfl fun total e => ?_
  refine (triU_withCapacity hc hu hv (usizeAdd_lt e) h).bind ?_
  rintro b h1 ⟨s, fp, hr, hs, fr⟩
  refine TriU.bind (build_tri hc (h0 := h) (Q := fun _ b h' => Owned Rep h b h') ?_) fun r h' ho => ho
  refine (tri_poke hc hu 0 id hr fr).bind ?_
  rintro _ b h2 ⟨s2, hr2, hl2, fr2⟩
  refine (tri_poke hc hu id.length len hr2 fr2).bind ?_
  rintro _ b h3 ⟨s3, hr3, hl3, fr3⟩
  refine (tri_setLen hc hu hr3 fr3 (by omega)).mono ?_ (fun _ _ h => h)
  rintro _ b h4 ⟨hr4, fr4⟩
  exact ⟨_, _, _, hr4, fr4⟩

theorem triU_withIdLength (hc : Correct I Rep) (hu : Unwinds V Rep) (hv : al.Valid) (id : Bytes) (n : Nat) (h : Heap) :
    TriU (Der.withIdLengthU V m al id n) h (fun b h' => Owned Rep h b h') (fun h' => h'.blocks = h.blocks) := by
  unfold Der.withIdLengthU
  exact .step (still_liftRes _ _) rfl fun t _ => triU_withHeader hc hu hv _ _ _ h

theorem triU_withIdLengthIndefinite (hc : Correct I Rep) (hu : Unwinds V Rep) (hv : al.Valid) (id : Bytes) (n : Nat) (h : Heap) :
    TriU (Ber.withIdLengthIndefiniteU V m al id n) h (fun b h' => Owned Rep h b h') (fun h' => h'.blocks = h.blocks) := by
  unfold Ber.withIdLengthIndefiniteU
  exact .step (still_liftRes _ _) rfl fun t _ => triU_withHeader hc hu hv _ _ _ h

theorem tri_copyContents (hc : Correct I Rep) (hu : Unwinds V Rep) (src : Bytes) {b : I.B} (ho : Owned Rep h0 b h) :
    Tri (copyContentsU V src) b h (fun _ b h => Owned Rep h0 b h) (Owned Rep h0) := by
  unfold copyContentsU
  refine .self (.step (still_header hc ho) ho ?_)
  rintro ⟨_, _, off⟩ _
  refine .ite (fun _ => ?_) (fun _ => .unwind ho)
  obtain ⟨s, l, fp, hr, fr⟩ := ho
  refine (tri_poke hc hu off src hr fr).mono ?_ (fun _ _ h => h)
  rintro _ b h ⟨s, hr, _, fr⟩
  exact ⟨_, _, _, hr, fr⟩

theorem triU_Der_new (hc : Correct I Rep) (hu : Unwinds V Rep) (hv : al.Valid) (id contents : Bytes) (h : Heap) :
    TriU (Der.newU V m al id contents) h (fun b h' => Owned Rep h b h') (fun h' => h'.blocks = h.blocks) := by
  unfold Der.newU
  refine (triU_withIdLength hc hu hv id _ h).bind fun b h1 ho => ?_
  exact TriU.bind (build_tri hc (Q := fun _ b h' => Owned Rep h b h') (tri_copyContents hc hu contents ho)) fun r h' ho => ho

theorem triU_Ber_newIndefinite (hc : Correct I Rep) (hu : Unwinds V Rep) (hv : al.Valid) (id contents : Bytes) (h : Heap) :
    TriU (Ber.newIndefiniteU V m al id contents) h (fun b h' => Owned Rep h b h') (fun h' => h'.blocks = h.blocks) := by
  unfold Ber.newIndefiniteU
  refine (triU_withIdLengthIndefinite hc hu hv id _ h).bind fun b h1 ho => ?_
  exact TriU.bind (build_tri hc (Q := fun _ b h' => Owned Rep h b h') (tri_copyContents hc hu contents ho)) fun r h' ho => ho

theorem triU_fromParts (hc : Correct I Rep) (hu : Unwinds V Rep) (hv : al.Valid) (id len : Bytes) (parts : List Bytes) (panics : Bool) (n : Nat) (h : Heap) :
    TriU (Der.fromPartsU V m al id len parts panics n) h (fun b h' => Owned Rep h b h') (fun h' => h'.blocks = h.blocks) := by
  unfold Der.fromPartsU
  refine .step (still_usizeAdd _ _ _ _) rfl fun t _ => ?_
  refine .step (still_usizeAdd _ _ _ _) rfl fun total e => ?_
  refine (triU_withCapacity hc hu hv (usizeAdd_lt e) h).bind ?_
  rintro b h1 ⟨s, fp, hr, hs, fr⟩
  exact TriU.bind (build_tri hc (h0 := h) (Q := fun _ b h' => Owned Rep h b h') (tri_extendAll hc hu panics _ b h1 ⟨s, 0, fp, hr, fr⟩)) fun r h' ho => ho

theorem triU_count (counted : List Bytes) (panics : Bool) (h : Heap) :
    TriU (Der.countU m counted panics) h (fun _ h' => h' = h) (fun h' => h'.blocks = h.blocks) := by
  unfold Der.countU
  refine .step (still_liftRes _ _) rfl fun t _ => ?_
  cases panics <;> rfl

theorem triU_fromPasses (hc : Correct I Rep) (hu : Unwinds V Rep) (hv : al.Valid) (id : Bytes) (counted parts : List Bytes × Bool) (h : Heap) :
    TriU (Der.fromPassesU V m al id counted parts) h (fun b h' => Owned Rep h b h') (fun h' => h'.blocks = h.blocks) := by
  unfold Der.fromPassesU
  refine (triU_count _ _ h).bind ?_
  rintro n h1 rfl
  exact .step (still_liftRes _ _) rfl fun t _ => triU_fromParts hc hu hv _ _ _ _ _ _

theorem triU_fromPassesIndefinite (hc : Correct I Rep) (hu : Unwinds V Rep) (hv : al.Valid) (id : Bytes) (counted parts : List Bytes × Bool) (h : Heap) :
    TriU (Ber.fromPassesIndefiniteU V m al id counted parts) h (fun b h' => Owned Rep h b h') (fun h' => h'.blocks = h.blocks) := by
  unfold Ber.fromPassesIndefiniteU
  refine (triU_count _ _ h).bind ?_
  rintro n h1 rfl
  exact .step (still_liftRes _ _) rfl fun t _ => triU_fromParts hc hu hv _ _ _ _ _ _

/-! ### The parsers -/

variable {σ : Type} [Reader σ]

theorem orPanic_small {p : IoKind → Bool} {s s' : σ} {w : Bytes} {n : Nat}
    (e : orPanic p ((parseIdLength (σ := σ)).run s []) = (.ok (.definite n), s', w)) : n < usizeSize := by
  rcases e1 : (parseIdLength (σ := σ)).run s [] with ⟨r, s1, w1⟩
  rw [e1] at e
  have key : r = .ok (.definite n) := by
    unfold orPanic at e
    split at e
    · split at e <;> simp at e
    · exact congrArg Prod.fst e
  exact yields_parseIdLength s [] (.definite n) s1 w1 (by rw [e1, key])

/-- The room for the contents, and reading them. -/
theorem tri_room (hc : Correct I Rep) (hu : Unwinds V Rep) {b : I.B} {s : List Cell} {l n t : Nat} {fp : Option Nat} (hr : Rep b h s l fp) (fr : Frame h0 h none fp)
    (hn : n < usizeSize) (hs : l + n ≤ s.length ∨ m = .release ∧ usizeSize ≤ l + n) (ht : usizeAdd m l n h = .ok t h) {α : Type}
    {f : Nat → Meth I.B α} {Q : α → I.B → Heap → Prop} {g : Nat → Bytes}
    (hf : ∀ k b h, Owned Rep h0 b h → Tri (f k) b h Q (Owned Rep h0)) :
    Tri (do
      V.setLenChecked m t
      let b ← Meth.self
      if I.len b < l then Meth.unwind
      else do
        V.poke l (g (I.len b - l))
        f (I.len b - l)) b h Q (Owned Rep h0) := by
  have hb := hc.bound hr
  have hm := isizeMax_lt
  have htl : t ≤ s.length := by
    rcases hs with h1 | ⟨rfl, h1⟩
    · rw [usizeAdd_ok m (by omega)] at ht
      cases ht; exact h1
    · obtain ⟨_, t', e, hlt⟩ := usizeAdd_over h1 hn h
      rw [e] at ht
      cases ht
      omega
  refine (tri_setLen hc hu hr fr htl).bind ?_
  rintro _ b h ⟨hr, fr⟩
  refine .self (.ite (fun _ => .unwind ⟨_, _, _, hr, fr⟩) (fun _ => ?_))
  refine (tri_poke hc hu l _ hr fr).bind ?_
  rintro _ b h ⟨s', hr', _, fr'⟩
  exact hf _ b h ⟨_, _, _, hr', fr'⟩

theorem tri_parseBody (hc : Correct I Rep) (hi : Inline I Rep init) (hu : Unwinds V Rep) (hv : al.Valid) (p : IoKind → Bool)
    (rd : Nat → σ → ReadEffect σ) (s : σ) {b : I.B} (ho : Owned Rep h0 b h) :
    Tri (Der.parseBodyU V m al p rd s) b h (fun _ b h => Owned Rep h0 b h) (Owned Rep h0) := by
  unfold Der.parseBodyU
  rcases e : orPanic p ((parseIdLength (σ := σ)).run s []) with ⟨r, s1, w⟩
  simp only
  refine (tri_writeAll hc hi hu hv w b h ho).bind ?_
  intro _ b h ho
  rcases r with (_ | n) | er | _ | _
  · exact ho
  · have hn := orPanic_small e
    obtain ⟨s, l, fp, hr, fr⟩ := ho
    refine .self ?_
    rw [hc.len hr]
    refine .step (still_usizeAdd _ _ _ _) ⟨_, _, _, hr, fr⟩ fun t et => ?_
    refine (tri_reserve hc hi hu hv hr fr hn).bind ?_
    rintro _ b h1 ⟨s', fp', hr', fr', hs'⟩
    have et' := usizeAdd_any et h1
    refine tri_room hc hu hr' fr' hn hs' et' (g := fun k => (rd k s1).written.take k) (f := fun k => show Meth I.B (Except (Error × σ) σ) from match (rd k s1).result with
        | .ok read => return if read < n then .error (.unterminatedBytes, (rd k s1).next) else .ok (rd k s1).next
        | .err er => return .error (er, (rd k s1).next)
        | .panic => Meth.unwind
        | .ub => Meth.ub) ?_
    intro k b h ho
    rcases (rd k s1).result with a | er | _ | _
    · exact ho
    · exact ho
    · exact ho
    · trivial
  · exact ho
  · exact ho
  · trivial

theorem triU_Der_parse (hc : Correct I Rep) (hi : Inline I Rep init) (hu : Unwinds V Rep) (hv : al.Valid) (p : IoKind → Bool)
    (rd : Nat → σ → ReadEffect σ) (s : σ) (h : Heap) :
    TriU (Der.parseU V m al p rd s) h (fun r h' => match r.1 with
      | .ok b => Owned Rep h b h'
      | .error _ => h'.blocks = h.blocks) (fun h' => h'.blocks = h.blocks) := by
  unfold Der.parseU
  refine (own_tri hc (tri_parseBody hc hi hu hv p rd s (owned_new hc rfl))).bind ?_
  rintro r h' ho
  refine .pure ?_
  rcases r with e | ⟨a, b⟩ <;> exact ho

theorem still_isEoc (hc : Correct I Rep) {b : I.B} {h h0 : Heap} (ho : Owned Rep h0 b h) (n : Nat) : Still (Ber.isEoc I b n) h := by
  unfold Ber.isEoc
  refine Still.bind (still_cells hc ho) fun cells => ?_
  split
  · exact still_panic _
  · dsimp only
    split
    · refine Still.bind ?_ fun _ => still_pure _ _
      unfold assumeInit
      split
      · exact still_pure _ _
      · exact still_ub _
    · exact still_pure _ _

theorem tri_doParse (hc : Correct I Rep) (hi : Inline I Rep init) (hu : Unwinds V Rep) (hv : al.Valid) (p : IoKind → Bool)
    (rd : Nat → σ → ReadEffect σ) (s : σ) {b : I.B} (ho : Owned Rep h0 b h) :
    Tri (Ber.doParseU V m al p rd s) b h (fun _ b h => Owned Rep h0 b h) (Owned Rep h0) := by
  unfold Ber.doParseU
  rcases e : orPanic p ((parseIdLength (σ := σ)).run s []) with ⟨r, s1, w⟩
  simp only
  refine .self ((tri_writeAll hc hi hu hv w b h ho).bind ?_)
  intro _ b' h ho
  rcases r with (_ | n) | er | _ | _
  · exact ho
  · have hn := orPanic_small e
    obtain ⟨s, l, fp, hr, fr⟩ := ho
    refine (tri_reserve hc hi hu hv hr fr hn).bind ?_
    rintro _ b2 h1 ⟨s', fp', hr', fr', hs'⟩
    refine .self ?_
    rw [hc.len hr']
    refine .step (still_usizeAdd _ _ _ _) ⟨_, _, _, hr', fr'⟩ fun t et => ?_
    refine tri_room hc hu hr' fr' hn hs' et (g := fun k => (rd k s1).written.take k) (f := fun k => show Meth I.B (Except (Error × σ) (Int × σ)) from match (rd k s1).result with
        | .ok _ => do
          let b3 ← Meth.self
          let eoc ← Meth.step (Ber.isEoc I b3 (I.len b))
          return .ok (if eoc then -1 else 0, (rd k s1).next)
        | .err er => return .error (er, (rd k s1).next)
        | .panic => Meth.unwind
        | .ub => Meth.ub) ?_
    intro k b h ho
    rcases (rd k s1).result with a | er | _ | _
    · exact .self (.step (still_isEoc hc ho _) ho fun _ _ => ho)
    · exact ho
    · exact ho
    · trivial
  · exact ho
  · exact ho
  · trivial

theorem tri_parseLoop (hc : Correct I Rep) (hi : Inline I Rep init) (hu : Unwinds V Rep) (hv : al.Valid) (p : IoKind → Bool)
    (rd : Nat → σ → ReadEffect σ) : ∀ (fuel : Nat) (d : Int) (s : σ) (b : I.B) (h : Heap), Owned Rep h0 b h →
    Tri (Ber.parseLoopU V m al p rd fuel d s) b h (fun _ b h => Owned Rep h0 b h) (Owned Rep h0)
  | 0, d, s, b, h, ho => ho
  | fuel + 1, d, s, b, h, ho => by
    unfold Ber.parseLoopU
    refine (tri_doParse hc hi hu hv p rd s ho).bind ?_
    rintro (e | ⟨k, s⟩) b h ho
    · exact ho
    · simp only
      exact .ite (fun _ => .unwind ho) fun _ => .ite (fun _ => tri_parseLoop hc hi hu hv p rd fuel _ s b h ho) fun _ => .pure ho

theorem triU_Ber_parse (hc : Correct I Rep) (hi : Inline I Rep init) (hu : Unwinds V Rep) (hv : al.Valid) (p : IoKind → Bool)
    (rd : Nat → σ → ReadEffect σ) (s : σ) (h : Heap) :
    TriU (Ber.parseU V m al p rd s) h (fun r h' => match r.1 with
      | .ok b => Owned Rep h b h'
      | .error _ => h'.blocks = h.blocks) (fun h' => h'.blocks = h.blocks) := by
  unfold Ber.parseU
  refine (own_tri hc (tri_parseLoop hc hi hu hv p rd _ 0 s _ h (owned_new hc rfl))).bind ?_
  rintro r h' ho
  refine .pure ?_
  rcases r with e | ⟨a, b⟩ <;> exact ho

theorem triU_Id_parse (hc : Correct I Rep) (hi : Inline I Rep init) (hu : Unwinds V Rep) (hv : al.Valid) (p : IoKind → Bool) (s : σ) (h : Heap) :
    TriU (Id.parseU V m al p s) h (fun r h' => match r.1 with
      | .ok b => Owned Rep h b h'
      | .error _ => h'.blocks = h.blocks) (fun h' => h'.blocks = h.blocks) := by
  unfold Id.parseU
  refine (own_tri hc (h0 := h) ?_).bind ?_
  · rcases orPanic p ((parseId (σ := σ)).run s []) with ⟨r, s1, w⟩
    simp only
    refine (tri_writeAll hc hi hu hv w _ h (owned_new hc rfl)).bind ?_
    intro _ b h ho
    rcases r with _ | er | _ | _
    · exact ho
    · exact ho
    · exact ho
    · trivial
  · rintro r h' ho
    refine .pure ?_
    rcases r with e | ⟨a, b⟩ <;> exact ho

/-! ### `to_der` -/

/-- A buffer beside which another one was made is as before. -/
theorem Owned.beside (hc : Correct I Rep) {b c : I.B} {h1 h2 : Heap} {sc : List Cell} {lc : Nat} {fpc : Option Nat} (ho : Owned Rep h1 b h2)
    (hr : Rep c h1 sc lc fpc) : Rep c h2 sc lc fpc := by
  obtain ⟨s, l, fp, _, fr⟩ := ho
  refine hc.near hr ?_
  rintro p rfl
  have hl := hc.live hr
  rw [hl, (Frame.keep fr hl (by simp)).2]

theorem tri_runW (hc : Correct I Rep) (hi : Inline I Rep init) (hu : Unwinds V Rep) (hv : al.Valid) {w : W Unit}
    (hw : ∀ c ∈ w.chunks, c.length ≤ isizeMax) {b : I.B} (ho : Owned Rep h0 b h) :
    Tri (runWU V m al w) b h (fun _ b h => Owned Rep h0 b h) (Owned Rep h0) := by
  unfold runWU
  refine (tri_writeChunks hc hi hu hv w.chunks b h hw ho).bind ?_
  intro _ b h ho
  rcases w.res with _ | _ | _ | _
  · exact ho
  · exact ho
  · exact ho
  · trivial

theorem tri_reserveHint (hc : Correct I Rep) (hi : Inline I Rep init) (hu : Unwinds V Rep) (hv : al.Valid) (idLen : Option Nat) (n k : Nat)
    {b : I.B} (ho : Owned Rep h0 b h) : Tri (reserveHintU V m al idLen n k) b h (fun _ b h => Owned Rep h0 b h) (Owned Rep h0) := by
  unfold reserveHintU
  cases idLen with
  | none => exact ho
  | some i =>
    refine .step (still_usizeAdd _ _ _ _) ho fun t _ => .step (still_usizeAdd _ _ _ _) ho fun d e => ?_
    obtain ⟨s, l, fp, hr, fr⟩ := ho
    refine (tri_reserve hc hi hu hv hr fr (usizeAdd_lt e)).mono ?_ fun _ _ h => h
    rintro _ b h ⟨s, fp, hr, fr, _⟩
    exact ⟨_, _, _, hr, fr⟩

theorem still_assumeInit (cells : List Cell) (h : Heap) : Still (assumeInit cells) h := by
  unfold assumeInit
  split
  · exact still_pure _ _
  · exact still_ub _

theorem tri_derBuffer (hc : Correct I Rep) (hi : Inline I Rep init) (hu : Unwinds V Rep) (hv : al.Valid) {α : Type} {s : Ser α} {value : α}
    (hid : ∀ c ∈ (s.writeId value).chunks, c.length ≤ isizeMax) (hct : ∀ c ∈ (s.writeDerContents value).chunks, c.length ≤ isizeMax)
    (idLen : Option Nat) {length : Bytes} (hlen : length.length ≤ isizeMax) (n : Nat) {cont : Option I.B}
    (hcont : ∀ c, cont = some c → ∃ sc lc fpc, Rep c h0 sc lc fpc) {b : I.B} (ho : Owned Rep h0 b h) :
    Tri (derBufferU V m al s value idLen length n cont) b h (fun _ b h => Owned Rep h0 b h) (Owned Rep h0) := by
  unfold derBufferU
  refine (tri_reserveHint hc hi hu hv idLen _ _ ho).bind ?_
  intro _ b h ho
  refine (tri_runW hc hi hu hv hid ho).bind ?_
  rintro (_ | _) b h ho
  · exact ho
  · refine (tri_writeChunks hc hi hu hv [length] b h (by simpa using hlen) ho).bind ?_
    intro _ b h ho
    cases cont with
    | none => exact tri_runW hc hi hu hv hct ho
    | some c =>
      obtain ⟨sc, lc, fpc, hr⟩ := hcont c rfl
      have hr' := Owned.beside hc ho hr
      refine .step (fun a h' e => by rw [hc.cells hr'] at e; cases e; rfl) ho fun cells e1 => .step (still_assumeInit _ _) ho fun bytes e2 => ?_
      rw [hc.cells hr'] at e1
      cases e1
      have hb := hc.bound hr'
      have hbl : bytes.length ≤ isizeMax := by
        unfold assumeInit at e2
        split at e2
        · cases e2
          refine (List.length_filterMap_le _ _).trans ?_
          simp; omega
        · cases e2
      refine (tri_writeChunks hc hi hu hv [bytes] b h (by simpa using hbl) ho).bind ?_
      intro _ b h ho
      exact ho

theorem triU_derFrom (hc : Correct I Rep) (hi : Inline I Rep init) (hu : Unwinds V Rep) (hv : al.Valid) {α : Type} {s : Ser α} {value : α}
    (hid : ∀ c ∈ (s.writeId value).chunks, c.length ≤ isizeMax) (hct : ∀ c ∈ (s.writeDerContents value).chunks, c.length ≤ isizeMax)
    {n : Nat} (hn : n < 2 ^ 64) {cont : Option I.B} (hcont : ∀ c, cont = some c → ∃ sc lc fpc, Rep c h sc lc fpc) :
    TriU (derFromU V m al s value n cont) h (fun r h' => match r with
      | .ok b => Owned Rep h b h'
      | .error _ => h'.blocks = h.blocks) (fun h' => h'.blocks = h.blocks) := by
  unfold derFromU
  have h9 := lenOctets_length_le hn
  rw [toBytes_definite hn]
  refine .step (still_liftRes _ _) rfl fun length e => ?_
  cases e
  rcases s.idLen value with idLen | e | _ | _
  · refine (own_tri hc (tri_derBuffer hc hi hu hv hid hct idLen (by rw [isizeMax]; omega) n hcont (owned_new hc rfl))).bind ?_
    rintro (_ | ⟨_, b⟩) h' ho
    · exact ho
    · exact ho
  · exact rfl
  · exact rfl
  · trivial

theorem triU_toDer (hc : Correct I Rep) (hi : Inline I Rep init) (hu : Unwinds V Rep) (hv : al.Valid) {α : Type} {s : Ser α} {value : α}
    (hid : ∀ c ∈ (s.writeId value).chunks, c.length ≤ isizeMax) (hct : ∀ c ∈ (s.writeDerContents value).chunks, c.length ≤ isizeMax)
    (hn : ∀ n, s.derContentsLen value = .ok (some n) → n < 2 ^ 64) (h : Heap) :
    TriU (toDerU V m al s value) h (fun r h' => match r with
      | .ok b => Owned Rep h b h'
      | .error _ => h'.blocks = h.blocks) (fun h' => h'.blocks = h.blocks) := by
  have hm := isizeMax_lt
  have hu64 := usizeSize_eq
  unfold toDerU
  rcases hd : s.derContentsLen value with (_ | n) | e | _ | _
  · simp only
    have key : Tri (do
        match ← runWU V m al (s.writeDerContents value) with
        | .error e => return .error e
        | .ok () => do
          let c ← Meth.self
          Meth.call (derFromU V m al s value (I.len c) (some c))) I.new h
        (fun r c h2 => match (r : Except Error I.B) with
          | .ok b => ∃ h1, Owned Rep h1 b h2 ∧ Owned Rep h c h1
          | .error _ => Owned Rep h c h2) (Owned Rep h) := by
      refine (tri_runW hc hi hu hv hct (owned_new hc rfl)).bind ?_
      rintro (_ | _) c h1 ho
      · exact ho
      · refine .self ?_
        have ho' := ho
        obtain ⟨sc, lc, fpc, hr, fr⟩ := ho
        have hb := hc.bound hr
        have hl : I.len c < 2 ^ 64 := by rw [hc.len hr]; omega
        have := triU_derFrom (m := m) (n := I.len c) hc hi hu hv hid hct hl (cont := some c) (h := h1) (by
          rintro _ ⟨⟩
          exact ⟨_, _, _, hr⟩)
        unfold TriU at this
        unfold Tri Meth.call
        cases e : derFromU V m al s value (I.len c) (some c) h1 with
        | ok r h2 =>
          rw [e] at this
          cases r with
          | ok b => exact ⟨h1, this, ho'⟩
          | error er => exact Owned.blocks hc ho' this
        | unwind h2 => rw [e] at this; exact Owned.blocks hc ho' this
        | abort => trivial
        | ub => trivial
    unfold Tri at key
    unfold TriU using_
    revert key
    rcases ((do
        match ← runWU V m al (s.writeDerContents value) with
        | .error e => return .error e
        | .ok () => do
          let c ← Meth.self
          Meth.call (derFromU V m al s value (I.len c) (some c))) : Meth I.B (Except Error I.B)) I.new h with ⟨r, c, h2⟩ | ⟨c, h2⟩ | _ | _
    · cases r with
      | error er =>
        intro key
        obtain ⟨h3, e3, e4⟩ := Owned.drop hc key
        simp only [e3]
        exact e4
      | ok b =>
        rintro ⟨h1, hob, hoc⟩
        have hob' := hob
        obtain ⟨sc, lc, fpc, hrc, frc⟩ := hoc
        have hrc2 := Owned.beside hc hob hrc
        obtain ⟨h3, e3, fr3⟩ := hc.drop hrc2
        simp only [e3]
        obtain ⟨s, l, fp, hr, fr⟩ := hob
        refine ⟨s, l, fp, hc.near hr ?_, ?_⟩
        · rintro p rfl
          have hlive := hc.live hr
          refine (Frame.keep fr3 hlive ?_).2.trans hlive.symm
          rintro rfl
          have := Frame.keep fr (hc.live hrc) (by simp)
          exact this.1 rfl
        · have e1 : h3.blocks = erase h2.blocks fpc := by rw [show erase h2.blocks fpc = erase h3.blocks none from fr3, erase_none]
          have e2 : h1.blocks = erase h2.blocks fp := by rw [show erase h2.blocks fp = erase h1.blocks none from fr.symm, erase_none]
          rw [Frame, e1, erase_comm, ← e2]
          exact frc
    · intro key
      obtain ⟨h3, e3, e4⟩ := Owned.drop hc key
      simp only [e3]
      exact e4
    · intro; trivial
    · intro; trivial
  · exact triU_derFrom hc hi hu hv hid hct (hn n hd) (by simp)
  · exact rfl
  · exact rfl
  · trivial

end functions
end Bsn1.Raw
