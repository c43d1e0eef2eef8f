import Verif.Lemmas.UnwindRaw
/-!
# Panics: apart from what is left after one, the functions of `Model/Unwind` are those of `Model/Raw`
-/

set_option linter.unusedVariables false

namespace Bsn1.Raw
open Bsn1.Buf Bsn1.Spec

/-- `u`, and then `k`. -/
def fin {B α β : Type} (u : Meth B α) (k : α → B → M β) (b : B) : M β := fun h => match u b h with
  | .ok a b h => k a b h
  | .unwind _ _ => .panic
  | .abort => .abort
  | .ub => .ub

/-- How it ends, without what is left after a panic. -/
def out {α : Type} : UOut α → Out α
  | .ok a h => .ok a h
  | .unwind _ => .panic
  | .abort => .abort
  | .ub => .ub

/-- The function with that. -/
def outM {α : Type} (u : U α) : M α := fun h => out (u h)

section laws
variable {B α β γ : Type}

theorem m_assoc (x : M α) (f : α → M β) (g : β → M γ) : (x >>= f) >>= g = x >>= fun a => f a >>= g := by
  funext h
  simp only [m_bind]
  cases x h <;> rfl

theorem m_pure_bind (a : α) (f : α → M β) : (pure a >>= f) = f a := rfl
theorem m_panic_bind (f : α → M β) : (M.panic >>= f) = M.panic := rfl
theorem m_ub_bind (f : α → M β) : (M.ub >>= f) = M.ub := rfl

theorem m_bind_pure (x : M α) : (x >>= fun a => pure a) = x := by
  funext h
  simp only [m_bind]
  cases x h <;> rfl

theorem fin_bind (u : Meth B α) (f : α → Meth B β) (k : β → B → M γ) (b : B) : fin (u >>= f) k b = fin u (fun a b => fin (f a) k b) b := by
  funext h
  unfold fin
  rw [meth_bind]
  cases u b h <;> rfl

theorem fin_pure (a : α) (k : α → B → M β) (b : B) : fin (pure a) k b = k a b := rfl
theorem fin_self (k : B → B → M β) (b : B) : fin Meth.self k b = k b b := rfl
theorem fin_put (b' : B) (k : Unit → B → M β) (b : B) : fin (Meth.put b') k b = k () b' := rfl
theorem fin_unwind (k : α → B → M β) (b : B) : fin Meth.unwind k b = M.panic := rfl
theorem fin_ub (k : α → B → M β) (b : B) : fin Meth.ub k b = M.ub := rfl

theorem fin_step (x : M α) (k : α → B → M β) (b : B) : fin (Meth.step x) k b = x >>= fun a => k a b := by
  funext h
  unfold fin Meth.step
  rw [m_bind]
  cases x h <;> rfl

theorem fin_ite (c : Prop) [Decidable c] (u v : Meth B α) (k : α → B → M β) (b : B) :
    fin (if c then u else v) k b = if c then fin u k b else fin v k b := by
  by_cases h : c
  · simp only [if_pos h]
  · simp only [if_neg h]

theorem fin_like {b : B} {x : M B} {u : Meth B Unit} (hl : ∀ h, Like b h (x h) (u b h)) (k : Unit → B → M β) : fin u k b = x >>= k () := by
  funext h
  have := hl h
  unfold fin
  rw [m_bind]
  cases e : x h with
  | ok b' h' => rw [e] at this; rw [show u b h = _ from this]
  | panic => rw [e] at this; obtain ⟨h', e1, _⟩ := this; rw [e1]
  | abort => rw [e] at this; rw [show u b h = _ from this]
  | ub => rw [e] at this; rw [show u b h = _ from this]

theorem out_like {x : M α} {u : U α} {h : Heap} (hl : LikeU h (x h) (u h)) : out (u h) = x h := by
  cases e : x h with
  | ok b' h' => rw [e] at hl; rw [show u h = _ from hl]; rfl
  | panic => rw [e] at hl; obtain ⟨h', e1, _⟩ := hl; rw [e1]; rfl
  | abort => rw [e] at hl; rw [show u h = _ from hl]; rfl
  | ub => rw [e] at hl; rw [show u h = _ from hl]; rfl

/-- In sequence. -/
theorem out_bind {x : M α} {u : U α} {f : α → U β} {g : α → M β} {h : Heap} (h1 : out (u h) = x h)
    (h2 : ∀ a h', u h = .ok a h' → out (f a h') = g a h') : out ((u >>= f) h) = (x >>= g) h := by
  rw [u_bind, m_bind, ← h1]
  cases e : u h with
  | ok a h' => exact h2 a h' e
  | _ => rfl

theorem out_step (x : M α) (h : Heap) : out (U.step x h) = x h := by
  unfold U.step
  cases x h <;> rfl

end laws

variable {I : Impl} {Rep : I.B → Heap → List Cell → Nat → Option Nat → Prop} {m : Build} {al : Allocator} {init : Nat} {V : UImpl I}

/-- The methods do what those of `Model/Buffer` do. -/
structure Agrees {I : Impl} (V : UImpl I) : Prop where
  extend : ∀ {β : Type} m vals (k : Unit → I.B → M β) b, fin (V.extend m vals) k b = I.extend m b vals >>= k ()
  push : ∀ {β : Type} m v (k : Unit → I.B → M β) b, fin (V.push m v) k b = I.push m b v >>= k ()
  reserve : ∀ {β : Type} m al n (k : Unit → I.B → M β) b, fin (V.reserve m al n) k b = I.reserve m al b n >>= k ()
  setLen : ∀ {β : Type} m n (k : Unit → I.B → M β) b, fin (V.setLen m n) k b = I.setLen m b n >>= k ()
  poke : ∀ {β : Type} off vals (k : Unit → I.B → M β) b, fin (V.poke off vals) k b = I.poke b off vals >>= k ()
  copyWithin : ∀ {β : Type} src dst n (k : Unit → I.B → M β) b, fin (V.copyWithin src dst n) k b = I.copyWithin b src dst n >>= k ()
  setAt : ∀ {β : Type} i v (k : Unit → I.B → M β) b, fin (V.setAt i v) k b = I.setAt b i v >>= k ()

theorem fin_LE_poke {β : Type} (off : Nat) (vals : Bytes) (k : Unit → LE → M β) (b : LE) : fin (LE.pokeU off vals) k b = b.poke off vals >>= k () :=
  fin_like (LE.unwinds.poke off vals b) k
theorem fin_LE_setAt {β : Type} (i : Nat) (v : UInt8) (k : Unit → LE → M β) (b : LE) : fin (LE.setAtU i v) k b = b.setAt i v >>= k () :=
  fin_like (LE.unwinds.setAt i v b) k
theorem fin_UE_poke {β : Type} (off : Nat) (vals : Bytes) (k : Unit → UE → M β) (b : UE) : fin (UE.pokeU off vals) k b = b.poke off vals >>= k () :=
  fin_like (UE.unwinds.poke off vals b) k
theorem fin_UE_setAt {β : Type} (i : Nat) (v : UInt8) (k : Unit → UE → M β) (b : UE) : fin (UE.setAtU i v) k b = b.setAt i v >>= k () :=
  fin_like (UE.unwinds.setAt i v b) k
theorem fin_UE_setLen {β : Type} (m : Build) (n : Nat) (k : Unit → UE → M β) (b : UE) : fin (UE.setLenU m n) k b = b.setLen m n >>= k () :=
  fin_like (UE.unwinds.setLen m n b) k

theorem fin_LE_extend {β : Type} (vals : Bytes) (k : Unit → LE → M β) (b : LE) : fin (LE.extendU vals) k b = b.extend vals >>= k () := by
  unfold LE.extendU LE.extend LE.setLenU
  simp only [fin_bind, fin_self, fin_put, fin_LE_poke, m_assoc, m_pure_bind]

theorem fin_LE_push {β : Type} (m : Build) (v : UInt8) (k : Unit → LE → M β) (b : LE) : fin (LE.pushU m v) k b = b.push m v >>= k () := by
  unfold LE.pushU LE.push LE.setLenU
  simp only [fin_bind, fin_self, fin_put, fin_step, fin_LE_setAt, m_assoc, m_pure_bind]

theorem fin_UE_extend {β : Type} (m : Build) (vals : Bytes) (k : Unit → UE → M β) (b : UE) : fin (UE.extendU m vals) k b = b.extend m vals >>= k () := by
  unfold UE.extendU UE.extend
  simp only [fin_bind, fin_self, fin_UE_poke, fin_UE_setLen, m_assoc]

theorem fin_UE_push {β : Type} (m : Build) (v : UInt8) (k : Unit → UE → M β) (b : UE) : fin (UE.pushU m v) k b = b.push m v >>= k () := by
  unfold UE.pushU UE.push
  simp only [fin_bind, fin_self, fin_step, fin_UE_setAt, fin_UE_setLen, m_assoc]

theorem LE.agrees : Agrees littleU where
  reserve m al n k b := fin_like (LE.unwinds.reserve m al n b) k
  setLen m n k b := fin_like (LE.unwinds.setLen m n b) k
  poke off vals k b := fin_like (LE.unwinds.poke off vals b) k
  copyWithin src dst n k b := fin_like (LE.unwinds.copyWithin src dst n b) k
  setAt i v k b := fin_like (LE.unwinds.setAt i v b) k
  extend m vals k b := fin_LE_extend vals k b
  push m v k b := fin_LE_push m v k b

theorem UE.agrees : Agrees universalU where
  reserve m al n k b := fin_like (UE.unwinds.reserve m al n b) k
  setLen m n k b := fin_like (UE.unwinds.setLen m n b) k
  poke off vals k b := fin_like (UE.unwinds.poke off vals b) k
  copyWithin src dst n k b := fin_like (UE.unwinds.copyWithin src dst n b) k
  setAt i v k b := fin_like (UE.unwinds.setAt i v b) k
  extend m vals k b := fin_UE_extend m vals k b
  push m v k b := fin_UE_push m v k b

section parts
variable {β : Type} (ha : Agrees V)
include ha

theorem fin_setLenChecked (n : Nat) (k : Unit → I.B → M β) (b : I.B) : fin (V.setLenChecked m n) k b = I.setLenChecked m b n >>= k () := by
  unfold UImpl.setLenChecked Impl.setLenChecked
  simp only [fin_bind, fin_self, fin_step, ha.setLen, m_assoc]

theorem fin_write (vals : Bytes) (k : Unit → I.B → M β) (b : I.B) : fin (V.write m al vals) k b = I.write m al b vals >>= k () := by
  unfold UImpl.write Impl.write
  simp only [fin_bind, ha.reserve, ha.extend, m_assoc]

theorem fin_writeAll : ∀ (w : Bytes) (k : Unit → I.B → M β) (b : I.B), fin (writeAllU V m al w) k b = writeAll I m al w b >>= k ()
  | [], k, b => rfl
  | o :: r, k, b => by
    unfold writeAllU writeAll
    simp only [fin_bind, fin_write ha, m_assoc, fin_writeAll r]

theorem fin_extendAll : ∀ (w : List Bytes) (k : Unit → I.B → M β) (b : I.B), fin (extendAllU V m false w) k b = Der.extendAll I m w b >>= k ()
  | [], k, b => rfl
  | o :: r, k, b => by
    unfold extendAllU Der.extendAll
    simp only [fin_bind, ha.extend, m_assoc, fin_extendAll r]

theorem fin_writeChunks : ∀ (w : List Bytes) (k : Unit → I.B → M β) (b : I.B), fin (writeChunksU V m al w) k b = writeChunks I m al w b >>= k ()
  | [], k, b => rfl
  | o :: r, k, b => by
    unfold writeChunksU writeChunks
    by_cases he : o.isEmpty
    · simp only [if_pos he, fin_bind, fin_pure, fin_writeChunks r]
      rfl
    · simp only [if_neg he, fin_bind, fin_write ha, m_assoc, fin_writeChunks r]

theorem fin_copyContents (src : Bytes) (k : Unit → I.B → M β) (b : I.B) : fin (copyContentsU V src) k b = copyContents I b src >>= k () := by
  unfold copyContentsU copyContents
  simp only [fin_bind, fin_self, fin_step, fin_ite, ha.poke, fin_unwind, m_assoc]
  congr 1
  funext a
  split
  · rfl
  · rfl

theorem fin_Der_extend (bytes : Bytes) (k : Unit → I.B → M β) (b : I.B) :
    fin (Der.extendFromSliceU V m al bytes) k b = Der.extendFromSlice I m al b bytes >>= k () := by
  unfold Der.extendFromSliceU Der.extendFromSlice
  simp only [fin_bind, fin_self, fin_step, fin_ite, ha.poke, ha.reserve, ha.copyWithin, fin_setLenChecked ha, m_assoc, fin_pure]
  refine congrArg _ (funext fun a => ?_)
  obtain ⟨id, l, _⟩ := a
  cases l with
  | indefinite => rfl
  | definite old =>
  simp only [Length.definite?, m_pure_bind, m_assoc]
  refine congrArg _ (funext fun new => ?_)
  refine congrArg _ (funext fun t => ?_)
  refine congrArg _ (funext fun off => ?_)
  refine congrArg _ (funext fun b => ?_)
  refine congrArg _ (funext fun n => ?_)
  refine congrArg _ (funext fun b => ?_)
  split <;> simp only [m_assoc, m_pure_bind]

theorem fin_Der_truncate (n : Nat) (k : Unit → I.B → M β) (b : I.B) :
    fin (Der.truncateU V m n) k b = Der.truncate I m b n >>= k () := by
  unfold Der.truncateU Der.truncate
  simp only [fin_bind, fin_self, fin_step, fin_ite, ha.poke, ha.reserve, ha.copyWithin, fin_setLenChecked ha, m_assoc, fin_pure]
  refine congrArg _ (funext fun a => ?_)
  obtain ⟨id, l, _⟩ := a
  cases l with
  | indefinite => rfl
  | definite old =>
  simp only [Length.definite?, m_pure_bind]
  split
  · rfl
  · simp only [m_assoc]
    refine congrArg _ (funext fun t => ?_)
    refine congrArg _ (funext fun off => ?_)
    refine congrArg _ (funext fun b => ?_)
    split <;> simp only [m_assoc, m_pure_bind]

theorem fin_Ber_extend (bytes : Bytes) (k : Unit → I.B → M β) (b : I.B) :
    fin (Ber.extendFromSliceU V m al bytes) k b = Ber.extendFromSlice I m al b bytes >>= k () := by
  unfold Ber.extendFromSliceU Ber.extendFromSlice
  simp only [fin_bind, fin_self, fin_step, m_assoc]
  refine congrArg _ (funext fun a => ?_)
  obtain ⟨_, l, _⟩ := a
  cases l with
  | definite n => exact fin_Der_extend ha bytes k b
  | indefinite => simp only [fin_bind, fin_self, fin_step, ha.poke, ha.reserve, fin_setLenChecked ha, m_assoc]

theorem fin_Ber_truncate (n : Nat) (k : Unit → I.B → M β) (b : I.B) :
    fin (Ber.truncateU V m n) k b = Ber.truncate I m b n >>= k () := by
  unfold Ber.truncateU Ber.truncate
  simp only [fin_bind, fin_self, fin_step, m_assoc]
  refine congrArg _ (funext fun a => ?_)
  obtain ⟨_, l, _⟩ := a
  cases l with
  | definite n => exact fin_Der_truncate ha _ k b
  | indefinite =>
    simp only [fin_bind, fin_self, fin_step, fin_ite, fin_pure, ha.poke, ha.reserve, fin_setLenChecked ha, m_assoc]
    split
    · rfl
    · simp only [m_assoc]

theorem fin_fillDigits : ∀ (i num : Nat) (k : Nat → I.B → M β) (b : I.B), fin (Id.fillDigitsU V i num) k b = Id.fillDigits I i num b >>= fun r => k r.2 r.1
  | 0, num, k, b => rfl
  | i + 1, num, k, b => by
    unfold Id.fillDigitsU Id.fillDigits
    simp only [fin_bind, ha.setAt, m_assoc, fin_fillDigits i]

theorem fin_setNumber (n : Nat) (k : Unit → I.B → M β) (b : I.B) :
    fin (Id.setNumberU V m al n) k b = Id.setNumber I m al b n >>= k () := by
  unfold Id.setNumberU Id.setNumber getIdxU
  simp only [fin_bind, fin_self, fin_step, fin_ite, fin_pure, ha.setAt, ha.reserve, fin_setLenChecked ha, fin_fillDigits ha, m_assoc]
  refine congrArg _ (funext fun a => ?_)
  refine congrArg _ (funext fun c => ?_)
  refine congrArg _ (funext fun p => ?_)
  split
  · simp only [m_assoc]
  · split
    · simp only [m_assoc, m_pure_bind]
    · simp only [m_assoc, m_pure_bind]

end parts

/-! ### Functions with local values -/

section functions
variable {h h0 : Heap} {σ : Type} [Reader σ]

theorem out_build (hc : Correct I Rep) {α β : Type} {b : I.B} {body : Meth I.B α} {Q : α → I.B → Heap → Prop} (hb : Tri body b h Q (Owned Rep h0)) :
    out (build I.drop b body h) = fin body (fun a b => pure (a, b)) b h := by
  unfold Tri at hb
  unfold build fin
  cases e : body b h with
  | unwind b' h' =>
    rw [e] at hb
    obtain ⟨h2, e2, _⟩ := Owned.drop hc hb
    simp only [e2]
    rfl
  | _ => rfl

theorem out_own (hc : Correct I Rep) {α ε : Type} {b : I.B} {body : Meth I.B (Except ε α)} {Q : Except ε α → I.B → Heap → Prop}
    (hb : Tri body b h Q (Owned Rep h0)) :
    out (own I.drop b body h) = fin body (fun r b => match r with
      | .ok a => pure (.ok (a, b))
      | .error e => I.drop b >>= fun _ => pure (.error e)) b h := by
  unfold Tri at hb
  unfold own fin
  cases e : body b h with
  | unwind b' h' =>
    rw [e] at hb
    obtain ⟨h2, e2, _⟩ := Owned.drop hc hb
    simp only [e2]
    rfl
  | ok r b' h' =>
    cases r with
    | ok a => rfl
    | error er =>
      simp only [m_bind]
      cases I.drop b' h' <;> rfl
  | abort => rfl
  | ub => rfl

theorem out_withHeader (hc : Correct I Rep) (hu : Unwinds V Rep) (ha : Agrees V) (hv : al.Valid) (id len : Bytes) (n : Nat) (h : Heap) :
    out (Der.withHeaderU V m al id len n h) = Der.withHeader I m al id len n h := by
  unfold Der.withHeaderU Der.withHeader
  refine out_bind (out_step _ _) fun t h1 e1 => ?_
  refine out_bind (out_step _ _) fun total h2 e2 => ?_
  refine out_bind (out_like (hu.withCapacity m al total h2)) fun b h3 e3 => ?_
  have hlt : total < usizeSize := by
    unfold U.step at e2
    cases e : usizeAdd m t n h1 with
    | ok a h' => rw [e] at e2; cases e2; exact usizeAdd_lt e
    | _ => rw [e] at e2; cases e2
  have hw := triU_withCapacity (m := m) hc hu hv hlt h2
  unfold TriU at hw
  rw [e3] at hw
  obtain ⟨s, fp, hr, hs, fr⟩ := hw
  have hb : Tri (do
      V.poke 0 id
      V.poke id.length len
      V.setLenChecked m total) b h3 (fun _ b h' => Owned Rep h2 b h') (Owned Rep h2) := by
    refine (tri_poke hc hu 0 id hr fr).bind ?_
    rintro _ b h2 ⟨s2, hr2, hl2, fr2⟩
    refine (tri_poke hc hu id.length len hr2 fr2).bind ?_
    rintro _ b h3 ⟨s3, hr3, hl3, fr3⟩
    refine (tri_setLen hc hu hr3 fr3 (by omega)).mono ?_ (fun _ _ h => h)
    rintro _ b h4 ⟨hr4, fr4⟩
    exact ⟨_, _, _, hr4, fr4⟩
  have hx := out_build (β := Unit) hc hb
  simp only [fin_bind, ha.poke, fin_setLenChecked ha] at hx
  have := out_bind (f := fun r : Unit × I.B => (pure r.2 : U I.B)) (g := fun r : Unit × I.B => (pure r.2 : M I.B)) hx fun r h' _ => rfl
  refine this.trans ?_
  simp only [m_assoc, m_pure_bind, m_bind_pure]

theorem out_withIdLength (hc : Correct I Rep) (hu : Unwinds V Rep) (ha : Agrees V) (hv : al.Valid) (id : Bytes) (n : Nat) (h : Heap) :
    out (Der.withIdLengthU V m al id n h) = Der.withIdLength I m al id n h :=
  out_bind (out_step _ _) fun _ h _ => out_withHeader hc hu ha hv _ _ _ h

theorem out_withIdLengthIndefinite (hc : Correct I Rep) (hu : Unwinds V Rep) (ha : Agrees V) (hv : al.Valid) (id : Bytes) (n : Nat) (h : Heap) :
    out (Ber.withIdLengthIndefiniteU V m al id n h) = Ber.withIdLengthIndefinite I m al id n h :=
  out_bind (out_step _ _) fun _ h _ => out_withHeader hc hu ha hv _ _ _ h

theorem out_copy (hc : Correct I Rep) (hu : Unwinds V Rep) (ha : Agrees V) (contents : Bytes) {b : I.B} (ho : Owned Rep h0 b h) :
    out ((build I.drop b (copyContentsU V contents) >>= fun r => (pure r.2 : U I.B)) h) = copyContents I b contents h := by
  have hx := out_build (β := Unit) hc (tri_copyContents hc hu contents ho)
  rw [fin_copyContents ha] at hx
  refine (out_bind (g := fun r : Unit × I.B => (pure r.2 : M I.B)) hx fun r h' _ => rfl).trans ?_
  simp only [m_assoc, m_pure_bind, m_bind_pure]

theorem out_Der_new (hc : Correct I Rep) (hu : Unwinds V Rep) (ha : Agrees V) (hv : al.Valid) (id contents : Bytes) (h : Heap) :
    out (Der.newU V m al id contents h) = Der.new I m al id contents h := by
  unfold Der.newU Der.new
  refine out_bind (out_withIdLength hc hu ha hv _ _ _) fun b h1 e1 => ?_
  have hw := triU_withIdLength (m := m) hc hu hv id contents.length h
  unfold TriU at hw
  rw [e1] at hw
  exact out_copy hc hu ha contents hw

theorem out_Ber_newIndefinite (hc : Correct I Rep) (hu : Unwinds V Rep) (ha : Agrees V) (hv : al.Valid) (id contents : Bytes) (h : Heap) :
    out (Ber.newIndefiniteU V m al id contents h) = Ber.newIndefinite I m al id contents h := by
  unfold Ber.newIndefiniteU Ber.newIndefinite
  refine out_bind (out_withIdLengthIndefinite hc hu ha hv _ _ _) fun b h1 e1 => ?_
  have hw := triU_withIdLengthIndefinite (m := m) hc hu hv id contents.length h
  unfold TriU at hw
  rw [e1] at hw
  exact out_copy hc hu ha contents hw

theorem out_fromParts (hc : Correct I Rep) (hu : Unwinds V Rep) (ha : Agrees V) (hv : al.Valid) (id len : Bytes) (parts : List Bytes) (n : Nat) (h : Heap) :
    out (Der.fromPartsU V m al id len parts false n h) = Der.fromParts I m al id len parts n h := by
  unfold Der.fromPartsU Der.fromParts
  refine out_bind (out_step _ _) fun t h1 e1 => ?_
  refine out_bind (out_step _ _) fun total h2 e2 => ?_
  refine out_bind (out_like (hu.withCapacity m al total h2)) fun b h3 e3 => ?_
  have hlt : total < usizeSize := by
    unfold U.step at e2
    cases e : usizeAdd m t n h1 with
    | ok a h' => rw [e] at e2; cases e2; exact usizeAdd_lt e
    | _ => rw [e] at e2; cases e2
  have hw := triU_withCapacity (m := m) hc hu hv hlt h2
  unfold TriU at hw
  rw [e3] at hw
  obtain ⟨s, fp, hr, hs, fr⟩ := hw
  have hx := out_build (β := Unit) hc (tri_extendAll (m := m) hc hu false (id :: len :: parts) b h3 ⟨s, 0, fp, hr, fr⟩)
  rw [fin_extendAll ha] at hx
  refine (out_bind (g := fun r : Unit × I.B => (pure r.2 : M I.B)) hx fun r h' _ => rfl).trans ?_
  simp only [m_assoc, m_pure_bind, m_bind_pure]

theorem out_count (counted : List Bytes) (h : Heap) :
    out (Der.countU m counted false h) = liftRes (Bsn1.Der.sumLen m counted 0) h := by
  unfold Der.countU
  refine (out_bind (g := fun n : Nat => (pure n : M Nat)) (out_step _ _) fun r h' _ => rfl).trans ?_
  rw [m_bind_pure]

theorem out_fromPasses (hc : Correct I Rep) (hu : Unwinds V Rep) (ha : Agrees V) (hv : al.Valid) (id : Bytes) (counted parts : List Bytes) (h : Heap) :
    out (Der.fromPassesU V m al id (counted, false) (parts, false) h) = Der.fromPasses I m al id counted parts h := by
  unfold Der.fromPassesU Der.fromPasses
  exact out_bind (out_count _ _) fun n h _ => out_bind (out_step _ _) fun _ h _ => out_fromParts hc hu ha hv _ _ _ _ _

theorem out_fromPassesIndefinite (hc : Correct I Rep) (hu : Unwinds V Rep) (ha : Agrees V) (hv : al.Valid) (id : Bytes) (counted parts : List Bytes) (h : Heap) :
    out (Ber.fromPassesIndefiniteU V m al id (counted, false) (parts, false) h) = Ber.fromPassesIndefinite I m al id counted parts h := by
  unfold Ber.fromPassesIndefiniteU Ber.fromPassesIndefinite
  exact out_bind (out_count _ _) fun n h _ => out_bind (out_step _ _) fun _ h _ => out_fromParts hc hu ha hv _ _ _ _ _

theorem orPanic_never {α : Type} (x : Res α × σ × Bytes) : orPanic (fun _ => false) x = x := by
  unfold orPanic
  split <;> rfl

/-- What becomes of the buffer and of the reader. -/
def ends (I : Impl) : Except (Error × σ) σ → I.B → M (Except Error I.B × σ)
  | .ok s, b => pure (.ok b, s)
  | .error (e, s), b => I.drop b >>= fun _ => pure (.error e, s)

theorem out_parse (hc : Correct I Rep) {body : Meth I.B (Except (Error × σ) σ)} {Q : Except (Error × σ) σ → I.B → Heap → Prop}
    (hb : Tri body I.new h Q (Owned Rep h0)) :
    out ((own I.drop I.new body >>= fun r => (pure (Der.outcome r) : U (Except Error I.B × σ))) h) = fin body (ends I) I.new h := by
  refine (out_bind (g := fun r => (pure (Der.outcome r) : M (Except Error I.B × σ))) (out_own hc hb) fun r h' _ => rfl).trans ?_
  rw [m_bind]
  unfold fin
  cases body I.new h with
  | ok r b' h' =>
    rcases r with ⟨e, s⟩ | s
    · simp only [ends, m_bind]
      cases I.drop b' h' <;> rfl
    · rfl
  | _ => rfl

theorem out_Der_parse (hc : Correct I Rep) (hi : Inline I Rep init) (hu : Unwinds V Rep) (ha : Agrees V) (hv : al.Valid)
    (rd : Nat → σ → ReadEffect σ) (s : σ) (h : Heap) :
    out (Der.parseU V m al (fun _ => false) rd s h) = Der.parse I m al rd s h := by
  unfold Der.parseU
  refine (out_parse hc (tri_parseBody (m := m) hc hi hu hv (fun _ => false) rd s (owned_new hc (h := h) rfl))).trans ?_
  unfold Der.parseBodyU Der.parse
  rw [orPanic_never]
  rcases (parseIdLength (σ := σ)).run s [] with ⟨r, s1, w⟩
  simp only [fin_bind, fin_writeAll ha]
  refine congrFun (congrArg _ (funext fun b => ?_)) h
  rcases r with (_ | n) | er | _ | _
  · rfl
  · simp only [fin_bind, fin_self, fin_step, ha.reserve, ha.poke, fin_setLenChecked ha, fin_ite, fin_unwind]
    refine congrArg _ (funext fun t => ?_)
    refine congrArg _ (funext fun b => ?_)
    refine congrArg _ (funext fun b => ?_)
    split
    · rfl
    · refine congrArg _ (funext fun b => ?_)
      rcases (rd _ s1).result with a | er | _ | _
      · simp only [fin_pure]
        split <;> rfl
      · rfl
      · rfl
      · rfl
  · rfl
  · rfl
  · rfl

theorem fin_doParse (ha : Agrees V) {β : Type} (rd : Nat → σ → ReadEffect σ) (s : σ) (b : I.B) (k : Except Error (Int × I.B) × σ → M β) :
    fin (Ber.doParseU V m al (fun _ => false) rd s) (fun r b => match r with
      | .ok (d, s) => k (.ok (d, b), s)
      | .error (e, s) => I.drop b >>= fun _ => k (.error e, s)) b = Ber.doParse I m al rd b s >>= k := by
  unfold Ber.doParseU Ber.doParse
  rw [orPanic_never]
  rcases (parseIdLength (σ := σ)).run s [] with ⟨r, s1, w⟩
  simp only [fin_bind, fin_self, fin_writeAll ha, m_assoc]
  refine congrArg _ (funext fun b' => ?_)
  rcases r with (_ | n) | er | _ | _
  · rfl
  · simp only [fin_bind, fin_self, fin_step, ha.reserve, ha.poke, fin_setLenChecked ha, fin_ite, fin_unwind, m_assoc]
    refine congrArg _ (funext fun b => ?_)
    refine congrArg _ (funext fun t => ?_)
    refine congrArg _ (funext fun b => ?_)
    split
    · rfl
    · simp only [m_assoc]
      refine congrArg _ (funext fun b => ?_)
      rcases (rd _ s1).result with a | er | _ | _
      · simp only [fin_bind, fin_self, fin_step, fin_pure, m_assoc, m_pure_bind]
      · simp only [fin_pure, m_assoc, m_pure_bind]
      · rfl
      · rfl
  · simp only [fin_pure, m_assoc, m_pure_bind]
  · rfl
  · rfl

theorem fin_parseLoop (ha : Agrees V) (rd : Nat → σ → ReadEffect σ) : ∀ (fuel : Nat) (d : Int) (s : σ) (b : I.B),
    fin (Ber.parseLoopU V m al (fun _ => false) rd fuel d s) (ends I) b = Ber.parseLoop I m al rd fuel d b s
  | 0, d, s, b => rfl
  | fuel + 1, d, s, b => by
    unfold Ber.parseLoopU Ber.parseLoop
    rw [fin_bind, ← fin_doParse ha]
    refine congrArg (fun k => fin (Ber.doParseU V m al (fun _ => false) rd s) k b) (funext fun r => funext fun b => ?_)
    rcases r with ⟨e, s⟩ | ⟨d', s⟩
    · rfl
    · simp only [fin_ite, fin_unwind, fin_pure, fin_parseLoop ha rd fuel]
      rfl

theorem out_Ber_parse (hc : Correct I Rep) (hi : Inline I Rep init) (hu : Unwinds V Rep) (ha : Agrees V) (hv : al.Valid)
    (rd : Nat → σ → ReadEffect σ) (s : σ) (h : Heap) :
    out (Ber.parseU V m al (fun _ => false) rd s h) = Ber.parse I m al rd s h := by
  unfold Ber.parseU Ber.parse
  refine (out_parse hc (tri_parseLoop (m := m) hc hi hu hv (fun _ => false) rd _ 0 s I.new h (owned_new hc (h := h) rfl))).trans ?_
  rw [fin_parseLoop ha]

theorem out_Id_parse (hc : Correct I Rep) (hi : Inline I Rep init) (hu : Unwinds V Rep) (ha : Agrees V) (hv : al.Valid) (s : σ) (h : Heap) :
    out (Id.parseU V m al (fun _ => false) s h) = Id.parse I m al s h := by
  unfold Id.parseU Id.parse
  rw [orPanic_never]
  rcases (parseId (σ := σ)).run s [] with ⟨r, s1, w⟩
  simp only
  refine (out_parse hc (h0 := h) (Q := fun _ _ _ => True) ?_).trans ?_
  · refine (tri_writeAll hc hi hu hv w _ h (owned_new hc rfl)).bind ?_
    intro _ b h ho
    rcases r with _ | er | _ | _
    · trivial
    · trivial
    · exact ho
    · trivial
  · simp only [fin_bind, fin_writeAll ha]
    refine congrFun (congrArg _ (funext fun b => ?_)) h
    rcases r with _ | er | _ | _ <;> rfl

/-! ### `to_der` -/

theorem fin_runW (ha : Agrees V) {β : Type} (w : W Unit) (k : Except Error Unit → I.B → M β) (b : I.B) :
    fin (runWU V m al w) k b = runW I m al w b >>= fun r => k r.1 r.2 := by
  unfold runWU runW
  simp only [fin_bind, fin_writeChunks ha, m_assoc]
  refine congrArg _ (funext fun b => ?_)
  rcases w.res with _ | _ | _ | _ <;> rfl

theorem fin_reserveHint (ha : Agrees V) {β : Type} (idLen : Option Nat) (n c : Nat) (k : Unit → I.B → M β) (b : I.B) :
    fin (reserveHintU V m al idLen n c) k b = reserveHint I m al idLen n c b >>= k () := by
  unfold reserveHintU reserveHint
  cases idLen with
  | none => rfl
  | some i => simp only [fin_bind, fin_step, ha.reserve, m_assoc]

theorem fin_then {B α β γ : Type} (u : Meth B α) (k : α → B → M β) (g : β → M γ) (b : B) : fin u k b >>= g = fin u (fun a b => k a b >>= g) b := by
  funext h
  rw [m_bind]
  unfold fin
  cases u b h <;> rfl

theorem bind_at {α β : Type} {x y : M α} {h : Heap} (e : x h = y h) (f : α → M β) : (x >>= f) h = (y >>= f) h := by
  rw [m_bind, m_bind, e]

theorem fin_derBuffer (ha : Agrees V) {α : Type} (s : Ser α) (value : α) (idLen : Option Nat) (length : Bytes) (n : Nat) (cont : Option I.B) :
    fin (derBufferU V m al s value idLen length n cont) (fun r b => match r with
      | .ok () => dropOption I cont >>= fun _ => pure (.ok b)
      | .error e => I.drop b >>= fun _ => dropOption I cont >>= fun _ => pure (.error e)) I.new
    = (do
      let b ← reserveHint I m al idLen length.length n I.new
      match ← runW I m al (s.writeId value) b with
      | (.error e, b) => do
        I.drop b
        dropOption I cont
        return .error e
      | (.ok (), b) => do
        let b ← writeChunks I m al [length] b
        finishDer I m al s value cont b) := by
  unfold derBufferU
  rw [fin_bind, fin_reserveHint ha]
  refine congrArg _ (funext fun b => ?_)
  rw [fin_bind, fin_runW ha]
  refine congrArg _ (funext fun r => ?_)
  obtain ⟨r, b⟩ := r
  rcases r with e | _
  · rfl
  · simp only [fin_bind, fin_writeChunks ha]
    refine congrArg _ (funext fun b => ?_)
    unfold finishDer
    cases cont with
    | some c =>
      simp only [fin_bind, fin_step, fin_writeChunks ha, fin_pure]
      rfl
    | none =>
      simp only [fin_runW ha]
      refine congrArg _ (funext fun r => ?_)
      obtain ⟨r, b⟩ := r
      rcases r with e | _ <;> rfl

theorem out_derFrom (hc : Correct I Rep) (hi : Inline I Rep init) (hu : Unwinds V Rep) (ha : Agrees V) (hv : al.Valid) {α : Type} {s : Ser α} {value : α}
    (hid : ∀ c ∈ (s.writeId value).chunks, c.length ≤ isizeMax) (hct : ∀ c ∈ (s.writeDerContents value).chunks, c.length ≤ isizeMax)
    {n : Nat} (hn : n < 2 ^ 64) {cont : Option I.B} (hcont : ∀ c, cont = some c → ∃ sc lc fpc, Rep c h sc lc fpc) :
    (outM (derFromU V m al s value n cont) >>= fun r => dropOption I cont >>= fun _ => (pure r : M (Except Error I.B))) h
      = derFrom I m al s value n cont h := by
  have h9 := lenOctets_length_le hn
  unfold derFromU derFrom
  rw [toBytes_definite hn]
  have e1 : ∀ (g : Bytes → U (Except Error I.B)), (U.step (liftRes (.ok (lenOctets n))) >>= g) = g (lenOctets n) := fun g => rfl
  rw [e1, show liftRes (.ok (lenOctets n)) = pure (lenOctets n) from rfl, m_pure_bind]
  rcases s.idLen value with idLen | e | _ | _
  · have hb := tri_derBuffer (m := m) hc hi hu hv hid hct idLen (length := lenOctets n) (by rw [isizeMax]; omega) n hcont (owned_new hc (h := h) rfl)
    refine (bind_at (out_bind (f := fun r : Except Error (Unit × I.B) => (pure (r.map (·.2)) : U _)) (g := fun r : Except Error (Unit × I.B) => (pure (r.map (·.2)) : M (Except Error I.B))) (out_own hc hb) fun r h' _ => rfl) _).trans ?_
    rw [fin_then, fin_then]
    refine Eq.trans (congrFun (congrArg (fun k => fin (derBufferU V m al s value idLen (lenOctets n) n cont) k I.new) (funext fun r => funext fun b => ?_)) h)
      (congrFun (fin_derBuffer ha s value idLen (lenOctets n) n cont) h)
    rcases r with e | _
    · simp only [m_assoc, m_pure_bind]
      rfl
    · rfl
  · rfl
  · rfl
  · rfl

theorem out_toDer (hc : Correct I Rep) (hi : Inline I Rep init) (hu : Unwinds V Rep) (ha : Agrees V) (hv : al.Valid) {α : Type} {s : Ser α} {value : α}
    (hid : ∀ c ∈ (s.writeId value).chunks, c.length ≤ isizeMax) (hct : ∀ c ∈ (s.writeDerContents value).chunks, c.length ≤ isizeMax)
    (hn : ∀ n, s.derContentsLen value = .ok (some n) → n < 2 ^ 64) (h : Heap) :
    out (toDerU V m al s value h) = toDer I m al s value h := by
  have hm := isizeMax_lt
  have hu64 := usizeSize_eq
  unfold toDerU toDer
  rcases hd : s.derContentsLen value with (_ | n) | e | _ | _
  · simp only
    have key := tri_runW (m := m) hc hi hu hv hct (owned_new hc (h := h) rfl)
    have hfin := congrFun (fin_runW (m := m) (al := al) ha (s.writeDerContents value) (fun r c => match r with
      | .error e => I.drop c >>= fun _ => pure (.error e)
      | .ok () => derFrom I m al s value (I.len c) (some c)) I.new) h
    refine Eq.trans ?_ (hfin.trans ?_)
    · unfold Tri at key
      unfold using_ fin
      rw [meth_bind]
      cases e : runWU V m al (s.writeDerContents value) I.new h with
      | ok r c h1 =>
        rw [e] at key
        rcases r with er | _
        · simp only [meth_pure, m_bind]
          cases I.drop c h1 <;> rfl
        · have ho := key
          obtain ⟨sc, lc, fpc, hr, fr⟩ := key
          have hb := hc.bound hr
          have hl : I.len c < 2 ^ 64 := by rw [hc.len hr]; omega
          have h1e := out_derFrom (m := m) (n := I.len c) hc hi hu ha hv hid hct hl (cont := some c) (h := h1) (by
            rintro _ ⟨⟩
            exact ⟨_, _, _, hr⟩)
          have h1t := triU_derFrom (m := m) (n := I.len c) hc hi hu hv hid hct hl (cont := some c) (h := h1) (by
            rintro _ ⟨⟩
            exact ⟨_, _, _, hr⟩)
          simp only
          rw [← h1e]
          simp only [meth_bind, meth_self, Meth.call, m_bind, outM]
          unfold TriU at h1t
          cases e2 : derFromU V m al s value (I.len c) (some c) h1 with
          | ok r h2 =>
            simp only [out, dropOption]
            cases I.drop c h2 <;> rfl
          | unwind h2 =>
            rw [e2] at h1t
            obtain ⟨h3, e3, _⟩ := Owned.drop hc (Owned.blocks hc ho h1t)
            simp only [e3]
            rfl
          | abort => rfl
          | ub => rfl
      | unwind c h1 =>
        rw [e] at key
        obtain ⟨h3, e3, _⟩ := Owned.drop hc key
        simp only [e3]
        rfl
      | abort => rfl
      | ub => rfl
    · refine congrFun (congrArg _ (funext fun r => ?_)) h
      obtain ⟨r, c⟩ := r
      rcases r with e | _ <;> rfl
  · have := out_derFrom (m := m) (n := n) hc hi hu ha hv hid hct (hn n hd) (cont := none) (h := h) (by simp)
    refine Eq.trans ?_ this
    simp only [dropOption, m_pure_bind]
    rw [m_bind_pure]
    rfl
  · rfl
  · rfl
  · rfl

end functions
end Bsn1.Raw
