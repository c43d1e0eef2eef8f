import Verif.Lemmas.UnwindCut
import Verif.Spec.Unwind
import Verif.Props.Raw
/-!
# C99: a panic leaves no trace in memory
-/

namespace Bsn1
open Buf Spec Raw

namespace Raw

variable {I : Impl} {Rep : I.B → Heap → List Cell → Nat → Option Nat → Prop} {h0 h : Heap} {m : Build} {al : Allocator} {init : Nat} {V : UImpl I}

theorem Owned.returns (hc : Correct I Rep) {b : I.B} {h' : Heap} (ho : Owned Rep h b h') : Returns I h b h' := Owned.drop hc ho

theorem noTrace_of (hc : Correct I Rep) {u v : U I.B} {x : M I.B} (hcut : CutU u v h) (ho : out (v h) = x h)
    (ht : TriU u h (fun b h' => Owned Rep h b h') (fun h' => h'.blocks = h.blocks)) : NoTrace u x h := by
  unfold NoTrace
  unfold TriU at ht
  rcases hcut with e | ⟨h', e⟩
  · rw [← e] at ho
    cases eu : u h with
    | ok b h' => rw [eu] at ho ht; exact ⟨ho.symm, ht.returns hc⟩
    | unwind h' => rw [eu] at ht; exact ht
    | abort => rw [eu] at ho; exact ho.symm
    | ub => rw [eu] at ho; exact ho.symm
  · rw [e] at ht ⊢; exact ht

theorem noTraceParse_of (hc : Correct I Rep) {σ : Type} {u v : U (Except Error I.B × σ)} {x : M (Except Error I.B × σ)} (hcut : CutU u v h)
    (ho : out (v h) = x h) (ht : TriU u h (fun r h' => match r.1 with
      | .ok b => Owned Rep h b h'
      | .error _ => h'.blocks = h.blocks) (fun h' => h'.blocks = h.blocks)) : NoTraceParse u x h := by
  unfold NoTraceParse
  unfold TriU at ht
  rcases hcut with e | ⟨h', e⟩
  · rw [← e] at ho
    cases eu : u h with
    | ok r h' =>
      rw [eu] at ho ht
      rcases r with ⟨er | b, s⟩
      · exact ⟨ho.symm, ht⟩
      · exact ⟨ho.symm, Owned.returns hc ht⟩
    | unwind h' => rw [eu] at ht; exact ht
    | abort => rw [eu] at ho; exact ho.symm
    | ub => rw [eu] at ho; exact ho.symm
  · rw [e] at ht ⊢; exact ht

theorem noTraceSer_of (hc : Correct I Rep) {u : U (Except Error I.B)} {x : M (Except Error I.B)} (ho : out (u h) = x h)
    (ht : TriU u h (fun r h' => match r with
      | .ok b => Owned Rep h b h'
      | .error _ => h'.blocks = h.blocks) (fun h' => h'.blocks = h.blocks)) : NoTraceSer u x h := by
  unfold NoTraceSer
  unfold TriU at ht
  cases eu : u h with
  | ok r h' =>
    rw [eu] at ho ht
    rcases r with er | b
    · exact ⟨ho.symm, ht⟩
    · exact ⟨ho.symm, Owned.returns hc ht⟩
  | unwind h' => rw [eu] at ho ht; exact ⟨ho.symm, ht⟩
  | abort => rw [eu] at ho; exact ho.symm
  | ub => rw [eu] at ho; exact ho.symm

theorem noTraceMut_of {u : Meth I.B Unit} {b : I.B} {x : M I.B} (hf : fin u (fun _ b => (pure b : M I.B)) b = x >>= fun b => pure b)
    (ht : Tri u b h (fun _ _ _ => True) (Intact b h)) : NoTraceMut u b x h := by
  have := congrFun hf h
  rw [m_bind_pure] at this
  unfold fin at this
  unfold NoTraceMut
  unfold Tri at ht
  cases e : u b h with
  | ok a b' h' => rw [e] at this; exact this.symm
  | unwind b' h' => rw [e] at this ht; exact ⟨this.symm, ht⟩
  | abort => rw [e] at this; exact this.symm
  | ub => rw [e] at this; exact this.symm

theorem noTraceMut_like {u : Meth I.B Unit} {b : I.B} {x : M I.B} (hl : Like b h (x h) (u b h)) : NoTraceMut u b x h := by
  unfold NoTraceMut
  cases e : x h with
  | ok b' h' => rw [e] at hl; rw [show u b h = _ from hl]
  | panic => rw [e] at hl; obtain ⟨h', e1, e2⟩ := hl; rw [e1]; exact ⟨rfl, rfl, e2⟩
  | abort => rw [e] at hl; rw [show u b h = _ from hl]
  | ub => rw [e] at hl; rw [show u b h = _ from hl]

theorem tri_write_intact (hc : Correct I Rep) (hi : Inline I Rep init) (hu : Unwinds V Rep) (hv : al.Valid) {b : I.B} {s : List Cell} {l : Nat}
    {fp : Option Nat} (hr : Rep b h s l fp) {vals : Bytes} (hl : vals.length ≤ isizeMax) :
    Tri (V.write m al vals) b h (fun _ _ _ => True) (Intact b h) := by
  have hm := isizeMax_lt
  have hus := usizeSize_eq
  have hbd := hc.bound hr
  unfold UImpl.write
  by_cases ho : l + vals.length ≤ isizeMax
  · have hlike := hu.reserve m al vals.length b h
    have hs := step_reserve (m := m) hc hv hr ho
    unfold Tri
    rw [meth_bind]
    rcases hs with e | ⟨b', h', fp', e, ⟨s', hr', hs'⟩, _⟩
    · rw [e] at hlike
      rw [show V.reserve m al vals.length b h = _ from hlike]
      trivial
    · rw [e] at hlike
      rw [show V.reserve m al vals.length b h = _ from hlike]
      simp only
      have hl2 := hu.extend m vals hr'
      obtain ⟨b2, h2, e2, _⟩ := hc.extend m vals hr' (by omega)
      rw [e2] at hl2
      rw [show V.extend m vals b' h' = _ from hl2]
      trivial
  · refine (tri_reserve_over hc hi hu hr (by omega) (by omega)).bind ?_
    rintro _ b' h' ⟨_, _, _, hw⟩
    have hmax : isizeMax = 2 ^ 63 - 1 := by decide
    omega

theorem editing_noTrace (hc : Correct I Rep) (hi : Inline I Rep init) (hu : Unwinds V Rep) (ha : Agrees V) (hv : al.Valid) {v : TVal} {u : Meth I.B Unit}
    {x : I.B → M I.B} (he : Editing V m al v u x) (hg : Good v) {b : I.B} {fp : Option Nat} (hb : Has Rep b h v.octets fp) :
    NoTraceMut u b (x b) h := by
  cases he with
  | derExtend bytes hl => exact noTraceMut_of (fin_Der_extend ha bytes _ b) (tri_Der_extend hc hi hu ha hv hg hb hl)
  | derTruncate n => exact noTraceMut_of (fin_Der_truncate ha n _ b) (tri_Der_truncate hc ha n hg hb)
  | berExtend bytes hl => exact noTraceMut_of (fin_Ber_extend ha bytes _ b) (tri_Ber_extend_definite hc hi hu ha hv hg hb hl)
  | berTruncate n => exact noTraceMut_of (fin_Ber_truncate ha n _ b) (tri_Ber_truncate_definite hc ha n hg hb)
  | berExtendIndefinite bytes hl => exact noTraceMut_of (fin_Ber_extend ha bytes _ b) (tri_Ber_extend_indefinite hc hi hu ha hv hg hb hl)
  | berTruncateIndefinite n => exact noTraceMut_of (fin_Ber_truncate ha n _ b) (tri_Ber_truncate_indefinite hc ha n hg hb)
  | setNumber n hn => exact noTraceMut_of (fin_setNumber ha n _ b) (tri_setNumber hc ha hv _ _ _ hn hb)

theorem making_blocks (hc : Correct I Rep) (hi : Inline I Rep init) (hu : Unwinds V Rep) (hv : al.Valid) {α : Type} {u : U α} (hm : Making V m al u)
    {h' : Heap} (e : u h = .unwind h') : h'.blocks = h.blocks := by
  have key : ∀ {Q : α → Heap → Prop}, TriU u h Q (fun h' => h'.blocks = h.blocks) → h'.blocks = h.blocks := by
    intro Q ht
    unfold TriU at ht
    rw [e] at ht
    exact ht
  cases hm with
  | derNew id c => exact key (triU_Der_new hc hu hv id c h)
  | derWithIdLength id n => exact key (triU_withIdLength hc hu hv id n h)
  | derFromIdIterator id c p => exact key (triU_fromPasses hc hu hv id c p h)
  | derParse p rd s => exact key (triU_Der_parse hc hi hu hv p rd s h)
  | berNewIndefinite id c => exact key (triU_Ber_newIndefinite hc hu hv id c h)
  | berWithIdLengthIndefinite id n => exact key (triU_withIdLengthIndefinite hc hu hv id n h)
  | berFromIdIteratorIndefinite id c p => exact key (triU_fromPassesIndefinite hc hu hv id c p h)
  | berParse p rd s => exact key (triU_Ber_parse hc hi hu hv p rd s h)
  | idParse p s => exact key (triU_Id_parse hc hi hu hv p s h)
  | toDer s value h1 h2 h3 => exact key (triU_toDer hc hi hu hv h1 h2 h3 h)

theorem inv_near (hc : Correct I Rep) {objs : List (Obj I)} {abs : List AObj} {fps : List (Option Nat)} {h' : Heap}
    (hi : Inv Rep h0 objs h abs fps) (e : h'.blocks = h.blocks) : Inv Rep h0 objs h' abs fps where
  lenA := hi.lenA
  lenF := hi.lenF
  rep i o a f e1 e2 e3 := (hi.rep i o a f e1 e2 e3).near hc fun p _ => by rw [e]
  one := hi.one
  new := hi.new
  rest q hq := by rw [e]; exact hi.rest q hq

theorem CHistory.inv (hc : Correct I Rep) (hi : Inline I Rep init) (hu : Unwinds V Rep) (ha : Agrees V) (hv : al.Valid) {objs : List (Obj I)} {vals : List TVal}
    (hh : CHistory V m al h0 objs h vals) : (∀ v ∈ vals, Good v) ∧ ∃ fps, Inv Rep h0 objs h (vals.map absOf) fps := by
  induction hh with
  | start => exact ⟨by simp, [], .start h0⟩
  | step _ hd he ih =>
    obtain ⟨hg, fps, hinv⟩ := ih
    obtain ⟨hg', hs⟩ := does_inv (m := m) hc hv hinv hg hd
    rcases hs with e | ⟨objs', h', fps', e, hinv'⟩
    · rw [he] at e; cases e
    · rw [he] at e; cases e; exact ⟨hg', fps', hinv'⟩
  | caught _ hm e ih =>
    obtain ⟨hg, fps, hinv⟩ := ih
    exact ⟨hg, fps, inv_near hc hinv (making_blocks hc hi hu hv hm e)⟩
  | @caughtMut objs h vals i v b u x b' h' _ ev eo he e ih =>
    obtain ⟨hg, fps, hinv⟩ := ih
    have hv1 : v ≠ .gone := by rintro rfl; cases he
    have hv2 : ∀ bs, v ≠ .vec bs := by rintro bs rfl; cases he
    obtain ⟨a, f, ea, ef, hr⟩ := hinv.at eo
    rw [List.getElem?_map, ev] at ea
    cases ea
    obtain ⟨b1, e1, hb⟩ := obj_buf hv1 hv2 hr
    cases e1
    have hn := editing_noTrace hc hi hu ha hv he (hg v (List.mem_of_getElem? ev)) hb
    unfold NoTraceMut at hn
    rw [e] at hn
    obtain ⟨_, rfl, h2⟩ := hn
    have hset : objs.set i (.buf b') = objs := by
      apply List.ext_getElem?
      intro j
      by_cases hj : i = j
      · subst hj
        rw [List.getElem?_set_self (List.getElem?_eq_some_iff.mp eo).1, eo]
      · rw [List.getElem?_set_ne hj]
    rw [hset]
    exact ⟨hg, fps, inv_near hc hinv h2⟩

theorem chistory_of {objs : List (Obj I)} {vals : List TVal} (hh : THistory I m al h0 objs h vals) : CHistory V m al h0 objs h vals := by
  induction hh with
  | start => exact .start
  | step _ hd he ih => exact .step ih hd he

end Raw

/-! ### Functions that make a value -/

/-- **C99.** `Der::parse`, `Ber::parse` and `Id::parse` with any reader, which may lie, fail and panic at any call: up to a panic of the reader they do what they
do with a reader that returns an error instead; a value they return frees, when dropped, just what they allocated; and after an error or a panic of
whatever kind the memory is as before: nothing is leaked, nothing freed twice. -/
theorem C99_parse {σ : Type} [Reader σ] (m : Build) (al : Allocator) (hv : al.Valid) (h : Heap) (p : IoKind → Bool) (rd : Nat → σ → ReadEffect σ) (s : σ) :
    (NoTraceParse (Raw.Der.parseU littleU m al p rd s) (Raw.Der.parse little m al rd s) h ∧
      NoTraceParse (Raw.Der.parseU universalU m al p rd s) (Raw.Der.parse universal m al rd s) h) ∧
    (NoTraceParse (Raw.Ber.parseU littleU m al p rd s) (Raw.Ber.parse little m al rd s) h ∧
      NoTraceParse (Raw.Ber.parseU universalU m al p rd s) (Raw.Ber.parse universal m al rd s) h) ∧
    (NoTraceParse (Raw.Id.parseU littleU m al p s) (Raw.Id.parse little m al s) h ∧
      NoTraceParse (Raw.Id.parseU universalU m al p s) (Raw.Id.parse universal m al s) h) :=
  ⟨⟨noTraceParse_of LE.correct (cut_Der_parse LE.correct le_inline LE.unwinds hv p rd s h)
        (out_Der_parse LE.correct le_inline LE.unwinds LE.agrees hv rd s h) (triU_Der_parse LE.correct le_inline LE.unwinds hv p rd s h),
      noTraceParse_of UE.correct (cut_Der_parse UE.correct ue_inline UE.unwinds hv p rd s h)
        (out_Der_parse UE.correct ue_inline UE.unwinds UE.agrees hv rd s h) (triU_Der_parse UE.correct ue_inline UE.unwinds hv p rd s h)⟩,
    ⟨noTraceParse_of LE.correct (cut_Ber_parse LE.correct le_inline LE.unwinds hv p rd s h)
        (out_Ber_parse LE.correct le_inline LE.unwinds LE.agrees hv rd s h) (triU_Ber_parse LE.correct le_inline LE.unwinds hv p rd s h),
      noTraceParse_of UE.correct (cut_Ber_parse UE.correct ue_inline UE.unwinds hv p rd s h)
        (out_Ber_parse UE.correct ue_inline UE.unwinds UE.agrees hv rd s h) (triU_Ber_parse UE.correct ue_inline UE.unwinds hv p rd s h)⟩,
    ⟨noTraceParse_of LE.correct (cut_Id_parse LE.correct le_inline LE.unwinds hv p s h)
        (out_Id_parse LE.correct le_inline LE.unwinds LE.agrees hv s h) (triU_Id_parse LE.correct le_inline LE.unwinds hv p s h),
      noTraceParse_of UE.correct (cut_Id_parse UE.correct ue_inline UE.unwinds hv p s h)
        (out_Id_parse UE.correct ue_inline UE.unwinds UE.agrees hv s h) (triU_Id_parse UE.correct ue_inline UE.unwinds hv p s h)⟩⟩

/-- **C99.** `from_id_iterator` and `from_id_iterator_indefinite`, with an iterator that may panic after any item, on the clone by which the octets are counted or
when they are written. -/
theorem C99_from_id_iterator (m : Build) (al : Allocator) (hv : al.Valid) (h : Heap) (id : Bytes) (counted parts : List Bytes × Bool) :
    (NoTrace (Raw.Der.fromPassesU littleU m al id counted parts) (Raw.Der.fromPasses little m al id counted.1 parts.1) h ∧
      NoTrace (Raw.Der.fromPassesU universalU m al id counted parts) (Raw.Der.fromPasses universal m al id counted.1 parts.1) h) ∧
    (NoTrace (Raw.Ber.fromPassesIndefiniteU littleU m al id counted parts) (Raw.Ber.fromPassesIndefinite little m al id counted.1 parts.1) h ∧
      NoTrace (Raw.Ber.fromPassesIndefiniteU universalU m al id counted parts) (Raw.Ber.fromPassesIndefinite universal m al id counted.1 parts.1) h) :=
  ⟨⟨noTrace_of LE.correct (cut_fromPasses LE.correct LE.unwinds hv id counted parts h)
        (out_fromPasses LE.correct LE.unwinds LE.agrees hv id _ _ h) (triU_fromPasses LE.correct LE.unwinds hv id counted parts h),
      noTrace_of UE.correct (cut_fromPasses UE.correct UE.unwinds hv id counted parts h)
        (out_fromPasses UE.correct UE.unwinds UE.agrees hv id _ _ h) (triU_fromPasses UE.correct UE.unwinds hv id counted parts h)⟩,
    ⟨noTrace_of LE.correct (cut_fromPassesIndefinite LE.correct LE.unwinds hv id counted parts h)
        (out_fromPassesIndefinite LE.correct LE.unwinds LE.agrees hv id _ _ h) (triU_fromPassesIndefinite LE.correct LE.unwinds hv id counted parts h),
      noTrace_of UE.correct (cut_fromPassesIndefinite UE.correct UE.unwinds hv id counted parts h)
        (out_fromPassesIndefinite UE.correct UE.unwinds UE.agrees hv id _ _ h) (triU_fromPassesIndefinite UE.correct UE.unwinds hv id counted parts h)⟩⟩

/-- **C99.** The constructors, for any arguments: sizes beyond the limit make them panic. -/
theorem C99_new (m : Build) (al : Allocator) (hv : al.Valid) (h : Heap) (id contents : Bytes) (n : Nat) :
    (NoTrace (Raw.Der.newU littleU m al id contents) (Raw.Der.new little m al id contents) h ∧
      NoTrace (Raw.Der.newU universalU m al id contents) (Raw.Der.new universal m al id contents) h) ∧
    (NoTrace (Raw.Der.withIdLengthU littleU m al id n) (Raw.Der.withIdLength little m al id n) h ∧
      NoTrace (Raw.Der.withIdLengthU universalU m al id n) (Raw.Der.withIdLength universal m al id n) h) ∧
    (NoTrace (Raw.Ber.newIndefiniteU littleU m al id contents) (Raw.Ber.newIndefinite little m al id contents) h ∧
      NoTrace (Raw.Ber.newIndefiniteU universalU m al id contents) (Raw.Ber.newIndefinite universal m al id contents) h) ∧
    (NoTrace (Raw.Ber.withIdLengthIndefiniteU littleU m al id n) (Raw.Ber.withIdLengthIndefinite little m al id n) h ∧
      NoTrace (Raw.Ber.withIdLengthIndefiniteU universalU m al id n) (Raw.Ber.withIdLengthIndefinite universal m al id n) h) :=
  ⟨⟨noTrace_of LE.correct (.refl _ h) (out_Der_new LE.correct LE.unwinds LE.agrees hv id contents h) (triU_Der_new LE.correct LE.unwinds hv id contents h),
      noTrace_of UE.correct (.refl _ h) (out_Der_new UE.correct UE.unwinds UE.agrees hv id contents h) (triU_Der_new UE.correct UE.unwinds hv id contents h)⟩,
    ⟨noTrace_of LE.correct (.refl _ h) (out_withIdLength LE.correct LE.unwinds LE.agrees hv id n h) (triU_withIdLength LE.correct LE.unwinds hv id n h),
      noTrace_of UE.correct (.refl _ h) (out_withIdLength UE.correct UE.unwinds UE.agrees hv id n h) (triU_withIdLength UE.correct UE.unwinds hv id n h)⟩,
    ⟨noTrace_of LE.correct (.refl _ h) (out_Ber_newIndefinite LE.correct LE.unwinds LE.agrees hv id contents h)
        (triU_Ber_newIndefinite LE.correct LE.unwinds hv id contents h),
      noTrace_of UE.correct (.refl _ h) (out_Ber_newIndefinite UE.correct UE.unwinds UE.agrees hv id contents h)
        (triU_Ber_newIndefinite UE.correct UE.unwinds hv id contents h)⟩,
    ⟨noTrace_of LE.correct (.refl _ h) (out_withIdLengthIndefinite LE.correct LE.unwinds LE.agrees hv id n h)
        (triU_withIdLengthIndefinite LE.correct LE.unwinds hv id n h),
      noTrace_of UE.correct (.refl _ h) (out_withIdLengthIndefinite UE.correct UE.unwinds UE.agrees hv id n h)
        (triU_withIdLengthIndefinite UE.correct UE.unwinds hv id n h)⟩⟩

/-- **C99.** `to_der` and `to_ber` of a value any of whose methods may panic, return errors, or tell wrong sizes.  (No slice is longer than `isize::MAX`; a
`usize` is less than 2⁶⁴.) -/
theorem C99_to_der {α : Type} (s : Ser α) (value : α) (m : Build) (al : Allocator) (hv : al.Valid) (h : Heap)
    (hid : ∀ c ∈ (s.writeId value).chunks, c.length ≤ isizeMax) (hct : ∀ c ∈ (s.writeDerContents value).chunks, c.length ≤ isizeMax)
    (hn : ∀ n, s.derContentsLen value = .ok (some n) → n < 2 ^ 64) :
    NoTraceSer (Raw.toDerU littleU m al s value) (Raw.toDer little m al s value) h ∧
    NoTraceSer (Raw.toDerU universalU m al s value) (Raw.toDer universal m al s value) h :=
  ⟨noTraceSer_of LE.correct (out_toDer LE.correct le_inline LE.unwinds LE.agrees hv hid hct hn h) (triU_toDer LE.correct le_inline LE.unwinds hv hid hct hn h),
    noTraceSer_of UE.correct (out_toDer UE.correct ue_inline UE.unwinds UE.agrees hv hid hct hn h)
      (triU_toDer UE.correct ue_inline UE.unwinds hv hid hct hn h)⟩

/-! ### Methods -/

/-- **C99.** The methods of `Buffer`, on any buffer a program that keeps the rules can get: if `reserve`, `Write::write` or an assignment to an index panics,
the buffer is as it was. -/
theorem C99_buffer (m : Build) (al : Allocator) (hv : al.Valid) (h0 h : Heap) (abs : List AObj) (i n k : Nat) (o : UInt8) (vals : Bytes)
    (hl : vals.length ≤ isizeMax) :
    (∀ objs b, History little m al h0 objs h abs → objs[i]? = some (.buf b) → NoTraceMut (littleU.reserve m al n) b (little.reserve m al b n) h ∧
      NoTraceMut (littleU.setAt k o) b (little.setAt b k o) h ∧ NoTraceMut (littleU.write m al vals) b (little.write m al b vals) h) ∧
    (∀ objs b, History universal m al h0 objs h abs → objs[i]? = some (.buf b) → NoTraceMut (universalU.reserve m al n) b (universal.reserve m al b n) h ∧
      NoTraceMut (universalU.setAt k o) b (universal.setAt b k o) h ∧ NoTraceMut (universalU.write m al vals) b (universal.write m al b vals) h) := by
  constructor
  · intro objs b hh e
    obtain ⟨fps, hi⟩ := History.inv LE.correct hv hh
    obtain ⟨v, f, s, ea, ef, h1, h2, h3⟩ := hi.buf e
    exact ⟨noTraceMut_like (LE.unwinds.reserve m al n b h), noTraceMut_like (LE.unwinds.setAt k o b h),
      noTraceMut_of (fin_write LE.agrees vals _ b) (tri_write_intact LE.correct le_inline LE.unwinds hv h1 hl)⟩
  · intro objs b hh e
    obtain ⟨fps, hi⟩ := History.inv UE.correct hv hh
    obtain ⟨v, f, s, ea, ef, h1, h2, h3⟩ := hi.buf e
    exact ⟨noTraceMut_like (UE.unwinds.reserve m al n b h), noTraceMut_like (UE.unwinds.setAt k o b h),
      noTraceMut_of (fin_write UE.agrees vals _ b) (tri_write_intact UE.correct ue_inline UE.unwinds hv h1 hl)⟩

/-- **C99.** `extend_from_slice` and `truncate` of `Der` and `Ber` and `set_number` of `Id`, on any value a program can get to, also after panics it caught: if
one panics (there is not enough address space), the value is as it was. -/
theorem C99_mut (m : Build) (al : Allocator) (hv : al.Valid) (h0 h : Heap) (vals : List TVal) (i : Nat) (v : TVal) (ev : vals[i]? = some v) :
    (∀ objs b u x, CHistory littleU m al h0 objs h vals → objs[i]? = some (.buf b) → Editing littleU m al v u x → NoTraceMut u b (x b) h) ∧
    (∀ objs b u x, CHistory universalU m al h0 objs h vals → objs[i]? = some (.buf b) → Editing universalU m al v u x → NoTraceMut u b (x b) h) := by
  have key : ∀ {I : Impl} {Rep : I.B → Heap → List Cell → Nat → Option Nat → Prop} {init : Nat} {V : UImpl I}, Correct I Rep → Inline I Rep init →
      Unwinds V Rep → Agrees V → ∀ objs b u x, CHistory V m al h0 objs h vals → objs[i]? = some (.buf b) → Editing V m al v u x → NoTraceMut u b (x b) h := by
    intro I Rep init V hc hi hu ha objs b u x hh eo he
    obtain ⟨hg, fps, hinv⟩ := CHistory.inv hc hi hu ha hv hh
    have hv1 : v ≠ .gone := by rintro rfl; cases he
    have hv2 : ∀ bs, v ≠ .vec bs := by rintro bs rfl; cases he
    obtain ⟨a, f, ea, ef, hr⟩ := hinv.at eo
    rw [List.getElem?_map, ev] at ea
    cases ea
    obtain ⟨b1, e1, hb⟩ := obj_buf hv1 hv2 hr
    cases e1
    exact editing_noTrace hc hi hu ha hv he (hg v (List.mem_of_getElem? ev)) hb
  exact ⟨key LE.correct le_inline LE.unwinds LE.agrees, key UE.correct ue_inline UE.unwinds UE.agrees⟩

/-! ### Programs that catch panics -/

/-- **C99.** A program that catches panics and goes on: its values are as if the calls that panicked had not been made, and each block has exactly one owner. -/
theorem C99_caught (m : Build) (al : Allocator) (hv : al.Valid) (h0 h : Heap) (vals : List TVal) :
    (∀ objs, CHistory littleU m al h0 objs h vals → (objs.length = vals.length ∧
      ∀ (i : Nat) o v, objs[i]? = some o → vals[i]? = some v → HoldsVal o h v) ∧ BlocksOwned little ownerLE h0 objs h) ∧
    (∀ objs, CHistory universalU m al h0 objs h vals → (objs.length = vals.length ∧
      ∀ (i : Nat) o v, objs[i]? = some o → vals[i]? = some v → HoldsVal o h v) ∧ BlocksOwned universal ownerUE h0 objs h) := by
  constructor
  · intro objs hh
    obtain ⟨_, fps, hi⟩ := CHistory.inv LE.correct le_inline LE.unwinds LE.agrees hv hh
    exact ⟨inv_values LE.correct hi, inv_owned_LE hi⟩
  · intro objs hh
    obtain ⟨_, fps, hi⟩ := CHistory.inv UE.correct ue_inline UE.unwinds UE.agrees hv hh
    exact ⟨inv_values UE.correct hi, inv_owned_UE hi⟩

/-- **C99.** Its further calls work: there is neither undefined behaviour nor a panic because of a panic before. -/
theorem C99_goes_on (m : Build) (al : Allocator) (hv : al.Valid) (h0 h : Heap) (vals vals' : List TVal) (op : TOp) (hd : Does vals op vals') :
    (∀ objs, CHistory littleU m al h0 objs h vals → tstep m al objs op h = .abort ∨
      ∃ objs' h', tstep m al objs op h = .ok objs' h' ∧ CHistory littleU m al h0 objs' h' vals') ∧
    (∀ objs, CHistory universalU m al h0 objs h vals → tstep m al objs op h = .abort ∨
      ∃ objs' h', tstep m al objs op h = .ok objs' h' ∧ CHistory universalU m al h0 objs' h' vals') := by
  have key : ∀ {I : Impl} {Rep : I.B → Heap → List Cell → Nat → Option Nat → Prop} {init : Nat} {V : UImpl I}, Correct I Rep → Inline I Rep init →
      Unwinds V Rep → Agrees V → ∀ objs, CHistory V m al h0 objs h vals → tstep m al objs op h = .abort ∨
      ∃ objs' h', tstep m al objs op h = .ok objs' h' ∧ CHistory V m al h0 objs' h' vals' := by
    intro I Rep init V hc hi hu ha objs hh
    obtain ⟨hg, fps, hinv⟩ := CHistory.inv hc hi hu ha hv hh
    rcases (does_inv (m := m) hc hv hinv hg hd).2 with e | ⟨objs', h', _, e, _⟩
    · exact .inl e
    · exact .inr ⟨objs', h', e, hh.step hd e⟩
  exact ⟨key LE.correct le_inline LE.unwinds LE.agrees, key UE.correct ue_inline UE.unwinds UE.agrees⟩

/-! ### Cases that meet the hypotheses -/

/-- A panic after `n` calls of the allocator. -/
def unwoundAfter {α : Type} (n : Nat) : UOut α → Bool
  | .unwind h => h.clock == n
  | _ => false

theorem unwound_of {I : Impl} {σ : Type} {u : U (Except Error I.B × σ)} {x : M (Except Error I.B × σ)} {h : Heap} {n : Nat} (h1 : NoTraceParse u x h)
    (h2 : unwoundAfter n (u h) = true) : ∃ h', u h = .unwind h' ∧ h'.clock = n ∧ h'.blocks = h.blocks := by
  unfold NoTraceParse at h1
  cases e : u h with
  | unwind h' =>
    rw [e] at h1 h2
    exact ⟨h', rfl, by simpa [unwoundAfter] using h2, h1⟩
  | _ => rw [e] at h2; simp [unwoundAfter] at h2

theorem parse_unwound {σ : Type} [Reader σ] (m : Build) (p : IoKind → Bool) (rd : Nat → σ → ReadEffect σ) (s : σ) {n : Nat}
    (h2 : unwoundAfter n (Raw.Der.parseU littleU m bump p rd s noHeap) = true) :
    ∃ h', Raw.Der.parseU littleU m bump p rd s noHeap = .unwind h' ∧ h'.clock = n ∧ h'.blocks = noHeap.blocks :=
  unwound_of (C99_parse m bump bump_valid noHeap p rd s).1.1 h2

/-- A panic in a method. -/
def unwoundMut {B : Type} : MOut B Unit → Bool
  | .unwind _ _ => true
  | _ => false

theorem unwoundMut_of {I : Impl} {u : Meth I.B Unit} {b : I.B} {x : M I.B} {h : Heap} (h1 : NoTraceMut u b x h) (h2 : unwoundMut (u b h) = true) :
    ∃ b' h', u b h = .unwind b' h' ∧ b' = b ∧ h'.blocks = h.blocks := by
  unfold NoTraceMut at h1
  cases e : u b h with
  | unwind b' h' =>
    rw [e] at h1
    exact ⟨b', h', rfl, h1.2⟩
  | _ => rw [e] at h2; simp [unwoundMut] at h2

/-- The reader panics instead of returning this. -/
def dies : IoKind → Bool
  | .other 1 => true
  | _ => false

/-- A reader that gives 30 octets of an identifier and panics then. -/
def panicky : Script := [.chunk (0x1f :: List.replicate 29 0x81), .fail (.other 1)]

/-- It panics when the buffer has moved to the heap (and was reallocated for each further octet), in both layouts and for all three parsers. -/
example (m : Build) : unwoundAfter 7 (Raw.Der.parseU littleU m bump dies honestRead panicky noHeap) = true ∧
    unwoundAfter 14 (Raw.Ber.parseU universalU m bump dies honestReadExact panicky noHeap) = true ∧
    unwoundAfter 7 (Raw.Id.parseU littleU m bump dies panicky noHeap) = true := by
  cases m <;> decide +kernel

/-- The blocks are as before. -/
example (m : Build) : ∃ h', Raw.Der.parseU littleU m bump dies honestRead panicky noHeap = .unwind h' ∧ h'.clock = 7 ∧
    h'.blocks = noHeap.blocks := by
  exact parse_unwound m dies honestRead panicky (by cases m <;> decide +kernel)

/-- A reader that writes part of the contents and panics while doing so. -/
def panickyRead (n : Nat) (s : Bytes) : ReadEffect Bytes := ⟨s.take (n / 2), .panic, s.drop (n / 2)⟩

example (m : Build) : unwoundAfter 1 (Raw.Der.parseU littleU m bump (fun _ => false) panickyRead ([0x04, 0x20] ++ List.replicate 32 7 : Bytes) noHeap) = true ∧
    unwoundAfter 1 (Raw.Ber.parseU universalU m bump (fun _ => false) panickyRead ([0x04, 0x20] ++ List.replicate 32 7 : Bytes) noHeap) = true := by
  cases m <;> decide +kernel

/-- An iterator that panics after the first of three items, when the buffer is there; and one whose clone panics. -/
example (m : Build) : unwoundAfter 1 (Raw.Der.fromPassesU littleU m bump [0x04] ([octets, octets, [1]], false) ([octets], true) noHeap) = true ∧
    unwoundAfter 0 (Raw.Ber.fromPassesIndefiniteU universalU m bump [0x30] ([octets], true) ([octets, octets], false) noHeap) = true := by
  cases m <;> decide +kernel

example (m : Build) := C99_from_id_iterator m bump bump_valid noHeap [0x04] ([octets, octets, [1]], false) ([octets], true)

/-- A length that is too large. -/
example (m : Build) : unwoundAfter 0 (Raw.Der.withIdLengthU littleU m bump [0x04] (2 ^ 63) noHeap) = true ∧
    unwoundAfter 0 (Raw.Ber.withIdLengthIndefiniteU universalU m bump [0x30] (2 ^ 63) noHeap) = true := by
  cases m <;> decide +kernel

example (m : Build) := C99_new m bump bump_valid noHeap [0x30] (List.replicate 40 7) (2 ^ 63)

/-- A value that writes 23 octets, then 10, and panics; it does not know its size. -/
def panickySer : Ser Unit where
  writeId _ := ⟨[[0x04]], .ok ()⟩
  writeDerContents _ := ⟨[octets, List.replicate 10 0], .panic⟩
  idLen _ := .ok (some 1)
  derContentsLen _ := .ok none

/-- The same, but the size is told: the panic comes when the header is written, to another buffer. -/
def panickySer' : Ser Unit := { panickySer with derContentsLen := fun _ => .ok (some 33) }

example (m : Build) : unwoundAfter 1 (Raw.toDerU littleU m bump panickySer () noHeap) = true ∧
    unwoundAfter 2 (Raw.toDerU universalU m bump panickySer () noHeap) = true ∧ unwoundAfter 1 (Raw.toDerU littleU m bump panickySer' () noHeap) = true := by
  cases m <;> decide +kernel

example (m : Build) := C99_to_der panickySer () m bump bump_valid noHeap (by decide +kernel) (by decide +kernel) (fun n e => by cases e)

/-- `reserve` of more than fits in the address space, on a buffer that holds three octets. -/
example : ∃ objs h abs, History little .debug bump noHeap objs h abs ∧ ∃ b, objs[0]? = some (.buf b) ∧ ∃ b' h',
    littleU.reserve .debug bump (2 ^ 63) b h = .unwind b' h' ∧ b' = b ∧ h'.blocks = h.blocks := by
  have s1 : History little .debug bump noHeap _ _ _ := .step (op := .fromSlice [1, 2, 3]) .start (by change _ ≤ _; decide) rfl
  refine ⟨_, _, _, s1, _, rfl, ?_⟩
  exact unwoundMut_of ((C99_buffer .debug bump bump_valid _ _ _ 0 (2 ^ 63) 0 0 [] (by decide +kernel)).1 _ _ s1 rfl).1 (by decide +kernel)

/-- Two values are made, a parser panics, the program goes on with the first value. -/
example : ∃ objs h, CHistory littleU .debug bump noHeap objs h [.der (idOctets 2 0 4) (octets ++ [1, 2]), .vec [0x30, 0x80, 0x00, 0x00], .gone] ∧ h.clock = 10 := by
  have hb : (match trun (I := little) .debug bump someOps [] noHeap with
    | .ok _ h => unwoundAfter 10 (Raw.Der.parseU littleU .debug bump dies honestRead panicky h)
    | _ => false) = true := by decide +kernel
  split at hb
  · rename_i objs h e
    have hh := chistory_of (V := littleU) (thistory_run someOps_does .start e)
    cases e2 : Raw.Der.parseU littleU .debug bump dies honestRead panicky h with
    | unwind h' =>
      rw [e2] at hb
      exact ⟨_, _, hh.caught (.derParse _ _ _) e2, by simpa [unwoundAfter] using hb⟩
    | _ => rw [e2] at hb; simp [unwoundAfter] at hb
  · simp at hb

/-- More octets than there is address space for, appended to a value that a program made. -/
example (objs : List (Obj little)) (h : Heap) (b : LE) (eo : objs[0]? = some (.buf b))
    (hh : CHistory littleU .debug bump noHeap objs h [.der (idOctets 2 0 4) (octets ++ [1, 2]), .vec [0x30, 0x80, 0x00, 0x00], .gone]) :=
  (C99_mut .debug bump bump_valid noHeap h _ 0 _ rfl).1 objs b _ _ hh eo (.derExtend (List.replicate isizeMax 0) (by simp))

end Bsn1
