import Verif.Props.Raw
import Verif.Lemmas.RawGrowth
import Verif.Spec.Handover
/-!
# Conversions: what happens to the block
-/

namespace Bsn1.Raw
open Bsn1.Buf Bsn1.Spec

/-- What conversions rely on: the block of a buffer is that of the vector. -/
structure Hands (I : Impl) (Rep : I.B → Heap → List Cell → Nat → Option Nat → Prop) (ow : I.B → Option Nat) : Prop where
  correct : Correct I Rep
  owner : ∀ {b h s l fp}, Rep b h s l fp → ow b = fp
  pos : ∀ {b h s l p}, Rep b h s l (some p) → 0 < s.length
  intoHeap : ∀ {al : Allocator} {b h s l p}, Rep b h s l (some p) → I.intoVec al b h = .ok ⟨p, s.length, l⟩ h
  intoInline : ∀ {al : Allocator} {b h s l} {vals : Bytes}, Rep b h s l none → s.take l = vals.map some →
    I.intoVec al b h = mkVec al vals 0 h

theorem le_hands : Hands little LE.Rep ownerLE where
  correct := LE.correct
  owner := ownerLE_eq
  pos := by
    intro b h s l p hr
    obtain ⟨v, hi, hh⟩ := hr
    cases hh with
    | heap h1 h2 h3 h4 h5 h6 => exact h4
  intoHeap := by
    intro al b h s l p hr
    obtain ⟨v, hi, hh⟩ := hr
    change LE.intoVec al b h = _
    unfold LE.intoVec
    cases hh with
    | @heap p len _ cells h1 h2 h3 h4 h5 h6 =>
      rw [LE.HeapAt.isStack hi, if_neg (by decide), LE.HeapAt.data_ hi, LE.HeapAt.cap_ hi, LE.HeapAt.len hi, pure_run]
  intoInline := by
    intro al b h s l vals hr hs
    have hc := LE.rep_cells hr
    rw [hs] at hc
    obtain ⟨v, hi, hh⟩ := hr
    change LE.intoVec al b h = _
    unfold LE.intoVec
    cases hh with
    | @inline data len _ h1 h2 =>
      rw [LE.InlineAt.isStack hi, if_pos rfl, bind_ok hc, bind_ok (assumeInit_ok _ h)]

theorem ue_hands : Hands universal UE.Rep ownerUE where
  correct := UE.correct
  owner := ownerUE_eq
  pos := by
    intro b h s l p hr
    obtain ⟨v, hi, hh⟩ := hr
    cases hh with
    | heap h1 h2 h3 h4 h5 h6 => exact h4
  intoHeap := by
    intro al b h s l p hr
    obtain ⟨v, hi, hh⟩ := hr
    change UE.intoVec al b h = _
    unfold UE.intoVec
    cases hh with
    | @heap p len _ cells h1 h2 h3 h4 h5 h6 =>
      rw [hi.1, UE.heap_isStack hi.2, if_neg (by decide), bind_ok (UE.heapField_run _ p s.length h), UE.heap_len hi.2, pure_run]
  intoInline := by
    intro al b h s l vals hr hs
    have hc := UE.rep_cells hr
    rw [hs] at hc
    obtain ⟨v, hi, hh⟩ := hr
    change UE.intoVec al b h = _
    unfold UE.intoVec
    cases hh with
    | @inline data len _ h1 h2 =>
      have hst : b.isStack = true := by rw [hi.1, UE.inline_isStack hi.2]
      rw [hst, if_pos rfl, bind_ok hc, bind_ok (assumeInit_ok _ h)]

variable {I : Impl} {Rep : I.B → Heap → List Cell → Nat → Option Nat → Prop} {ow : I.B → Option Nat} {h0 h : Heap} {objs : List (Obj I)}
  {vals vals' : List TVal} {m : Build} {al : Allocator} {fps : List (Option Nat)} {i : Nat} {op : TOp} {ops : List TOp}

/-- What a conversion needs and keeps. -/
theorem moves_does (hm : Moves i op) (hd : Does vals op vals') : ∃ v v', vals[i]? = some v ∧ vals' = vals.set i v' ∧
    v'.octets = v.octets ∧ (op = .fromVec i ∧ (∃ bs, v = .vec bs) ∨
      (op = .berFromDer i ∨ op = .intoVec i) ∧ v ≠ .gone ∧ (∀ bs, v ≠ .vec bs)) := by
  rcases hm with rfl | rfl | rfl
  · cases hd with
    | make hk => cases hk
    | change e hk =>
      cases hk with
      | fromVecDer h1 => exact ⟨_, _, e, rfl, rfl, .inl ⟨rfl, _, rfl⟩⟩
      | fromVecIndef h1 => exact ⟨_, _, e, rfl, rfl, .inl ⟨rfl, _, rfl⟩⟩
      | fromVecContents => exact ⟨_, _, e, rfl, rfl, .inl ⟨rfl, _, rfl⟩⟩
  · cases hd with
    | make hk => cases hk
    | change e hk => cases hk with | berFromDer => exact ⟨_, _, e, rfl, rfl, .inr ⟨.inl rfl, by simp, by simp⟩⟩
  · cases hd with
    | make hk => cases hk
    | change e hk => cases hk with | intoVec h1 h2 => exact ⟨_, _, e, rfl, rfl, .inr ⟨.inr rfl, h1, h2⟩⟩

theorem Obj.owner_buf {b : I.B} : Obj.owner ow (.buf b) = ow b := rfl

/-- One conversion of what owns a block: the block goes over, and memory is not touched. -/
theorem moves_owned (hh : Hands I Rep ow) (hi : Inv Rep h0 objs h (vals.map absOf) fps) {o : Obj I} {p : Nat} (eo : objs[i]? = some o)
    (hp : o.owner ow = some p) (hm : Moves i op) (hd : Does vals op vals') :
    ∃ o', tstep m al objs op h = .ok (objs.set i o') h ∧ o'.owner ow = some p := by
  obtain ⟨v, v', ev, -, -, hk⟩ := moves_does hm hd
  obtain ⟨a, f, ha, hf, hr⟩ := hi.at eo
  rw [List.getElem?_map, ev] at ha
  cases ha
  rcases hk with ⟨rfl, bs, rfl⟩ | ⟨hk, h1, h2⟩
  · cases o with
    | gone => exact hr.elim
    | buf b => exact hr.elim
    | vec r =>
      obtain ⟨s, k1, k2, k3⟩ := hr
      obtain ⟨s', h4, h5⟩ := hh.correct.fromVec k1
      refine ⟨.buf (I.fromVec r), by simp only [tstep, eo]; rfl, ?_⟩
      rw [Obj.owner_buf, hh.owner h4, ← hp]
      simp only [AVec.ofBytes] at k1
      generalize bs.length = l at k1
      cases k1 with
      | empty => rfl
      | block a1 a2 a3 a4 a5 a6 => rw [Obj.owner, if_neg (by simp only; omega)]
  · obtain ⟨b, rfl, R, hb⟩ := obj_buf h1 h2 hr
    rw [Obj.owner_buf, hh.owner hb] at hp
    subst hp
    rcases hk with rfl | rfl
    · exact ⟨.buf b, onBuf_ok (x := fun b => (pure (Ber.fromDer I b) : M I.B)) (g := Obj.buf) eo rfl, hh.owner hb⟩
    · refine ⟨_, onBuf_ok (g := Obj.vec) eo (hh.intoHeap hb), ?_⟩
      have := hh.pos hb
      rw [Obj.owner, if_neg (by simp only; omega)]

/-- One conversion of what owns no block: nothing happens, or the octets go to a new block, which is just large enough. -/
theorem moves_inline (hh : Hands I Rep ow) (hv : al.Valid) (hi : Inv Rep h0 objs h (vals.map absOf) fps) {o : Obj I} {v : TVal}
    (eo : objs[i]? = some o) (ev : vals[i]? = some v) (hp : o.owner ow = none) (hm : Moves i op) (hd : Does vals op vals') :
    (∃ o', tstep m al objs op h = .ok (objs.set i o') h ∧ o'.owner ow = none) ∨
    (op = .intoVec i ∧ (tstep m al objs op h = .abort ∨
      ∃ o' p, tstep m al objs op h = .ok (objs.set i o') ⟨h.blocks.put p (some (v.octets.map some)), h.clock + 1⟩ ∧
        h.blocks p = none ∧ o'.owner ow = some p)) := by
  obtain ⟨v, v', ev', -, -, hk⟩ := moves_does hm hd
  rw [ev] at ev'
  cases ev'
  obtain ⟨a, f, ha, hf, hr⟩ := hi.at eo
  rw [List.getElem?_map, ev] at ha
  cases ha
  rcases hk with ⟨rfl, bs, rfl⟩ | ⟨hk, h1, h2⟩
  · left
    cases o with
    | gone => exact hr.elim
    | buf b => exact hr.elim
    | vec r =>
      obtain ⟨s, k1, k2, k3⟩ := hr
      obtain ⟨s', h4, h5⟩ := hh.correct.fromVec k1
      refine ⟨.buf (I.fromVec r), by simp only [tstep, eo]; rfl, ?_⟩
      rw [Obj.owner_buf, hh.owner h4, ← hp]
      simp only [AVec.ofBytes] at k1
      generalize bs.length = l at k1
      cases k1 with
      | empty => rfl
      | block a1 a2 a3 a4 a5 a6 => rw [Obj.owner, if_neg (by simp only; omega)]
  · obtain ⟨b, rfl, R, hb⟩ := obj_buf h1 h2 hr
    rw [Obj.owner_buf, hh.owner hb] at hp
    subst hp
    rcases hk with rfl | rfl
    · exact .inl ⟨.buf b, onBuf_ok (x := fun b => (pure (Ber.fromDer I b) : M I.B)) (g := Obj.buf) eo rfl, hh.owner hb⟩
    · have e := hh.intoInline (al := al) hb (take_of_append (by simp))
      have hbd := hh.correct.bound hb
      simp only [List.length_append, List.length_map] at hbd
      rw [mkVec] at e
      by_cases h0 : v.octets.length = 0
      · rw [if_pos (by omega), pure_run] at e
        exact .inl ⟨_, onBuf_ok (g := Obj.vec) eo e, rfl⟩
      · refine .inr ⟨rfl, ?_⟩
        rw [if_neg (by omega), if_neg (by omega)] at e
        cases ha : al h.clock h.blocks (v.octets.length + 0) with
        | none =>
          have e1 : alloc al (v.octets.length + 0) h = .ok 0 ⟨h.blocks, h.clock + 1⟩ := by
            rw [alloc, if_neg (by omega), ha]
          rw [bind_ok e1, if_pos rfl] at e
          exact .inl (onBuf_abort (g := Obj.vec) eo e)
        | some pc =>
          obtain ⟨p, cells⟩ := pc
          obtain ⟨a1, a2, a3, a4⟩ := hv _ _ _ _ _ ha
          have e1 : alloc al (v.octets.length + 0) h = .ok p ⟨h.blocks.put p (some cells), h.clock + 1⟩ := by
            rw [alloc, if_neg (by omega), ha]
          have e2 : store p 0 (v.octets.map some) ⟨h.blocks.put p (some cells), h.clock + 1⟩ =
              .ok () ⟨h.blocks.put p (some (v.octets.map some)), h.clock + 1⟩ := by
            have : (h.blocks.put p (some cells)) p = some cells := by simp [Blocks.put]
            simp only [store, this, List.length_map]
            rw [if_pos (by omega), List.drop_eq_nil_of_le (by omega)]
            congr 2
            funext q
            simp only [Blocks.put, List.take_zero, List.nil_append, List.append_nil]
            split <;> rfl
          rw [bind_ok e1, if_neg (by omega), bind_ok e2, pure_run] at e
          refine .inr ⟨_, p, onBuf_ok (g := Obj.vec) eo e, a3, ?_⟩
          rw [Obj.owner, if_neg (by simp only; omega)]

theorem getElem?_set_of {α : Type} {l : List α} {i : Nat} {o o' : α} (e : l[i]? = some o) : (l.set i o')[i]? = some o' := by
  have hl : i < l.length := by
    rcases Nat.lt_or_ge i l.length with hl | hl
    · exact hl
    · rw [List.getElem?_eq_none hl] at e; simp at e
  rw [List.getElem?_set_self hl]

theorem set_same {α : Type} {l : List α} {i : Nat} {o : α} (e : l[i]? = some o) : l.set i o = l := by
  obtain ⟨hl, rfl⟩ := List.getElem?_eq_some_iff.mp e
  exact List.set_getElem_self hl

/-- Any number of conversions of what owns a block. -/
theorem moves_all_owned (hh : Hands I Rep ow) (hv : al.Valid) {p : Nat} (hd : DoesAll vals ops vals') (hm : ∀ op ∈ ops, Moves i op) :
    ∀ {objs : List (Obj I)} {o : Obj I}, THistory I m al h0 objs h vals → objs[i]? = some o → o.owner ow = some p →
    ∃ o', trun m al ops objs h = .ok (objs.set i o') h ∧ o'.owner ow = some p := by
  induction hd with
  | nil =>
    intro objs o hi eo hp
    refine ⟨o, ?_, hp⟩
    rw [trun, pure_run, set_same eo]
  | @cons vals op vals1 r vals2 h1 h2 ih =>
    intro objs o hi eo hp
    obtain ⟨_, fps, hinv⟩ := THistory.inv hh.correct hv hi
    obtain ⟨o1, e1, hp1⟩ := moves_owned (m := m) (al := al) hh hinv eo hp (hm op (by simp)) h1
    obtain ⟨o2, e2, hp2⟩ := ih (fun op' ho => hm op' (by simp [ho])) (hi.step h1 e1) (getElem?_set_of eo) hp1
    refine ⟨o2, ?_, hp2⟩
    rw [trun, bind_ok e1, e2, List.set_set]

/-- Any number of conversions of what owns no block. -/
theorem moves_all_inline (hh : Hands I Rep ow) (hv : al.Valid) {w : Bytes} (hd : DoesAll vals ops vals') (hm : ∀ op ∈ ops, Moves i op) :
    ∀ {objs : List (Obj I)} {o : Obj I} {v : TVal}, THistory I m al h0 objs h vals → objs[i]? = some o → vals[i]? = some v → v.octets = w →
    o.owner ow = none →
    (trun m al ops objs h = .abort ∧ .intoVec i ∈ ops) ∨
    (∃ o', trun m al ops objs h = .ok (objs.set i o') h ∧ o'.owner ow = none) ∨
    (∃ o' p, trun m al ops objs h = .ok (objs.set i o') ⟨h.blocks.put p (some (w.map some)), h.clock + 1⟩ ∧
      h.blocks p = none ∧ o'.owner ow = some p ∧ .intoVec i ∈ ops) := by
  induction hd with
  | nil =>
    intro objs o v hi eo ev hw hp
    refine .inr (.inl ⟨o, ?_, hp⟩)
    rw [trun, pure_run, set_same eo]
  | @cons vals op vals1 r vals2 h1 h2 ih =>
    intro objs o v hi eo ev hw hp
    obtain ⟨_, fps, hinv⟩ := THistory.inv hh.correct hv hi
    have hm1 := hm op (by simp)
    have hm2 : ∀ op ∈ r, Moves i op := fun op' ho => hm op' (by simp [ho])
    rcases moves_inline (m := m) hh hv hinv eo ev hp hm1 h1 with ⟨o1, e1, hp1⟩ | ⟨rfl, e1 | ⟨o1, p, e1, hf, hp1⟩⟩
    · obtain ⟨v1, v1', ev1, rfl, hoct, _⟩ := moves_does hm1 h1
      rw [ev] at ev1
      cases ev1
      rcases ih hm2 (hi.step h1 e1) (getElem?_set_of eo) (getElem?_set_of ev) (hoct.trans hw) hp1 with ⟨e2, k⟩ | ⟨o2, e2, hp2⟩ | ⟨o2, p, e2, hf, hp2, k⟩
      · exact .inl ⟨by rw [trun, bind_ok e1, e2], by simp [k]⟩
      · exact .inr (.inl ⟨o2, by rw [trun, bind_ok e1, e2, List.set_set], hp2⟩)
      · exact .inr (.inr ⟨o2, p, by rw [trun, bind_ok e1, e2, List.set_set], hf, hp2, by simp [k]⟩)
    · exact .inl ⟨by rw [trun, bind_abort e1], by simp⟩
    · obtain ⟨o2, e2, hp2⟩ := moves_all_owned hh hv h2 hm2 (hi.step h1 e1) (getElem?_set_of eo) hp1
      refine .inr (.inr ⟨o2, p, ?_, hf, hp2, by simp⟩)
      rw [trun, bind_ok e1, e2, List.set_set, hw]

/-! ### Copies -/

/-- A layout that takes what fits inline. -/
structure Tight (I : Impl) (Rep : I.B → Heap → List Cell → Nat → Option Nat → Prop) (init : Nat) : Prop extends Exact I Rep init where
  small : ∀ m al n h, n ≤ init → I.withCapacity m al n h = .ok I.new h
  clone : ∀ m {al : Allocator} {b h s l fp} {vals : Bytes}, al.Valid → Rep b h s l fp → s.take l = vals.map some → vals.length = l →
    I.clone m al b h = I.fromSlice m al vals h

theorem le_small : Tight little LE.Rep 23 where
  toExact := le_exact
  small m al n h hn := by
    change LE.withCapacity m al n h = .ok LE.new h
    have e : LE.new.len + n < usizeSize := by rw [show LE.new.len = 0 from by decide +kernel, usizeSize_eq]; omega
    have e1 : usizeAdd m LE.new.len n h = .ok (LE.new.len + n) h := by
      unfold usizeAdd
      rw [if_pos e]
      rfl
    rw [LE.withCapacity, LE.reserve, bind_ok e1]
    rw [if_pos (by rw [show LE.new.len = 0 from by decide +kernel, show LE.new.capacity = 23 from by decide +kernel]; omega)]
    rfl
  clone m al b h s l fp vals hv hr hs hl := by
    have hbd := LE.rep_bound hr
    change LE.clone m al b h = (LE.withCapacity m al vals.length >>= fun b => LE.extend b vals) h
    unfold LE.clone
    rw [LE.rep_len hr, hl]
    rcases LE.rep_withCapacity m l h hv (by omega) with e | ⟨b', h', fp', s', e, h1, h2, h3⟩
    · rw [bind_abort e, bind_abort e]
    · have hr' : LE.Rep b h' s l fp := hr.near fun p e' => by
        subst e'
        obtain ⟨v, _, hh⟩ := hr
        rw [h3.keeps hh.live, hh.live]
      have hc := LE.rep_cells hr'
      rw [hs] at hc
      rw [bind_ok e, bind_ok e, bind_ok hc, bind_ok (assumeInit_ok vals h')]

theorem ue_small : Tight universal UE.Rep 16 where
  toExact := ue_exact
  small m al n h hn := by
    change UE.withCapacity m al n h = .ok UE.new h
    rw [UE.withCapacity, if_pos (by exact hn)]
    rfl
  clone m al b h s l fp vals hv hr hs hl := by
    have hbd := UE.rep_bound hr
    change UE.clone m al b h = (UE.withCapacity m al vals.length >>= fun b => UE.extend m b vals) h
    unfold UE.clone
    rw [UE.rep_len hr, hl]
    rcases UE.rep_withCapacity m l h hv (by omega) with e | ⟨b', h', fp', s', e, h1, h2, h3⟩
    · rw [bind_abort e, bind_abort e]
    · have hr' : UE.Rep b h' s l fp := hr.near fun p e' => by
        subst e'
        obtain ⟨v, _, hh⟩ := hr
        rw [h3.keeps hh.live, hh.live]
      have hc := UE.rep_cells hr'
      rw [hs] at hc
      rw [bind_ok e, bind_ok e, bind_ok hc, bind_ok (assumeInit_ok vals h')]

variable {init : Nat}

/-- `Buffer::from(&[u8])`, with what it costs. -/
theorem cost_fromSlice (hx : Tight I Rep init) (hv : al.Valid) {bs : Bytes} (hb : bs.length ≤ isizeMax) :
    Cost (I.fromSlice m al bs) h none (if bs.length ≤ init then 0 else 1)
      (fun b h fp => Room Rep b h bs (max init bs.length) fp ∧ (fp = none ↔ bs.length ≤ init)) := by
  unfold Impl.fromSlice
  by_cases hle : bs.length ≤ init
  · rw [if_pos hle]
    refine .same (hx.small m al _ h hle) ?_
    obtain ⟨R, hr, hR⟩ := room_new hx.toExact h
    simp only [List.length_nil, List.map_nil, List.nil_append, Nat.zero_add] at hr hR
    obtain ⟨b', h', e, h1, h2⟩ := hx.correct.extend m bs hr (by omega)
    refine .inr ⟨b', h', none, e, ⟨⟨?_, by simp [hle]⟩, ?_⟩, h2⟩
    · rw [patch_zero, Nat.zero_add] at h1
      exact Room.of_append h1 rfl rfl (by simp; omega)
    · exact hx.ticks.extend m I.new bs h b' h' e
  · rw [if_neg hle]
    have := cost_withCapacity (h := h) (m := m) hx.toExact hv hb
    rw [if_neg hle] at this
    refine this.last ?_
    rintro b h fp ⟨s, hr, hs⟩
    have hne : fp ≠ none := by
      rintro rfl
      have := hx.inline.inline hr
      omega
    rcases cost_extend (m := m) hx.toExact hr (vals := bs) (by omega) with e | ⟨b', h', fp', e, q, fr⟩
    · exact .inl e
    obtain ⟨b'', h'', e', h1, h2⟩ := hx.correct.extend m bs hr (by omega)
    rw [e] at e'
    cases e'
    refine .inr ⟨b', h', fp, e, ⟨⟨?_, by simp [hle, hne]⟩, q.2⟩, h2⟩
    rw [patch_zero, Nat.zero_add] at h1
    exact Room.of_append h1 rfl rfl (by simp; omega)

theorem fromSlice_abort (hx : Tight I Rep init) {bs : Bytes} (e : I.fromSlice m al bs h = .abort) : init < bs.length := by
  by_cases hle : bs.length ≤ init
  · unfold Impl.fromSlice at e
    rw [bind_ok (hx.small m al _ h hle)] at e
    obtain ⟨R, hr, hR⟩ := room_new hx.toExact h
    simp only [List.length_nil, List.map_nil, List.nil_append, Nat.zero_add] at hr hR
    obtain ⟨b', h', e', _⟩ := hx.correct.extend m bs hr (by omega)
    rw [e] at e'
    simp at e'
  · omega

/-- A buffer made from another one, as a copy of octets. -/
theorem addFrom_slice (hx : Tight I Rep init) (hv : al.Valid) {f : I.B → M I.B} {b : I.B} {w : Bytes} (eo : objs[i]? = some (.buf b))
    (e : f b h = I.fromSlice m al w h) (hw : w.length ≤ isizeMax) :
    (addFrom objs i f h = .abort ∧ init < w.length) ∨ ∃ b' h' fp, addFrom objs i f h = .ok (objs ++ [.buf b']) h' ∧
      Room Rep b' h' w (max init w.length) fp ∧ (fp = none ↔ w.length ≤ init) ∧
      h'.clock = h.clock + (if w.length ≤ init then 0 else 1) ∧ Frame h h' none fp := by
  simp only [addFrom, eo]
  rcases cost_fromSlice (h := h) (m := m) hx hv hw with e1 | ⟨b', h', fp, e1, ⟨⟨q1, q2⟩, q3⟩, fr⟩
  · exact .inl ⟨bind_abort (e.trans e1), fromSlice_abort hx e1⟩
  · exact .inr ⟨b', h', fp, bind_ok (f := fun b => pure (objs ++ [Obj.buf b])) (e.trans e1), q1, q2, q3, fr⟩

theorem Has.fromSlice_toOwned (hc : Correct I Rep) {b : I.B} {fp : Option Nat} {w : Bytes} (hb : Has Rep b h w fp) :
    toOwned I m al b h = I.fromSlice m al w h := by
  have e : asRef I b h = .ok w h := by rw [asRef, bind_ok (hb.cells hc), assumeInit_ok]
  rw [toOwned, bind_ok e]
  rfl

theorem Has.fromSlice_id (hc : Correct I Rep) {b : I.B} {fp : Option Nat} {hdr id c : Bytes} {L : Length} (hb : Has Rep b h (hdr ++ c) fp)
    (hd : ∀ rest, DerRef.disassemble (hdr ++ rest) = .ok (id, L, rest)) : idToOwned I m al b h = I.fromSlice m al id h := by
  obtain ⟨R, hr⟩ := hb
  rw [List.map_append, List.append_assoc] at hr
  rw [idToOwned, bind_ok (header_ok hc hr (by simp) hd)]
  rfl

theorem Has.fromSlice_contents (hc : Correct I Rep) {b : I.B} {fp : Option Nat} {hdr id c : Bytes} {L : Length} (hb : Has Rep b h (hdr ++ c) fp)
    (hd : ∀ rest, DerRef.disassemble (hdr ++ rest) = .ok (id, L, rest)) : contentsToOwned I m al b h = I.fromSlice m al c h := by
  have hcl := hb.cells hc
  obtain ⟨R, hr⟩ := hb
  rw [List.map_append, List.append_assoc] at hr
  have e : assumeInit (((hdr ++ c).map some).drop hdr.length) h = .ok c h := by
    rw [List.map_append, List.drop_left' (by simp), assumeInit_ok]
  rw [contentsToOwned, bind_ok (header_ok hc hr (by simp) hd)]
  simp only []
  rw [bind_ok hcl, bind_ok e]

/-- A copy: how it is stored, and what it costs. -/
theorem copies_cost (hx : Tight I Rep init) (hv : al.Valid) (hg : ∀ v ∈ vals, Good v) (hi : Inv Rep h0 objs h (vals.map absOf) fps)
    (hcp : Copies i op) (hd : Does vals op vals') : ∃ w, vals' = vals ++ [w] ∧ ((tstep m al objs op h = .abort ∧ init < w.octets.length) ∨
      ∃ b' h' fp, tstep m al objs op h = .ok (objs ++ [.buf b']) h' ∧ Room Rep b' h' w.octets (max init w.octets.length) fp ∧
        (fp = none ↔ w.octets.length ≤ init) ∧ h'.clock = h.clock + (if w.octets.length ≤ init then 0 else 1) ∧ Frame h h' none fp) := by
  have hc := hx.correct
  have hm := isizeMax_lt
  have hu := usizeSize_eq
  have find : ∀ {v : TVal}, vals[i]? = some v → v ≠ .gone → (∀ bs, v ≠ .vec bs) → ∃ b fp, objs[i]? = some (.buf b) ∧ Has Rep b h v.octets fp := by
    intro v e h1 h2
    have he : (vals.map absOf)[i]? = some (absOf v) := by rw [List.getElem?_map, e]; rfl
    have hl : i < objs.length := by
      rw [← hi.lenA]
      rcases Nat.lt_or_ge i (vals.map absOf).length with hl | hl
      · exact hl
      · rw [List.getElem?_eq_none hl] at he; simp at he
    have eo := List.getElem?_eq_getElem hl
    obtain ⟨a, f', ha, hf, hr⟩ := hi.at eo
    rw [he] at ha
    cases ha
    obtain ⟨b, hb, hh⟩ := obj_buf h1 h2 hr
    rw [hb] at eo
    exact ⟨b, f', eo, hh⟩
  rcases hcp with rfl | rfl | rfl | rfl
  · cases hd with
    | make hk => cases hk
    | change e hk => cases hk
    | @clone _ v e h1 h2 =>
      obtain ⟨b, fp, eo, hb⟩ := find e h1 h2
      refine ⟨v, rfl, addFrom_slice (m := m) hx hv eo ?_ (hb.bound hc)⟩
      obtain ⟨R, hr⟩ := hb
      exact hx.clone m hv hr (take_of_append (by simp)) rfl
  · cases hd with
    | make hk => cases hk
    | change e hk => cases hk
    | @toOwned _ v e h1 h2 =>
      obtain ⟨b, fp, eo, hb⟩ := find e h1 h2
      exact ⟨v, rfl, addFrom_slice (m := m) hx hv eo (hb.fromSlice_toOwned hc) (hb.bound hc)⟩
  · cases hd with
    | make hk => cases hk
    | change e hk => cases hk
    | @idToOwned _ cls pc n c e =>
      obtain ⟨b, fp, eo, hb⟩ := find e (by simp) (by simp)
      have hbd := hb.bound hc
      have hlen := tlv_length (idOctets (classNum cls) (pcNum pc) n) c
      simp only [TVal.octets] at hbd
      refine ⟨.ident cls pc n, rfl, addFrom_slice (m := m) hx hv eo ?_ (by simp only [TVal.octets]; omega)⟩
      exact Has.fromSlice_id hc (hdr := _ ++ lenOctets c.length) hb (disassemble_hdr (isId_idOctets _ _ _) (by omega))
    | @idToOwnedIndef _ cls pc n c e =>
      obtain ⟨b, fp, eo, hb⟩ := find e (by simp) (by simp)
      have hbd := hb.bound hc
      simp only [TVal.octets, List.length_append] at hbd
      refine ⟨.ident cls pc n, rfl, addFrom_slice (m := m) hx hv eo ?_ (by simp only [TVal.octets]; omega)⟩
      exact Has.fromSlice_id hc (hdr := _ ++ indefOctets) hb (disassemble_indef_hdr (isId_idOctets _ _ _))
  · cases hd with
    | make hk => cases hk
    | change e hk => cases hk
    | @contentsToOwned _ id c e =>
      obtain ⟨b, fp, eo, hb⟩ := find e (by simp) (by simp)
      have hgv : IsId id := hg _ (List.mem_of_getElem? e)
      have hbd := hb.bound hc
      have hlen := tlv_length id c
      simp only [TVal.octets] at hbd
      refine ⟨.contents c, rfl, addFrom_slice (m := m) hx hv eo ?_ (by simp only [TVal.octets]; omega)⟩
      exact Has.fromSlice_contents hc (hdr := _ ++ lenOctets c.length) hb (disassemble_hdr hgv (by omega))
    | @contentsToOwnedIndef _ id c e =>
      obtain ⟨b, fp, eo, hb⟩ := find e (by simp) (by simp)
      have hgv : IsId id := hg _ (List.mem_of_getElem? e)
      have hbd := hb.bound hc
      simp only [TVal.octets, List.length_append] at hbd
      refine ⟨.contents c, rfl, addFrom_slice (m := m) hx hv eo ?_ (by simp only [TVal.octets]; omega)⟩
      exact Has.fromSlice_contents hc (hdr := _ ++ indefOctets) hb (disassemble_indef_hdr hgv)

end Bsn1.Raw
