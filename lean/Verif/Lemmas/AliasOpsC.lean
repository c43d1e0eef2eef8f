import Verif.Lemmas.AliasOpsB
/-!
# Every function, and programs of them
-/

namespace Bsn1.Alias

section ops
variable {R : Rules} {T : Theory R} {s : Tag} {v : Value} {le : Bool}

theorem fromInteger_result (le dbg : Bool) (v : Value) (n : Nat) (s : Tag) (m : Nat) : (fromInteger (lay le) dbg v n s m).1 = { v with len := n } := by
  simp only [fromInteger, bind_run, pure_run, setLen_result]

theorem safe_fromInteger (hf : (shape v).Ok le) (dbg : Bool) {n : Nat} (hn : n ≤ v.cap)
    {ok : Option Tag → List Act → Option Tag → Bool} (hok : ∀ o as o', ok o as o' = true → T.ok o as = some o')
    (h2 : v.heap ≠ none → ∀ o as o', ok2 o as o' = true → ok o as o' = true)
    (h1 : v.heap = none → le = false ∧ ∀ o as o', okT o as o' = true → ok o as o' = true) :
    Safe T s v (fromInteger (lay le) dbg v n s) (After { shape v with len := n }) := by
  have hg : ∀ f v t, Same f (fromInteger (lay le) dbg (Value.ren f v) n (f t)) (fromInteger (lay le) dbg v n t) := fun f v t =>
    fromInteger_same (lay_same le) dbg n f v t
  refine safe_value (g := fun v t => fromInteger (lay le) dbg v n t) hok hg ?_ (P := fun a => shape a = { shape v with len := n }) ?_
  · intro hb
    simp only [fromInteger_result]
    obtain ⟨_ | h, blk, len, cap⟩ := v
    · obtain ⟨rfl, h3⟩ := h1 rfl
      have := (Fit.of_shape hf).ue
      have k := UE.fromInteger_inline (blk := blk) (len := len) (cap := cap) (n := n) (Nat.le_trans hn (Nat.le_of_eq this.2)) dbg
      exact ⟨k.two, k.heap, fun y hy => by
        have := k.self y hy
        simp only [Bool.and_eq_true] at this ⊢
        exact ⟨h3 _ _ _ this.1, this.2⟩, fun y hy => by
        have := k.rest y hy
        simp only [Bool.and_eq_true] at this ⊢
        exact ⟨h3 _ _ _ this.1, this.2⟩⟩
    · have h2 := h2 (by simp)
      have : Checked ok2 ⟨some 1, blk, len, cap⟩ ⟨some 1, blk, n, cap⟩ (fromInteger (lay le) dbg ⟨some 1, blk, len, cap⟩ n 0 2).2.1
          (fromInteger (lay le) dbg ⟨some 1, blk, len, cap⟩ n 0 2).2.2 := by
        cases le
        · exact UE.fromInteger_heap (hb (by simp)) dbg
        · exact LE.fromInteger_heap (hb (by simp)) dbg
      exact ⟨this.two, this.heap, fun y hy => by
        have := this.self y hy
        simp only [Bool.and_eq_true] at this ⊢
        exact ⟨h2 _ _ _ this.1, this.2⟩, fun y hy => by
        have := this.rest y hy
        simp only [Bool.and_eq_true] at this ⊢
        exact ⟨h2 _ _ _ this.1, this.2⟩⟩
  · intro m
    rw [fromInteger_result]
    rfl

theorem safe_mutId (hf : Fit le v) (hok : ∀ o as o', okT o as o' = true → T.ok o as = some o') {k l : Nat} (hl : k + l ≤ v.len) :
    Safe T s v (mutId (lay le) v k l s) (fun _ v' => v' = v) := by
  have hg : ∀ f v t, Same f (mutId (lay le) (Value.ren f v) k l (f t)) (mutId (lay le) v k l t) := fun f v t => mutId_same (lay_same le) k l f v t
  refine safe_unit (g := fun v t => mutId (lay le) v k l t) hok hg ?_
  intro hb
  obtain ⟨_ | h, blk, len, cap⟩ := v <;> cases le
  · exact UE.mutId_inline hf.ue.1 hl
  · exact LE.mutId_inline hf.le.1 hl
  · exact UE.mutId_heap (hb (by simp)) hl
  · exact LE.mutId_heap (hb (by simp)) hl

/-! ### Every function -/

/-- What is known of a version of the rules. -/
structure Knows (T : Theory R) (sb : Bool) : Prop where
  both : Both T
  tb : sb = false → ∀ o as o', okT o as o' = true → T.ok o as = some o'
  bad : ∀ o as, bad2 o as = true → T.bad o as = true
  sb : sb = true → ∀ o as, SB.bad o as = true → T.bad o as = true
  refl : ∀ n t st, T.Frame n t st st
  tags : T.tags R.init = []
  alloc : ∃ st, R.step R.init (.alloc 0) = some st ∧ T.Good 0 st ∧ T.tags st = [0]

theorem shape_heap {v : Value} : (shape v).onHeap = false ↔ v.heap = none := by
  simp [shape]

theorem safe_op {sb : Bool} (hT : Knows T sb) (dbg : Bool) {op : Op} (hf : (shape v).Ok le) (hu : op.fits (shape v)) (hw : op.wrong sb le (shape v) = false) :
    Safe T s v (runOp (lay le) dbg v s op) (After (op.next (shape v))) := by
  have hf' := Fit.of_shape hf
  cases op with
  | push => exact safe_push hT.both hf dbg hw hu
  | extend n => exact safe_extend hT.both hf dbg hw hu
  | setAt i => exact Safe.same (safe_setAt hT.both hw hf' hu)
  | readAll => exact Safe.same (safe_readAll hT.both le hf')
  | reserve n => exact safe_reserve hT.both le hf' n
  | setLen n =>
    refine (safe_setLen hT.both le dbg n).conseq ?_
    rintro _ _ ⟨rfl, rfl⟩
    exact ⟨rfl, rfl⟩
  | idSet => exact Safe.same (safe_idSet hT.both hw hf' hu)
  | mutId k l => exact Safe.same (safe_mutId hf' (hT.tb hw) hu.2)
  | mutIdSet k l => exact absurd hw (by simp [Op.wrong])
  | mutContentsSet k l i => exact absurd hw (by simp [Op.wrong])
  | derExtend k l l' c n => exact safe_derExtend hT.both hf dbg hw hu.2.2.1 hu.2.2.2
  | derTruncate k l l' c => exact safe_derTruncate hT.both hf dbg hw hu.2.2.1 hu.2.2.2
  | berExtend k n => exact safe_berExtend hT.both hf dbg hw hu.2
  | withIdLength k l c => exact safe_withIdLength hT.both hf dbg hw hu.2.2
  | fromInteger n =>
    by_cases hh : v.heap = none
    · have hw : (sb || le) = false := by
        have : (shape v).onHeap = false := shape_heap.mpr hh
        simpa [Op.wrong, this] using hw
      rw [Bool.or_eq_false_iff] at hw
      exact safe_fromInteger hf dbg hu.2 (hT.tb hw.1) (fun h => absurd hh h) fun _ => ⟨hw.2, fun _ _ _ h => h⟩
    · exact safe_fromInteger hf dbg hu.2 hT.both (fun _ _ _ _ h => h) fun h => absurd h hh

theorem bad_unit {α : Type} [Ren α] {g : Value → Tag → Tr α} {bad : Tag → List Act → Bool} (hb : ∀ o as, bad o as = true → T.bad o as = true)
    (hg : ∀ f v t, Same f (g (Value.ren f v) (f t)) (g v t))
    (h : (v.heap ≠ none → v.blk ≠ 0) → CheckedBad bad v.rel (g v.rel 0 2).2.2) : Breaks T s v (g v s) := by
  intro n hn
  refine breaks_of_checked hg (CheckedBad.of hb (h fun e => ?_)) n hn
  cases e' : v.heap with
  | none => exact absurd e' e
  | some t => exact (hn.heap t e').2.2

theorem inline_of {le : Bool} {v : Value} (hw : (le && !(shape v).onHeap) = true) : le = true ∧ v.heap = none := by
  simpa [shape] using hw

section bad
variable {sb : Bool} (hT : Knows T sb) (hf : Fit le v)
include hT hf

theorem breaks_writeTop (hw : (le && !(shape v).onHeap) = true) (h : 1 ≤ v.len) : Breaks T s v (writeTop (lay le) v s) := by
  obtain ⟨rfl, e⟩ := inline_of hw
  refine bad_unit (g := fun v t => writeTop (lay true) v t) hT.bad (fun f v t => writeTop_same (lay_same true) f v t) fun _ => ?_
  obtain ⟨_ | _, blk, len, cap⟩ := v
  · exact LE.writeTop_bad_inline hf.le.1 h
  · cases e

theorem breaks_writeBehind {n : Nat} (hw : (le && !(shape v).onHeap) = true) (h0 : n ≠ 0) (h : v.len + n ≤ v.cap) : Breaks T s v (writeBehind (lay le) n v s) := by
  obtain ⟨rfl, e⟩ := inline_of hw
  refine bad_unit (g := fun v t => writeBehind (lay true) n v t) hT.bad (fun f v t => writeBehind_same (lay_same true) n f v t) fun _ => ?_
  obtain ⟨_ | _, blk, len, cap⟩ := v
  · exact LE.writeBehind_bad_inline (Nat.le_trans h (Nat.le_of_eq hf.le.2)) (Nat.pos_of_ne_zero h0)
  · cases e

theorem breaks_writeTwo {k l : Nat} (hw : (le && !(shape v).onHeap) = true) (h0 : 0 < k) : Breaks T s v (writeTwo (lay le) k l v s) := by
  obtain ⟨rfl, e⟩ := inline_of hw
  refine bad_unit (g := fun v t => writeTwo (lay true) k l v t) hT.bad (fun f v t => writeTwo_same (lay_same true) k l f v t) fun _ => ?_
  obtain ⟨_ | _, blk, len, cap⟩ := v
  · exact LE.writeTwo_bad_inline h0
  · cases e

theorem breaks_moveDown {k l l' c : Nat} (hw : (le && !(shape v).onHeap) = true) (h : k + l + c ≤ v.len) (h0 : 0 < l') (hl : l' ≤ l) :
    Breaks T s v (moveDown (lay le) k l l' c v s) := by
  obtain ⟨rfl, e⟩ := inline_of hw
  refine bad_unit (g := fun v t => moveDown (lay true) k l l' c v t) hT.bad (fun f v t => moveDown_same (lay_same true) k l l' c f v t) fun _ => ?_
  obtain ⟨_ | _, blk, len, cap⟩ := v
  · exact LE.moveDown_bad_inline (Nat.le_trans h hf.le.1) h0 hl
  · cases e

theorem breaks_derEnd (dbg : Bool) {k l l' c n : Nat} (hw : (le && !(shape v).onHeap) = true) (h : k + l' + c + n ≤ v.cap) (h0 : 0 < l') (hl : l ≤ l') :
    Breaks T s v (derEnd (lay le) dbg k l l' c n v s) := by
  obtain ⟨rfl, e⟩ := inline_of hw
  refine bad_unit (g := fun v t => derEnd (lay true) dbg k l l' c n v t) hT.bad (fun f v t => derEnd_same (lay_same true) dbg k l l' c n f v t) fun _ => ?_
  obtain ⟨_ | _, blk, len, cap⟩ := v
  · exact LE.derEnd_bad_inline (Nat.le_trans h (Nat.le_of_eq hf.le.2)) h0 hl dbg
  · cases e

theorem breaks_setAt {i : Nat} (hw : (le && !(shape v).onHeap) = true) (h : i < v.len) : Breaks T s v (setAt (lay le) v i s) := by
  obtain ⟨rfl, e⟩ := inline_of hw
  refine bad_unit (g := fun v t => setAt (lay true) v i t) hT.bad (fun f v t => setAt_same (lay_same true) i f v t) fun _ => ?_
  obtain ⟨_ | _, blk, len, cap⟩ := v
  · exact LE.setAt_bad_inline hf.le.1 h
  · cases e

theorem breaks_idSet (hw : (le && !(shape v).onHeap) = true) (h : 0 < v.len) : Breaks T s v (idSet (lay le) v s) := by
  obtain ⟨rfl, e⟩ := inline_of hw
  refine bad_unit (g := fun v t => idSet (lay true) v t) hT.bad (fun f v t => idSet_same (lay_same true) f v t) fun _ => ?_
  obtain ⟨_ | _, blk, len, cap⟩ := v
  · exact LE.idSet_bad_inline hf.le.1 h
  · cases e

theorem breaks_mutId {k l : Nat} (hs : sb = true) (h : k + l ≤ v.len) (hk : 0 < k) : Breaks T s v (mutId (lay le) v k l s) := by
  refine bad_unit (g := fun v t => mutId (lay le) v k l t) (hT.sb hs) (fun f v t => mutId_same (lay_same le) k l f v t) fun hb => ?_
  obtain ⟨_ | _, blk, len, cap⟩ := v <;> cases le
  · exact UE.mutId_bad_inline hf.ue.1 h hk
  · exact LE.mutId_bad_inline hf.le.1 h hk
  · exact UE.mutId_bad_heap (hb (by simp)) h hk
  · exact LE.mutId_bad_heap (hb (by simp)) h hk

theorem breaks_mutIdSet {k l : Nat} (h : k + l ≤ v.len) (hk : 0 < k) : Breaks T s v (mutIdSet (lay le) v k l s) := by
  refine bad_unit (g := fun v t => mutIdSet (lay le) v k l t) hT.bad (fun f v t => mutIdSet_same (lay_same le) k l f v t) fun hb => ?_
  obtain ⟨_ | _, blk, len, cap⟩ := v <;> cases le
  · exact UE.mutIdSet_bad_inline hf.ue.1 h hk
  · exact LE.mutIdSet_bad_inline hf.le.1 h hk
  · exact UE.mutIdSet_bad_heap (hb (by simp)) h hk
  · exact LE.mutIdSet_bad_heap (hb (by simp)) h hk

theorem breaks_mutContentsSet {k l i : Nat} (h : k + l + i < v.len) : Breaks T s v (mutContentsSet (lay le) v k l i s) := by
  refine bad_unit (g := fun v t => mutContentsSet (lay le) v k l i t) hT.bad (fun f v t => mutContentsSet_same (lay_same le) k l i f v t) fun hb => ?_
  obtain ⟨_ | _, blk, len, cap⟩ := v <;> cases le
  · exact UE.mutContentsSet_bad_inline hf.ue.1 h
  · exact LE.mutContentsSet_bad_inline hf.le.1 h
  · exact UE.mutContentsSet_bad_heap (hb (by simp)) h
  · exact LE.mutContentsSet_bad_heap (hb (by simp)) h

theorem breaks_fromInteger (dbg : Bool) {n : Nat} (h0 : 0 < n) (h : n ≤ v.cap) (hw : ((sb || le) && !(shape v).onHeap) = true) :
    Breaks T s v (fromInteger (lay le) dbg v n s) := by
  have e : (sb = true ∨ le = true) ∧ v.heap = none := by simpa [shape] using hw
  cases le
  · have hs : sb = true := by simpa using e.1
    refine bad_unit (g := fun v t => fromInteger (lay false) dbg v n t) (hT.sb hs) (fun f v t => fromInteger_same (lay_same false) dbg n f v t) fun _ => ?_
    obtain ⟨_ | _, blk, len, cap⟩ := v
    · exact UE.fromInteger_bad_inline (Nat.le_trans h (Nat.le_of_eq hf.ue.2)) h0 dbg
    · cases e.2
  · refine bad_unit (g := fun v t => fromInteger (lay true) dbg v n t) hT.bad (fun f v t => fromInteger_same (lay_same true) dbg n f v t) fun _ => ?_
    obtain ⟨_ | _, blk, len, cap⟩ := v
    · exact LE.fromInteger_bad_inline (Nat.le_trans h (Nat.le_of_eq hf.le.2)) h0 dbg
    · cases e.2

end bad

theorem Breaks.seq {x : Tr Unit} {α : Type} {f : Unit → Tr α} (h : Safe T s v x (fun _ v' => v' = v)) (hf : Breaks T s v (f ())) : Breaks T s v (x >>= f) := by
  refine Breaks.after h ?_
  rintro _ v' e
  rw [e]
  exact hf

theorem breaks_op {sb : Bool} (hT : Knows T sb) (dbg : Bool) {op : Op} (hf : (shape v).Ok le) (hu : op.fits (shape v)) (hw : op.wrong sb le (shape v) = true) :
    Breaks T s v (runOp (lay le) dbg v s op) := by
  have hf' := Fit.of_shape hf
  have hB := hT.both
  cases op with
  | push =>
    refine Breaks.call fun t => Breaks.seq (safe_len hB le) ?_
    have key : Breaks T t v ((lay le).setLen dbg v (v.len + 1) t >>= fun v' => asMutSlice (lay le) v' t >>= fun m =>
        Tr.ev (.write m (v.data (lay le) v.len 1)) >>= fun _ => pure v') := by
      refine Breaks.after (safe_setLen hB le dbg _) ?_
      rintro _ _ ⟨rfl, rfl⟩
      rw [← Tr.assoc]
      exact Breaks.more (breaks_writeTop (v := { v with len := v.len + 1 }) hT (Fit.of_shape ⟨hu, hf.room⟩) hw (Nat.le_add_left 1 _))
    cases dbg
    · exact key
    · exact Breaks.seq (safe_capacity hB le) key
  | extend n =>
    simp only [Op.wrong, Bool.and_eq_true (_ && _), bne_iff_ne] at hw
    refine Breaks.call fun t => ?_
    have e : (do let p ← (lay le).asMutPtr v t
                 (lay le).len v t
                 Tr.ev (.write p (v.data (lay le) v.len n))
                 (lay le).len v t
                 (lay le).setLen dbg v (v.len + n) t) = (do writeBehind (lay le) n v t; (lay le).len v t; (lay le).setLen dbg v (v.len + n) t) := by
      simp only [writeBehind, Tr.assoc]
    rw [e]
    exact Breaks.more (breaks_writeBehind hT hf' hw.1 hw.2 hu)
  | setAt i => exact Breaks.more (breaks_setAt hT hf' hw hu)
  | readAll => cases hw
  | reserve n => cases hw
  | setLen n => cases hw
  | idSet => exact Breaks.more (breaks_idSet hT hf' hw hu)
  | mutId k l => exact Breaks.more (breaks_mutId hT hf' hw hu.2 hu.1)
  | mutIdSet k l => exact Breaks.more (breaks_mutIdSet hT hf' hu.2 hu.1)
  | mutContentsSet k l i => exact Breaks.more (breaks_mutContentsSet hT hf' hu)
  | derExtend k l l' c n =>
    have hn : v.len = k + l + c := hu.2.2.2
    have hl : 0 < l ∧ l ≤ l' := ⟨hu.2.1, hu.2.2.1⟩
    refine Breaks.call fun t => ?_
    refine Breaks.seq (safe_idLength hB le hf' (by omega)) (Breaks.seq (safe_lengthOf hB le hf' (by omega)) (Breaks.after (safe_reserve hB le hf' _) ?_))
    rintro _ w ⟨rfl, e⟩
    have hg := Buf.grown_ok hf (n + l' - l)
    simp only [Op.wrong] at hw
    rw [← e] at hw hg
    have hlen : w.len = v.len := hg.2.1
    have hcap : v.len + (n + l' - l) ≤ w.cap := hg.2.2
    refine Breaks.seq (safe_len hB le) (Breaks.after (safe_setLen hB le dbg _) ?_)
    rintro _ _ ⟨rfl, rfl⟩
    have q : Breaks T t { w with len := w.len + (n + l' - l) }
        (do derEnd (lay le) dbg k l l' c n { w with len := w.len + (n + l' - l) } t; return { w with len := w.len + (n + l' - l) }) :=
      Breaks.more (breaks_derEnd (v := { w with len := w.len + (n + l' - l) }) hT (Fit.of_shape ⟨by simp only [shape]; omega, hg.1.room⟩) dbg hw
        (by simp only; omega) (by omega) hl.2)
    have e : ∀ u : Value, (do derEnd (lay le) dbg k l l' c n u t; return u) = (do
        let dest ← (lay le).asMutPtr u t
        let src ← (lay le).asPtr u t
        if l' ≠ l then
          Tr.ev (.read src (u.data (lay le) (k + l) c))
          Tr.ev (.write dest (u.data (lay le) (k + l') c))
        Tr.ev (.write dest (u.data (lay le) (k + l' + c) n))
        if dbg then
          let _ ← (lay le).asPtr u t
          (lay le).len u t
        let dest ← (lay le).asMutPtr u t
        Tr.ev (.write dest (u.data (lay le) k l'))
        return u) := by
      intro u
      cases dbg <;> by_cases h : l' = l <;>
        simp only [derEnd, h, ne_eq, not_true_eq_false, not_false_eq_true, Bool.false_eq_true, if_true, if_false, Tr.assoc]
    rw [e] at q
    exact q
  | derTruncate k l l' c =>
    have hn : k + l + c ≤ v.len := hu.2.2.2
    refine Breaks.call fun t => ?_
    refine Breaks.seq (safe_idLength hB le hf' (by omega)) (Breaks.seq (safe_lengthOf hB le hf' (by omega)) ?_)
    have e : (do let dest ← (lay le).asMutPtr v t
                 Tr.ev (.write dest (v.data (lay le) k l'))
                 if l' < l then
                   Tr.ev (.read dest (v.data (lay le) (k + l) c))
                   Tr.ev (.write dest (v.data (lay le) (k + l') c))
                 (lay le).setLen dbg v (k + l' + c) t) = (do moveDown (lay le) k l l' c v t; (lay le).setLen dbg v (k + l' + c) t) := by
      by_cases h : l' < l <;> simp only [moveDown, h, if_true, if_false, Tr.assoc] <;> rfl
    rw [e]
    exact Breaks.more (breaks_moveDown hT hf' hw hn hu.2.1 hu.2.2.1)
  | berExtend k n =>
    simp only [Op.wrong, Bool.and_eq_true (_ && _), bne_iff_ne] at hw
    refine Breaks.call fun t => ?_
    refine Breaks.seq (safe_lengthOf hB le hf' hu.2) (Breaks.after (safe_reserve hB le hf' n) ?_)
    rintro _ w ⟨rfl, e⟩
    have hg := Buf.grown_ok hf n
    rw [← e] at hw hg
    have hlen : w.len = v.len := hg.2.1
    have e : (do let p ← (lay le).asMutPtr w t
                 (lay le).len w t
                 Tr.ev (.write p (w.data (lay le) w.len n))
                 (lay le).len w t
                 (lay le).setLen dbg w (w.len + n) t) = (do writeBehind (lay le) n w t; (lay le).len w t; (lay le).setLen dbg w (w.len + n) t) := by
      simp only [writeBehind, Tr.assoc]
    rw [e]
    exact Breaks.more (breaks_writeBehind hT (Fit.of_shape hg.1) hw.1 hw.2 (hlen ▸ hg.2.2))
  | withIdLength k l c =>
    have e : withIdLength (lay le) dbg v k l c s = (do writeTwo (lay le) k l v s; (lay le).setLen dbg v (k + l + c) s) := by
      simp only [writeTwo, withIdLength, Tr.assoc]
    show Breaks T s v (withIdLength (lay le) dbg v k l c s)
    rw [e]
    exact Breaks.more (breaks_writeTwo hT hf' hw hu.1)
  | fromInteger n => exact breaks_fromInteger hT hf' dbg hu.1 hu.2 hw

/-! ### Programs -/

theorem ops_exact {sb : Bool} (hT : Knows T sb) (dbg : Bool) (ops : List Op) : ∀ v : Value, (shape v).Ok le → fits (shape v) ops →
    (wrong sb le (shape v) ops = true → Breaks T s v (runOps (lay le) dbg s v ops)) ∧
    (wrong sb le (shape v) ops = false → Safe T s v (runOps (lay le) dbg s v ops) (fun _ _ => True)) := by
  induction ops with
  | nil =>
    intro v _ _
    refine ⟨fun h => by simp [wrong] at h, fun _ n hn => ⟨v, trivial, ⟨Nat.le_refl n, fun h e => ⟨(hn.heap h e).1, (hn.heap h e).2.2, .inl e⟩⟩, fun y => ⟨fun _ => ?_, fun _ => ?_⟩⟩⟩
    · exact Keeps.nil s n (hT.refl n s)
    · exact Goes.nil _ _
  | cons op r ih =>
    intro v hf hu
    have ho := next_ok hf hu.1
    have hr := hu.2
    refine ⟨fun hw => ?_, fun hw => ?_⟩
    · cases hq : op.wrong sb le (shape v) with
      | true => exact Breaks.more (breaks_op hT dbg hf hu.1 hq)
      | false =>
        simp only [wrong, hq, Bool.false_or] at hw
        refine Breaks.after (safe_op hT dbg hf hu.1 hq) ?_
        rintro _ w ⟨rfl, e⟩
        rw [← e] at ho hr hw
        exact (ih w ho hr).1 hw
    · simp only [wrong, Bool.or_eq_false_iff] at hw
      obtain ⟨hq, hw⟩ := hw
      refine Safe.bind (safe_op hT dbg hf hu.1 hq) ?_
      rintro _ w ⟨rfl, e⟩
      rw [← e] at ho hr hw
      exact (ih w ho hr).2 hw

theorem room_eq (le : Bool) : (lay le).room = if le then 23 else 16 := by cases le <;> rfl

theorem program_acts (le dbg : Bool) (ops : List Op) (y : Loc) : acts y (program le dbg ops) =
    (if y.alloc = 0 then [.alloc 0] else []) ++ acts y (runOps (lay le) dbg 0 ⟨none, 0, 0, (lay le).room⟩ ops 2).2.2 := by
  simp only [program, acts_cons, Ev.at]
  congr 1
  by_cases h : y.alloc = 0 <;> simp [h]
  exact fun e => absurd e.symm h

/-- The whole program. -/
theorem program_exact {sb : Bool} (hT : Knows T sb) (le dbg : Bool) (ops : List Op) (hu : fits (.new le) ops) :
    R.Defined (program le dbg ops) ↔ wrong sb le (.new le) ops = false := by
  have hs : shape ⟨none, 0, 0, (lay le).room⟩ = .new le := by simp [shape, Buf.new, room_eq]
  have hn : Fine 0 ⟨none, 0, 0, (lay le).room⟩ 2 := ⟨Nat.le_refl 2, by decide, fun h e => by cases e⟩
  obtain ⟨st0, e0, g0, t0⟩ := hT.alloc
  have hr0 : ∀ as, R.run R.init (.alloc 0 :: as) = R.run st0 as := fun as => by simp only [Rules.run, e0, Option.bind_some]
  have ht0 : ∀ u ∈ T.tags st0, u < 2 := by simp [t0]
  have hti : ∀ u ∈ T.tags R.init, u < 2 := by simp [hT.tags]
  have hok : (shape ⟨none, 0, 0, (lay le).room⟩).Ok le := by
    rw [hs]
    exact ⟨Nat.zero_le _, fun _ => rfl⟩
  obtain ⟨h1, h2⟩ := ops_exact (s := 0) hT dbg ops ⟨none, 0, 0, (lay le).room⟩ hok (by rw [hs]; exact hu)
  rw [hs] at h1 h2
  constructor
  · intro hd
    rcases Bool.eq_false_or_eq_true (wrong sb le (.new le) ops) with hw | hw
    · obtain ⟨y, k⟩ := h1 hw 2 hn
      obtain ⟨st, hd⟩ := hd y
      rw [program_acts] at hd
      rcases k with ⟨hy, k⟩ | ⟨hy, k⟩
      · rw [if_pos (whole_alloc hy), List.singleton_append, hr0, k st0 ht0 (by decide) g0] at hd
        cases hd
      · have ho : own ⟨none, 0, 0, (lay le).room⟩ y = none := own_none ..
        rw [ho] at k
        by_cases ha : y.alloc = 0
        · rw [if_pos ha, List.singleton_append, hr0, k st0 ht0 (by simp)] at hd
          cases hd
        · rw [if_neg ha, List.nil_append, k _ hti (by simp)] at hd
          cases hd
    · exact hw
  · intro hw y
    obtain ⟨w, _, _, k⟩ := h2 hw 2 hn
    rw [program_acts]
    cases hy : whole.has y with
    | true =>
      rw [if_pos (whole_alloc hy), List.singleton_append, hr0]
      obtain ⟨st, e, _⟩ := ((k y).1 hy).2 st0 ht0 (by decide) g0
      exact ⟨st, e⟩
    | false =>
      have ho : own ⟨none, 0, 0, (lay le).room⟩ y = none := own_none ..
      have k := ((k y).2 hy).2
      rw [ho] at k
      by_cases ha : y.alloc = 0
      · rw [if_pos ha, List.singleton_append, hr0]
        obtain ⟨st, e, _⟩ := k st0 ht0 (by simp)
        exact ⟨st, e⟩
      · rw [if_neg ha, List.nil_append]
        obtain ⟨st, e, _⟩ := k _ hti (by simp)
        exact ⟨st, e⟩

end ops

theorem knows_sb : Knows SB.theory true where
  both := both_sb
  tb := fun h => by cases h
  bad := fun o as h => by
    simp only [bad2, Bool.and_eq_true] at h
    exact h.1
  sb := fun _ _ _ h => h
  refl := fun n t st => ⟨rfl, fun i hi => .inl ⟨i, hi, rfl⟩⟩
  tags := rfl
  alloc := ⟨_, rfl, SB.good_iff.mpr ⟨[], false, [], rfl, by simp⟩, rfl⟩

theorem knows_tb : Knows TB.theory false where
  both := both_tb
  tb := fun _ => only_tb
  bad := fun o as h => by
    simp only [bad2, Bool.and_eq_true] at h
    exact h.2
  sb := fun h => by cases h
  refl := fun n t st => ⟨fun _ h => h, fun _ _ => rfl⟩
  tags := rfl
  alloc := ⟨_, rfl, ⟨by decide, by simp, by simp [tbPath]⟩, rfl⟩

theorem alias_exact (sb le dbg : Bool) (ops : List Op) (hu : fits (.new le) ops) : (rules sb).Defined (program le dbg ops) ↔ wrong sb le (.new le) ops = false := by
  cases sb
  · exact program_exact knows_tb le dbg ops hu
  · exact program_exact knows_sb le dbg ops hu

end Bsn1.Alias
