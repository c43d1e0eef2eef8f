import Verif.Spec.AliasUse
import Verif.Lemmas.AliasPieceB
import Verif.Lemmas.AliasPieceC
/-!
# The functions, put together
-/

namespace Bsn1.Alias

/-! ### Names do not matter -/

section
variable {L : Lay} (hL : L.Same)
include hL

theorem readAll_same (f : Tag → Tag) (v : Value) (t : Tag) : Same f (readAll L (Value.ren f v) (f t)) (readAll L v t) := by unfold readAll; same
theorem writeTop_same (f : Tag → Tag) (v : Value) (t : Tag) : Same f (writeTop L (Value.ren f v) (f t)) (writeTop L v t) := by unfold writeTop; same
theorem writeBehind_same (n : Nat) (f : Tag → Tag) (v : Value) (t : Tag) : Same f (writeBehind L n (Value.ren f v) (f t)) (writeBehind L n v t) := by unfold writeBehind; same
theorem writeAt_same (o n : Nat) (f : Tag → Tag) (v : Value) (t : Tag) : Same f (writeAt L o n (Value.ren f v) (f t)) (writeAt L o n v t) := by unfold writeAt; same
theorem writeTwo_same (o n : Nat) (f : Tag → Tag) (v : Value) (t : Tag) : Same f (writeTwo L o n (Value.ren f v) (f t)) (writeTwo L o n v t) := by unfold writeTwo; same
theorem setAt_same (i : Nat) (f : Tag → Tag) (v : Value) (t : Tag) : Same f (setAt L (Value.ren f v) i (f t)) (setAt L v i t) := by unfold setAt; same
omit hL in
theorem readWrite_same (f : Tag → Tag) (v : Value) (b : Tag) :
    Same f (do Tr.ev (.read (f b) ((Value.ren f v).data L 0 1)); Tr.ev (.write (f b) ((Value.ren f v).data L 0 1))
               Tr.ev (.read (f b) ((Value.ren f v).data L 0 1)); Tr.ev (.write (f b) ((Value.ren f v).data L 0 1)))
           (do Tr.ev (.read b (v.data L 0 1)); Tr.ev (.write b (v.data L 0 1)); Tr.ev (.read b (v.data L 0 1)); Tr.ev (.write b (v.data L 0 1))) := by
  have h1 : Same f (Tr.ev (.read (f b) ((Value.ren f v).data L 0 1))) (Tr.ev (.read b (v.data L 0 1))) := Same.ev (by simp only [Ev.ren, data_ren])
  have h2 : Same f (Tr.ev (.write (f b) ((Value.ren f v).data L 0 1))) (Tr.ev (.write b (v.data L 0 1))) := Same.ev (by simp only [Ev.ren, data_ren])
  exact Same.bind h1 fun _ => Same.bind h2 fun _ => Same.bind h1 fun _ => h2
theorem idSet_same (f : Tag → Tag) (v : Value) (t : Tag) : Same f (idSet L (Value.ren f v) (f t)) (idSet L v t) := by
  unfold idSet
  refine Same.call rfl rfl fun t => Same.bind (asMutSlice_same f v t hL) fun s => Same.call rfl (data_ren ..) fun m => Same.bind (Same.borrow rfl (data_ren ..)) fun b => ?_
  exact readWrite_same f v b
theorem mutId_same (k l : Nat) (f : Tag → Tag) (v : Value) (t : Tag) : Same f (mutId L (Value.ren f v) k l (f t)) (mutId L v k l t) := by unfold mutId; same
theorem mutIdSet_same (k l : Nat) (f : Tag → Tag) (v : Value) (t : Tag) : Same f (mutIdSet L (Value.ren f v) k l (f t)) (mutIdSet L v k l t) := by
  unfold mutIdSet
  refine Same.call rfl rfl fun t => Same.bind (asMutSlice_same f v t hL) fun s => Same.bind (disassembleMut_same f v s k l) fun p => Same.call rfl (data_ren ..) fun m =>
    Same.bind (Same.borrow rfl (data_ren ..)) fun b => ?_
  exact readWrite_same f v b
theorem mutContentsSet_same (k l i : Nat) (f : Tag → Tag) (v : Value) (t : Tag) : Same f (mutContentsSet L (Value.ren f v) k l i (f t)) (mutContentsSet L v k l i t) := by
  unfold mutContentsSet; same
theorem moveUp_same (k l l' c n : Nat) (f : Tag → Tag) (v : Value) (t : Tag) : Same f (moveUp L k l l' c n (Value.ren f v) (f t)) (moveUp L k l l' c n v t) := by
  unfold moveUp
  by_cases h : l' = l <;> simp only [h, ne_eq, not_true_eq_false, not_false_eq_true, if_true, if_false] <;> same
theorem moveDown_same (k l l' c : Nat) (f : Tag → Tag) (v : Value) (t : Tag) : Same f (moveDown L k l l' c (Value.ren f v) (f t)) (moveDown L k l l' c v t) := by
  unfold moveDown
  by_cases h : l' < l <;> simp only [h, if_true, if_false] <;> same
theorem derEnd_same (dbg : Bool) (k l l' c n : Nat) (f : Tag → Tag) (v : Value) (t : Tag) :
    Same f (derEnd L dbg k l l' c n (Value.ren f v) (f t)) (derEnd L dbg k l l' c n v t) := by
  unfold derEnd
  cases dbg <;> by_cases h : l' = l <;>
    simp only [h, ne_eq, not_true_eq_false, not_false_eq_true, Bool.false_eq_true, if_true, if_false] <;> same
theorem fromInteger_same (dbg : Bool) (n : Nat) (f : Tag → Tag) (v : Value) (t : Tag) :
    Same f (fromInteger L dbg (Value.ren f v) n (f t)) (fromInteger L dbg v n t) := by
  unfold fromInteger
  refine Same.bind (hL.asMutPtr f v t) fun d => Same.bind (hL.setLen f dbg v n t) fun a => Same.bind (Same.ev ?_) fun _ => Same.pure rfl
  show Ev.write (f d) (Value.data L (Value.ren f a) 0 n) = _
  rw [data_ren]
  rfl

end

theorem lay_same (le : Bool) : (lay le).Same := by
  cases le
  · exact universal_same
  · exact little_same


/-! ### Small functions -/

/-- The buffer fits its place. -/
structure Fit (le : Bool) (v : Value) : Prop where
  len : v.len ≤ v.cap
  room : v.heap = none → v.cap = if le then 23 else 16

theorem Fit.ue {blk len cap : Nat} (h : Fit false ⟨none, blk, len, cap⟩) : len ≤ 16 ∧ cap = 16 := by
  have h1 : len ≤ cap := h.len
  have h2 : cap = 16 := h.room rfl
  omega

theorem Fit.le {blk len cap : Nat} (h : Fit true ⟨none, blk, len, cap⟩) : len ≤ 23 ∧ cap = 23 := by
  have h1 : len ≤ cap := h.len
  have h2 : cap = 23 := h.room rfl
  omega

section small
variable {R : Rules} {T : Theory R} {s : Tag} {v : Value}

theorem safe_unit {g : Value → Tag → Tr Unit} {ok : Option Tag → List Act → Option Tag → Bool} (hok : ∀ o as o', ok o as o' = true → T.ok o as = some o')
    (hg : ∀ f v t, Same f (g (Value.ren f v) (f t)) (g v t))
    (h : (v.heap ≠ none → v.blk ≠ 0) → Checked ok v.rel v.rel (g v.rel 0 2).2.1 (g v.rel 0 2).2.2) : Safe T s v (g v s) (fun _ v' => v' = v) := by
  intro n hn
  refine safe_of_checked (Q := fun _ v' => v' = v) (val := fun v _ => v) hg (fun _ _ _ => rfl) hok (h fun e => ?_) (fun _ _ => rfl) n hn
  cases e' : v.heap with
  | none => exact absurd e' e
  | some t => exact (hn.heap t e').2.2

theorem safe_value {g : Value → Tag → Tr Value} {ok : Option Tag → List Act → Option Tag → Bool} (hok : ∀ o as o', ok o as o' = true → T.ok o as = some o')
    (hg : ∀ f v t, Same f (g (Value.ren f v) (f t)) (g v t)) {P : Value → Prop}
    (h : (v.heap ≠ none → v.blk ≠ 0) → Checked ok v.rel (g v.rel 0 2).1 (g v.rel 0 2).2.1 (g v.rel 0 2).2.2) (hP : ∀ n, P (g v s n).1) :
    Safe T s v (g v s) (fun a v' => v' = a ∧ P a) := by
  intro n hn
  refine safe_of_checked (Q := fun a v' => v' = a ∧ P a) (val := fun _ a => a) hg (fun _ _ _ => rfl) hok (h fun e => ?_) (fun n _ => ⟨rfl, hP n⟩) n hn
  cases e' : v.heap with
  | none => exact absurd e' e
  | some t => exact (hn.heap t e').2.2

variable (hT : Both T) (le : Bool)
include hT

theorem safe_len : Safe T s v ((lay le).len v s) (fun _ v' => v' = v) := by
  obtain ⟨_ | h, blk, len, cap⟩ := v <;> cases le
  · exact safe_unit hT universal_same.len fun _ => UE.len_inline
  · exact safe_unit hT little_same.len fun _ => LE.len_inline
  · exact safe_unit hT universal_same.len fun hb => UE.len_heap (hb (by simp))
  · exact safe_unit hT little_same.len fun hb => LE.len_heap (hb (by simp))

theorem safe_capacity : Safe T s v ((lay le).capacity v s) (fun _ v' => v' = v) := by
  obtain ⟨_ | h, blk, len, cap⟩ := v <;> cases le
  · exact safe_unit hT universal_same.capacity fun _ => UE.capacity_inline
  · exact safe_unit hT little_same.capacity fun _ => LE.capacity_inline
  · exact safe_unit hT universal_same.capacity fun hb => UE.capacity_heap (hb (by simp))
  · exact safe_unit hT little_same.capacity fun hb => LE.capacity_heap (hb (by simp))

omit hT in
theorem setLen_result (le dbg : Bool) (v : Value) (n : Nat) (s : Tag) (m : Nat) : ((lay le).setLen dbg v n s m).1 = { v with len := n } := by
  cases le <;> cases dbg <;> rfl

theorem safe_setLen (dbg : Bool) (n : Nat) : Safe T s v ((lay le).setLen dbg v n s) (fun a v' => v' = a ∧ a = { v with len := n }) := by
  have hg : ∀ f v t, Same f ((lay le).setLen dbg (Value.ren f v) n (f t)) ((lay le).setLen dbg v n t) := fun f v t => (lay_same le).setLen f dbg v n t
  refine safe_value (g := fun v t => (lay le).setLen dbg v n t) hT hg ?_ (setLen_result le dbg v n s)
  intro hb
  simp only [setLen_result]
  obtain ⟨_ | h, blk, len, cap⟩ := v <;> cases le
  · exact UE.setLen_inline dbg
  · exact LE.setLen_inline dbg
  · exact UE.setLen_heap (hb (by simp)) dbg
  · exact LE.setLen_heap (hb (by simp)) dbg

theorem safe_readAll (hf : Fit le v) : Safe T s v (readAll (lay le) v s) (fun _ v' => v' = v) := by
  obtain ⟨_ | h, blk, len, cap⟩ := v <;> cases le
  · exact safe_unit hT (readAll_same universal_same) fun _ => UE.readAll_inline hf.ue.1
  · exact safe_unit hT (readAll_same little_same) fun _ => LE.readAll_inline hf.le.1
  · exact safe_unit hT (readAll_same universal_same) fun hb => UE.readAll_heap (hb (by simp))
  · exact safe_unit hT (readAll_same little_same) fun hb => LE.readAll_heap (hb (by simp))

theorem safe_idLength (hf : Fit le v) {k : Nat} (hk : k ≤ v.len) : Safe T s v (idLength (lay le) v k s) (fun _ v' => v' = v) := by
  have hg : ∀ f v t, Same f (idLength (lay le) (Value.ren f v) k (f t)) (idLength (lay le) v k t) := fun f v t => idLength_same f v t (lay_same le) k
  refine safe_unit (g := fun v t => idLength (lay le) v k t) hT hg ?_
  intro hb
  obtain ⟨_ | h, blk, len, cap⟩ := v <;> cases le
  · exact UE.idLength_inline hk hf.ue.1
  · exact LE.idLength_inline hk hf.le.1
  · exact UE.idLength_heap (hb (by simp)) hk
  · exact LE.idLength_heap (hb (by simp)) hk

theorem safe_lengthOf (hf : Fit le v) {k l : Nat} (hk : k + l ≤ v.len) : Safe T s v (lengthOf (lay le) v k l s) (fun _ v' => v' = v) := by
  have hg : ∀ f v t, Same f (lengthOf (lay le) (Value.ren f v) k l (f t)) (lengthOf (lay le) v k l t) := fun f v t => lengthOf_same f v t (lay_same le) k l
  refine safe_unit (g := fun v t => lengthOf (lay le) v k l t) hT hg ?_
  intro hb
  obtain ⟨_ | h, blk, len, cap⟩ := v <;> cases le
  · exact UE.lengthOf_inline hk hf.ue.1
  · exact LE.lengthOf_inline hk hf.le.1
  · exact UE.lengthOf_heap (hb (by simp)) hk
  · exact LE.lengthOf_heap (hb (by simp)) hk

omit hT in
theorem reserve_stay {n : Nat} (hn : v.len + n ≤ v.cap) (m : Nat) : ((lay le).reserve v n s m).1 = v := by
  obtain ⟨_ | h, blk, len, cap⟩ := v <;> cases le <;> simp only [lay, Bool.false_eq_true, if_true, if_false] <;>
    simp (disch := exact hn) only [↓universal, ↓little, ↓UE.reserve, ↓LE.reserve, ↓Tr.call, ↓bind_run, ↓if_le, ↓pure_run]

omit hT in
theorem reserve_move {n : Nat} (hn : v.cap < v.len + n) (m : Nat) : ∃ h, ((lay le).reserve v n s m).1 = ⟨some h, v.blk + 1, v.len, v.len + n⟩ := by
  obtain ⟨_ | h, blk, len, cap⟩ := v <;> cases le <;> simp only [lay, Bool.false_eq_true, if_true, if_false] <;>
    simp (disch := exact hn) only [↓universal, ↓little, ↓UE.reserve, ↓LE.reserve, ↓Tr.call, ↓bind_run, ↓if_gt, ↓pure_run] <;>
    exact ⟨_, rfl⟩

end small

/-- What a user knows. -/
def shape (v : Value) : Buf := ⟨v.heap.isSome, v.len, v.cap⟩

/-- The buffer fits its place. -/
structure Buf.Ok (le : Bool) (b : Buf) : Prop where
  len : b.len ≤ b.cap
  room : b.onHeap = false → b.cap = if le then 23 else 16

theorem Fit.of_shape {le : Bool} {v : Value} (h : (shape v).Ok le) : Fit le v :=
  ⟨h.len, fun e => h.room (by simp [shape, e])⟩

theorem Buf.grown_ok {le : Bool} {b : Buf} (h : b.Ok le) (n : Nat) : (b.grown n).Ok le ∧ (b.grown n).len = b.len ∧ b.len + n ≤ (b.grown n).cap := by
  unfold grown
  split
  · exact ⟨h, rfl, by assumption⟩
  · exact ⟨⟨by simp, by simp⟩, rfl, by simp⟩

theorem next_ok {le : Bool} {b : Buf} {op : Op} (h : b.Ok le) (hf : op.fits b) : (op.next b).Ok le := by
  have hl := h.len
  cases op <;> simp only [Op.next, Op.fits] at hf ⊢
  case push => exact ⟨hf, h.room⟩
  case extend => exact ⟨hf, h.room⟩
  case reserve => exact (b.grown_ok h _).1
  case setLen => exact ⟨hf, h.room⟩
  case derExtend => exact ⟨(b.grown_ok h _).2.2, (b.grown_ok h _).1.room⟩
  case derTruncate => exact ⟨by simp only; omega, h.room⟩
  case berExtend => exact ⟨(b.grown_ok h _).2.2, (b.grown_ok h _).1.room⟩
  case withIdLength => exact ⟨hf.2.2, h.room⟩
  case fromInteger => exact ⟨hf.2, h.room⟩
  all_goals exact h

/-! ### The other functions -/

section ops
variable {R : Rules} {T : Theory R} {s : Tag} {v : Value}

theorem Tr.assoc {α β γ : Type} (x : Tr α) (f : α → Tr β) (g : β → Tr γ) : (x >>= f) >>= g = x >>= fun a => f a >>= g := by
  funext n
  simp only [bind_run, List.append_assoc]

theorem Safe.ret {α : Type} {x : Tr α} {Q : α → Value → Prop} {β : Type} (h : Safe T s v x Q) (b : β) : Safe T s v (x >>= fun _ => pure b) (fun a v' => a = b ∧ ∃ c, Q c v') := by
  intro n hn
  obtain ⟨v', q, r⟩ := h n hn
  refine ⟨v', ⟨rfl, _, q⟩, ?_⟩
  rw [bind_run, pure_run, List.append_nil]
  exact r

variable (hT : Both T) (le : Bool)
include hT

theorem safe_reserve (hf : Fit le v) (n : Nat) : Safe T s v ((lay le).reserve v n s) (fun a v' => v' = a ∧ shape a = (shape v).grown n) := by
  have hg : ∀ f v t, Same f ((lay le).reserve (Value.ren f v) n (f t)) ((lay le).reserve v n t) := fun f v t => (lay_same le).reserve f v n t
  by_cases hn : v.len + n ≤ v.cap
  · refine safe_value (g := fun v t => (lay le).reserve v n t) hT hg ?_ (P := fun a => shape a = (shape v).grown n) ?_
    · intro hb
      obtain ⟨_ | h, blk, len, cap⟩ := v <;> cases le
      · exact UE.reserve_stay_inline hn
      · exact LE.reserve_stay_inline hn
      · exact UE.reserve_stay_heap (hb (by simp)) hn
      · exact LE.reserve_stay_heap (hb (by simp)) hn
    · intro m
      rw [reserve_stay le hn]
      exact (if_pos hn).symm
  · have hn := Nat.lt_of_not_le hn
    refine safe_value (g := fun v t => (lay le).reserve v n t) hT hg ?_ (P := fun a => shape a = (shape v).grown n) ?_
    · intro hb
      obtain ⟨_ | h, blk, len, cap⟩ := v <;> cases le
      · exact UE.reserve_move_inline hf.ue.1 hn
      · exact LE.reserve_move_inline hf.le.1 hn
      · exact UE.reserve_move_heap (hb (by simp)) hn
      · exact LE.reserve_move_heap (hb (by simp)) hn
    · intro m
      obtain ⟨h, e⟩ := reserve_move le (s := s) hn m
      rw [e]
      exact (if_neg (Nat.not_le.mpr hn)).symm

end ops

end Bsn1.Alias
