import Verif.Lemmas.AliasOps
/-!
# The functions that write, put together
-/

namespace Bsn1.Alias

section write
variable {R : Rules} {T : Theory R} {s : Tag} {v : Value} (hT : Both T) {le : Bool} (hw : (le && !(shape v).onHeap) = false)
include hT hw

theorem safe_writeTop (hf : Fit le v) (h1 : 1 ≤ v.len) : Safe T s v (writeTop (lay le) v s) (fun _ v' => v' = v) := by
  have hg : ∀ f v t, Same f (writeTop (lay le) (Value.ren f v) (f t)) (writeTop (lay le) v t) := fun f v t => writeTop_same (lay_same le)  f v t
  refine safe_unit (g := fun v t => writeTop (lay le) v t) hT hg ?_
  intro hb
  obtain ⟨_ | h, blk, len, cap⟩ := v <;> cases le
  · have hc := hf.ue
    exact UE.writeTop_inline hc.1 h1
  · exact absurd hw (by simp [shape])
  · exact UE.writeTop_heap (hb (by simp)) h1
  · exact LE.writeTop_heap (hb (by simp)) h1

omit hw in
theorem safe_writeBehind (hf : Fit le v) {n : Nat} (hw : (le && !(shape v).onHeap && n != 0) = false) (hn : v.len + n ≤ v.cap) :
    Safe T s v (writeBehind (lay le) n v s) (fun _ v' => v' = v) := by
  have hg : ∀ f v t, Same f (writeBehind (lay le) n (Value.ren f v) (f t)) (writeBehind (lay le) n v t) := fun f v t => writeBehind_same (lay_same le) n f v t
  refine safe_unit (g := fun v t => writeBehind (lay le) n v t) hT hg ?_
  intro hb
  obtain ⟨_ | h, blk, len, cap⟩ := v <;> cases le
  · have hc := hf.ue
    exact UE.writeBehind_inline (Nat.le_trans hn (Nat.le_of_eq hc.2))
  · obtain rfl : n = 0 := by simpa [shape] using hw
    exact LE.writeBehind_inline hf.le.1
  · exact UE.writeBehind_heap (hb (by simp))
  · exact LE.writeBehind_heap (hb (by simp))

theorem safe_writeTwo (hf : Fit le v) {o n : Nat} (hn : o + n ≤ v.cap) : Safe T s v (writeTwo (lay le) o n v s) (fun _ v' => v' = v) := by
  have hg : ∀ f v t, Same f (writeTwo (lay le) o n (Value.ren f v) (f t)) (writeTwo (lay le) o n v t) := fun f v t => writeTwo_same (lay_same le) o n f v t
  refine safe_unit (g := fun v t => writeTwo (lay le) o n v t) hT hg ?_
  intro hb
  obtain ⟨_ | h, blk, len, cap⟩ := v <;> cases le
  · have hc := hf.ue
    exact UE.writeTwo_inline (Nat.le_trans hn (Nat.le_of_eq hc.2))
  · exact absurd hw (by simp [shape])
  · exact UE.writeTwo_heap (hb (by simp)) 
  · exact LE.writeTwo_heap (hb (by simp)) 

theorem safe_writeAt (hf : Fit le v) {o n : Nat} (hn : o + n ≤ v.cap) : Safe T s v (writeAt (lay le) o n v s) (fun _ v' => v' = v) := by
  have hg : ∀ f v t, Same f (writeAt (lay le) o n (Value.ren f v) (f t)) (writeAt (lay le) o n v t) := fun f v t => writeAt_same (lay_same le) o n f v t
  refine safe_unit (g := fun v t => writeAt (lay le) o n v t) hT hg ?_
  intro hb
  obtain ⟨_ | h, blk, len, cap⟩ := v <;> cases le
  · have hc := hf.ue
    exact UE.writeAt_inline (Nat.le_trans hn (Nat.le_of_eq hc.2))
  · exact absurd hw (by simp [shape])
  · exact UE.writeAt_heap (hb (by simp)) 
  · exact LE.writeAt_heap (hb (by simp)) 

theorem safe_setAt (hf : Fit le v) {i : Nat} (hi : i < v.len) : Safe T s v (setAt (lay le) v i s) (fun _ v' => v' = v) := by
  have hg : ∀ f v t, Same f (setAt (lay le) (Value.ren f v) i (f t)) (setAt (lay le) v i t) := fun f v t => setAt_same (lay_same le) i f v t
  refine safe_unit (g := fun v t => setAt (lay le) v i t) hT hg ?_
  intro hb
  obtain ⟨_ | h, blk, len, cap⟩ := v <;> cases le
  · have hc := hf.ue
    exact UE.setAt_inline hc.1 hi
  · exact absurd hw (by simp [shape])
  · exact UE.setAt_heap (hb (by simp)) hi
  · exact LE.setAt_heap (hb (by simp)) hi

theorem safe_idSet (hf : Fit le v) (hi : 0 < v.len) : Safe T s v (idSet (lay le) v s) (fun _ v' => v' = v) := by
  have hg : ∀ f v t, Same f (idSet (lay le) (Value.ren f v) (f t)) (idSet (lay le) v t) := fun f v t => idSet_same (lay_same le)  f v t
  refine safe_unit (g := fun v t => idSet (lay le) v t) hT hg ?_
  intro hb
  obtain ⟨_ | h, blk, len, cap⟩ := v <;> cases le
  · have hc := hf.ue
    exact UE.idSet_inline hc.1 hi
  · exact absurd hw (by simp [shape])
  · exact UE.idSet_heap (hb (by simp)) hi
  · exact LE.idSet_heap (hb (by simp)) hi

theorem safe_moveUp (hf : Fit le v) {k l l' c n : Nat} (hn : k + l' + c + n ≤ v.cap) (hl : l ≤ l') : Safe T s v (moveUp (lay le) k l l' c n v s) (fun _ v' => v' = v) := by
  have hg : ∀ f v t, Same f (moveUp (lay le) k l l' c n (Value.ren f v) (f t)) (moveUp (lay le) k l l' c n v t) := fun f v t => moveUp_same (lay_same le) k l l' c n f v t
  refine safe_unit (g := fun v t => moveUp (lay le) k l l' c n v t) hT hg ?_
  intro hb
  obtain ⟨_ | h, blk, len, cap⟩ := v <;> cases le
  · have hc := hf.ue
    exact UE.moveUp_inline (Nat.le_trans hn (Nat.le_of_eq hc.2)) hl
  · exact absurd hw (by simp [shape])
  · exact UE.moveUp_heap (hb (by simp)) hl
  · exact LE.moveUp_heap (hb (by simp)) hl

theorem safe_moveDown (hf : Fit le v) {k l l' c : Nat} (hn : k + l + c ≤ v.cap) (hl : l' ≤ l) : Safe T s v (moveDown (lay le) k l l' c v s) (fun _ v' => v' = v) := by
  have hg : ∀ f v t, Same f (moveDown (lay le) k l l' c (Value.ren f v) (f t)) (moveDown (lay le) k l l' c v t) := fun f v t => moveDown_same (lay_same le) k l l' c f v t
  refine safe_unit (g := fun v t => moveDown (lay le) k l l' c v t) hT hg ?_
  intro hb
  obtain ⟨_ | h, blk, len, cap⟩ := v <;> cases le
  · have hc := hf.ue
    exact UE.moveDown_inline (Nat.le_trans hn (Nat.le_of_eq hc.2)) hl
  · exact absurd hw (by simp [shape])
  · exact UE.moveDown_heap (hb (by simp)) hl
  · exact LE.moveDown_heap (hb (by simp)) hl

end write

/-! ### The functions of a user -/

/-- After a function: what it returns is the buffer. -/
def After (b : Buf) (a v' : Value) : Prop := v' = a ∧ shape a = b

section ret
variable {R : Rules} {T : Theory R} {s : Tag} {v : Value}

/-- A function that returns nothing. -/
theorem Safe.same {x : Tr Unit} (h : Safe T s v x (fun _ v' => v' = v)) : Safe T s v (do x; return v) (After (shape v)) := by
  refine (Safe.ret h v).conseq ?_
  rintro a v' ⟨rfl, _, rfl⟩
  exact ⟨rfl, rfl⟩

theorem Safe.seq {x : Tr Unit} {α : Type} {f : Unit → Tr α} {Q : α → Value → Prop} (h : Safe T s v x (fun _ v' => v' = v)) (hf : Safe T s v (f ()) Q) : Safe T s v (x >>= f) Q := by
  refine Safe.bind h ?_
  rintro _ v' e
  rw [e]
  exact hf

end ret

section user
variable {R : Rules} {T : Theory R} {s : Tag} {v : Value} (hT : Both T) {le : Bool} (hf : (shape v).Ok le)
include hT hf

theorem safe_push (dbg : Bool) (hw : (le && !(shape v).onHeap) = false) (hl : v.len < v.cap) : Safe T s v (push (lay le) dbg v s) (After { shape v with len := v.len + 1 }) := by
  refine Safe.call fun t => Safe.seq (safe_len hT le) ?_
  have key : Safe T t v ((lay le).setLen dbg v (v.len + 1) t >>= fun v' => asMutSlice (lay le) v' t >>= fun m => Tr.ev (.write m (v.data (lay le) v.len 1)) >>= fun _ => pure v')
      (After { shape v with len := v.len + 1 }) := by
    refine Safe.bind (safe_setLen hT le dbg _) ?_
    rintro _ _ ⟨rfl, rfl⟩
    rw [← Tr.assoc]
    exact (Safe.same (v := { v with len := v.len + 1 })
      (safe_writeTop hT hw (Fit.of_shape ⟨hl, hf.room⟩) (Nat.le_add_left 1 _)))
  cases dbg
  · exact key
  · exact Safe.seq (safe_capacity hT le) key

theorem safe_extend (dbg : Bool) {n : Nat} (hw : (le && !(shape v).onHeap && n != 0) = false) (hl : v.len + n ≤ v.cap) :
    Safe T s v (extend (lay le) dbg v n s) (After { shape v with len := v.len + n }) := by
  refine Safe.call fun t => ?_
  have e : (do let p ← (lay le).asMutPtr v t
               (lay le).len v t
               Tr.ev (.write p (v.data (lay le) v.len n))
               (lay le).len v t
               (lay le).setLen dbg v (v.len + n) t) = (do writeBehind (lay le) n v t; (lay le).len v t; (lay le).setLen dbg v (v.len + n) t) := by
    simp only [writeBehind, Tr.assoc]
  rw [e]
  refine Safe.seq (safe_writeBehind hT (Fit.of_shape hf) hw hl) (Safe.seq (safe_len hT le) ?_)
  refine (safe_setLen hT le dbg _).conseq ?_
  rintro _ _ ⟨rfl, rfl⟩
  exact ⟨rfl, rfl⟩

theorem safe_derTruncate (dbg : Bool) {k l l' c : Nat} (hw : (le && !(shape v).onHeap) = false) (hl : l' ≤ l) (hn : k + l + c ≤ v.len) :
    Safe T s v (derTruncate (lay le) dbg v k l l' c s) (After { shape v with len := k + l' + c }) := by
  refine Safe.call fun t => ?_
  have hf' := Fit.of_shape hf
  refine Safe.seq (safe_idLength hT le hf' (by omega)) (Safe.seq (safe_lengthOf hT le hf' (by omega)) ?_)
  have e : (do let dest ← (lay le).asMutPtr v t
               Tr.ev (.write dest (v.data (lay le) k l'))
               if l' < l then
                 Tr.ev (.read dest (v.data (lay le) (k + l) c))
                 Tr.ev (.write dest (v.data (lay le) (k + l') c))
               (lay le).setLen dbg v (k + l' + c) t) = (do moveDown (lay le) k l l' c v t; (lay le).setLen dbg v (k + l' + c) t) := by
    by_cases h : l' < l <;> simp only [moveDown, h, if_true, if_false, Tr.assoc] <;> rfl
  rw [e]
  refine Safe.seq (safe_moveDown hT hw hf' (Nat.le_trans hn hf'.len) hl) ?_
  refine (safe_setLen hT le dbg _).conseq ?_
  rintro _ _ ⟨rfl, rfl⟩
  exact ⟨rfl, rfl⟩

theorem safe_berExtend (dbg : Bool) {k n : Nat} (hw : (le && !((shape v).grown n).onHeap && n != 0) = false) (hn : k + 1 ≤ v.len) :
    Safe T s v (berExtend (lay le) dbg v k n s) (After { (shape v).grown n with len := v.len + n }) := by
  refine Safe.call fun t => ?_
  have hf' := Fit.of_shape hf
  refine Safe.seq (safe_lengthOf hT le hf' hn) (Safe.bind (safe_reserve hT le hf' n) ?_)
  rintro _ w ⟨rfl, e⟩
  have hg := Buf.grown_ok hf n
  rw [← e] at hw hg ⊢
  have hlen : w.len = v.len := hg.2.1
  have e : (do let p ← (lay le).asMutPtr w t
               (lay le).len w t
               Tr.ev (.write p (w.data (lay le) w.len n))
               (lay le).len w t
               (lay le).setLen dbg w (w.len + n) t) = (do writeBehind (lay le) n w t; (lay le).len w t; (lay le).setLen dbg w (w.len + n) t) := by
    simp only [writeBehind, Tr.assoc]
  rw [e]
  refine Safe.seq (safe_writeBehind hT (Fit.of_shape hg.1) hw (hlen ▸ hg.2.2)) (Safe.seq (safe_len hT le) ?_)
  refine (safe_setLen hT le dbg _).conseq ?_
  rintro _ _ ⟨rfl, rfl⟩
  exact ⟨rfl, by rw [← hlen]; rfl⟩

theorem safe_withIdLength (dbg : Bool) {k l c : Nat} (hw : (le && !(shape v).onHeap) = false) (hn : k + l + c ≤ v.cap) :
    Safe T s v (withIdLength (lay le) dbg v k l c s) (After { shape v with len := k + l + c }) := by
  have e : withIdLength (lay le) dbg v k l c s = (do writeTwo (lay le) k l v s; (lay le).setLen dbg v (k + l + c) s) := by
    simp only [writeTwo, withIdLength, Tr.assoc]
  rw [e]
  refine Safe.seq (safe_writeTwo hT hw (Fit.of_shape hf) (by omega)) ?_
  refine (safe_setLen hT le dbg _).conseq ?_
  rintro _ _ ⟨rfl, rfl⟩
  exact ⟨rfl, rfl⟩

end user

/-! ### The assertion of `Der::extend_from_slice` -/

def lookAt (L : Lay) (v : Value) (t : Tag) : Tr Unit := do
  let _ ← L.asPtr v t
  L.len v t

theorem UE.lookAt_inline {blk len cap : Nat} : Checked ok2 ⟨none, blk, len, cap⟩ ⟨none, blk, len, cap⟩ (lookAt universal ⟨none, blk, len, cap⟩ 0 2).2.1
    (lookAt universal ⟨none, blk, len, cap⟩ 0 2).2.2 := by
  unfold lookAt
  evl
  inlined []

theorem LE.lookAt_inline {blk len cap : Nat} : Checked ok2 ⟨none, blk, len, cap⟩ ⟨none, blk, len, cap⟩ (lookAt little ⟨none, blk, len, cap⟩ 0 2).2.1
    (lookAt little ⟨none, blk, len, cap⟩ 0 2).2.2 := by
  unfold lookAt
  evl
  inlined []

theorem UE.lookAt_heap {blk len cap : Nat} (hb : blk ≠ 0) : Checked ok2 ⟨some 1, blk, len, cap⟩ ⟨some 1, blk, len, cap⟩
    (lookAt universal ⟨some 1, blk, len, cap⟩ 0 2).2.1 (lookAt universal ⟨some 1, blk, len, cap⟩ 0 2).2.2 := by
  unfold lookAt
  evl
  heaped []

theorem LE.lookAt_heap {blk len cap : Nat} (hb : blk ≠ 0) : Checked ok2 ⟨some 1, blk, len, cap⟩ ⟨some 1, blk, len, cap⟩
    (lookAt little ⟨some 1, blk, len, cap⟩ 0 2).2.1 (lookAt little ⟨some 1, blk, len, cap⟩ 0 2).2.2 := by
  unfold lookAt
  evl
  heaped []

section der
variable {R : Rules} {T : Theory R} {s : Tag} {v : Value} (hT : Both T) {le : Bool}
include hT

theorem safe_lookAt : Safe T s v (lookAt (lay le) v s) (fun _ v' => v' = v) := by
  have hg : ∀ f v t, Same f (lookAt (lay le) (Value.ren f v) (f t)) (lookAt (lay le) v t) := fun f v t =>
    Same.bind ((lay_same le).asPtr f v t) fun _ => (lay_same le).len f v t
  refine safe_unit (g := fun v t => lookAt (lay le) v t) hT hg ?_
  intro hb
  obtain ⟨_ | h, blk, len, cap⟩ := v <;> cases le
  · exact UE.lookAt_inline
  · exact LE.lookAt_inline
  · exact UE.lookAt_heap (hb (by simp))
  · exact LE.lookAt_heap (hb (by simp))

theorem safe_derEnd (dbg : Bool) {k l l' c n : Nat} (hf : Fit le v) (hw : (le && !(shape v).onHeap) = false) (hl : l ≤ l') (hn : k + l' + c + n ≤ v.cap) :
    Safe T s v (derEnd (lay le) dbg k l l' c n v s) (fun _ v' => v' = v) := by
  have e : derEnd (lay le) dbg k l l' c n v s = (do
      moveUp (lay le) k l l' c n v s
      if dbg then lookAt (lay le) v s
      writeAt (lay le) k l' v s) := by
    cases dbg <;> by_cases h : l' = l <;>
      simp only [derEnd, moveUp, lookAt, writeAt, h, ne_eq, not_true_eq_false, not_false_eq_true, Bool.false_eq_true, if_true, if_false, Tr.assoc] <;> rfl
  rw [e]
  refine Safe.seq (safe_moveUp hT hw hf hn hl) ?_
  cases dbg
  · exact safe_writeAt hT hw hf (by omega)
  · exact Safe.seq (safe_lookAt hT) (safe_writeAt hT hw hf (by omega))

theorem safe_derExtend (hf : (shape v).Ok le) (dbg : Bool) {k l l' c n : Nat} (hw : (le && !((shape v).grown (n + l' - l)).onHeap) = false) (hl : l ≤ l')
    (hn : v.len = k + l + c) : Safe T s v (derExtend (lay le) dbg v k l l' c n s) (After { (shape v).grown (n + l' - l) with len := v.len + (n + l' - l) }) := by
  refine Safe.call fun t => ?_
  have hf' := Fit.of_shape hf
  refine Safe.seq (safe_idLength hT le hf' (by omega)) (Safe.seq (safe_lengthOf hT le hf' (by omega)) (Safe.bind (safe_reserve hT le hf' _) ?_))
  rintro _ w ⟨rfl, e⟩
  have hg := Buf.grown_ok hf (n + l' - l)
  rw [← e] at hw hg ⊢
  have hlen : w.len = v.len := hg.2.1
  have hcap : v.len + (n + l' - l) ≤ w.cap := hg.2.2
  refine Safe.seq (safe_len hT le) (Safe.bind (safe_setLen hT le dbg _) ?_)
  rintro _ _ ⟨rfl, rfl⟩
  have q : Safe T t { w with len := w.len + (n + l' - l) }
      (do derEnd (lay le) dbg k l l' c n { w with len := w.len + (n + l' - l) } t; return { w with len := w.len + (n + l' - l) })
      (After { shape w with len := v.len + (n + l' - l) }) := by
    rw [← hlen]
    exact (Safe.same (v := { w with len := w.len + (n + l' - l) })
      (safe_derEnd hT dbg (Fit.of_shape ⟨by simp only [shape]; omega, hg.1.room⟩) hw hl (by simp only; omega)))
  have e : ∀ u : Value, (do derEnd (lay le) dbg k l l' c n u t; return u) = (do
      let dest ← (lay le).asMutPtr u t
      let src ← (lay le).asPtr u t
      if l' ≠ l then
        Tr.ev (.read src (u.data (lay le) (k + l) c))
        Tr.ev (.write dest (u.data (lay le) (k + l') c))
      Tr.ev (.write dest (u.data (lay le) (k + l' + c) n))
      if dbg then
        let _ ← (lay le).asPtr u t
        (lay le).len u t
      let dest ← (lay le).asMutPtr u t
      Tr.ev (.write dest (u.data (lay le) k l'))
      return u) := by
    intro u
    cases dbg <;> by_cases h : l' = l <;>
      simp only [derEnd, h, ne_eq, not_true_eq_false, not_false_eq_true, Bool.false_eq_true, if_true, if_false, Tr.assoc]
  rw [e] at q
  exact q

end der

end Bsn1.Alias
