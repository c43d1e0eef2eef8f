import Verif.Lemmas.BufferRep
/-!
# The little-endian layout is correct
-/

namespace Bsn1.Buf
namespace LE

/-- What the struct says. -/
def Is (b : LE) : View → Prop
  | .inline data len => InlineAt b data len
  | .heap p cap len => HeapAt b p cap len

/-- The buffer has the storage and the length and owns the block. -/
def Rep (b : LE) (h : Heap) (s : List Cell) (l : Nat) (fp : Option Nat) : Prop := ∃ v, Is b v ∧ Holds 23 v h s l fp

theorem init_le : 23 ≤ isizeMax := by decide

variable {b : LE} {h : Heap} {s : List Cell} {l : Nat} {fp : Option Nat}

theorem rep_len (hr : Rep b h s l fp) : b.len = l := by
  obtain ⟨v, hi, hh⟩ := hr
  cases hh with
  | inline h1 h2 => exact InlineAt.len hi
  | heap h1 h2 h3 h4 h5 h6 => exact HeapAt.len hi

theorem rep_capacity (hr : Rep b h s l fp) : b.capacity = s.length := by
  obtain ⟨v, hi, hh⟩ := hr
  cases hh with
  | inline h1 h2 => rw [InlineAt.capacity hi, List.length_map, h1]
  | heap h1 h2 h3 h4 h5 h6 => exact HeapAt.capacity hi

theorem rep_cells (hr : Rep b h s l fp) : b.cells h = .ok (s.take l) h := by
  obtain ⟨v, hi, hh⟩ := hr
  rw [LE.cells]
  cases hh with
  | inline h1 h2 => rw [InlineAt.len hi, ← List.map_take]; exact InlineAt.peek hi h2 h
  | heap h1 h2 h3 h4 h5 h6 => rw [HeapAt.len hi]; exact HeapAt.peek hi h3 h6

theorem rep_new (h : Heap) : Rep new h ((List.replicate 23 0).map some) 0 none :=
  ⟨.inline (List.replicate 23 0) 0, inlineAt_new, .inline rfl (by omega)⟩

theorem rep_setLen (n : Nat) (hr : Rep b h s l fp) (hn : n ≤ s.length) : Rep (b.setLen n) h s n fp := by
  obtain ⟨v, hi, hh⟩ := hr
  cases hh with
  | @inline data len _ h1 h2 =>
    rw [List.length_map, h1] at hn
    exact ⟨.inline data n, InlineAt.setLen hi hn, .inline h1 hn⟩
  | @heap p len _ cells h1 h2 h3 h4 h5 h6 => exact ⟨.heap p s.length n, HeapAt.setLen hi hn, .heap h1 h2 h3 h4 h5 hn⟩

theorem rep_poke (off : Nat) (vals : Bytes) (hr : Rep b h s l fp) (hn : off + vals.length ≤ s.length) :
    ∃ b' h', b.poke off vals h = .ok b' h' ∧ Rep b' h' (patch s off (vals.map some)) l fp ∧ Frame h h' fp fp := by
  obtain ⟨v, hi, hh⟩ := hr
  cases hh with
  | @inline data len _ h1 h2 =>
    rw [List.length_map, h1] at hn
    obtain ⟨b', e, hi'⟩ := InlineAt.poke hi hn h
    exact ⟨b', h, e, ⟨.inline _ _, hi', .patchedInline h1 h2 hn⟩, .refl _ _⟩
  | @heap p len _ cells h1 h2 h3 h4 h5 h6 =>
    exact ⟨_, _, HeapAt.poke hi h3 hn, ⟨.heap p s.length _, hi, .patched h1 h2 h4 h5 h6 (by simpa using hn)⟩, .patched _ _ _ _⟩

theorem rep_copyWithin (src dst n : Nat) (hr : Rep b h s l fp) (hs : src + n ≤ s.length) (hd : dst + n ≤ s.length) :
    ∃ b' h', b.copyWithin src dst n h = .ok b' h' ∧ Rep b' h' (patch s dst ((s.drop src).take n)) l fp ∧ Frame h h' fp fp := by
  obtain ⟨v, hi, hh⟩ := hr
  cases hh with
  | @inline data len _ h1 h2 =>
    rw [List.length_map, h1] at hs hd
    obtain ⟨b', e, hi'⟩ := InlineAt.copyWithin hi hs hd h
    refine ⟨b', h, e, ⟨.inline _ _, hi', ?_⟩, .refl _ _⟩
    rw [← List.map_drop, ← List.map_take]
    exact .patchedInline h1 h2 (by simp; omega)
  | @heap p len _ cells h1 h2 h3 h4 h5 h6 =>
    exact ⟨_, _, HeapAt.copyWithin hi h3 hs hd, ⟨.heap p s.length _, hi, .patched h1 h2 h4 h5 h6 (by simp; omega)⟩, .patched _ _ _ _⟩

theorem rep_bound (hr : Rep b h s l fp) : l ≤ s.length ∧ s.length ≤ isizeMax := by
  obtain ⟨_, _, hh⟩ := hr
  exact hh.bound init_le

theorem rep_extend (vals : Bytes) (hr : Rep b h s l fp) (hn : l + vals.length ≤ s.length) :
    ∃ b' h', b.extend vals h = .ok b' h' ∧ Rep b' h' (patch s l (vals.map some)) (l + vals.length) fp ∧ Frame h h' fp fp := by
  obtain ⟨b', h', e, hr', hf⟩ := rep_poke l vals hr hn
  rw [extend, rep_len hr, bind_ok e, pure_run, rep_len hr']
  exact ⟨_, _, rfl, rep_setLen _ hr' (by rw [patch_length _ _ _ (by simpa using hn)]; exact hn), hf⟩

theorem rep_setAt (i : Nat) (x : UInt8) (hr : Rep b h s l fp) (hn : i < l) :
    ∃ b' h', b.setAt i x h = .ok b' h' ∧ Rep b' h' (patch s i [some x]) l fp ∧ Frame h h' fp fp := by
  have hb := (rep_bound hr).1
  rw [setAt, rep_len hr, if_pos hn]
  exact rep_poke i [x] hr (by simp; omega)

theorem rep_push (m : Build) (x : UInt8) (hr : Rep b h s l fp) (hn : l < s.length) :
    ∃ b' h', b.push m x h = .ok b' h' ∧ Rep b' h' (patch s l [some x]) (l + 1) fp ∧ Frame h h' fp fp := by
  rw [push]
  simp only []
  rw [rep_len hr, rep_capacity hr, bind_ok (debugAssert_ok m hn h)]
  exact rep_setAt l x (rep_setLen (l + 1) hr hn) (by omega)

/-- The capacity after is just what is needed. -/
theorem rep_reserve_exact (m : Build) {al : Allocator} (n : Nat) (hv : al.Valid) (hr : Rep b h s l fp) (hn : l + n ≤ isizeMax) :
    b.reserve m al n h = .abort ∨
    ∃ b' h' fp' s', b.reserve m al n h = .ok b' h' ∧ Rep b' h' s' l fp' ∧ l + n ≤ s'.length ∧ s.length ≤ s'.length ∧
      s'.take l = s.take l ∧ Frame h h' fp fp' ∧ s'.length = max s.length (l + n) := by
  have hl := rep_len hr
  have hc := rep_capacity hr
  have hu : isizeMax < usizeSize := by decide
  rw [reserve, hl, bind_ok (usizeAdd_ok m (by omega) h), hc]
  by_cases hle : l + n ≤ s.length
  · rw [if_pos hle, pure_run]
    exact .inr ⟨b, h, fp, s, rfl, hr, hle, Nat.le_refl _, rfl, .refl _ _, by omega⟩
  rw [if_neg hle]
  obtain ⟨v, hi, hh⟩ := hr
  cases hh with
  | @inline data len _ h1 h2 =>
    have hcl : ((data.take l).map some).length = l := by simp; omega
    rw [List.length_map, h1] at hle
    rw [InlineAt.isStack hi, if_pos rfl, bind_ok (layoutArray_ok hn h)]
    rcases alloc_spec hv (l + n) (by omega) hn h with ⟨h', e, _⟩ | ⟨p, cells, h', e, a1, a2, a3, a4, a5⟩
    · left
      rw [bind_ok e, if_pos rfl]
      rfl
    · right
      have hb : h'.blocks p = some cells := by rw [a5, put_self]
      rw [bind_ok e, if_neg (by omega), bind_ok (InlineAt.peek hi h2 h'),
        bind_ok (store_spec p 0 _ cells h' hb (by rw [hcl]; omega))]
      rw [pure_run]
      have hbl : b.bytes.length = 24 := by rw [hi.1]; simp [hi.2.1]
      have hlen : ((b.setWord 0 p).setWord 8 (l + n)).len = l := by
        have e16 : (((b.setWord 0 p).setWord 8 (l + n)).bytes.drop 16) = b.bytes.drop 16 := by
          simp only [setWord, List.take_zero, List.nil_append]
          rw [List.drop_append, List.drop_of_length_le (by simp [leBytes_length]), List.drop_drop, List.drop_append,
            List.drop_of_length_le (by simp [leBytes_length]), List.drop_drop]
          simp [leBytes_length]
        have ew : ((b.setWord 0 p).setWord 8 (l + n)).len_ = b.len_ := by
          rw [len_, word, e16]; rfl
        have hln := InlineAt.len hi
        rw [LE.len, LE.isStack, ew]
        rw [LE.len, LE.isStack] at hln
        exact hln
      rw [hlen]
      have hpl : (patch cells 0 ((data.take l).map some)).length = l + n := by rw [patch_length _ _ _ (by omega), a4]
      have hh' := Holds.patched (init := 23) (h := h') (p := p) (len := l) (off := 0) (cells := cells)
        (vals := (data.take l).map some) a1 a2 (by omega) (by omega) (by omega) (by rw [hcl]; omega)
      rw [a4] at hh'
      refine ⟨_, _, some p, _, rfl, ⟨.heap p (l + n) l, heapAt_set b hbl a2 hn (by omega), hh'⟩, by omega,
        by rw [hpl, List.length_map, h1]; omega, ?_, ?_, by rw [hpl, List.length_map, h1]; omega⟩
      · have e0 := take_patch cells ((data.take l).map some) 0 (by omega)
        rw [Nat.zero_add, hcl, List.take_zero, List.nil_append] at e0
        rw [e0, List.map_take]
      · rw [Frame, erase_put, a5, erase_fresh _ _ _ a3, erase_none]
  | @heap p len _ cells h1 h2 h3 h4 h5 h6 =>
    rw [HeapAt.isStack hi, if_neg (by decide), bind_ok (layoutArray_ok h5 h), HeapAt.data_ hi]
    rcases realloc_spec hv p (l + n) s h h3 (by omega) (by omega) hn with ⟨h', e, _⟩ | ⟨p', junk, h', e, a1, a2, a3, a4, a5⟩
    · left
      rw [bind_ok e, if_pos rfl, bind_ok (layoutArray_ok hn h')]
      rfl
    · right
      rw [bind_ok e, if_neg (by omega), pure_run]
      have hh' := Holds.heap (init := 23) (h := h') (p := p') (len := l) (cells := s ++ junk) a1 a2 (by rw [a5, put_self])
          (by omega) (by omega) (by omega)
      rw [a4] at hh'
      refine ⟨_, _, some p', _, rfl, ⟨.heap p' (l + n) l, heapAt_move hi a2 hn (by omega), hh'⟩, by omega, by simp,
        List.take_append_of_le_length h6, ?_, by omega⟩
      rw [Frame, a5, erase_fresh _ _ _ a3, put_none]

theorem rep_reserve (m : Build) {al : Allocator} (n : Nat) (hv : al.Valid) (hr : Rep b h s l fp) (hn : l + n ≤ isizeMax) :
    b.reserve m al n h = .abort ∨
    ∃ b' h' fp' s', b.reserve m al n h = .ok b' h' ∧ Rep b' h' s' l fp' ∧ l + n ≤ s'.length ∧ s.length ≤ s'.length ∧
      s'.take l = s.take l ∧ Frame h h' fp fp' := by
  rcases rep_reserve_exact m n hv hr hn with e | ⟨b', h', fp', s', e, h1, h2, h3, h4, h5, _⟩
  · exact .inl e
  · exact .inr ⟨b', h', fp', s', e, h1, h2, h3, h4, h5⟩

theorem rep_withCapacity (m : Build) {al : Allocator} (n : Nat) (h : Heap) (hv : al.Valid) (hn : n ≤ isizeMax) :
    withCapacity m al n h = .abort ∨
    ∃ b h' fp s, withCapacity m al n h = .ok b h' ∧ Rep b h' s 0 fp ∧ n ≤ s.length ∧ Frame h h' none fp := by
  rcases rep_reserve m n hv (rep_new h) (by simpa using hn) with e | ⟨b', h', fp', s', e, h1, h2, _, _, h4⟩
  · exact .inl e
  · exact .inr ⟨b', h', fp', s', e, h1, by simpa using h2, h4⟩

theorem Rep.near {h' : Heap} (hr : Rep b h s l fp) (e : ∀ p, fp = some p → h'.blocks p = h.blocks p) : Rep b h' s l fp := by
  obtain ⟨v, hi, hh⟩ := hr
  exact ⟨v, hi, hh.near e⟩

theorem rep_clone (m : Build) {al : Allocator} (vals : Bytes) (hv : al.Valid) (hr : Rep b h s l fp) (hs : s.take l = vals.map some) :
    b.clone m al h = .abort ∨
    ∃ b' h' fp' s', b.clone m al h = .ok b' h' ∧ Rep b' h' s' l fp' ∧ s'.take l = vals.map some ∧ Frame h h' none fp' := by
  have hb := rep_bound hr
  have hvl : vals.length = l := by
    have := congrArg List.length hs
    simp at this
    omega
  rw [clone, rep_len hr]
  rcases rep_withCapacity m l h hv (by omega) with e | ⟨b', h', fp', s', e, h1, h2, h3⟩
  · exact .inl (bind_abort e)
  · right
    have hr' : Rep b h' s l fp := hr.near fun p e' => by
      subst e'
      obtain ⟨v, _, hh⟩ := hr
      rw [h3.keeps hh.live, hh.live]
    have hc := rep_cells hr'
    rw [hs] at hc
    rw [bind_ok e, bind_ok hc, bind_ok (assumeInit_ok vals h')]
    obtain ⟨b'', h'', e2, h4, h5⟩ := rep_extend vals h1 (by omega)
    refine ⟨b'', h'', fp', _, e2, by rwa [Nat.zero_add, hvl] at h4, ?_, h3.trans h5⟩
    have e0 := take_patch s' (vals.map some) 0 (by omega)
    rwa [Nat.zero_add, List.length_map, hvl, List.take_zero, List.nil_append] at e0

theorem rep_intoVec {al : Allocator} (hv : al.Valid) (hr : Rep b h s l fp) : b.intoVec al h = .abort ∨
    ∃ v h' fp' s', b.intoVec al h = .ok v h' ∧ VecRep v h' s' l fp' ∧ s'.take l = s.take l ∧ Frame h h' fp fp' := by
  have hc := rep_cells hr
  obtain ⟨v, hi, hh⟩ := hr
  rw [intoVec]
  cases hh with
  | @inline data len _ h1 h2 =>
    have hvl : (data.take l).length = l := by simp; omega
    rw [← List.map_take] at hc ⊢
    rw [InlineAt.isStack hi, if_pos rfl, bind_ok hc, bind_ok (assumeInit_ok _ h)]
    rcases mkVec_spec hv (data.take l) 0 (by have := init_le; simp; omega) h with e | ⟨v, h', fp, junk, e, h3, h4, h5⟩
    · exact .inl e
    · rw [hvl] at h3
      exact .inr ⟨v, h', fp, _, e, h3, by rw [List.take_append_of_le_length (by simp; omega), List.take_of_length_le (by simp)], h5⟩
  | @heap p len _ cells h1 h2 h3 h4 h5 h6 =>
    right
    rw [HeapAt.isStack hi, if_neg (by decide), HeapAt.data_ hi, HeapAt.cap_ hi, HeapAt.len hi, pure_run]
    exact ⟨_, _, _, _, rfl, .block h1 h2 h3 h4 h5 h6, rfl, .refl _ _⟩

theorem rep_drop (hr : Rep b h s l fp) : ∃ h', b.drop h = .ok () h' ∧ Frame h h' fp none := by
  obtain ⟨v, hi, hh⟩ := hr
  rw [drop]
  cases hh with
  | @inline data len _ h1 h2 =>
    rw [InlineAt.isStack hi, if_pos rfl, pure_run]
    exact ⟨_, rfl, .refl _ _⟩
  | @heap p len _ cells h1 h2 h3 h4 h5 h6 =>
    rw [HeapAt.isStack hi, if_neg (by decide), HeapAt.data_ hi, HeapAt.cap_ hi]
    refine ⟨_, dealloc_spec _ _ h h3, ?_⟩
    rw [Frame, erase_none, put_none]

theorem rep_fromVec {v : RVec} (hr : VecRep v h s l fp) : ∃ s', Rep (fromVec v) h s' l fp ∧ s <+: s' := by
  cases hr with
  | empty => exact ⟨_, rep_new h, List.nil_prefix⟩
  | @block p len _ cells h1 h2 h3 h4 h5 h6 =>
    refine ⟨s, ⟨.heap p s.length l, ?_, .heap h1 h2 h3 h4 h5 h6⟩, List.prefix_rfl⟩
    rw [fromVec, if_neg (by simp only; omega)]
    exact heapAt_set _ (by simp) h2 h5 h6

theorem correct : Correct little Rep where
  near := Rep.near
  live := fun ⟨_, _, hh⟩ => hh.live
  bound := rep_bound
  len := rep_len
  capacity {b h _ _ _} hr := by
    change (pure (LE.capacity b) : M Nat) h = _
    rw [pure_run, rep_capacity hr]
  cells := rep_cells
  new h := ⟨_, rep_new h, by simp⟩
  withCapacity m _ n h := rep_withCapacity m n h
  fromVec := rep_fromVec
  push m _ _ _ _ _ x := rep_push m x
  extend _ _ _ _ _ _ vals := rep_extend vals
  reserve m _ _ _ _ _ _ n := rep_reserve m n
  setLen m b h s l fp n hr hn := ⟨_, rfl, rep_setLen n hr hn⟩
  poke off vals := rep_poke off vals
  copyWithin src dst n := rep_copyWithin src dst n
  setAt i x := rep_setAt i x
  setAt_out {b h _ _ _} i x hr hn := by
    change LE.setAt b i x h = _
    unfold LE.setAt
    rw [rep_len hr, if_neg (by omega)]
    rfl
  clone m _ _ _ _ _ _ vals := rep_clone m vals
  intoVec := rep_intoVec
  drop := rep_drop

end LE
end Bsn1.Buf
