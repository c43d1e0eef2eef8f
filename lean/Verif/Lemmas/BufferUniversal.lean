import Verif.Lemmas.BufferLittleRep
/-!
# The other layout is correct
-/

namespace Bsn1.Buf
namespace UE

/-- What the struct says. -/
def Is (b : UE) : View → Prop
  | .inline data len => b = ⟨len, .stack data⟩ ∧ len < 2 ^ 63
  | .heap p cap len => b = ⟨2 ^ 63 + len, .heap p cap⟩ ∧ len < 2 ^ 63

/-- The buffer has the storage and the length and owns the block. -/
def Rep (b : UE) (h : Heap) (s : List Cell) (l : Nat) (fp : Option Nat) : Prop := ∃ v, Is b v ∧ Holds 16 v h s l fp

theorem init_le : 16 ≤ isizeMax := by decide

theorem inline_isStack {data : Bytes} {len : Nat} (h : len < 2 ^ 63) : isStack ⟨len, .stack data⟩ = true := LE.and_flag len h

theorem heap_isStack {p cap len : Nat} (h : len < 2 ^ 63) : isStack ⟨2 ^ 63 + len, .heap p cap⟩ = false := LE.and_flag_heap' len h

theorem inline_len {data : Bytes} {len : Nat} (h : len < 2 ^ 63) : UE.len ⟨len, .stack data⟩ = len := LE.and_mask len h

theorem heap_len {p cap len : Nat} (h : len < 2 ^ 63) : UE.len ⟨2 ^ 63 + len, .heap p cap⟩ = len := LE.and_mask_heap len h

theorem stackField_run (l : Nat) (data : Bytes) (h : Heap) : stackField ⟨l, .stack data⟩ h = .ok data h := rfl

theorem heapField_run (l p cap : Nat) (h : Heap) : heapField ⟨l, .heap p cap⟩ h = .ok (p, cap) h := rfl

theorem inline_peek {data : Bytes} {len n : Nat} (hl : len < 2 ^ 63) (hn : n ≤ data.length) (h : Heap) :
    peek ⟨len, .stack data⟩ n h = .ok ((data.take n).map some) h := by
  rw [peek, inline_isStack hl, if_pos rfl, bind_ok (stackField_run _ data h), if_pos hn, pure_run]

theorem heap_peek {p cap len n : Nat} {h : Heap} {cells : List Cell} (hl : len < 2 ^ 63) (hb : h.blocks p = some cells)
    (hn : n ≤ cells.length) : peek ⟨2 ^ 63 + len, .heap p cap⟩ n h = .ok (cells.take n) h := by
  rw [peek, heap_isStack hl, if_neg (by decide), bind_ok (heapField_run _ p cap h)]
  exact load_spec p n cells h hb hn

theorem inline_poke {data vals : Bytes} {len off : Nat} (hl : len < 2 ^ 63) (hn : off + vals.length ≤ data.length) (h : Heap) :
    poke ⟨len, .stack data⟩ off vals h = .ok ⟨len, .stack (patch data off vals)⟩ h := by
  rw [poke, inline_isStack hl, if_pos rfl, bind_ok (stackField_run _ data h), if_pos hn, pure_run]
  rfl

theorem heap_poke {p cap len off : Nat} {vals : Bytes} {h : Heap} {cells : List Cell} (hl : len < 2 ^ 63) (hb : h.blocks p = some cells)
    (ho : off + vals.length ≤ cells.length) : poke ⟨2 ^ 63 + len, .heap p cap⟩ off vals h = .ok ⟨2 ^ 63 + len, .heap p cap⟩
      ⟨h.blocks.put p (some (patch cells off (vals.map some))), h.clock⟩ := by
  rw [poke, heap_isStack hl, if_neg (by decide), bind_ok (heapField_run _ p cap h),
    bind_ok (store_spec p off (vals.map some) cells h hb (by simpa using ho)), pure_run]

theorem flag_and_or {l n : Nat} (hl : l < 2 ^ 63) (hn : n < 2 ^ 63) :
    ((l &&& HEAP_FLAG) ||| n) = n ∧ ((2 ^ 63 + l &&& HEAP_FLAG) ||| n) = 2 ^ 63 + n := by
  have h1 := LE.and_flag l hl
  rw [beq_iff_eq] at h1
  rw [h1, LE.and_flag_heap l hl, ← LE.flag_eq, LE.flag_or n hn, Nat.zero_or, LE.flag_eq]
  exact ⟨rfl, rfl⟩

variable {b : UE} {h : Heap} {s : List Cell} {l : Nat} {fp : Option Nat}

theorem rep_len (hr : Rep b h s l fp) : b.len = l := by
  obtain ⟨v, hi, hh⟩ := hr
  cases hh with
  | inline h1 h2 => rw [hi.1, inline_len hi.2]
  | heap h1 h2 h3 h4 h5 h6 => rw [hi.1, heap_len hi.2]

theorem rep_capacity (hr : Rep b h s l fp) : b.capacity h = .ok s.length h := by
  obtain ⟨v, hi, hh⟩ := hr
  rw [capacity]
  cases hh with
  | inline h1 h2 => rw [hi.1, inline_isStack hi.2, List.length_map, h1]; rfl
  | heap h1 h2 h3 h4 h5 h6 => rw [hi.1, heap_isStack hi.2]; rfl

theorem rep_cells (hr : Rep b h s l fp) : b.cells h = .ok (s.take l) h := by
  obtain ⟨v, hi, hh⟩ := hr
  rw [cells]
  cases hh with
  | inline h1 h2 => rw [hi.1, inline_len hi.2, ← List.map_take]; exact inline_peek hi.2 (by omega) h
  | heap h1 h2 h3 h4 h5 h6 => rw [hi.1, heap_len hi.2]; exact heap_peek hi.2 h3 h6

theorem rep_new (h : Heap) : Rep new h ((List.replicate 16 0).map some) 0 none :=
  ⟨.inline (List.replicate 16 0) 0, ⟨rfl, by decide⟩, .inline rfl (by omega)⟩

theorem rep_setLen (m : Build) (n : Nat) (hr : Rep b h s l fp) (hn : n ≤ s.length) :
    ∃ b', b.setLen m n h = .ok b' h ∧ Rep b' h s n fp := by
  have hc := rep_capacity hr
  rw [setLen, bind_ok hc, bind_ok (debugAssert_ok m hn h), pure_run]
  obtain ⟨v, hi, hh⟩ := hr
  cases hh with
  | @inline data len _ h1 h2 =>
    rw [List.length_map, h1] at hn
    have hn' : n < 2 ^ 63 := LE.isizeMax_lt (by have := init_le; omega)
    rw [hi.1]
    simp only []
    rw [(flag_and_or hi.2 hn').1]
    exact ⟨_, rfl, ⟨.inline data n, ⟨rfl, hn'⟩, .inline h1 hn⟩⟩
  | @heap p len _ cells h1 h2 h3 h4 h5 h6 =>
    have hn' : n < 2 ^ 63 := LE.isizeMax_lt (by omega)
    rw [hi.1]
    simp only []
    rw [(flag_and_or hi.2 hn').2]
    exact ⟨_, rfl, ⟨.heap p s.length n, ⟨rfl, hn'⟩, .heap h1 h2 h3 h4 h5 hn⟩⟩

theorem rep_poke (off : Nat) (vals : Bytes) (hr : Rep b h s l fp) (hn : off + vals.length ≤ s.length) :
    ∃ b' h', b.poke off vals h = .ok b' h' ∧ Rep b' h' (patch s off (vals.map some)) l fp ∧ Frame h h' fp fp := by
  obtain ⟨v, hi, hh⟩ := hr
  cases hh with
  | @inline data len _ h1 h2 =>
    rw [List.length_map, h1] at hn
    rw [hi.1]
    exact ⟨_, h, inline_poke hi.2 (by omega) h, ⟨.inline _ _, ⟨rfl, hi.2⟩, .patchedInline h1 h2 hn⟩, .refl _ _⟩
  | @heap p len _ cells h1 h2 h3 h4 h5 h6 =>
    rw [hi.1]
    exact ⟨_, _, heap_poke hi.2 h3 hn, ⟨.heap p s.length _, ⟨rfl, hi.2⟩, .patched h1 h2 h4 h5 h6 (by simpa using hn)⟩,
      .patched _ _ _ _⟩

theorem rep_copyWithin (src dst n : Nat) (hr : Rep b h s l fp) (hs : src + n ≤ s.length) (hd : dst + n ≤ s.length) :
    ∃ b' h', b.copyWithin src dst n h = .ok b' h' ∧ Rep b' h' (patch s dst ((s.drop src).take n)) l fp ∧ Frame h h' fp fp := by
  obtain ⟨v, hi, hh⟩ := hr
  cases hh with
  | @inline data len _ h1 h2 =>
    rw [List.length_map, h1] at hs hd
    have hn : ((data.drop src).take n).length = n := by simp; omega
    refine ⟨⟨l, .stack (patch data dst ((data.drop src).take n))⟩, h, ?_, ⟨.inline _ _, ⟨rfl, hi.2⟩, ?_⟩, .refl _ _⟩
    · rw [hi.1, copyWithin, inline_isStack hi.2, if_pos rfl, patch, hn]
      change (if src + n ≤ data.length ∧ dst + n ≤ data.length then _ else M.ub) h = _
      rw [if_pos ⟨by omega, by omega⟩]
      rfl
    · rw [← List.map_drop, ← List.map_take]
      exact .patchedInline h1 h2 (by rw [hn]; omega)
  | @heap p len _ cells h1 h2 h3 h4 h5 h6 =>
    refine ⟨_, _, ?_, ⟨.heap p s.length _, ⟨rfl, hi.2⟩, .patched h1 h2 h4 h5 h6 (vals := (s.drop src).take n) (off := dst) (h := h)
      (by simp; omega)⟩, .patched _ _ _ _⟩
    rw [hi.1, copyWithin, heap_isStack hi.2, if_neg (by decide), bind_ok (heapField_run _ p s.length h),
      bind_ok (load_at p src n s h h3 hs), bind_ok (store_spec p dst _ s h h3 (by simp; omega)), pure_run]

theorem rep_bound (hr : Rep b h s l fp) : l ≤ s.length ∧ s.length ≤ isizeMax := by
  obtain ⟨_, _, hh⟩ := hr
  exact hh.bound init_le

theorem rep_extend (m : Build) (vals : Bytes) (hr : Rep b h s l fp) (hn : l + vals.length ≤ s.length) :
    ∃ b' h', b.extend m vals h = .ok b' h' ∧ Rep b' h' (patch s l (vals.map some)) (l + vals.length) fp ∧ Frame h h' fp fp := by
  obtain ⟨b', h', e, hr', hf⟩ := rep_poke l vals hr hn
  obtain ⟨b'', e', hr''⟩ := rep_setLen m (l + vals.length) hr' (by rw [patch_length _ _ _ (by simpa using hn)]; exact hn)
  rw [extend, rep_len hr, bind_ok e, rep_len hr', e']
  exact ⟨_, _, rfl, hr'', hf⟩

theorem rep_setAt (i : Nat) (x : UInt8) (hr : Rep b h s l fp) (hn : i < l) :
    ∃ b' h', b.setAt i x h = .ok b' h' ∧ Rep b' h' (patch s i [some x]) l fp ∧ Frame h h' fp fp := by
  have hb := (rep_bound hr).1
  rw [setAt, rep_len hr, if_pos hn]
  exact rep_poke i [x] hr (by simp; omega)

theorem rep_push (m : Build) (x : UInt8) (hr : Rep b h s l fp) (hn : l < s.length) :
    ∃ b' h', b.push m x h = .ok b' h' ∧ Rep b' h' (patch s l [some x]) (l + 1) fp ∧ Frame h h' fp fp := by
  obtain ⟨b', e, hr'⟩ := rep_setLen m (l + 1) hr hn
  rw [push, rep_len hr, bind_ok (rep_capacity hr), bind_ok (debugAssert_ok m hn h), bind_ok e]
  exact rep_setAt l x hr' (by omega)

theorem heapNew_spec (m : Build) {al : Allocator} (hv : al.Valid) (n : Nat) (h0 : 0 < n) (hn : n ≤ isizeMax) (h : Heap) :
    heapNew m al n h = .abort ∨
    ∃ p cells h', heapNew m al n h = .ok (p, n) h' ∧ 0 < p ∧ p < usizeSize ∧ h.blocks p = none ∧ cells.length = n ∧
      h'.blocks = h.blocks.put p (some cells) := by
  rw [heapNew, bind_ok (debugAssert_ok m h0 h), bind_ok (layoutArray_ok hn h)]
  rcases alloc_spec hv n h0 hn h with ⟨h', e, _⟩ | ⟨p, cells, h', e, a1, a2, a3, a4, a5⟩
  · left
    rw [bind_ok e, if_pos rfl]
    rfl
  · right
    rw [bind_ok e, if_neg (by omega), pure_run]
    exact ⟨p, cells, h', rfl, a1, a2, a3, a4, a5⟩

theorem rep_withCapacity (m : Build) {al : Allocator} (n : Nat) (h : Heap) (hv : al.Valid) (hn : n ≤ isizeMax) :
    withCapacity m al n h = .abort ∨
    ∃ b h' fp s, withCapacity m al n h = .ok b h' ∧ Rep b h' s 0 fp ∧ n ≤ s.length ∧ Frame h h' none fp := by
  rw [withCapacity]
  by_cases hle : n ≤ INIT_CAPACITY
  · rw [if_pos hle, pure_run]
    exact .inr ⟨_, _, _, _, rfl, rep_new h, hle, .refl _ _⟩
  · rw [if_neg hle]
    rcases heapNew_spec m hv n (by omega) hn h with e | ⟨p, cells, h', e, a1, a2, a3, a4, a5⟩
    · exact .inl (bind_abort e)
    · right
      have h0 : 0 < cells.length := by simp only [INIT_CAPACITY] at hle; omega
      have hh' := Holds.heap (init := 16) (h := h') (p := p) (len := 0) (cells := cells) a1 a2 (by rw [a5, put_self]) h0
        (by omega) (by omega)
      rw [a4] at hh'
      rw [bind_ok e, pure_run, LE.or_flag 0 (by decide)]
      refine ⟨_, _, some p, cells, rfl, ⟨.heap p n 0, ⟨rfl, by decide⟩, hh'⟩, by omega, ?_⟩
      rw [Frame, a5, erase_fresh _ _ _ a3, erase_none]

theorem heapRealloc_run {al : Allocator} {p n p' : Nat} {h' : Heap} (h5 : s.length ≤ isizeMax) (h0 : 0 < p')
    (e : realloc al p s.length n h = .ok p' h') : heapRealloc al (p, s.length) n h = .ok (p', n) h' := by
  rw [heapRealloc, bind_ok (layoutArray_ok h5 h), bind_ok e, if_neg (by omega), pure_run]

/-- The capacity after is just what is needed. -/
theorem rep_reserve_exact (m : Build) {al : Allocator} (n : Nat) (hv : al.Valid) (hr : Rep b h s l fp) (hn : l + n ≤ isizeMax) :
    b.reserve m al n h = .abort ∨
    ∃ b' h' fp' s', b.reserve m al n h = .ok b' h' ∧ Rep b' h' s' l fp' ∧ l + n ≤ s'.length ∧ s.length ≤ s'.length ∧
      s'.take l = s.take l ∧ Frame h h' fp fp' ∧ s'.length = max s.length (l + n) := by
  have hl := rep_len hr
  have hc := rep_capacity hr
  have hu : isizeMax < usizeSize := by decide
  rw [reserve, hl, bind_ok (usizeAdd_ok m (by omega) h), bind_ok hc]
  by_cases hle : l + n ≤ s.length
  · rw [if_pos hle, pure_run]
    exact .inr ⟨b, h, fp, s, rfl, hr, hle, Nat.le_refl _, rfl, .refl _ _, by omega⟩
  rw [if_neg hle]
  obtain ⟨v, hi, hh⟩ := hr
  cases hh with
  | @inline data len _ h1 h2 =>
    have hcl : ((data.take l).map some).length = l := by simp; omega
    rw [List.length_map, h1] at hle
    rw [hi.1, inline_isStack hi.2, if_pos rfl]
    rcases heapNew_spec m hv (l + n) (by omega) hn h with e | ⟨p, cells, h', e, a1, a2, a3, a4, a5⟩
    · exact .inl (bind_abort e)
    · right
      have hb : h'.blocks p = some cells := by rw [a5, put_self]
      rw [bind_ok e, bind_ok (inline_peek hi.2 (by omega) h'),
        bind_ok (store_spec p 0 _ cells h' hb (by rw [hcl]; omega)), pure_run, LE.or_flag l hi.2]
      have hpl : (patch cells 0 ((data.take l).map some)).length = l + n := by rw [patch_length _ _ _ (by omega), a4]
      have hh' := Holds.patched (init := 16) (h := h') (p := p) (len := l) (off := 0) (cells := cells)
        (vals := (data.take l).map some) a1 a2 (by omega) (by omega) (by omega) (by rw [hcl]; omega)
      rw [a4] at hh'
      refine ⟨_, _, some p, _, rfl, ⟨.heap p (l + n) l, ⟨rfl, hi.2⟩, hh'⟩, by omega,
        by rw [hpl, List.length_map, h1]; omega, ?_, ?_, by rw [hpl, List.length_map, h1]; omega⟩
      · have e0 := take_patch cells ((data.take l).map some) 0 (by omega)
        rw [Nat.zero_add, hcl, List.take_zero, List.nil_append] at e0
        rw [e0, List.map_take]
      · rw [Frame, erase_put, a5, erase_fresh _ _ _ a3, erase_none]
  | @heap p len _ cells h1 h2 h3 h4 h5 h6 =>
    rw [hi.1, heap_isStack hi.2, if_neg (by decide), bind_ok (heapField_run _ p s.length h)]
    rcases realloc_spec hv p (l + n) s h h3 (by omega) (by omega) hn with ⟨h', e, _⟩ | ⟨p', junk, h', e, a1, a2, a3, a4, a5⟩
    · left
      apply bind_abort
      rw [heapRealloc, bind_ok (layoutArray_ok h5 h), bind_ok e, if_pos rfl, bind_ok (layoutArray_ok hn h')]
      rfl
    · right
      rw [bind_ok (heapRealloc_run h5 a1 e), pure_run]
      have hh' := Holds.heap (init := 16) (h := h') (p := p') (len := l) (cells := s ++ junk) a1 a2 (by rw [a5, put_self])
          (by omega) (by omega) (by omega)
      rw [a4] at hh'
      refine ⟨_, _, some p', _, rfl, ⟨.heap p' (l + n) l, ⟨rfl, hi.2⟩, hh'⟩, by omega, by simp,
        List.take_append_of_le_length h6, ?_, by omega⟩
      rw [Frame, a5, erase_fresh _ _ _ a3, put_none]

theorem rep_reserve (m : Build) {al : Allocator} (n : Nat) (hv : al.Valid) (hr : Rep b h s l fp) (hn : l + n ≤ isizeMax) :
    b.reserve m al n h = .abort ∨
    ∃ b' h' fp' s', b.reserve m al n h = .ok b' h' ∧ Rep b' h' s' l fp' ∧ l + n ≤ s'.length ∧ s.length ≤ s'.length ∧
      s'.take l = s.take l ∧ Frame h h' fp fp' := by
  rcases rep_reserve_exact m n hv hr hn with e | ⟨b', h', fp', s', e, h1, h2, h3, h4, h5, _⟩
  · exact .inl e
  · exact .inr ⟨b', h', fp', s', e, h1, h2, h3, h4, h5⟩

theorem Rep.near {h' : Heap} (hr : Rep b h s l fp) (e : ∀ p, fp = some p → h'.blocks p = h.blocks p) : Rep b h' s l fp := by
  obtain ⟨v, hi, hh⟩ := hr
  exact ⟨v, hi, hh.near e⟩

theorem rep_clone (m : Build) {al : Allocator} (vals : Bytes) (hv : al.Valid) (hr : Rep b h s l fp) (hs : s.take l = vals.map some) :
    b.clone m al h = .abort ∨
    ∃ b' h' fp' s', b.clone m al h = .ok b' h' ∧ Rep b' h' s' l fp' ∧ s'.take l = vals.map some ∧ Frame h h' none fp' := by
  have hb := rep_bound hr
  have hvl : vals.length = l := by
    have := congrArg List.length hs
    simp at this
    omega
  rw [clone, rep_len hr]
  rcases rep_withCapacity m l h hv (by omega) with e | ⟨b', h', fp', s', e, h1, h2, h3⟩
  · exact .inl (bind_abort e)
  · right
    have hr' : Rep b h' s l fp := hr.near fun p e' => by
      subst e'
      obtain ⟨v, _, hh⟩ := hr
      rw [h3.keeps hh.live, hh.live]
    have hc := rep_cells hr'
    rw [hs] at hc
    rw [bind_ok e, bind_ok hc, bind_ok (assumeInit_ok vals h')]
    obtain ⟨b'', h'', e2, h4, h5⟩ := rep_extend m vals h1 (by omega)
    refine ⟨b'', h'', fp', _, e2, by rwa [Nat.zero_add, hvl] at h4, ?_, h3.trans h5⟩
    have e0 := take_patch s' (vals.map some) 0 (by omega)
    rwa [Nat.zero_add, List.length_map, hvl, List.take_zero, List.nil_append] at e0

theorem rep_intoVec {al : Allocator} (hv : al.Valid) (hr : Rep b h s l fp) : b.intoVec al h = .abort ∨
    ∃ v h' fp' s', b.intoVec al h = .ok v h' ∧ VecRep v h' s' l fp' ∧ s'.take l = s.take l ∧ Frame h h' fp fp' := by
  have hc := rep_cells hr
  obtain ⟨v, hi, hh⟩ := hr
  rw [intoVec]
  cases hh with
  | @inline data len _ h1 h2 =>
    have hvl : (data.take l).length = l := by simp; omega
    have hs : b.isStack = true := by rw [hi.1, inline_isStack hi.2]
    rw [← List.map_take] at hc ⊢
    rw [hs, if_pos rfl, bind_ok hc, bind_ok (assumeInit_ok _ h)]
    rcases mkVec_spec hv (data.take l) 0 (by have := init_le; simp; omega) h with e | ⟨v, h', fp, junk, e, h3, h4, h5⟩
    · exact .inl e
    · rw [hvl] at h3
      exact .inr ⟨v, h', fp, _, e, h3, by rw [List.take_append_of_le_length (by simp; omega), List.take_of_length_le (by simp)], h5⟩
  | @heap p len _ cells h1 h2 h3 h4 h5 h6 =>
    right
    rw [hi.1, heap_isStack hi.2, if_neg (by decide), bind_ok (heapField_run _ p s.length h), heap_len hi.2, pure_run]
    exact ⟨_, _, _, _, rfl, .block h1 h2 h3 h4 h5 h6, rfl, .refl _ _⟩

theorem rep_drop (hr : Rep b h s l fp) : ∃ h', b.drop h = .ok () h' ∧ Frame h h' fp none := by
  obtain ⟨v, hi, hh⟩ := hr
  rw [drop]
  cases hh with
  | @inline data len _ h1 h2 =>
    rw [hi.1, inline_isStack hi.2, if_pos rfl, pure_run]
    exact ⟨_, rfl, .refl _ _⟩
  | @heap p len _ cells h1 h2 h3 h4 h5 h6 =>
    rw [hi.1, heap_isStack hi.2, if_neg (by decide), bind_ok (heapField_run _ p s.length h)]
    refine ⟨_, dealloc_spec _ _ h h3, ?_⟩
    rw [Frame, erase_none, put_none]

theorem rep_fromVec {v : RVec} (hr : VecRep v h s l fp) : ∃ s', Rep (fromVec v) h s' l fp ∧ s <+: s' := by
  cases hr with
  | empty => exact ⟨_, rep_new h, List.nil_prefix⟩
  | @block p len _ cells h1 h2 h3 h4 h5 h6 =>
    have hl : l < 2 ^ 63 := LE.isizeMax_lt (by omega)
    refine ⟨s, ⟨.heap p s.length l, ?_, .heap h1 h2 h3 h4 h5 h6⟩, List.prefix_rfl⟩
    rw [fromVec, if_neg (by simp only; omega)]
    simp only []
    rw [LE.or_flag l hl]
    exact ⟨rfl, hl⟩

theorem correct : Correct universal Rep where
  near := Rep.near
  live := fun ⟨_, _, hh⟩ => hh.live
  bound := rep_bound
  len := rep_len
  capacity := rep_capacity
  cells := rep_cells
  new h := ⟨_, rep_new h, by simp⟩
  withCapacity m _ n h := rep_withCapacity m n h
  fromVec := rep_fromVec
  push m _ _ _ _ _ x := rep_push m x
  extend m _ _ _ _ _ vals := rep_extend m vals
  reserve m _ _ _ _ _ _ n := rep_reserve m n
  setLen m _ _ _ _ _ n := rep_setLen m n
  poke off vals := rep_poke off vals
  copyWithin src dst n := rep_copyWithin src dst n
  setAt i x := rep_setAt i x
  setAt_out {b h _ _ _} i x hr hn := by
    change UE.setAt b i x h = _
    unfold UE.setAt
    rw [rep_len hr, if_neg (by omega)]
    rfl
  clone m _ _ _ _ _ _ vals := rep_clone m vals
  intoVec := rep_intoVec
  drop := rep_drop

end UE
end Bsn1.Buf
