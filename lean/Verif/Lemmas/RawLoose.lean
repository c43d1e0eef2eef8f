import Verif.Lemmas.Loose
import Verif.Lemmas.RawExact
/-!
# Values whose header announces a wrong length, on real storage
-/

namespace Bsn1.Raw
open Bsn1.Buf Bsn1.Spec

theorem pure_then {α β : Type} (a : α) (f : α → M β) : (Pure.pure a >>= f) = f a := rfl

/-- Writes through the pointer beyond the storage are undefined. -/
structure Bounds (I : Impl) (Rep : I.B → Heap → List Cell → Nat → Option Nat → Prop) : Prop where
  poke : ∀ {b h s l fp} off (vals : Bytes), Rep b h s l fp → s.length < off + vals.length → I.poke b off vals h = .ub
  copyWithin : ∀ {b h s l fp} src dst n, Rep b h s l fp → s.length < src + n ∨ s.length < dst + n → I.copyWithin b src dst n h = .ub

theorem load_out {p off n : Nat} {h : Heap} {s : List Cell} (hb : h.blocks p = some s) (ho : s.length < off + n) : load p off n h = .ub := by
  rw [load, hb]
  simp only []
  rw [if_neg (by omega)]

theorem store_out {p off : Nat} {vals : List Cell} {h : Heap} {s : List Cell} (hb : h.blocks p = some s) (ho : s.length < off + vals.length) :
    store p off vals h = .ub := by
  rw [store, hb]
  simp only []
  rw [if_neg (by omega)]

theorem copy_out {p src dst n : Nat} {h : Heap} {s : List Cell} (hb : h.blocks p = some s) (ho : s.length < src + n ∨ s.length < dst + n)
    {β : Type} {f : Unit → M β} : (load p src n >>= fun c => store p dst c >>= f) h = .ub := by
  by_cases h1 : s.length < src + n
  · exact bind_ub (load_out hb h1)
  · rw [bind_ok (load_at p src n s h hb (by omega))]
    refine bind_ub (store_out hb ?_)
    simp only [List.length_take, List.length_drop]
    omega

theorem le_bounds : Bounds little LE.Rep where
  poke off vals hr ho := by
    obtain ⟨v, hi, hh⟩ := hr
    change LE.poke _ off vals _ = _
    cases hh with
    | inline h1 h2 =>
      rw [List.length_map, h1] at ho
      unfold LE.poke; rw [LE.InlineAt.isStack hi, if_pos rfl, if_neg (by simp only [LE.INIT_CAPACITY]; omega)]
      rfl
    | heap h1 h2 h3 h4 h5 h6 =>
      unfold LE.poke; rw [LE.HeapAt.isStack hi, if_neg (by decide), LE.HeapAt.data_ hi]
      exact bind_ub (store_out h3 (by simpa using ho))
  copyWithin src dst n hr ho := by
    obtain ⟨v, hi, hh⟩ := hr
    change LE.copyWithin _ src dst n _ = _
    cases hh with
    | inline h1 h2 =>
      rw [List.length_map, h1] at ho
      unfold LE.copyWithin; rw [LE.InlineAt.isStack hi, if_pos rfl, if_neg (by simp only [LE.INIT_CAPACITY]; omega)]
      rfl
    | heap h1 h2 h3 h4 h5 h6 =>
      unfold LE.copyWithin; rw [LE.HeapAt.isStack hi, if_neg (by decide), LE.HeapAt.data_ hi]
      exact copy_out h3 ho

theorem ue_bounds : Bounds universal UE.Rep where
  poke off vals hr ho := by
    obtain ⟨v, hi, hh⟩ := hr
    change UE.poke _ off vals _ = _
    cases hh with
    | inline h1 h2 =>
      rw [List.length_map, h1] at ho
      rw [hi.1, UE.poke, UE.inline_isStack hi.2, if_pos rfl, bind_ok (UE.stackField_run _ _ _), if_neg (by omega)]
      rfl
    | heap h1 h2 h3 h4 h5 h6 =>
      rw [hi.1, UE.poke, UE.heap_isStack hi.2, if_neg (by decide), bind_ok (UE.heapField_run _ _ _ _)]
      exact bind_ub (store_out h3 (by simpa using ho))
  copyWithin src dst n hr ho := by
    obtain ⟨v, hi, hh⟩ := hr
    change UE.copyWithin _ src dst n _ = _
    cases hh with
    | inline h1 h2 =>
      rw [List.length_map, h1] at ho
      rw [hi.1, UE.copyWithin, UE.inline_isStack hi.2, if_pos rfl, bind_ok (UE.stackField_run _ _ _), if_neg (by omega)]
      rfl
    | heap h1 h2 h3 h4 h5 h6 =>
      rw [hi.1, UE.copyWithin, UE.heap_isStack hi.2, if_neg (by decide), bind_ok (UE.heapField_run _ _ _ _)]
      exact copy_out h3 ho

variable {I : Impl} {Rep : I.B → Heap → List Cell → Nat → Option Nat → Prop} {m : Build} {al : Allocator} {init : Nat}
variable {b : I.B} {h : Heap} {fp : Option Nat} {s : List Cell} {l : Nat}

theorem disassemble_looseId {id : Bytes} {n : Nat} (hid : LooseId id) (hn : n < 2 ^ 64) (rest : Bytes) :
    DerRef.disassemble (id ++ lenOctets n ++ rest) = .ok (id, .definite n, rest) := by
  have h1 := parseIdUnchecked_loose hid (lenOctets n ++ rest)
  have h2 := parseLengthUnchecked_lenOctets hn rest
  rw [List.append_assoc, DerRef.disassemble, h1, Res.bind_ok]
  simp only []
  rw [h2, Res.bind_ok]
  rfl

/-- Copying the contents where they are or not: undefined or the storage is as large as before. -/
theorem copy_cases (hc : Correct I Rep) (hbd : Bounds I Rep) (hr : Rep b h s l fp) {src dst n : Nat} (hle : src ≤ dst) {β : Type} {f : I.B → M β} :
    (s.length < dst + n ∧ src ≠ dst ∧ (if src ≠ dst then I.copyWithin b src dst n >>= f else Pure.pure b >>= f) h = .ub) ∨
    ((dst + n ≤ s.length ∨ src = dst) ∧ ∃ b' h' s', Rep b' h' s' l fp ∧ s'.length = s.length ∧ Frame h h' fp fp ∧
      (if src ≠ dst then I.copyWithin b src dst n >>= f else Pure.pure b >>= f) h = f b' h') := by
  by_cases hne : src ≠ dst
  · rw [if_pos hne]
    by_cases hl : s.length < dst + n
    · exact .inl ⟨hl, hne, bind_ub (hbd.copyWithin _ _ _ hr (.inr hl))⟩
    · obtain ⟨b', h', e, hr', fr⟩ := hc.copyWithin src dst n hr (by omega) (by omega)
      exact .inr ⟨.inl (by omega), b', h', _, hr', patch_length _ _ _ (by simp; omega), fr, bind_ok e⟩
  · rw [if_neg hne]
    exact .inr ⟨.inr (by omega), b, h, s, hr, rfl, .refl _ _, rfl⟩

/-- `Der::extend_from_slice` when the header announces `old` octets and there are `c`. -/
theorem extend_loose (hc : Correct I Rep) (hi : Inline I Rep init) (hbd : Bounds I Rep) (hv : al.Valid) {id c bytes : Bytes} {R : List Cell}
    {old : Nat} (hid : LooseId id)
    (hr : Rep b h ((id ++ lenOctets old ++ c).map some ++ R) (id ++ lenOctets old ++ c).length fp) (ho : old + bytes.length < 2 ^ 64)
    (hn : id.length + (lenOctets (old + bytes.length)).length + c.length + bytes.length ≤ isizeMax) :
    Der.extendFromSlice I m al b bytes h = .abort ∨
    if max ((id ++ lenOctets old ++ c).length + R.length) (id.length + (lenOctets (old + bytes.length)).length + c.length + bytes.length) <
        id.length + (lenOctets (old + bytes.length)).length + old + bytes.length then
      Der.extendFromSlice I m al b bytes h = .ub
    else if m = .debug ∧ old ≠ c.length then Der.extendFromSlice I m al b bytes h = .panic
    else ∃ b' h' fp' s', Der.extendFromSlice I m al b bytes h = .ok b' h' ∧
      Rep b' h' s' (id.length + (lenOctets (old + bytes.length)).length + c.length + bytes.length) fp' ∧ Frame h h' fp fp' := by
  have hm := isizeMax_lt
  have hu := usizeSize_eq
  have hmono := lenOctets_length_mono (Nat.le_add_right old bytes.length)
  have hold : old < 2 ^ 64 := by omega
  have hlen : (id ++ lenOctets old ++ c).length = id.length + (lenOctets old).length + c.length := by simp; omega
  have hr0 : Rep b h ((id ++ lenOctets old).map some ++ (c.map some ++ R)) (id ++ lenOctets old ++ c).length fp := by
    simpa using hr
  unfold Der.extendFromSlice
  rw [bind_ok (header_ok hc hr0 (by simp) (disassemble_looseId hid hold))]
  simp only [Length.definite?]
  rw [pure_then, bind_ok (usizeAdd_ok m (by omega) h), len_definite ho, len_definite hold,
    bind_ok (usizeAdd_ok m (by omega) h), bind_ok (liftRes_ok (usub_ok (by omega)))]
  rcases hi.exact m (bytes.length + (lenOctets (old + bytes.length)).length - (lenOctets old).length) hv hr (by omega) with
    e | ⟨b1, h1, fp1, s1, e, hr1, hs1, hs2, hs3, fr1, hcap⟩
  · exact .inl (bind_abort e)
  · right
    have hcap' : s1.length = max ((id ++ lenOctets old ++ c).length + R.length)
        (id.length + (lenOctets (old + bytes.length)).length + c.length + bytes.length) := by
      rw [hcap, List.length_append, List.length_map]
      omega
    rw [← hcap', bind_ok e, hc.len hr1, bind_ok (usizeAdd_ok m (by omega) h1)]
    have hlen2 : (id ++ lenOctets old ++ c).length + (bytes.length + (lenOctets (old + bytes.length)).length - (lenOctets old).length) =
        id.length + (lenOctets (old + bytes.length)).length + c.length + bytes.length := by omega
    rw [hlen2] at hs1 ⊢
    obtain ⟨b2, e2, hr2⟩ := hc.setLen m _ hr1 hs1
    have e2' : I.setLenChecked m b1 (id.length + (lenOctets (old + bytes.length)).length + c.length + bytes.length) h1 = .ok b2 h1 := by
      rw [Impl.setLenChecked, bind_ok (hc.capacity hr1), bind_ok (debugAssert_ok m hs1 h1), e2]
    rw [bind_ok e2']
    rcases copy_cases hc hbd hr2 (src := id.length + (lenOctets old).length) (dst := id.length + (lenOctets (old + bytes.length)).length)
      (n := old) (by omega) with ⟨j1, j2, j3⟩ | ⟨j1, b3, h3, s3, hr3, hl3, fr3, j3⟩
    · rw [j3, if_pos (by omega)]
    · rw [j3]
      by_cases hub : s1.length < id.length + (lenOctets (old + bytes.length)).length + old + bytes.length
      · rw [if_pos hub]
        exact bind_ub (hbd.poke _ _ hr3 (by omega))
      · rw [if_neg hub]
        obtain ⟨b4, h4, e4, hr4, fr4⟩ := hc.poke (id.length + (lenOctets (old + bytes.length)).length + old) bytes hr3 (by omega)
        rw [bind_ok e4, hc.len hr4]
        by_cases hd : m = .debug ∧ old ≠ c.length
        · rw [if_pos hd]
          refine bind_panic ?_
          rw [hd.1, Buf.debugAssert]
          rw [if_neg (by omega)]
          rfl
        · rw [if_neg hd]
          have e5 : Buf.debugAssert m (id.length + (lenOctets (old + bytes.length)).length + old + bytes.length =
              id.length + (lenOctets (old + bytes.length)).length + c.length + bytes.length) h4 = .ok () h4 := by
            cases m with
            | debug => exact debugAssert_ok _ (by simp at hd; omega) h4
            | release => rfl
          rw [bind_ok e5, bind_ok (liftRes_ok (toBytes_definite ho))]
          have hl4 : (patch s3 (id.length + (lenOctets (old + bytes.length)).length + old) (bytes.map some)).length = s1.length := by
            rw [patch_length _ _ _ (by simp; omega), hl3]
          obtain ⟨b5, h5, e6, hr5, fr5⟩ := hc.poke id.length (lenOctets (old + bytes.length)) hr4 (by omega)
          exact ⟨b5, h5, fp1, _, e6, hr5, fr1.trans (fr3.trans (fr4.trans fr5))⟩

/-- `Der::truncate` when the header announces `old` octets and there are `c`, to a length that there is room for. -/
theorem truncate_loose (hc : Correct I Rep) {id c : Bytes} {old n : Nat} {R : List Cell} (hid : LooseId id) (hold : old < 2 ^ 64)
    (hr : Rep b h ((id ++ lenOctets old ++ c).map some ++ R) (id ++ lenOctets old ++ c).length fp) (hn : n < old) (hnc : n ≤ c.length) :
    Step (Der.truncate I m b n) h fp (fun b h fp => Has Rep b h (id ++ lenOctets n ++ c.take n) fp) := by
  have hlen : (id ++ lenOctets old ++ c).length = id.length + (lenOctets old).length + c.length := by simp; omega
  have hbd := hc.bound hr
  have hlen' : ((id ++ lenOctets old ++ c).map some ++ R).length = id.length + (lenOctets old).length + c.length + R.length := by simp; omega
  have hr0 : Rep b h ((id ++ lenOctets old).map some ++ (c.map some ++ R)) (id ++ lenOctets old ++ c).length fp := by
    simpa using hr
  have ht : (c.take n).length = n := by simp; omega
  have hmono := lenOctets_length_mono (show n ≤ old by omega)
  unfold Der.truncate
  refine .same (header_ok hc hr0 (by simp) (disassemble_looseId hid hold)) ?_
  simp only [Length.definite?]
  refine .same (a := old) rfl ?_
  refine .ite (fun hle => by omega) (fun hlt => ?_)
  refine .same (liftRes_ok (toBytes_definite hold)) ?_
  refine .same (liftRes_ok (toBytes_definite (show n < 2 ^ 64 by omega))) ?_
  refine .bind (step_poke hc hr (by omega)) ?_
  intro b h fp hr
  have hl1 : (patch ((id ++ lenOctets old ++ c).map some ++ R) id.length ((lenOctets n).map some)).length =
      id.length + (lenOctets old).length + c.length + R.length := by
    rw [patch_length _ _ _ (by rw [hlen']; simp; omega), hlen']
  have e0 : (id ++ lenOctets old ++ c).map some ++ R = id.map some ++ ((lenOctets old).map some ++ (c.map some ++ R)) := by simp
  have e1 : patch ((id ++ lenOctets old ++ c).map some ++ R) id.length ((lenOctets n).map some) =
      id.map some ++ (lenOctets n).map some ++ (((lenOctets old).map some).drop (lenOctets n).length ++ (c.map some ++ R)) := by
    have := patch_append (id.map some) ((lenOctets old).map some ++ (c.map some ++ R)) ((lenOctets n).map some)
    rw [List.length_map, ← e0] at this
    rw [this, List.length_map, List.drop_append_of_le_length (by simpa using hmono)]
  refine .iteBind (Q := fun b h fp => Rep b h (patch ((id ++ lenOctets old ++ c).map some ++ R) id.length ((lenOctets n ++ c.take n).map some))
      (id ++ lenOctets old ++ c).length fp) ?_ ?_
  · refine .ite (fun hlt' => ?_) (fun hge => ?_)
    · have hsrc : ((patch ((id ++ lenOctets old ++ c).map some ++ R) id.length ((lenOctets n).map some)).drop
          (id.length + (lenOctets old).length)).take n = (c.take n).map some := by
        rw [e1, ← List.append_assoc, drop_of_append (by simp; omega), List.take_append_of_le_length (by simp; omega), List.map_take]
      have := step_copyWithin hc (src := id.length + (lenOctets old).length) (dst := id.length + (lenOctets n).length) (n := n) hr
        (by rw [hl1]; omega) (by rw [hl1]; omega)
      rw [hsrc] at this
      refine this.mono ?_
      intro b h fp hr
      have e := patch_patch_right ((id ++ lenOctets old ++ c).map some ++ R) ((lenOctets n).map some) ((c.take n).map some) id.length
        (by rw [hlen']; simp; omega)
      rw [List.length_map] at e
      rw [e] at hr
      rw [List.map_append (f := some) (l₁ := lenOctets n)]
      exact hr
    · refine .pure ?_
      have heq : (lenOctets n).length = (lenOctets old).length := by omega
      have e := patch_self (patch ((id ++ lenOctets old ++ c).map some ++ R) id.length ((lenOctets n).map some))
        (id.length + (lenOctets n).length) n (by rw [hl1]; omega)
      have e' : ((patch ((id ++ lenOctets old ++ c).map some ++ R) id.length ((lenOctets n).map some)).drop
          (id.length + (lenOctets n).length)).take n = (c.take n).map some := by
        rw [e1, drop_of_append (by simp), heq, List.drop_of_length_le (by simp), List.nil_append,
          List.take_append_of_le_length (by simp; omega), List.map_take]
      rw [e'] at e
      have e2 := patch_patch_right ((id ++ lenOctets old ++ c).map some ++ R) ((lenOctets n).map some) ((c.take n).map some) id.length
        (by rw [hlen']; simp; omega)
      rw [List.length_map] at e2
      rw [e2] at e
      rw [List.map_append (f := some) (l₁ := lenOctets n), e]
      exact hr
  intro b h fp hr
  have e2 := patch_append (id.map some) ((lenOctets old).map some ++ (c.map some ++ R)) ((lenOctets n ++ c.take n).map some)
  rw [List.length_map, ← e0] at e2
  rw [e2] at hr
  refine (step_setLen hc hr ?_).mono ?_
  · simp; omega
  · intro b h fp hr
    refine Has.of_append (R := _) hr (by simp; rfl) ?_
    simp; omega

/-- `Der::truncate` when the header announces `old` octets and `T` is the storage behind the header. -/
theorem truncate_loose_exact (hc : Correct I Rep) (hbd : Bounds I Rep)
    (hset : ∀ {b h s l fp} t, Rep b h s l fp → ∃ b', I.setLen .release b t h = .ok b' h) {id c : Bytes} {old n : Nat} {R : List Cell}
    (hid : LooseId id) (hold : old < 2 ^ 64)
    (hr : Rep b h ((id ++ lenOctets old ++ c).map some ++ R) (id ++ lenOctets old ++ c).length fp) (hn : n < old) :
    if c.length + R.length < n then
      if (lenOctets n).length < (lenOctets old).length then Der.truncate I m b n h = .ub
      else if m = .debug then Der.truncate I m b n h = .panic
      else ∃ b' h', Der.truncate I m b n h = .ok b' h'
    else ∃ b' h' R', Der.truncate I m b n h = .ok b' h' ∧ Frame h h' fp fp ∧
      Rep b' h' ((id ++ lenOctets n).map some ++ (c.map some ++ R).take n ++ R') (id.length + (lenOctets n).length + n) fp := by
  have hlen : (id ++ lenOctets old ++ c).length = id.length + (lenOctets old).length + c.length := by simp; omega
  have hlen' : ((id ++ lenOctets old ++ c).map some ++ R).length = id.length + (lenOctets old).length + c.length + R.length := by simp; omega
  have hr0 : Rep b h ((id ++ lenOctets old).map some ++ (c.map some ++ R)) (id ++ lenOctets old ++ c).length fp := by
    simpa using hr
  have hmono := lenOctets_length_mono (show n ≤ old by omega)
  have hT : (c.map some ++ R).length = c.length + R.length := by simp
  obtain ⟨b1, h1, e1, hr1, f1⟩ := hc.poke id.length (lenOctets n) hr (by omega)
  have e0 : (id ++ lenOctets old ++ c).map some ++ R = id.map some ++ ((lenOctets old).map some ++ (c.map some ++ R)) := by simp
  have ep : patch ((id ++ lenOctets old ++ c).map some ++ R) id.length ((lenOctets n).map some) =
      (id ++ lenOctets n).map some ++ (((lenOctets old).map some).drop (lenOctets n).length ++ (c.map some ++ R)) := by
    have := patch_append (id.map some) ((lenOctets old).map some ++ (c.map some ++ R)) ((lenOctets n).map some)
    rw [List.length_map, ← e0] at this
    rw [this, List.length_map, List.drop_append_of_le_length (by simpa using hmono), List.map_append]
  rw [ep] at hr1
  unfold Der.truncate
  rw [bind_ok (header_ok hc hr0 (by simp) (disassemble_looseId hid hold))]
  simp only [Length.definite?]
  rw [pure_then, if_neg (by omega : ¬ old ≤ n), bind_ok (liftRes_ok (toBytes_definite hold)),
    bind_ok (liftRes_ok (toBytes_definite (show n < 2 ^ 64 by omega))), bind_ok e1]
  have hs1 : ((id ++ lenOctets n).map some ++ (((lenOctets old).map some).drop (lenOctets n).length ++ (c.map some ++ R))).length =
      id.length + (lenOctets old).length + (c.length + R.length) := by simp; omega
  by_cases hlt : (lenOctets n).length < (lenOctets old).length
  · rw [if_pos hlt, if_pos hlt]
    by_cases hnT : c.length + R.length < n
    · rw [if_pos hnT]
      exact bind_ub (hbd.copyWithin _ _ _ hr1 (.inl (by omega)))
    · rw [if_neg hnT]
      obtain ⟨b2, h2, e2, hr2, f2⟩ := hc.copyWithin (id.length + (lenOctets old).length) (id.length + (lenOctets n).length) n hr1 (by omega) (by omega)
      have hsrc : (((id ++ lenOctets n).map some ++ (((lenOctets old).map some).drop (lenOctets n).length ++ (c.map some ++ R))).drop
          (id.length + (lenOctets old).length)).take n = (c.map some ++ R).take n := by
        rw [← List.append_assoc, drop_of_append (by simp; omega)]
      have ep2 := patch_append ((id ++ lenOctets n).map some) (((lenOctets old).map some).drop (lenOctets n).length ++ (c.map some ++ R))
        ((c.map some ++ R).take n)
      rw [List.length_map, List.length_append] at ep2
      rw [hsrc, ep2] at hr2
      obtain ⟨b3, e3, hr3⟩ := setLen_ok (m := m) hc hr2 (n := id.length + (lenOctets n).length + n) (by
        simp only [List.length_append, List.length_map, List.length_take, List.length_drop]; omega)
      rw [bind_ok e2]
      exact ⟨b3, h2, _, e3, f1.trans f2, hr3⟩
  · rw [if_neg hlt, if_neg hlt, pure_then]
    have heq : (lenOctets n).length = (lenOctets old).length := by omega
    have ed : ((lenOctets old).map some).drop (lenOctets n).length = ([] : List Cell) := List.drop_of_length_le (by simp; omega)
    rw [ed, List.nil_append] at hr1
    by_cases hnT : c.length + R.length < n
    · rw [if_pos hnT]
      have hcapl : ((id ++ lenOctets n).map some ++ (c.map some ++ R)).length < id.length + (lenOctets n).length + n := by
        simp only [List.length_append, List.length_map]; omega
      rw [Impl.setLenChecked, bind_ok (hc.capacity hr1)]
      cases m with
      | debug =>
        rw [if_pos rfl]
        refine bind_panic ?_
        rw [Buf.debugAssert]
        rw [if_neg (by omega)]
        rfl
      | release =>
        rw [if_neg (by decide)]
        obtain ⟨b', e'⟩ := hset (id.length + (lenOctets n).length + n) hr1
        exact ⟨b', h1, by rw [← e']; rfl⟩
    · rw [if_neg hnT]
      obtain ⟨b3, e3, hr3⟩ := setLen_ok (m := m) hc hr1 (n := id.length + (lenOctets n).length + n) (by
        simp only [List.length_append, List.length_map]; omega)
      refine ⟨b3, h1, (c.map some ++ R).drop n, e3, f1, ?_⟩
      rw [List.append_assoc, List.take_append_drop]
      exact hr3

theorem le_setLen_release {b : LE} {h : Heap} {s : List Cell} {l : Nat} {fp : Option Nat} (t : Nat) (_ : LE.Rep b h s l fp) :
    ∃ b', little.setLen .release b t h = .ok b' h := ⟨_, rfl⟩

theorem ue_setLen_release {b : UE} {h : Heap} {s : List Cell} {l : Nat} {fp : Option Nat} (t : Nat) (hr : UE.Rep b h s l fp) :
    ∃ b', universal.setLen .release b t h = .ok b' h := by
  refine ⟨⟨(b.len_ &&& HEAP_FLAG) ||| t, b.buffer_⟩, ?_⟩
  have e : b.capacity h = .ok s.length h := UE.correct.capacity hr
  change UE.setLen .release b t h = _
  rw [UE.setLen, bind_ok e]
  rfl

end Bsn1.Raw
