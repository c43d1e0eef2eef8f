import Verif.Lemmas.RawClock
/-!
# How often the allocator is called: `Der`, `Ber`, the parsers and `to_der`
-/

namespace Bsn1.Raw
open Bsn1.Buf Bsn1.Spec

/-! ### Sequences of lengths -/

/-- The room after holding these lengths. -/
def roomAfter (cap : Nat) (st : List Nat) : Nat := st.foldl max cap

theorem grown_append (cap : Nat) (st st' : List Nat) : grown cap (st ++ st') = grown cap st + grown (roomAfter cap st) st' := by
  induction st generalizing cap with
  | nil => simp [grown, roomAfter]
  | cons n r ih =>
    simp only [List.cons_append, grown, roomAfter, List.foldl_cons]
    by_cases h : n ≤ cap
    · rw [if_pos h, if_pos h, ih, Nat.max_eq_left h]; rfl
    · rw [if_neg h, if_neg h, ih, Nat.max_eq_right (by omega), Nat.add_assoc]; rfl

theorem roomAfter_append (cap : Nat) (st st' : List Nat) : roomAfter cap (st ++ st') = roomAfter (roomAfter cap st) st' := by
  simp [roomAfter, List.foldl_append]

theorem roomAfter_ticks (cap pos n : Nat) (h : pos ≤ cap) : roomAfter cap (ticks pos n) = max cap (pos + n) := by
  induction n generalizing cap pos with
  | zero => simp [ticks, roomAfter]; omega
  | succ n ih =>
    have := ih (max cap (pos + 1)) (pos + 1) (by omega)
    simp only [ticks, roomAfter, List.foldl_cons] at this ⊢
    rw [this]; omega

theorem grown_ticks (cap pos n : Nat) (h : pos ≤ cap) : grown cap (ticks pos n) = pos + n - cap := by
  induction n generalizing cap pos with
  | zero => simp [ticks, grown]; omega
  | succ n ih =>
    rw [ticks, grown]
    split
    · rw [ih _ _ (by omega)]; omega
    · rw [ih _ _ (by omega)]; omega

theorem grown_le_length (cap : Nat) (st : List Nat) : grown cap st ≤ st.length := by
  induction st generalizing cap with
  | nil => simp [grown]
  | cons n r ih =>
    rw [grown, List.length_cons]
    split
    · have := ih cap; omega
    · have := ih n; omega

theorem le_roomAfter (cap : Nat) (st : List Nat) : cap ≤ roomAfter cap st := by
  induction st generalizing cap with
  | nil => simp [roomAfter]
  | cons n r ih => have := ih (max cap n); simp only [roomAfter, List.foldl_cons] at this ⊢; omega

theorem grown_le_room (cap : Nat) (st : List Nat) : cap + grown cap st ≤ roomAfter cap st := by
  induction st generalizing cap with
  | nil => simp [grown, roomAfter]
  | cons n r ih =>
    rw [grown]
    have h1 := ih (max cap n)
    simp only [roomAfter, List.foldl_cons] at h1 ⊢
    split
    · rw [Nat.max_eq_left ‹_›] at h1 ⊢; exact h1
    · rw [Nat.max_eq_right (by omega)] at h1 ⊢; omega

/-! ### Counting -/

/-- As `Step`, with `k` calls of the allocator. -/
def Cost {α : Type} (x : M α) (h : Heap) (fp : Option Nat) (k : Nat) (Q : α → Heap → Option Nat → Prop) : Prop :=
  Step x h fp (fun a h' fp' => Q a h' fp' ∧ h'.clock = h.clock + k)

section cost
variable {α β : Type} {x : M α} {f : α → M β} {h : Heap} {fp : Option Nat} {Q Q' : α → Heap → Option Nat → Prop}
  {R : β → Heap → Option Nat → Prop} {k k' : Nat}

theorem Cost.bind (hx : Cost x h fp k Q) (hf : ∀ a h' fp', Q a h' fp' → Cost (f a) h' fp' k' R) : Cost (x >>= f) h fp (k + k') R :=
  Step.bind hx fun a h' fp' ⟨q, e⟩ => (hf a h' fp' q).mono fun b h'' fp'' ⟨r, e2⟩ => ⟨r, by omega⟩

theorem Cost.last (hx : Cost x h fp k Q) (hf : ∀ a h' fp', Q a h' fp' → Cost (f a) h' fp' 0 R) : Cost (x >>= f) h fp k R := hx.bind hf

theorem Cost.first (hx : Cost x h fp 0 Q) (hf : ∀ a h' fp', Q a h' fp' → Cost (f a) h' fp' k R) : Cost (x >>= f) h fp k R := by
  have := hx.bind hf
  rwa [Nat.zero_add] at this

theorem Cost.pure {a : α} (q : Q a h fp) : Cost (Pure.pure a) h fp 0 Q := Step.pure ⟨q, rfl⟩

theorem Cost.same {a : α} (e : x h = .ok a h) (s : Cost (f a) h fp k R) : Cost (x >>= f) h fp k R := Step.same e s

theorem Cost.mono (hx : Cost x h fp k Q) (hq : ∀ a h' fp', Q a h' fp' → Q' a h' fp') : Cost x h fp k Q' :=
  Step.mono hx fun _ _ _ ⟨q, e⟩ => ⟨hq _ _ _ q, e⟩

theorem Cost.ite {c : Prop} [Decidable c] {x y : M α} (hx : c → Cost x h fp k Q) (hy : ¬ c → Cost y h fp k Q) :
    Cost (if c then x else y) h fp k Q := Step.ite hx hy

theorem Cost.iteBind {c : Prop} [Decidable c] {x y : M α} (hx : Cost (if c then x else y) h fp k Q)
    (hf : ∀ a h' fp', Q a h' fp' → Cost (f a) h' fp' k' R) : Cost (if c then x >>= f else y >>= f) h fp (k + k') R :=
  Step.iteBind hx fun a h' fp' ⟨q, e⟩ => Step.mono (hf a h' fp' q) fun b h'' fp'' ⟨r, e2⟩ => ⟨r, by omega⟩

theorem Cost.quiet (hx : Step x h fp Q) (hq : Quiet x) : Cost x h fp 0 Q := by
  rcases hx with e | ⟨a, h', fp', e, q, fr⟩
  · exact .inl e
  · exact .inr ⟨a, h', fp', e, ⟨q, hq h a h' e⟩, fr⟩

theorem Cost.step (hx : Cost x h fp k Q) : Step x h fp Q := Step.mono hx fun _ _ _ ⟨q, _⟩ => q

end cost

/-- A layout with room for `init` octets inline that makes just the room needed. -/
structure Exact (I : Impl) (Rep : I.B → Heap → List Cell → Nat → Option Nat → Prop) (init : Nat) : Prop where
  correct : Correct I Rep
  inline : Inline I Rep init
  ticks : Ticks I init
  withCapacity : ∀ m {al : Allocator} n h, al.Valid → n ≤ isizeMax → I.withCapacity m al n h = .abort ∨
    ∃ b h' fp s, I.withCapacity m al n h = .ok b h' ∧ Rep b h' s 0 fp ∧ s.length = max init n ∧ Frame h h' none fp

theorem le_exact : Exact little LE.Rep 23 where
  correct := LE.correct
  inline := le_inline
  ticks := le_ticks
  withCapacity m al n h hv hn := by
    rcases LE.rep_reserve_exact m n hv (LE.rep_new h) (by simpa using hn) with e | ⟨b', h', fp', s', e, h1, h2, _, _, h4, h5⟩
    · exact .inl e
    · exact .inr ⟨b', h', fp', s', e, h1, by simpa using h5, h4⟩

theorem ue_exact : Exact universal UE.Rep 16 where
  correct := UE.correct
  inline := ue_inline
  ticks := ue_ticks
  withCapacity m al n h hv hn := by
    change UE.withCapacity m al n h = _ ∨ ∃ b h' fp s, UE.withCapacity m al n h = _ ∧ _
    unfold UE.withCapacity
    by_cases hle : n ≤ UE.INIT_CAPACITY
    · rw [if_pos hle, pure_run]
      have : n ≤ 16 := hle
      exact .inr ⟨_, _, _, _, rfl, UE.rep_new h, by simp; omega, .refl _ _⟩
    · rw [if_neg hle]
      have : ¬ n ≤ 16 := hle
      rcases UE.heapNew_spec m hv n (by omega) hn h with e | ⟨p, cells, h', e, a1, a2, a3, a4, a5⟩
      · exact .inl (bind_abort e)
      · right
        have h0 : 0 < cells.length := by omega
        have hh' := Holds.heap (init := 16) (h := h') (p := p) (len := 0) (cells := cells) a1 a2 (by rw [a5, put_self]) h0
          (by omega) (by omega)
        rw [a4] at hh'
        rw [bind_ok e, pure_run, LE.or_flag 0 (by decide)]
        refine ⟨_, _, some p, cells, rfl, ⟨.heap p n 0, ⟨rfl, by decide⟩, hh'⟩, by omega, ?_⟩
        rw [Frame, a5, erase_fresh _ _ _ a3, erase_none]

variable {I : Impl} {Rep : I.B → Heap → List Cell → Nat → Option Nat → Prop} {m : Build} {al : Allocator} {init : Nat}
variable {b : I.B} {h : Heap} {fp : Option Nat} {s : List Cell} {l : Nat}

theorem cost_withCapacity (hx : Exact I Rep init) (hv : al.Valid) {n : Nat} (hn : n ≤ isizeMax) :
    Cost (I.withCapacity m al n) h none (if n ≤ init then 0 else 1) (fun b h fp => ∃ s, Rep b h s 0 fp ∧ s.length = max init n) := by
  have hm := isizeMax_lt
  rcases hx.withCapacity m n h hv hn with e | ⟨b, h', fp, s, e, h1, h2, h3⟩
  · exact .inl e
  · exact .inr ⟨b, h', fp, e, ⟨⟨s, h1, h2⟩, hx.ticks.withCapacity m al n h b h' e (by omega)⟩, h3⟩

theorem cost_reserve (hx : Exact I Rep init) (hv : al.Valid) {n : Nat} (hr : Rep b h s l fp) (hn : l + n ≤ isizeMax) :
    Cost (I.reserve m al b n) h fp (if l + n ≤ s.length then 0 else 1) (fun b' h' fp' => ∃ s', Rep b' h' s' l fp' ∧
      s'.length = max s.length (l + n) ∧ s'.take l = s.take l) := by
  have hm := isizeMax_lt
  rcases hx.inline.exact m n hv hr hn with e | ⟨b', h', fp', s', e, h1, _, _, h4, h5, h6⟩
  · exact .inl e
  · have hl := hx.correct.len hr
    have := hx.ticks.reserve m al b n h b' h' _ e (by omega) (hx.correct.capacity hr)
    rw [hl] at this
    exact .inr ⟨b', h', fp', e, ⟨⟨s', h1, h6, h4⟩, this⟩, h5⟩

theorem cost_poke (hx : Exact I Rep init) {off : Nat} {vals : Bytes} (hr : Rep b h s l fp) (hn : off + vals.length ≤ s.length) :
    Cost (I.poke b off vals) h fp 0 (fun b' h' fp' => Rep b' h' (patch s off (vals.map some)) l fp') :=
  .quiet (step_poke hx.correct hr hn) (hx.ticks.poke _ _ _)

theorem cost_copyWithin (hx : Exact I Rep init) {src dst n : Nat} (hr : Rep b h s l fp) (h1 : src + n ≤ s.length)
    (h2 : dst + n ≤ s.length) :
    Cost (I.copyWithin b src dst n) h fp 0 (fun b' h' fp' => Rep b' h' (patch s dst ((s.drop src).take n)) l fp') :=
  .quiet (step_copyWithin hx.correct hr h1 h2) (hx.ticks.copyWithin _ _ _ _)

theorem cost_setLen (hx : Exact I Rep init) {n : Nat} (hr : Rep b h s l fp) (hn : n ≤ s.length) :
    Cost (I.setLenChecked m b n) h fp 0 (fun b' h' fp' => Rep b' h' s n fp') :=
  .quiet (step_setLen hx.correct hr hn)
    (.bind (hx.ticks.capacity _) fun _ => .bind (.debugAssert _ _) fun _ => hx.ticks.setLen _ _ _)

theorem cost_extend (hx : Exact I Rep init) {vals : Bytes} (hr : Rep b h s l fp) (hn : l + vals.length ≤ s.length) :
    Cost (I.extend m b vals) h fp 0 (fun b' h' fp' => Rep b' h' (patch s l (vals.map some)) (l + vals.length) fp') :=
  .quiet (step_extend hx.correct hr hn) (hx.ticks.extend _ _ _)

theorem cost_drop (hx : Exact I Rep init) (hr : Rep b h s l fp) : Cost (I.drop b) h fp 0 (fun _ _ fp' => fp' = none) :=
  .quiet (step_drop hx.correct hr) (hx.ticks.drop _)

/-- The buffer has these octets and room for `cap`. -/
def Room (Rep : I.B → Heap → List Cell → Nat → Option Nat → Prop) (b : I.B) (h : Heap) (w : Bytes) (cap : Nat) (fp : Option Nat) : Prop :=
  ∃ R, Rep b h (w.map some ++ R) w.length fp ∧ w.length + R.length = cap

variable {cap : Nat} {w : Bytes}

theorem Room.has (hb : Room Rep b h w cap fp) : Has Rep b h w fp := by
  obtain ⟨R, hr, _⟩ := hb
  exact ⟨R, hr⟩

theorem Room.le (hb : Room Rep b h w cap fp) : w.length ≤ cap := by
  obtain ⟨R, _, hl⟩ := hb
  omega

theorem Room.bound (hx : Exact I Rep init) (hb : Room Rep b h w cap fp) : cap ≤ isizeMax := by
  obtain ⟨R, hr, hl⟩ := hb
  have := (hx.correct.bound hr).2
  simp at this
  omega

theorem Room.of_append {R : List Cell} (hr : Rep b h s l fp) (hs : s = w.map some ++ R) (hl : l = w.length) (hc : s.length = cap) :
    Room Rep b h w cap fp := ⟨R, by subst hs hl; exact hr, by subst hs; simpa using hc⟩

theorem room_new (hx : Exact I Rep init) (h : Heap) : Room Rep I.new h [] init none := by
  obtain ⟨s, hr, _⟩ := hx.correct.new h
  exact ⟨s, by simpa using hr, by simpa using hx.inline.inline hr⟩

/-- Making room. -/
theorem cost_room (hx : Exact I Rep init) (hv : al.Valid) {n : Nat} (hb : Room Rep b h w cap fp) (hn : w.length + n ≤ isizeMax) :
    Cost (I.reserve m al b n) h fp (grown cap [w.length + n]) (fun b' h' fp' => Room Rep b' h' w (max cap (w.length + n)) fp') := by
  obtain ⟨R, hr, hl⟩ := hb
  have hc := cost_reserve (m := m) hx hv hr hn
  have e : (w.map some ++ R).length = cap := by simpa using hl
  rw [e] at hc
  simp only [grown]
  refine hc.mono ?_
  rintro b h fp ⟨s, hr, hs1, hs3⟩
  rw [take_of_append (by simp)] at hs3
  obtain ⟨S, rfl⟩ : ∃ S, s = w.map some ++ S := ⟨s.drop w.length, by rw [← hs3, List.take_append_drop]⟩
  exact ⟨S, hr, by simpa using hs1⟩

/-- `write`. -/
theorem cost_write (hx : Exact I Rep init) (hv : al.Valid) {c : Bytes} (hb : Room Rep b h w cap fp) (hn : w.length + c.length ≤ isizeMax) :
    Cost (I.write m al b c) h fp (grown cap [w.length + c.length]) (fun b' h' fp' => Room Rep b' h' (w ++ c) (max cap (w.length + c.length)) fp') := by
  unfold Impl.write
  refine (cost_room hx hv hb hn).last ?_
  rintro b h fp ⟨S, hr, hl⟩
  refine (cost_extend hx hr (by simp; omega)).mono ?_
  intro b h fp hr
  have e := patch_append (w.map some) S (c.map some)
  rw [List.length_map] at e
  rw [e] at hr
  refine Room.of_append (R := S.drop c.length) hr (by simp) (by simp) ?_
  simp; omega

theorem grown_cons (cap n : Nat) (st : List Nat) : grown cap (n :: st) = grown cap [n] + grown (max cap n) st := by
  have := grown_append cap [n] st
  simpa [roomAfter] using this

theorem cost_writeAll (hx : Exact I Rep init) (hv : al.Valid) : ∀ (w w0 : Bytes) (b : I.B) (h : Heap) (fp : Option Nat) (cap : Nat),
    Room Rep b h w0 cap fp → w0.length + w.length ≤ isizeMax →
    Cost (writeAll I m al w b) h fp (grown cap (ticks w0.length w.length)) (fun b h fp => Room Rep b h (w0 ++ w) (max cap (w0.length + w.length)) fp)
  | [], w0, b, h, fp, cap, hb, _ => .pure (by have := hb.le; rw [List.append_nil, List.length_nil, Nat.add_zero, Nat.max_eq_left this]; exact hb)
  | o :: r, w0, b, h, fp, cap, hb, hl => by
    simp only [List.length_cons] at hl ⊢
    unfold writeAll
    rw [ticks, grown_cons]
    refine Cost.bind (cost_write hx hv (c := [o]) hb (by simp; omega)) ?_
    intro b h fp hb
    have := cost_writeAll hx hv r (w0 ++ [o]) b h fp _ hb (by simp; omega)
    rw [List.length_append, List.length_singleton] at this
    refine this.mono ?_
    intro b h fp hb
    have e : max (max cap (w0.length + 1)) (w0.length + 1 + r.length) = max cap (w0.length + (r.length + 1)) := by omega
    rw [e, List.append_assoc] at hb
    exact hb

theorem cost_writeChunks (hx : Exact I Rep init) (hv : al.Valid) : ∀ (cs : List Bytes) (w : Bytes) (b : I.B) (h : Heap) (fp : Option Nat) (cap : Nat),
    Room Rep b h w cap fp → w.length + cs.flatten.length ≤ isizeMax →
    Cost (writeChunks I m al cs b) h fp (grown cap (sums w.length cs))
      (fun b h fp => Room Rep b h (w ++ cs.flatten) (max cap (w.length + cs.flatten.length)) fp)
  | [], w, b, h, fp, cap, hb, _ => .pure (by have := hb.le; simpa [Nat.max_eq_left this] using hb)
  | c :: r, w, b, h, fp, cap, hb, hl => by
    simp only [List.flatten_cons, List.length_append] at hl ⊢
    unfold writeChunks
    rw [sums, grown_cons]
    refine Cost.iteBind (Q := fun b h fp => Room Rep b h (w ++ c) (max cap (w.length + c.length)) fp) ?_ ?_
    · by_cases he : c.isEmpty
      · rw [if_pos he]
        rw [List.isEmpty_iff] at he
        subst he
        have hle := hb.le
        have e : grown cap [w.length + ([] : Bytes).length] = 0 := by simp [grown, hle]
        rw [e]
        exact .pure (by simpa [Nat.max_eq_left hle] using hb)
      · rw [if_neg he]
        exact cost_write hx hv hb (by omega)
    · intro b h fp hb
      have := cost_writeChunks hx hv r (w ++ c) b h fp _ hb (by rw [List.length_append]; omega)
      rw [List.length_append] at this
      refine this.mono ?_
      intro b h fp hb
      have e : max (max cap (w.length + c.length)) (w.length + c.length + r.flatten.length) =
          max cap (w.length + (c.length + r.flatten.length)) := by omega
      rw [e, List.append_assoc] at hb
      exact hb

/-! ### Constructors, `extend_from_slice` and `truncate` -/

theorem cost_withHeader (hx : Exact I Rep init) (hv : al.Valid) {id len : Bytes} {n : Nat} (hn : id.length + len.length + n ≤ isizeMax) :
    Cost (Der.withHeader I m al id len n) h none (grown init [id.length + len.length + n])
      (fun b h fp => ∃ R, Rep b h ((id ++ len).map some ++ R) (id.length + len.length + n) fp ∧
        id.length + len.length + R.length = max init (id.length + len.length + n)) := by
  have hm := isizeMax_lt
  unfold Der.withHeader
  refine .same (usizeAdd_ok m (by omega) h) ?_
  refine .same (usizeAdd_ok m (by omega) h) ?_
  simp only [grown]
  refine Cost.last (cost_withCapacity hx hv hn) ?_
  rintro b h fp ⟨s, hr, hs⟩
  refine .first (cost_poke hx hr (by omega)) ?_
  intro b h fp hr
  rw [patch_zero] at hr
  refine .first (cost_poke hx hr (by simp; omega)) ?_
  intro b h fp hr
  have e := patch_append (id.map some) (s.drop (id.map some).length) (len.map some)
  rw [List.length_map] at e
  rw [List.length_map, e] at hr
  refine (cost_setLen hx hr (by simp; omega)).mono ?_
  intro b h fp hr
  refine ⟨(s.drop id.length).drop len.length, ?_, by simp; omega⟩
  simpa using hr

theorem cost_copyContents (hx : Exact I Rep init) {hdr id src : Bytes} {L : Length} {R : List Cell}
    (hr : Rep b h (hdr.map some ++ R) (hdr.length + src.length) fp) (hR : src.length ≤ R.length)
    (hd : ∀ rest, DerRef.disassemble (hdr ++ rest) = .ok (id, L, rest)) :
    Cost (copyContents I b src) h fp 0 (fun b h fp => Room Rep b h (hdr ++ src) (hdr.length + R.length) fp) := by
  unfold copyContents
  refine .same (header_ok hx.correct hr (by omega) hd) ?_
  simp only [hx.correct.len hr, Nat.add_sub_cancel_left, if_true]
  refine (cost_poke hx hr (by simp; omega)).mono ?_
  intro b h fp hr
  have e := patch_append (hdr.map some) R (src.map some)
  rw [List.length_map] at e
  rw [e] at hr
  exact Room.of_append (R := R.drop (src.map some).length) hr (by simp) (by simp) (by simp; omega)

/-- `Der::new`. -/
theorem cost_Der_new (hx : Exact I Rep init) (hv : al.Valid) {id c : Bytes} (hid : IsId id) (hn : (tlv id c).length ≤ isizeMax) :
    Cost (Der.new I m al id c) h none (grown init [(tlv id c).length])
      (fun b h fp => Room Rep b h (tlv id c) (max init (tlv id c).length) fp) := by
  have hm := isizeMax_lt
  have hu := usizeSize_eq
  have hl : (tlv id c).length = id.length + (lenOctets c.length).length + c.length := by simp [tlv, Nat.add_assoc]
  rw [hl] at hn ⊢
  have hc64 : c.length < 2 ^ 64 := by omega
  unfold Der.new Der.withIdLength
  refine Cost.last (.same (liftRes_ok (toBytes_definite hc64)) (cost_withHeader hx hv hn)) ?_
  rintro b h fp ⟨R, hr, hR⟩
  rw [← List.length_append] at hr
  refine (cost_copyContents hx hr (by omega) (disassemble_hdr hid hc64)).mono ?_
  intro b h fp hb
  rw [List.length_append, hR] at hb
  exact hb

/-- `Ber::new_indefinite`. -/
theorem cost_Ber_newIndefinite (hx : Exact I Rep init) (hv : al.Valid) {id c : Bytes} (hid : IsId id)
    (hn : (id ++ indefOctets ++ c).length ≤ isizeMax) :
    Cost (Ber.newIndefinite I m al id c) h none (grown init [(id ++ indefOctets ++ c).length])
      (fun b h fp => Room Rep b h (id ++ indefOctets ++ c) (max init (id ++ indefOctets ++ c).length) fp) := by
  have hl : (id ++ indefOctets ++ c).length = id.length + indefOctets.length + c.length := by simp [Nat.add_assoc]
  rw [hl] at hn ⊢
  unfold Ber.newIndefinite Ber.withIdLengthIndefinite
  refine Cost.last (.same (liftRes_ok toBytes_indefinite) (cost_withHeader hx hv hn)) ?_
  rintro b h fp ⟨R, hr, hR⟩
  rw [← List.length_append] at hr
  refine (cost_copyContents hx hr (by omega) (disassemble_indef_hdr hid)).mono ?_
  intro b h fp hb
  rw [List.length_append, hR] at hb
  exact hb

/-- `Der::extend_from_slice`. -/
theorem cost_Der_extend (hx : Exact I Rep init) (hv : al.Valid) {id c bytes : Bytes} (hid : IsId id) (hb : Room Rep b h (tlv id c) cap fp)
    (hn : (tlv id (c ++ bytes)).length ≤ isizeMax) :
    Cost (Der.extendFromSlice I m al b bytes) h fp (grown cap [(tlv id (c ++ bytes)).length])
      (fun b h fp => Room Rep b h (tlv id (c ++ bytes)) (max cap (tlv id (c ++ bytes)).length) fp) := by
  have hm := isizeMax_lt
  have hu := usizeSize_eq
  have hle := hb.le
  have hb' := hb
  obtain ⟨R, hr, hR⟩ := hb'
  have hnl := tlv_length id (c ++ bytes)
  rw [List.length_append] at hnl
  have hmono := lenOctets_length_mono (Nat.le_add_right c.length bytes.length)
  have hn64 : c.length + bytes.length < 2 ^ 64 := by omega
  have hc64 : c.length < 2 ^ 64 := by omega
  have hlen := tlv_length id c
  have hr0 : Rep b h ((id ++ lenOctets c.length).map some ++ (c.map some ++ R)) (tlv id c).length fp := by
    simpa [tlv] using hr
  have hsum : (tlv id c).length + (bytes.length + (lenOctets (c.length + bytes.length)).length - (lenOctets c.length).length) =
      (tlv id (c ++ bytes)).length := by omega
  unfold Der.extendFromSlice
  refine .same (header_ok hx.correct hr0 (by simp; omega) (disassemble_hdr hid hc64)) ?_
  simp only [Length.definite?]
  refine .same (a := c.length) rfl ?_
  refine .same (usizeAdd_ok m (by omega) h) ?_
  rw [len_definite hn64, len_definite hc64]
  refine .same (usizeAdd_ok m (by omega) h) ?_
  refine .same (liftRes_ok (usub_ok (by omega))) ?_
  have hcost := cost_room (m := m) hx hv hb
    (n := bytes.length + (lenOctets (c.length + bytes.length)).length - (lenOctets c.length).length) (by omega)
  rw [hsum] at hcost
  refine Cost.last hcost ?_
  rintro b h fp ⟨S, hr, hS⟩
  rw [hx.correct.len hr]
  refine .same (usizeAdd_ok m (by omega) h) ?_
  have hlen' : ((tlv id c).map some ++ S).length = (tlv id c).length + S.length := by simp
  refine .first (cost_setLen hx hr (by rw [hlen']; omega)) ?_
  intro b h fp hr
  -- the contents at their new place
  refine Cost.iteBind (k := 0) (k' := 0) (Q := fun b h fp => Rep b h (patch ((tlv id c).map some ++ S)
      (id.length + (lenOctets (c.length + bytes.length)).length) (c.map some))
      ((tlv id c).length + (bytes.length + (lenOctets (c.length + bytes.length)).length - (lenOctets c.length).length)) fp) ?_ ?_
  · have hsrc : (((tlv id c).map some ++ S).drop (id.length + (lenOctets c.length).length)).take c.length = c.map some := by
      have : (tlv id c).map some ++ S = (id ++ lenOctets c.length).map some ++ (c.map some ++ S) := by simp [tlv]
      rw [this, drop_of_append (by simp), take_of_append (by simp)]
    refine .ite (fun hne => ?_) (fun he => ?_)
    · have := cost_copyWithin hx (src := id.length + (lenOctets c.length).length)
        (dst := id.length + (lenOctets (c.length + bytes.length)).length) (n := c.length) hr (by rw [hlen']; omega) (by rw [hlen']; omega)
      rw [hsrc] at this
      exact this
    · have he : id.length + (lenOctets c.length).length = id.length + (lenOctets (c.length + bytes.length)).length := by
        omega
      refine .pure ?_
      rw [← he, ← hsrc, patch_self _ _ _ (by rw [hlen']; omega)]
      exact hr
  intro b h fp hr
  have hl1 : (patch ((tlv id c).map some ++ S) (id.length + (lenOctets (c.length + bytes.length)).length) (c.map some)).length =
      (tlv id c).length + S.length := by
    rw [patch_length _ _ _ (by rw [hlen']; simp; omega), hlen']
  refine .first (cost_poke hx hr (by rw [hl1]; omega)) ?_
  intro b h fp hr
  rw [← List.length_map (as := c) (f := some), patch_patch_right _ _ _ _ (by rw [hlen']; simp; omega), List.length_map] at hr
  have hl2 : (patch ((tlv id c).map some ++ S) (id.length + (lenOctets (c.length + bytes.length)).length)
      (c.map some ++ bytes.map some)).length = (tlv id c).length + S.length := by
    rw [patch_length _ _ _ (by rw [hlen']; simp; omega), hlen']
  rw [hx.correct.len hr]
  refine .same (debugAssert_ok m (by omega) h) ?_
  refine .same (liftRes_ok (toBytes_definite hn64)) ?_
  refine (cost_poke hx hr (by rw [hl2]; omega)).mono ?_
  intro b h fp hr
  rw [← List.length_map (as := lenOctets (c.length + bytes.length)) (f := some), patch_patch_left _ _ _ _ (by rw [hlen']; simp; omega),
    List.length_map] at hr
  have e : (tlv id c).map some ++ S = id.map some ++ ((lenOctets c.length ++ c).map some ++ S) := by simp [tlv]
  have e2 := patch_append (id.map some) ((lenOctets c.length ++ c).map some ++ S)
    ((lenOctets (c.length + bytes.length)).map some ++ (c.map some ++ bytes.map some))
  have e3 : (patch ((tlv id c).map some ++ S) id.length
      ((lenOctets (c.length + bytes.length)).map some ++ (c.map some ++ bytes.map some))).length = (tlv id c).length + S.length := by
    rw [patch_length _ _ _ (by rw [hlen']; simp; omega), hlen']
  rw [List.length_map, ← e] at e2
  rw [e2] at hr e3
  refine Room.of_append (R := _) hr (by simp [tlv]; rfl) ?_ ?_
  · omega
  · rw [e3, hS]

/-- `Der::truncate`. -/
theorem cost_Der_truncate (hx : Exact I Rep init) {id c : Bytes} {n : Nat} (hid : IsId id) (hb : Room Rep b h (tlv id c) cap fp) :
    Cost (Der.truncate I m b n) h fp 0 (fun b h fp => Room Rep b h (tlv id (c.take n)) cap fp) := by
  have hc := hx.correct
  have hm := isizeMax_lt
  have hu := usizeSize_eq
  have hb' := hb
  obtain ⟨R, hr, hR⟩ := hb'
  have hlen := tlv_length id c
  have hbd := hc.bound hr
  have hlen' : ((tlv id c).map some ++ R).length = (tlv id c).length + R.length := by simp
  have hc64 : c.length < 2 ^ 64 := by omega
  have hr0 : Rep b h ((id ++ lenOctets c.length).map some ++ (c.map some ++ R)) (tlv id c).length fp := by
    simpa [tlv] using hr
  unfold Der.truncate
  refine .same (header_ok hc hr0 (by simp; omega) (disassemble_hdr hid hc64)) ?_
  simp only [Length.definite?]
  refine .same (a := c.length) rfl ?_
  refine .ite (fun hle => ?_) (fun hlt => ?_)
  · rw [List.take_of_length_le hle]
    exact .pure hb
  · have hmono := lenOctets_length_mono (show n ≤ c.length by omega)
    refine .same (liftRes_ok (toBytes_definite hc64)) ?_
    refine .same (liftRes_ok (toBytes_definite (show n < 2 ^ 64 by omega))) ?_
    refine .first (cost_poke hx hr (by rw [hlen']; omega)) ?_
    intro b h fp hr
    have hl1 : (patch ((tlv id c).map some ++ R) id.length ((lenOctets n).map some)).length = (tlv id c).length + R.length := by
      rw [patch_length _ _ _ (by rw [hlen']; simp; omega), hlen']
    have e0 : (tlv id c).map some ++ R = id.map some ++ ((lenOctets c.length).map some ++ (c.map some ++ R)) := by simp [tlv]
    have e1 : patch ((tlv id c).map some ++ R) id.length ((lenOctets n).map some) =
        id.map some ++ (lenOctets n).map some ++ (((lenOctets c.length).map some).drop (lenOctets n).length ++ (c.map some ++ R)) := by
      have := patch_append (id.map some) ((lenOctets c.length).map some ++ (c.map some ++ R)) ((lenOctets n).map some)
      rw [List.length_map, ← e0] at this
      rw [this, List.length_map, List.drop_append_of_le_length (by simpa using hmono)]
    refine Cost.iteBind (k := 0) (k' := 0) (Q := fun b h fp => Rep b h (patch ((tlv id c).map some ++ R) id.length
        ((lenOctets n ++ c.take n).map some)) (tlv id c).length fp) ?_ ?_
    · refine .ite (fun hlt' => ?_) (fun hge => ?_)
      · have hsrc : ((patch ((tlv id c).map some ++ R) id.length ((lenOctets n).map some)).drop
            (id.length + (lenOctets c.length).length)).take n = (c.take n).map some := by
          rw [e1, ← List.append_assoc, drop_of_append (by simp; omega), List.take_append_of_le_length (by simp; omega), List.map_take]
        have := cost_copyWithin hx (src := id.length + (lenOctets c.length).length) (dst := id.length + (lenOctets n).length) (n := n) hr
          (by rw [hl1]; omega) (by rw [hl1]; omega)
        rw [hsrc] at this
        refine this.mono ?_
        intro b h fp hr
        have e := patch_patch_right ((tlv id c).map some ++ R) ((lenOctets n).map some) ((c.take n).map some) id.length
          (by rw [hlen']; simp; omega)
        rw [List.length_map] at e
        rw [e] at hr
        simpa using hr
      · refine .pure ?_
        have heq : (lenOctets n).length = (lenOctets c.length).length := by omega
        have e := patch_self (patch ((tlv id c).map some ++ R) id.length ((lenOctets n).map some)) (id.length + (lenOctets n).length) n
          (by rw [hl1]; omega)
        have e' : ((patch ((tlv id c).map some ++ R) id.length ((lenOctets n).map some)).drop (id.length + (lenOctets n).length)).take n =
            (c.take n).map some := by
          rw [e1, drop_of_append (by simp), heq, List.drop_of_length_le (by simp), List.nil_append,
            List.take_append_of_le_length (by simp; omega), List.map_take]
        rw [e'] at e
        have e2 := patch_patch_right ((tlv id c).map some ++ R) ((lenOctets n).map some) ((c.take n).map some) id.length
          (by rw [hlen']; simp; omega)
        rw [List.length_map] at e2
        rw [e2] at e
        rw [List.map_append, e]
        exact hr
    intro b h fp hr
    have ht : (c.take n).length = n := by simp; omega
    have e2 := patch_append (id.map some) ((lenOctets c.length).map some ++ (c.map some ++ R)) ((lenOctets n ++ c.take n).map some)
    have e3 : (patch ((tlv id c).map some ++ R) id.length ((lenOctets n ++ c.take n).map some)).length = (tlv id c).length + R.length := by
      rw [patch_length _ _ _ (by rw [hlen']; simp; omega), hlen']
    rw [List.length_map, ← e0] at e2
    rw [e2] at hr e3
    refine (cost_setLen hx hr ?_).mono ?_
    · rw [e3]; omega
    · intro b h fp hr
      refine Room.of_append (R := _) hr (by simp [tlv, ht]; rfl) ?_ ?_
      · rw [tlv_length, ht]
      · rw [e3]; exact hR

theorem cost_Ber_extend_definite (hx : Exact I Rep init) (hv : al.Valid) {id c bytes : Bytes} (hid : IsId id)
    (hb : Room Rep b h (tlv id c) cap fp) (hn : (tlv id (c ++ bytes)).length ≤ isizeMax) :
    Cost (Ber.extendFromSlice I m al b bytes) h fp (grown cap [(tlv id (c ++ bytes)).length])
      (fun b h fp => Room Rep b h (tlv id (c ++ bytes)) (max cap (tlv id (c ++ bytes)).length) fp) := by
  have hc := hx.correct
  have hb' := hb
  obtain ⟨R, hr, _⟩ := hb'
  have hm := isizeMax_lt
  have hu := usizeSize_eq
  have hlen := tlv_length id c
  have hbd := hc.bound hr
  have hlen' : ((tlv id c).map some ++ R).length = (tlv id c).length + R.length := by simp
  have hr0 : Rep b h ((id ++ lenOctets c.length).map some ++ (c.map some ++ R)) (tlv id c).length fp := by
    simpa [tlv] using hr
  unfold Ber.extendFromSlice
  refine .same (header_ok hc hr0 (by simp; omega) (disassemble_hdr hid (by omega))) ?_
  exact cost_Der_extend hx hv hid hb hn

theorem cost_Ber_truncate_definite (hx : Exact I Rep init) {id c : Bytes} {n : Nat} (hid : IsId id) (hb : Room Rep b h (tlv id c) cap fp) :
    Cost (Ber.truncate I m b n) h fp 0 (fun b h fp => Room Rep b h (tlv id (c.take n)) cap fp) := by
  have hc := hx.correct
  have hb' := hb
  obtain ⟨R, hr, _⟩ := hb'
  have hm := isizeMax_lt
  have hu := usizeSize_eq
  have hlen := tlv_length id c
  have hbd := hc.bound hr
  have hlen' : ((tlv id c).map some ++ R).length = (tlv id c).length + R.length := by simp
  have hr0 : Rep b h ((id ++ lenOctets c.length).map some ++ (c.map some ++ R)) (tlv id c).length fp := by
    simpa [tlv] using hr
  unfold Ber.truncate
  refine .same (header_ok hc hr0 (by simp; omega) (disassemble_hdr hid (by omega))) ?_
  exact cost_Der_truncate hx hid hb

theorem cost_Ber_extend_indefinite (hx : Exact I Rep init) (hv : al.Valid) {id c bytes : Bytes} (hid : IsId id)
    (hb : Room Rep b h (id ++ indefOctets ++ c) cap fp) (hn : (id ++ indefOctets ++ (c ++ bytes)).length ≤ isizeMax) :
    Cost (Ber.extendFromSlice I m al b bytes) h fp (grown cap [(id ++ indefOctets ++ (c ++ bytes)).length])
      (fun b h fp => Room Rep b h (id ++ indefOctets ++ (c ++ bytes)) (max cap (id ++ indefOctets ++ (c ++ bytes)).length) fp) := by
  have hc := hx.correct
  have hb' := hb
  obtain ⟨R, hr, _⟩ := hb'
  have hm := isizeMax_lt
  have hr0 : Rep b h ((id ++ indefOctets).map some ++ (c.map some ++ R)) (id ++ indefOctets ++ c).length fp := by simpa using hr
  have hsum : (id ++ indefOctets ++ c).length + bytes.length = (id ++ indefOctets ++ (c ++ bytes)).length := by simp; omega
  unfold Ber.extendFromSlice
  refine .same (header_ok hc hr0 (by simp) (disassemble_indef_hdr hid)) ?_
  simp only []
  have hcost := cost_room (m := m) hx hv hb (n := bytes.length) (by omega)
  rw [hsum] at hcost
  refine Cost.last hcost ?_
  rintro b h fp ⟨S, hr, hS⟩
  rw [hc.len hr]
  refine .first (cost_poke hx hr (by simp only [List.length_append, List.length_map] at hsum hS ⊢; omega)) ?_
  intro b h fp hr
  rw [hc.len hr]
  refine .same (usizeAdd_ok m (by omega) h) ?_
  have e2 := patch_append ((id ++ indefOctets ++ c).map some) S (bytes.map some)
  rw [List.length_map] at e2
  rw [e2] at hr
  refine (cost_setLen hx hr ?_).mono ?_
  · simp only [List.length_append, List.length_map, List.length_drop] at hS hsum ⊢; omega
  · intro b h fp hr
    refine Room.of_append (R := S.drop bytes.length) hr (by simp) (by simp; omega) ?_
    simp only [List.length_append, List.length_map, List.length_drop] at hS hsum ⊢; omega

theorem cost_Ber_truncate_indefinite (hx : Exact I Rep init) {id c : Bytes} {n : Nat} (hid : IsId id)
    (hb : Room Rep b h (id ++ indefOctets ++ c) cap fp) :
    Cost (Ber.truncate I m b n) h fp 0 (fun b h fp => Room Rep b h (id ++ indefOctets ++ c.take n) cap fp) := by
  have hc := hx.correct
  have hb' := hb
  obtain ⟨R, hr, hR⟩ := hb'
  have hm := isizeMax_lt
  have hu := usizeSize_eq
  have hmax := isizeMax_eq
  have hbd := hc.bound hr
  have hr0 : Rep b h ((id ++ indefOctets).map some ++ (c.map some ++ R)) (id ++ indefOctets ++ c).length fp := by simpa using hr
  simp only [List.length_append, List.length_map] at hbd
  unfold Ber.truncate
  refine .same (header_ok hc hr0 (by simp) (disassemble_indef_hdr hid)) ?_
  simp only [hc.len hr]
  have hlen : (id ++ indefOctets ++ c).length - (id ++ indefOctets).length = c.length := by simp only [List.length_append]; omega
  rw [hlen]
  refine .ite (fun hle => ?_) (fun hlt => ?_)
  · rw [List.take_of_length_le hle]
    exact .pure hb
  · refine .same (usizeAdd_ok m (by simp only [List.length_append]; omega) h) ?_
    refine .same (liftRes_ok (usub_ok (by simp only [List.length_append]; omega))) ?_
    refine (cost_setLen hx hr ?_).mono ?_
    · simp only [List.length_append, List.length_map]; omega
    · intro b h fp hr
      refine Room.of_append (R := (c.drop n).map some ++ R) hr ?_ ?_ ?_
      · rw [← List.append_assoc, ← List.map_append, List.append_assoc _ (c.take n), List.take_append_drop]
      · simp; omega
      · simp only [List.length_append, List.length_map] at hR ⊢; omega

end Bsn1.Raw
