import Verif.Lemmas.RawGrowth
/-!
# How often the allocator is called: the parsers
-/

namespace Bsn1.Raw
open Bsn1.Buf Bsn1.Spec

variable {I : Impl} {Rep : I.B → Heap → List Cell → Nat → Option Nat → Prop} {m : Build} {al : Allocator} {init : Nat}
variable {b : I.B} {h : Heap} {fp : Option Nat} {cap : Nat} {w : Bytes}

/-- `Der::parse` of a value that is there. -/
theorem cost_Der_parse (hx : Exact I Rep init) (hv : al.Valid) {id c q : Bytes} (hid : IsId id) (hn : (tlv id c).length ≤ isizeMax) :
    Cost (Der.parse I m al honestRead (tlv id c ++ q)) h none (grown init (ticks 0 (id ++ lenOctets c.length).length ++ [(tlv id c).length]))
      (fun a h fp => ∃ b, a = (.ok b, q) ∧ Room Rep b h (tlv id c) (max init (tlv id c).length) fp) := by
  have hu := usizeSize_eq
  have hmax := isizeMax_lt
  have hc := hx.correct
  have et : tlv id c ++ q = id ++ lenOctets c.length ++ (c ++ q) := by simp [tlv]
  have hl := tlv_length id c
  have hc64 : c.length < 2 ^ 64 := by omega
  rw [et]
  unfold Der.parse
  rw [parseIdLength_definite hid hc64]
  simp only [List.nil_append]
  have et2 : tlv id c = id ++ lenOctets c.length ++ c := rfl
  rw [et2] at hn ⊢
  generalize hw : id ++ lenOctets c.length = w1 at *
  simp only [List.length_append] at hn ⊢
  rw [grown_append, roomAfter_ticks _ _ _ (Nat.zero_le _), Nat.zero_add]
  refine (cost_writeAll hx hv w1 [] I.new h none init (room_new hx h) (by simp; omega)).bind ?_
  intro b h fp hb
  simp only [List.nil_append, List.length_nil, Nat.zero_add] at hb
  rw [hb.has.len hc]
  refine .same (usizeAdd_ok m (by omega) h) ?_
  refine Cost.last (cost_room hx hv hb hn) ?_
  intro b h fp hb
  have e0 : max (max init w1.length) (w1.length + c.length) = max init (w1.length + c.length) := by omega
  rw [e0] at hb
  obtain ⟨R, hr, hR⟩ := hb
  refine .first (cost_setLen hx hr (by simp; omega)) ?_
  intro b h fp hr
  rw [hc.len hr, if_neg (by omega), Nat.add_sub_cancel_left]
  have hread : Reader.read c.length (c ++ q) = (ReadOut.data c, q) := by simp
  simp only [honestRead, hread, List.take_length]
  refine .first (cost_poke hx hr (by simp; omega)) ?_
  intro b h fp hr
  rw [if_neg (by omega)]
  have e := patch_append (w1.map some) R (c.map some)
  rw [List.length_map] at e
  rw [e] at hr
  exact .pure ⟨b, rfl, Room.of_append (R := R.drop (c.map some).length) hr (by simp) (by simp) (by simp; omega)⟩

/-- A step of `Ber::parse` on an element that is there. -/
theorem cost_berDo (hx : Exact I Rep init) (hv : al.Valid) {id c q : Bytes} (hb : Room Rep b h w cap fp) (hid : IsId id)
    (hn : w.length + (tlv id c).length ≤ isizeMax) :
    Cost (Ber.doParse I m al honestReadExact b (tlv id c ++ q)) h fp
      (grown cap (ticks w.length (id ++ lenOctets c.length).length ++ [w.length + (tlv id c).length])) (fun a h fp =>
        ∃ b, a = (.ok (if tlv id c = BerRef.eoc then -1 else 0, b), q) ∧ Room Rep b h (w ++ tlv id c) (max cap (w.length + (tlv id c).length)) fp) := by
  have hu := usizeSize_eq
  have hmax := isizeMax_lt
  have hc := hx.correct
  have et : tlv id c ++ q = id ++ lenOctets c.length ++ (c ++ q) := by simp [tlv]
  have hl := tlv_length id c
  have hc64 : c.length < 2 ^ 64 := by omega
  rw [et]
  unfold Ber.doParse
  rw [parseIdLength_definite hid hc64]
  simp only [List.nil_append]
  have et2 : tlv id c = id ++ lenOctets c.length ++ c := rfl
  rw [et2] at hn ⊢
  generalize hw : id ++ lenOctets c.length = w1 at *
  simp only [List.length_append] at hn ⊢
  rw [grown_append, roomAfter_ticks _ _ _ hb.le]
  have h0 := hb.has.len hc
  refine (cost_writeAll hx hv w1 w b h fp cap hb (by omega)).bind ?_
  intro b h fp hb
  have hlen : (w ++ w1).length = w.length + w1.length := by simp
  rw [h0]
  have hcost := cost_room (m := m) hx hv hb (n := c.length) (by omega)
  rw [hlen, Nat.add_assoc] at hcost
  refine Cost.last hcost ?_
  intro b h fp hb
  have e0 : max (max cap (w.length + w1.length)) (w.length + (w1.length + c.length)) = max cap (w.length + (w1.length + c.length)) := by omega
  rw [e0] at hb
  obtain ⟨R, hr, hR⟩ := hb
  rw [hc.len hr]
  refine .same (usizeAdd_ok m (by omega) h) ?_
  refine .first (cost_setLen hx hr (by simp; omega)) ?_
  intro b h fp hr
  rw [hc.len hr, if_neg (by omega), Nat.add_sub_cancel_left]
  simp only [honestReadExact]
  obtain ⟨s', j1, j2⟩ := readExact_slice c.length (c ++ q)
  have hle : c.length ≤ (c ++ q).length := by simp
  rw [j1, if_pos hle]
  rw [List.drop_left] at j2
  subst j2
  simp only [List.take_left, List.take_length]
  refine .first (cost_poke hx hr (by simp; omega)) ?_
  intro b h fp hr
  have e := patch_append ((w ++ w1).map some) R (c.map some)
  rw [List.length_map] at e
  rw [e] at hr
  have hb2 : Room Rep b h (w ++ (w1 ++ c)) (max cap (w.length + (w1.length + c.length))) fp :=
    Room.of_append (R := R.drop (c.map some).length) hr (by simp) (by simp; omega) (by simp; omega)
  refine .same (isEoc_ok hc hb2.has) ?_
  refine .pure ⟨b, ?_, hb2⟩
  by_cases hh : w1 ++ c = BerRef.eoc <;> simp [hh]

theorem cost_berDo_indef (hx : Exact I Rep init) (hv : al.Valid) {id q : Bytes} (hb : Room Rep b h w cap fp) (hid : IsId id)
    (hn : w.length + (id ++ indefOctets).length ≤ isizeMax) :
    Cost (Ber.doParse I m al honestReadExact b (id ++ indefOctets ++ q)) h fp (grown cap (ticks w.length (id ++ indefOctets).length)) (fun a h fp =>
        ∃ b, a = (.ok (1, b), q) ∧ Room Rep b h (w ++ (id ++ indefOctets)) (max cap (w.length + (id ++ indefOctets).length)) fp) := by
  unfold Ber.doParse
  rw [parseIdLength_indefinite hid]
  simp only [List.nil_append]
  refine Cost.last (cost_writeAll hx hv _ w b h fp cap hb hn) ?_
  intro b h fp hb
  exact .pure ⟨b, rfl, hb⟩

/-! ### The loop -/

theorem ticks_two (cap pos : Nat) : grown cap (ticks pos 2) = grown cap (ticks pos ([0x00] ++ lenOctets 0 : Bytes).length ++ [pos + (tlv [0x00] []).length]) := by
  have e1 : ([0x00] ++ lenOctets 0 : Bytes).length = 2 := by decide
  have e2 : (tlv [0x00] []).length = 2 := by decide
  rw [e1, e2, grown_append]
  have : grown (roomAfter cap (ticks pos 2)) [pos + 2] = 0 := by
    have hle : pos + 2 ≤ roomAfter cap (ticks pos 2) := by
      simp only [ticks, roomAfter, List.foldl_cons, List.foldl_nil]
      omega
    rw [grown, if_pos hle, grown]
  omega

theorem roomAfter_berStops {pos : Nat} {v : Bytes} {st : List Nat} (hs : BerStops pos v st) :
    ∀ cap, pos ≤ cap → roomAfter cap st = max cap (pos + v.length) := by
  refine BerStops.rec (motive_1 := fun pos v st _ => ∀ cap, pos ≤ cap → roomAfter cap st = max cap (pos + v.length))
    (motive_2 := fun pos v st _ => ∀ cap, pos ≤ cap → roomAfter cap st = max cap (pos + v.length)) ?_ ?_ ?_ ?_ hs
  · intro pos id c _ _ cap hle
    rw [roomAfter_append, roomAfter_ticks _ _ _ hle]
    simp only [roomAfter, List.foldl_cons, List.foldl_nil, tlv_length, List.length_append]
    omega
  · intro pos id c st _ _ ih cap hle
    rw [roomAfter_append, roomAfter_append, roomAfter_ticks _ _ _ hle, ih _ (by omega), roomAfter_ticks _ _ _ (by simp only [List.length_append]; omega)]
    have : eoc.length = 2 := rfl
    simp only [List.length_append]
    omega
  · intro pos cap hle
    simp [roomAfter]; omega
  · intro pos v r st st' _ _ _ ih1 ih2 cap hle
    rw [roomAfter_append, ih1 _ hle, ih2 _ (by omega), List.length_append]
    omega

theorem roomAfter_seqStops {pos : Nat} {v : Bytes} {st : List Nat} (hs : SeqStops pos v st) :
    ∀ cap, pos ≤ cap → roomAfter cap st = max cap (pos + v.length) := by
  induction hs using SeqStops.rec (motive_1 := fun _ _ _ _ => True) with
  | definite => trivial
  | indefinite => trivial
  | nil pos => intro cap hle; simp [roomAfter]; omega
  | cons pos v r st st' hb _ _ _ ih2 =>
    intro cap hle
    rw [roomAfter_append, roomAfter_berStops hb _ hle, ih2 _ (by omega), List.length_append]
    omega

/-- One round of the loop. -/
theorem cost_loop_next {d δ : Int} {s s' w' : Bytes} {f k k' cap' : Nat} {Q : Except Error I.B × Bytes → Heap → Option Nat → Prop}
    (hg : Cost (Ber.doParse I m al honestReadExact b s) h fp k (fun a h fp => ∃ b, a = (.ok (δ, b), s') ∧ Room Rep b h w' cap' fp))
    (h1 : 0 < d + δ) (h2 : d + δ ≤ isizeMax)
    (hk : ∀ b h fp, Room Rep b h w' cap' fp → Cost (Ber.parseLoop I m al honestReadExact f (d + δ) b s') h fp k' Q) :
    Cost (Ber.parseLoop I m al honestReadExact (f + 1) d b s) h fp (k + k') Q := by
  unfold Ber.parseLoop
  refine hg.bind ?_
  rintro _ h fp ⟨b, rfl, hb⟩
  simp only
  rw [if_neg (by omega), if_pos h1]
  exact hk b h fp hb

/-- The last round of the loop. -/
theorem cost_loop_end {d δ : Int} {s s' w' : Bytes} {f k cap' : Nat}
    (hg : Cost (Ber.doParse I m al honestReadExact b s) h fp k (fun a h fp => ∃ b, a = (.ok (δ, b), s') ∧ Room Rep b h w' cap' fp))
    (h1 : ¬ 0 < d + δ) :
    Cost (Ber.parseLoop I m al honestReadExact (f + 1) d b s) h fp k (fun a h fp => ∃ b, a = (.ok b, s') ∧ Room Rep b h w' cap' fp) := by
  have := isizeMax_eq
  unfold Ber.parseLoop
  refine Cost.last hg ?_
  rintro _ h fp ⟨b, rfl, hb⟩
  simp only
  rw [if_neg (by omega), if_neg (by omega)]
  exact .pure ⟨b, rfl, hb⟩

/-- What the loop costs on `s`, and then on what follows. -/
def LoopCost (I : Impl) (Rep : I.B → Heap → List Cell → Nat → Option Nat → Prop) (m : Build) (al : Allocator) (pos : Nat) (v : Bytes) (st : List Nat) : Prop :=
  ∀ (d : Nat) (q w : Bytes) (b : I.B) (h : Heap) (fp : Option Nat) (cap f k : Nat) (Q : Except Error I.B × Bytes → Heap → Option Nat → Prop),
    0 < d → d ≤ w.length → w.length = pos → Room Rep b h w cap fp → pos + (v ++ q).length ≤ isizeMax → (v ++ q).length < f →
    (∀ b h fp f, q.length < f → Room Rep b h (w ++ v) (max cap (pos + v.length)) fp → Cost (Ber.parseLoop I m al honestReadExact f d b q) h fp k Q) →
    Cost (Ber.parseLoop I m al honestReadExact f d b (v ++ q)) h fp (grown cap st + k) Q

theorem eoc_tlv : eoc = tlv [0x00] [] := by decide

theorem isId_00 : IsId [0x00] := ⟨0, 0, 0, by decide, by decide, by decide⟩

theorem cost_berDo_eoc (hx : Exact I Rep init) (hv : al.Valid) {q : Bytes} (hb : Room Rep b h w cap fp) (hn : w.length + 2 ≤ isizeMax) :
    Cost (Ber.doParse I m al honestReadExact b (eoc ++ q)) h fp (grown cap (ticks w.length 2)) (fun a h fp =>
        ∃ b, a = (.ok (-1, b), q) ∧ Room Rep b h (w ++ eoc) (max cap (w.length + 2)) fp) := by
  have := cost_berDo (m := m) (c := []) (q := q) hx hv hb isId_00 hn
  rw [if_pos (by decide), ← eoc_tlv] at this
  rw [ticks_two, ← eoc_tlv]
  exact this

theorem loopCost (hx : Exact I Rep init) (hv : al.Valid) {pos : Nat} {v : Bytes} {st : List Nat} (hs : SeqStops pos v st) : LoopCost I Rep m al pos v st := by
  refine SeqStops.rec (motive_1 := fun pos v st _ => v ≠ eoc → LoopCost I Rep m al pos v st)
    (motive_2 := fun pos v st _ => LoopCost I Rep m al pos v st) ?_ ?_ ?_ ?_ hs
  · intro pos id c hid hc hne d q w b h fp cap f k Q hd hdw hw hb hl hf hk
    obtain ⟨f, rfl⟩ : ∃ g, f = g + 1 := ⟨f - 1, by omega⟩
    subst hw
    simp only [List.length_append] at hl hf
    have hg := cost_berDo (m := m) (q := q) hx hv hb (c := c) hid (by omega)
    have hne' : ¬ tlv id c = BerRef.eoc := hne
    rw [if_neg hne'] at hg
    refine cost_loop_next hg (by omega) (by omega) ?_
    intro b h fp hb
    rw [Int.add_zero]
    have := isId_length_pos hid
    have := tlv_length id c
    exact hk b h fp f (by omega) hb
  · intro pos id c st hid hseq ih hne d q w b h fp cap f k Q hd hdw hw hb hl hf hk
    obtain ⟨f, rfl⟩ : ∃ g, f = g + 1 := ⟨f - 1, by omega⟩
    subst hw
    have e2 : eoc.length = 2 := rfl
    have e1 : indefOctets.length = 1 := rfl
    have hpos := isId_length_pos hid
    have et : id ++ indefOctets ++ c ++ eoc ++ q = id ++ indefOctets ++ (c ++ (eoc ++ q)) := by simp
    simp only [List.length_append] at hl hf
    rw [et, grown_append, grown_append, roomAfter_append, roomAfter_ticks _ _ _ hb.le, roomAfter_seqStops hseq _ (by omega), Nat.add_assoc, Nat.add_assoc]
    refine cost_loop_next (cost_berDo_indef hx hv hb hid (by simp only [List.length_append]; omega)) (by omega) (by omega) ?_
    intro b h fp hb
    have hd' : ((d : Int) + 1) = ((d + 1 : Nat) : Int) := by omega
    rw [hd']
    have hlw : (w ++ (id ++ indefOctets)).length = w.length + (id ++ indefOctets).length := by simp
    refine ih (d + 1) (eoc ++ q) (w ++ (id ++ indefOctets)) b h fp _ f _ Q (by omega) (by simp only [List.length_append]; omega) hlw hb
      (by simp only [List.length_append]; omega) (by simp only [List.length_append]; omega) ?_
    intro b h fp f hf' hb
    obtain ⟨f, rfl⟩ : ∃ g, f = g + 1 := ⟨f - 1, by omega⟩
    have hlw2 : (w ++ (id ++ indefOctets) ++ c).length = w.length + (id ++ indefOctets ++ c).length := by simp [Nat.add_assoc]
    have hg := cost_berDo_eoc (m := m) (q := q) hx hv hb (by simp only [List.length_append]; omega)
    rw [hlw2] at hg
    refine cost_loop_next hg (by omega) (by omega) ?_
    intro b h fp hb
    have hd'' : ((d + 1 : Nat) : Int) + -1 = (d : Int) := by omega
    rw [hd'']
    simp only [List.length_append] at hf'
    refine hk b h fp f (by omega) ?_
    have ew : w ++ (id ++ indefOctets) ++ c ++ eoc = w ++ (id ++ indefOctets ++ c ++ eoc) := by simp
    rw [ew] at hb
    have em : max (max (max cap (w.length + (id ++ indefOctets).length)) (w.length + (id ++ indefOctets).length + c.length))
        (w.length + (id ++ indefOctets ++ c).length + 2) = max cap (w.length + (id ++ indefOctets ++ c ++ eoc).length) := by
      simp only [List.length_append]; omega
    rw [em] at hb
    exact hb
  · intro pos d q w b h fp cap f k Q hd hdw hw hb hl hf hk
    have : grown cap [] = 0 := rfl
    rw [this, Nat.zero_add]
    refine hk b h fp f hf ?_
    have := hb.le
    rw [List.append_nil, List.length_nil, ← hw, Nat.add_zero, Nat.max_eq_left this]
    exact hb
  · intro pos v r st st' hbs hne hseq ih1 ih2 d q w b h fp cap f k Q hd hdw hw hb hl hf hk
    subst hw
    rw [List.append_assoc] at hl hf ⊢
    rw [grown_append, roomAfter_berStops hbs _ hb.le, Nat.add_assoc]
    refine ih1 hne d (r ++ q) w b h fp cap f _ Q hd hdw rfl hb hl hf ?_
    intro b h fp f hf' hb
    refine ih2 d q (w ++ v) b h fp _ f k Q hd (by simp; omega) (by simp) hb (by simp only [List.length_append] at hl ⊢; omega) hf' ?_
    intro b h fp f hf'' hb
    refine hk b h fp f hf'' ?_
    have em : max (max cap (w.length + v.length)) (w.length + v.length + r.length) = max cap (w.length + (v ++ r).length) := by
      simp only [List.length_append]; omega
    rw [List.append_assoc, em] at hb
    exact hb

/-- `Ber::parse` of a value that is there. -/
theorem cost_Ber_parse (hx : Exact I Rep init) (hv : al.Valid) {v q : Bytes} {st : List Nat} (hs : BerStops 0 v st) (hn : (v ++ q).length ≤ isizeMax) :
    Cost (Ber.parse I m al honestReadExact (v ++ q)) h none (grown init st)
      (fun a h fp => ∃ b, a = (.ok b, q) ∧ Room Rep b h v (max init v.length) fp) := by
  have hnew := room_new hx h
  unfold Ber.parse
  rw [size_bytes]
  cases hs with
  | definite _ id c hid hc =>
    have hg := cost_berDo (m := m) (q := q) hx hv hnew (c := c) hid (by simp only [List.length_append] at hn; simp; omega)
    simp only [List.length_nil, Nat.zero_add, List.nil_append] at hg ⊢
    refine cost_loop_end hg ?_
    split <;> omega
  | indefinite _ id c st hid hseq =>
    have e2 : eoc.length = 2 := rfl
    have e1 : indefOctets.length = 1 := rfl
    have hpos := isId_length_pos hid
    have et : id ++ indefOctets ++ c ++ eoc ++ q = id ++ indefOctets ++ (c ++ (eoc ++ q)) := by simp
    simp only [List.length_append] at hn
    rw [et, grown_append, grown_append, roomAfter_append, roomAfter_ticks _ _ _ (Nat.zero_le _), roomAfter_seqStops hseq _ (by omega), Nat.add_assoc]
    refine cost_loop_next (cost_berDo_indef hx hv hnew hid (by simp only [List.length_append, List.length_nil]; omega)) (by omega) (by omega) ?_
    intro b h fp hb
    simp only [List.length_nil, Nat.zero_add, List.nil_append] at hb hseq ⊢
    refine loopCost hx hv hseq 1 (eoc ++ q) (id ++ indefOctets) b h fp _ _ _ _ (by omega) (by simp only [List.length_append]; omega) rfl hb
      (by simp only [List.length_append]; omega) (by simp only [List.length_append]; omega) ?_
    intro b h fp f hf' hb
    obtain ⟨f, rfl⟩ : ∃ g, f = g + 1 := ⟨f - 1, by omega⟩
    have hg := cost_berDo_eoc (m := m) (q := q) hx hv hb (by simp only [List.length_append]; omega)
    have em : max (max (max init (id ++ indefOctets).length) ((id ++ indefOctets).length + c.length))
        ((id ++ indefOctets ++ c).length + 2) = max init (id ++ indefOctets ++ c ++ eoc).length := by
      simp only [List.length_append]; omega
    rw [em] at hg
    exact cost_loop_end hg (by omega)

end Bsn1.Raw
