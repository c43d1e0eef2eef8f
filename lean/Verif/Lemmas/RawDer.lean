import Verif.Lemmas.Raw
/-!
# Constructors, `extend_from_slice` and `truncate` of `Der` and `Ber` on real storage
-/

set_option linter.unusedSimpArgs false
set_option linter.unusedVariables false

namespace Bsn1.Raw
open Bsn1.Buf Bsn1.Spec

variable {I : Impl} {Rep : I.B → Heap → List Cell → Nat → Option Nat → Prop} {m : Build} {al : Allocator}
variable {b : I.B} {h : Heap} {fp : Option Nat} {s : List Cell} {l : Nat}

theorem liftRes_ok {α : Type} {r : Res α} {a : α} (e : r = .ok a) : liftRes r h = .ok a h := by subst e; rfl

theorem step_withHeader (hc : Correct I Rep) (hv : al.Valid) {id len : Bytes} {n : Nat} (hn : id.length + len.length + n ≤ isizeMax) :
    Step (Der.withHeader I m al id len n) h none
      (fun b h fp => ∃ R, Rep b h ((id ++ len).map some ++ R) (id.length + len.length + n) fp ∧ n ≤ R.length) := by
  have hm := isizeMax_lt
  unfold Der.withHeader
  refine .same (usizeAdd_ok m (by omega) h) ?_
  refine .same (usizeAdd_ok m (by omega) h) ?_
  refine .bind (step_withCapacity hc hv hn) ?_
  rintro b h fp ⟨s, hr, hs⟩
  refine .bind (step_poke hc hr (by omega)) ?_
  intro b h fp hr
  rw [patch_zero] at hr
  refine .bind (step_poke hc hr (by simp; omega)) ?_
  intro b h fp hr
  have e := patch_append (id.map some) (s.drop (id.map some).length) (len.map some)
  rw [List.length_map] at e
  rw [List.length_map, e] at hr
  refine (step_setLen hc hr (by simp; omega)).mono ?_
  intro b h fp hr
  refine ⟨(s.drop id.length).drop len.length, ?_, by simp; omega⟩
  simpa using hr

theorem step_copyContents (hc : Correct I Rep) {hdr id src : Bytes} {L : Length} {R : List Cell}
    (hr : Rep b h (hdr.map some ++ R) (hdr.length + src.length) fp) (hR : src.length ≤ R.length)
    (hd : ∀ rest, DerRef.disassemble (hdr ++ rest) = .ok (id, L, rest)) :
    Step (copyContents I b src) h fp (fun b h fp => Has Rep b h (hdr ++ src) fp) := by
  unfold copyContents
  refine .same (header_ok hc hr (by omega) hd) ?_
  simp only [hc.len hr, Nat.add_sub_cancel_left, if_true]
  refine (step_poke hc hr (by simp; omega)).mono ?_
  intro b h fp hr
  have e := patch_append (hdr.map some) R (src.map some)
  rw [List.length_map] at e
  rw [e] at hr
  exact Has.of_append (R := R.drop (src.map some).length) hr (by simp) (by simp)

/-- `Der::new` leaves the encoding. -/
theorem step_Der_new (hc : Correct I Rep) (hv : al.Valid) {id c : Bytes} (hid : IsId id) (hn : (tlv id c).length ≤ isizeMax) :
    Step (Der.new I m al id c) h none (fun b h fp => Has Rep b h (tlv id c) fp) := by
  have hm := isizeMax_lt
  have hu := usizeSize_eq
  simp only [tlv, List.length_append] at hn
  have hc64 : c.length < 2 ^ 64 := by omega
  unfold Der.new Der.withIdLength
  refine .bind (.same (liftRes_ok (toBytes_definite hc64)) (step_withHeader hc hv hn)) ?_
  rintro b h fp ⟨R, hr, hR⟩
  rw [← List.length_append] at hr
  exact step_copyContents hc hr hR (disassemble_hdr hid hc64)

/-- `Ber::new_indefinite` leaves the octets. -/
theorem step_Ber_newIndefinite (hc : Correct I Rep) (hv : al.Valid) {id c : Bytes} (hid : IsId id)
    (hn : (id ++ indefOctets ++ c).length ≤ isizeMax) :
    Step (Ber.newIndefinite I m al id c) h none (fun b h fp => Has Rep b h (id ++ indefOctets ++ c) fp) := by
  simp only [List.length_append] at hn
  unfold Ber.newIndefinite Ber.withIdLengthIndefinite
  refine .bind (.same (liftRes_ok toBytes_indefinite) (step_withHeader hc hv hn)) ?_
  rintro b h fp ⟨R, hr, hR⟩
  rw [← List.length_append] at hr
  exact step_copyContents hc hr hR (disassemble_indef_hdr hid)

theorem step_extendAll (hc : Correct I Rep) : ∀ (parts : List Bytes) (b : I.B) (h : Heap) (fp : Option Nat) (A : Bytes) (R : List Cell),
    Rep b h (A.map some ++ R) A.length fp → parts.flatten.length ≤ R.length →
    Step (Der.extendAll I m parts b) h fp (fun b h fp => Has Rep b h (A ++ parts.flatten) fp)
  | [], b, h, fp, A, R, hr, _ => .pure ⟨R, by simpa using hr⟩
  | p :: r, b, h, fp, A, R, hr, hl => by
    simp only [List.flatten_cons, List.length_append] at hl
    unfold Der.extendAll
    refine .bind (step_extend hc hr (by simp; omega)) ?_
    intro b h fp hr
    have e := patch_append (A.map some) R (p.map some)
    rw [List.length_map] at e
    rw [e] at hr
    have := step_extendAll hc r b h fp (A ++ p) (R.drop (p.map some).length) (by simpa using hr) (by rw [List.length_drop, List.length_map]; omega)
    simpa using this

theorem step_fromParts (hc : Correct I Rep) (hv : al.Valid) {id len : Bytes} {parts : List Bytes}
    (hn : (id ++ len ++ parts.flatten).length ≤ isizeMax) :
    Step (Der.fromParts I m al id len parts parts.flatten.length) h none (fun b h fp => Has Rep b h (id ++ len ++ parts.flatten) fp) := by
  have hm := isizeMax_lt
  simp only [List.length_append] at hn
  unfold Der.fromParts
  refine .same (usizeAdd_ok m (by omega) h) ?_
  refine .same (usizeAdd_ok m (by omega) h) ?_
  refine .bind (step_withCapacity hc hv hn) ?_
  rintro b h fp ⟨s, hr, hs⟩
  have := step_extendAll (m := m) hc (id :: len :: parts) b h fp [] s (by simpa using hr)
    (by simp only [List.flatten_cons, List.length_append]; omega)
  simpa using this

theorem sumLen_flatten (parts : List Bytes) (acc : Nat) (h : acc + parts.flatten.length < usizeSize) :
    Bsn1.Der.sumLen m parts acc = .ok (acc + parts.flatten.length) := by
  induction parts generalizing acc with
  | nil => rfl
  | cons p r ih =>
    simp only [List.flatten_cons, List.length_append] at h ⊢
    rw [Bsn1.Der.sumLen, uadd_ok (by omega), Res.bind_ok, ih _ (by omega), Nat.add_assoc]

theorem step_Der_fromIdIterator (hc : Correct I Rep) (hv : al.Valid) {id : Bytes} {parts : List Bytes}
    (hn : (tlv id parts.flatten).length ≤ isizeMax) :
    Step (Der.fromIdIterator I m al id parts) h none (fun b h fp => Has Rep b h (tlv id parts.flatten) fp) := by
  have hm := isizeMax_lt
  have hu := usizeSize_eq
  have hl : parts.flatten.length < 2 ^ 64 := by
    simp only [tlv, List.length_append] at hn; omega
  unfold Der.fromIdIterator Der.fromPasses
  refine .same (liftRes_ok (sumLen_flatten parts 0 (by omega))) ?_
  rw [Nat.zero_add]
  refine .same (liftRes_ok (toBytes_definite hl)) ?_
  exact step_fromParts hc hv hn

theorem step_Ber_fromIdIteratorIndefinite (hc : Correct I Rep) (hv : al.Valid) {id : Bytes} {parts : List Bytes}
    (hn : (id ++ indefOctets ++ parts.flatten).length ≤ isizeMax) :
    Step (Ber.fromIdIteratorIndefinite I m al id parts) h none (fun b h fp => Has Rep b h (id ++ indefOctets ++ parts.flatten) fp) := by
  have hm := isizeMax_lt
  have hl : parts.flatten.length < usizeSize := by
    simp only [List.length_append] at hn; omega
  unfold Ber.fromIdIteratorIndefinite Ber.fromPassesIndefinite
  refine .same (liftRes_ok (sumLen_flatten parts 0 (by omega))) ?_
  rw [Nat.zero_add]
  refine .same (liftRes_ok toBytes_indefinite) ?_
  exact step_fromParts hc hv hn

/-- `Der::extend_from_slice` leaves the encoding of the longer contents. -/
theorem step_Der_extend (hc : Correct I Rep) (hv : al.Valid) {id c bytes : Bytes} (hid : IsId id) (hb : Has Rep b h (tlv id c) fp)
    (hn : (tlv id (c ++ bytes)).length ≤ isizeMax) :
    Step (Der.extendFromSlice I m al b bytes) h fp (fun b h fp => Has Rep b h (tlv id (c ++ bytes)) fp) := by
  have hm := isizeMax_lt
  have hu := usizeSize_eq
  obtain ⟨R, hr⟩ := hb
  rw [tlv_length, List.length_append] at hn
  have hmono := lenOctets_length_mono (Nat.le_add_right c.length bytes.length)
  have hn64 : c.length + bytes.length < 2 ^ 64 := by omega
  have hc64 : c.length < 2 ^ 64 := by omega
  have hlen := tlv_length id c
  have hr0 : Rep b h ((id ++ lenOctets c.length).map some ++ (c.map some ++ R)) (tlv id c).length fp := by
    simpa [tlv] using hr
  unfold Der.extendFromSlice
  refine .same (header_ok hc hr0 (by simp; omega) (disassemble_hdr hid hc64)) ?_
  simp only [Length.definite?]
  refine .same (a := c.length) rfl ?_
  refine .same (usizeAdd_ok m (by omega) h) ?_
  rw [len_definite hn64, len_definite hc64]
  refine .same (usizeAdd_ok m (by omega) h) ?_
  refine .same (liftRes_ok (usub_ok (by omega))) ?_
  refine .bind (step_reserve hc hv hr (by omega)) ?_
  rintro b h fp ⟨s, hr, hs1, hs2, hs3⟩
  rw [hc.len hr]
  refine .same (usizeAdd_ok m (by omega) h) ?_
  refine .bind (step_setLen hc hr hs1) ?_
  intro b h fp hr
  rw [take_of_append (by simp)] at hs3
  obtain ⟨S, rfl⟩ : ∃ S, s = (tlv id c).map some ++ S := ⟨s.drop (tlv id c).length, by rw [← hs3, List.take_append_drop]⟩
  have hlen' : ((tlv id c).map some ++ S).length = (tlv id c).length + S.length := by simp
  rw [hlen'] at hs1
  -- the contents at their new place
  refine .iteBind (Q := fun b h fp => Rep b h (patch ((tlv id c).map some ++ S) (id.length + (lenOctets (c.length + bytes.length)).length)
      (c.map some)) ((tlv id c).length + (bytes.length + (lenOctets (c.length + bytes.length)).length - (lenOctets c.length).length)) fp) ?_ ?_
  · have hsrc : (((tlv id c).map some ++ S).drop (id.length + (lenOctets c.length).length)).take c.length = c.map some := by
      have : (tlv id c).map some ++ S = (id ++ lenOctets c.length).map some ++ (c.map some ++ S) := by simp [tlv]
      rw [this, drop_of_append (by simp), take_of_append (by simp)]
    refine .ite (fun hne => ?_) (fun he => ?_)
    · have := step_copyWithin hc (src := id.length + (lenOctets c.length).length)
        (dst := id.length + (lenOctets (c.length + bytes.length)).length) (n := c.length) hr (by rw [hlen']; omega) (by rw [hlen']; omega)
      rw [hsrc] at this
      exact this
    · have he : id.length + (lenOctets c.length).length = id.length + (lenOctets (c.length + bytes.length)).length := by
        omega
      refine .pure ?_
      rw [← he, ← hsrc, patch_self _ _ _ (by rw [hlen']; omega)]
      exact hr
  intro b h fp hr
  have hl1 : (patch ((tlv id c).map some ++ S) (id.length + (lenOctets (c.length + bytes.length)).length) (c.map some)).length =
      (tlv id c).length + S.length := by
    rw [patch_length _ _ _ (by rw [hlen']; simp; omega), hlen']
  refine .bind (step_poke hc hr (by rw [hl1]; omega)) ?_
  intro b h fp hr
  rw [← List.length_map (as := c) (f := some), patch_patch_right _ _ _ _ (by rw [hlen']; simp; omega), List.length_map] at hr
  have hl2 : (patch ((tlv id c).map some ++ S) (id.length + (lenOctets (c.length + bytes.length)).length)
      (c.map some ++ bytes.map some)).length = (tlv id c).length + S.length := by
    rw [patch_length _ _ _ (by rw [hlen']; simp; omega), hlen']
  rw [hc.len hr]
  refine .same (debugAssert_ok m (by omega) h) ?_
  refine .same (liftRes_ok (toBytes_definite hn64)) ?_
  refine (step_poke hc hr (by rw [hl2]; omega)).mono ?_
  intro b h fp hr
  rw [← List.length_map (as := lenOctets (c.length + bytes.length)) (f := some), patch_patch_left _ _ _ _ (by rw [hlen']; simp; omega),
    List.length_map] at hr
  have e : (tlv id c).map some ++ S = id.map some ++ ((lenOctets c.length ++ c).map some ++ S) := by simp [tlv]
  have e2 := patch_append (id.map some) ((lenOctets c.length ++ c).map some ++ S)
    ((lenOctets (c.length + bytes.length)).map some ++ (c.map some ++ bytes.map some))
  rw [List.length_map, ← e] at e2
  rw [e2] at hr
  refine Has.of_append (R := _) hr (by simp [tlv]; rfl) ?_
  rw [tlv_length id (c ++ bytes), List.length_append]
  omega

/-- `Der::truncate` leaves the encoding of the shorter contents. -/
theorem step_Der_truncate (hc : Correct I Rep) {id c : Bytes} {n : Nat} (hid : IsId id) (hb : Has Rep b h (tlv id c) fp) :
    Step (Der.truncate I m b n) h fp (fun b h fp => Has Rep b h (tlv id (c.take n)) fp) := by
  have hm := isizeMax_lt
  have hu := usizeSize_eq
  obtain ⟨R, hr⟩ := hb
  have hlen := tlv_length id c
  have hbd := hc.bound hr
  have hlen' : ((tlv id c).map some ++ R).length = (tlv id c).length + R.length := by simp
  have hc64 : c.length < 2 ^ 64 := by omega
  have hr0 : Rep b h ((id ++ lenOctets c.length).map some ++ (c.map some ++ R)) (tlv id c).length fp := by
    simpa [tlv] using hr
  unfold Der.truncate
  refine .same (header_ok hc hr0 (by simp; omega) (disassemble_hdr hid hc64)) ?_
  simp only [Length.definite?]
  refine .same (a := c.length) rfl ?_
  refine .ite (fun hle => ?_) (fun hlt => ?_)
  · rw [List.take_of_length_le hle]
    exact .pure ⟨R, hr⟩
  · have hmono := lenOctets_length_mono (show n ≤ c.length by omega)
    refine .same (liftRes_ok (toBytes_definite hc64)) ?_
    refine .same (liftRes_ok (toBytes_definite (show n < 2 ^ 64 by omega))) ?_
    refine .bind (step_poke hc hr (by rw [hlen']; omega)) ?_
    intro b h fp hr
    have hl1 : (patch ((tlv id c).map some ++ R) id.length ((lenOctets n).map some)).length = (tlv id c).length + R.length := by
      rw [patch_length _ _ _ (by rw [hlen']; simp; omega), hlen']
    have e0 : (tlv id c).map some ++ R = id.map some ++ ((lenOctets c.length).map some ++ (c.map some ++ R)) := by simp [tlv]
    have e1 : patch ((tlv id c).map some ++ R) id.length ((lenOctets n).map some) =
        id.map some ++ (lenOctets n).map some ++ (((lenOctets c.length).map some).drop (lenOctets n).length ++ (c.map some ++ R)) := by
      have := patch_append (id.map some) ((lenOctets c.length).map some ++ (c.map some ++ R)) ((lenOctets n).map some)
      rw [List.length_map, ← e0] at this
      rw [this, List.length_map, List.drop_append_of_le_length (by simpa using hmono)]
    refine .iteBind (Q := fun b h fp => Rep b h (patch ((tlv id c).map some ++ R) id.length ((lenOctets n ++ c.take n).map some))
        (tlv id c).length fp) ?_ ?_
    · refine .ite (fun hlt' => ?_) (fun hge => ?_)
      · have hsrc : ((patch ((tlv id c).map some ++ R) id.length ((lenOctets n).map some)).drop
            (id.length + (lenOctets c.length).length)).take n = (c.take n).map some := by
          rw [e1, ← List.append_assoc, drop_of_append (by simp; omega), List.take_append_of_le_length (by simp; omega), List.map_take]
        have := step_copyWithin hc (src := id.length + (lenOctets c.length).length) (dst := id.length + (lenOctets n).length) (n := n) hr
          (by rw [hl1]; omega) (by rw [hl1]; omega)
        rw [hsrc] at this
        refine this.mono ?_
        intro b h fp hr
        have e := patch_patch_right ((tlv id c).map some ++ R) ((lenOctets n).map some) ((c.take n).map some) id.length
          (by rw [hlen']; simp; omega)
        rw [List.length_map] at e
        rw [e] at hr
        simpa using hr
      · refine .pure ?_
        have heq : (lenOctets n).length = (lenOctets c.length).length := by omega
        have e := patch_self (patch ((tlv id c).map some ++ R) id.length ((lenOctets n).map some)) (id.length + (lenOctets n).length) n
          (by rw [hl1]; omega)
        have e' : ((patch ((tlv id c).map some ++ R) id.length ((lenOctets n).map some)).drop (id.length + (lenOctets n).length)).take n =
            (c.take n).map some := by
          rw [e1, drop_of_append (by simp), heq, List.drop_of_length_le (by simp), List.nil_append,
            List.take_append_of_le_length (by simp; omega), List.map_take]
        rw [e'] at e
        have e2 := patch_patch_right ((tlv id c).map some ++ R) ((lenOctets n).map some) ((c.take n).map some) id.length
          (by rw [hlen']; simp; omega)
        rw [List.length_map] at e2
        rw [e2] at e
        rw [List.map_append, e]
        exact hr
    intro b h fp hr
    have e2 := patch_append (id.map some) ((lenOctets c.length).map some ++ (c.map some ++ R)) ((lenOctets n ++ c.take n).map some)
    rw [List.length_map, ← e0] at e2
    rw [e2] at hr
    have ht : (c.take n).length = n := by simp; omega
    refine (step_setLen hc hr ?_).mono ?_
    · simp; omega
    · intro b h fp hr
      refine Has.of_append (R := _) hr (by simp [tlv, ht]; rfl) ?_
      rw [tlv_length, ht]

theorem step_Ber_extend_definite (hc : Correct I Rep) (hv : al.Valid) {id c bytes : Bytes} (hid : IsId id)
    (hb : Has Rep b h (tlv id c) fp) (hn : (tlv id (c ++ bytes)).length ≤ isizeMax) :
    Step (Ber.extendFromSlice I m al b bytes) h fp (fun b h fp => Has Rep b h (tlv id (c ++ bytes)) fp) := by
  have hb' := hb
  obtain ⟨R, hr⟩ := hb'
  have hm := isizeMax_lt
  have hu := usizeSize_eq
  have hlen := tlv_length id c
  have hbd := hc.bound hr
  have hlen' : ((tlv id c).map some ++ R).length = (tlv id c).length + R.length := by simp
  have hr0 : Rep b h ((id ++ lenOctets c.length).map some ++ (c.map some ++ R)) (tlv id c).length fp := by
    simpa [tlv] using hr
  unfold Ber.extendFromSlice
  refine .same (header_ok hc hr0 (by simp; omega) (disassemble_hdr hid (by omega))) ?_
  exact step_Der_extend hc hv hid hb hn

theorem step_Ber_truncate_definite (hc : Correct I Rep) {id c : Bytes} {n : Nat} (hid : IsId id) (hb : Has Rep b h (tlv id c) fp) :
    Step (Ber.truncate I m b n) h fp (fun b h fp => Has Rep b h (tlv id (c.take n)) fp) := by
  have hb' := hb
  obtain ⟨R, hr⟩ := hb'
  have hm := isizeMax_lt
  have hu := usizeSize_eq
  have hlen := tlv_length id c
  have hbd := hc.bound hr
  have hlen' : ((tlv id c).map some ++ R).length = (tlv id c).length + R.length := by simp
  have hr0 : Rep b h ((id ++ lenOctets c.length).map some ++ (c.map some ++ R)) (tlv id c).length fp := by
    simpa [tlv] using hr
  unfold Ber.truncate
  refine .same (header_ok hc hr0 (by simp; omega) (disassemble_hdr hid (by omega))) ?_
  exact step_Der_truncate hc hid hb

theorem step_Ber_extend_indefinite (hc : Correct I Rep) (hv : al.Valid) {id c bytes : Bytes} (hid : IsId id)
    (hb : Has Rep b h (id ++ indefOctets ++ c) fp) (hn : (id ++ indefOctets ++ (c ++ bytes)).length ≤ isizeMax) :
    Step (Ber.extendFromSlice I m al b bytes) h fp (fun b h fp => Has Rep b h (id ++ indefOctets ++ (c ++ bytes)) fp) := by
  obtain ⟨R, hr⟩ := hb
  have hm := isizeMax_lt
  have hr0 : Rep b h ((id ++ indefOctets).map some ++ (c.map some ++ R)) (id ++ indefOctets ++ c).length fp := by simpa using hr
  simp only [List.length_append] at hn
  unfold Ber.extendFromSlice
  refine .same (header_ok hc hr0 (by simp) (disassemble_indef_hdr hid)) ?_
  simp only []
  refine .bind (step_reserve hc hv hr (by simp only [List.length_append]; omega)) ?_
  rintro b h fp ⟨s, hr, hs1, hs2, hs3⟩
  rw [take_of_append (by simp)] at hs3
  obtain ⟨S, rfl⟩ : ∃ S, s = (id ++ indefOctets ++ c).map some ++ S := ⟨s.drop (id ++ indefOctets ++ c).length, by
    rw [← hs3, List.take_append_drop]⟩
  rw [hc.len hr]
  refine .bind (step_poke hc hr hs1) ?_
  intro b h fp hr
  rw [hc.len hr]
  refine .same (usizeAdd_ok m (by simp only [List.length_append]; omega) h) ?_
  have e2 := patch_append ((id ++ indefOctets ++ c).map some) S (bytes.map some)
  rw [List.length_map] at e2
  rw [e2] at hr
  refine (step_setLen hc hr ?_).mono ?_
  · simp only [List.length_append, List.length_map] at hs1 ⊢; omega
  · intro b h fp hr
    exact Has.of_append (R := _) hr (by simp; rfl) (by simp; omega)

theorem step_Ber_truncate_indefinite (hc : Correct I Rep) {id c : Bytes} {n : Nat} (hid : IsId id)
    (hb : Has Rep b h (id ++ indefOctets ++ c) fp) :
    Step (Ber.truncate I m b n) h fp (fun b h fp => Has Rep b h (id ++ indefOctets ++ c.take n) fp) := by
  obtain ⟨R, hr⟩ := hb
  have hm := isizeMax_lt
  have hu := usizeSize_eq
  have hmax : isizeMax = 2 ^ 63 - 1 := by decide
  have hbd := hc.bound hr
  have hr0 : Rep b h ((id ++ indefOctets).map some ++ (c.map some ++ R)) (id ++ indefOctets ++ c).length fp := by simpa using hr
  simp only [List.length_append, List.length_map] at hbd
  unfold Ber.truncate
  refine .same (header_ok hc hr0 (by simp) (disassemble_indef_hdr hid)) ?_
  simp only [hc.len hr]
  have hlen : (id ++ indefOctets ++ c).length - (id ++ indefOctets).length = c.length := by simp only [List.length_append]; omega
  rw [hlen]
  refine .ite (fun hle => ?_) (fun hlt => ?_)
  · rw [List.take_of_length_le hle]
    exact .pure ⟨R, hr⟩
  · refine .same (usizeAdd_ok m (by simp only [List.length_append]; omega) h) ?_
    refine .same (liftRes_ok (usub_ok (by simp only [List.length_append]; omega))) ?_
    refine (step_setLen hc hr ?_).mono ?_
    · simp only [List.length_append, List.length_map]; omega
    · intro b h fp hr
      refine Has.of_append (R := (c.drop n).map some ++ R) hr ?_ ?_
      · rw [← List.append_assoc, ← List.map_append, List.append_assoc _ (c.take n), List.take_append_drop]
      · simp; omega

end Bsn1.Raw
