import Verif.Lemmas.Failures
import Verif.Props.Failing
/-!
# C76 in full: what becomes of the failures of a reader

The reader may fail any number of times, anywhere and in any way, interruptions included, and deliver the octets in any pieces.
-/

namespace Bsn1
open Spec

theorem failures_head {s : Script} (hs : Steady s) {k : IoKind} {l : List (Nat × IoKind)} (h : failures s = (0, k) :: l) :
    ∃ s', s = .fail k :: s' := by
  match s with
  | [] => cases h
  | .fail k' :: s => cases h; exact ⟨s, rfl⟩
  | .chunk c :: s =>
    exfalso
    have hc : c ≠ [] := fun h => hs (by rw [h]; exact List.mem_cons_self ..)
    have := List.length_pos_iff.mpr hc
    rw [failures_chunk] at h
    obtain ⟨a, b, h1, h2, h3⟩ := List.map_eq_cons_iff.mp h
    simp only [later, Prod.mk.injEq] at h2
    omega

/-- C76 for `Id::parse`: the identifier if the reader does not fail before the last octet of it, and the first failure otherwise, even if that
is an interruption. -/
theorem C76_id_exact (s : Script) (v t : Bytes) (hs : Steady s) (hv : IsId v) (hd : scriptData s = v ++ t) :
    (∀ e l, failures s = e :: l → e.1 < v.length → (Id.parse s).1 = .err (.io e.2)) ∧
    ((∀ e ∈ failures s, v.length ≤ e.1) → (Id.parse s).1 = .ok v) := by
  obtain hr := parseId_shape ((isId_iff_shape _).mp hv) t []
  simp only [Id.parse]
  rcases meets_parseId.1 s _ [] hs hd _ _ _ hr with ⟨n, s', e1, e2, e3, e4⟩ | ⟨j, k, l, s', w'', e1, e2, e3⟩
  · rw [List.length_append] at e1
    rw [e2]
    refine ⟨?_, fun _ => by simp⟩
    intro e l h1 h2
    rw [e3.failures] at h1
    obtain ⟨a, b, _, h3, _⟩ := List.map_eq_cons_iff.mp h1
    rw [← h3] at h2
    simp only [later] at h2
    omega
  · rw [List.length_append] at e2
    rw [e3]
    refine ⟨?_, ?_⟩
    · intro e l' h1 _
      rw [e1] at h1
      cases h1
      rfl
    · intro h
      have := h (j, k) (by rw [e1]; exact List.mem_cons_self ..)
      simp only at this
      omega

example : (Id.parse ([.chunk [0x1f], .chunk [0x85], .fail .interrupted, .fail (.other 1), .chunk [0x01, 9]] : Script)).1 = .err (.io .interrupted) ∧
    (Id.parse ([.chunk [0x1f, 0x85, 0x01], .fail (.other 1), .chunk [9]] : Script)).1 = .ok [0x1f, 0x85, 0x01] := by
  have hid : IsId [0x1f, 0x85, 0x01] := ⟨0, 0, 641, by decide, by decide, by decide +kernel⟩
  constructor
  · refine (C76_id_exact _ [0x1f, 0x85, 0x01] [9] (by unfold Steady; decide) hid rfl).1 (2, .interrupted) [(2, .other 1)] rfl (by decide)
  · refine (C76_id_exact _ [0x1f, 0x85, 0x01] [9] (by unfold Steady; decide) hid rfl).2 ?_
    intro e he
    have : e = (3, .other 1) := by simpa [failures] using he
    subst this
    decide

/-- C76 for `Length::parse`: the same. -/
theorem C76_length_exact (s : Script) (v t : Bytes) (hs : Steady s) (hv : IsLen v) (hd : scriptData s = v ++ t) :
    (∀ e l, failures s = e :: l → e.1 < v.length → (Length.parse s).1 = .err (.io e.2)) ∧
    ((∀ e ∈ failures s, v.length ≤ e.1) →
      (v = indefOctets ∧ (Length.parse s).1 = .ok .indefinite) ∨ ∃ n, v = lenOctets n ∧ (Length.parse s).1 = .ok (.definite n)) := by
  have hr : ∃ l, (parseLength (σ := Bytes)).run (v ++ t) [] = (.ok l, t, v) ∧
      (v = indefOctets ∧ l = .indefinite ∨ ∃ n, v = lenOctets n ∧ l = .definite n) := by
    rcases hv with rfl | ⟨n, hn, rfl⟩
    · exact ⟨_, parseLength_indef t [], .inl ⟨rfl, rfl⟩⟩
    · exact ⟨_, parseLength_lenOctets hn t [], .inr ⟨n, rfl, rfl⟩⟩
  obtain ⟨len, hr, hl⟩ := hr
  simp only [Length.parse]
  rcases meets_parseLength.1 s _ [] hs hd _ _ _ hr with ⟨n, s', e1, e2, e3, e4⟩ | ⟨j, k, l, s', w'', e1, e2, e3⟩
  · rw [List.length_append] at e1
    rw [e2]
    refine ⟨?_, fun _ => ?_⟩
    · intro e l h1 h2
      rw [e3.failures] at h1
      obtain ⟨a, b, _, h3, _⟩ := List.map_eq_cons_iff.mp h1
      rw [← h3] at h2
      simp only [later] at h2
      omega
    · rcases hl with ⟨h1, rfl⟩ | ⟨n, h1, rfl⟩
      · exact .inl ⟨h1, rfl⟩
      · exact .inr ⟨n, h1, rfl⟩
  · rw [List.length_append] at e2
    rw [e3]
    refine ⟨?_, ?_⟩
    · intro e l' h1 _
      rw [e1] at h1
      cases h1
      rfl
    · intro h
      have := h (j, k) (by rw [e1]; exact List.mem_cons_self ..)
      simp only at this
      omega

example : (Length.parse ([.chunk [0x82], .fail .interrupted, .chunk [0x01, 0x05]] : Script)).1 = .err (.io .interrupted) := by
  refine (C76_length_exact _ [0x82, 0x01, 0x05] [] (by unfold Steady; decide) (.inr ⟨261, by decide, by decide +kernel⟩) rfl).1
    (1, .interrupted) [] rfl (by decide)

/-- C76 for `Der::parse`.  The first failure is reported if it comes before the first octet of the contents is delivered.  No other failure ever is,
and the result is then the value if all of the contents come by one `read`; otherwise the value is said to be cut off, though it is not. -/
theorem C76_der_exact (m : Build) (s : Script) (id c t : Bytes) (hs : Steady s) (hid : IsId id) (hlen : (tlv id c).length ≤ isizeMax)
    (hd : scriptData s = tlv id c ++ t) :
    (∀ e l, failures s = e :: l → e.1 ≤ (id ++ lenOctets c.length).length → (Der.parse m s).1 = .err (.io e.2)) ∧
    ((∀ e ∈ failures s, (id ++ lenOctets c.length).length < e.1) →
      ((∃ j, (id ++ lenOctets c.length).length < j ∧ j < (tlv id c).length ∧ Joint s j) → (Der.parse m s).1 = .err .unterminatedBytes) ∧
      ((∀ j, (id ++ lenOctets c.length).length < j → j < (tlv id c).length → ¬ Joint s j) → (Der.parse m s).1 = .ok (tlv id c))) := by
  have hi := isizeMax_eq
  have hu := usizeSize_eq
  have hl : (tlv id c).length = (id ++ lenOctets c.length).length + c.length := by rw [tlv, List.length_append]
  generalize hh : id ++ lenOctets c.length = h at *
  have hr := parseIdLength_definite hid (n := c.length) (by omega) (c ++ t) []
  have hdata : scriptData s = id ++ lenOctets c.length ++ (c ++ t) := by rw [hd, tlv]; simp
  rw [List.nil_append, hh] at hr
  rw [hh] at hdata
  simp only [Der.parse]
  rcases meets_parseIdLength.1 s _ [] hs hdata _ _ _ hr with ⟨n, s1, e1, e2, e3, e4⟩ | ⟨j, k, l, s', w'', e1, e2, e3⟩
  · have hn : n = h.length := by simp only [List.length_append] at e1; omega
    subst hn
    rw [e2]
    simp only
    rw [uadd_ok (by omega), bufReserve, uadd_ok (by omega)]
    simp only [Res.bind_ok]
    rw [if_pos (by omega)]
    simp only [Res.pure_eq, Res.bind_ok]
    rw [if_pos (by omega)]
    simp only [Nat.add_sub_cancel_left]
    refine ⟨?_, ?_⟩
    · intro e l h1 h2
      rw [e3.failures] at h1
      obtain ⟨a, b, h4, h3, _⟩ := List.map_eq_cons_iff.mp h1
      obtain ⟨j, k⟩ := a
      rw [← h3] at h2
      simp only [later] at h2
      obtain rfl : j = 0 := by omega
      obtain ⟨s2, rfl⟩ := failures_head e3.steady h4
      have hrd : Reader.read c.length (.fail k :: s2 : Script) = (.fail k, s2) := rfl
      rw [hrd, ← h3]
      rfl
    · intro hf
      match s1 with
      | [] =>
        have hc : c ++ t = [] := e4.symm
        obtain ⟨rfl, rfl⟩ := List.append_eq_nil_iff.mp hc
        have hrd : Reader.read ([] : Bytes).length ([] : Script) = (.data [], []) := rfl
        rw [hrd]
        simp only [List.length_nil, Nat.add_zero] at hl ⊢
        refine ⟨?_, fun _ => ?_⟩
        · rintro ⟨j, h1, h2, _⟩; omega
        · simp [tlv, ← hh]
      | .fail k :: s2 =>
        exfalso
        have := hf (h.length, k) (by rw [e3.failures]; simp [failures, later])
        simp only at this
        omega
      | .chunk x :: s2 =>
        have hx : x ≠ [] := fun h => e3.steady (by rw [h]; exact List.mem_cons_self ..)
        have hxl := List.length_pos_iff.mpr hx
        have e5 : x ++ scriptData s2 = c ++ t := e4
        by_cases hlt : x.length < c.length
        · have hrd : Reader.read c.length (.chunk x :: s2 : Script) = (.data x, s2) := by
            change Script.read c.length (.chunk x :: s2) = _
            rw [Script.read, if_pos (by omega)]
          rw [hrd]
          simp only
          rw [if_pos hlt]
          refine ⟨fun _ => rfl, fun hj => ?_⟩
          exfalso
          refine hj (h.length + x.length) (by omega) (by omega) ?_
          rw [e3.joints _ hxl, joint_chunk hxl, Nat.sub_self]
          exact ⟨Nat.le_refl _, joint_zero _⟩
        · have hrd : ∃ s3, Reader.read c.length (.chunk x :: s2 : Script) = (.data c, s3) := by
            change ∃ s3, Script.read c.length (.chunk x :: s2) = _
            rw [Script.read]
            have htake : x.take c.length = c := by
              have := congrArg (List.take c.length) e5
              rw [List.take_append_of_le_length (by omega)] at this
              simpa using this
            by_cases hle : x.length ≤ c.length
            · rw [if_pos hle]
              rw [List.take_of_length_le hle] at htake
              exact ⟨_, by rw [htake]⟩
            · rw [if_neg hle, htake]
              exact ⟨_, rfl⟩
          obtain ⟨s3, hrd⟩ := hrd
          rw [hrd]
          simp only
          rw [if_neg (by omega)]
          refine ⟨?_, fun _ => by rw [tlv, hh]⟩
          rintro ⟨j, h1, h2, h3⟩
          exfalso
          rw [show j = h.length + (j - h.length) by omega, e3.joints _ (by omega), joint_chunk (by omega)] at h3
          omega
  · simp only [List.length_append] at e2
    rw [e3]
    refine ⟨?_, ?_⟩
    · intro e l' h1 _
      rw [e1] at h1
      cases h1
      rfl
    · intro hf
      exfalso
      have := hf (j, k) (by rw [e1]; exact List.mem_cons_self ..)
      simp only at this
      omega

example : (Der.parse .debug ([.chunk [0x04], .chunk [0x03], .fail .interrupted, .chunk [1, 2, 3]] : Script)).1 = .err (.io .interrupted) ∧
    (Der.parse .debug ([.chunk [0x04], .chunk [0x03, 1], .chunk [2, 3], .fail .interrupted, .chunk [9]] : Script)).1 = .err .unterminatedBytes ∧
    (Der.parse .debug ([.chunk [0x04], .chunk [0x03, 1, 2, 3], .fail .interrupted, .chunk [9]] : Script)).1 = .ok [0x04, 0x03, 1, 2, 3] := by
  have hid : IsId [0x04] := ⟨0, 0, 4, by decide, by decide, by decide +kernel⟩
  have hf : ∀ e ∈ [((5 : Nat), IoKind.interrupted)], ([0x04] ++ lenOctets [1, 2, 3].length).length < e.1 := by decide +kernel
  refine ⟨?_, ?_, ?_⟩
  · exact (C76_der_exact .debug _ [0x04] [1, 2, 3] [] (by unfold Steady; decide) hid (by decide +kernel) (by decide +kernel)).1
      (2, .interrupted) [] rfl (by decide +kernel)
  · refine ((C76_der_exact .debug _ [0x04] [1, 2, 3] [9] (by unfold Steady; decide) hid (by decide +kernel) (by decide +kernel)).2 ?_).1 ?_
    · exact hf
    exact ⟨3, by decide +kernel, by decide +kernel, [.chunk [0x04], .chunk [0x03, 1]], _, rfl, rfl⟩
  · refine ((C76_der_exact .debug _ [0x04] [1, 2, 3] [9] (by unfold Steady; decide) hid (by decide +kernel) (by decide +kernel)).2 ?_).2 ?_
    · exact hf
    intro j h1 h2 h3
    have h1 : 2 < j := h1
    have h2 : j < 5 := h2
    rw [joint_chunk (by omega), joint_chunk (by simp; omega), joint_fail] at h3
    simp only [List.length_cons, List.length_nil] at h3
    omega

/-- C76 for `Ber::parse`.  The failures that matter are those before the last octet of the value that are no interruptions or come where an octet of a
header is due, be it that of the value itself or one within a value of indefinite length.  The first of them is reported; without
one the value is returned, however often the reader has been interrupted within contents. -/
theorem C76_ber_exact (m : Build) (s : Script) (v t : Bytes) (hs : Steady s) (hv : IsBer v) (hlen : v.length ≤ isizeMax) (hd : scriptData s = v ++ t) :
    (∀ e, First (fun e => e.1 < v.length ∧ (e.2 ≠ .interrupted ∨ HeaderOctet 0 v e.1)) (failures s) e → (Ber.parse m s).1 = .err (.io e.2)) ∧
    ((∀ e ∈ failures s, e.1 < v.length → e.2 = .interrupted ∧ ¬ HeaderOctet 0 v e.1) → (Ber.parse m s).1 = .ok v) := by
  have hr := (runs_iff (v ++ t) t).mpr ⟨v, hv, rfl⟩
  have hsz : Reader.size s = Script.size s := rfl
  have hsd := size_scriptData s
  have hfat : ∀ e, Fatal 0 (v ++ t) t e ↔ e.1 < v.length ∧ (e.2 ≠ .interrupted ∨ HeaderOctet 0 v e.1) := by
    intro e
    simp only [Fatal, List.length_append]
    constructor
    · rintro ⟨h1, h2⟩
      refine ⟨by omega, ?_⟩
      rcases h2 with h2 | h2
      · exact .inl h2
      · exact .inr (headerOctet_within hr v e.1 rfl (by omega) h2)
    · rintro ⟨h1, h2⟩
      refine ⟨by omega, ?_⟩
      rcases h2 with h2 | ⟨p, d', h, q, i1, i2, i3, i4, i5⟩
      · exact .inl h2
      · exact .inr ⟨p, d', h, q ++ t, i1, i2, by rw [i3]; simp, i4, i5⟩
  have hloop := berParseLoop_meets (m := m) hr (Reader.size s + 1) s [] hs hd (by rw [← hd]; omega) (by rw [List.length_append]; simp; omega)
    (by rw [List.length_append]; omega)
  simp only [Nat.cast_zero] at hloop
  simp only [← hfat]
  have hsound := C76_ber_sound m s
  simp only [Ber.parse] at hsound ⊢
  rcases hloop with ⟨⟨s', w', h1⟩, h2⟩ | ⟨e0, s', w', h1, h2⟩
  · rw [h1] at hsound ⊢
    obtain ⟨h3, h4⟩ := hsound s' w' rfl
    refine ⟨?_, fun _ => ?_⟩
    · rintro e ⟨a, b, i1, i2, i3⟩
      exact absurd i2 (h2 e (by rw [i1]; simp))
    · obtain ⟨rfl, _⟩ := isBer_prefix_free hv h3 (hd.symm.trans h4)
      rfl
  · rw [h1]
    obtain ⟨a, b, i1, i2, i3⟩ := h2
    refine ⟨?_, ?_⟩
    · rintro e ⟨a', b', j1, j2, j3⟩
      have : e = e0 := by
        rw [i1] at j1
        rcases List.append_eq_append_iff.mp j1 with ⟨x, x1, x2⟩ | ⟨x, x1, x2⟩
        · cases x with
          | nil => simp at x2; exact x2.1.symm
          | cons y x => simp at x2; exact absurd i2 (j3 e0 (by rw [x1, x2.1]; simp))
        · cases x with
          | nil => simp at x2; exact x2.1
          | cons y x => simp at x2; exact absurd j2 (i3 e (by rw [x1, x2.1]; simp))
      rw [this]
    · intro h
      exfalso
      obtain ⟨h3, h4⟩ := (hfat e0).mp i2
      have := h e0 (by rw [i1]; simp) h3
      rcases h4 with h4 | h4
      · exact h4 this.1
      · exact this.2 h4

example : (Ber.parse .debug ([.chunk [0x24, 0x80, 0x04, 0x02], .fail .interrupted, .chunk [7], .fail .interrupted, .chunk [8, 0], .fail .interrupted,
    .chunk [0]] : Script)).1 = .err (.io .interrupted) ∧
    (Ber.parse .debug ([.chunk [0x24, 0x80, 0x04, 0x02], .fail .interrupted, .chunk [7], .fail .interrupted, .chunk [8, 0, 0],
      .fail (.other 1)] : Script)).1 = .ok [0x24, 0x80, 0x04, 0x02, 7, 8, 0, 0] := by
  have hid : IsId [0x24] := ⟨0, 1, 4, by decide, by decide, by decide +kernel⟩
  have hid' : IsId [0x04] := ⟨0, 0, 4, by decide, by decide, by decide +kernel⟩
  have hv : IsBer [0x24, 0x80, 0x04, 0x02, 7, 8, 0, 0] :=
    .indefinite [0x24] _ hid (.cons _ _ (.definite [0x04] [7, 8] hid' (by decide)) (by decide +kernel) .nil)
  have e1 : Element [0x24, 0x80] [] 1 := .inr ⟨[0x24], hid, rfl, rfl, rfl⟩
  have e2 : Element [0x04, 0x02] [7, 8] 0 := .inl ⟨[0x04], hid', by decide, by decide +kernel, by decide⟩
  have e3 : Element [0, 0] [] (-1) := .inl ⟨[0], isId_zero, by decide, by decide +kernel, by decide⟩
  have hh : ∀ j, HeaderOctet 0 [0x24, 0x80, 0x04, 0x02, 7, 8, 0, 0] j → j < 8 → j ≠ 4 ∧ j ≠ 5 := by
    intro j h hj
    rcases (headerOctet_iff (bs' := [0x04, 0x02, 7, 8, 0, 0]) e1).mp h with h | ⟨d1, i, h1, h2, h3, h4⟩
    · simp at h; omega
    · rcases (headerOctet_iff (bs' := [0, 0]) e2).mp h4 with h | ⟨d2, i2, _, _, h5, _⟩
      · simp at h h3; omega
      · simp at h3 h5; omega
  constructor
  · refine (C76_ber_exact _ _ [0x24, 0x80, 0x04, 0x02, 7, 8, 0, 0] [] (by unfold Steady; decide) hv (by decide +kernel) rfl).1 (7, .interrupted)
      ⟨[(4, .interrupted), (5, .interrupted)], [], rfl, ⟨by decide, .inr ?_⟩, ?_⟩
    · exact (headerOctet_iff (bs' := [0x04, 0x02, 7, 8, 0, 0]) e1).mpr (.inr ⟨1, 5, rfl, by decide, rfl,
        (headerOctet_iff (bs' := [0, 0]) e2).mpr (.inr ⟨1, 1, rfl, by decide, rfl, (headerOctet_iff (bs' := []) e3).mpr (.inl (by decide))⟩)⟩)
    · intro x hx
      simp only [List.mem_cons, List.not_mem_nil, or_false] at hx
      rcases hx with rfl | rfl
      · rintro ⟨_, h | h⟩
        · exact h rfl
        · exact (hh 4 h (by decide)).1 rfl
      · rintro ⟨_, h | h⟩
        · exact h rfl
        · exact (hh 5 h (by decide)).2 rfl
  · refine (C76_ber_exact _ _ [0x24, 0x80, 0x04, 0x02, 7, 8, 0, 0] [] (by unfold Steady; decide) hv (by decide +kernel) rfl).2 ?_
    intro x hx hl
    have hx : x ∈ [((4 : Nat), IoKind.interrupted), (5, .interrupted), (8, .other 1)] := hx
    simp only [List.mem_cons, List.not_mem_nil, or_false] at hx
    rcases hx with rfl | rfl | rfl
    · exact ⟨rfl, fun h => (hh 4 h (by decide)).1 rfl⟩
    · exact ⟨rfl, fun h => (hh 5 h (by decide)).2 rfl⟩
    · simp at hl

end Bsn1
