import Verif.Lemmas.Script
/-!
# C76: readers that fail

A `Script` is the list of the future answers of a reader: chunks of octets, failures, then end of file; so the theorems
speak about every reader.
-/

set_option linter.unusedSimpArgs false

namespace Bsn1
open Spec

/-! ### A success is never made up -/

/-- C76: whatever the reader does, an identifier returned by `Id::parse` is one, and exactly what was consumed. -/
theorem C76_id_sound (s s' : Script) (v : Bytes) (h : Id.parse s = (.ok v, s')) :
    IsId v ∧ scriptData s = v ++ scriptData s' := by
  simp only [Id.parse] at h
  rcases hx : (parseId (σ := Script)).run s [] with ⟨r, s1, w1⟩
  rw [hx] at h
  match r with
  | .ok a =>
    simp only [Prod.mk.injEq, Res.ok.injEq] at h
    obtain ⟨rfl, rfl⟩ := h
    obtain ⟨_, l, h1, h2⟩ := (good_parseId s []).2.2 a s1 w1 hx
    have hc := parseId_cut (l ++ []) []
    rw [h2 []] at hc
    generalize hL : l ++ ([] : Bytes) = L at hc
    cases hc with
    | ok l' _ h3 h4 =>
      have : l = l' := by rw [← List.append_nil l, hL, h4, List.append_nil]
      subst this
      exact ⟨by simpa using h3, by simpa using h1⟩
  | .err e => simp at h
  | .panic => simp at h
  | .ub => simp at h

example : Id.parse ([.chunk [0x1f], .chunk [0x85, 0x01, 0x02], .fail (.other 3)] : Script) =
    (.ok [0x1f, 0x85, 0x01], [.chunk [0x02], .fail (.other 3)]) := by decide +kernel

/-- C76: a length returned by `Length::parse` is the one whose octets were consumed. -/
theorem C76_length_sound (s s' : Script) (l : Length) (h : Length.parse s = (.ok l, s')) :
    (l = .indefinite ∧ scriptData s = indefOctets ++ scriptData s') ∨
    (∃ n, n < 2 ^ 64 ∧ l = .definite n ∧ scriptData s = lenOctets n ++ scriptData s') := by
  simp only [Length.parse, Prod.mk.injEq] at h
  rcases hx : (parseLength (σ := Script)).run s [] with ⟨r, s1, w1⟩
  rw [hx] at h
  obtain ⟨rfl, rfl⟩ := h
  obtain ⟨_, p, h1, h2⟩ := (good_parseLength s []).2.2 l s1 w1 hx
  have hc := parseLength_cut (p ++ []) []
  rw [h2 []] at hc
  generalize hL : p ++ ([] : Bytes) = L at hc
  cases hc with
  | definite n _ h3 h4 => exact Or.inr ⟨n, h3, rfl, by rw [h1, ← List.append_nil p, hL, h4]; simp⟩
  | indefinite _ h3 => exact Or.inl ⟨rfl, by rw [h1, ← List.append_nil p, hL, h3]; simp⟩

example : Length.parse ([.chunk [0x82], .chunk [0x01, 0x02, 0x07], .fail .interrupted] : Script) =
    (.ok (.definite 258), [.chunk [0x07], .fail .interrupted]) := by decide +kernel

/-- C76: whatever the reader does and in every build, a value returned by `Der::parse` is a DER value, and exactly what
was consumed. -/
theorem C76_der_sound (m : Build) (s s' : Script) (v : Bytes) (h : Der.parse m s = (.ok v, s')) :
    IsDer v ∧ scriptData s = v ++ scriptData s' := by
  have hu := usizeSize_eq
  simp only [Der.parse] at h
  have hspec := scriptHeader_spec s []
  generalize (parseIdLength (σ := Script)).run s [] = r at hspec h
  cases hspec with
  | definite id n s1 h1 h2 h3 h4 =>
    simp only at h
    split at h
    · rename_i k hk
      have hkn : k = n := by
        rcases ha : uadd m ([] ++ id ++ lenOctets n).length n with total | e | _ | _
        · apply reserve_contents (m := m) (a := ([] ++ id ++ lenOctets n).length) _ (by omega)
          rw [ha] at hk ⊢
          simp only [Res.bind_ok] at hk ⊢
          exact hk
        all_goals (rw [ha] at hk; simp at hk)
      subst hkn
      rcases Script.read_spec k s1 with ⟨bs, s2, h5, h6⟩ | ⟨e, s2, h5, h6⟩
      · have hlaw := (LawfulReader.read_data k s1 s2 bs h5).1
        rw [h5] at h
        simp only at h
        split at h
        · simp at h
        · simp only [Prod.mk.injEq, Res.ok.injEq] at h
          obtain ⟨rfl, rfl⟩ := h
          have hb : bs.length = k := by omega
          refine ⟨⟨id, bs, h1, by omega, by rw [tlv, hb]; simp⟩, by rw [h3, h6]; simp⟩
      · rw [h5] at h; simp at h
    · simp at h
    · simp at h
    · simp at h
  | indefinite => simp at h
  | error => simp at h

example : Der.parse .release ([.chunk [0x04], .chunk [0x02], .chunk [0x07, 0x08, 0x09], .fail (.other 3)] : Script) =
    (.ok [0x04, 0x02, 0x07, 0x08], [.chunk [0x09], .fail (.other 3)]) := by decide +kernel

/-- C76: whatever the reader does and in every build, a value returned by `Ber::parse` is a BER value, and exactly what
was consumed. -/
theorem C76_ber_sound (m : Build) (s s' : Script) (v : Bytes) (h : Ber.parse m s = (.ok v, s')) :
    IsBer v ∧ scriptData s = v ++ scriptData s' := by
  simp only [Ber.parse] at h
  rcases hx : (Ber.parseLoop (σ := Script) m (Reader.size s + 1) 0).run s [] with ⟨r, s1, w1⟩
  rw [hx] at h
  match r with
  | .ok () =>
    simp only [Prod.mk.injEq, Res.ok.injEq] at h
    obtain ⟨rfl, rfl⟩ := h
    obtain ⟨p, h1, h2, h3⟩ := berParseLoop_script_ok m _ 0 s s1 [] w1 hx
    simp only [List.nil_append] at h1
    subst h1
    obtain ⟨v, h4, h5⟩ := (runs_iff (w1 ++ []) []).mp (h3 [])
    simp only [List.append_nil] at h5
    subst h5
    exact ⟨h4, h2⟩
  | .err e => simp at h
  | .panic => simp at h
  | .ub => simp at h

example : Ber.parse .debug
    ([.chunk [0x24, 0x80, 0x04], .chunk [0x02, 0x07], .fail .interrupted, .chunk [0x08, 0x00, 0x00], .chunk [0x05]] : Script) =
    (.ok [0x24, 0x80, 0x04, 0x02, 0x07, 0x08, 0x00, 0x00], [.chunk [0x05]]) := by decide +kernel

/-! ### Failures are reported -/

/-- C76: if the reader fails before the identifier is complete, `Id::parse` reports this failure (and asks for no more). -/
theorem C76_id_failure (k : IoKind) (r s : Script) (p : Bytes) (hs : ChunksThen (.fail k :: r) s p)
    (hp : Completable IsId p) : Id.parse s = (.err (.io k), r) := by
  have hc := parseId_cut p []
  obtain ⟨_, h2⟩ := pass_parseId (tail := .fail k :: r) s p [] hs
  rcases hx : (parseId (σ := Bytes)).run p [] with ⟨q, rest, w⟩
  rw [hx] at hc
  obtain ⟨t, ht, hid⟩ := hp
  cases hc with
  | ok l _ h3 h4 =>
    have e1 := parseId_shape ((isId_iff_shape _).mp hid) [] []
    have e2 := parseId_shape ((isId_iff_shape _).mp h3) (rest ++ t) []
    rw [← List.append_assoc, ← h4] at e2
    rw [List.append_nil, e2] at e1
    simp only [Prod.mk.injEq, List.append_eq_nil_iff] at e1
    exact absurd e1.2.1.2 ht
  | cut _ h3 =>
    obtain ⟨w'', h4⟩ := h2 _ _ hx k r rfl
    simp only [Id.parse, h4]
  | final _ _ h3 =>
    have e1 := parseId_shape ((isId_iff_shape _).mp hid) [] []
    have := h3 t []
    rw [List.append_nil] at e1
    rw [e1] at this
    simp at this

example : Id.parse ([.chunk [0x1f], .chunk [0x85], .fail (.other 3), .chunk [0x01]] : Script) =
    (.err (.io (.other 3)), [.chunk [0x01]]) :=
  C76_id_failure _ _ _ [0x1f, 0x85]
    (ChunksThen.cons [0x1f] _ [0x85] (by decide) (ChunksThen.cons [0x85] _ [] (by decide) ChunksThen.nil))
    ⟨[0x01], by decide, ⟨0, 0, 641, by decide, by decide, by decide +kernel⟩⟩

/-- C76: if the reader fails before the length is complete, `Length::parse` reports this failure. -/
theorem C76_length_failure (k : IoKind) (r s : Script) (p : Bytes) (hs : ChunksThen (.fail k :: r) s p)
    (hp : Completable IsLen p) : Length.parse s = (.err (.io k), r) := by
  have hc := parseLength_cut p []
  obtain ⟨_, h2⟩ := pass_parseLength (tail := .fail k :: r) s p [] hs
  have hun : ∃ rest w, (parseLength (σ := Bytes)).run p [] = (.err .unterminatedBytes, rest, w) := by
    obtain ⟨t, ht, hl⟩ := hp
    have hall : ∃ l w, (parseLength (σ := Bytes)).run (p ++ t) [] = (.ok l, [], w) := by
      rcases hl with hl | ⟨n, hn, hl⟩
      · rw [hl]; exact ⟨_, _, parseLength_indef _ _⟩
      · have := parseLength_lenOctets hn [] []
        rw [List.append_nil] at this
        rw [hl]; exact ⟨_, _, this⟩
    obtain ⟨l, w0, hall⟩ := hall
    rcases hx : (parseLength (σ := Bytes)).run p [] with ⟨q, rest, w⟩
    rw [hx] at hc
    cases hc with
    | definite n _ h3 h4 =>
      have e := parseLength_lenOctets h3 (rest ++ t) []
      rw [← List.append_assoc, ← h4, hall] at e
      simp only [Prod.mk.injEq] at e
      exact absurd (List.append_eq_nil_iff.mp e.2.1.symm).2 ht
    | indefinite _ h3 =>
      have e := parseLength_indef (rest ++ t) []
      have e2 : p ++ t = 0x80 :: (rest ++ t) := by rw [h3]; rfl
      rw [← e2, hall] at e
      simp only [Prod.mk.injEq] at e
      exact absurd (List.append_eq_nil_iff.mp e.2.1.symm).2 ht
    | cut => exact ⟨_, _, rfl⟩
    | wide => exact ⟨_, _, rfl⟩
    | final e _ _ h3 h4 =>
      have := h4 t []
      rw [hall] at this
      simp at this
  obtain ⟨rest, w, hx⟩ := hun
  obtain ⟨w'', h4⟩ := h2 _ _ hx k r rfl
  simp only [Length.parse, h4]

example : Length.parse ([.chunk [0x82, 0x01], .fail (.other 3), .chunk [0x01]] : Script) =
    (.err (.io (.other 3)), [.chunk [0x01]]) :=
  C76_length_failure _ _ _ [0x82, 0x01] (ChunksThen.cons [0x82, 0x01] _ [] (by decide) ChunksThen.nil)
    ⟨[0x05], by decide, Or.inr ⟨261, by norm_num, by decide +kernel⟩⟩

/-- C76: if the reader fails (other than by an interruption) before the value is complete, `Ber::parse` reports this
failure (and asks for no more), wherever in the value it happens. -/
theorem C76_ber_failure (m : Build) (k : IoKind) (hk : k ≠ .interrupted) (r s : Script) (p t : Bytes)
    (hs : ChunksThen (.fail k :: r) s p) (ht : t ≠ []) (hv : IsBer (p ++ t)) (hlen : (p ++ t).length ≤ isizeMax) :
    Ber.parse m s = (.err (.io k), r) := by
  have hr := (runs_iff (p ++ t) []).mpr ⟨p ++ t, hv, by simp⟩
  have hsz := hs.size_le
  have hsz' : Reader.size s = Script.size s := rfl
  obtain ⟨w', h⟩ := berParseLoop_fail (m := m) hk hr (Reader.size s + 1) s p t [] rfl
    (by simpa using List.length_pos_iff.mpr ht) hs (by omega) (by simpa using hlen) (by simpa using hlen)
  simp only [Ber.parse]
  simp only [Nat.cast_zero] at h
  rw [h]

example : Ber.parse .debug ([.chunk [0x24, 0x80, 0x04], .chunk [0x02, 0x07], .fail (.other 3), .chunk [0x08]] : Script) =
    (.err (.io (.other 3)), [.chunk [0x08]]) :=
  C76_ber_failure _ _ (by decide) _ _ [0x24, 0x80, 0x04, 0x02, 0x07] [0x08, 0x00, 0x00]
    (ChunksThen.cons [0x24, 0x80, 0x04] _ [0x02, 0x07] (by decide)
      (ChunksThen.cons [0x02, 0x07] _ [] (by decide) ChunksThen.nil))
    (by decide)
    (by
      have h := BerRef_parse_sound (bs := [0x24, 0x80, 0x04, 0x02, 0x07, 0x08, 0x00, 0x00])
        (v := [0x24, 0x80, 0x04, 0x02, 0x07, 0x08, 0x00, 0x00]) (rest := []) (by decide) (by decide +kernel)
      exact h.1)
    (by decide)

/-- C76 for `Der::parse`, the part that holds (missing: a failure after a part of the contents): a failure before the first
octet of the contents is reported, interruptions too. -/
theorem C76_der_failure_partial (m : Build) (k : IoKind) (r s : Script) (id c p t : Bytes) (hid : IsId id)
    (hs : ChunksThen (.fail k :: r) s p) (hp : id ++ lenOctets c.length = p ++ t)
    (hlen : (tlv id c).length ≤ isizeMax) : Der.parse m s = (.err (.io k), r) := by
  have hi := isizeMax_eq
  have hu := usizeSize_eq
  have hl := hlen
  rw [tlv_length] at hl
  obtain ⟨h1, h2⟩ := pass_parseIdLength (tail := .fail k :: r) s p [] hs
  have hh := parseIdLength_definite hid (n := c.length) (by omega) [] []
  rw [List.append_nil, hp] at hh
  simp only [Der.parse]
  rcases header_there hh with ⟨p', h3, h4⟩ | ⟨rest, w'', h3⟩
  · obtain ⟨rfl, rfl⟩ := List.append_eq_nil_iff.mp h4.symm
    obtain ⟨s', h5, h6⟩ := h1 _ _ _ h3
    rw [h5]
    simp only
    have hw : ([] ++ id ++ lenOctets c.length).length = id.length + (lenOctets c.length).length := by simp
    simp only [hw]
    rw [uadd_ok (by omega), bufReserve, uadd_ok (by omega)]
    simp only [Res.bind_ok]
    rw [if_pos (by omega)]
    simp only [Res.pure_eq, Res.bind_ok]
    rw [if_pos (by omega)]
    generalize hB : ([] : Bytes) = B at h6
    cases h6 with
    | nil => rfl
    | cons c' _ _ hc _ => exact absurd (List.append_eq_nil_iff.mp hB.symm).1 hc
  · obtain ⟨w3, h4⟩ := h2 _ _ h3 k r rfl
    rw [h4]

example : Der.parse .debug ([.chunk [0x04], .chunk [0x03], .fail (.other 3), .chunk [1, 2, 3]] : Script) =
    (.err (.io (.other 3)), [.chunk [1, 2, 3]]) :=
  C76_der_failure_partial _ _ _ _ [0x04] [1, 2, 3] [0x04, 0x03] [] ⟨0, 0, 4, by decide, by decide, by decide +kernel⟩
    (ChunksThen.cons [0x04] _ [0x03] (by decide) (ChunksThen.cons [0x03] _ [] (by decide) ChunksThen.nil))
    (by decide +kernel) (by decide)

/-- C76 fails for `Der::parse`: if the reader delivers a part of the contents and then fails, the failure is never seen; the
value is reported as cut off. -/
theorem C76_der_failure_lost_violated (m : Build) (k : IoKind) (r : Script) :
    Der.parse m (.chunk [0x04, 0x03, 0x01] :: .fail k :: r) = (.err .unterminatedBytes, .fail k :: r) := by
  cases m <;> rfl

/-- C76 for `Der::parse`, the rest: a failure after a part of the contents is never reported, wherever in the contents it happens and
however the octets before are delivered.  The error is that the value is cut off, and the failure is still to come from the reader. -/
theorem C76_der_failure_exact (m : Build) (k : IoKind) (r s : Script) (id c c' : Bytes) (hid : IsId id) (hc : c ≠ []) (hc' : c' ≠ [])
    (hs : ChunksThen (.fail k :: r) s (id ++ lenOctets (c ++ c').length ++ c)) (hlen : (tlv id (c ++ c')).length ≤ isizeMax) :
    ∃ s' p, Der.parse m s = (.err .unterminatedBytes, s') ∧ ChunksThen (.fail k :: r) s' p := by
  have hi := isizeMax_eq
  have hu := usizeSize_eq
  have hl := hlen
  rw [tlv_length] at hl
  generalize hn : (c ++ c').length = n at *
  have hcn : c.length < n := by
    have := List.length_pos_iff.mpr hc'
    rw [← hn, List.length_append]; omega
  obtain ⟨h1, -⟩ := pass_parseIdLength (tail := .fail k :: r) s _ [] hs
  have hh := parseIdLength_definite hid (n := n) (by omega) c []
  obtain ⟨s1, h5, h6⟩ := h1 _ _ _ hh
  simp only [Der.parse]
  rw [h5]
  simp only
  have hw : ([] ++ id ++ lenOctets n).length = id.length + (lenOctets n).length := by simp
  simp only [hw]
  rw [uadd_ok (by omega), bufReserve, uadd_ok (by omega)]
  simp only [Res.bind_ok]
  rw [if_pos (by omega)]
  simp only [Res.pure_eq, Res.bind_ok]
  rw [if_pos (by omega)]
  simp only [Nat.add_sub_cancel_left]
  cases h6 with
  | nil => exact absurd rfl hc
  | cons x s' bs hx h7 =>
    rw [List.length_append] at hcn
    have hrd : Reader.read n (.chunk x :: s') = (.data x, s') := by
      change Script.read n (.chunk x :: s') = _
      rw [Script.read, if_pos (by omega)]
    rw [hrd]
    simp only
    rw [if_pos (by omega)]
    exact ⟨s', bs, rfl, h7⟩

example : ∃ s' p, Der.parse .release ([.chunk [0x04], .chunk [0x03, 0x01], .chunk [0x02], .fail .interrupted] : Script) =
    (.err .unterminatedBytes, s') ∧ ChunksThen [.fail .interrupted] s' p :=
  C76_der_failure_exact _ _ _ _ [0x04] [1, 2] [3] ⟨0, 0, 4, by decide, by decide, by decide +kernel⟩ (by decide) (by decide)
    (ChunksThen.cons [0x04] _ [0x03, 0x01, 0x02] (by decide) (ChunksThen.cons [0x03, 0x01] _ [0x02] (by decide)
      (ChunksThen.cons [0x02] _ [] (by decide) ChunksThen.nil))) (by decide)

/-! ### Interruptions -/

/-- C76 fails for interruptions (`ErrorKind::Interrupted`, to be retried according to `std::io::Read`): all four functions
give up if one happens between two octets of a header. -/
theorem C76_interrupted_violated (m : Build) :
    (Id.parse ([.chunk [0x1f], .fail .interrupted, .chunk [0x85, 0x01]] : Script)).1 = .err (.io .interrupted) ∧
    (Length.parse ([.chunk [0x81], .fail .interrupted, .chunk [0x80]] : Script)).1 = .err (.io .interrupted) ∧
    (Der.parse m ([.chunk [0x02], .fail .interrupted, .chunk [0x01], .chunk [0x05]] : Script)).1 = .err (.io .interrupted) ∧
    (Ber.parse m ([.chunk [0x02], .fail .interrupted, .chunk [0x01], .chunk [0x05]] : Script)).1 =
      .err (.io .interrupted) := by
  cases m <;> decide +kernel

/-- C76, the part that holds for interruptions (missing: those within a header): `Ber::parse` of a value of definite length
does not mind any number of interruptions of the contents. -/
theorem C76_interrupted_partial (m : Build) (s cs tail : Script) (id c : Bytes) (hid : IsId id)
    (hlen : (tlv id c).length ≤ isizeMax) (hs : ChunksThen cs s (id ++ lenOctets c.length))
    (hcs : InterruptedThen tail cs c) :
    ∃ s', Ber.parse m s = (.ok (tlv id c), s') ∧ scriptData s' = scriptData tail := by
  have hi := isizeMax_eq
  have hu := usizeSize_eq
  have hl := hlen
  rw [tlv_length] at hl
  obtain ⟨h1, _⟩ := pass_parseIdLength (tail := cs) s _ [] hs
  have hh := parseIdLength_definite hid (n := c.length) (by omega) [] []
  rw [List.append_nil] at hh
  obtain ⟨s1, h2, h3⟩ := h1 _ _ _ hh
  have hs1 : s1 = cs := by
    generalize hB : ([] : Bytes) = B at h3
    cases h3 with
    | nil => rfl
    | cons c' _ _ hc _ => exact absurd (List.append_eq_nil_iff.mp hB.symm).1 hc
  subst hs1
  obtain ⟨s2, h4, h5⟩ := readExactLoop_interrupted hcs (Reader.size s1 + c.length + 1) [] (by
    have : Reader.size s1 = Script.size s1 := rfl
    omega)
  rw [List.nil_append] at h4
  have hw : ([] ++ id ++ lenOctets c.length).length = id.length + (lenOctets c.length).length := by simp
  have hstep : (Ber.doParse (σ := Script) m).run s [] = (.ok (if tlv id c = BerRef.eoc then -1 else 0), s2, tlv id c) := by
    simp only [Ber.doParse, h2, hw]
    rw [bufReserve, uadd_ok (by omega)]
    simp only [Res.bind_ok]
    rw [if_pos (by omega)]
    simp only [Res.pure_eq, Res.bind_ok]
    rw [if_pos (by omega), Nat.add_sub_cancel_left]
    simp only [readExact, h4]
    have hsl : sliceFrom ([] ++ id ++ lenOctets c.length ++ c) ([] : Bytes).length = .ok (tlv id c) := by
      rw [sliceFrom, if_pos (by simp)]; simp [tlv]
    rw [hsl]
    simp [tlv]
  refine ⟨s2, ?_, h5⟩
  simp only [Ber.parse, Ber.parseLoop, P.bind_def, hstep, P.ite_apply, P.lift_apply, P.pure_apply]
  split_ifs <;> first | rfl | (exfalso; omega)

example : ∃ s', Ber.parse .debug ([.chunk [0x04, 0x03], .fail .interrupted, .chunk [1], .fail .interrupted, .fail .interrupted,
    .chunk [2, 3], .chunk [9]] : Script) = (.ok [0x04, 0x03, 1, 2, 3], s') ∧ scriptData s' = [9] :=
  C76_interrupted_partial .debug _ _ [.chunk [9]] [0x04] [1, 2, 3] ⟨0, 0, 4, by decide, by decide, by decide +kernel⟩
    (by decide) (ChunksThen.cons [0x04, 0x03] _ [] (by decide) ChunksThen.nil)
    (InterruptedThen.interrupt _ _ (InterruptedThen.cons [1] _ [2, 3] (by decide) (InterruptedThen.interrupt _ _
      (InterruptedThen.interrupt _ _ (InterruptedThen.cons [2, 3] _ [] (by decide) InterruptedThen.nil)))))

end Bsn1
