import Verif.Spec.Rule
import Verif.Props.Ber
import Verif.Props.Cut
/-!
# C114: values of indefinite length whose contents break the rule

`Ber::new_indefinite` and the methods that change contents take any octets.  The documentation (ber.rs:29-37,
ber_ref.rs:26-34) says two things about a value of indefinite length whose contents are not values ended by
end-of-contents: that the instance works fine, and that its octets can not be parsed as a BER again.
-/

namespace Bsn1
open Spec

/-! ### Lemmas -/

theorem indef_split {id x v rest : Bytes} (hid : IsId id) (hv : IsBer v) (e : id ++ indefOctets ++ x = v ++ rest) :
    ∃ k, RuleKept k ∧ v = id ++ indefOctets ++ k ∧ x = k ++ rest := by
  have h1 := parseIdUnchecked_shape ((isId_iff_shape _).mp hid) (indefOctets ++ x)
  have h2 := parseLengthUnchecked_indef x
  cases hv with
  | definite id' c hid' hc =>
    have h3 := parseIdUnchecked_shape ((isId_iff_shape _).mp hid') (lenOctets c.length ++ (c ++ rest))
    have e' : id ++ (indefOctets ++ x) = id' ++ (lenOctets c.length ++ (c ++ rest)) := by
      simpa [tlv] using e
    rw [e', h3] at h1
    simp only [Res.ok.injEq, Prod.mk.injEq] at h1
    rw [← h1.2, parseLengthUnchecked_lenOctets hc] at h2
    simp at h2
  | indefinite id' s hid' hs =>
    have h3 := parseIdUnchecked_shape ((isId_iff_shape _).mp hid') (indefOctets ++ (s ++ Spec.eoc ++ rest))
    have e' : id ++ (indefOctets ++ x) = id' ++ (indefOctets ++ (s ++ Spec.eoc ++ rest)) := by
      simpa using e
    rw [e', h3] at h1
    simp only [Res.ok.injEq, Prod.mk.injEq] at h1
    obtain ⟨rfl, h4⟩ := h1
    refine ⟨s ++ Spec.eoc, ⟨s, hs, rfl⟩, by simp, ?_⟩
    exact (List.append_cancel_left h4).symm

theorem Spec.RuleKept.isBer {id k : Bytes} (hid : IsId id) (h : RuleKept k) : IsBer (id ++ indefOctets ++ k) := by
  obtain ⟨s, hs, rfl⟩ := h
  rw [← List.append_assoc]
  exact IsBer.indefinite id s hid hs

/-- A run of values ended by end-of-contents ends in one place only. -/
theorem Spec.RuleKept.prefix_free {k k' x x' : Bytes} (h : RuleKept k) (h' : RuleKept k') (e : k ++ x = k' ++ x') : k = k' ∧ x = x' := by
  have hid : IsId [0x30] := ⟨0, 1, 16, by decide, by decide, by decide +kernel⟩
  obtain ⟨h1, h2⟩ := isBer_prefix_free (h.isBer hid) (h'.isBer hid)
    (show [0x30] ++ indefOctets ++ k ++ x = [0x30] ++ indefOctets ++ k' ++ x' by simp [e])
  exact ⟨List.append_cancel_left h1, h2⟩

/-! ### C114 -/

/-- C114, negation of "such octets can not be parsed as a BER again": the contents `00 00 05 00` break the rule (there is a NULL after
end-of-contents), and the octets of the value parse, to a shorter value. -/
theorem C114_reparse_violated (m : Build) (junk : Nat → UInt8) :
    ∃ d, Ber.newIndefinite m junk [0x30] [0x00, 0x00, 0x05, 0x00] = .ok d ∧ ¬ RuleKept [0x00, 0x00, 0x05, 0x00] ∧
      BerRef.parse d = (.ok [0x30, 0x80, 0x00, 0x00], [0x05, 0x00]) := by
  have hid : IsId [0x30] := ⟨0, 1, 16, by decide, by decide, by decide +kernel⟩
  refine ⟨_, newIndefinite_ok m junk hid _ (by decide +kernel), ?_, by decide +kernel⟩
  intro h
  have h' : RuleKept [0x00, 0x00] := ⟨[], BerSeq.nil, rfl⟩
  have := (h'.prefix_free h (x := [0x05, 0x00]) (x' := []) rfl).2
  simp at this

/-- C114, "the instance works fine", for all contents and all histories of changes: no panic, no undefined behaviour, the identifier and the
length octets stay, and the contents are those of a plain vector under the same history. -/
theorem C114_works (m : Build) (junk : Nat → UInt8) (id c : Bytes) (hid : IsId id)
    (ops : List ((Nat → UInt8) × ContentsOp)) (hfit : Fits (fun c => id.length + 1 + c.length) ops c) :
    ∃ d, (Ber.newIndefinite m junk id c).bind (runBer m ops) = .ok d ∧ BerRef.id d = .ok id ∧ BerRef.length d = .ok .indefinite ∧
      BerRef.contents d = .ok (runVec ops c) ∧ BerRef.disassemble d = .ok (id, .indefinite, runVec ops c) := by
  obtain ⟨d, h1, h2, h3, h4⟩ := C33_ber_history_indefinite m junk junk id c hid ops hfit
  have hd : d = id ++ indefOctets ++ runVec ops c := by
    rw [newIndefinite_ok m junk hid _ hfit.last] at h1
    simpa using h1.symm
  refine ⟨d, h2, ?_, h3, h4, ?_⟩
  · subst hd
    simp only [BerRef.id, List.append_assoc, parseIdUnchecked_shape ((isId_iff_shape _).mp hid)]
    rfl
  · subst hd; exact berDisassemble_indef hid _

/-- Contents without end-of-contents, which are then cut. -/
example (m : Build) (junk : Nat → UInt8) := C114_works m junk [0x30] [0x04, 0x01, 0x07] ⟨0, 1, 16, by decide, by decide, by decide +kernel⟩
  [(junk, .extend [0x05]), (junk, .truncate 1)] (by simp only [Fits, ContentsOp.vec]; decide +kernel)

/-- C114.  Whatever the contents, whatever the history, and whatever octets `t` come next: what `BerRef::parse` makes of the octets.  It
takes the identifier, the length and the contents up to the end-of-contents that ends the value, wherever that one is: inside the contents, at
their end, or in the octets that come next. -/
theorem C114_parse_iff (m : Build) (junk : Nat → UInt8) (id c t v rest : Bytes) (hid : IsId id)
    (ops : List ((Nat → UInt8) × ContentsOp)) (hfit : Fits (fun c => id.length + 1 + c.length) ops c)
    (ht : id.length + 1 + (runVec ops c).length + t.length ≤ isizeMax) :
    ∃ d, (Ber.newIndefinite m junk id c).bind (runBer m ops) = .ok d ∧
      (BerRef.parse (d ++ t) = (.ok v, rest) ↔
        ∃ k, RuleKept k ∧ v = id ++ indefOctets ++ k ∧ runVec ops c ++ t = k ++ rest) := by
  obtain ⟨d, h1, h2, -, -⟩ := C33_ber_history_indefinite m junk junk id c hid ops hfit
  have hd : d = id ++ indefOctets ++ runVec ops c := by
    rw [newIndefinite_ok m junk hid _ hfit.last] at h1
    simpa using h1.symm
  subst hd
  have hl : (id ++ indefOctets ++ runVec ops c ++ t).length ≤ isizeMax := by
    simp only [List.length_append, indefOctets, List.length_cons, List.length_nil]; omega
  refine ⟨_, h2, ?_⟩
  rw [C29_ber_parse_iff _ _ _ hl]
  constructor
  · rintro ⟨hv, e⟩
    rw [List.append_assoc _ _ t] at e
    exact indef_split hid hv e
  · rintro ⟨k, hk, rfl, e⟩
    exact ⟨hk.isBer hid, by rw [List.append_assoc _ _ t, e]; simp⟩

/-- The end-of-contents is in the octets that come next. -/
example (m : Build) (junk : Nat → UInt8) := C114_parse_iff m junk [0x30] [0x05, 0x00] [0x00, 0x00, 0x99] [0x30, 0x80, 0x05, 0x00, 0x00, 0x00] [0x99]
  ⟨0, 1, 16, by decide, by decide, by decide +kernel⟩ [] (by simp only [Fits]; decide +kernel) (by simp only [runVec]; decide +kernel)

/-- C114.  The octets parse back to the whole value if and only if the contents keep the rule. -/
theorem C114_whole_iff (m : Build) (junk : Nat → UInt8) (id c : Bytes) (hid : IsId id)
    (ops : List ((Nat → UInt8) × ContentsOp)) (hfit : Fits (fun c => id.length + 1 + c.length) ops c) :
    ∃ d, (Ber.newIndefinite m junk id c).bind (runBer m ops) = .ok d ∧
      (BerRef.parse d = (.ok d, []) ↔ RuleKept (runVec ops c)) := by
  obtain ⟨d, h1, h2, -, -⟩ := C33_ber_history_indefinite m junk junk id c hid ops hfit
  have hd : d = id ++ indefOctets ++ runVec ops c := by
    rw [newIndefinite_ok m junk hid _ hfit.last] at h1
    simpa using h1.symm
  have hend := hfit.last
  refine ⟨d, h2, ?_⟩
  obtain ⟨d', h3, h4⟩ := C114_parse_iff m junk id c [] d [] hid ops hfit (by simpa using hend)
  obtain rfl : d = d' := by rw [h2] at h3; simpa using h3
  rw [List.append_nil] at h4
  rw [h4]
  constructor
  · rintro ⟨k, hk, -, e⟩
    simp only [List.append_nil] at e
    rwa [e]
  · intro h
    exact ⟨_, h, hd, by simp⟩

example (m : Build) (junk : Nat → UInt8) := C114_whole_iff m junk [0x30] [0x05, 0x00] ⟨0, 1, 16, by decide, by decide, by decide +kernel⟩
  [(junk, .extend [0x00, 0x00])] (by simp only [Fits, ContentsOp.vec]; decide +kernel)

/-- C114, the part of "can not be parsed again" that holds (missing: contents that keep the rule up to some place and go on behind it): the octets
are refused if and only if no beginning of the contents keeps the rule. -/
theorem C114_refused_partial (m : Build) (junk : Nat → UInt8) (id c : Bytes) (hid : IsId id)
    (ops : List ((Nat → UInt8) × ContentsOp)) (hfit : Fits (fun c => id.length + 1 + c.length) ops c) :
    ∃ d, (Ber.newIndefinite m junk id c).bind (runBer m ops) = .ok d ∧
      ((∃ e, (BerRef.parse d).1 = .err e) ↔ ∀ x, ¬ RuleKeptUpTo (runVec ops c) x) := by
  obtain ⟨d, h1, h2, -, -⟩ := C33_ber_history_indefinite m junk junk id c hid ops hfit
  have hd : d = id ++ indefOctets ++ runVec ops c := by
    rw [newIndefinite_ok m junk hid _ hfit.last] at h1
    simpa using h1.symm
  have hend := hfit.last
  subst hd
  refine ⟨_, h2, ?_⟩
  rw [C29_ber_parse_err_iff _ (by simp only [List.length_append, indefOctets, List.length_cons, List.length_nil]; omega)]
  constructor
  · rintro h x ⟨k, hk, e⟩
    exact h (id ++ indefOctets ++ k) x (hk.isBer hid) (by rw [e]; simp)
  · intro h v rest hv e
    obtain ⟨k, hk, -, e'⟩ := indef_split hid hv e
    exact h rest ⟨k, hk, e'⟩

example (m : Build) (junk : Nat → UInt8) := C114_refused_partial m junk [0x30] [0x05, 0x00] ⟨0, 1, 16, by decide, by decide, by decide +kernel⟩
  [] (by simp only [Fits]; decide +kernel)

/-- C114.  Adding octets to a value that keeps the rule always breaks it, and never shows: the octets parse to the value as it was, and what was
added is left over. -/
theorem C114_extend (m : Build) (junk junk' : Nat → UInt8) (id c x : Bytes) (hid : IsId id) (hc : RuleKept c) (hx : x ≠ [])
    (hfit : id.length + 1 + c.length + x.length ≤ isizeMax) :
    ∃ d d', Ber.newIndefinite m junk id c = .ok d ∧ Ber.extendFromSlice m junk' d x = .ok d' ∧ ¬ RuleKept (c ++ x) ∧
      BerRef.contents d' = .ok (c ++ x) ∧ BerRef.parse d' = (.ok d, x) := by
  have hf : Fits (fun c => id.length + 1 + c.length) [(junk', ContentsOp.extend x)] c := by
    simp only [Fits, ContentsOp.vec, List.length_append]
    omega
  have h1 := newIndefinite_ok m junk hid c (by omega)
  obtain ⟨d', h2, h3⟩ := C114_parse_iff m junk id c [] (id ++ indefOctets ++ c) x hid _ hf
    (by simp only [runVec, ContentsOp.vec, List.length_append, List.length_nil]; omega)
  obtain ⟨d'', h4, -, -, h5, -⟩ := C114_works m junk id c hid _ hf
  obtain rfl : d' = d'' := by rw [h2] at h4; simpa using h4
  rw [h1] at h2
  simp only [Res.bind, runBer, ContentsOp.ber, Res.bind_ok] at h2
  refine ⟨_, d', h1, ?_, ?_, h5, ?_⟩
  · cases h : Ber.extendFromSlice m junk' (id ++ indefOctets ++ c) x with
    | ok y => rw [h] at h2; simpa [Res.bind] using h2
    | err e => rw [h] at h2; simp [Res.bind] at h2
    | panic => rw [h] at h2; simp [Res.bind] at h2
    | ub => rw [h] at h2; simp [Res.bind] at h2
  · intro h
    exact hx (hc.prefix_free h (x := x) (x' := []) (by simp)).2
  · rw [List.append_nil] at h3
    exact h3.mpr ⟨c, hc, rfl, by simp [runVec, ContentsOp.vec]⟩

/-- C114.  Cutting the contents of a value that keeps the rule always breaks it, and always shows: the octets are refused as unterminated. -/
theorem C114_truncate (m : Build) (junk : Nat → UInt8) (id c : Bytes) (n : Nat) (hid : IsId id) (hc : RuleKept c) (hn : n < c.length)
    (hfit : id.length + 1 + c.length ≤ isizeMax) :
    ∃ d d', Ber.newIndefinite m junk id c = .ok d ∧ Ber.truncate m d n = .ok d' ∧ ¬ RuleKept (c.take n) ∧
      BerRef.contents d' = .ok (c.take n) ∧ (BerRef.parse d').1 = .err .unterminatedBytes := by
  have hf : Fits (fun c => id.length + 1 + c.length) [(junk, ContentsOp.truncate n)] c := by
    simp only [Fits, ContentsOp.vec, List.length_take]
    omega
  have h1 := newIndefinite_ok m junk hid c (by omega)
  obtain ⟨d', h2, -, -, h5, h6⟩ := C114_works m junk id c hid _ hf
  obtain ⟨d'', h3, h4, -⟩ := C33_ber_history_indefinite m junk junk id c hid _ hf
  obtain rfl : d' = d'' := by rw [h2] at h4; simpa using h4
  have hd : d' = id ++ indefOctets ++ c.take n := by
    rw [newIndefinite_ok m junk hid _ hf.last] at h3
    simpa [runVec, ContentsOp.vec] using h3.symm
  rw [h1] at h2
  simp only [Res.bind, runBer, ContentsOp.ber, Res.bind_ok] at h2
  refine ⟨_, d', h1, ?_, ?_, h5, ?_⟩
  · cases h : Ber.truncate m (id ++ indefOctets ++ c) n with
    | ok y => rw [h] at h2; simpa [Res.bind] using h2
    | err e => rw [h] at h2; simp [Res.bind] at h2
    | panic => rw [h] at h2; simp [Res.bind] at h2
    | ub => rw [h] at h2; simp [Res.bind] at h2
  · intro h
    have := (h.prefix_free hc (x := c.drop n) (x' := []) (by simp)).2
    rw [List.drop_eq_nil_iff] at this
    omega
  · have hl : d'.length ≤ isizeMax := by
      rw [hd]; simp only [List.length_append, indefOctets, List.length_cons, List.length_nil, List.length_take]; omega
    refine (C71_ber_unterminated d' hl).mpr (Or.inl ⟨c.drop n, ?_, ?_⟩)
    · rw [Ne, List.drop_eq_nil_iff]; omega
    · rw [hd, List.append_assoc _ (c.take n), List.take_append_drop]
      exact hc.isBer hid

/-! ### Concrete cases -/

/-- Contents that keep the rule: a NULL, an indefinite value, end-of-contents. -/
theorem ruleKept_sample : RuleKept [0x05, 0x00, 0x24, 0x80, 0x00, 0x00, 0x00, 0x00] := by
  refine ⟨[0x05, 0x00] ++ ([0x24, 0x80, 0x00, 0x00] ++ []), ?_, rfl⟩
  refine BerSeq.cons _ _ (IsBer.definite [0x05] [] ⟨0, 0, 5, by decide, by decide, by decide +kernel⟩ (by decide)) (by decide) ?_
  exact BerSeq.cons _ _ (IsBer.indefinite [0x24] [] ⟨0, 1, 4, by decide, by decide, by decide +kernel⟩ BerSeq.nil) (by decide) BerSeq.nil

/-- The hypotheses of `C114_works`, `C114_parse_iff`, `C114_whole_iff` and `C114_refused_partial`: a history that breaks the rule and mends it. -/
example : Fits (fun c => ([0x30] : Bytes).length + 1 + c.length)
    [(fun _ => 1, .truncate 3), (fun _ => 2, .push 0xff), (fun _ => 3, .truncate 2), (fun _ => 4, .extend [0x00, 0x00])]
    [0x05, 0x00, 0x24, 0x80, 0x00, 0x00, 0x00, 0x00] ∧
    runVec [(fun _ => 1, .truncate 3), (fun _ => 2, .push 0xff), (fun _ => 3, .truncate 2), (fun _ => 4, .extend [0x00, 0x00])]
      ([0x05, 0x00, 0x24, 0x80, 0x00, 0x00, 0x00, 0x00] : Bytes) = [0x05, 0x00, 0x00, 0x00] := by
  constructor
  · simp only [Fits]; decide +kernel
  · decide +kernel

/-- A value without end-of-contents takes the next value of a stream into itself, up to an end-of-contents it finds there. -/
example : BerRef.parse ([0x30, 0x80, 0x05, 0x00] ++ [0x02, 0x01, 0x07] ++ [0x00, 0x00] ++ [0x01]) =
    (.ok [0x30, 0x80, 0x05, 0x00, 0x02, 0x01, 0x07, 0x00, 0x00], [0x01]) := by decide +kernel

example := C114_extend .release (fun _ => 1) (fun _ => 2) [0x30] _ [0x05, 0x00] ⟨0, 1, 16, by decide, by decide, by decide +kernel⟩
  ruleKept_sample (by decide) (by decide +kernel)

example := C114_truncate .debug (fun _ => 1) [0x30] _ 6 ⟨0, 1, 16, by decide, by decide, by decide +kernel⟩
  ruleKept_sample (by decide) (by decide +kernel)

end Bsn1
