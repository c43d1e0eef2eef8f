import Verif.Lemmas.Cut
import Verif.Model.De
import Verif.Props.Id
import Verif.Props.Der
import Verif.Props.Ber
/-!
# C71: input that is cut off

A caller that collects octets from somewhere wants to know whether to wait for more octets (`UnterminatedBytes`) or to
give up (any other error).
-/

namespace Bsn1
open Spec

/-! ### Identifiers and lengths -/

/-- C71.  `IdRef::parse` reports `UnterminatedBytes` exactly on the proper prefixes of identifiers. -/
theorem C71_id_unterminated (bs : Bytes) :
    (IdRef.parse bs).1 = .err .unterminatedBytes ↔ Completable IsId bs := by
  have hc := parseId_cut bs []
  constructor
  · intro h
    simp only [IdRef.parse] at h
    generalize (parseId (σ := Bytes)).run bs [] = r at hc h
    cases hc with
    | ok l rest h1 h2 => simp [h2, sliceTo] at h
    | cut w' h1 => exact h1
    | final rest w' h1 => simp at h
  · rintro ⟨t, h1, h2⟩
    have ht := parseId_shape ((isId_iff_shape _).mp h2) [] []
    rw [List.append_nil] at ht
    simp only [IdRef.parse]
    generalize (parseId (σ := Bytes)).run bs [] = r at hc
    cases hc with
    | ok l rest h3 h4 =>
      exfalso
      have h5 := parseId_shape ((isId_iff_shape _).mp h3) (rest ++ t) []
      rw [← List.append_assoc, ← h4, ht] at h5
      simp only [Prod.mk.injEq] at h5
      have := congrArg List.length h5.2.1
      simp at this
      exact h1 (List.length_eq_zero_iff.mp (by omega))
    | cut w' h3 => rfl
    | final rest w' h3 =>
      have := h3 t []
      rw [ht] at this
      simp at this

example : Completable IsId [0x1f, 0x81, 0x82] := (C71_id_unterminated _).1 (by decide +kernel)

/-- C71.  Any other error of `IdRef::parse` is final: it is the same whatever follows. -/
theorem C71_id_final (bs t : Bytes) (e : Error) (h : (IdRef.parse bs).1 = .err e) (he : e ≠ .unterminatedBytes) :
    (IdRef.parse (bs ++ t)).1 = .err e := by
  have hc := parseId_cut bs []
  simp only [IdRef.parse] at h
  generalize (parseId (σ := Bytes)).run bs [] = r at hc h
  cases hc with
  | ok l rest h1 h2 => simp [h2, sliceTo] at h
  | cut w' h1 => simp at h; exact absurd h.symm he
  | final rest w' h1 =>
    simp only [Res.err.injEq] at h
    subst h
    have := h1 t []
    simp only [IdRef.parse]
    generalize (parseId (σ := Bytes)).run (bs ++ t) [] = r at this
    obtain ⟨r1, r2, r3⟩ := r
    simp only at this
    subst this
    rfl

example (t : Bytes) : (IdRef.parse ([0x1f, 0x80] ++ t)).1 = .err .redundantBytes := C71_id_final _ t _ (by decide +kernel) (by decide)

/-- C71.  `Length::parse` reports `UnterminatedBytes` exactly on the proper prefixes of lengths, and on a single octet
announcing more than eight octets (which can never be completed, as the error after one more octet is another one). -/
theorem C71_length_unterminated (bs : Bytes) :
    (Length.parse bs).1 = .err .unterminatedBytes ↔
      Completable IsLen bs ∨ ∃ b : UInt8, 136 < b.toNat ∧ bs = [b] := by
  have hc := parseLength_cut bs []
  simp only [Length.parse]
  constructor
  · intro h
    generalize (parseLength (σ := Bytes)).run bs [] = r at hc h
    cases hc with
    | definite n rest h1 h2 => simp at h
    | indefinite rest h1 => simp at h
    | cut n t rest w' h1 h2 h3 h4 => exact Or.inl ⟨t, h1, Or.inr ⟨n, h3, h4⟩⟩
    | wide b rest w' h1 h2 => exact Or.inr ⟨b, h1, h2⟩
    | final e rest w' h1 h2 => simp at h; exact absurd h h1
  · rintro (⟨t, h1, h2⟩ | ⟨b, h1, rfl⟩)
    · have ht : ∃ l w, (parseLength (σ := Bytes)).run (bs ++ t) [] = (.ok l, [], w) := by
        rcases h2 with h2 | ⟨n, h2, h3⟩
        · rw [h2]; exact ⟨_, _, parseLength_indef [] []⟩
        · have := parseLength_lenOctets h2 [] []
          rw [List.append_nil] at this
          rw [h3]; exact ⟨_, _, this⟩
      obtain ⟨l, w, ht⟩ := ht
      generalize (parseLength (σ := Bytes)).run bs [] = r at hc
      cases hc with
      | definite n rest h3 h4 =>
        exfalso
        rw [h4, List.append_assoc, parseLength_lenOctets h3] at ht
        simp at ht
        exact h1 ht.2.1.2
      | indefinite rest h3 =>
        exfalso
        rw [h3, indefOctets, List.append_assoc, List.cons_append, List.nil_append, parseLength_indef] at ht
        simp at ht
        exact h1 ht.2.1.2
      | cut n t rest w' h1 h2 h3 h4 => rfl
      | wide b rest w' h1 h2 => rfl
      | final e rest w' h3 h4 =>
        have := h4 t []
        rw [ht] at this
        simp at this
    · rw [parseLength_long_nil b [] (by omega)]

example : Completable IsLen [0x82, 0x01] := ((C71_length_unterminated _).1 (by decide +kernel)).resolve_right (by simp)

/-- C71.  Any other error of `Length::parse` is final. -/
theorem C71_length_final (bs t : Bytes) (e : Error) (h : (Length.parse bs).1 = .err e) (he : e ≠ .unterminatedBytes) :
    (Length.parse (bs ++ t)).1 = .err e := by
  have hc := parseLength_cut bs []
  simp only [Length.parse] at h ⊢
  generalize (parseLength (σ := Bytes)).run bs [] = r at hc h
  cases hc with
  | definite n rest h1 h2 => simp at h
  | indefinite rest h1 => simp at h
  | cut n t rest w' h1 h2 h3 h4 => simp at h; exact absurd h.symm he
  | wide b rest w' h1 h2 => simp at h; exact absurd h.symm he
  | final e rest w' h1 h2 =>
    simp only [Res.err.injEq] at h
    subst h
    exact h2 t []

example : Completable IsId [0xbf, 0xff, 0x80] ∧ ¬ Completable IsId [0xbf, 0x80] := by
  constructor
  · exact ⟨[0x01], by simp, ⟨2, 1, 127 * 128 * 128 + 1, by decide, by decide, by decide +kernel⟩⟩
  · rw [← C71_id_unterminated]; decide +kernel
example : Completable IsLen [0x83, 0x12] := ⟨[0x00, 0x01], by simp, Or.inr ⟨0x120001, by norm_num, by decide +kernel⟩⟩
/-- An octet announcing nine further octets is not the beginning of a length. -/
example : (Length.parse ([0x89] : Bytes)).1 = .err .unterminatedBytes ∧
    ∀ b t, ∃ e, (Length.parse ((0x89 : UInt8) :: b :: t)).1 = .err e ∧ e ≠ .unterminatedBytes := by
  refine ⟨by decide +kernel, fun b t => ?_⟩
  simp only [Length.parse]
  by_cases hb : b.toNat = 0
  · exact ⟨.redundantBytes, by rw [parseLength_long_zero _ b t [] (by decide) hb], by simp⟩
  · exact ⟨.overFlow, by rw [parseLength_long_over _ b t [] (by decide) hb], by simp⟩

/-! ### DER -/

/-- C71.  `DerRef::parse` reports `UnterminatedBytes` exactly on the proper prefixes of values, and on an identifier
followed by one length octet announcing more than eight octets. -/
theorem C71_der_unterminated (bs : Bytes) :
    (DerRef.parse bs).1 = .err .unterminatedBytes ↔ Completable IsDer bs ∨ WideLength bs := by
  have hc := doParse_cut bs
  constructor
  · intro h
    simp only [DerRef.parse] at h
    generalize DerRef.doParse bs = r at hc h
    cases hc with
    | ok id c rest h1 h2 h3 => simp [h3, sliceTo] at h
    | cut id c t rest h1 h2 h3 h4 h5 => exact Or.inl ⟨t, h1, id, c, h2, h4, h5⟩
    | wide rest h1 => exact Or.inr h1
    | final e rest h1 h2 => simp at h; exact absurd h h1
  · rintro (⟨t, h1, id, c, h2, h3, h4⟩ | hw)
    · have ht := doParse_tlv h2 h3 []
      rw [List.append_nil, ← h4] at ht
      simp only [DerRef.parse]
      generalize DerRef.doParse bs = r at hc
      cases hc with
      | ok id' c' rest h5 h6 h7 =>
        exfalso
        have h8 := doParse_tlv h5 h6 (rest ++ t)
        rw [← List.append_assoc, ← h7, ht] at h8
        simp at h8
        exact h1 h8.2
      | cut => rfl
      | wide => rfl
      | final e rest h5 h6 =>
        have := h6 t
        rw [ht] at this
        simp at this
    · obtain ⟨id, b, h1, h2, rfl⟩ := hw
      have hrun : (parseIdLength (σ := Bytes)).run (id ++ [b]) [] = (.err .unterminatedBytes, [], [] ++ id ++ [b]) := by
        simp only [parseIdLength, P.bind_def, parseId_shape ((isId_iff_shape _).mp h1)]
        rw [parseLength_long_nil b _ (by omega)]
      simp only [DerRef.parse, DerRef.doParse, hrun]

example : (DerRef.parse [0x30, 0x03, 0x02]).1 = .err .unterminatedBytes :=
  (C71_der_unterminated _).2 (.inl ⟨[0x01, 0x05], by simp, [0x30], [0x02, 0x01, 0x05], ⟨0, 1, 16, by decide, by decide, by decide +kernel⟩,
    by decide, by decide +kernel⟩)

/-- C71.  Any other error of `DerRef::parse` is final. -/
theorem C71_der_final (bs t : Bytes) (e : Error) (h : (DerRef.parse bs).1 = .err e) (he : e ≠ .unterminatedBytes) :
    (DerRef.parse (bs ++ t)).1 = .err e := by
  have hc := doParse_cut bs
  simp only [DerRef.parse] at h
  generalize DerRef.doParse bs = r at hc h
  cases hc with
  | ok id c rest h1 h2 h3 => simp [h3, sliceTo] at h
  | cut id c t rest h1 h2 h3 h4 h5 => simp at h; exact absurd h.symm he
  | wide rest h1 => simp at h; exact absurd h.symm he
  | final e rest h1 h2 =>
    simp only [Res.err.injEq] at h
    subst h
    have := h2 t
    simp only [DerRef.parse]
    generalize DerRef.doParse (bs ++ t) = r at this
    obtain ⟨r1, r2⟩ := r
    simp only at this
    subst this
    rfl

example (t : Bytes) : (DerRef.parse ([0x30, 0x81, 0x05] ++ t)).1 = .err .redundantBytes := C71_der_final _ t _ (by decide +kernel) (by decide)

/-- C71.  The octets after a first length octet announcing too much make it another error: no continuation of such an
input is accepted. -/
theorem C71_wide_length_never (bs t : Bytes) (h : WideLength bs) :
    ¬ Completable IsDer bs ∧
      (t ≠ [] → ∃ e, e ≠ .unterminatedBytes ∧ (DerRef.parse (bs ++ t)).1 = .err e) := by
  obtain ⟨id, b, h1, h2, rfl⟩ := h
  have key : ∀ t, t ≠ [] → ∃ e, e ≠ Error.unterminatedBytes ∧ (DerRef.parse (id ++ [b] ++ t)).1 = .err e := by
    intro t ht
    cases t with
    | nil => exact absurd rfl ht
    | cons s r =>
      by_cases hs : s.toNat = 0
      · refine ⟨.redundantBytes, by simp, ?_⟩
        have hrun : (parseIdLength (σ := Bytes)).run (id ++ [b] ++ s :: r) [] =
            (.err .redundantBytes, r, [] ++ id ++ [b]) := by
          simp only [parseIdLength, P.bind_def, List.append_assoc, parseId_shape ((isId_iff_shape _).mp h1)]
          rw [List.cons_append, List.nil_append, parseLength_long_zero b s r _ (by omega) hs]
          simp
        simp only [DerRef.parse, DerRef.doParse, hrun]
      · refine ⟨.overFlow, by simp, ?_⟩
        have hrun : (parseIdLength (σ := Bytes)).run (id ++ [b] ++ s :: r) [] =
            (.err .overFlow, r, [] ++ id ++ [b, s]) := by
          simp only [parseIdLength, P.bind_def, List.append_assoc, parseId_shape ((isId_iff_shape _).mp h1)]
          rw [List.cons_append, List.nil_append, parseLength_long_over b s r _ h2 hs]
          simp
        simp only [DerRef.parse, DerRef.doParse, hrun]
  refine ⟨?_, key t⟩
  rintro ⟨u, hu, hd⟩
  obtain ⟨e, _, he⟩ := key u hu
  have := (C19_der_parse_iff (id ++ [b] ++ u) (id ++ [b] ++ u) []).mpr ⟨hd, by simp⟩
  rw [this] at he
  simp at he

example : ¬ Completable IsDer [0x04, 0x89] :=
  (C71_wide_length_never [0x04, 0x89] [] ⟨[0x04], 0x89, ⟨0, 0, 4, by decide, by decide, by decide +kernel⟩, by decide, rfl⟩).1

/-- C71.  Through `parse_der` of any type: an input cut off anywhere inside of its value is reported as such, whatever the
type expects. -/
theorem C71_parse_der {α : Type} (d : De α) (v : Bytes) (hv : IsDer v) (p t : Bytes) (ht : t ≠ []) (h : v = p ++ t) :
    (parseDer d p).1 = .err .unterminatedBytes := by
  have := (C71_der_unterminated p).mpr (Or.inl ⟨t, ht, h ▸ hv⟩)
  simp only [parseDer]
  generalize DerRef.parse p = r at this
  obtain ⟨r1, r2⟩ := r
  simp only at this
  subst this
  rfl

example : IsDer [0x30, 0x03, 0x02, 0x01, 0x05] ∧ Completable IsDer [0x30, 0x03, 0x02] := by
  have h : IsDer [0x30, 0x03, 0x02, 0x01, 0x05] :=
    ⟨[0x30], [0x02, 0x01, 0x05], ⟨0, 1, 16, by decide, by decide, by decide +kernel⟩, by decide, by decide +kernel⟩
  exact ⟨h, [0x01, 0x05], by simp, h⟩
/-- An error that is final: an indefinite length in DER. -/
example : (DerRef.parse [0x30, 0x80]).1 = .err .indefiniteLength := by decide +kernel

/-! ### BER -/

/-- C71.  `BerRef::parse` reports `UnterminatedBytes` exactly on the proper prefixes of values, and on input that ends,
where a header is due, with an identifier and one length octet announcing more than eight octets. -/
theorem C71_ber_unterminated (bs : Bytes) (hlen : bs.length ≤ isizeMax) :
    (BerRef.parse bs).1 = .err .unterminatedBytes ↔ Completable IsBer bs ∨ WideLengthWithin bs := by
  have hc := parseLoop_cut (bs.length + 1) 0 bs (by omega) (by omega)
  simp only [Nat.cast_zero] at hc
  constructor
  · intro h
    rcases hc with ⟨rest, h1, h2⟩ | ⟨rest, h1, h2⟩ | ⟨e, rest, h1, h2, h3, _⟩
    · obtain ⟨v, hv, rfl⟩ := (runs_iff _ _).mp h2
      rw [BerRef_parse_ok hv hlen] at h
      simp at h
    · rcases h2 with ⟨t, h2, h3⟩ | ⟨p, q, d', h2, h3, h4⟩
      · obtain ⟨v, hv, e⟩ := (runs_iff _ _).mp h3
        rw [List.append_nil] at e
        exact Or.inl ⟨t, h2, e ▸ hv⟩
      · exact Or.inr ⟨p, q, d', h2, h3, h4⟩
    · rw [parse_eq_loop_err h2] at h
      simp at h
      exact absurd h h1
  · rintro (⟨t, h1, h2⟩ | ⟨p, q, d, h1, h2, rfl⟩)
    · rcases hc with ⟨rest, h3, h4⟩ | ⟨rest, h3, h4⟩ | ⟨e, rest, h3, h4, h5, _⟩
      · exfalso
        obtain ⟨v, hv, rfl⟩ := (runs_iff _ _).mp h4
        have e : (v ++ rest ++ t) ++ [] = v ++ (rest ++ t) := by simp
        have := (isBer_prefix_free h2 hv e).2
        simp at this
        exact h1 this.2
      · rw [parse_eq_loop_err h3]
      · exfalso
        exact h5 t [] ((runs_iff _ _).mpr ⟨bs ++ t, h2, by simp⟩)
    · exact parse_loop_err (parseLoop_due h1 q _ h2 (by omega) (by omega))

/-- Closed by nothing: a value of indefinite length with one element, and the first of the two closing octets. -/
example : (BerRef.parse [0x30, 0x80, 0x02, 0x01, 0x05, 0x00]).1 = .err .unterminatedBytes := by decide +kernel

/-- C71.  Any other error of `BerRef::parse` is final. -/
theorem C71_ber_final (bs t : Bytes) (e : Error) (hlen : (bs ++ t).length ≤ isizeMax)
    (h : (BerRef.parse bs).1 = .err e) (he : e ≠ .unterminatedBytes) : (BerRef.parse (bs ++ t)).1 = .err e := by
  have hl : bs.length ≤ isizeMax := by rw [List.length_append] at hlen; omega
  have hc := parseLoop_cut (bs.length + 1) 0 bs (by omega) (by omega)
  simp only [Nat.cast_zero] at hc
  rcases hc with ⟨rest, h1, h2⟩ | ⟨rest, h1, h2⟩ | ⟨e', rest, h1, h2, h3, h4⟩
  · obtain ⟨v, hv, rfl⟩ := (runs_iff _ _).mp h2
    rw [BerRef_parse_ok hv hl] at h
    simp at h
  · rw [parse_eq_loop_err h1] at h
    simp at h
    exact absurd h.symm he
  · rw [parse_eq_loop_err h2] at h
    simp only [Res.err.injEq] at h
    subst h
    exact parse_loop_err (h4 t _ (by omega) (by omega))

example : (BerRef.parse ([0x30, 0x80, 0x04, 0x81, 0x05] ++ [0x07, 0x00, 0x00])).1 = .err .redundantBytes :=
  C71_ber_final _ _ _ (by decide +kernel) (by decide +kernel) (by decide)

/-- C71.  The exception cannot be completed either. -/
theorem C71_ber_wide_length_never (bs : Bytes) (h : WideLengthWithin bs) : ¬ Completable IsBer bs := by
  obtain ⟨p, q, d, h1, h2, rfl⟩ := h
  rintro ⟨t, ht, hv⟩
  have hr := (runs_iff (p ++ q ++ t) []).mpr ⟨_, hv, by simp⟩
  rw [List.append_assoc] at hr
  exact due_wide_not_runs h1 h2 ht [] hr

example : ¬ Completable IsBer [0x04, 0x89] :=
  C71_ber_wide_length_never _ ⟨[], [0x04, 0x89], 0, Due.nil 0, ⟨[0x04], 0x89, ⟨0, 0, 4, by decide, by decide, by decide +kernel⟩, by decide, rfl⟩, rfl⟩

/-- C71.  Through `parse_ber` of any type. -/
theorem C71_parse_ber {α : Type} (d : De α) (v : Bytes) (hv : IsBer v) (p t : Bytes) (ht : t ≠ []) (h : v = p ++ t)
    (hlen : p.length ≤ isizeMax) : (parseBer d p).1 = .err .unterminatedBytes := by
  have := (C71_ber_unterminated p hlen).mpr (Or.inl ⟨t, ht, h ▸ hv⟩)
  simp only [parseBer]
  generalize BerRef.parse p = r at this
  obtain ⟨r1, r2⟩ := r
  simp only at this
  subst this
  rfl

/-- The value `30 80 02 01 05 00 00`, cut inside of the closing octets; and an input of the exceptional kind,
`30 80 02 01 05 04 89`. -/
example : Completable IsBer [0x30, 0x80, 0x02, 0x01, 0x05, 0x00] ∧
    WideLengthWithin [0x30, 0x80, 0x02, 0x01, 0x05, 0x04, 0x89] := by
  have h2 : IsId [0x02] := ⟨0, 0, 2, by decide, by decide, by decide +kernel⟩
  have h4 : IsId [0x04] := ⟨0, 0, 4, by decide, by decide, by decide +kernel⟩
  have h30 : IsId [0x30] := ⟨0, 1, 16, by decide, by decide, by decide +kernel⟩
  have e : tlv [0x02] [0x05] = [0x02, 0x01, 0x05] := by decide +kernel
  constructor
  · refine ⟨[0x00], by simp, ?_⟩
    have hs : BerSeq (tlv [0x02] [0x05] ++ []) :=
      BerSeq.cons _ _ (IsBer.definite [0x02] [0x05] h2 (by decide)) (by rw [e]; decide) BerSeq.nil
    have := IsBer.indefinite [0x30] _ h30 hs
    rwa [e] at this
  · refine ⟨[0x30, 0x80, 0x02, 0x01, 0x05], [0x04, 0x89], 1, ?_, ⟨[0x04], 0x89, h4, by decide, rfl⟩, rfl⟩
    have := Due.open 0 1 [0x30] _ h30 (Due.skip 1 1 [0x02] [0x05] [] (by omega) h2 (by decide) (by rw [e]; decide) (Due.nil 1))
    rwa [e] at this

end Bsn1
