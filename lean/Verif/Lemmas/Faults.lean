import Verif.Spec.Faults
import Verif.Lemmas.Failures
import Verif.Lemmas.Trap
import Verif.Lemmas.Rec
import Verif.Props.Length
import Verif.Props.Cut
/-!
# Which error decoding reports
-/

namespace Bsn1
open Spec

variable {α β γ : Type}

/-! ### Headers -/

theorem parseId_err_iff (bs w : Bytes) (e : Error) : ((parseId (σ := Bytes)).run bs w).1 = .err e ↔ IdFault bs e := by
  constructor
  · intro h
    have hs := parseId_spec bs w
    have hc := parseId_cut bs w
    generalize (parseId (σ := Bytes)).run bs w = r at hs hc h
    cases hs with
    | ok l rest h1 h2 => cases h
    | redundant b o r h1 h2 h3 => cases h; rw [h1]; exact .redundant b o r h2 h3
    | unterminated w' h1 h2 =>
      cases h
      cases hc with
      | cut w' h1 => exact .cut bs h1
  · intro h
    cases h with
    | cut _ h =>
      obtain ⟨t, h1, h2⟩ := h
      have ht := parseId_shape ((isId_iff_shape _).mp h2) [] w
      rw [List.append_nil] at ht
      have hc := parseId_cut bs w
      generalize (parseId (σ := Bytes)).run bs w = r at hc
      cases hc with
      | ok l rest h3 h4 =>
        exfalso
        have h5 := parseId_shape ((isId_iff_shape _).mp h3) (rest ++ t) w
        rw [← List.append_assoc, ← h4, ht] at h5
        simp only [Prod.mk.injEq] at h5
        have := congrArg List.length h5.2.1
        simp at this
        exact h1 (List.length_eq_zero_iff.mp (by omega))
      | cut w' h3 => rfl
      | final rest w' h3 =>
        have := h3 t w
        rw [ht] at this
        simp at this
    | redundant b o r h1 h2 =>
      have hs := parseId_spec (b :: o :: r) w
      generalize (parseId (σ := Bytes)).run (b :: o :: r) w = r' at hs
      cases hs with
      | ok l rest h3 h4 =>
        exfalso
        cases h3 with
        | short b' h5 =>
          rw [List.singleton_append, List.cons.injEq] at h4
          exact h5 (h4.1 ▸ h1)
        | long b' o' r' h5 h6 h7 h8 =>
          simp only [List.cons_append, List.cons.injEq] at h4
          obtain ⟨_, rfl, _⟩ := h4
          omega
      | redundant _ _ _ _ _ _ => rfl
      | unterminated w' h3 h4 =>
        have := h4 b o r rfl h1
        omega

theorem parseLength_fst (bs w : Bytes) : ((parseLength (σ := Bytes)).run bs w).1 = ((parseLength (σ := Bytes)).run bs []).1 := by
  match bs with
  | [] => rw [parseLength_nil, parseLength_nil]
  | f :: t =>
    by_cases h1 : f.toNat < 128
    · rw [parseLength_short f t w h1, parseLength_short f t [] h1]
    by_cases h2 : f.toNat = 128
    · have : f = 0x80 := u8_ext h2
      subst this
      rw [parseLength_indef, parseLength_indef]
    match t with
    | [] => rw [parseLength_long_nil f w (by omega), parseLength_long_nil f [] (by omega)]
    | s :: r =>
      by_cases h3 : s.toNat = 0
      · rw [parseLength_long_zero f s r w (by omega) h3, parseLength_long_zero f s r [] (by omega) h3]
      by_cases h4 : f.toNat = 129 ∧ s.toNat < 128
      · rw [parseLength_long_one f s r w h4.1 h3 h4.2, parseLength_long_one f s r [] h4.1 h3 h4.2]
      by_cases h5 : 136 < f.toNat
      · rw [parseLength_long_over f s r w h5 h3, parseLength_long_over f s r [] h5 h3]
      rw [parseLength_long f s r w (by omega) (by omega) h3 h4, parseLength_long f s r [] (by omega) (by omega) h3 h4]
      split <;> rfl

theorem parseLength_err_iff (bs w : Bytes) (e : Error) : ((parseLength (σ := Bytes)).run bs w).1 = .err e ↔ LenFault bs e := by
  rw [parseLength_fst]
  have hx : ((parseLength (σ := Bytes)).run bs []).1 = (Length.parse bs).1 := by
    rw [Length.parse]
  rw [hx]
  obtain ⟨h1, h2, h3, h4, h5⟩ := C04_length_parse_errors bs
  constructor
  · intro h
    rcases h5 with h5 | h5 | h5 | h5
    · rw [h1.2 h5] at h; cases h; exact .cut _ h5
    · rw [h2.2 h5] at h; cases h; exact .redundant _ h5
    · rw [h3.2 h5] at h; cases h; exact .overflow _ h5
    · obtain ⟨l, h6⟩ := h4.2 h5
      rw [h6] at h; cases h
  · rintro (h | h | h)
    · exact h1.2 ‹_›
    · exact h2.2 ‹_›
    · exact h3.2 ‹_›

theorem parseIdLength_err_iff (bs w : Bytes) (e : Error) :
    ((parseIdLength (σ := Bytes)).run bs w).1 = .err e ↔ HeaderFault bs e := by
  have hi := fun e => parseId_err_iff bs w e
  have hs := parseId_spec bs w
  simp only [parseIdLength, P.bind_def]
  generalize (parseId (σ := Bytes)).run bs w = x at hs hi
  cases hs with
  | ok id rest h1 h2 =>
    have hid := (isId_iff_shape _).mpr h1
    have hl := parseLength_err_iff rest (w ++ id) e
    simp only
    rw [hl]
    constructor
    · intro h; rw [h2]; exact .length id rest e hid h
    · intro h
      cases h with
      | id _ _ h => exact nomatch (hi e).2 h
      | length id' r _ h3 h4 =>
        have h5 := parseId_shape ((isId_iff_shape _).mp h3) r w
        have h6 := parseId_shape h1 rest w
        rw [← h2, h5] at h6
        simp only [Prod.mk.injEq] at h6
        rw [← h6.2.1]
        exact h4
  | redundant b o r h1 h2 h3 =>
    constructor
    · intro h; cases h; exact .id _ _ ((hi _).1 rfl)
    · intro h
      cases h with
      | id _ _ h => have := (hi e).2 h; cases this; rfl
      | length id' r' _ h3 h4 =>
        have h5 := parseId_err_iff (id' ++ r') w .redundantBytes
        rw [parseId_shape ((isId_iff_shape _).mp h3) r' w] at h5
        exact nomatch h5.2 ((hi _).1 rfl)
  | unterminated w' h1 h2 =>
    constructor
    · intro h; cases h; exact .id _ _ ((hi _).1 rfl)
    · intro h
      cases h with
      | id _ _ h => have := (hi e).2 h; cases this; rfl
      | length id' r' _ h3 h4 => exact absurd ((isId_iff_shape _).mp h3) (h1 _ _ rfl)

/-- A definite header and fewer octets than it says. -/
theorem definiteFault_iff (bs w : Bytes) (e : Error) : DefiniteFault bs e ↔
    ((parseIdLength (σ := Bytes)).run bs w).1 = .err e ∨
    (e = .unterminatedBytes ∧ ∃ n rest w', (parseIdLength (σ := Bytes)).run bs w = (.ok (.definite n), rest, w') ∧ rest.length < n) := by
  constructor
  · intro h
    cases h with
    | header _ _ h => exact .inl ((parseIdLength_err_iff bs w e).2 h)
    | short id r n h1 h2 h3 => exact .inr ⟨rfl, n, r, _, parseIdLength_definite h1 h2 r w, h3⟩
  · rintro (h | ⟨rfl, n, rest, w', h, hl⟩)
    · exact .header _ _ ((parseIdLength_err_iff bs w e).1 h)
    · have hs := parseIdLength_spec bs w
      rw [h] at hs
      cases hs with
      | definite id _ _ h1 h2 h3 => rw [h3]; exact .short id rest n h1 h2 hl

/-! ### Values -/

theorem DerRef_parse_err_iff (bs : Bytes) (e : Error) : (DerRef.parse bs).1 = .err e ↔ NoDer bs e := by
  have hd := definiteFault_iff bs [] e
  have hs := parseIdLength_spec bs []
  have hno : NoDer bs e ↔ DefiniteFault bs e ∨ (e = .indefiniteLength ∧ ∃ id r, IsId id ∧ bs = id ++ indefOctets ++ r) := by
    constructor
    · rintro (h | ⟨id, r, h⟩)
      · exact .inl ‹_›
      · exact .inr ⟨rfl, id, r, h, rfl⟩
    · rintro (h | ⟨rfl, id, r, h, rfl⟩)
      · exact .definite _ _ h
      · exact .indefinite id r h
  have hind : (∃ id r, IsId id ∧ bs = id ++ indefOctets ++ r) ↔ ((parseIdLength (σ := Bytes)).run bs []).1 = .ok .indefinite := by
    constructor
    · rintro ⟨id, r, h, rfl⟩; rw [parseIdLength_indefinite h]
    · intro h
      generalize (parseIdLength (σ := Bytes)).run bs [] = x at hs h
      cases hs with
      | definite id n rest h1 h2 h3 => cases h
      | indefinite id rest h1 h2 => exact ⟨id, rest, h1, h2⟩
      | error e p rest w' h1 => cases h
  rw [hno, hd, hind]
  simp only [DerRef.parse, DerRef.doParse]
  generalize (parseIdLength (σ := Bytes)).run bs [] = x at hs
  cases hs with
  | definite id n rest h1 h2 h3 =>
    simp only
    by_cases hl : rest.length < n
    · rw [if_pos hl]
      simp only [Prod.mk.injEq]
      constructor
      · intro h; cases h; exact .inl (.inr ⟨rfl, n, rest, _, ⟨rfl, rfl, rfl⟩, hl⟩)
      · rintro ((h | ⟨rfl, _⟩) | ⟨_, h⟩)
        · cases h
        · rfl
        · cases h
    · rw [if_neg hl, sliceFrom, if_pos (by omega)]
      simp only [sliceTo]
      rw [if_pos (by omega)]
      constructor
      · intro h; cases h
      · rintro ((h | ⟨rfl, n', rest', w', h, hl'⟩) | ⟨_, h⟩)
        · cases h
        · simp only [Prod.mk.injEq, Res.ok.injEq, Length.definite.injEq] at h
          obtain ⟨rfl, rfl, _⟩ := h
          exact absurd hl' hl
        · cases h
  | indefinite id rest h1 h2 =>
    constructor
    · intro h; cases h; exact .inr ⟨rfl, rfl⟩
    · rintro ((h | ⟨rfl, n', rest', w', h, hl'⟩) | ⟨rfl, h⟩)
      · cases h
      · simp at h
      · rfl
  | error e' p rest w' h =>
    constructor
    · intro h; cases h; exact .inl (.inl rfl)
    · rintro ((h | ⟨rfl, n', rest', w', h, hl'⟩) | ⟨rfl, h⟩)
      · cases h; rfl
      · simp at h
      · cases h

theorem berDoParse_err_iff (bs : Bytes) (e : Error) : (BerRef.doParse bs).1 = .err e ↔ DefiniteFault bs e := by
  rw [definiteFault_iff bs [] e]
  have hs := parseIdLength_spec bs []
  simp only [BerRef.doParse]
  by_cases he : BerRef.eoc.isPrefixOf bs = true
  · rw [if_pos he]
    obtain ⟨r, rfl⟩ := (eoc_prefix bs).mp he
    have : sliceFrom (Spec.eoc ++ r) BerRef.eoc.length = .ok r := by
      rw [sliceFrom, if_pos (by simp [Spec.eoc, BerRef.eoc])]; rfl
    rw [this]
    have h0 : (parseIdLength (σ := Bytes)).run (Spec.eoc ++ r) [] = (.ok (.definite 0), r, [0, 0]) :=
      parseIdLength_definite isId_zero (n := 0) (by omega) r []
    rw [h0]
    constructor
    · intro h; cases h
    · rintro (h | ⟨_, n, rest, w', h, hl⟩)
      · cases h
      · simp only [Prod.mk.injEq, Res.ok.injEq, Length.definite.injEq] at h
        omega
  · rw [if_neg he]
    generalize (parseIdLength (σ := Bytes)).run bs [] = x at hs
    cases hs with
    | definite id n rest h1 h2 h3 =>
      simp only
      by_cases hl : rest.length < n
      · rw [if_pos hl]
        simp only [Prod.mk.injEq]
        constructor
        · intro h; cases h; exact .inr ⟨rfl, n, rest, _, ⟨rfl, rfl, rfl⟩, hl⟩
        · rintro (h | ⟨rfl, _⟩)
          · cases h
          · rfl
      · rw [if_neg hl, sliceFrom, if_pos (by omega)]
        constructor
        · intro h; cases h
        · rintro (h | ⟨rfl, n', rest', w', h, hl'⟩)
          · cases h
          · simp only [Prod.mk.injEq, Res.ok.injEq, Length.definite.injEq] at h
            obtain ⟨rfl, rfl, _⟩ := h
            exact absurd hl' hl
    | indefinite id rest h1 h2 =>
      constructor
      · intro h; cases h
      · rintro (h | ⟨rfl, n', rest', w', h, hl'⟩)
        · cases h
        · simp at h
    | error e' p rest w' h =>
      constructor
      · intro h; cases h; exact .inl rfl
      · rintro (h | ⟨rfl, n', rest', w', h, hl'⟩)
        · cases h; rfl
        · simp at h

theorem element_doParse {hd c x : Bytes} {δ : Int} (he : Element hd c δ) : BerRef.doParse (hd ++ c ++ x) = (.ok δ, x) := by
  have hst := berStep_spec (hd ++ c ++ x)
  rcases hdp : BerRef.doParse (hd ++ c ++ x) with ⟨r, bs'⟩
  rw [hdp] at hst
  have key : ∀ δ', r = .ok δ' → (r, bs') = (.ok δ, x) := by
    rintro δ' rfl
    obtain ⟨hd', c', he', e'⟩ := element_of_doParse hdp
    obtain ⟨_, _, rfl, rfl⟩ := element_unique he he' e'
    rfl
  generalize hb : hd ++ c ++ x = bs at hst
  cases hst with
  | eoc _ _ => exact key _ rfl
  | definite _ _ _ _ _ _ _ => exact key _ rfl
  | indefinite _ _ _ _ => exact key _ rfl
  | error e p _ h1 h2 h3 =>
    exfalso
    rcases he with ⟨id, i1, i2, rfl, i4⟩ | ⟨id, i1, rfl, rfl, i4⟩
    · exact h2 id c x i1 i2 (by rw [← hb, tlv])
    · exact h3 id x i1 (by rw [← hb, List.append_nil])

theorem parseLoop_err_iff (e : Error) : ∀ (f d : Nat) (bs : Bytes), bs.length < f → d + bs.length ≤ isizeMax →
    ((BerRef.parseLoop f d bs).1 = .err e ↔ ∃ p r d', Due d p d' ∧ DefiniteFault r e ∧ bs = p ++ r) := by
  intro f
  induction f with
  | zero => intro d bs h; omega
  | succ f ih =>
    intro d bs hf hmax
    have hde := berDoParse_err_iff bs e
    rcases hdp : BerRef.doParse bs with ⟨r, bs'⟩
    rw [hdp] at hde
    simp only [BerRef.parseLoop, hdp]
    match r with
    | .ok δ =>
      obtain ⟨hl1, hl2, hl3⟩ := doParse_length hdp
      obtain ⟨hd, c, he, hb⟩ := element_of_doParse hdp
      simp only
      rw [if_neg (by omega)]
      by_cases hpos : (d : Int) + δ > 0
      · rw [if_pos hpos]
        obtain ⟨d', hd'⟩ : ∃ d' : Nat, (d : Int) + δ = d' := ⟨((d : Int) + δ).toNat, by omega⟩
        rw [hd', ih d' bs' (by omega) (by omega)]
        constructor
        · rintro ⟨p, r, d2, h1, h2, rfl⟩
          exact ⟨hd ++ c ++ p, r, d2, due_cons he hd' (by omega) h1, h2, by rw [hb, List.append_assoc (hd ++ c)]⟩
        · rintro ⟨p, r, d2, h1, h2, h3⟩
          rcases due_inv h1 with rfl | ⟨hd1, c1, δ1, d1, p1, g1, rfl, g3, g4, g5⟩
          · rw [List.nil_append] at h3
            subst h3
            exact nomatch hde.2 h2
          · rw [hb, List.append_assoc (hd1 ++ c1)] at h3
            obtain ⟨_, _, rfl, rfl⟩ := element_unique he g1 h3
            obtain rfl : d1 = d' := by omega
            exact ⟨p1, r, d2, g5, h2, rfl⟩
      · rw [if_neg hpos]
        constructor
        · intro h; cases h
        · rintro ⟨p, r, d2, h1, h2, h3⟩
          rcases due_inv h1 with rfl | ⟨hd1, c1, δ1, d1, p1, g1, rfl, g3, g4, g5⟩
          · rw [List.nil_append] at h3
            subst h3
            exact nomatch hde.2 h2
          · rw [hb, List.append_assoc (hd1 ++ c1)] at h3
            obtain ⟨_, _, rfl, rfl⟩ := element_unique he g1 h3
            omega
    | .err e' =>
      constructor
      · intro h; cases h; exact ⟨[], bs, d, .nil d, hde.1 rfl, rfl⟩
      · rintro ⟨p, r, d2, h1, h2, h3⟩
        rcases due_inv h1 with rfl | ⟨hd1, c1, δ1, d1, p1, g1, rfl, g3, g4, g5⟩
        · rw [List.nil_append] at h3
          subst h3
          have := hde.2 h2
          cases this
          rfl
        · rw [List.append_assoc (hd1 ++ c1)] at h3
          rw [h3, element_doParse g1] at hdp
          cases hdp
    | .panic => have := berStep_spec bs; rw [hdp] at this; cases this
    | .ub => have := berStep_spec bs; rw [hdp] at this; cases this

theorem BerRef_parse_err_iff (bs : Bytes) (e : Error) (hl : bs.length ≤ isizeMax) : (BerRef.parse bs).1 = .err e ↔ NoBer bs e := by
  have h := parseLoop_err_iff e (bs.length + 1) 0 bs (by omega) (by omega)
  have hb : NoBer bs e ↔ ∃ p r d', Due 0 p d' ∧ DefiniteFault r e ∧ bs = p ++ r := by
    constructor
    · rintro ⟨p, r, d, _, h1, h2⟩; exact ⟨p, r, d, h1, h2, rfl⟩
    · rintro ⟨p, r, d, h1, h2, rfl⟩; exact ⟨p, r, d, e, h1, h2⟩
  rw [hb, ← h]
  simp only [BerRef.parse, Nat.cast_zero]
  rcases BerRef.parseLoop (bs.length + 1) 0 bs with ⟨r, s⟩
  cases r with
  | ok u =>
    simp only
    constructor
    · intro h
      rw [sliceTo] at h
      split at h <;> cases h
    · intro h; cases h
  | err e => exact ⟨(fun h => by cases h; rfl), (fun h => by cases h; rfl)⟩
  | panic => exact ⟨(fun h => by cases h), (fun h => by cases h)⟩
  | ub => exact ⟨(fun h => by cases h), (fun h => by cases h)⟩

/-! ### Errors of a result -/

/-- The errors are exactly `E`. -/
def Res.Errs (x : Res α) (E : Error → Prop) : Prop := ∀ e, x = .err e ↔ E e

theorem Res.Errs.congr {x : Res α} {E E' : Error → Prop} (h : x.Errs E) (he : ∀ e, E e ↔ E' e) : x.Errs E' :=
  fun e => (h e).trans (he e)

theorem Res.errs_ok (a : α) : (Res.ok a).Errs fun _ => False := fun _ => ⟨(nomatch ·), False.elim⟩

theorem Res.errs_err (e0 : Error) : (Res.err e0 : Res α).Errs (· = e0) := fun e => by rw [Res.err.injEq]; exact eq_comm

theorem Res.Errs.bind {x : Res α} {f : α → Res β} {E : Error → Prop} {Q : α → Error → Prop} (hx : x.Errs E)
    (hf : ∀ a, x = .ok a → (f a).Errs (Q a)) : (x >>= f).Errs fun e => E e ∨ ∃ a, x = .ok a ∧ Q a e := by
  intro e
  have he := hx e
  cases x with
  | ok a =>
    rw [Res.bind_ok, hf a rfl e]
    constructor
    · exact fun h => .inr ⟨a, rfl, h⟩
    · rintro (h | ⟨b, h1, h2⟩)
      · exact nomatch he.2 h
      · cases h1; exact h2
  | err e0 =>
    constructor
    · intro h
      exact .inl (he.1 (by cases h; rfl))
    · rintro (h | ⟨b, h1, _⟩)
      · have := he.2 h; cases this; rfl
      · cases h1
  | panic =>
    constructor
    · intro h; cases h
    · rintro (h | ⟨b, h1, _⟩)
      · exact nomatch he.2 h
      · cases h1
  | ub =>
    constructor
    · intro h; cases h
    · rintro (h | ⟨b, h1, _⟩)
      · exact nomatch he.2 h
      · cases h1

/-- What follows does not fail. -/
theorem Res.Errs.bindOk {x : Res α} {f : α → Res β} {E : Error → Prop} (hx : x.Errs E) (hf : ∀ a, ∃ b, f a = .ok b) : (x >>= f).Errs E :=
  (hx.bind (Q := fun _ _ => False) fun a _ => by obtain ⟨b, hb⟩ := hf a; rw [hb]; exact Res.errs_ok b).congr fun e =>
    ⟨fun h => h.elim id fun ⟨_, _, e⟩ => e.elim, .inl⟩

theorem wrapped_eq (e : Error) : e.context = wrapped e := by cases e <;> rfl

theorem Res.Errs.mapErr {x : Res α} {E : Error → Prop} (hx : x.Errs E) :
    (mapErrContext x).Errs fun e => ∃ e', e = wrapped e' ∧ E e' := by
  intro e
  cases x with
  | ok a => exact ⟨(nomatch ·), (by rintro ⟨e', _, h⟩; exact nomatch (hx e').2 h)⟩
  | err e0 =>
    rw [mapErrContext, wrapped_eq, Res.err.injEq]
    constructor
    · rintro rfl; exact ⟨e0, rfl, (hx e0).1 rfl⟩
    · rintro ⟨e', rfl, h⟩
      have := (hx e').2 h
      cases this; rfl
  | panic => exact ⟨(nomatch ·), (by rintro ⟨e', _, h⟩; exact nomatch (hx e').2 h)⟩
  | ub => exact ⟨(nomatch ·), (by rintro ⟨e', _, h⟩; exact nomatch (hx e').2 h)⟩

theorem Res.Errs.guard {p : Prop} [Decidable p] {e0 : Error} {x : Res α} {E : Error → Prop} (hx : x.Errs E) :
    (if p then .err e0 else x).Errs fun e => (p ∧ e = e0) ∨ (¬ p ∧ E e) := by
  by_cases h : p
  · rw [if_pos h]; exact (Res.errs_err e0).congr fun e => by simp [h]
  · rw [if_neg h]; exact hx.congr fun e => by simp [h]

theorem Res.Errs.tag {p q : Prop} [Decidable p] {x : Res α} {E : Error → Prop} (hx : x.Errs E) (h : p ↔ ¬ q) :
    (if p then .err .unmatchedId else x).Errs (tagFault q E) :=
  hx.guard.congr fun e => by
    rw [tagFault]
    by_cases hq : q <;> simp [h, hq]

theorem Res.Settled.errs {x : Res α} {E : Error → Prop} (hs : x.Settled) (h1 : ∀ v, x = .ok v → ∀ e, ¬ E e)
    (h2 : ∀ e, x = .err e → ∀ e', E e' ↔ e' = e) : x.Errs E := by
  intro e
  rcases hs with ⟨a, h⟩ | ⟨e0, h⟩
  · rw [h]; exact ⟨(nomatch ·), fun he => absurd he (h1 a h e)⟩
  · rw [h, Res.err.injEq, h2 e0 h]; exact eq_comm

/-! ### Division into values -/

/-- The octets fit in memory, where this matters. -/
def Spec.Rules.Fits : Rules → Bytes → Prop
  | .der, _ => True
  | .ber _, c => c.length ≤ isizeMax

theorem fits_der (c : Bytes) : Rules.der.Fits c := trivial

theorem fits_ber {lax : Bool} {c : Bytes} (h : c.length ≤ isizeMax) : (Rules.ber lax).Fits c := h

theorem Spec.Rules.noValue_unique {r : Rules} {c : Bytes} {e e' : Error} (hf : r.Fits c) (h : r.NoValue c e) (h' : r.NoValue c e') : e = e' := by
  cases r with
  | der =>
    have h1 := (DerRef_parse_err_iff c e).2 h
    rw [(DerRef_parse_err_iff c e').2 h'] at h1
    exact (Res.err.inj h1).symm
  | ber lax =>
    have h1 := (BerRef_parse_err_iff c e hf).2 h
    rw [(BerRef_parse_err_iff c e' hf).2 h'] at h1
    exact (Res.err.inj h1).symm

theorem Spec.Rules.starts_noValue {r : Rules} {c id raw rest : Bytes} {d : Bool} {e : Error} (hf : r.Fits c)
    (h : r.Starts c id d raw rest) (h' : r.NoValue c e) : False := by
  cases r with
  | der =>
    obtain ⟨_, h1, h2, rfl⟩ := h
    have := (DerRef_parse_err_iff _ e).2 h'
    rw [DerRef_parse_tlv h1 h2] at this
    cases this
  | ber lax =>
    obtain ⟨p, h1, rfl⟩ := h
    have := (BerRef_parse_err_iff _ e hf).2 h'
    rw [BerRef_parse_ok (berValue_isBer h1) hf] at this
    cases this

theorem tlv_inj {id id' c c' : Bytes} (h : IsId id) (h' : IsId id') (hc : c.length < 2 ^ 64) (hc' : c'.length < 2 ^ 64)
    (e : tlv id c = tlv id' c') : id = id' ∧ c = c' := by
  have h1 := disassemble_tlv h hc
  rw [e, disassemble_tlv h' hc'] at h1
  simp only [Res.ok.injEq, Prod.mk.injEq] at h1
  exact ⟨h1.1.symm, h1.2.2.symm⟩

theorem Spec.Rules.starts_unique {r : Rules} {c id id' raw raw' rest rest' : Bytes} {d d' : Bool}
    (h : r.Starts c id d raw rest) (h' : r.Starts c id' d' raw' rest') : id = id' ∧ d = d' ∧ raw = raw' ∧ rest = rest' := by
  cases r with
  | der =>
    obtain ⟨rfl, h1, h2, rfl⟩ := h
    obtain ⟨rfl, h3, h4, e⟩ := h'
    obtain ⟨e1, rfl⟩ := tlv_prefix_free h1 h3 h2 h4 e
    obtain ⟨rfl, rfl⟩ := tlv_inj h1 h3 h2 h4 e1
    exact ⟨rfl, rfl, rfl, rfl⟩
  | ber lax =>
    obtain ⟨p, h1, rfl⟩ := h
    obtain ⟨p', h3, e⟩ := h'
    obtain ⟨rfl, rfl⟩ := isBer_prefix_free (berValue_isBer h1) (berValue_isBer h3) e
    obtain ⟨rfl, rfl, rfl⟩ := berValue_unique h1 h3
    exact ⟨rfl, rfl, rfl, rfl⟩

theorem Spec.Rules.starts_length {r : Rules} {c id raw rest : Bytes} {d : Bool} (h : r.Starts c id d raw rest) :
    raw.length + rest.length < c.length := by
  cases r with
  | der => obtain ⟨_, h1, _, e⟩ := h; have := tlv_contents_lt h1 e; omega
  | ber lax =>
    obtain ⟨p, h1, rfl⟩ := h
    have := berValue_length h1
    rw [List.length_append]
    omega

theorem Spec.Rules.starts_ne_nil {r : Rules} {c id raw rest : Bytes} {d : Bool} (h : r.Starts c id d raw rest) : c ≠ [] := by
  rintro rfl
  have := Spec.Rules.starts_length h
  simp at this

theorem Spec.Rules.Fits.mono {r : Rules} {c c' : Bytes} (h : r.Fits c) (hl : c'.length ≤ c.length) : r.Fits c' := by
  cases r with
  | der => trivial
  | ber lax => exact Nat.le_trans hl h

theorem firstFault_no {r : Rules} {F : Bytes → Bool → Bytes → Error → Prop} {c : Bytes} {e0 : Error} (hf : r.Fits c) (h : r.NoValue c e0)
    (e : Error) : firstFault r F c e ↔ e = wrapped e0 := by
  constructor
  · rintro ⟨e', rfl, h1 | ⟨id, d, raw, rest, h1, _⟩⟩
    · rw [Spec.Rules.noValue_unique hf h h1]
    · exact (Spec.Rules.starts_noValue hf h1 h).elim
  · rintro rfl; exact ⟨e0, rfl, .inl h⟩

theorem firstFault_starts {r : Rules} {F : Bytes → Bool → Bytes → Error → Prop} {c id raw rest : Bytes} {d : Bool} (hf : r.Fits c)
    (h : r.Starts c id d raw rest) (e : Error) : firstFault r F c e ↔ ∃ e', e = wrapped e' ∧ F id d raw e' := by
  constructor
  · rintro ⟨e', rfl, h1 | ⟨id', d', raw', rest', h1, h2⟩⟩
    · exact (Spec.Rules.starts_noValue hf h h1).elim
    · obtain ⟨rfl, rfl, rfl, rfl⟩ := Spec.Rules.starts_unique h h1
      exact ⟨e', rfl, h2⟩
  · rintro ⟨e', rfl, h1⟩; exact ⟨e', rfl, .inr ⟨id, d, raw, rest, h, h1⟩⟩

section pair
variable {r : Rules} {K : Bytes → Bool → Bytes → α → Prop} {FK FV : Bytes → Bool → Bytes → Error → Prop} {d : Bool} {raw : Bytes}

theorem pairFault_tag {id : Bytes} (h : id ≠ [0x30]) (e : Error) : PairFault r K FK FV id d raw e ↔ e = .invalidKeyValuePair := by
  constructor
  · intro hp
    cases hp with
    | tag => rfl
    | _ => exact absurd rfl h
  · rintro rfl; exact .tag _ _ _ h

theorem pairFault_noKey (hf : r.Fits raw) {e0 : Error} (h : r.NoValue raw e0) (e : Error) :
    PairFault r K FK FV [0x30] d raw e ↔ e = e0 := by
  constructor
  · intro hp
    cases hp with
    | tag _ _ _ h1 => exact absurd rfl h1
    | noKey _ _ _ h1 => exact Spec.Rules.noValue_unique hf h1 h
    | noValue _ _ _ _ _ _ _ h1 => exact (Spec.Rules.starts_noValue hf h1 h).elim
    | extra _ _ _ _ _ _ _ _ _ _ h1 => exact (Spec.Rules.starts_noValue hf h1 h).elim
    | key _ _ _ _ _ _ _ _ _ _ h1 => exact (Spec.Rules.starts_noValue hf h1 h).elim
    | value _ _ _ _ _ _ _ _ _ _ _ h1 => exact (Spec.Rules.starts_noValue hf h1 h).elim
  · rintro rfl; exact .noKey _ _ _ h

variable {ik ck rest iv cv rest' : Bytes} {dk dv : Bool}

theorem pairFault_noValue (hf : r.Fits raw) (hk : r.Starts raw ik dk ck rest) {e0 : Error} (h : r.NoValue rest e0) (e : Error) :
    PairFault r K FK FV [0x30] d raw e ↔ e = e0 := by
  have hf' : r.Fits rest := hf.mono (by have := Spec.Rules.starts_length hk; omega)
  constructor
  · intro hp
    cases hp with
    | tag _ _ _ h1 => exact absurd rfl h1
    | noKey _ _ _ h1 => exact (Spec.Rules.starts_noValue hf hk h1).elim
    | noValue _ _ _ _ _ _ _ h1 h2 =>
      obtain ⟨_, _, _, rfl⟩ := Spec.Rules.starts_unique hk h1
      exact Spec.Rules.noValue_unique hf' h2 h
    | extra _ _ _ _ _ _ _ _ _ _ h1 h2 =>
      obtain ⟨_, _, _, rfl⟩ := Spec.Rules.starts_unique hk h1
      exact (Spec.Rules.starts_noValue hf' h2 h).elim
    | key _ _ _ _ _ _ _ _ _ _ h1 h2 =>
      obtain ⟨_, _, _, rfl⟩ := Spec.Rules.starts_unique hk h1
      exact (Spec.Rules.starts_noValue hf' h2 h).elim
    | value _ _ _ _ _ _ _ _ _ _ _ h1 h2 =>
      obtain ⟨_, _, _, rfl⟩ := Spec.Rules.starts_unique hk h1
      exact (Spec.Rules.starts_noValue hf' h2 h).elim
  · rintro rfl; exact .noValue _ _ _ _ _ _ _ hk h

theorem pairFault_extra (hf : r.Fits raw) (hk : r.Starts raw ik dk ck rest) (hv : r.Starts rest iv dv cv rest') (h : rest' ≠ []) (e : Error) :
    PairFault r K FK FV [0x30] d raw e ↔ e = .invalidKeyValuePair := by
  have hf' : r.Fits rest := hf.mono (by have := Spec.Rules.starts_length hk; omega)
  constructor
  · intro hp
    cases hp with
    | tag _ _ _ h1 => exact absurd rfl h1
    | noKey _ _ _ h1 => exact (Spec.Rules.starts_noValue hf hk h1).elim
    | noValue _ _ _ _ _ _ _ h1 h2 =>
      obtain ⟨_, _, _, rfl⟩ := Spec.Rules.starts_unique hk h1
      exact (Spec.Rules.starts_noValue hf' hv h2).elim
    | extra => rfl
    | key _ _ _ _ _ _ _ _ _ _ h1 h2 =>
      obtain ⟨_, _, _, rfl⟩ := Spec.Rules.starts_unique hk h1
      exact absurd (Spec.Rules.starts_unique hv h2).2.2.2 h
    | value _ _ _ _ _ _ _ _ _ _ _ h1 h2 =>
      obtain ⟨_, _, _, rfl⟩ := Spec.Rules.starts_unique hk h1
      exact absurd (Spec.Rules.starts_unique hv h2).2.2.2 h
  · rintro rfl; exact .extra _ _ _ _ _ _ _ _ _ _ hk hv h

theorem pairFault_both (hf : r.Fits raw) (hk : r.Starts raw ik dk ck rest) (hv : r.Starts rest iv dv cv []) (e : Error) :
    PairFault r K FK FV [0x30] d raw e ↔ FK ik dk ck e ∨ (∃ k, K ik dk ck k) ∧ FV iv dv cv e := by
  have hf' : r.Fits rest := hf.mono (by have := Spec.Rules.starts_length hk; omega)
  constructor
  · intro hp
    cases hp with
    | tag _ _ _ h1 => exact absurd rfl h1
    | noKey _ _ _ h1 => exact (Spec.Rules.starts_noValue hf hk h1).elim
    | noValue _ _ _ _ _ _ _ h1 h2 =>
      obtain ⟨_, _, _, rfl⟩ := Spec.Rules.starts_unique hk h1
      exact (Spec.Rules.starts_noValue hf' hv h2).elim
    | extra _ _ _ _ _ _ _ _ _ _ h1 h2 h3 =>
      obtain ⟨_, _, _, rfl⟩ := Spec.Rules.starts_unique hk h1
      exact absurd (Spec.Rules.starts_unique hv h2).2.2.2.symm h3
    | key _ _ _ _ _ _ _ _ _ _ h1 h2 h3 =>
      obtain ⟨rfl, rfl, rfl, rfl⟩ := Spec.Rules.starts_unique hk h1
      exact .inl h3
    | value _ _ _ _ _ _ _ _ _ k _ h1 h2 h3 h4 =>
      obtain ⟨rfl, rfl, rfl, rfl⟩ := Spec.Rules.starts_unique hk h1
      obtain ⟨rfl, rfl, rfl, _⟩ := Spec.Rules.starts_unique hv h2
      exact .inr ⟨⟨k, h3⟩, h4⟩
  · rintro (h | ⟨⟨k, h1⟩, h2⟩)
    · exact .key _ _ _ _ _ _ _ _ _ _ hk hv h
    · exact .value _ _ _ _ _ _ _ _ _ k _ hk hv h1 h2

end pair

theorem derParse_rules (c : Bytes) : (∃ e rest, DerRef.parse c = (.err e, rest) ∧ Rules.der.NoValue c e) ∨
    ∃ id b rest, IsId id ∧ b.length < 2 ^ 64 ∧ DerRef.parse c = (.ok (tlv id b), rest) ∧ Rules.der.Starts c id false b rest := by
  rcases derParse_cases c with ⟨e, rest, hp⟩ | ⟨id, b, rest, h1, h2, hp, he⟩
  · exact .inl ⟨e, rest, hp, (DerRef_parse_err_iff c e).1 (by rw [hp])⟩
  · exact .inr ⟨id, b, rest, h1, h2, hp, rfl, h1, h2, he⟩

theorem berParse_rules (lax : Bool) (c : Bytes) (hc : c.length ≤ isizeMax) :
    (∃ e rest, BerRef.parse c = (.err e, rest) ∧ (Rules.ber lax).NoValue c e) ∨
    ∃ p id d raw rest, BerValue p id d raw ∧ BerRef.parse c = (.ok p, rest) ∧ (Rules.ber lax).Starts c id d raw rest := by
  rcases berParse_cases c hc with ⟨e, rest, hp⟩ | ⟨p, id, d, raw, rest, hv, hp, he⟩
  · exact .inl ⟨e, rest, hp, (BerRef_parse_err_iff c e hc).1 (by rw [hp])⟩
  · exact .inr ⟨p, id, d, raw, rest, hv, hp, p, hv, he⟩

/-- The errors of `from_der`. -/
def ErrsDer (d : De α) (F : Bytes → Bool → Bytes → Error → Prop) : Prop := ∀ id c, (d.fromDer id c).Errs (F id false c)

/-- The errors of `from_ber`. -/
def ErrsBer (d : De α) (F : Bytes → Bool → Bytes → Error → Prop) : Prop :=
  ∀ id indef raw, raw.length ≤ isizeMax → (d.fromBer id (lenOf indef raw) raw).Errs (F id indef raw)

theorem derTmpVal_errs {d : De α} {F : Bytes → Bool → Bytes → Error → Prop} (h : ErrsDer d F) (c : Bytes) :
    (derTmpVal d c).Errs (firstFault .der F c) := by
  rw [derTmpVal]
  rcases derParse_rules c with ⟨e, rest, hp, hn⟩ | ⟨id, b, rest, h1, h2, hp, hs⟩
  · rw [hp]
    exact (Res.errs_err e.context).congr fun e' => by rw [firstFault_no (fits_der _) hn, wrapped_eq]
  · rw [hp]
    simp only [mapErrContext, Res.bind_ok]
    rw [show DerRef.disassemble (tlv id b) = _ from disassemble_tlv h1 h2, Res.bind_ok]
    exact ((h id b).mapErr.bindOk fun _ => ⟨_, rfl⟩).congr fun e => (firstFault_starts (fits_der _) hs e).symm

theorem berTmpVal_errs {d : De α} {F : Bytes → Bool → Bytes → Error → Prop} (lax : Bool) (h : ErrsBer d F) (c : Bytes) (hc : c.length ≤ isizeMax) :
    (berTmpVal d c).Errs (firstFault (.ber lax) F c) := by
  rw [berTmpVal]
  rcases berParse_rules lax c hc with ⟨e, rest, hp, hn⟩ | ⟨p, id, indef, raw, rest, hv, hp, hs⟩
  · rw [hp]
    exact (Res.errs_err e.context).congr fun e' => by rw [firstFault_no (fits_ber hc) hn, wrapped_eq]
  · rw [hp]
    have hl := Spec.Rules.starts_length hs
    simp only [mapErrContext, Res.bind_ok]
    rw [berValue_disassemble hv, Res.bind_ok]
    exact ((h id indef raw (by omega)).mapErr.bindOk fun _ => ⟨_, rfl⟩).congr fun e => (firstFault_starts (fits_ber hc) hs e).symm

theorem derToVal_errs {d : De α} {F : Bytes → Bool → Bytes → Error → Prop} (h : ErrsDer d F) (c : Bytes) :
    (derToVal d c).Errs fun e => c ≠ [] ∧ firstFault .der F c e := by
  rw [derToVal]
  split
  · rename_i he
    rw [List.isEmpty_iff] at he
    exact (Res.errs_ok _).congr fun e => by simp [he]
  · rename_i he
    rw [List.isEmpty_iff] at he
    refine Res.Errs.congr (E := firstFault .der F c) ?_ fun e => by simp [he]
    rcases derParse_rules c with ⟨e, rest, hp, hn⟩ | ⟨id, b, rest, h1, h2, hp, hs⟩
    · rw [hp]
      exact (Res.errs_err e.context).congr fun e' => by rw [firstFault_no (fits_der _) hn, wrapped_eq]
    · rw [hp]
      simp only [mapErrContext, Res.bind_ok]
      rw [show DerRef.disassemble (tlv id b) = _ from disassemble_tlv h1 h2, Res.bind_ok]
      exact ((h id b).mapErr.bindOk fun _ => ⟨_, rfl⟩).congr fun e => (firstFault_starts (fits_der _) hs e).symm

theorem berToVal_errs {d : De α} {F : Bytes → Bool → Bytes → Error → Prop} (lax : Bool) (h : ErrsBer d F) (c : Bytes) (hc : c.length ≤ isizeMax) :
    (berToVal d c).Errs fun e => c ≠ [] ∧ firstFault (.ber lax) F c e := by
  rw [berToVal]
  split
  · rename_i he
    rw [List.isEmpty_iff] at he
    exact (Res.errs_ok _).congr fun e => by simp [he]
  · rename_i he
    rw [List.isEmpty_iff] at he
    refine Res.Errs.congr (E := firstFault (.ber lax) F c) ?_ fun e => by simp [he]
    rcases berParse_rules lax c hc with ⟨e, rest, hp, hn⟩ | ⟨p, id, indef, raw, rest, hv, hp, hs⟩
    · rw [hp]
      exact (Res.errs_err e.context).congr fun e' => by rw [firstFault_no (fits_ber hc) hn, wrapped_eq]
    · rw [hp]
      have hl := Spec.Rules.starts_length hs
      simp only [mapErrContext, Res.bind_ok]
      rw [berValue_disassemble hv, Res.bind_ok]
      exact ((h id indef raw (by omega)).mapErr.bindOk fun _ => ⟨_, rfl⟩).congr fun e => (firstFault_starts (fits_ber hc) hs e).symm

/-- Key and value are looked at one after the other. -/
theorem both_errs {x : Res α} {y : Res β} {δ : Type} {f : α → β → δ} {EK EV : Error → Prop} {K : α → Prop} (hx : x.Errs EK) (hk : ∀ k, x = .ok k ↔ K k)
    (hy : y.Errs EV) : (mapErrContext x >>= fun k => mapErrContext y >>= fun v => (pure (f k v) : Res δ)).Errs fun e =>
      ∃ e', e = wrapped e' ∧ (EK e' ∨ (∃ k, K k) ∧ EV e') := by
  refine (hx.mapErr.bind fun k _ => hy.mapErr.bindOk fun v => ⟨_, rfl⟩).congr fun e => ?_
  constructor
  · rintro (⟨e', rfl, h⟩ | ⟨k, h1, e', rfl, h2⟩)
    · exact ⟨e', rfl, .inl h⟩
    · exact ⟨e', rfl, .inr ⟨⟨k, (hk k).1 (mapErr_ok.1 h1)⟩, h2⟩⟩
  · rintro ⟨e', rfl, h | ⟨⟨k, h1⟩, h2⟩⟩
    · exact .inl ⟨e', rfl, h⟩
    · exact .inr ⟨k, mapErr_ok.2 ((hk k).2 h1), e', rfl, h2⟩

theorem errs_wrapped {E : Error → Prop} {e0 : Error} (h : ∀ e, E e ↔ e = e0) :
    (Res.err e0.context : Res α).Errs fun e => ∃ e', e = wrapped e' ∧ E e' :=
  (Res.errs_err _).congr fun e => by
    rw [wrapped_eq]
    constructor
    · rintro rfl; exact ⟨e0, rfl, (h e0).2 rfl⟩
    · rintro ⟨e', rfl, h'⟩; rw [(h e').1 h']

theorem derToKeyVal_errs {dk : De α} {dv : De β} {K : Bytes → Bool → Bytes → α → Prop} {FK FV : Bytes → Bool → Bytes → Error → Prop}
    (hd : DecodesDer dk fun id c => K id false c) (hk : ErrsDer dk FK) (hv : ErrsDer dv FV) (c : Bytes) :
    (derToKeyVal dk dv c).Errs fun e => c ≠ [] ∧ firstFault .der (PairFault .der K FK FV) c e := by
  rw [derToKeyVal]
  split
  · rename_i he
    rw [List.isEmpty_iff] at he
    exact (Res.errs_ok _).congr fun e => by simp [he]
  · rename_i he
    rw [List.isEmpty_iff] at he
    refine Res.Errs.congr (E := firstFault .der (PairFault .der K FK FV) c) ?_ fun e => by simp [he]
    rcases derParse_rules c with ⟨e, rest, hp, hn⟩ | ⟨id, b, rest, h1, h2, hp, hs⟩
    · rw [hp]
      exact (Res.errs_err e.context).congr fun e' => by rw [firstFault_no (fits_der _) hn, wrapped_eq]
    rw [hp]
    refine Res.Errs.congr ?_ fun e => (firstFault_starts (fits_der _) hs e).symm
    simp only [mapErrContext, Res.bind_ok]
    rw [DerRef_id_tlv h1 b, Res.bind_ok]
    by_cases hid : id = IdRef.sequence
    case neg =>
      rw [if_pos hid]
      exact errs_wrapped (pairFault_tag hid)
    rw [if_neg (not_not.2 hid), DerRef_contents_tlv h1 h2, Res.bind_ok]
    rw [show id = [0x30] from hid]
    rcases derParse_rules b with ⟨e, rest', hp', hn'⟩ | ⟨id', b', rest', h1', h2', hp', hs'⟩
    · rw [hp']; exact errs_wrapped (pairFault_noKey (fits_der _) hn')
    rw [hp']
    simp only [mapErrContext, Res.bind_ok]
    rcases derParse_rules rest' with ⟨e, rest'', hp'', hn''⟩ | ⟨id'', b'', rest'', h1'', h2'', hp'', hs''⟩
    · rw [hp'']; exact errs_wrapped (pairFault_noValue (fits_der _) hs' hn'')
    rw [hp'']
    simp only [mapErrContext, Res.bind_ok]
    split
    · rename_i hem
      rw [List.isEmpty_iff] at hem
      subst hem
      rw [show DerRef.disassemble (tlv id' b') = _ from disassemble_tlv h1' h2', Res.bind_ok]
      simp only [show DerRef.disassemble (tlv id'' b'') = _ from disassemble_tlv h1'' h2'', Res.bind_ok]
      exact (both_errs (hk id' b') (hd id' b') (hv id'' b'')).congr fun e =>
        exists_congr fun e' => and_congr_right fun _ => (pairFault_both (fits_der _) hs' hs'' e').symm
    · rename_i hem
      rw [List.isEmpty_iff] at hem
      exact errs_wrapped (pairFault_extra (fits_der _) hs' hs'' hem)

theorem berToKeyVal_errs {dk : De α} {dv : De β} {K : Bytes → Bool → Bytes → α → Prop} {FK FV : Bytes → Bool → Bytes → Error → Prop} (lax : Bool)
    (hd : DecodesBer dk K) (hk : ErrsBer dk FK) (hv : ErrsBer dv FV) (c : Bytes) (hc : c.length ≤ isizeMax) :
    (berToKeyVal dk dv c).Errs fun e => c ≠ [] ∧ firstFault (.ber lax) (PairFault (.ber lax) K FK FV) c e := by
  rw [berToKeyVal]
  split
  · rename_i he
    rw [List.isEmpty_iff] at he
    exact (Res.errs_ok _).congr fun e => by simp [he]
  · rename_i he
    rw [List.isEmpty_iff] at he
    refine Res.Errs.congr (E := firstFault (.ber lax) (PairFault (.ber lax) K FK FV) c) ?_ fun e => by simp [he]
    rcases berParse_rules lax c hc with ⟨e, rest, hp, hn⟩ | ⟨p, id, d, b, rest, hb, hp, hs⟩
    · rw [hp]
      exact (Res.errs_err e.context).congr fun e' => by rw [firstFault_no (fits_ber hc) hn, wrapped_eq]
    have hl := Spec.Rules.starts_length hs
    rw [hp]
    refine Res.Errs.congr ?_ fun e => (firstFault_starts (fits_ber hc) hs e).symm
    simp only [mapErrContext, Res.bind_ok]
    rw [berValue_id hb, Res.bind_ok]
    by_cases hid : id = IdRef.sequence
    case neg =>
      rw [if_pos hid]
      exact errs_wrapped (pairFault_tag hid)
    rw [if_neg (not_not.2 hid), berValue_contents hb, Res.bind_ok]
    rw [show id = [0x30] from hid]
    have hf : (Rules.ber lax).Fits b := by change b.length ≤ isizeMax; omega
    rcases berParse_rules lax b hf with ⟨e, rest', hp', hn'⟩ | ⟨p', id', d', b', rest', hb', hp', hs'⟩
    · rw [hp']; exact errs_wrapped (pairFault_noKey hf hn')
    have hl' := Spec.Rules.starts_length hs'
    rw [hp']
    simp only [mapErrContext, Res.bind_ok]
    rcases berParse_rules lax rest' (by omega) with ⟨e, rest'', hp'', hn''⟩ | ⟨p'', id'', d'', b'', rest'', hb'', hp'', hs''⟩
    · rw [hp'']; exact errs_wrapped (pairFault_noValue hf hs' hn'')
    have hl'' := Spec.Rules.starts_length hs''
    rw [hp'']
    simp only [mapErrContext, Res.bind_ok]
    split
    · rename_i hem
      rw [List.isEmpty_iff] at hem
      subst hem
      rw [berValue_disassemble hb', Res.bind_ok]
      simp only [berValue_disassemble hb'', Res.bind_ok]
      exact (both_errs (hk id' d' b' (by omega)) (fun k => hd id' d' b' k (by omega)) (hv id'' d'' b'' (by omega))).congr fun e =>
        exists_congr fun e' => and_congr_right fun _ => (pairFault_both hf hs' hs'' e').symm
    · rename_i hem
      rw [List.isEmpty_iff] at hem
      exact errs_wrapped (pairFault_extra hf hs' hs'' hem)

/-! ### Collections -/

theorem collect_errs {next : Bytes → Res (Option (α × Bytes))} {r : Rules} {R : Bytes → Bool → Bytes → α → Prop}
    {F : Bytes → Bool → Bytes → Error → Prop} {n : Nat} (hn : Consumes n next)
    (hsome : ∀ (c : Bytes) x c', c.length ≤ n → (next c = .ok (some (x, c')) ↔ ∃ id d raw, r.Starts c id d raw c' ∧ R id d raw x))
    (hs : ∀ c : Bytes, c.length ≤ n → (next c).Errs fun e => c ≠ [] ∧ firstFault r F c e) (insert : γ → α → γ) :
    ∀ (f : Nat) (c : Bytes) (ret : γ), c.length ≤ n → c.length < f → (collectLoop next insert f c ret).Errs (ElemFault r R F c) := by
  intro f
  induction f with
  | zero => intro c ret _ h; omega
  | succ f ih =>
    intro c ret hc hf
    rw [collectLoop]
    refine ((hs c hc).bind (Q := fun o e => match o with
      | none => False
      | some (_, c') => ElemFault r R F c' e) fun o h => ?_).congr fun e => ?_
    · cases o with
      | none => exact Res.errs_ok _
      | some x =>
        obtain ⟨t, c'⟩ := x
        have := hn c t c' hc h
        exact ih c' _ (by omega) (by omega)
    · constructor
      · rintro (⟨h0, e', rfl, h | ⟨id, d, raw, rest, h1, h2⟩⟩ | ⟨o, h1, h2⟩)
        · exact .octets c e' h0 h
        · exact .here c id d raw rest e' h1 h2
        · cases o with
          | none => exact h2.elim
          | some x =>
            obtain ⟨x, c'⟩ := x
            obtain ⟨id, d, raw, h3, h4⟩ := (hsome c x c' hc).1 h1
            exact .later c id d raw c' x e h3 h4 h2
      · rintro (⟨_, e', h1, h2⟩ | ⟨_, id, d, raw, rest, e', h1, h2⟩ | ⟨_, id, d, raw, rest, x, _, h1, h2, h3⟩)
        · exact .inl ⟨h1, e', rfl, .inl h2⟩
        · exact .inl ⟨Spec.Rules.starts_ne_nil h1, e', rfl, .inr ⟨id, d, raw, rest, h1, h2⟩⟩
        · exact .inr ⟨some (x, rest), (hsome _ x rest hc).2 ⟨id, d, raw, h1, h2⟩, h3⟩

theorem collectDer_errs {d : De α} {R : Bytes → Bool → Bytes → α → Prop} {F : Bytes → Bool → Bytes → Error → Prop}
    (hd : DecodesDer d fun id c => R id false c) (h : ErrsDer d F) (insert : γ → α → γ) (c : Bytes) (ret : γ) :
    (collect (derToVal d) insert c ret).Errs (ElemFault .der R F c) := by
  refine collect_errs (derToVal_consumes c.length d) (fun c x c' _ => ?_) (fun c _ => derToVal_errs h c) insert _ c ret (Nat.le_refl _) (by omega)
  rw [derToVal_some d c]
  constructor
  · rintro ⟨id, b, h1, h2, h3, h4⟩; exact ⟨id, false, b, ⟨rfl, h1, h2, h4⟩, (hd id b x).1 h3⟩
  · rintro ⟨id, _, b, ⟨rfl, h1, h2, h4⟩, h3⟩; exact ⟨id, b, h1, h2, (hd id b x).2 h3, h4⟩

theorem collectBer_errs {d : De α} {R : Bytes → Bool → Bytes → α → Prop} {F : Bytes → Bool → Bytes → Error → Prop} (lax : Bool)
    (hd : DecodesBer d R) (h : ErrsBer d F) (insert : γ → α → γ) (c : Bytes) (hc : c.length ≤ isizeMax) (ret : γ) :
    (collect (berToVal d) insert c ret).Errs (ElemFault (.ber lax) R F c) := by
  refine collect_errs (berToVal_consumes d) (fun c x c' hc => ?_) (fun c hc => berToVal_errs lax h c hc) insert _ c ret hc (by omega)
  rw [berToVal_some d c hc]
  constructor
  · rintro ⟨p, id, d, raw, h1, h2, h3⟩
    have hs : (Rules.ber lax).Starts c id d raw c' := ⟨p, h1, h3⟩
    have := Spec.Rules.starts_length hs
    exact ⟨id, d, raw, hs, (hd id d raw x (by omega)).1 h2⟩
  · rintro ⟨id, d, raw, hs, h2⟩
    have := Spec.Rules.starts_length hs
    obtain ⟨p, h1, h3⟩ := hs
    exact ⟨p, id, d, raw, h1, (hd id d raw x (by omega)).2 h2, h3⟩

theorem derPair_congr {K K' : Bytes → Bytes → α → Prop} {V V' : Bytes → Bytes → β → Prop} (hk : ∀ id c x, K id c x ↔ K' id c x)
    (hv : ∀ id c x, V id c x ↔ V' id c x) {id c : Bytes} {x : α × β} : DerPair K V id c x ↔ DerPair K' V' id c x := by
  obtain rfl : K = K' := by funext id c x; exact propext (hk id c x)
  obtain rfl : V = V' := by funext id c x; exact propext (hv id c x)
  exact Iff.rfl

theorem collectDerPairs_errs {dk : De α} {dv : De β} {K : Bytes → Bool → Bytes → α → Prop} {V : Bytes → Bool → Bytes → β → Prop}
    {FK FV : Bytes → Bool → Bytes → Error → Prop} (hdk : DecodesDer dk fun id c => K id false c) (hdv : DecodesDer dv fun id c => V id false c)
    (hk : ErrsDer dk FK) (hv : ErrsDer dv FV) (insert : γ → α × β → γ) (c : Bytes) (ret : γ) :
    (collect (derToKeyVal dk dv) insert c ret).Errs (ElemFault .der (Rules.der.Pair K V) (PairFault .der K FK FV) c) := by
  refine collect_errs (derToKeyVal_consumes c.length dk dv) (fun c x c' _ => ?_) (fun c _ => derToKeyVal_errs hdk hk hv c) insert _ c ret
    (Nat.le_refl _) (by omega)
  rw [derToKeyVal_some dk dv c]
  have hp : ∀ id b, DerPair (fun id b x => dk.fromDer id b = .ok x) (fun id b x => dv.fromDer id b = .ok x) id b x ↔
      Rules.der.Pair K V id false b x := fun id b => derPair_congr hdk hdv
  constructor
  · rintro ⟨id, b, h1, h2, h3, h4⟩; exact ⟨id, false, b, ⟨rfl, h1, h2, h4⟩, (hp id b).1 h3⟩
  · rintro ⟨id, _, b, ⟨rfl, h1, h2, h4⟩, h3⟩; exact ⟨id, b, h1, h2, (hp id b).2 h3, h4⟩

theorem collectBerPairs_errs {dk : De α} {dv : De β} {K : Bytes → Bool → Bytes → α → Prop} {V : Bytes → Bool → Bytes → β → Prop}
    {FK FV : Bytes → Bool → Bytes → Error → Prop} (lax : Bool) (hdk : DecodesBer dk K) (hdv : DecodesBer dv V)
    (hk : ErrsBer dk FK) (hv : ErrsBer dv FV) (insert : γ → α × β → γ) (c : Bytes) (hc : c.length ≤ isizeMax) (ret : γ) :
    (collect (berToKeyVal dk dv) insert c ret).Errs (ElemFault (.ber lax) ((Rules.ber lax).Pair K V) (PairFault (.ber lax) K FK FV) c) := by
  refine collect_errs (berToKeyVal_consumes dk dv) (fun c x c' hc => ?_) (fun c hc => berToKeyVal_errs lax hdk hk hv c hc) insert _ c ret
    hc (by omega)
  rw [berToKeyVal_some dk dv c hc]
  constructor
  · rintro ⟨p, id, d, raw, h1, h2, h3⟩
    have hs : (Rules.ber lax).Starts c id d raw c' := ⟨p, h1, h3⟩
    have := Spec.Rules.starts_length hs
    exact ⟨id, d, raw, hs, (Spec.BerPair.congr (by omega) hdk hdv).1 h2⟩
  · rintro ⟨id, d, raw, hs, h2⟩
    have := Spec.Rules.starts_length hs
    obtain ⟨p, h1, h3⟩ := hs
    exact ⟨p, id, d, raw, h1, (Spec.BerPair.congr (by omega) hdk hdv).2 h2, h3⟩

/-! ### Bodies, fields, conversions -/

theorem excludeEoc_errs (m : Build) (indef : Bool) (raw : Bytes) :
    (excludeEoc m (lenOf indef raw) raw).Errs fun e => (∀ c, ¬ IsBody indef raw c) ∧ e = .unterminatedBytes := by
  refine (excludeEoc_settled m indef raw).errs (fun c h e he => he.1 c ((excludeEoc_iff m indef raw c).1 h)) fun e h e' => ?_
  have h0 : ∀ c, ¬ IsBody indef raw c := fun c hc => by
    rw [(excludeEoc_iff m indef raw c).2 hc] at h; cases h
  have : e = .unterminatedBytes := by
    cases indef with
    | false => exact absurd rfl (h0 raw)
    | true =>
      rw [lenOf, excludeEoc] at h
      split at h
      · rw [sliceTo] at h
        split at h <;> cases h
      · cases h; rfl
  rw [this]
  exact ⟨fun h => h.2, fun h => ⟨h0, h⟩⟩

theorem body_errs {m : Build} {indef : Bool} {raw : Bytes} {k : Bytes → Res α} {P : Bytes → Error → Prop} (hl : raw.length ≤ isizeMax)
    (hk : ∀ c : Bytes, c.length ≤ isizeMax → (k c).Errs (P c)) :
    (excludeEoc m (lenOf indef raw) raw >>= k).Errs (bodyFault indef raw P) := by
  refine ((excludeEoc_errs m indef raw).bind fun c h =>
    hk c (Nat.le_trans (isBody_length ((excludeEoc_iff m indef raw c).mp h)) hl)).congr fun e => or_congr Iff.rfl ?_
  exact exists_congr fun c => and_congr (excludeEoc_iff m indef raw c) Iff.rfl

theorem derBody_errs {c : Bytes} {x : Res α} {P : Bytes → Error → Prop} (h : x.Errs (P c)) : x.Errs (bodyFault false c P) :=
  h.congr fun e => ⟨fun he => .inr ⟨c, rfl, he⟩, fun he => he.elim (fun ⟨h, _⟩ => absurd rfl (h c)) fun ⟨c', h1, h2⟩ => by
    cases (show c = c' from h1); exact h2⟩

theorem back_errs {x : Res β} {E : Error → Prop} {R : β → Prop} (hx : x.Errs E) (hv : ∀ u, x = .ok u ↔ R u) (g : Back β α) :
    (match g with
      | .from_ g => x >>= fun u => (pure (g u) : Res α)
      | .tryFrom g => x >>= fun u => convErr (g u)).Errs fun e => E e ∨ ∃ u, R u ∧ convFault g u e := by
  cases g with
  | from_ g =>
    refine (hx.bindOk fun u => ⟨_, rfl⟩).congr fun e => ⟨.inl, ?_⟩
    rintro (h | ⟨u, _, ch, h, _⟩)
    · exact h
    · cases h
  | tryFrom g =>
    refine (hx.bind (Q := fun u => convFault (.tryFrom g) u) fun u _ e => ?_).congr fun e => or_congr Iff.rfl (exists_congr fun u => and_congr (hv u) Iff.rfl)
    simp only [convFault, Back.apply]
    cases g u with
    | ok v => exact ⟨(nomatch ·), (by rintro ⟨_, h, _⟩; cases h)⟩
    | error ch =>
      constructor
      · intro h; cases h; exact ⟨ch, rfl, rfl⟩
      · rintro ⟨_, h, rfl⟩; cases h; rfl

end Bsn1
