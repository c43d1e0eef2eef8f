import Verif.Lemmas.Der
import Verif.Lemmas.Sim
/-!
# Lemmas on BER
-/

set_option linter.unusedSimpArgs false

namespace Bsn1
open Spec

theorem isId_zero : IsId [0x00] := ⟨0, 0, 0, by decide, by decide, by decide +kernel⟩

theorem tlv_zero_nil : tlv [0x00] [] = Spec.eoc := by decide +kernel

theorem isId_length_pos {id : Bytes} (h : IsId id) : 0 < id.length := List.length_pos_iff.mpr (IsId.ne_nil h)

theorem tlv_prefix_free {id id' c c' rest rest' : Bytes} (h : IsId id) (h' : IsId id') (hc : c.length < 2 ^ 64)
    (hc' : c'.length < 2 ^ 64) (e : tlv id c ++ rest = tlv id' c' ++ rest') :
    tlv id c = tlv id' c' ∧ rest = rest' := by
  have h1 := DerRef_parse_tlv h hc rest
  rw [e, DerRef_parse_tlv h' hc' rest'] at h1
  simp only [Prod.mk.injEq, Res.ok.injEq] at h1
  exact ⟨h1.1.symm, h1.2.symm⟩

theorem tlv_eoc {id c rest r : Bytes} (h : IsId id) (hc : c.length < 2 ^ 64) (e : tlv id c ++ rest = Spec.eoc ++ r) :
    tlv id c = Spec.eoc ∧ rest = r := by
  rw [← tlv_zero_nil] at e ⊢
  exact tlv_prefix_free h isId_zero hc (by simp) e

theorem indef_ne_tlv {id id' c rest r : Bytes} (h : IsId id) (h' : IsId id') (hc : c.length < 2 ^ 64) :
    id ++ indefOctets ++ rest ≠ tlv id' c ++ r := by
  intro e
  have h1 := parseIdLength_indefinite h rest []
  have h2 := parseIdLength_definite h' hc (c ++ r) []
  have e2 : id' ++ lenOctets c.length ++ (c ++ r) = id ++ indefOctets ++ rest := by rw [e]; simp [tlv]
  rw [e2, h1] at h2
  simp at h2

theorem indef_ne_eoc {id rest r : Bytes} (h : IsId id) : id ++ indefOctets ++ rest ≠ Spec.eoc ++ r := by
  rw [← tlv_zero_nil]
  exact indef_ne_tlv h isId_zero (by simp)

theorem eoc_prefix (bs : Bytes) : BerRef.eoc.isPrefixOf bs = true ↔ ∃ r, bs = Spec.eoc ++ r := by
  rw [List.isPrefixOf_iff_prefix]
  constructor
  · rintro ⟨r, h⟩; exact ⟨r, h.symm⟩
  · rintro ⟨r, h⟩; exact ⟨r, h.symm⟩

/-- All results of one step of the BER parser on a slice. -/
inductive BerStep (bs : Bytes) : Res Int × Bytes → Prop
  | eoc (rest : Bytes) : bs = Spec.eoc ++ rest → BerStep bs (.ok (-1), rest)
  | definite (id c rest : Bytes) : IsId id → c.length < 2 ^ 64 → tlv id c ≠ Spec.eoc → bs = tlv id c ++ rest →
      BerStep bs (.ok 0, rest)
  | indefinite (id rest : Bytes) : IsId id → bs = id ++ indefOctets ++ rest → BerStep bs (.ok 1, rest)
  | error (e : Error) (p rest : Bytes) : bs = p ++ rest →
      (∀ id c r, IsId id → c.length < 2 ^ 64 → bs ≠ tlv id c ++ r) →
      (∀ id r, IsId id → bs ≠ id ++ indefOctets ++ r) →
      BerStep bs (.err e, rest)

theorem berStep_spec (bs : Bytes) : BerStep bs (BerRef.doParse bs) := by
  simp only [BerRef.doParse]
  by_cases he : BerRef.eoc.isPrefixOf bs = true
  · rw [if_pos he]
    obtain ⟨r, rfl⟩ := (eoc_prefix bs).mp he
    have : sliceFrom (Spec.eoc ++ r) BerRef.eoc.length = .ok r := by
      rw [sliceFrom, if_pos (by simp [Spec.eoc, BerRef.eoc])]; rfl
    rw [this]
    exact BerStep.eoc r rfl
  · rw [if_neg he]
    have hne : ∀ r, bs ≠ Spec.eoc ++ r := fun r h => he ((eoc_prefix bs).mpr ⟨r, h⟩)
    have hspec := parseIdLength_spec bs []
    generalize hrun : (parseIdLength (σ := Bytes)).run bs [] = r at hspec
    cases hspec with
    | definite id n rest h1 h2 h3 =>
      simp only
      by_cases hl : rest.length < n
      · rw [if_pos hl]
        refine BerStep.error _ (id ++ lenOctets n) rest h3 ?_ ?_
        · intro id' c r hi hc e
          have h5 := parseIdLength_definite hi hc (c ++ r) []
          have e2 : id' ++ lenOctets c.length ++ (c ++ r) = bs := by rw [e]; simp [tlv]
          rw [e2, hrun] at h5
          simp only [Prod.mk.injEq, Res.ok.injEq, Length.definite.injEq] at h5
          obtain ⟨rfl, rfl, _⟩ := h5
          simp at hl
        · intro id' r hi e
          have h5 := parseIdLength_indefinite hi r []
          rw [← e, hrun] at h5
          simp at h5
      · rw [if_neg hl, sliceFrom, if_pos (by omega)]
        have ht : (rest.take n).length = n := by simp; omega
        have hbs : bs = tlv id (rest.take n) ++ rest.drop n := by rw [h3, tlv, ht]; simp
        refine BerStep.definite id (rest.take n) (rest.drop n) h1 (by omega) ?_ hbs
        intro e
        rw [e] at hbs
        exact hne _ hbs
    | indefinite id rest h1 h2 => exact BerStep.indefinite id rest h1 h2
    | error e p rest w' h =>
      refine BerStep.error e p rest h ?_ ?_
      · intro id' c r hi hc e
        have h5 := parseIdLength_definite hi hc (c ++ r) []
        have e2 : id' ++ lenOctets c.length ++ (c ++ r) = bs := by rw [e]; simp [tlv]
        rw [e2, hrun] at h5
        simp at h5
      · intro id' r hi e
        have h5 := parseIdLength_indefinite hi r []
        rw [← e, hrun] at h5
        simp at h5

theorem doParse_eoc (rest : Bytes) : BerRef.doParse (Spec.eoc ++ rest) = (.ok (-1), rest) := by
  have h := berStep_spec (Spec.eoc ++ rest)
  generalize BerRef.doParse (Spec.eoc ++ rest) = r at h
  cases h with
  | eoc r h => rw [List.append_cancel_left h]
  | definite id c r h1 h2 h3 h4 => exact absurd (tlv_eoc h1 h2 h4.symm).1 h3
  | indefinite id r h1 h2 => exact absurd h2.symm (indef_ne_eoc h1)
  | error e p r h1 h2 h3 =>
    exact absurd (by rw [tlv_zero_nil]) (h2 [0x00] [] rest isId_zero (by simp))

theorem doParse_definite {id c : Bytes} (hid : IsId id) (hc : c.length < 2 ^ 64) (hne : tlv id c ≠ Spec.eoc)
    (rest : Bytes) : BerRef.doParse (tlv id c ++ rest) = (.ok 0, rest) := by
  have h := berStep_spec (tlv id c ++ rest)
  generalize BerRef.doParse (tlv id c ++ rest) = r at h
  cases h with
  | eoc r h => exact absurd (tlv_eoc hid hc h).1 hne
  | definite id' c' r h1 h2 h3 h4 => rw [(tlv_prefix_free hid h1 hc h2 h4).2]
  | indefinite id r h1 h2 => exact absurd h2.symm (indef_ne_tlv h1 hid hc)
  | error e p r h1 h2 h3 => exact absurd rfl (h2 id c rest hid hc)

theorem doParse_indefinite {id : Bytes} (hid : IsId id) (rest : Bytes) :
    BerRef.doParse (id ++ indefOctets ++ rest) = (.ok 1, rest) := by
  have h := berStep_spec (id ++ indefOctets ++ rest)
  generalize BerRef.doParse (id ++ indefOctets ++ rest) = r at h
  cases h with
  | eoc r h => exact absurd h (indef_ne_eoc hid)
  | definite id' c' r h1 h2 h3 h4 => exact absurd h4 (indef_ne_tlv hid h1 h2)
  | indefinite id' r h1 h2 =>
    have h3 := parseIdLength_indefinite hid rest []
    rw [h2, parseIdLength_indefinite h1 r] at h3
    simp only [Prod.mk.injEq, true_and] at h3
    rw [h3.1]
  | error e p r h1 h2 h3 => exact absurd rfl (h3 id rest hid)

/-- The loop of the parser without fuel: it ends with the remaining octets `rest`. -/
inductive Runs : Nat → Bytes → Bytes → Prop
  | stop (d : Nat) (δ : Int) (bs rest : Bytes) : BerRef.doParse bs = (.ok δ, rest) → (d : Int) + δ ≤ 0 → Runs d bs rest
  | step (d d' : Nat) (δ : Int) (bs bs' rest : Bytes) : BerRef.doParse bs = (.ok δ, bs') → (d : Int) + δ = d' →
      0 < d' → Runs d' bs' rest → Runs d bs rest

theorem Runs.det {d : Nat} {bs r r' : Bytes} (h : Runs d bs r) (h' : Runs d bs r') : r = r' := by
  induction h with
  | stop d δ bs rest h1 h2 =>
    cases h' with
    | stop _ δ' _ _ h3 h4 => rw [h1] at h3; simp at h3; exact h3.2
    | step _ d' δ' _ bs' _ h3 h4 h5 h6 => rw [h1] at h3; simp at h3; omega
  | step d d' δ bs bs' rest h1 h2 h3 h4 ih =>
    cases h' with
    | stop _ δ' _ _ h5 h6 => rw [h1] at h5; simp at h5; omega
    | step _ d'' δ' _ bs'' _ h5 h6 h7 h8 =>
      rw [h1] at h5
      simp only [Prod.mk.injEq, Res.ok.injEq] at h5
      obtain ⟨rfl, rfl⟩ := h5
      have : d'' = d' := by omega
      subst this
      exact ih h8

theorem runs_eoc_zero (rest : Bytes) : Runs 0 (Spec.eoc ++ rest) rest :=
  Runs.stop 0 (-1) _ _ (doParse_eoc rest) (by omega)

theorem runs_eoc {d : Nat} {rest r : Bytes} (h0 : d = 0 → r = rest) (h : 0 < d → Runs d rest r) :
    Runs (d + 1) (Spec.eoc ++ rest) r := by
  by_cases hd : d = 0
  · subst hd; rw [h0 rfl]
    exact Runs.stop 1 (-1) _ _ (doParse_eoc rest) (by omega)
  · exact Runs.step (d + 1) d (-1) _ _ _ (doParse_eoc rest) (by omega) (by omega) (h (by omega))

/-- Completeness: a value is passed over. -/
theorem runs_ber {v : Bytes} (hv : IsBer v) : ∀ (d : Nat) (rest r : Bytes), (v ≠ Spec.eoc ∨ d = 0) →
    (d = 0 → r = rest) → (0 < d → Runs d rest r) → Runs d (v ++ rest) r := by
  refine IsBer.rec
    (motive_1 := fun v _ => ∀ (d : Nat) (rest r : Bytes), (v ≠ Spec.eoc ∨ d = 0) →
      (d = 0 → r = rest) → (0 < d → Runs d rest r) → Runs d (v ++ rest) r)
    (motive_2 := fun c _ => ∀ (d : Nat) (rest r : Bytes), 0 < d → Runs d rest r → Runs d (c ++ rest) r)
    ?_ ?_ ?_ ?_ hv
  · intro id c hid hc d rest r hne h0 hr
    by_cases he : tlv id c = Spec.eoc
    · have hd : d = 0 := hne.resolve_left (fun h => h he)
      subst hd
      rw [he, h0 rfl]
      exact runs_eoc_zero rest
    · have hp := doParse_definite hid hc he rest
      by_cases hd : d = 0
      · subst hd; rw [h0 rfl]
        exact Runs.stop 0 0 _ _ hp (by omega)
      · exact Runs.step d d 0 _ _ _ hp (by omega) (by omega) (hr (by omega))
  · intro id c hid _ ih d rest r hne h0 hr
    have e : id ++ indefOctets ++ c ++ Spec.eoc ++ rest = id ++ indefOctets ++ (c ++ (Spec.eoc ++ rest)) := by simp
    rw [e]
    refine Runs.step d (d + 1) 1 _ _ _ (doParse_indefinite hid _) (by omega) (by omega) ?_
    exact ih (d + 1) _ r (by omega) (runs_eoc h0 hr)
  · intro d rest r _ h; exact h
  · intro v c _ hne _ ih1 ih2 d rest r hd hr
    rw [List.append_assoc]
    exact ih1 d _ r (Or.inl hne) (by omega) (fun _ => ih2 d rest r hd hr)

/-- `bs` closes `d` indefinite values and leaves `rest`. -/
inductive Closes : Nat → Bytes → Bytes → Prop
  | zero (rest : Bytes) : Closes 0 rest rest
  | succ (d : Nat) (c bs rest : Bytes) : BerSeq c → Closes d bs rest → Closes (d + 1) (c ++ Spec.eoc ++ bs) rest

theorem Closes.cons {d : Nat} {v bs rest : Bytes} (hv : IsBer v) (hne : v ≠ Spec.eoc) (h : Closes (d + 1) bs rest) :
    Closes (d + 1) (v ++ bs) rest := by
  cases h with
  | succ _ c bs' _ h1 h2 =>
    have e : v ++ (c ++ Spec.eoc ++ bs') = (v ++ c) ++ Spec.eoc ++ bs' := by simp
    rw [e]
    exact Closes.succ d _ _ _ (BerSeq.cons v c hv hne h1) h2

theorem indef_value_ne_eoc {id c : Bytes} (h : IsId id) : id ++ indefOctets ++ c ++ Spec.eoc ≠ Spec.eoc := by
  intro e
  have := congrArg List.length e
  have := isId_length_pos h
  simp [indefOctets, Spec.eoc] at *
  omega

/-- Soundness. -/
theorem runs_sound {d : Nat} {bs rest : Bytes} (h : Runs d bs rest) :
    (d = 0 → ∃ v, IsBer v ∧ bs = v ++ rest) ∧ (0 < d → Closes d bs rest) := by
  induction h with
  | stop d δ bs rest h1 h2 =>
    have hs := berStep_spec bs
    rw [h1] at hs
    cases hs with
    | eoc _ h3 =>
      refine ⟨fun _ => ⟨Spec.eoc, ?_, h3⟩, fun hd => ?_⟩
      · rw [← tlv_zero_nil]; exact IsBer.definite _ _ isId_zero (by simp)
      · have : d = 1 := by omega
        subst this
        have e : bs = [] ++ Spec.eoc ++ rest := by simpa using h3
        rw [e]
        exact Closes.succ 0 [] rest rest BerSeq.nil (Closes.zero rest)
    | definite id c _ h3 h4 h5 h6 =>
      exact ⟨fun _ => ⟨tlv id c, IsBer.definite id c h3 h4, h6⟩, fun hd => by omega⟩
    | indefinite id _ h3 h4 => omega
  | step d d' δ bs bs' rest h1 h2 h3 _ ih =>
    have hs := berStep_spec bs
    rw [h1] at hs
    have hc := ih.2 h3
    cases hs with
    | eoc _ h4 =>
      refine ⟨fun hd => by omega, fun hd => ?_⟩
      have : d = d' + 1 := by omega
      subst this
      have e : bs = [] ++ Spec.eoc ++ bs' := by simpa using h4
      rw [e]
      exact Closes.succ d' [] bs' rest BerSeq.nil hc
    | definite id c _ h4 h5 h6 h7 =>
      refine ⟨fun hd => by omega, fun hd => ?_⟩
      obtain ⟨k, rfl⟩ : ∃ k, d = k + 1 := ⟨d - 1, by omega⟩
      have : d' = k + 1 := by omega
      subst this
      rw [h7]
      exact Closes.cons (IsBer.definite id c h4 h5) h6 hc
    | indefinite id _ h4 h5 =>
      have : d' = d + 1 := by omega
      subst this
      cases hc with
      | succ _ c bs'' _ h6 h7 =>
        have hv := IsBer.indefinite id c h4 h6
        have e : bs = (id ++ indefOctets ++ c ++ Spec.eoc) ++ bs'' := by rw [h5]; simp
        refine ⟨fun hd => ?_, fun hd => ?_⟩
        · subst hd
          cases h7
          exact ⟨_, hv, e⟩
        · obtain ⟨k, rfl⟩ : ∃ k, d = k + 1 := ⟨d - 1, by omega⟩
          rw [e]
          exact Closes.cons hv (indef_value_ne_eoc h4) h7

theorem runs_iff (bs rest : Bytes) : Runs 0 bs rest ↔ ∃ v, IsBer v ∧ bs = v ++ rest := by
  constructor
  · intro h; exact (runs_sound h).1 rfl
  · rintro ⟨v, hv, rfl⟩
    exact runs_ber hv 0 rest rest (Or.inr rfl) (fun _ => rfl) (fun h => by omega)

theorem isBer_prefix_free {v v' rest rest' : Bytes} (h : IsBer v) (h' : IsBer v') (e : v ++ rest = v' ++ rest') :
    v = v' ∧ rest = rest' := by
  have h1 := (runs_iff (v ++ rest) rest).mpr ⟨v, h, rfl⟩
  have h2 := (runs_iff (v ++ rest) rest').mpr ⟨v', h', e⟩
  have := h1.det h2
  subst this
  exact ⟨List.append_cancel_right e, rfl⟩

/-- One step removes at least two octets. -/
theorem doParse_length {bs bs' : Bytes} {δ : Int} (h : BerRef.doParse bs = (.ok δ, bs')) :
    bs'.length + 2 ≤ bs.length ∧ -1 ≤ δ ∧ δ ≤ 1 := by
  have hs := berStep_spec bs
  rw [h] at hs
  cases hs with
  | eoc _ h3 => rw [h3]; simp [Spec.eoc]
  | definite id c _ h1 h2 h3 h4 =>
    have := isId_length_pos h1
    have := List.length_pos_iff.mpr (lenOctets_ne_nil c.length)
    rw [h4, List.length_append, tlv_length]; omega
  | indefinite id _ h1 h2 =>
    have := isId_length_pos h1
    rw [h2]; simp [indefOctets]; omega

theorem parseLoop_spec : ∀ (f d : Nat) (bs : Bytes), bs.length < f → d + bs.length ≤ isizeMax →
    (∃ rest, BerRef.parseLoop f d bs = (.ok (), rest) ∧ Runs d bs rest) ∨
    (∃ e p rest, BerRef.parseLoop f d bs = (.err e, rest) ∧ bs = p ++ rest ∧ ∀ r, ¬ Runs d bs r) := by
  intro f
  induction f with
  | zero => intro d bs h; omega
  | succ f ih =>
    intro d bs hf hmax
    simp only [BerRef.parseLoop]
    have hs := berStep_spec bs
    rcases hdp : BerRef.doParse bs with ⟨r, bs'⟩
    rw [hdp] at hs
    match r with
    | .ok δ =>
      obtain ⟨hl1, hl2, hl3⟩ := doParse_length hdp
      simp only
      rw [if_neg (by omega)]
      by_cases hpos : (d : Int) + δ > 0
      · rw [if_pos hpos]
        obtain ⟨d', hd'⟩ : ∃ d' : Nat, (d : Int) + δ = d' := ⟨((d : Int) + δ).toNat, by omega⟩
        rw [hd']
        have hpre : ∃ q, bs = q ++ bs' := by
          cases hs with
          | eoc _ h => exact ⟨_, h⟩
          | definite id c _ h1 h2 h3 h4 => exact ⟨_, h4⟩
          | indefinite id _ h1 h2 => exact ⟨_, h2⟩
        rcases ih d' bs' (by omega) (by omega) with ⟨rest, h1, h2⟩ | ⟨e, p, rest, h1, h2, h3⟩
        · exact Or.inl ⟨rest, h1, Runs.step d d' δ bs bs' rest hdp hd' (by omega) h2⟩
        · right
          obtain ⟨q, hq⟩ := hpre
          refine ⟨e, q ++ p, rest, h1, by rw [hq, h2]; simp, ?_⟩
          intro r hr
          cases hr with
          | stop _ δ' _ _ h4 h5 => rw [hdp] at h4; simp at h4; omega
          | step _ d'' δ' _ bs'' _ h4 h5 h6 h7 =>
            rw [hdp] at h4
            simp only [Prod.mk.injEq, Res.ok.injEq] at h4
            obtain ⟨rfl, rfl⟩ := h4
            have : d'' = d' := by omega
            subst this
            exact h3 r h7
      · rw [if_neg hpos]
        exact Or.inl ⟨bs', rfl, Runs.stop d δ bs bs' hdp (by omega)⟩
    | .err e =>
      right
      cases hs with
      | error _ p _ h1 h2 h3 =>
        refine ⟨e, p, bs', rfl, h1, ?_⟩
        intro r hr
        cases hr with
        | stop _ δ' _ _ h4 h5 => rw [hdp] at h4; simp at h4
        | step _ d'' δ' _ bs'' _ h4 h5 h6 h7 => rw [hdp] at h4; simp at h4
    | .panic => cases hs
    | .ub => cases hs

theorem BerRef_parse_cases (bs : Bytes) (hlen : bs.length ≤ isizeMax) :
    (∃ v rest, IsBer v ∧ bs = v ++ rest ∧ BerRef.parse bs = (.ok v, rest)) ∨
    (∃ e p rest, bs = p ++ rest ∧ BerRef.parse bs = (.err e, rest) ∧ ∀ v r, IsBer v → bs ≠ v ++ r) := by
  have h := parseLoop_spec (bs.length + 1) 0 bs (by omega) (by omega)
  simp only [Nat.cast_zero] at h
  rcases h with ⟨rest, h1, h2⟩ | ⟨e, p, rest, h1, h2, h3⟩
  · left
    obtain ⟨v, hv, rfl⟩ := (runs_iff _ _).mp h2
    refine ⟨v, rest, hv, rfl, ?_⟩
    simp only [BerRef.parse, h1, sliceTo]
    rw [if_pos (by simp)]
    simp
  · right
    refine ⟨e, p, rest, h2, ?_, ?_⟩
    · simp only [BerRef.parse, h1]
    · intro v r hv e
      exact h3 r ((runs_iff _ _).mpr ⟨v, hv, e⟩)

theorem BerRef_parse_ok {v rest : Bytes} (hv : IsBer v) (hlen : (v ++ rest).length ≤ isizeMax) :
    BerRef.parse (v ++ rest) = (.ok v, rest) := by
  rcases BerRef_parse_cases (v ++ rest) hlen with ⟨v', rest', h1, h2, h3⟩ | ⟨e, p, r, h1, h2, h3⟩
  · obtain ⟨rfl, rfl⟩ := isBer_prefix_free hv h1 h2
    exact h3
  · exact absurd rfl (h3 v rest hv)

theorem BerRef_parse_sound {bs v rest : Bytes} (hlen : bs.length ≤ isizeMax) (h : BerRef.parse bs = (.ok v, rest)) :
    IsBer v ∧ bs = v ++ rest := by
  rcases BerRef_parse_cases bs hlen with ⟨v', rest', h1, h2, h3⟩ | ⟨e, p, r, h1, h2, h3⟩
  · rw [h] at h3
    simp only [Prod.mk.injEq, Res.ok.injEq] at h3
    obtain ⟨rfl, rfl⟩ := h3
    exact ⟨h1, h2⟩
  · rw [h] at h2; simp at h2

theorem berDisassemble_indef {id : Bytes} (hid : IsId id) (c : Bytes) :
    BerRef.disassemble (id ++ indefOctets ++ c) = .ok (id, .indefinite, c) := by
  simp only [BerRef.disassemble, List.append_assoc, parseIdUnchecked_shape ((isId_iff_shape _).mp hid),
    Res.bind_ok, indefOctets, List.cons_append, List.nil_append, parseLengthUnchecked_indef]
  rfl

/-! ### `Ber::parse` on slices -/

/-- All results of `Ber::do_parse` on a slice. -/
inductive BerRead (m : Build) (bs w : Bytes) : Res Int × Bytes × Bytes → Prop
  | definite (id c rest : Bytes) (δ : Int) : IsId id → c.length < 2 ^ 64 → bs = tlv id c ++ rest →
      δ = (if tlv id c = Spec.eoc then -1 else 0) →
      BerRead m bs w (.ok δ, rest, w ++ tlv id c)
  | indefinite (id rest : Bytes) : IsId id → bs = id ++ indefOctets ++ rest →
      BerRead m bs w (.ok 1, rest, w ++ (id ++ indefOctets))
  | error (r : Res Int) (rest w' : Bytes) : (∀ δ, r ≠ .ok δ) →
      (∀ id c r, IsId id → c.length < 2 ^ 64 → w.length + (tlv id c).length ≤ isizeMax → bs ≠ tlv id c ++ r) →
      (∀ id r, IsId id → bs ≠ id ++ indefOctets ++ r) →
      (r = .panic ∨ r = .ub → ∃ id n rest, IsId id ∧ n < 2 ^ 64 ∧ bs = id ++ lenOctets n ++ rest ∧
        isizeMax < w.length + id.length + (lenOctets n).length + n) →
      BerRead m bs w (r, rest, w')

theorem reserve_overflow (m : Build) (a n : Nat) (hn : n < usizeSize) (h : usizeSize ≤ a + n) :
    (do
      let _ ← bufReserve m a n
      let total ← uadd m a n
      if a ≤ total then return total - a else Res.panic) = (Res.panic : Res Nat) := by
  cases m with
  | debug =>
    have : bufReserve .debug a n = .panic := by
      rw [bufReserve, uadd, if_neg (by omega)]; rfl
    rw [this]; rfl
  | release =>
    have hu : 0 < usizeSize := by norm_num [usizeSize]
    have h1 : uadd .release a n = .ok ((a + n) % usizeSize) := by rw [uadd, if_neg (by omega)]
    have h2 : (a + n) % usizeSize < a := by
      by_cases ha : usizeSize ≤ a
      · exact Nat.lt_of_lt_of_le (Nat.mod_lt _ hu) ha
      · rw [Nat.mod_eq_sub_mod h, Nat.mod_eq_of_lt (by omega)]; omega
    rw [bufReserve, h1]
    generalize (a + n) % usizeSize = t at h2
    simp only [Res.bind_ok]
    by_cases ht : t ≤ isizeMax
    · rw [if_pos ht]
      simp only [Res.pure_eq, Res.bind_ok]
      rw [if_neg (by omega)]
    · rw [if_neg ht]; rfl

theorem berRead_spec (m : Build) (bs w : Bytes) : BerRead m bs w ((Ber.doParse m).run bs w) := by
  have hi := isizeMax_eq
  have hu := usizeSize_eq
  simp only [Ber.doParse]
  have hspec := parseIdLength_spec bs w
  generalize hrun : (parseIdLength (σ := Bytes)).run bs w = r at hspec
  cases hspec with
  | definite id n rest h1 h2 h3 =>
    have hw : (w ++ id ++ lenOctets n).length = w.length + id.length + (lenOctets n).length := by simp; omega
    have hnoindef : ∀ id r, IsId id → bs ≠ id ++ indefOctets ++ r := by
      intro id' r hi e
      have h5 := parseIdLength_indefinite hi r w
      rw [← e, hrun] at h5
      simp at h5
    have hdef : ∀ id' c r, IsId id' → c.length < 2 ^ 64 → bs = tlv id' c ++ r →
        n = c.length ∧ rest = c ++ r ∧ id.length + (lenOctets n).length = id'.length + (lenOctets c.length).length := by
      intro id' c r hi hc e
      have h5 := parseIdLength_definite hi hc (c ++ r) w
      have e2 : id' ++ lenOctets c.length ++ (c ++ r) = bs := by rw [e]; simp [tlv]
      rw [e2, hrun] at h5
      simp only [Prod.mk.injEq, Res.ok.injEq, Length.definite.injEq] at h5
      refine ⟨h5.1, h5.2.1, ?_⟩
      have := congrArg List.length h5.2.2
      simp only [List.length_append] at this
      omega
    simp only
    by_cases hfit : (w ++ id ++ lenOctets n).length + n ≤ isizeMax
    · rw [bufReserve_ok hfit]
      simp only [Res.bind_ok]
      rw [uadd_ok (by omega)]
      simp only [Res.bind_ok]
      rw [if_pos (by omega)]
      simp only [Res.pure_eq, Nat.add_sub_cancel_left]
      obtain ⟨s', hr1, rfl⟩ := readExact_slice n rest
      rw [hr1]
      by_cases hl : n ≤ rest.length
      · simp only [if_pos hl]
        have ht : (rest.take n).length = n := by simp; omega
        have hsl : sliceFrom (w ++ id ++ lenOctets n ++ rest.take n) w.length = .ok (tlv id (rest.take n)) := by
          rw [sliceFrom, if_pos (by simp)]
          simp [tlv, ht]
        rw [hsl]
        simp only
        have e3 : w ++ id ++ lenOctets n ++ rest.take n = w ++ tlv id (rest.take n) := by rw [tlv, ht]; simp
        rw [e3]
        refine BerRead.definite id (rest.take n) (rest.drop n) _ h1 (by omega) ?_ rfl
        rw [h3, tlv, ht]; simp
      · simp only [if_neg hl]
        refine BerRead.error _ _ _ (by simp) ?_ hnoindef (by simp)
        intro id' c r hi hc _ e
        obtain ⟨h4, h5, _⟩ := hdef id' c r hi hc e
        rw [h5, h4] at hl
        simp at hl
    · have hbig : isizeMax < w.length + id.length + (lenOctets n).length + n := by omega
      have hno : ∀ id' c r, IsId id' → c.length < 2 ^ 64 → w.length + (tlv id' c).length ≤ isizeMax →
          bs ≠ tlv id' c ++ r := by
        intro id' c r hi hc hm e
        obtain ⟨h4, h5, h6⟩ := hdef id' c r hi hc e
        rw [tlv_length] at hm
        omega
      have hw' : ∃ id n rest, IsId id ∧ n < 2 ^ 64 ∧ bs = id ++ lenOctets n ++ rest ∧
        isizeMax < w.length + id.length + (lenOctets n).length + n := ⟨id, n, rest, h1, h2, h3, hbig⟩
      by_cases hsz : (w ++ id ++ lenOctets n).length + n < usizeSize
      · rw [bufReserve_panic (by omega) hsz]
        simp only [Res.bind_panic]
        exact BerRead.error _ _ _ (by simp) hno hnoindef (fun _ => hw')
      · -- the sum overflows
        have hpanic : (do
            let _ ← bufReserve m (w ++ id ++ lenOctets n).length n
            let total ← uadd m (w ++ id ++ lenOctets n).length n
            if (w ++ id ++ lenOctets n).length ≤ total then
              return total - (w ++ id ++ lenOctets n).length else Res.panic) = (Res.panic : Res Nat) :=
          reserve_overflow m _ n (by omega) (by omega)
        rw [hpanic]
        exact BerRead.error _ _ _ (by simp) hno hnoindef (fun _ => hw')
  | indefinite id rest h1 h2 =>
    simp only [List.append_assoc]
    exact BerRead.indefinite id rest h1 h2
  | error e p rest w' h =>
    refine BerRead.error _ _ _ (by simp) ?_ ?_ (by simp)
    · intro id' c r hi hc _ e
      have h5 := parseIdLength_definite hi hc (c ++ r) w
      have e2 : id' ++ lenOctets c.length ++ (c ++ r) = bs := by rw [e]; simp [tlv]
      rw [e2, hrun] at h5
      simp at h5
    · intro id' r hi e
      have h5 := parseIdLength_indefinite hi r w
      rw [← e, hrun] at h5
      simp at h5

theorem berRead_length {m : Build} {bs w bs' w' : Bytes} {δ : Int}
    (h : (Ber.doParse m).run bs w = (.ok δ, bs', w')) :
    bs'.length + 2 ≤ bs.length ∧ -1 ≤ δ ∧ δ ≤ 1 ∧ ∃ p, bs = p ++ bs' ∧ w' = w ++ p := by
  have hs := berRead_spec m bs w
  rw [h] at hs
  cases hs with
  | definite id c _ _ h1 h2 h3 h4 =>
    have := isId_length_pos h1
    have := List.length_pos_iff.mpr (lenOctets_ne_nil c.length)
    refine ⟨by rw [h3, List.length_append, tlv_length]; omega, ?_, ?_, _, h3, rfl⟩
    · rw [h4]; split <;> omega
    · rw [h4]; split <;> omega
  | indefinite id _ h1 h2 =>
    have := isId_length_pos h1
    refine ⟨by rw [h2]; simp [indefOctets]; omega, by omega, by omega, _, h2, rfl⟩
  | error r _ _ h1 => exact absurd rfl (h1 δ)

/-- On slices `Ber::do_parse` and `BerRef::do_parse` take the same steps. -/
theorem berRead_iff (m : Build) (bs w bs' : Bytes) (δ : Int) (hlen : w.length + bs.length ≤ isizeMax) :
    (∃ w', (Ber.doParse m).run bs w = (.ok δ, bs', w')) ↔ BerRef.doParse bs = (.ok δ, bs') := by
  have hs := berRead_spec m bs w
  generalize (Ber.doParse m).run bs w = r at hs
  constructor
  · rintro ⟨w', rfl⟩
    cases hs with
    | definite id c _ _ h1 h2 h3 h4 =>
      by_cases he : tlv id c = Spec.eoc
      · rw [if_pos he] at h4; rw [h3, h4, he]; exact doParse_eoc _
      · rw [if_neg he] at h4; rw [h3, h4]; exact doParse_definite h1 h2 he _
    | indefinite id _ h1 h2 => rw [h2]; exact doParse_indefinite h1 _
    | error r _ _ h1 => exact absurd rfl (h1 δ)
  · intro h
    cases hs with
    | definite id c rest δ' h1 h2 h3 h4 =>
      by_cases he : tlv id c = Spec.eoc
      · rw [h3, he, doParse_eoc] at h
        simp only [Prod.mk.injEq, Res.ok.injEq] at h
        rw [if_pos he] at h4
        obtain ⟨rfl, rfl⟩ := h
        exact ⟨_, by rw [h4]⟩
      · rw [h3, doParse_definite h1 h2 he] at h
        simp only [Prod.mk.injEq, Res.ok.injEq] at h
        rw [if_neg he] at h4
        obtain ⟨rfl, rfl⟩ := h
        exact ⟨_, by rw [h4]⟩
    | indefinite id rest h1 h2 =>
      rw [h2, doParse_indefinite h1] at h
      simp only [Prod.mk.injEq, Res.ok.injEq] at h
      obtain ⟨rfl, rfl⟩ := h
      exact ⟨_, rfl⟩
    | error r rest w' h1 h2 h3 h4 =>
      exfalso
      have hb := berStep_spec bs
      rw [h] at hb
      cases hb with
      | eoc _ h5 =>
        rw [← tlv_zero_nil] at h5
        have hl := congrArg List.length h5
        rw [List.length_append] at hl
        exact h2 [0x00] [] _ isId_zero (by simp) (by omega) h5
      | definite id c _ h5 h6 h7 h8 =>
        have hl := congrArg List.length h8
        rw [List.length_append] at hl
        exact h2 id c _ h5 h6 (by omega) h8
      | indefinite id _ h5 h6 => exact h3 id _ h5 h6

theorem sim_berParseLoop {σ : Type} [Reader σ] {R : σ → Bytes → Prop} (hd : Delivers R) (m : Build) :
    ∀ (f g : Nat) (d : Int) (s : σ) (bs w : Bytes), R s bs → bs.length < f → bs.length < g →
    ((Ber.parseLoop m f d).run s w).1 = ((Ber.parseLoop m g d).run bs w).1 ∧
    ((Ber.parseLoop m f d).run s w).2.2 = ((Ber.parseLoop m g d).run bs w).2.2 ∧
    R ((Ber.parseLoop m f d).run s w).2.1 ((Ber.parseLoop m g d).run bs w).2.1 := by
  intro f
  induction f with
  | zero => intro g d s bs w _ h; omega
  | succ f ih =>
    intro g d s bs w h hf hg
    match g with
    | 0 => omega
    | g + 1 =>
      simp only [Ber.parseLoop, P.bind_def]
      have hsim := sim_berDoParse hd m s bs w h
      rcases hx : (Ber.doParse (σ := σ) m).run s w with ⟨r, s', w'⟩
      rcases hy : (Ber.doParse (σ := Bytes) m).run bs w with ⟨r2, bs', w2⟩
      rw [hx, hy] at hsim
      simp only at hsim
      obtain ⟨rfl, rfl, hR⟩ := hsim
      match r with
      | .ok δ =>
        obtain ⟨hl, _⟩ := berRead_length hy
        simp only [P.ite_apply, P.lift_apply, P.pure_apply]
        by_cases h1 : (isizeMax : Int) < d + δ
        · simp only [if_pos h1]; exact ⟨trivial, trivial, hR⟩
        · simp only [if_neg h1]
          by_cases h2 : d + δ > 0
          · simp only [if_pos h2]
            exact ih g (d + δ) s' bs' w' hR (by omega) (by omega)
          · simp only [if_neg h2]; exact ⟨trivial, trivial, hR⟩
      | .err e => exact ⟨rfl, rfl, hR⟩
      | .panic => exact ⟨rfl, rfl, hR⟩
      | .ub => exact ⟨rfl, rfl, hR⟩

/-- `Ber::parse` only depends on what the reader delivers. -/
theorem sim_berParse {σ : Type} [Reader σ] {R : σ → Bytes → Prop} (hd : Delivers R) (m : Build) {s : σ} {bs : Bytes}
    (h : R s bs) : (Ber.parse m s).1 = (Ber.parse m bs).1 ∧ R (Ber.parse m s).2 (Ber.parse m bs).2 := by
  have hsz := hd.size_le s bs h
  have hsim := sim_berParseLoop hd m (Reader.size s + 1) (bs.length + 1) 0 s bs [] h (by omega) (by omega)
  simp only [Ber.parse, size_bytes]
  rcases hx : (Ber.parseLoop (σ := σ) m (Reader.size s + 1) 0).run s [] with ⟨r, s', w'⟩
  rcases hy : (Ber.parseLoop (σ := Bytes) m (bs.length + 1) 0).run bs [] with ⟨r2, bs', w2⟩
  rw [hx, hy] at hsim
  simp only at hsim
  obtain ⟨rfl, rfl, hR⟩ := hsim
  cases r <;> exact ⟨rfl, hR⟩

theorem berParseLoop_slice (m : Build) : ∀ (f d : Nat) (bs w : Bytes), bs.length < f → d ≤ w.length →
    w.length + bs.length ≤ isizeMax →
    (∃ p rest, (Ber.parseLoop m f d).run bs w = (.ok (), rest, w ++ p) ∧ bs = p ++ rest ∧ Runs d bs rest) ∨
    (∃ r rest w', (Ber.parseLoop m f d).run bs w = (r, rest, w') ∧ r ≠ .ok () ∧ (∀ x, ¬ Runs d bs x) ∧
      (r = .panic ∨ r = .ub → ∃ p id n q, IsId id ∧ n < 2 ^ 64 ∧ bs = p ++ id ++ lenOctets n ++ q ∧
        isizeMax < (w ++ p ++ id ++ lenOctets n).length + n)) := by
  intro f
  induction f with
  | zero => intro d bs w h; omega
  | succ f ih =>
    intro d bs w hf hdw hmax
    simp only [Ber.parseLoop, P.bind_def]
    rcases hdp : (Ber.doParse (σ := Bytes) m).run bs w with ⟨r, bs', w'⟩
    match r with
    | .ok δ =>
      obtain ⟨hl1, hl2, hl3, p, hp1, hp2⟩ := berRead_length hdp
      have href := (berRead_iff m bs w bs' δ (by omega)).mp ⟨w', hdp⟩
      have hpl := congrArg List.length hp1
      rw [List.length_append] at hpl
      simp only [P.ite_apply, P.lift_apply, P.pure_apply]
      rw [if_neg (by omega)]
      by_cases hpos : (d : Int) + δ > 0
      · rw [if_pos hpos]
        obtain ⟨d', hd'⟩ : ∃ d' : Nat, (d : Int) + δ = d' := ⟨((d : Int) + δ).toNat, by omega⟩
        rw [hd']
        rcases ih d' bs' w' (by omega) (by rw [hp2, List.length_append]; omega)
          (by rw [hp2, List.length_append]; omega) with
          ⟨q, rest, h1, h2, h3⟩ | ⟨e, rest, w'', h1, h2, h3, h4⟩
        · left
          refine ⟨p ++ q, rest, ?_, by rw [hp1, h2]; simp, Runs.step d d' δ bs bs' rest href hd' (by omega) h3⟩
          rw [h1, hp2]; simp
        · right
          refine ⟨e, rest, w'', h1, h2, ?_, ?_⟩
          · intro r hr
            cases hr with
            | stop _ δ' _ _ h4 h5 => rw [href] at h4; simp at h4; omega
            | step _ d'' δ' _ bs'' _ h4 h5 h6 h7 =>
              rw [href] at h4
              simp only [Prod.mk.injEq, Res.ok.injEq] at h4
              obtain ⟨rfl, rfl⟩ := h4
              have : d'' = d' := by omega
              subst this
              exact h3 r h7
          · intro hx
            obtain ⟨p', id, n, q, k1, k2, k3, k4⟩ := h4 hx
            refine ⟨p ++ p', id, n, q, k1, k2, by rw [hp1, k3]; simp, ?_⟩
            rw [hp2] at k4
            simpa using k4
      · rw [if_neg hpos]
        exact Or.inl ⟨p, bs', by rw [hp2], hp1, Runs.stop d δ bs bs' href (by omega)⟩
    | .err e =>
      right
      refine ⟨_, _, _, rfl, by simp, ?_, by simp⟩
      intro r hr
      cases hr with
      | stop _ δ' _ _ h4 h5 =>
        obtain ⟨w2, h6⟩ := (berRead_iff m bs w _ δ' (by omega)).mpr h4
        rw [hdp] at h6; simp at h6
      | step _ d'' δ' _ bs'' _ h4 h5 h6 h7 =>
        obtain ⟨w2, h6⟩ := (berRead_iff m bs w _ δ' (by omega)).mpr h4
        rw [hdp] at h6; simp at h6
    | .panic =>
      right
      refine ⟨_, _, _, rfl, by simp, ?_, ?_⟩
      · intro r hr
        cases hr with
        | stop _ δ' _ _ h4 h5 =>
          obtain ⟨w2, h6⟩ := (berRead_iff m bs w _ δ' (by omega)).mpr h4
          rw [hdp] at h6; simp at h6
        | step _ d'' δ' _ bs'' _ h4 h5 h6 h7 =>
          obtain ⟨w2, h6⟩ := (berRead_iff m bs w _ δ' (by omega)).mpr h4
          rw [hdp] at h6; simp at h6
      · intro hx
        have hs := berRead_spec m bs w
        rw [hdp] at hs
        cases hs with
        | error _ _ _ h1 h2 h3 h4 =>
          obtain ⟨id, n, rest, k1, k2, k3, k4⟩ := h4 (by simp)
          refine ⟨[], id, n, rest, k1, k2, by simpa using k3, ?_⟩
          simp; omega
    | .ub =>
      right
      refine ⟨_, _, _, rfl, by simp, ?_, ?_⟩
      · intro r hr
        cases hr with
        | stop _ δ' _ _ h4 h5 =>
          obtain ⟨w2, h6⟩ := (berRead_iff m bs w _ δ' (by omega)).mpr h4
          rw [hdp] at h6; simp at h6
        | step _ d'' δ' _ bs'' _ h4 h5 h6 h7 =>
          obtain ⟨w2, h6⟩ := (berRead_iff m bs w _ δ' (by omega)).mpr h4
          rw [hdp] at h6; simp at h6
      · intro hx
        have hs := berRead_spec m bs w
        rw [hdp] at hs
        cases hs with
        | error _ _ _ h1 h2 h3 h4 =>
          obtain ⟨id, n, rest, k1, k2, k3, k4⟩ := h4 (by simp)
          refine ⟨[], id, n, rest, k1, k2, by simpa using k3, ?_⟩
          simp; omega

theorem Ber_parse_cases (m : Build) (bs : Bytes) (hlen : bs.length ≤ isizeMax) :
    (∃ v rest, IsBer v ∧ bs = v ++ rest ∧ Ber.parse m bs = (.ok v, rest)) ∨
    (∃ r rest, Ber.parse m bs = (r, rest) ∧ (∀ v, r ≠ .ok v) ∧ (∀ v r, IsBer v → bs ≠ v ++ r) ∧
      (r = .panic ∨ r = .ub → ∃ p id n q, IsId id ∧ n < 2 ^ 64 ∧ bs = p ++ id ++ lenOctets n ++ q ∧
        isizeMax < (p ++ id ++ lenOctets n).length + n)) := by
  have h := berParseLoop_slice m (bs.length + 1) 0 bs [] (by omega) (by simp) (by simpa using hlen)
  simp only [Nat.cast_zero, List.nil_append] at h
  rcases h with ⟨p, rest, h1, h2, h3⟩ | ⟨r, rest, w', h1, h2, h3, h4⟩
  · left
    obtain ⟨v, hv, he⟩ := (runs_iff _ _).mp h3
    have : p = v := List.append_cancel_right (h2.symm.trans he)
    subst this
    exact ⟨p, rest, hv, he, by simp only [Ber.parse, size_bytes, h1]⟩
  · right
    have hno : ∀ v r, IsBer v → bs ≠ v ++ r := fun v r hv e => h3 r ((runs_iff _ _).mpr ⟨v, hv, e⟩)
    match r with
    | .ok () => exact absurd rfl h2
    | .err e => exact ⟨.err e, rest, by simp only [Ber.parse, size_bytes, h1], by simp, hno, by simp⟩
    | .panic =>
      exact ⟨.panic, rest, by simp only [Ber.parse, size_bytes, h1], by simp, hno, fun _ => h4 (Or.inl rfl)⟩
    | .ub =>
      exact ⟨.ub, rest, by simp only [Ber.parse, size_bytes, h1], by simp, hno, fun _ => h4 (Or.inr rfl)⟩

end Bsn1
