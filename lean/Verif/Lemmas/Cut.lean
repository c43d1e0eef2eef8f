import Verif.Lemmas.Ber
import Verif.Spec.Cut
/-!
# Lemmas on input that is cut off
-/

set_option linter.unusedSimpArgs false

namespace Bsn1
open Spec

/-! ### Identifiers -/

/-- Octets none of whose prefixes ends a number can be continued. -/
theorem isCont_snoc (r : Bytes) (h : ∀ l rest, r = l ++ rest → ¬ IsCont l) : IsCont (r ++ [0]) := by
  induction r with
  | nil => simp [IsCont]
  | cons b r ih =>
    have hb : 128 ≤ b.toNat := by
      by_contra hc
      exact h [b] r rfl (by simp only [IsCont]; omega)
    have h1 := ih (by
      intro l rest e hl
      cases l with
      | nil => simp [IsCont] at hl
      | cons x l =>
        refine h (b :: x :: l) rest (by rw [e]; rfl) ?_
        rw [isCont_cons_cons]; exact ⟨hb, hl⟩)
    cases hr : r ++ [0] with
    | nil => simp at hr
    | cons x y =>
      rw [List.cons_append, hr, isCont_cons_cons]
      rw [hr] at h1
      exact ⟨hb, h1⟩

/-- The results of `parseId` under continuation of the input. -/
inductive IdCut (bs w : Bytes) : Res Nat × Bytes × Bytes → Prop
  | ok (l rest : Bytes) : IsId l → bs = l ++ rest → IdCut bs w (.ok l.length, rest, w ++ l)
  | cut (w' : Bytes) : Completable IsId bs → IdCut bs w (.err .unterminatedBytes, [], w')
  | final (rest w' : Bytes) : (∀ t w, ((parseId (σ := Bytes)).run (bs ++ t) w).1 = .err .redundantBytes) →
      IdCut bs w (.err .redundantBytes, rest, w')

theorem parseId_cut (bs w : Bytes) : IdCut bs w ((parseId (σ := Bytes)).run bs w) := by
  have hspec := parseId_spec bs w
  generalize (parseId (σ := Bytes)).run bs w = r at hspec
  cases hspec with
  | ok l rest h1 h2 => exact IdCut.ok l rest ((isId_iff_shape _).mpr h1) h2
  | redundant b o r h1 h2 h3 =>
    apply IdCut.final
    intro t w
    have hs := parseId_spec (bs ++ t) w
    generalize (parseId (σ := Bytes)).run (bs ++ t) w = r' at hs
    cases hs with
    | ok l rest h4 h5 =>
      rw [h1] at h5
      exfalso
      cases h4 with
      | short b' hb' => simp at h5; rw [← h5.1] at hb'; omega
      | long b' o' r' h6 h7 h8 h9 => simp at h5; rw [← h5.2.1] at h8 h9; omega
    | redundant => rfl
    | unterminated w' h4 h5 =>
      have := h5 b o (r ++ t) (by rw [h1]; rfl) h2
      omega
  | unterminated w' h1 h2 =>
    apply IdCut.cut
    cases bs with
    | nil => exact ⟨[0x00], by simp, isId_zero⟩
    | cons b r =>
      have hb : b.toNat % 32 = 31 := by
        by_contra hc
        exact h1 [b] r rfl (IdShape.short b hc)
      cases r with
      | nil =>
        refine ⟨[31], by simp, (isId_iff_shape _).mpr (IdShape.long b 31 [] hb ?_ (by decide) (by decide))⟩
        simp [IsCont]
      | cons o r =>
        obtain ⟨h3, h4⟩ := h2 b o r rfl hb
        refine ⟨[0], by simp, ?_⟩
        rw [List.cons_append, List.cons_append, isId_iff_shape]
        refine IdShape.long b o (r ++ [0]) hb ?_ h3 h4
        rw [← List.cons_append]
        apply isCont_snoc (o :: r)
        intro l rest e hl
        cases l with
        | nil => simp [IsCont] at hl
        | cons x l =>
          have hx : x = o := by simp at e; exact e.1.symm
          subst hx
          exact h1 (b :: x :: l) rest (by rw [e]; rfl) (IdShape.long b x l hb hl h3 h4)

/-! ### Lengths -/

/-- The results of `parseLength` under continuation of the input. -/
inductive LenCut (bs w : Bytes) : Res Length × Bytes × Bytes → Prop
  | definite (n : Nat) (rest : Bytes) : n < 2 ^ 64 → bs = lenOctets n ++ rest →
      LenCut bs w (.ok (.definite n), rest, w ++ lenOctets n)
  | indefinite (rest : Bytes) : bs = indefOctets ++ rest → LenCut bs w (.ok .indefinite, rest, w ++ indefOctets)
  | cut (n : Nat) (t rest w' : Bytes) : t ≠ [] → 0 < n → n < 2 ^ 64 → bs ++ t = lenOctets n →
      LenCut bs w (.err .unterminatedBytes, rest, w')
  | wide (b : UInt8) (rest w' : Bytes) : 136 < b.toNat → bs = [b] → LenCut bs w (.err .unterminatedBytes, rest, w')
  | final (e : Error) (rest w' : Bytes) : e ≠ .unterminatedBytes →
      (∀ t w, ((parseLength (σ := Bytes)).run (bs ++ t) w).1 = .err e) → LenCut bs w (.err e, rest, w')

theorem natVal_octets_lt {l : Bytes} (h : l.length ≤ 8) : natVal l < 2 ^ 64 := by
  have h1 := natVal_lt l
  have h2 : 256 ^ l.length ≤ 256 ^ 8 := Nat.pow_le_pow_right (by norm_num) h
  have h3 : (256 : Nat) ^ 8 = 2 ^ 64 := by norm_num
  omega

theorem parseLength_cut (bs w : Bytes) : LenCut bs w ((parseLength (σ := Bytes)).run bs w) := by
  match bs with
  | [] =>
    rw [parseLength_nil]
    exact LenCut.cut 1 (lenOctets 1) _ _ (lenOctets_ne_nil 1) (by norm_num) (by norm_num) rfl
  | f :: t =>
    have hf := u8_lt f
    by_cases h1 : f.toNat < 128
    · rw [parseLength_short f t w h1]
      have e : lenOctets f.toNat = [f] := by
        rw [lenOctets, if_pos h1, ofNat_toNat]
      have := LenCut.definite (bs := f :: t) (w := w) f.toNat t (by omega) (by rw [e]; rfl)
      rwa [e] at this
    by_cases h2 : f.toNat = 128
    · have : f = 0x80 := u8_ext h2
      subst this
      rw [parseLength_indef]
      exact LenCut.indefinite t rfl
    match t with
    | [] =>
      rw [parseLength_long_nil f w (by omega)]
      by_cases h5 : 136 < f.toNat
      · exact LenCut.wide f _ _ h5 rfl
      · have hz : (List.replicate (f.toNat - 129) (0 : UInt8)).length = f.toNat - 129 := by simp
        have e := lenOctets_long (f := f) (s := 0xff) (l := List.replicate (f.toNat - 129) 0) (by decide)
          (by intro h; revert h; simp) (by rw [hz]; omega)
        refine LenCut.cut _ (0xff :: List.replicate (f.toNat - 129) 0) _ _ (by simp) ?_ ?_ e.symm
        · have := natVal_ge (b := 0xff) (r := List.replicate (f.toNat - 129) 0) (by decide)
          have h3 : 0 < 256 ^ (List.replicate (f.toNat - 129) (0 : UInt8)).length := by positivity
          omega
        · apply natVal_octets_lt
          simp; omega
    | s :: r =>
      by_cases h3 : s.toNat = 0
      · rw [parseLength_long_zero f s r w (by omega) h3]
        exact LenCut.final _ _ _ (by simp) fun t w => by
          rw [List.cons_append, List.cons_append, parseLength_long_zero f s _ w (by omega) h3]
      by_cases h4 : f.toNat = 129 ∧ s.toNat < 128
      · rw [parseLength_long_one f s r w h4.1 h3 h4.2]
        exact LenCut.final _ _ _ (by simp) fun t w => by
          rw [List.cons_append, List.cons_append, parseLength_long_one f s _ w h4.1 h3 h4.2]
      by_cases h5 : 136 < f.toNat
      · rw [parseLength_long_over f s r w h5 h3]
        exact LenCut.final _ _ _ (by simp) fun t w => by
          rw [List.cons_append, List.cons_append, parseLength_long_over f s _ w h5 h3]
      have hl := parseLength_long f s r w (by omega) (by omega) h3 h4
      by_cases h6 : r.length < f.toNat - 129
      · rw [if_pos h6] at hl
        rw [hl]
        obtain ⟨k, hk⟩ : ∃ k, f.toNat - 129 = r.length + k := ⟨f.toNat - 129 - r.length, by omega⟩
        have e := lenOctets_long (f := f) (s := s) (l := r ++ List.replicate k 0) h3
          (by
            rintro ⟨h, hs⟩
            have := congrArg List.length h
            simp at this
            omega)
          (by simp; omega)
        refine LenCut.cut _ (List.replicate k 0) _ _ ?_ ?_ ?_ e.symm
        · intro h
          have := congrArg List.length h
          simp at this
          omega
        · have := natVal_ge (b := s) (r := r ++ List.replicate k 0) (by
            intro h; rw [h] at h3; simp at h3)
          have h3 : 0 < 256 ^ (r ++ List.replicate k (0 : UInt8)).length := by positivity
          omega
        · apply natVal_octets_lt
          simp; omega
      · rw [if_neg h6] at hl
        rw [hl]
        have hlen : (r.take (f.toNat - 129)).length = f.toNat - 129 := by simp; omega
        have e := lenOctets_long (f := f) (s := s) (l := r.take (f.toNat - 129)) h3
          (by
            rintro ⟨h, hs⟩
            rw [h] at hlen
            simp at hlen
            omega)
          (by rw [hlen]; omega)
        have := LenCut.definite (bs := f :: s :: r) (w := w) (natVal (s :: r.take (f.toNat - 129)))
          (r.drop (f.toNat - 129)) (natVal_octets_lt (by simp; omega)) (by rw [e]; simp)
        rwa [e] at this

/-! ### Headers -/

/-- The results of `parseIdLength` under continuation of the input. -/
inductive HeaderCut (bs : Bytes) : Res Length × Bytes × Bytes → Prop
  | definite (id : Bytes) (n : Nat) (rest w' : Bytes) : IsId id → n < 2 ^ 64 → bs = id ++ lenOctets n ++ rest →
      HeaderCut bs (.ok (.definite n), rest, w')
  | indefinite (id rest w' : Bytes) : IsId id → bs = id ++ indefOctets ++ rest →
      HeaderCut bs (.ok .indefinite, rest, w')
  | cut (id : Bytes) (n : Nat) (t rest w' : Bytes) : t ≠ [] → IsId id → 0 < n → n < 2 ^ 64 →
      bs ++ t = id ++ lenOctets n → HeaderCut bs (.err .unterminatedBytes, rest, w')
  | wide (rest w' : Bytes) : WideLength bs → HeaderCut bs (.err .unterminatedBytes, rest, w')
  | final (e : Error) (rest w' : Bytes) : e ≠ .unterminatedBytes →
      (∀ t w, ((parseIdLength (σ := Bytes)).run (bs ++ t) w).1 = .err e) → HeaderCut bs (.err e, rest, w')

theorem parseIdLength_cut (bs w : Bytes) : HeaderCut bs ((parseIdLength (σ := Bytes)).run bs w) := by
  simp only [parseIdLength, P.bind_def]
  have hi := parseId_cut bs w
  generalize (parseId (σ := Bytes)).run bs w = r at hi
  cases hi with
  | ok id rest h1 h2 =>
    simp only
    have hl := parseLength_cut rest (w ++ id)
    generalize (parseLength (σ := Bytes)).run rest (w ++ id) = r at hl
    cases hl with
    | definite n rest' h3 h4 => exact HeaderCut.definite id n rest' _ h1 h3 (by rw [h2, h4]; simp)
    | indefinite rest' h3 => exact HeaderCut.indefinite id rest' _ h1 (by rw [h2, h3]; simp)
    | cut n t rest' w' h3 h4 h5 h6 =>
      exact HeaderCut.cut id n t rest' w' h3 h1 h4 h5 (by rw [h2, List.append_assoc, h6])
    | wide b rest' w' h3 h4 => exact HeaderCut.wide rest' w' ⟨id, b, h1, h3, by rw [h2, h4]⟩
    | final e rest' w' h3 h4 =>
      refine HeaderCut.final e rest' w' h3 ?_
      intro t w
      simp only [parseIdLength, P.bind_def, h2, List.append_assoc, parseId_shape ((isId_iff_shape _).mp h1)]
      exact h4 t _
  | cut w' h =>
    obtain ⟨t, h1, h2⟩ := h
    exact HeaderCut.cut (bs ++ t) 1 (t ++ lenOctets 1) _ w' (by simp [h1]) h2 (by norm_num) (by norm_num) (by simp)
  | final rest w' h =>
    refine HeaderCut.final _ rest w' (by simp) ?_
    intro t w
    have := h t w
    simp only [parseIdLength, P.bind_def]
    generalize (parseId (σ := Bytes)).run (bs ++ t) w = r at this
    obtain ⟨r1, r2, r3⟩ := r
    simp only at this
    subst this
    rfl

/-! ### DER -/

/-- The results of `DerRef::do_parse` under continuation of the input. -/
inductive DerCut (bs : Bytes) : Res Unit × Bytes → Prop
  | ok (id c rest : Bytes) : IsId id → c.length < 2 ^ 64 → bs = tlv id c ++ rest → DerCut bs (.ok (), rest)
  | cut (id c t rest : Bytes) : t ≠ [] → IsId id → 0 < c.length → c.length < 2 ^ 64 → bs ++ t = tlv id c →
      DerCut bs (.err .unterminatedBytes, rest)
  | wide (rest : Bytes) : WideLength bs → DerCut bs (.err .unterminatedBytes, rest)
  | final (e : Error) (rest : Bytes) : e ≠ .unterminatedBytes → (∀ t, (DerRef.doParse (bs ++ t)).1 = .err e) →
      DerCut bs (.err e, rest)

/-- Contents of any length. -/
theorem tlv_of_header {bs t id : Bytes} {n : Nat} (h : bs ++ t = id ++ lenOctets n) :
    bs ++ (t ++ List.replicate n 0) = tlv id (List.replicate n 0) := by
  rw [tlv, List.length_replicate, ← h]; simp

theorem doParse_cut (bs : Bytes) : DerCut bs (DerRef.doParse bs) := by
  simp only [DerRef.doParse]
  have hc := parseIdLength_cut bs []
  generalize (parseIdLength (σ := Bytes)).run bs [] = r at hc
  cases hc with
  | definite id n rest w' h1 h2 h3 =>
    simp only
    by_cases hl : rest.length < n
    · rw [if_pos hl]
      obtain ⟨k, hk⟩ : ∃ k, n = rest.length + k := ⟨n - rest.length, by omega⟩
      have hlen : (rest ++ List.replicate k (0 : UInt8)).length = n := by simp; omega
      refine DerCut.cut id (rest ++ List.replicate k 0) (List.replicate k 0) rest ?_ h1 (by omega) (by omega) ?_
      · intro h
        have := congrArg List.length h
        simp at this
        omega
      · rw [tlv, hlen, h3]; simp
    · rw [if_neg hl, sliceFrom, if_pos (by omega)]
      have ht : (rest.take n).length = n := by simp; omega
      exact DerCut.ok id (rest.take n) (rest.drop n) h1 (by omega) (by rw [h3, tlv, ht]; simp)
  | indefinite id rest w' h1 h2 =>
    refine DerCut.final _ rest (by simp) ?_
    intro t
    have e : bs ++ t = id ++ indefOctets ++ (rest ++ t) := by rw [h2]; simp
    simp only [DerRef.doParse, e, parseIdLength_indefinite h1]
  | cut id n t rest w' h1 h2 h3 h4 h5 =>
    exact DerCut.cut id (List.replicate n 0) (t ++ List.replicate n 0) rest (by simp [h1]) h2 (by simpa using h3)
      (by simpa using h4) (tlv_of_header h5)
  | wide rest w' h => exact DerCut.wide rest h
  | final e rest w' h1 h2 =>
    refine DerCut.final e rest h1 ?_
    intro t
    have := h2 t []
    simp only [DerRef.doParse]
    generalize (parseIdLength (σ := Bytes)).run (bs ++ t) [] = r at this
    obtain ⟨r1, r2, r3⟩ := r
    simp only at this
    subst this
    rfl

/-! ### BER -/

/-- The results of `BerRef::do_parse` under continuation of the input. -/
inductive BerCut (bs : Bytes) : Res Int × Bytes → Prop
  | ok (δ : Int) (p rest : Bytes) : bs = p ++ rest → (∀ t, BerRef.doParse (p ++ t) = (.ok δ, t)) →
      (∀ (d d' : Nat) (q : Bytes), 0 < d → 0 < (d : Int) + δ → Due ((d : Int) + δ).toNat q d' → Due d (p ++ q) d') →
      (∀ (d' : Nat) (q : Bytes), 0 < δ → Due 1 q d' → Due 0 (p ++ q) d') → BerCut bs (.ok δ, rest)
  | cut (id c t rest : Bytes) : t ≠ [] → IsId id → c.length < 2 ^ 64 → tlv id c ≠ Spec.eoc → bs ++ t = tlv id c →
      BerCut bs (.err .unterminatedBytes, rest)
  | wide (rest : Bytes) : WideLength bs → BerCut bs (.err .unterminatedBytes, rest)
  | final (e : Error) (rest : Bytes) : e ≠ .unterminatedBytes → (∀ t, (BerRef.doParse (bs ++ t)).1 = .err e) →
      BerCut bs (.err e, rest)

theorem tlv_ne_eoc {id c : Bytes} (h : IsId id) (hc : 0 < c.length) : tlv id c ≠ Spec.eoc := by
  intro e
  have h1 := congrArg List.length e
  have h2 := isId_length_pos h
  have h3 := List.length_pos_iff.mpr (lenOctets_ne_nil c.length)
  rw [tlv_length] at h1
  simp [Spec.eoc] at h1
  omega

/-- Reading a header and skipping the contents, for both encodings. -/
theorem berDoParse_of_ne {bs : Bytes} (h : ∀ r, bs ≠ Spec.eoc ++ r) : BerRef.doParse bs =
    match (parseIdLength (σ := Bytes)).run bs [] with
    | (.ok .indefinite, rest, _) => (.ok 1, rest)
    | _ => match DerRef.doParse bs with
      | (.ok (), rest) => (.ok 0, rest)
      | (.err e, rest) => (.err e, rest)
      | (.panic, rest) => (.panic, rest)
      | (.ub, rest) => (.ub, rest) := by
  have he : ¬ BerRef.eoc.isPrefixOf bs = true := by
    rw [eoc_prefix]; rintro ⟨r, hr⟩; exact h r hr
  simp only [BerRef.doParse, if_neg he, DerRef.doParse]
  rcases (parseIdLength (σ := Bytes)).run bs [] with ⟨r, s, w⟩
  match r with
  | .ok .indefinite => rfl
  | .ok (.definite n) =>
    simp only
    by_cases hl : s.length < n
    · simp [if_pos hl]
    · simp only [if_neg hl]
      cases sliceFrom s n <;> rfl
  | .err _ => rfl
  | .panic => rfl
  | .ub => rfl

theorem berDoParse_cut (bs : Bytes) : BerCut bs (BerRef.doParse bs) := by
  have hs := berStep_spec bs
  rcases hdp : BerRef.doParse bs with ⟨r, rest⟩
  rw [hdp] at hs
  cases hs with
  | eoc _ h =>
    refine BerCut.ok (-1) Spec.eoc rest h doParse_eoc ?_ (by intro _ _ h; omega)
    intro d d' q hd hd2 hq
    obtain ⟨k, rfl⟩ : ∃ k, d = k + 1 := ⟨d - 1, by omega⟩
    have : (((k + 1 : Nat) : Int) + -1).toNat = k := by omega
    rw [this] at hq
    exact Due.close k d' q (by omega) hq
  | definite id c _ h1 h2 h3 h4 =>
    refine BerCut.ok 0 (tlv id c) rest h4 (doParse_definite h1 h2 h3) ?_ (by intro _ _ h; omega)
    intro d d' q hd hd2 hq
    have : ((d : Int) + 0).toNat = d := by omega
    rw [this] at hq
    exact Due.skip d d' id c q hd h1 h2 h3 hq
  | indefinite id _ h1 h2 =>
    refine BerCut.ok 1 (id ++ indefOctets) rest h2 (doParse_indefinite h1) ?_
      (by intro d' q _ h; exact Due.open 0 d' id q h1 h)
    intro d d' q hd hd2 hq
    have : ((d : Int) + 1).toNat = d + 1 := by omega
    rw [this] at hq
    exact Due.open d d' id q h1 hq
  | error e p _ h1 h2 h3 =>
    have hne : ∀ r, bs ≠ Spec.eoc ++ r := by
      intro r hr
      have := h2 [0x00] [] r isId_zero (by simp)
      rw [tlv_zero_nil] at this
      exact this hr
    have hb := berDoParse_of_ne hne
    rw [hdp] at hb
    have hc := doParse_cut bs
    have hh := parseIdLength_cut bs []
    generalize hrun : (parseIdLength (σ := Bytes)).run bs [] = r at hh hb
    have hder : DerRef.doParse bs = (.err e, rest) := by
      revert hb
      cases hh with
      | indefinite id r w h4 h5 => exact absurd h5 (h3 id r h4)
      | _ =>
        rcases DerRef.doParse bs with ⟨r, s⟩
        match r with
        | .ok () => intro h; simp at h
        | .err _ => intro h; simpa using h.symm
        | .panic => intro h; simp at h
        | .ub => intro h; simp at h
    rw [hder] at hc
    cases hc with
    | cut id c t _ h4 h5 h6 h7 h8 => exact BerCut.cut id c t rest h4 h5 h7 (tlv_ne_eoc h5 h6) h8
    | wide _ h => exact BerCut.wide rest h
    | final _ _ h4 h5 =>
      refine BerCut.final e rest h4 ?_
      intro t
      have hd := h5 t
      have hne' : ∀ r, bs ++ t ≠ Spec.eoc ++ r := by
        intro r hr
        rw [hr, ← tlv_zero_nil, doParse_tlv isId_zero (by simp)] at hd
        simp at hd
      rw [berDoParse_of_ne hne']
      have hh' := parseIdLength_cut (bs ++ t) []
      generalize hrun' : (parseIdLength (σ := Bytes)).run (bs ++ t) [] = r' at hh'
      have key : ∀ (r'' : Res Length × Bytes × Bytes), (∀ s w, r'' ≠ (.ok .indefinite, s, w)) →
          (match r'' with
          | (.ok .indefinite, rest, _) => ((.ok 1, rest) : Res Int × Bytes)
          | _ => match DerRef.doParse (bs ++ t) with
            | (.ok (), rest) => (.ok 0, rest)
            | (.err e, rest) => (.err e, rest)
            | (.panic, rest) => (.panic, rest)
            | (.ub, rest) => (.ub, rest)).1 = .err e := by
        intro r'' hr
        rcases hx : DerRef.doParse (bs ++ t) with ⟨x, y⟩
        rw [hx] at hd
        simp only at hd
        subst hd
        rcases r'' with ⟨r1, r2, r3⟩
        match r1 with
        | .ok .indefinite => exact absurd rfl (hr r2 r3)
        | .ok (.definite _) => rfl
        | .err _ => rfl
        | .panic => rfl
        | .ub => rfl
      apply key
      intro s w hr
      rw [hr] at hh'
      -- the header is complete in `bs` already, or the error there is not final
      cases hh with
      | indefinite id r w h6 h7 => exact absurd h7 (h3 id r h6)
      | definite id n r w h6 h7 h8 =>
        have e2 : bs ++ t = id ++ lenOctets n ++ (r ++ t) := by rw [h8]; simp
        rw [e2, parseIdLength_definite h6 h7, hr] at hrun'
        simp at hrun'
      | final e' r w h6 h7 =>
        have := h7 t []
        rw [hrun', hr] at this
        simp at this
      | cut id n t' r w h6 h7 h8 h9 h10 =>
        simp only [DerRef.doParse, hrun, Prod.mk.injEq, Res.err.injEq] at hder
        exact h4 hder.1.symm
      | wide r w h6 =>
        simp only [DerRef.doParse, hrun, Prod.mk.injEq, Res.err.injEq] at hder
        exact h4 hder.1.symm

/-- Closing all values that are open. -/
theorem runs_closers : ∀ (d : Nat), 0 < d → ∃ t, t ≠ [] ∧ Runs d t [] := by
  intro d
  induction d with
  | zero => intro h; omega
  | succ d ih =>
    intro _
    by_cases hd : d = 0
    · subst hd
      exact ⟨Spec.eoc ++ [], by simp [Spec.eoc], runs_eoc (fun _ => rfl) (fun h => by omega)⟩
    · obtain ⟨t, h1, h2⟩ := ih (by omega)
      exact ⟨Spec.eoc ++ t, by simp [h1], runs_eoc (fun h => by omega) (fun _ => h2)⟩

/-- The results of the loop of `BerRef::parse` under continuation of the input. -/
theorem parseLoop_cut : ∀ (f d : Nat) (bs : Bytes), bs.length < f → d + bs.length ≤ isizeMax →
    (∃ rest, BerRef.parseLoop f d bs = (.ok (), rest) ∧ Runs d bs rest) ∨
    (∃ rest, BerRef.parseLoop f d bs = (.err .unterminatedBytes, rest) ∧
      ((∃ t, t ≠ [] ∧ Runs d (bs ++ t) []) ∨ (∃ p q d', Due d p d' ∧ WideLength q ∧ bs = p ++ q))) ∨
    (∃ e rest, e ≠ .unterminatedBytes ∧ BerRef.parseLoop f d bs = (.err e, rest) ∧
      (∀ t r, ¬ Runs d (bs ++ t) r) ∧
      ∀ (t : Bytes) (f' : Nat), (bs ++ t).length < f' → d + (bs ++ t).length ≤ isizeMax →
        (BerRef.parseLoop f' d (bs ++ t)).1 = .err e) := by
  intro f
  induction f with
  | zero => intro d bs h; omega
  | succ f ih =>
    intro d bs hf hmax
    simp only [BerRef.parseLoop]
    have hs := berDoParse_cut bs
    rcases hdp : BerRef.doParse bs with ⟨r, bs'⟩
    rw [hdp] at hs
    cases hs with
    | ok δ p _ h1 h2 h3 h4 =>
      obtain ⟨hl1, hl2, hl3⟩ := doParse_length hdp
      simp only
      rw [if_neg (by omega)]
      by_cases hpos : (d : Int) + δ > 0
      · rw [if_pos hpos]
        obtain ⟨d', hd'⟩ : ∃ d' : Nat, (d : Int) + δ = d' := ⟨((d : Int) + δ).toNat, by omega⟩
        rw [hd']
        rcases ih d' bs' (by omega) (by omega) with ⟨rest, h5, h6⟩ | ⟨rest, h5, h6⟩ | ⟨e, rest, h5, h6, h8, h7⟩
        · exact Or.inl ⟨rest, h5, Runs.step d d' δ bs bs' rest hdp hd' (by omega) h6⟩
        · right; left
          refine ⟨rest, h5, ?_⟩
          rcases h6 with ⟨t, h6, h7⟩ | ⟨p', q, d'', h6, h7, h8⟩
          · left
            refine ⟨t, h6, Runs.step d d' δ _ (bs' ++ t) _ ?_ hd' (by omega) h7⟩
            rw [h1, List.append_assoc, h2]
          · right
            refine ⟨p ++ p', q, d'', ?_, h7, by rw [h1, h8]; simp⟩
            by_cases hd : d = 0
            · subst hd
              have : d' = 1 := by omega
              subst this
              exact h4 d'' p' (by omega) h6
            · have e : ((d : Int) + δ).toNat = d' := by omega
              exact h3 d d'' p' (by omega) (by omega) (by rw [e]; exact h6)
        · right; right
          have e2 : ∀ t, BerRef.doParse (bs ++ t) = (.ok δ, bs' ++ t) := by
            intro t; rw [h1, List.append_assoc, h2]
          refine ⟨e, rest, h5, h6, ?_, ?_⟩
          · intro t r hr
            cases hr with
            | stop _ δ' _ _ h9 h10 => rw [e2] at h9; simp at h9; omega
            | step _ d'' δ' _ bs'' _ h9 h10 h11 h12 =>
              rw [e2] at h9
              simp only [Prod.mk.injEq, Res.ok.injEq] at h9
              obtain ⟨rfl, rfl⟩ := h9
              have : d'' = d' := by omega
              subst this
              exact h8 t r h12
          intro t f' hf' hmax'
          obtain ⟨g, rfl⟩ : ∃ g, f' = g + 1 := ⟨f' - 1, by omega⟩
          have e2 := e2 t
          have hlen := congrArg List.length h1
          simp only [List.length_append] at hlen hf' hmax'
          simp only [BerRef.parseLoop, e2]
          rw [if_neg (by omega), if_pos hpos, hd']
          exact h7 t g (by simp only [List.length_append]; omega) (by simp only [List.length_append]; omega)
      · rw [if_neg hpos]
        exact Or.inl ⟨bs', rfl, Runs.stop d δ bs bs' hdp (by omega)⟩
    | cut id c t _ h1 h2 h3 h4 h5 =>
      right; left
      refine ⟨bs', rfl, Or.inl ?_⟩
      by_cases hd : d = 0
      · subst hd
        refine ⟨t, h1, Runs.stop 0 0 _ _ ?_ (by omega)⟩
        have := doParse_definite h2 h3 h4 []
        rwa [List.append_nil, ← h5] at this
      · obtain ⟨u, h6, h7⟩ := runs_closers d (by omega)
        refine ⟨t ++ u, by simp [h1], Runs.step d d 0 _ u _ ?_ (by omega) (by omega) h7⟩
        rw [← List.append_assoc, h5]
        exact doParse_definite h2 h3 h4 u
    | wide _ h =>
      right; left
      exact ⟨bs', rfl, Or.inr ⟨[], bs, d, Due.nil d, h, rfl⟩⟩
    | final e _ h1 h2 =>
      right; right
      refine ⟨e, bs', h1, rfl, ?_, ?_⟩
      · intro t r hr
        have := h2 t
        cases hr with
        | stop _ δ' _ _ h9 h10 => rw [h9] at this; simp at this
        | step _ d'' δ' _ bs'' _ h9 h10 h11 h12 => rw [h9] at this; simp at this
      intro t f' hf' _
      obtain ⟨g, rfl⟩ : ∃ g, f' = g + 1 := ⟨f' - 1, by omega⟩
      have := h2 t
      simp only [BerRef.parseLoop]
      generalize BerRef.doParse (bs ++ t) = r at this
      obtain ⟨r1, r2⟩ := r
      simp only at this
      subst this
      rfl

/-- A length octet announcing too much, at a place where a header is due. -/
theorem parseLoop_due {d d' : Nat} {p : Bytes} (hp : Due d p d') : ∀ (q : Bytes) (f : Nat), WideLength q →
    (p ++ q).length < f → d + (p ++ q).length ≤ isizeMax →
    (BerRef.parseLoop f d (p ++ q)).1 = .err .unterminatedBytes := by
  induction hp with
  | nil d =>
    intro q f hq hf hmax
    obtain ⟨g, rfl⟩ : ∃ g, f = g + 1 := ⟨f - 1, by omega⟩
    simp only [List.nil_append, BerRef.parseLoop]
    obtain ⟨id, b, h1, h2, rfl⟩ := hq
    have hrun : ∀ w, (parseIdLength (σ := Bytes)).run (id ++ [b]) w = (.err .unterminatedBytes, [], w ++ id ++ [b]) := by
      intro w
      simp only [parseIdLength, P.bind_def, parseId_shape ((isId_iff_shape _).mp h1)]
      rw [parseLength_long_nil b _ (by omega)]
    have hne : ∀ r, id ++ [b] ≠ Spec.eoc ++ r := by
      intro r hr
      have h3 := parseIdLength_definite isId_zero (n := 0) (by norm_num) r []
      have e : [0x00] ++ lenOctets 0 ++ r = Spec.eoc ++ r := by
        have : lenOctets 0 = [0x00] := by decide +kernel
        rw [this]; rfl
      rw [e, ← hr, hrun] at h3
      simp at h3
    rw [berDoParse_of_ne hne, hrun]
    simp only [DerRef.doParse, hrun]
  | skip d d' id c bs h1 h2 h3 h4 _ ih =>
    intro q f hq hf hmax
    obtain ⟨g, rfl⟩ : ∃ g, f = g + 1 := ⟨f - 1, by omega⟩
    simp only [List.length_append] at hf hmax
    have := isId_length_pos h2
    have hl := tlv_length id c
    rw [List.append_assoc]
    simp only [BerRef.parseLoop, doParse_definite h2 h3 h4]
    have e : (d : Int) + 0 = d := by omega
    rw [e, if_neg (by omega), if_pos (by omega)]
    exact ih q g hq (by simp only [List.length_append]; omega) (by simp only [List.length_append]; omega)
  | «open» d d' id bs h1 _ ih =>
    intro q f hq hf hmax
    obtain ⟨g, rfl⟩ : ∃ g, f = g + 1 := ⟨f - 1, by omega⟩
    simp only [List.length_append, indefOctets, List.length_cons, List.length_nil] at hf hmax
    have := isId_length_pos h1
    rw [List.append_assoc]
    simp only [BerRef.parseLoop, doParse_indefinite h1]
    have e : (d : Int) + 1 = (d + 1 : Nat) := by omega
    rw [e, if_neg (by omega), if_pos (by omega)]
    exact ih q g hq (by simp only [List.length_append]; omega) (by simp only [List.length_append]; omega)
  | close d d' bs h1 _ ih =>
    intro q f hq hf hmax
    obtain ⟨g, rfl⟩ : ∃ g, f = g + 1 := ⟨f - 1, by omega⟩
    simp only [List.length_append, Spec.eoc, List.length_cons, List.length_nil] at hf hmax
    rw [List.append_assoc]
    simp only [BerRef.parseLoop, doParse_eoc]
    have e : ((d + 1 : Nat) : Int) + -1 = d := by omega
    rw [e, if_neg (by omega), if_pos (by omega)]
    exact ih q g hq (by simp only [List.length_append]; omega) (by simp only [List.length_append]; omega)

theorem wide_doParse {q t : Bytes} (hq : WideLength q) (ht : t ≠ []) : ∃ e rest, BerRef.doParse (q ++ t) = (.err e, rest) := by
  obtain ⟨id, b, h1, h2, rfl⟩ := hq
  have hrun : ∃ e rest w, (parseIdLength (σ := Bytes)).run (id ++ [b] ++ t) [] = (.err e, rest, w) := by
    cases t with
    | nil => exact absurd rfl ht
    | cons s r =>
      simp only [parseIdLength, P.bind_def, List.append_assoc, parseId_shape ((isId_iff_shape _).mp h1),
        List.cons_append, List.nil_append]
      by_cases hs : s.toNat = 0
      · rw [parseLength_long_zero b s r _ (by omega) hs]; exact ⟨_, _, _, rfl⟩
      · rw [parseLength_long_over b s r _ h2 hs]; exact ⟨_, _, _, rfl⟩
  obtain ⟨e, rest, w, hrun⟩ := hrun
  have hne : ∀ r, id ++ [b] ++ t ≠ Spec.eoc ++ r := by
    intro r hr
    have h3 := parseIdLength_definite isId_zero (n := 0) (by norm_num) r []
    have e : [0x00] ++ lenOctets 0 ++ r = Spec.eoc ++ r := by
      have : lenOctets 0 = [0x00] := by decide +kernel
      rw [this]; rfl
    rw [e, ← hr, hrun] at h3
    simp at h3
  refine ⟨e, rest, ?_⟩
  rw [berDoParse_of_ne hne, hrun]
  simp only [DerRef.doParse, hrun]

/-- No value continues input whose header announces too long a length. -/
theorem due_wide_not_runs {d d' : Nat} {p : Bytes} (hp : Due d p d') : ∀ {q t : Bytes}, WideLength q → t ≠ [] →
    ∀ r, ¬ Runs d (p ++ (q ++ t)) r := by
  induction hp with
  | nil d =>
    intro q t hq ht r hr
    obtain ⟨e, rest, h⟩ := wide_doParse hq ht
    rw [List.nil_append] at hr
    cases hr with
    | stop _ δ' _ _ h9 h10 => rw [h9] at h; simp at h
    | step _ d'' δ' _ bs'' _ h9 h10 h11 h12 => rw [h9] at h; simp at h
  | skip d d' id c bs h1 h2 h3 h4 _ ih =>
    intro q t hq ht r hr
    rw [List.append_assoc] at hr
    have h := doParse_definite h2 h3 h4 (bs ++ (q ++ t))
    cases hr with
    | stop _ δ' _ _ h9 h10 => rw [h9] at h; simp at h; omega
    | step _ d'' δ' _ bs'' _ h9 h10 h11 h12 =>
      rw [h9] at h
      simp only [Prod.mk.injEq, Res.ok.injEq] at h
      obtain ⟨rfl, rfl⟩ := h
      have : d'' = d := by omega
      subst this
      exact ih hq ht r h12
  | «open» d d' id bs h1 _ ih =>
    intro q t hq ht r hr
    rw [List.append_assoc] at hr
    have h := doParse_indefinite h1 (bs ++ (q ++ t))
    cases hr with
    | stop _ δ' _ _ h9 h10 => rw [h9] at h; simp at h; omega
    | step _ d'' δ' _ bs'' _ h9 h10 h11 h12 =>
      rw [h9] at h
      simp only [Prod.mk.injEq, Res.ok.injEq] at h
      obtain ⟨rfl, rfl⟩ := h
      have : d'' = d + 1 := by omega
      subst this
      exact ih hq ht r h12
  | close d d' bs h1 _ ih =>
    intro q t hq ht r hr
    rw [List.append_assoc] at hr
    have h := doParse_eoc (bs ++ (q ++ t))
    cases hr with
    | stop _ δ' _ _ h9 h10 => rw [h9] at h; simp at h; omega
    | step _ d'' δ' _ bs'' _ h9 h10 h11 h12 =>
      rw [h9] at h
      simp only [Prod.mk.injEq, Res.ok.injEq] at h
      obtain ⟨rfl, rfl⟩ := h
      have : d'' = d := by omega
      subst this
      exact ih hq ht r h12

theorem parse_eq_loop_err {bs rest : Bytes} {e : Error}
    (h : BerRef.parseLoop (bs.length + 1) 0 bs = (.err e, rest)) : BerRef.parse bs = (.err e, rest) := by
  simp only [BerRef.parse, h]

theorem parse_loop_err {bs : Bytes} {e : Error}
    (h : (BerRef.parseLoop (bs.length + 1) 0 bs).1 = .err e) : (BerRef.parse bs).1 = .err e := by
  rcases hx : BerRef.parseLoop (bs.length + 1) 0 bs with ⟨x, y⟩
  rw [hx] at h
  simp only at h
  subst h
  rw [parse_eq_loop_err hx]

end Bsn1
