import Verif.Props.Ber
import Verif.Lemmas.Cut
import Verif.Lemmas.DeSettled
/-!
# C23, exactly when the parsers panic
-/

namespace Bsn1
open Spec

namespace Spec

/-- Where a header is due, `bs` has one that announces more than fits in memory behind what was read. -/
def TooLong (limit : Nat) (bs : List UInt8) : Prop :=
  ∃ p d id n q, Due 0 p d ∧ IsId id ∧ n < 2 ^ 64 ∧ bs = p ++ (id ++ lenOctets n ++ q) ∧
    limit < (p ++ id ++ lenOctets n).length + n

end Spec

/-- The same with `d` values open and `w` read before. -/
def Over (d : Nat) (w bs : Bytes) : Prop :=
  ∃ p d' id n q, Due d p d' ∧ IsId id ∧ n < 2 ^ 64 ∧ bs = p ++ (id ++ lenOctets n ++ q) ∧
    isizeMax < (w ++ p ++ id ++ lenOctets n).length + n

theorem uadd_wraps {m : Build} {a n : Nat} (h : usizeSize ≤ a + n) (hn : n < usizeSize) :
    uadd m a n = .panic ∨ ∃ t, uadd m a n = .ok t ∧ t < a := by
  cases m with
  | debug => exact .inl (by rw [uadd, if_neg (by omega)])
  | release =>
    refine .inr ⟨(a + n) % usizeSize, by rw [uadd, if_neg (by omega)], ?_⟩
    by_cases ha : usizeSize ≤ a
    · have : (a + n) % usizeSize < usizeSize := Nat.mod_lt _ (by norm_num [usizeSize])
      omega
    · rw [Nat.mod_eq_sub_mod (by omega), Nat.mod_eq_of_lt (by omega)]
      omega

theorem berReserve_over {m : Build} {a n : Nat} (h : isizeMax < a + n) (hn : n < usizeSize) :
    (do
      let _ ← bufReserve m a n
      let total ← uadd m a n
      if a ≤ total then return total - a else .panic : Res Nat) = .panic := by
  by_cases hu : usizeSize ≤ a + n
  · rcases uadd_wraps (m := m) hu hn with e | ⟨t, e, ht⟩
    · rw [bufReserve, e]; rfl
    · rw [bufReserve, e]
      simp only [Res.bind_ok]
      by_cases hb : t ≤ isizeMax
      · rw [if_pos hb]; simp only [Res.pure_eq, Res.bind_ok]; rw [if_neg (by omega)]
      · rw [if_neg hb]; rfl
  · rw [bufReserve_panic h (by omega)]; rfl

theorem derReserve_over {m : Build} {a n : Nat} (h : isizeMax < a + n) (hn : n < usizeSize) :
    (do
      let total ← uadd m a n
      let _ ← bufReserve m a n
      if a ≤ total then return total - a else .panic : Res Nat) = .panic := by
  by_cases hu : usizeSize ≤ a + n
  · rcases uadd_wraps (m := m) hu hn with e | ⟨t, e, ht⟩
    · rw [e]; rfl
    · rw [bufReserve, e]
      simp only [Res.bind_ok]
      by_cases hb : t ≤ isizeMax
      · rw [if_pos hb]; simp only [Res.pure_eq, Res.bind_ok]; rw [if_neg (by omega)]
      · rw [if_neg hb]; rfl
  · rw [uadd_ok (by omega)]
    simp only [Res.bind_ok]
    rw [bufReserve_panic h (by omega)]; rfl

/-- One step on a definite header: a panic if it does not fit, else the contents or an error. -/
theorem berDoParse_definite (m : Build) {id q : Bytes} {n : Nat} (w : Bytes) (hid : IsId id) (hn : n < 2 ^ 64) :
    (isizeMax < (w ++ id ++ lenOctets n).length + n ∧
      ∃ s' w', (Ber.doParse m).run (id ++ lenOctets n ++ q) w = (.panic, s', w')) ∨
    (¬ isizeMax < (w ++ id ++ lenOctets n).length + n ∧ n ≤ q.length ∧
      (Ber.doParse m).run (id ++ lenOctets n ++ q) w =
        (.ok (if id ++ lenOctets n ++ q.take n = BerRef.eoc then -1 else 0), q.drop n, w ++ id ++ lenOctets n ++ q.take n)) ∨
    (¬ isizeMax < (w ++ id ++ lenOctets n).length + n ∧ q.length < n ∧
      ∃ e s' w', (Ber.doParse m).run (id ++ lenOctets n ++ q) w = (.err e, s', w')) := by
  have hu := usizeSize_eq
  have hi := isizeMax_eq
  simp only [Ber.doParse, parseIdLength_definite hid hn]
  by_cases ho : isizeMax < (w ++ id ++ lenOctets n).length + n
  · refine .inl ⟨ho, ?_⟩
    rw [berReserve_over ho (by omega)]
    exact ⟨_, _, rfl⟩
  · rw [bufReserve_ok (by omega)]
    simp only [Res.bind_ok]
    rw [uadd_ok (by omega)]
    simp only [Res.bind_ok]
    rw [if_pos (by omega)]
    simp only [Res.pure_eq, Nat.add_sub_cancel_left]
    obtain ⟨s', h1, h2⟩ := readExact_slice n q
    rw [h1]
    by_cases hq : n ≤ q.length
    · refine .inr (.inl ⟨ho, hq, ?_⟩)
      rw [if_pos hq]
      simp only
      have hsl : sliceFrom (w ++ id ++ lenOctets n ++ q.take n) w.length = .ok (id ++ lenOctets n ++ q.take n) := by
        rw [sliceFrom, if_pos (by simp)]; simp
      rw [hsl, h2]
    · refine .inr (.inr ⟨ho, by omega, ?_⟩)
      rw [if_neg hq]
      exact ⟨_, _, _, rfl⟩

theorem berLoop_panic_of_step {m : Build} {f : Nat} {d : Int} {bs w s' w' : Bytes}
    (h : (Ber.doParse m).run bs w = (.panic, s', w')) : ((Ber.parseLoop m (f + 1) d).run bs w).1 = .panic := by
  simp only [Ber.parseLoop, P.bind_def, h]

theorem berLoop_next {m : Build} {f : Nat} {d δ : Int} {bs w s' w' : Bytes}
    (h : (Ber.doParse m).run bs w = (.ok δ, s', w')) (hp : 0 < d + δ)
    (hr : ((Ber.parseLoop m f (d + δ)).run s' w').1 = .panic) : ((Ber.parseLoop m (f + 1) d).run bs w).1 = .panic := by
  simp only [Ber.parseLoop, P.bind_def, h, P.ite_apply, P.lift_apply]
  by_cases h1 : isizeMax < d + δ
  · rw [if_pos h1]
  · rw [if_neg h1, if_pos (by omega)]; exact hr

/-- Such a header makes the loop panic. -/
theorem berLoop_over {m : Build} {d d' : Nat} {p : Bytes} (hp : Due d p d') : ∀ {id q : Bytes} {n : Nat} (w : Bytes) (f : Nat),
    IsId id → n < 2 ^ 64 → isizeMax < (w ++ p ++ id ++ lenOctets n).length + n →
    ((Ber.parseLoop m f d).run (p ++ (id ++ lenOctets n ++ q)) w).1 = .panic := by
  induction hp with
  | nil d =>
    intro id q n w f hid hn ho
    cases f with
    | zero => rfl
    | succ f =>
      simp only [List.append_nil, List.nil_append] at ho ⊢
      rcases berDoParse_definite m (q := q) w hid hn with ⟨-, s', w', h⟩ | ⟨h, -⟩ | ⟨h, -⟩
      · exact berLoop_panic_of_step h
      · exact absurd ho h
      · exact absurd ho h
  | skip d d' id' c bs hd hid' hc hne hdue ih =>
    intro id q n w f hid hn ho
    cases f with
    | zero => rfl
    | succ f =>
      have e : tlv id' c ++ bs ++ (id ++ lenOctets n ++ q) =
          id' ++ lenOctets c.length ++ (c ++ (bs ++ (id ++ lenOctets n ++ q))) := by simp [tlv]
      rw [e]
      rcases berDoParse_definite m (q := c ++ (bs ++ (id ++ lenOctets n ++ q))) w hid' hc with
        ⟨-, s', w', h⟩ | ⟨-, -, h⟩ | ⟨-, h, -⟩
      · exact berLoop_panic_of_step h
      · have hne' : ¬ id' ++ lenOctets c.length ++ c = BerRef.eoc := hne
        rw [List.take_left, List.drop_left, if_neg hne'] at h
        refine berLoop_next h (by omega) ?_
        rw [Int.add_zero]
        exact ih _ f hid hn (by simpa [tlv] using ho)
      · simp at h
  | «open» d d' id' bs hid' hdue ih =>
    intro id q n w f hid hn ho
    cases f with
    | zero => rfl
    | succ f =>
      have h : (Ber.doParse m).run (id' ++ indefOctets ++ bs ++ (id ++ lenOctets n ++ q)) w =
          (.ok 1, bs ++ (id ++ lenOctets n ++ q), w ++ id' ++ indefOctets) := by
        rw [List.append_assoc]
        simp only [Ber.doParse, parseIdLength_indefinite hid']
      refine berLoop_next h (by omega) ?_
      have := ih (q := q) (w ++ id' ++ indefOctets) f hid hn (by simpa using ho)
      exact_mod_cast this
  | close d d' bs hd hdue ih =>
    intro id q n w f hid hn ho
    cases f with
    | zero => rfl
    | succ f =>
      have hid0 : IsId [0x00] := ⟨0, 0, 0, by decide, by decide, by decide⟩
      have e : Spec.eoc ++ bs ++ (id ++ lenOctets n ++ q) =
          [0x00] ++ lenOctets 0 ++ (bs ++ (id ++ lenOctets n ++ q)) := by
        have : lenOctets 0 = [0x00] := by decide
        simp [this, Spec.eoc]
      rw [e]
      rcases berDoParse_definite m (n := 0) (q := bs ++ (id ++ lenOctets n ++ q)) w hid0 (by decide) with
        ⟨-, s', w', h⟩ | ⟨-, -, h⟩ | ⟨-, h, -⟩
      · exact berLoop_panic_of_step h
      · have hl : lenOctets 0 = [0x00] := by decide
        rw [List.take_zero, List.drop_zero, hl, if_pos (by decide)] at h
        refine berLoop_next (d := ((d + 1 : Nat) : Int)) (by rw [hl]; exact h) (by omega) ?_
        have := ih (q := q) (w ++ [0] ++ [0] ++ []) f hid hn (by simpa [Spec.eoc] using ho)
        have e2 : ((d + 1 : Nat) : Int) + -1 = (d : Int) := by omega
        rw [e2]
        exact this
      · omega

/-- A panic of the loop comes from such a header, and there is no other outcome than a value or an error. -/
theorem berLoop_settled_or_over (m : Build) : ∀ (f d : Nat) (bs w : Bytes), bs.length < f → d ≤ w.length →
    w.length + bs.length ≤ isizeMax →
    (∃ s' w', (Ber.parseLoop m f d).run bs w = (.ok (), s', w')) ∨
    (∃ e s' w', (Ber.parseLoop m f d).run bs w = (.err e, s', w')) ∨
    (((Ber.parseLoop m f d).run bs w).1 = .panic ∧ Over d w bs) := by
  intro f
  induction f with
  | zero => intro d bs w h; omega
  | succ f ih =>
    intro d bs w hf hd hmax
    have key : ∀ (δ : Int) (s' w' : Bytes), (Ber.doParse m).run bs w = (.ok δ, s', w') → s'.length < bs.length → δ ≤ 1 →
        w.length + 1 ≤ w'.length → w'.length + s'.length = w.length + bs.length →
        (∀ d' : Nat, (d : Int) + δ = d' → 0 < d' → Over d' w' s' → Over d w bs) →
        (∃ s' w', (Ber.parseLoop m (f + 1) d).run bs w = (.ok (), s', w')) ∨
        (∃ e s' w', (Ber.parseLoop m (f + 1) d).run bs w = (.err e, s', w')) ∨
        (((Ber.parseLoop m (f + 1) d).run bs w).1 = .panic ∧ Over d w bs) := by
      intro δ s' w' h h1 h2 h3 h4 h5
      simp only [Ber.parseLoop, P.bind_def, h, P.ite_apply, P.lift_apply, P.pure_apply]
      rw [if_neg (by omega)]
      by_cases hp : d + δ > 0
      · rw [if_pos hp]
        obtain ⟨d', hd'⟩ : ∃ d' : Nat, (d : Int) + δ = d' := ⟨((d : Int) + δ).toNat, by omega⟩
        rw [hd']
        rcases ih d' s' w' (by omega) (by omega) (by omega) with h6 | h6 | ⟨h6, h7⟩
        · exact .inl h6
        · exact .inr (.inl h6)
        · exact .inr (.inr ⟨h6, h5 d' hd' (by omega) h7⟩)
      · rw [if_neg hp]; exact .inl ⟨_, _, rfl⟩
    have hspec := parseIdLength_spec bs w
    generalize hr : (parseIdLength (σ := Bytes)).run bs w = r at hspec
    cases hspec with
    | definite id n rest hid hn e =>
      subst e
      have hpos := isId_length_pos hid
      have hlpos := List.length_pos_iff.mpr (lenOctets_ne_nil n)
      rcases berDoParse_definite m (q := rest) w hid hn with ⟨ho, s', w', h⟩ | ⟨ho, hq, h⟩ | ⟨ho, hq, e, s', w', h⟩
      · exact .inr (.inr ⟨berLoop_panic_of_step h, [], d, id, n, rest, .nil d, hid, hn, rfl, by simpa using ho⟩)
      · refine key _ _ _ h (by simp; omega) (by split <;> omega) (by simp; omega) (by simp; omega) ?_
        intro d' hd' hpos' ⟨p, d'', id', n', q', h1, h2, h3, h4, h5⟩
        have hb : id ++ lenOctets n ++ rest = (id ++ lenOctets n ++ rest.take n) ++ p ++ (id' ++ lenOctets n' ++ q') := by
          conv_lhs => rw [← List.take_append_drop n rest, h4]
          simp
        have ht : tlv id (rest.take n) = id ++ lenOctets n ++ rest.take n := by
          rw [tlv, List.length_take, Nat.min_eq_left hq]
        refine ⟨(id ++ lenOctets n ++ rest.take n) ++ p, d'', id', n', q', ?_, h2, h3, hb, by simpa using h5⟩
        by_cases heoc : id ++ lenOctets n ++ rest.take n = BerRef.eoc
        · rw [if_pos heoc] at hd'
          obtain ⟨k, rfl⟩ : ∃ k, d = k + 1 := ⟨d - 1, by omega⟩
          have : d' = k := by omega
          subst this
          rw [heoc]
          exact Due.close d' d'' p hpos' h1
        · rw [if_neg heoc] at hd'
          have : d' = d := by omega
          subst this
          rw [← ht]
          exact Due.skip d' d'' id (rest.take n) p hpos' hid (by simp; omega) (by rw [ht]; exact heoc) h1
      · refine .inr (.inl ⟨e, s', w', ?_⟩)
        simp only [Ber.parseLoop, P.bind_def, h]
    | indefinite id rest hid e =>
      have hpos := isId_length_pos hid
      have h : (Ber.doParse m).run bs w = (.ok 1, rest, w ++ id ++ indefOctets) := by
        simp only [Ber.doParse, hr]
      subst e
      refine key _ _ _ h (by simp [indefOctets]; omega) (by omega) (by simp [indefOctets])
        (by simp [indefOctets]; omega) ?_
      intro d' hd' hpos' ⟨p, d'', id', n', q', h1, h2, h3, h4, h5⟩
      have : d' = d + 1 := by omega
      subst this
      exact ⟨id ++ indefOctets ++ p, d'', id', n', q', Due.open d d'' id p hid h1, h2, h3, by rw [h4]; simp, by simpa using h5⟩
    | error e p rest w' _ =>
      refine .inr (.inl ⟨e, rest, w', ?_⟩)
      simp only [Ber.parseLoop, P.bind_def, Ber.doParse, hr]

/-- **C23, exactly.** Whatever the sizes of the pieces in which a reader delivers `bs`: `Ber::parse` panics if and only if a header, where
one is due, announces more octets than fit behind what was read; otherwise it gives a value or an error. -/
theorem C23_ber_parse_panic_iff {σ : Type} [Reader σ] {R : σ → List UInt8 → Prop} (hd : Delivers R) (m : Build) {s : σ} {bs : Bytes}
    (h : R s bs) (hlen : bs.length ≤ isizeMax) :
    ((Ber.parse m s).1 = .panic ↔ TooLong isizeMax bs) ∧ (¬ TooLong isizeMax bs → (Ber.parse m s).1.Settled) := by
  rw [(sim_berParse hd m h).1]
  have hover : Over 0 [] bs ↔ TooLong isizeMax bs := by simp [Over, TooLong]
  have hz : ((0 : Nat) : Int) = 0 := rfl
  have h1 : Over 0 [] bs → (Ber.parse m bs).1 = .panic := by
    rintro ⟨p, d', id, n, q, h1, h2, h3, rfl, h5⟩
    have := berLoop_over (m := m) h1 (q := q) [] (Reader.size (p ++ (id ++ lenOctets n ++ q)) + 1) h2 h3 h5
    rw [hz] at this
    simp only [Ber.parse]
    rcases hx : (Ber.parseLoop m (Reader.size (p ++ (id ++ lenOctets n ++ q)) + 1) 0).run (p ++ (id ++ lenOctets n ++ q)) [] with ⟨r, s', w'⟩
    rw [hx] at this
    simp only at this
    rw [this]
  have h2 := berLoop_settled_or_over m (Reader.size bs + 1) 0 bs [] (by simp [size_bytes]) (by simp) (by simpa using hlen)
  rw [hz] at h2
  rw [← hover]
  rcases h2 with ⟨s', w', e⟩ | ⟨e', s', w', e⟩ | ⟨-, ho⟩
  · have e1 : (Ber.parse m bs).1 = .ok w' := by simp only [Ber.parse, e]
    have hno : ¬ Over 0 [] bs := fun ho => by rw [h1 ho] at e1; cases e1
    exact ⟨iff_of_false (by rw [e1]; simp) hno, fun _ => by rw [e1]; exact Res.settled_ok _⟩
  · have e1 : (Ber.parse m bs).1 = .err e' := by simp only [Ber.parse, e]
    have hno : ¬ Over 0 [] bs := fun ho => by rw [h1 ho] at e1; cases e1
    exact ⟨iff_of_false (by rw [e1]; simp) hno, fun _ => by rw [e1]; exact Res.settled_err _⟩
  · exact ⟨iff_of_true (h1 ho) ho, fun hn => absurd ho hn⟩

/-- **C23, exactly.** `Der::parse` panics if and only if the header announces more octets than fit behind it; otherwise it gives a value
or an error. -/
theorem C23_der_parse_panic_iff {σ : Type} [Reader σ] {R : σ → List UInt8 → Prop} (hd : Delivers R) (m : Build) {s : σ} {bs : Bytes}
    (h : R s bs) :
    ((Der.parse m s).1 = .panic ↔
      ∃ id n q, IsId id ∧ n < 2 ^ 64 ∧ bs = id ++ lenOctets n ++ q ∧ isizeMax < (id ++ lenOctets n).length + n) ∧
    ((Der.parse m s).1 = .panic ∨ (Der.parse m s).1.Settled) := by
  have hu := usizeSize_eq
  have hi := isizeMax_eq
  obtain ⟨h1, h2, h3⟩ := sim_parseIdLength hd s bs [] h
  have hspec := parseIdLength_spec bs []
  rcases hx : (parseIdLength (σ := σ)).run s [] with ⟨r, s', w'⟩
  generalize hr : (parseIdLength (σ := Bytes)).run bs [] = r' at hspec
  rw [hx, hr] at h1 h2 h3
  have hdef : ∀ id n q, IsId id → n < 2 ^ 64 → bs = id ++ lenOctets n ++ q →
      r' = (.ok (.definite n), q, id ++ lenOctets n) := by
    rintro id n q j1 j2 rfl
    rw [parseIdLength_definite j1 j2] at hr
    exact hr.symm
  simp only [Der.parse, hx]
  cases hspec with
  | definite id n rest hid hn e =>
    simp only [List.nil_append] at h1 h2 h3
    subst h1 h2
    have hdef' : (∃ id n q, IsId id ∧ n < 2 ^ 64 ∧ bs = id ++ lenOctets n ++ q ∧ isizeMax < (id ++ lenOctets n).length + n) ↔
        isizeMax < (id ++ lenOctets n).length + n := by
      constructor
      · rintro ⟨id', n', q', j1, j2, j3, j4⟩
        have := hdef id' n' q' j1 j2 j3
        simp only [List.nil_append, Prod.mk.injEq, Res.ok.injEq, Length.definite.injEq] at this
        obtain ⟨rfl, -, h⟩ := this
        rw [h]; exact j4
      · intro h; exact ⟨id, n, rest, hid, hn, e, h⟩
    rw [hdef']
    simp only
    by_cases ho : isizeMax < (id ++ lenOctets n).length + n
    · rw [derReserve_over ho (by omega)]
      exact ⟨iff_of_true rfl ho, .inl rfl⟩
    · rw [uadd_ok (by omega)]
      simp only [Res.bind_ok]
      rw [bufReserve_ok (by omega)]
      simp only [Res.bind_ok]
      rw [if_pos (by omega)]
      simp only [Res.pure_eq]
      have hread : ∀ k, ∃ b s'', Reader.read k s' = (.data b, s'') := by
        intro k
        rcases Nat.eq_zero_or_pos k with rfl | hk
        · obtain ⟨s'', j, -⟩ := hd.read_zero s' rest h3; exact ⟨_, _, j⟩
        · obtain ⟨_, s'', j, -⟩ := hd.read_pos k s' rest hk h3; exact ⟨_, _, j⟩
      obtain ⟨b, s'', j⟩ := hread ((id ++ lenOctets n).length + n - (id ++ lenOctets n).length)
      rw [j]
      simp only
      split
      · exact ⟨iff_of_false (by simp) ho, .inr (Res.settled_err _)⟩
      · exact ⟨iff_of_false (by simp) ho, .inr (Res.settled_ok _)⟩
  | indefinite id rest hid e =>
    simp only at h1
    subst h1
    refine ⟨iff_of_false (by simp) ?_, .inr (Res.settled_err _)⟩
    rintro ⟨id', n', q', j1, j2, j3, -⟩
    have := hdef id' n' q' j1 j2 j3
    simp at this
  | error e p rest w'' _ =>
    simp only at h1
    subst h1
    refine ⟨iff_of_false (by simp) ?_, .inr (Res.settled_err _)⟩
    rintro ⟨id', n', q', j1, j2, j3, -⟩
    have := hdef id' n' q' j1 j2 j3
    simp at this

/-- A SEQUENCE of indefinite length with a boolean and then a header of 2^64 - 1 octets. -/
example : TooLong isizeMax ([0x30, 0x80, 0x01, 0x01, 0xff, 0x02, 0x88, 0xff, 0xff, 0xff, 0xff, 0xff, 0xff, 0xff, 0xff] : Bytes) := by
  refine ⟨[0x30, 0x80, 0x01, 0x01, 0xff], 1, [0x02], 2 ^ 64 - 1, [], ?_, ⟨0, 0, 2, by decide, by decide, by decide⟩, by decide,
    by decide +kernel, ?_⟩
  · exact Due.open 0 1 [0x30] [0x01, 0x01, 0xff] ⟨0, 1, 16, by decide, by decide, by decide⟩
      (Due.skip 1 1 [0x01] [0xff] [] (by decide) ⟨0, 0, 1, by decide, by decide, by decide⟩ (by decide) (by decide) (Due.nil 1))
  · have := isizeMax_eq; omega

end Bsn1
