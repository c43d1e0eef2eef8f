import Verif.Lemmas.StopsBer
import Verif.Props.Stream
/-!
# C103: parsing from a reader that gives any answers

A reader is given by its answers in order: octets, failures, or the count zero.  The results are those for the octets it delivers, unless a
failure or the end comes while octets are awaited.
-/

set_option linter.unusedSimpArgs false

namespace Bsn1
open Spec

/-! ### The two cases cover all readers -/

/-- **C103.** For every reader, either some answer without octets is the first that disturbs, or none does; not both. -/
theorem C103_cases (W : Bytes → Event → Prop) (s : Script) :
    ((∃ l ev r, FirstStop W s l ev r) ∨ NoStop W s) ∧ ¬ ((∃ l ev r, FirstStop W s l ev r) ∧ NoStop W s) := by
  constructor
  · suffices h : ∀ (n : Nat) (l r : Script), r.length = n → s = l ++ r → (∀ a e b, l = a ++ e :: b → IsStop e → ¬ W (scriptData a) e) →
        (∃ l ev r, FirstStop W s l ev r) ∨ NoStop W s from h s.length [] s rfl rfl (by intro a e b h; simp at h)
    intro n
    induction n with
    | zero =>
      intro l r hr e h
      rw [List.length_eq_zero_iff] at hr
      subst hr
      rw [List.append_nil] at e
      subst e
      exact .inr h
    | succ n ih =>
      intro l r hr e h
      cases r with
      | nil => simp at hr
      | cons x r =>
        by_cases hx : IsStop x ∧ W (scriptData l) x
        · exact .inl ⟨l, x, r, e, hx.1, hx.2, h⟩
        · refine ih (l ++ [x]) r (by simpa using hr) (by simpa using e) ?_
          intro a y b hab hy hw
          rcases List.eq_nil_or_concat b with rfl | ⟨b', z, rfl⟩
          · have := List.append_inj' hab (by simp)
            simp only [List.cons.injEq, and_true] at this
            obtain ⟨rfl, rfl⟩ := this
            exact hx ⟨hy, hw⟩
          · rw [List.concat_eq_append, ← List.cons_append, ← List.append_assoc] at hab
            have := List.append_inj' hab (by simp)
            exact h a y b' this.1 hy hw
  · rintro ⟨⟨l, ev, r, h1, h2, h3, -⟩, h4⟩
    exact h4 l ev r h1 h2 h3

example : FirstStop (fun p _ => p.length = 1) [.chunk [1], .fail .interrupted, .fail .unexpectedEof, .chunk [2]] [.chunk [1]] (.fail .interrupted)
    [.fail .unexpectedEof, .chunk [2]] := by
  refine ⟨rfl, .inr ⟨_, rfl⟩, rfl, ?_⟩
  intro a e b h
  cases a with
  | nil =>
    cases h
    rintro (h | ⟨k, h⟩) <;> cases h
  | cons x a => simp at h

/-! ### Identifiers and lengths -/

theorem firstStop_congr {W W' : Bytes → Event → Prop} {s l r : Script} {ev : Event}
    (hw : ∀ a e, (∃ b, scriptData s = a ++ b) → (W a e ↔ W' a e)) (h : FirstStop W s l ev r) : FirstStop W' s l ev r := by
  obtain ⟨rfl, h2, h3, h4⟩ := h
  refine ⟨rfl, h2, (hw _ _ ⟨_, scriptData_append _ _⟩).1 h3, fun a e b hab he hx => h4 a e b hab he ((hw _ _ ?_).2 hx)⟩
  subst hab
  exact ⟨_, by rw [List.append_assoc, scriptData_append]⟩

theorem noStop_congr {W W' : Bytes → Event → Prop} {s : Script} (hw : ∀ a e, (∃ b, scriptData s = a ++ b) → (W a e ↔ W' a e))
    (h : NoStop W s) : NoStop W' s := fun a e b hab he hx => h a e b hab he ((hw _ _ ⟨_, by rw [hab, scriptData_append]⟩).2 hx)

theorem idParse_atEnd_iff (p : Bytes) : (AtEnd (Id.parse p).1 ↔ Completable IsId p) ∧ (AtEnd (Id.parse p).1 → (Id.parse p).1 = .err .unterminatedBytes) := by
  have hio : ∀ k, (Id.parse p).1 ≠ .err (.io k) := by
    intro k h
    have := noIo_parseId p [] k
    simp only [Id.parse] at h
    rcases hx : (parseId (σ := Bytes)).run p [] with ⟨r, p', w'⟩
    rw [hx] at h this
    cases r with
    | err e =>
      simp only [Res.err.injEq] at h
      exact this (by rw [h])
    | ok _ => cases h
    | panic => cases h
    | ub => cases h
  refine ⟨?_, fun h => h.resolve_right (hio _)⟩
  rw [← C71_id_unterminated]
  have hc := parseId_cut p []
  simp only [Id.parse, IdRef.parse]
  generalize (parseId (σ := Bytes)).run p [] = r at hc
  cases hc with
  | ok l rest h1 h2 => simp [h2, sliceTo]
  | cut w' h1 => simp [AtEnd]
  | final rest w' h1 => simp [AtEnd]

/-- **C103.** `Id::parse` with any reader.  The first failure, or end, that comes while the octets so far are the beginning of an
identifier is reported, and the reader is left right behind it.  If there is none, the result is that for all octets of the reader. -/
theorem C103_id_exact (s : Script) :
    (∀ l ev r, FirstStop (fun p _ => Completable IsId p) s l ev r → Id.parse s = (.err (stopError .unterminatedBytes ev), r)) ∧
    (NoStop (fun p _ => Completable IsId p) s →
      (Id.parse s).1 = (Id.parse (scriptData s)).1 ∧ scriptData (Id.parse s).2 = (Id.parse (scriptData s)).2) := by
  have hw : ∀ (a : Bytes) (e : Event), (∃ b, scriptData s = a ++ b) → (Completable IsId a ↔ Disturbs Id.parse a e) := by
    intro a e _
    rw [Disturbs, ← (idParse_atEnd_iff a).1]
    exact ⟨fun h => ⟨h, fun _ => (idParse_atEnd_iff a).2 h⟩, fun h => h.1⟩
  constructor
  · intro l ev r h
    have h' := firstStop_congr hw h
    exact stops_first (f := Id.parse) (g := Id.parse) (fun _ _ => flow_idParse) (fun _ _ => stop_idParse) (fun _ _ => chunks_idParse) _ s l ev r rfl h' _
      ((idParse_atEnd_iff _).2 h'.2.2.1.1)
  · intro h
    exact stops_none (f := Id.parse) (g := Id.parse) (fun _ _ => flow_idParse) (fun _ _ => stop_idParse) (fun _ _ => chunks_idParse) _ s rfl (noStop_congr hw h)

/-- An interruption before the second octet of `1f 85 01`. -/
example : Id.parse ([.chunk [0x1f], .fail .interrupted, .chunk [0x85, 0x01]] : Script) = (.err (.io .interrupted), [.chunk [0x85, 0x01]]) :=
  (C103_id_exact _).1 [.chunk [0x1f]] (.fail .interrupted) _ ⟨rfl, .inr ⟨_, rfl⟩, (C71_id_unterminated _).1 (by decide +kernel), by
    intro a e b h
    cases a with
    | nil =>
      cases h
      rintro (h | ⟨k, h⟩) <;> cases h
    | cons x a => simp at h⟩

/-- **C103.** `Length::parse` with any reader. -/
theorem C103_length_exact (s : Script) :
    (∀ l ev r, FirstStop (fun p _ => Completable IsLen p ∨ ∃ b : UInt8, 136 < b.toNat ∧ p = [b]) s l ev r →
      Length.parse s = (.err (stopError .unterminatedBytes ev), r)) ∧
    (NoStop (fun p _ => Completable IsLen p ∨ ∃ b : UInt8, 136 < b.toNat ∧ p = [b]) s →
      (Length.parse s).1 = (Length.parse (scriptData s)).1 ∧ scriptData (Length.parse s).2 = (Length.parse (scriptData s)).2) := by
  have hun : ∀ a : Bytes, AtEnd (Length.parse a).1 → (Length.parse a).1 = .err .unterminatedBytes := fun a h =>
    h.resolve_right (NoIo.length a [] _)
  have hw : ∀ (a : Bytes) (e : Event), (∃ b, scriptData s = a ++ b) →
      ((Completable IsLen a ∨ ∃ b : UInt8, 136 < b.toNat ∧ a = [b]) ↔ Disturbs Length.parse a e) := by
    intro a e _
    rw [Disturbs, ← C71_length_unterminated]
    exact ⟨fun h => ⟨.inl h, fun _ => h⟩, fun h => hun a h.1⟩
  constructor
  · intro l ev r h
    have h' := firstStop_congr hw h
    exact stops_first (f := Length.parse) (g := Length.parse) (fun _ _ => flow_lengthParse) (fun _ _ => stop_lengthParse)
      (fun _ _ => chunks_lengthParse) _ s l ev r rfl h' _ (hun _ h'.2.2.1.1)
  · intro h
    exact stops_none (f := Length.parse) (g := Length.parse) (fun _ _ => flow_lengthParse) (fun _ _ => stop_lengthParse)
      (fun _ _ => chunks_lengthParse) _ s rfl (noStop_congr hw h)

/-- The end before the second octet of a length of two further ones; more octets come later, in vain. -/
example : Length.parse ([.chunk [0x82], .chunk [], .chunk [0x01, 0x00]] : Script) = (.err .unterminatedBytes, [.chunk [0x01, 0x00]]) :=
  (C103_length_exact _).1 [.chunk [0x82]] (.chunk []) _ ⟨rfl, .inl rfl, (C71_length_unterminated _).1 (by decide +kernel), by
    intro a e b h
    cases a with
    | nil =>
      cases h
      rintro (h | ⟨k, h⟩) <;> cases h
    | cons x a => simp at h⟩

/-! ### BER -/

theorem berParse_eof_iff (m : Build) {p : Bytes} (hlen : p.length ≤ isizeMax) :
    (Ber.parse m p).1 = .err (.io .unexpectedEof) ↔ Truncated p ∧ ¬ TooLong isizeMax p := by
  have hz : ((0 : Nat) : Int) = 0 := rfl
  have hpanic := (C23_ber_parse_panic_iff delivers_slice m (s := p) rfl hlen).1
  constructor
  · intro h
    refine ⟨?_, fun ht => by rw [hpanic.2 ht] at h; cases h⟩
    have hagree := berLoop_agree m (p.length + 1) 0 p [] (by omega) (by simp) (by simpa using hlen)
    rw [hz] at hagree
    rcases hagree with ⟨r, rest, w', h1, h2, h3, h4⟩ | ⟨-, h2, q, h3⟩ | ⟨h1, -, -⟩
    · simp only [Ber.parse, size_bytes, h1] at h
      cases r with
      | err e => exact absurd h (by simpa using h4 .unexpectedEof)
      | ok _ => cases h
      | panic => cases h
      | ub => cases h
    · rcases hx : (Ber.parseLoop m (p.length + 1) 0).run p [] with ⟨r, s', w'⟩
      rw [hx] at h2
      simp only at h2
      subst h2
      simp only [Ber.parse, size_bytes, hx] at h
      cases h
    · obtain ⟨q, d', id, n, t, k1, k2, k3, k4, k5, _⟩ := h1
      exact ⟨q, d', id, n, t, k1, k2, k3, k4, k5⟩
  · rintro ⟨⟨q, d', id, n, t, k1, k2, k3, k4, k5⟩, hl⟩
    have hs : Short Not 0 [] p := ⟨q, d', id, n, t, k1, k2, k3, k4, k5, fun ho => hl ⟨q, d', id, n, t, k1, k2, k3, k4, by simpa using ho⟩⟩
    have k := berLoop_short m hs (by simp) (by simpa using hlen) (f := p.length + 1) (by omega)
    rw [hz] at k
    rcases hx : (Ber.parseLoop m (p.length + 1) 0).run p [] with ⟨r, s', w'⟩
    rw [hx] at k
    simp only at k
    subst k
    simp only [Ber.parse, size_bytes, hx]

namespace Spec

/-- After the octets `p` an answer without octets disturbs reading BER: octets are awaited, and it is not an interruption within the contents of
a value of definite length. -/
def BerDisturbed (p : List UInt8) (ev : Event) : Prop :=
  (Completable IsBer p ∨ WideLengthWithin p) ∧ ¬ TooLong isizeMax p ∧ (ev = .fail .interrupted → ¬ Truncated p)

end Spec

theorem berDisturbed_iff (m : Build) {p : Bytes} (hlen : p.length ≤ isizeMax) (ev : Event) :
    BerDisturbed p ev ↔ Disturbs (Ber.parse m) p ev := by
  have h1 := berParse_atEnd_iff m hlen
  have h2 := berParse_eof_iff m hlen
  rw [Disturbs, BerDisturbed, h1]
  constructor
  · rintro ⟨a, b, c⟩
    refine ⟨⟨a, b⟩, fun he => ?_⟩
    rcases h1.2 ⟨a, b⟩ with h | h
    · exact h
    · exact absurd (h2.1 h).1 (c he)
  · rintro ⟨⟨a, b⟩, c⟩
    refine ⟨a, b, fun he ht => ?_⟩
    have := h2.2 ⟨ht, b⟩
    rw [c he] at this
    cases this

/-- **C103.** `Ber::parse` with any reader.  The first failure, or end, that comes while the octets so far await more is reported (the end as
`UnexpectedEof` within contents), and the reader is left right behind it; only interruptions within the contents of a value of definite
length do not count.  If there is none, the result is that for all octets of the reader. -/
theorem C103_ber_exact (m : Build) (s : Script) (hlen : (scriptData s).length ≤ isizeMax) :
    (∀ l ev r, FirstStop BerDisturbed s l ev r →
      (¬ Truncated (scriptData l) → Ber.parse m s = (.err (stopError .unterminatedBytes ev), r)) ∧
      (Truncated (scriptData l) → Ber.parse m s = (.err (stopError (.io .unexpectedEof) ev), r))) ∧
    (NoStop BerDisturbed s →
      (Ber.parse m s).1 = (Ber.parse m (scriptData s)).1 ∧ scriptData (Ber.parse m s).2 = (Ber.parse m (scriptData s)).2) := by
  have hle : ∀ a : Bytes, (∃ b, scriptData s = a ++ b) → a.length ≤ isizeMax := by
    rintro a ⟨b, e⟩
    rw [e, List.length_append] at hlen
    omega
  have hw : ∀ (a : Bytes) (e : Event), (∃ b, scriptData s = a ++ b) → (BerDisturbed a e ↔ Disturbs (Ber.parse m) a e) :=
    fun a e h => berDisturbed_iff m (hle a h) e
  constructor
  · intro l ev r h
    have h' := firstStop_congr hw h
    have hl : (scriptData l).length ≤ isizeMax := hle _ (by rw [h.1]; exact ⟨_, scriptData_append _ _⟩)
    have key := stops_first (f := Ber.parse m) (g := Ber.parse m) (fun _ _ => flow_berParse m) (fun _ _ => stop_berParse m)
      (fun _ _ => chunks_berParse m) _ s l ev r rfl h'
    have he := berParse_eof_iff m hl
    refine ⟨fun ht => key _ ?_, fun ht => key _ (he.2 ⟨ht, h.2.2.1.2.1⟩)⟩
    exact h'.2.2.1.1.resolve_right fun hx => ht (he.1 hx).1
  · intro h
    exact stops_none (f := Ber.parse m) (g := Ber.parse m) (fun _ _ => flow_berParse m) (fun _ _ => stop_berParse m)
      (fun _ _ => chunks_berParse m) _ s rfl (noStop_congr hw h)

/-- In `04 02 …` an interruption after the first octet of the contents is passed over, and the end is reported. -/
example : Ber.parse .release ([.chunk [0x04, 0x02, 0x07], .fail .interrupted, .chunk [], .chunk [0x08]] : Script) =
    (.err (.io .unexpectedEof), [.chunk [0x08]]) := by
  have ht : Truncated ([0x04, 0x02, 0x07] : Bytes) :=
    ⟨[], 0, [0x04], 2, [0x07], .nil 0, ⟨0, 0, 4, by decide, by decide, by decide +kernel⟩, by decide, by decide +kernel, by decide⟩
  have he := (berParse_atEnd_iff .release (p := [0x04, 0x02, 0x07]) (by decide)).1 (.inr (by decide +kernel))
  refine ((C103_ber_exact .release _ (by decide)).1 [.chunk [0x04, 0x02, 0x07], .fail .interrupted] (.chunk []) _
    ⟨rfl, .inl rfl, ⟨he.1, he.2, nofun⟩, ?_⟩).2 ht
  intro a e b h hs hd
  match a with
  | [] =>
    cases h
    rcases hs with h | ⟨k, h⟩ <;> cases h
  | [x] =>
    cases h
    exact hd.2.2 rfl ht
  | x :: y :: a => simp at h

/-! ### DER -/

/-- `parse_id_length`: length and octets of the header, and the reader. -/
def headerOf {σ : Type} [Reader σ] (s : σ) : Res (Length × Bytes) × σ :=
  (((parseIdLength (σ := σ)).run s []).1.bind fun l => .ok (l, ((parseIdLength (σ := σ)).run s []).2.2), ((parseIdLength (σ := σ)).run s []).2.1)

theorem headerOf_err {σ : Type} [Reader σ] (s : σ) (e : Error) :
    (headerOf s).1 = .err e ↔ ((parseIdLength (σ := σ)).run s []).1 = .err e := by
  simp only [headerOf]
  cases ((parseIdLength (σ := σ)).run s []).1 <;> simp [Res.bind]

theorem headerOf_atEnd {σ : Type} [Reader σ] (s : σ) : AtEnd (headerOf s).1 ↔ AtEnd ((parseIdLength (σ := σ)).run s []).1 := by
  simp only [AtEnd, headerOf_err]

theorem flow_headerOf {s : Script} {p : Bytes} (h : Chunks s p) : FlowTop headerOf headerOf s p := by
  obtain ⟨h1, h2⟩ := flow_parseIdLength s p [] h
  refine ⟨fun he k tail hk => ?_, fun he => ?_⟩
  · obtain ⟨w', h3⟩ := h1 ((headerOf_atEnd p).1 he) k tail hk
    simp only [headerOf, h3, Res.bind]
  · obtain ⟨left, h3, h4⟩ := h2 (fun h => he ((headerOf_atEnd p).2 h))
    exact ⟨left, h3, fun tail => by simp only [headerOf, h4]⟩

theorem stop_headerOf {s : Script} {p : Bytes} (h : Chunks s p) : StopTop headerOf headerOf s p := by
  have h1 := halt_parseIdLength.2 s p [] h
  have hio := NoIo.idLength p []
  refine ⟨fun e he hend ev tail hev _ => ?_, fun he => absurd ((headerOf_err p _).1 he) (hio _)⟩
  have hun : (headerOf p).1 = .err .unterminatedBytes := hend.resolve_right fun hx => hio _ ((headerOf_err p _).1 hx)
  have : e = .unterminatedBytes := Res.err.inj (he.symm.trans hun)
  subst this
  obtain ⟨w', h3⟩ := h1 ((headerOf_err p _).1 hun) ev tail hev
  simp only [headerOf, h3, Res.bind]

theorem chunks_headerOf {s : Script} {p : Bytes} (h : Chunks s p) :
    (headerOf s).1 = (headerOf p).1 ∧ Chunks (headerOf s).2 (headerOf p).2 := by
  obtain ⟨h1, h2, h3⟩ := sim_parseIdLength delivers_chunks s p [] h
  exact ⟨by simp only [headerOf, h1, h2], h3⟩

namespace Spec

/-- Identifier and definite length. -/
def IsDerHeader (h : List UInt8) : Prop := ∃ id n, IsId id ∧ n < 2 ^ 64 ∧ h = id ++ lenOctets n

/-- After the octets `p` of a header more are awaited. -/
def InHeader (p : List UInt8) : Prop := Completable IsDerHeader p ∨ WideLength p

end Spec

theorem headerOf_atEnd_iff (p : Bytes) : AtEnd (headerOf p).1 ↔ InHeader p := by
  have hio := NoIo.idLength p []
  have hc := parseIdLength_cut p []
  have hun : AtEnd (headerOf p).1 ↔ ((parseIdLength (σ := Bytes)).run p []).1 = .err .unterminatedBytes := by
    rw [headerOf_atEnd]
    exact ⟨fun h => h.resolve_right (hio _), .inl⟩
  rw [hun]
  constructor
  · intro he
    generalize (parseIdLength (σ := Bytes)).run p [] = r at hc he
    cases hc with
    | definite => cases he
    | indefinite => cases he
    | cut id n t rest w' k1 k2 k3 k4 k5 => exact .inl ⟨t, k1, id, n, k2, k4, k5⟩
    | wide rest w' k1 => exact .inr k1
    | final e rest w' k1 k2 => exact absurd (Res.err.inj he) k1
  · rintro (⟨t, ht, id, n, hid, hn, e⟩ | ⟨id, b, h3, h4, rfl⟩)
    · have h3 := parseIdLength_definite hid hn [] []
      rw [List.append_nil, ← e] at h3
      generalize hy : (parseIdLength (σ := Bytes)).run p [] = y at hc ⊢
      cases hc with
      | definite id' n' rest w' k1 k2 k3 =>
        rw [k3, List.append_assoc _ _ t, parseIdLength_definite k1 k2] at h3
        simp at h3
        exact absurd h3.2.1.2 ht
      | indefinite id' rest w' k1 k2 =>
        rw [k2, List.append_assoc _ _ t, parseIdLength_indefinite k1] at h3
        simp at h3
      | cut => rfl
      | wide => rfl
      | final e rest w' k1 k2 =>
        have := k2 t []
        rw [h3] at this
        simp at this
    · simp only [parseIdLength, P.bind_def, parseId_shape ((isId_iff_shape _).mp h3), parseLength_long_nil b _ (by omega)]

theorem derParse_headerOf {σ : Type} [Reader σ] (m : Build) (s : σ) :
    (∀ e, (headerOf s).1 = .err e → Der.parse m s = (.err e, (headerOf s).2)) ∧
    (∀ w, (headerOf s).1 = .ok (.indefinite, w) → Der.parse m s = (.err .indefiniteLength, (headerOf s).2)) := by
  constructor
  · intro e he
    rw [headerOf_err] at he
    rcases hx : (parseIdLength (σ := σ)).run s [] with ⟨r, s', w'⟩
    rw [hx] at he
    simp only at he
    subst he
    simp only [Der.parse, headerOf, hx]
  · intro w he
    rcases hx : (parseIdLength (σ := σ)).run s [] with ⟨r, s', w'⟩
    simp only [headerOf, hx] at he
    cases r with
    | ok l =>
      simp only [Res.bind, Res.ok.injEq, Prod.mk.injEq] at he
      obtain ⟨rfl, rfl⟩ := he
      simp only [Der.parse, headerOf, hx]
    | err _ => cases he
    | panic => cases he
    | ub => cases he

/-- **C103.** `Der::parse` with any reader.  The first failure, or end, that comes within the header is reported, and the reader is left right
behind it.  Otherwise, if the octets of the reader start with no identifier and definite length, the error is that for these octets.  If they
do, there is a panic if the contents do not fit in memory, and else one `read`, for all of the contents, decides. -/
theorem C103_der_exact (m : Build) (s : Script) :
    (∀ l ev r, FirstStop (fun p _ => InHeader p) s l ev r → Der.parse m s = (.err (stopError .unterminatedBytes ev), r)) ∧
    (NoStop (fun p _ => InHeader p) s →
      (∀ id n q, IsId id → n < 2 ^ 64 → scriptData s = id ++ lenOctets n ++ q →
        (isizeMax < (id ++ lenOctets n).length + n → (Der.parse m s).1 = .panic) ∧
        ((id ++ lenOctets n).length + n ≤ isizeMax → ∀ s', 
          (∀ k, Reader.read n (afterOctets (id ++ lenOctets n).length s) = (.fail k, s') → Der.parse m s = (.err (.io k), s')) ∧
          (∀ c, Reader.read n (afterOctets (id ++ lenOctets n).length s) = (.data c, s') →
            (c.length = n → Der.parse m s = (.ok (id ++ lenOctets n ++ c), s')) ∧
            (c.length < n → Der.parse m s = (.err .unterminatedBytes, s'))))) ∧
      ((¬ ∃ h q, IsDerHeader h ∧ scriptData s = h ++ q) →
        (Der.parse m s).1 = (Der.parse m (scriptData s)).1 ∧ scriptData (Der.parse m s).2 = (Der.parse m (scriptData s)).2)) := by
  have hi := isizeMax_eq
  have hu := usizeSize_eq
  have hun : ∀ a : Bytes, AtEnd (headerOf a).1 → (headerOf a).1 = .err .unterminatedBytes := fun a h =>
    h.resolve_right fun hx => NoIo.idLength a [] _ ((headerOf_err a _).1 hx)
  have hw : ∀ (a : Bytes) (e : Event), (∃ b, scriptData s = a ++ b) → (InHeader a ↔ Disturbs headerOf a e) := by
    intro a e _
    rw [← headerOf_atEnd_iff, Disturbs]
    exact ⟨fun h => ⟨h, fun _ => hun a h⟩, fun h => h.1⟩
  constructor
  · intro l ev r h
    have h' := firstStop_congr hw h
    have key := stops_first (f := headerOf) (g := headerOf) (fun _ _ => flow_headerOf) (fun _ _ => stop_headerOf)
      (fun _ _ => chunks_headerOf) _ s l ev r rfl h' _ (hun _ h'.2.2.1.1)
    rw [(derParse_headerOf m s).1 _ (by rw [key]), key]
  · intro h
    obtain ⟨k1, k2⟩ := stops_none (f := headerOf) (g := headerOf) (fun _ _ => flow_headerOf) (fun _ _ => stop_headerOf)
      (fun _ _ => chunks_headerOf) _ s rfl (noStop_congr hw h)
    constructor
    · intro id n q hid hn hq
      have hh := parseIdLength_definite hid hn q []
      rw [← hq] at hh
      simp only [headerOf, hh, List.nil_append, Res.bind] at k1 k2
      rcases hx : (parseIdLength (σ := Script)).run s [] with ⟨r, s1, w1⟩
      rw [hx] at k1 k2
      cases r with
      | ok l =>
        simp only [Res.ok.injEq, Prod.mk.injEq] at k1 k2
        obtain ⟨rfl, rfl⟩ := k1
        have hs1 : s1 = afterOctets (id ++ lenOctets n).length s := by
          obtain ⟨k, h1, rfl⟩ := walk_parseIdLength s [] _ s1 _ hx
          congr 1
          have e := congrArg List.length k2
          rw [afterOctets_data, List.length_drop] at e
          have e2 := congrArg List.length hq
          rw [List.length_append] at e2
          omega
        constructor
        · intro ho
          rw [Der.parse, hx]
          simp only
          rw [derReserve_over ho (by omega)]
        · intro ho s'
          have hd : Der.parse m s = (match Reader.read n s1 with
              | (.fail k, s) => (.err (.io k), s)
              | (.data bs, s) => if bs.length < n then (.err .unterminatedBytes, s) else (.ok (id ++ lenOctets n ++ bs), s)) := by
            rw [Der.parse, hx]
            simp only
            rw [uadd_ok (by omega)]
            simp only [Res.bind_ok]
            rw [bufReserve_ok (by omega)]
            simp only [Res.bind_ok]
            rw [if_pos (by omega)]
            simp only [Res.pure_eq, Nat.add_sub_cancel_left]
            rcases Reader.read n s1 with ⟨_ | _, _⟩ <;> rfl
          rw [← hs1]
          refine ⟨fun k hr => by rw [hd, hr], fun c hr => ⟨fun hc => ?_, fun hc => ?_⟩⟩
          · rw [hd, hr]
            simp only [if_neg (show ¬ c.length < n by omega)]
          · rw [hd, hr]
            simp only [if_pos hc]
      | err _ => cases k1
      | panic => cases k1
      | ub => cases k1
    · intro hno
      have hc := parseIdLength_cut (scriptData s) []
      have herr : ∀ e, (headerOf (scriptData s)).1 = .err e →
          (Der.parse m s).1 = (Der.parse m (scriptData s)).1 ∧ scriptData (Der.parse m s).2 = (Der.parse m (scriptData s)).2 := by
        intro e he
        rw [(derParse_headerOf m (scriptData s)).1 e he, (derParse_headerOf m s).1 e (k1.trans he)]
        exact ⟨rfl, k2⟩
      rcases hy : (parseIdLength (σ := Bytes)).run (scriptData s) [] with ⟨r, p', w'⟩
      rw [hy] at hc
      cases hc with
      | definite id n _ _ j1 j2 j3 => exact absurd ⟨_, p', ⟨id, n, j1, j2, rfl⟩, j3⟩ hno
      | indefinite id _ _ j1 j2 =>
        have he : (headerOf (scriptData s)).1 = .ok (.indefinite, w') := by simp only [headerOf, hy, Res.bind]
        rw [(derParse_headerOf m (scriptData s)).2 _ he, (derParse_headerOf m s).2 _ (k1.trans he)]
        exact ⟨rfl, k2⟩
      | cut id n t _ _ j1 j2 j3 j4 j5 => exact herr .unterminatedBytes ((headerOf_err _ _).2 (by rw [hy]))
      | wide _ _ j1 => exact herr .unterminatedBytes ((headerOf_err _ _).2 (by rw [hy]))
      | final e _ _ j1 j2 => exact herr e ((headerOf_err _ _).2 (by rw [hy]))

/-- A failure between header and contents is reported: it is the answer to the one `read`. -/
example : Der.parse .debug ([.chunk [0x04, 0x02], .fail .interrupted, .chunk [7, 8]] : Script) = (.err (.io .interrupted), [.chunk [7, 8]]) := by
  have hno : NoStop (fun p _ => InHeader p) ([.chunk [0x04, 0x02], .fail .interrupted, .chunk [7, 8]] : Script) := by
    intro a e b h hs
    match a with
    | [] => cases h; rcases hs with h | ⟨k, h⟩ <;> cases h
    | [x] =>
      cases h
      intro hh
      have := (headerOf_atEnd_iff _).2 hh
      exact absurd this (by
        rw [headerOf_atEnd]
        rintro (h | h) <;> exact absurd h (by decide +kernel))
    | [x, y] => cases h; rcases hs with h | ⟨k, h⟩ <;> cases h
    | x :: y :: z :: a => simp at h
  exact ((((C103_der_exact .debug _).2 hno).1 [0x04] 2 [7, 8] ⟨0, 0, 4, by decide, by decide, by decide +kernel⟩ (by decide) (by decide +kernel)).2
    (by decide +kernel) [.chunk [7, 8]]).1 .interrupted (by decide +kernel)

/-! ### `read_ber` and `read_der` -/

/-- **C103.** For every type, `read_ber` with any reader: what disturbs `Ber::parse` is reported, and otherwise the result is that for all octets
of the reader. -/
theorem C103_read_ber_exact {α : Type} (m : Build) (d : De α) (s : Script) (hlen : (scriptData s).length ≤ isizeMax) :
    (∀ l ev r, FirstStop BerDisturbed s l ev r →
      (¬ Truncated (scriptData l) → readBer m d s = (.err (stopError .unterminatedBytes ev), r)) ∧
      (Truncated (scriptData l) → readBer m d s = (.err (stopError (.io .unexpectedEof) ev), r))) ∧
    (NoStop BerDisturbed s →
      (readBer m d s).1 = (readBer m d (scriptData s)).1 ∧ scriptData (readBer m d s).2 = (readBer m d (scriptData s)).2) := by
  obtain ⟨h1, h2⟩ := C103_ber_exact m s hlen
  refine ⟨fun l ev r h => ⟨fun ht => ?_, fun ht => ?_⟩, fun h => ?_⟩
  · rw [readBer, (h1 l ev r h).1 ht]
  · rw [readBer, (h1 l ev r h).2 ht]
  · obtain ⟨h3, h4⟩ := h2 h
    rw [readBer, readBer]
    rcases hx : Ber.parse m s with ⟨r, s'⟩
    rcases hy : Ber.parse m (scriptData s) with ⟨r', p'⟩
    rw [hx, hy] at h3 h4
    simp only at h3 h4
    subst h3 h4
    cases r <;> exact ⟨rfl, rfl⟩

/-- **C103.** For every type, `read_der` with any reader: what disturbs within the header is reported; if the one `read` for the contents fails,
that; if it gives them all, the result is that of `from_der`; if it gives less, the value is taken to be cut off. -/
theorem C103_read_der_exact {α : Type} (m : Build) (d : De α) (s : Script) :
    (∀ l ev r, FirstStop (fun p _ => InHeader p) s l ev r → readDer m d s = (.err (stopError .unterminatedBytes ev), r)) ∧
    (NoStop (fun p _ => InHeader p) s →
      (∀ id n q, IsId id → n < 2 ^ 64 → scriptData s = id ++ lenOctets n ++ q → (id ++ lenOctets n).length + n ≤ isizeMax → ∀ s',
        (∀ k, Reader.read n (afterOctets (id ++ lenOctets n).length s) = (.fail k, s') → readDer m d s = (.err (.io k), s')) ∧
        (∀ c, Reader.read n (afterOctets (id ++ lenOctets n).length s) = (.data c, s') →
          (c.length = n → readDer m d s = (fromDer d (tlv id c), s')) ∧
          (c.length < n → readDer m d s = (.err .unterminatedBytes, s')))) ∧
      ((¬ ∃ h q, IsDerHeader h ∧ scriptData s = h ++ q) →
        (readDer m d s).1 = (readDer m d (scriptData s)).1 ∧ scriptData (readDer m d s).2 = (readDer m d (scriptData s)).2)) := by
  obtain ⟨h1, h2⟩ := C103_der_exact m s
  refine ⟨fun l ev r h => ?_, fun h => ⟨fun id n q hid hn hq hl s' => ?_, fun hno => ?_⟩⟩
  · rw [readDer, h1 l ev r h]
  · obtain ⟨h3, h4⟩ := ((h2 h).1 id n q hid hn hq).2 hl s'
    refine ⟨fun k hk => ?_, fun c hc => ⟨fun hcn => ?_, fun hcn => ?_⟩⟩
    · rw [readDer, h3 k hk]
    · rw [readDer, (h4 c hc).1 hcn, tlv, hcn]
    · rw [readDer, (h4 c hc).2 hcn]
  · obtain ⟨h3, h4⟩ := (h2 h).2 hno
    rw [readDer, readDer]
    rcases hx : Der.parse m s with ⟨r, s'⟩
    rcases hy : Der.parse m (scriptData s) with ⟨r', p'⟩
    rw [hx, hy] at h3 h4
    simp only at h3 h4
    subst h3 h4
    cases r <;> exact ⟨rfl, rfl⟩

/-- A boolean whose contents come after an interruption, by `read_ber`. -/
example : readBer .release (De.bool .release) ([.chunk [0x01, 0x01], .fail .interrupted, .chunk [0xff]] : Script) = (.ok true, []) := by
  have hno : NoStop BerDisturbed ([.chunk [0x01, 0x01], .fail .interrupted, .chunk [0xff]] : Script) := by
    intro a e b h hs hd
    match a with
    | [] => cases h; rcases hs with h | ⟨k, h⟩ <;> cases h
    | [x] =>
      cases h
      exact hd.2.2 rfl ⟨[], 0, [0x01], 1, [], .nil 0, ⟨0, 0, 1, by decide, by decide, by decide +kernel⟩, by decide, by decide +kernel, by decide⟩
    | [x, y] => cases h; rcases hs with h | ⟨k, h⟩ <;> cases h
    | x :: y :: z :: a => simp at h
  have h := (C103_read_ber_exact .release (De.bool .release) _ (by decide)).2 hno
  refine Prod.ext (h.1.trans (by decide +kernel)) (by decide +kernel)

end Bsn1
