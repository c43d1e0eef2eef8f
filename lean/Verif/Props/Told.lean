import Verif.Lemmas.ToldTy
import Verif.Lemmas.ToldSteps
import Verif.Props.Faults
/-!
# C110: the messages of an error lead to the fault
-/

namespace Bsn1
open Spec

variable {α : Type}

/-! ### The same decoders -/

/-- C110.  The decoders with messages give the results of those without: the same values, errors of the same structure, the same octets left. -/
theorem C110_same_decoder (m : Build) (o : HashOrder) (t : Ty α) (hd : t.deserializable) (l : Labels) (bs : Bytes) :
    ((parseDerT (Ty.deT m o t l) bs).1.forget = (parseDer (Ty.de m o t) bs).1 ∧
      (parseDerT (Ty.deT m o t l) bs).2 = (parseDer (Ty.de m o t) bs).2) ∧
    ((parseBerT (Ty.deT m o t l) bs).1.forget = (parseBer (Ty.de m o t) bs).1 ∧
      (parseBerT (Ty.deT m o t l) bs).2 = (parseBer (Ty.de m o t) bs).2) := by
  have he := Ty.deT_erases m o t hd l
  have h1 : ∀ der, (fromDerT (Ty.deT m o t l) der).forget = fromDer (Ty.de m o t) der := by
    intro der
    rw [fromDerT, fromDer, TRes.forget_bind, TRes.forget_of]
    congr 1; funext p; exact he.der _ _
  have h2 : ∀ ber, (fromBerT (Ty.deT m o t l) ber).forget = fromBer (Ty.de m o t) ber := by
    intro ber
    rw [fromBerT, fromBer, TRes.forget_bind, TRes.forget_of]
    congr 1; funext p; exact he.ber _ _ _
  refine ⟨?_, ?_⟩
  · rw [parseDerT, parseDer]
    rcases DerRef.parse bs with ⟨r, rest⟩
    cases r with
    | ok der => exact ⟨h1 der, rfl⟩
    | _ => exact ⟨rfl, rfl⟩
  · rw [parseBerT, parseBer]
    rcases BerRef.parse bs with ⟨r, rest⟩
    cases r with
    | ok ber => exact ⟨h2 ber, rfl⟩
    | _ => exact ⟨rfl, rfl⟩

example (m : Build) (o : HashOrder) (l : Labels) := C110_same_decoder m o (.vec .bool) trivial l [0x30, 0x03, 0x02, 0x01, 0x05]

/-! ### Where the messages lead -/

theorem parseDerT_tlv (d : DeT α) {id c : Bytes} (rest : Bytes) (hid : IsId id) (hc : c.length < 2 ^ 64) :
    parseDerT d (tlv id c ++ rest) = (d.fromDer id c, rest) := by
  rw [parseDerT, DerRef_parse_tlv hid hc rest]
  simp only [TRes.of, TRes.bind_ok, fromDerT, show DerRef.disassemble (tlv id c) = _ from disassemble_tlv hid hc]

theorem parseBerT_value (d : DeT α) {p id raw : Bytes} {indef : Bool} (rest : Bytes) (h : BerValue p id indef raw)
    (hl : (p ++ rest).length ≤ isizeMax) : parseBerT d (p ++ rest) = (d.fromBer id (lenOf indef raw) raw, rest) := by
  rw [parseBerT, BerRef_parse_ok (berValue_isBer h) hl]
  simp only [TRes.of, TRes.bind_ok, fromBerT, berValue_disassemble h]

/-- **C110, DER.** `parse_der` fails with a given error, cause and messages, exactly if the octets start with no DER value, and there is no
message, or the value at the start is not one of the type, the messages lead to the first part that is not what the type has there, and the
cause is what is wrong with it. -/
theorem C110_parse_der_told_iff (m : Build) (o : HashOrder) (t : Ty α) (hd : t.deserializable) (l : Labels) (bs : Bytes) (x : Told) :
    (parseDerT (Ty.deT m o t l) bs).1 = .err x ↔
      (∃ e, x = here e ∧ NoDer bs e) ∨
      ∃ id raw rest, IsId id ∧ raw.length < 2 ^ 64 ∧ bs = tlv id raw ++ rest ∧ t.told .der o.order l id false raw x := by
  rcases derParse_rules bs with ⟨e', rest, hp, hn⟩ | ⟨id, b, rest, h1, h2, hp, hs⟩
  · have hr : (parseDerT (Ty.deT m o t l) bs).1 = .err (here e') := by rw [parseDerT, hp]; rfl
    rw [hr, TRes.err.injEq]
    constructor
    · rintro rfl; exact .inl ⟨e', rfl, hn⟩
    · rintro (⟨e, rfl, h⟩ | ⟨id, raw, rest, h1, h2, h3, _⟩)
      · rw [Spec.Rules.noValue_unique (fits_der bs) h hn]
      · exact (Spec.Rules.starts_noValue (fits_der bs) ⟨rfl, h1, h2, h3⟩ hn).elim
  · obtain ⟨_, _, _, rfl⟩ := hs
    rw [parseDerT_tlv _ rest h1 h2]
    refine (Ty.toldDer m o t hd l id b x).trans ⟨fun h => .inr ⟨id, b, rest, h1, h2, rfl, h⟩, ?_⟩
    rintro (⟨e, rfl, h⟩ | ⟨id', raw', rest', h3, h4, h5, h6⟩)
    · exact (Spec.Rules.starts_noValue (r := .der) (fits_der _) ⟨rfl, h1, h2, rfl⟩ h).elim
    · obtain ⟨rfl, _, rfl, rfl⟩ := Spec.Rules.starts_unique (r := .der) (d := false) (d' := false) ⟨rfl, h1, h2, rfl⟩ ⟨rfl, h3, h4, h5⟩
      exact h6

/-- No value at all. -/
example (m : Build) (o : HashOrder) (l : Labels) : (parseDerT (Ty.deT m o (.vec .bool) l) []).1 = .err (here .unterminatedBytes) := by
  rfl

/-- **C110, BER.** The same for `parse_ber`.  Debug builds do not report on a boolean, integer or string of indefinite length: they panic (C69). -/
theorem C110_parse_ber_told_iff (m : Build) (o : HashOrder) (t : Ty α) (hd : t.deserializable) (l : Labels) (bs : Bytes)
    (hl : bs.length ≤ isizeMax) (x : Told) :
    (parseBerT (Ty.deT m o t l) bs).1 = .err x ↔
      (∃ e, x = here e ∧ NoBer bs e) ∨
      ∃ p id indef raw rest, BerValue p id indef raw ∧ bs = p ++ rest ∧ t.told (.ber (decide (m = .release))) o.order l id indef raw x := by
  have hf : (Rules.ber false).Fits bs := hl
  rcases berParse_rules false bs hl with ⟨e', rest, hp, hn⟩ | ⟨p, id, d, b, rest, hv, hp, hs⟩
  · have hr : (parseBerT (Ty.deT m o t l) bs).1 = .err (here e') := by rw [parseBerT, hp]; rfl
    rw [hr, TRes.err.injEq]
    constructor
    · rintro rfl; exact .inl ⟨e', rfl, hn⟩
    · rintro (⟨e, rfl, h⟩ | ⟨p, id, d, raw, rest, h1, h2, _⟩)
      · rw [Spec.Rules.noValue_unique hf h hn]
      · exact (Spec.Rules.starts_noValue hf ⟨p, h1, h2⟩ hn).elim
  · have hlen := Spec.Rules.starts_length hs
    have hs' := hs
    obtain ⟨p, hv, rfl⟩ := hs'
    rw [parseBerT_value _ rest hv hl]
    refine (Ty.toldBer m o t hd l id d b (by omega) x).trans ⟨fun h => .inr ⟨p, id, d, b, rest, hv, rfl, h⟩, ?_⟩
    rintro (⟨e, rfl, h⟩ | ⟨p', id', d', raw', rest', h1, h2, h3⟩)
    · exact (Spec.Rules.starts_noValue hf hs h).elim
    · obtain ⟨rfl, rfl, rfl, _⟩ := Spec.Rules.starts_unique hs ⟨p', h1, h2⟩
      exact h3

/-- Names for the examples: the fields are numbered. -/
def someLabels : Labels := ⟨fun p => "Foo." ++ toString (p.headD 0), fun _ => "u8", fun _ => "Bar"⟩

/-- The type of the examples: a struct of a boolean and a list of strings. -/
abbrev someTy : Ty (Bool × List String × Unit) := .struct [0x30] (.plain .bool (.plain (.vec .string) .nil))

/-- The second string of the list in the field `Foo.1` is not UTF-8. -/
example : (parseDerT (Ty.deT .release ⟨fun _ l => l, fun _ _ => .refl _⟩ someTy someLabels)
      [0x30, 0x0b, 0x01, 0x01, 0xff, 0x30, 0x06, 0x0c, 0x01, 0x61, 0x0c, 0x01, 0xff]).1 =
    .err ⟨.invalidUtf8, ["Failed to deserialize DER into `Foo.1`", "Failed to deserialize DER into element at index 1"]⟩ := by
  decide +kernel

/-- There is no second string, but there are octets; the lengths are indefinite. -/
example : (parseBerT (Ty.deT .release ⟨fun _ l => l, fun _ _ => .refl _⟩ someTy someLabels)
      [0x30, 0x80, 0x01, 0x01, 0xff, 0x30, 0x04, 0x0c, 0x01, 0x61, 0x0c, 0x00, 0x00]).1 =
    .err ⟨.unterminatedBytes, ["Failed to deserialize BER into `Foo.1`", "Failed to parse BER at index 1"]⟩ := by
  decide +kernel

/-- C110.  A DER value denotes something, or there is exactly one place and cause. -/
theorem C110_value_or_place_der (o : HashOrder) (t : Ty α) (hd : t.deserializable) (l : Labels) (id raw : Bytes) :
    ((∃ v, t.derVal o.order id raw v) ∧ ∀ x, ¬ t.told .der o.order l id false raw x) ∨
    ((∀ v, ¬ t.derVal o.order id raw v) ∧ ∃ x, ∀ x', t.told .der o.order l id false raw x' ↔ x' = x) := by
  have h1 := (Ty.deT_erases .release o t hd l).decodesDer (Ty.fromDer_iff .release o t hd) id raw
  have h2 := Ty.toldDer .release o t hd l id raw
  have h3 := Ty.settlesDer .release o t hd id raw
  rw [← (Ty.deT_erases .release o t hd l).der id raw] at h3
  cases hr : (Ty.deT .release o t l).fromDer id raw with
  | ok v =>
    refine .inl ⟨⟨v, (h1 v).1 hr⟩, fun x hx => ?_⟩
    have := (h2 x).2 hx
    rw [hr] at this; cases this
  | err x =>
    refine .inr ⟨fun v hv => ?_, x, fun x' => (h2 x').symm.trans ?_⟩
    · have := (h1 v).2 hv
      rw [hr] at this; cases this
    · rw [hr, TRes.err.injEq]; exact eq_comm
  | panic => rw [hr] at h3; rcases h3 with ⟨_, h⟩ | ⟨_, h⟩ <;> cases h
  | ub => rw [hr] at h3; rcases h3 with ⟨_, h⟩ | ⟨_, h⟩ <;> cases h

example (l : Labels) : ∃ x, ∀ x', Ty.bool.told .der (fun _ l => l) l [0x02] false [0x07] x' ↔ x' = x :=
  ((C110_value_or_place_der ⟨fun _ l => l, fun _ _ => .refl _⟩ .bool trivial l [0x02] [0x07]).resolve_left (by
    rintro ⟨⟨v, h, _⟩, _⟩; exact absurd h (by decide))).2

/-- C110.  The same for BER and a lax decoder. -/
theorem C110_value_or_place_ber (o : HashOrder) (t : Ty α) (hd : t.deserializable) (l : Labels) (id : Bytes) (indef : Bool) (raw : Bytes)
    (hl : raw.length ≤ isizeMax) :
    ((∃ v, t.berVal true o.order id indef raw v) ∧ ∀ x, ¬ t.told (.ber true) o.order l id indef raw x) ∨
    ((∀ v, ¬ t.berVal true o.order id indef raw v) ∧ ∃ x, ∀ x', t.told (.ber true) o.order l id indef raw x' ↔ x' = x) := by
  have h1 := fun v => (Ty.deT_erases .release o t hd l).decodesBer (Ty.fromBer_iff .release o t hd) id indef raw v hl
  have h2 := Ty.toldBer .release o t hd l id indef raw hl
  have h3 := Ty.settlesBer o t hd id indef raw hl
  rw [← (Ty.deT_erases .release o t hd l).ber] at h3
  cases hr : (Ty.deT .release o t l).fromBer id (lenOf indef raw) raw with
  | ok v =>
    refine .inl ⟨⟨v, (h1 v).1 hr⟩, fun x hx => ?_⟩
    have := (h2 x).2 hx
    rw [hr] at this; cases this
  | err x =>
    refine .inr ⟨fun v hv => ?_, x, fun x' => (h2 x').symm.trans ?_⟩
    · have := (h1 v).2 hv
      rw [hr] at this; cases this
    · rw [hr, TRes.err.injEq]; exact eq_comm
  | panic => rw [hr] at h3; rcases h3 with ⟨_, h⟩ | ⟨_, h⟩ <;> cases h
  | ub => rw [hr] at h3; rcases h3 with ⟨_, h⟩ | ⟨_, h⟩ <;> cases h

example (l : Labels) : ∃ x, ∀ x', Ty.bool.told (.ber true) (fun _ l => l) l [0x02] false [0x07] x' ↔ x' = x :=
  ((C110_value_or_place_ber ⟨fun _ l => l, fun _ _ => .refl _⟩ .bool trivial l [0x02] false [0x07] (by decide)).resolve_left (by
    rintro ⟨⟨v, h, _⟩, _⟩; exact absurd h (by decide))).2

/-! ### Reading the messages -/

/-- C110.  Every message of every error is one of thirteen kinds, with the number, the field or the type it is about. -/
theorem C110_messages_are_steps (r : Rules) (o : HashOrder) (t : Ty α) (l : Labels) (id : Bytes) (indef : Bool) (raw : Bytes) (x : Told)
    (h : t.told r o.order l id indef raw x) : ∃ ss : List Step, x.messages = ss.map (Step.text r) :=
  Ty.told_steps r o.order t l id indef raw x h

/-- The first element of the list is not a boolean. -/
example (o : HashOrder) (l : Labels) : (Ty.vec .bool).told .der o.order l [0x30] false [0x02, 0x01, 0x07]
    ⟨.unmatchedId, [Step.text .der (.inElement 0)]⟩ :=
  .inr ⟨rfl, .inr ⟨_, rfl, .here 0 _ [0x02] false [0x07] [] _ ⟨rfl, ⟨0, 0, 2, by decide, by decide, by decide +kernel⟩, by decide, by decide +kernel⟩
    ⟨here .unmatchedId, rfl, .unmatchedId, rfl, .inl ⟨by decide, rfl⟩⟩⟩⟩

/-- **C110.** What the messages say can be read back from them: no two different ways to a fault give the same messages.  (Names have no back
quote.) -/
theorem C110_messages_injective (r : Rules) : ∀ (ss ss' : List Step), (∀ s ∈ ss, s.Plain) → (∀ s ∈ ss', s.Plain) →
    ss.map (Step.text r) = ss'.map (Step.text r) → ss = ss'
  | [], [], _, _, _ => rfl
  | [], _ :: _, _, _, h => by cases h
  | _ :: _, [], _, _, h => by cases h
  | s :: ss, s' :: ss', h1, h2, h => by
    rw [List.map_cons, List.map_cons, List.cons.injEq] at h
    rw [text_inj r (h1 s (by simp)) (h2 s' (by simp)) h.1,
      C110_messages_injective r ss ss' (fun x hx => h1 x (by simp [hx])) (fun x hx => h2 x (by simp [hx])) h.2]

example (n : Nat) (h : [Step.inField "Foo.bar", .inElement n].map (Step.text .der) = [Step.inField "Foo.bar", .inElement 11].map (Step.text .der)) :
    n = 11 := by
  have := C110_messages_injective .der _ _ (by simp [Step.Plain]) (by simp [Step.Plain]) h
  simpa using this

/-- With back quotes in the names that is not so. -/
example : Step.text .der (.noConversion "a` into `b" "c") = Step.text .der (.noConversion "a" "b` into `c") := by decide +kernel

/-! ### Printing -/

/-- The kinds of `bsn1::Error` that carry nothing. -/
def fixedKinds : List Error :=
  [.unterminatedBytes, .redundantBytes, .overFlow, .indefiniteLength, .badEoc, .extraContentsOctet, .unmatchedId, .invalidUtf8,
    .invalidDerBooleanContents, .invalidKeyValuePair]

/-- C110.  The texts of these kinds are pairwise different. -/
theorem C110_kinds_distinct (tx : Texts) (e e' : Error) (he : e ∈ fixedKinds) (he' : e' ∈ fixedKinds) (h : e.shown tx = e'.shown tx) : e = e' := by
  have key : ∀ e ∈ fixedKinds, ∀ e' ∈ fixedKinds, e.shown ⟨fun _ => "", fun _ => ""⟩ = e'.shown ⟨fun _ => "", fun _ => ""⟩ → e = e' := by
    decide +kernel
  have fix : ∀ e ∈ fixedKinds, e.shown tx = e.shown ⟨fun _ => "", fun _ => ""⟩ := by
    intro e he
    simp only [fixedKinds, List.mem_cons, List.not_mem_nil, or_false] at he
    rcases he with rfl | rfl | rfl | rfl | rfl | rfl | rfl | rfl | rfl | rfl <;> rfl
  exact key e he e' he' (by rw [← fix e he, ← fix e' he']; exact h)

example : Error.badEoc ∈ fixedKinds ∧ Error.unmatchedId ∈ fixedKinds := by decide

theorem intercalate_one (s a : String) : String.intercalate s [a] = a := rfl

/-- C110.  `{:#}` prints all messages, from the outermost to the innermost, and the cause; `{}` the first of these texts only; the chain of
`into_anyhow()` is made of just these texts. -/
theorem C110_display (tx : Texts) (x : Told) :
    x.display tx true = String.intercalate ": " (x.messages ++ x.cause.intoAnyhow.texts tx) ∧
    (x.messages ++ x.cause.intoAnyhow.texts tx).head? = some (x.display tx false) ∧
    x.texts tx = x.messages ++ x.cause.intoAnyhow.texts tx := by
  obtain ⟨e, ms⟩ := x
  cases ms with
  | cons s ms => exact ⟨rfl, rfl, rfl⟩
  | nil =>
    cases e with
    | anyhow c =>
      refine ⟨rfl, ?_, rfl⟩
      cases c <;> rfl
    | _ => exact ⟨(intercalate_one _ _).symm, rfl, rfl⟩

example (tx : Texts) : Told.display tx true ⟨.invalidUtf8, [Step.text .der (.inField "Foo.1"), Step.text .der (.inElement 1)]⟩ =
    "Failed to deserialize DER into `Foo.1`: Failed to deserialize DER into element at index 1: Invalid as UTF-8." := by
  rw [(C110_display tx _).1]
  change String.intercalate ": " ([Step.text .der (.inField "Foo.1"), Step.text .der (.inElement 1)] ++ ["Invalid as UTF-8."]) = _
  decide +kernel

/-- C110.  What is left of an error with messages when `?` makes an `anyhow::Error` of it: the outermost message, and nothing else. -/
theorem C110_report_partial (tx : Texts) (x : Told) (s : String) (ms : List String) (h : x.messages = s :: ms) : x.asSource tx = [s] := by
  obtain ⟨e, ms'⟩ := x
  cases h
  rfl

example (tx : Texts) : Told.asSource tx ⟨.invalidUtf8, [Step.text .der (.inField "Foo.1"), Step.text .der (.inElement 1)]⟩ =
    [Step.text .der (.inField "Foo.1")] :=
  C110_report_partial tx _ _ _ rfl

/-- **C110 is violated** in reports made by `?` and `anyhow`: `Error` has no `source()`, so neither the place nor the cause can be told.  In these
two lists of lists of booleans the faults are at different places and of different kinds, and the reports are the same. -/
theorem C110_report_violated (m : Build) (o : HashOrder) (l : Labels) : ∃ (bs bs' : Bytes) (x x' : Told),
    (parseDerT (Ty.deT m o (.vec (.vec .bool)) l) bs).1 = .err x ∧ (parseDerT (Ty.deT m o (.vec (.vec .bool)) l) bs').1 = .err x' ∧
    x.cause ≠ x'.cause ∧ x.messages ≠ x'.messages ∧
    ∀ tx, x.display tx true ≠ x'.display tx true ∧ x.asSource tx = x'.asSource tx := by
  refine ⟨[0x30, 0x05, 0x30, 0x03, 0x01, 0x01, 0x07], [0x30, 0x08, 0x30, 0x06, 0x01, 0x01, 0xff, 0x02, 0x01, 0x00],
    ⟨.invalidDerBooleanContents, [Step.text .der (.inElement 0), Step.text .der (.inElement 0)]⟩,
    ⟨.unmatchedId, [Step.text .der (.inElement 0), Step.text .der (.inElement 1)]⟩, ?_, ?_, by decide, by decide +kernel, fun tx => ⟨?_, rfl⟩⟩
  · rw [C110_parse_der_told_iff m o (.vec (.vec .bool)) trivial]
    refine .inr ⟨[0x30], [0x30, 0x03, 0x01, 0x01, 0x07], [], isId_sequence, by decide, by decide +kernel, .inr ⟨rfl, .inr ⟨_, rfl, ?_⟩⟩⟩
    refine .here 0 _ [0x30] false [0x01, 0x01, 0x07] [] _ ⟨rfl, isId_sequence, by decide, by decide +kernel⟩ ⟨⟨.invalidDerBooleanContents, [Step.text .der (.inElement 0)]⟩, rfl, .inr ⟨rfl, .inr ⟨_, rfl, ?_⟩⟩⟩
    refine .here 0 _ [0x01] false [0x07] [] _ ⟨rfl, ⟨0, 0, 1, by decide, by decide, by decide +kernel⟩, by decide, by decide +kernel⟩
      ⟨here .invalidDerBooleanContents, rfl, .invalidDerBooleanContents, rfl, ?_⟩
    rw [← Ty.errsDer m o .bool trivial]
    change (De.bool m).fromDer _ _ = _
    cases m <;> decide +kernel
  · rw [C110_parse_der_told_iff m o (.vec (.vec .bool)) trivial]
    refine .inr ⟨[0x30], [0x30, 0x06, 0x01, 0x01, 0xff, 0x02, 0x01, 0x00], [], isId_sequence, by decide, by decide +kernel,
      .inr ⟨rfl, .inr ⟨_, rfl, ?_⟩⟩⟩
    refine .here 0 _ [0x30] false [0x01, 0x01, 0xff, 0x02, 0x01, 0x00] [] _ ⟨rfl, isId_sequence, by decide, by decide +kernel⟩
      ⟨⟨.unmatchedId, [Step.text .der (.inElement 1)]⟩, rfl, .inr ⟨rfl, .inr ⟨_, rfl, ?_⟩⟩⟩
    refine .later 0 _ [0x01] false [0xff] [0x02, 0x01, 0x00] true _
      ⟨rfl, ⟨0, 0, 1, by decide, by decide, by decide +kernel⟩, by decide, by decide +kernel⟩ ⟨rfl, rfl⟩ ?_
    exact .here 1 _ [0x02] false [0x00] [] _ ⟨rfl, ⟨0, 0, 2, by decide, by decide, by decide +kernel⟩, by decide, by decide +kernel⟩
      ⟨here .unmatchedId, rfl, .unmatchedId, rfl, .inl ⟨by decide, rfl⟩⟩
  · rw [(C110_display tx _).1, (C110_display tx _).1]
    change String.intercalate ": " ([Step.text .der (.inElement 0), Step.text .der (.inElement 0)] ++
        ["The contents of DER BOOLEAN must be 0x00 or 0xFF."]) ≠
      String.intercalate ": " ([Step.text .der (.inElement 0), Step.text .der (.inElement 1)] ++
        ["The identifier does not match to that of data type."])
    decide +kernel

end Bsn1
