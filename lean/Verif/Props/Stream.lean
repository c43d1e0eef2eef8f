import Verif.Lemmas.StreamBer
import Verif.Lemmas.RawHistory
/-!
# C102: parsing from a stream waits only for octets that matter

The octets `p` have come so far, in pieces of any sizes (`Chunks s p`); what the reader answers next is open.
-/

set_option linter.unusedSimpArgs false

namespace Bsn1
open Spec

/-! ### Identifiers and lengths -/

/-- **C102.** `Id::parse` asks for more octets exactly as long as those that have come are the beginning of an identifier. -/
theorem C102_id_iff {s : Script} {p : Bytes} (h : Chunks s p) : ¬ Answered (Id.parse (σ := Script)) s ↔ Completable IsId p := by
  rw [(flow_idParse h).answered_iff, not_not, ← C71_id_unterminated]
  have hc := parseId_cut p []
  simp only [Id.parse, IdRef.parse]
  generalize (parseId (σ := Bytes)).run p [] = r at hc
  cases hc with
  | ok l rest h1 h2 => simp [h2, sliceTo]
  | cut w' h1 => simp [AtEnd]
  | final rest w' h1 => simp [AtEnd]

example : ¬ Answered (Id.parse (σ := Script)) [.chunk [0x1f], .chunk [0x81, 0x82]] :=
  (C102_id_iff (.cons _ _ _ (by simp) (.cons _ _ _ (by simp) .nil))).2 ((C71_id_unterminated _).1 (by decide +kernel))

/-- **C102.** `Length::parse` asks for more octets exactly as long as those that have come are the beginning of a length, and once more
after an octet that announces more octets than any length has. -/
theorem C102_length_iff {s : Script} {p : Bytes} (h : Chunks s p) :
    ¬ Answered (Length.parse (σ := Script)) s ↔ Completable IsLen p ∨ ∃ b : UInt8, 136 < b.toNat ∧ p = [b] := by
  rw [(flow_lengthParse h).answered_iff, not_not, ← C71_length_unterminated]
  exact ⟨fun h => h.resolve_right (NoIo.length p [] _), .inl⟩

example : ¬ Answered (Length.parse (σ := Script)) [.chunk [0x82, 0x01]] :=
  (C102_length_iff (.cons _ _ _ (by simp) .nil)).2 ((C71_length_unterminated _).1 (by decide +kernel))

/-! ### BER -/

theorem berParse_atEnd_iff (m : Build) {p : Bytes} (hlen : p.length ≤ isizeMax) :
    AtEnd (Ber.parse m p).1 ↔ (Completable IsBer p ∨ WideLengthWithin p) ∧ ¬ TooLong isizeMax p := by
  have hz : ((0 : Nat) : Int) = 0 := rfl
  have hpanic := (C23_ber_parse_panic_iff delivers_slice m (s := p) rfl hlen).1
  rw [← C71_ber_unterminated p hlen, ← hpanic]
  have hagree := berLoop_agree m (p.length + 1) 0 p [] (by omega) (by simp) (by simpa using hlen)
  rw [hz] at hagree
  rcases hagree with ⟨r, rest, w', h1, h2, h3, h4⟩ | ⟨-, h2, q, h3⟩ | ⟨-, ⟨w', h2⟩, q, h3⟩
  · cases r with
    | ok u =>
      have e1 : (Ber.parse m p).1 = .ok w' := by simp only [Ber.parse, size_bytes, h1]
      have e2 : ∀ e, (BerRef.parse p).1 ≠ .err e := by
        intro e
        simp only [BerRef.parse, h2]
        simp [sliceTo]
      rw [e1]
      exact iff_of_false (by simp) fun h => e2 _ h.1
    | err e =>
      have e1 : (Ber.parse m p).1 = .err e := by simp only [Ber.parse, size_bytes, h1]
      have e2 : (BerRef.parse p).1 = .err e := by simp only [BerRef.parse, h2]
      rw [e1, e2]
      have := h4 .unexpectedEof
      simp only [AtEnd, ne_eq, Res.err.injEq] at this ⊢
      simp [this]
    | panic =>
      have e1 : (Ber.parse m p).1 = .panic := by simp only [Ber.parse, size_bytes, h1]
      rw [e1]
      exact iff_of_false (by simp) fun h => h.2 rfl
    | ub =>
      have e1 : (Ber.parse m p).1 = .ub := by simp only [Ber.parse, size_bytes, h1]
      have e2 : (BerRef.parse p).1 = .ub := by simp only [BerRef.parse, h2]
      rw [e1, e2]
      exact iff_of_false (by simp) fun h => by simp at h
  · have e1 : (Ber.parse m p).1 = .panic := by
      rcases hx : (Ber.parseLoop m (p.length + 1) 0).run p [] with ⟨r, s', w'⟩
      rw [hx] at h2
      simp only at h2
      subst h2
      simp only [Ber.parse, size_bytes, hx]
    rw [e1]
    exact iff_of_false (by simp) fun h => h.2 rfl
  · have e1 : (Ber.parse m p).1 = .err (.io .unexpectedEof) := by simp only [Ber.parse, size_bytes, h2]
    have e2 : (BerRef.parse p).1 = .err .unterminatedBytes := by simp only [BerRef.parse, h3]
    rw [e1, e2]
    exact iff_of_true (.inr rfl) ⟨rfl, by simp⟩

/-- **C102.** `Ber::parse` asks for more octets exactly as long as those that have come are the beginning of a value, or end with a length
octet that announces more octets than any length has; but not if a header that has come announces contents that do not fit in memory. -/
theorem C102_ber_iff (m : Build) {s : Script} {p : Bytes} (h : Chunks s p) (hlen : p.length ≤ isizeMax) :
    ¬ Answered (Ber.parse (σ := Script) m) s ↔ (Completable IsBer p ∨ WideLengthWithin p) ∧ ¬ TooLong isizeMax p := by
  rw [(flow_berParse m h).answered_iff, not_not, berParse_atEnd_iff m hlen]

/-- All of `30 80 02 01 05 00 00` but the last octet. -/
example : ¬ Answered (Ber.parse (σ := Script) .release) [.chunk [0x30, 0x80, 0x02], .chunk [0x01, 0x05, 0x00]] := by
  rw [(flow_berParse .release (.cons _ _ _ (by simp) (.cons _ _ _ (by simp) .nil))).answered_iff, not_not]
  exact .inl (by decide +kernel)

/-- **C102.** A value is returned with its last octet, and the reader is left right behind it, whatever comes next. -/
theorem C102_returns_with_last_octet (m : Build) {s : Script} {v : Bytes} (h : Chunks s v) (tail : Script) :
    (IsId v → Id.parse (s ++ tail) = (.ok v, tail)) ∧
    (v = indefOctets → Length.parse (s ++ tail) = (.ok .indefinite, tail)) ∧
    (∀ n, n < 2 ^ 64 → v = lenOctets n → Length.parse (s ++ tail) = (.ok (.definite n), tail)) ∧
    (IsBer v → v.length ≤ isizeMax → Ber.parse m (s ++ tail) = (.ok v, tail)) := by
  have key : ∀ {α : Type} {f : Script → Res α × Script} {g : Bytes → Res α × Bytes} {a : α}, FlowTop f g s v → g v = (.ok a, []) →
      f (s ++ tail) = (.ok a, tail) := by
    intro α f g a h1 h2
    rw [FlowTop, h2] at h1
    obtain ⟨left, h3, h4⟩ := h1.2 (by simp)
    rw [h4, Spec.Chunks.nil_inv h3]
    rfl
  refine ⟨fun hv => key (flow_idParse h) ?_, fun hv => key (flow_lengthParse h) ?_, fun n hn hv => key (flow_lengthParse h) ?_,
    fun hv hl => key (flow_berParse m h) ?_⟩
  · have := parseId_shape ((isId_iff_shape _).mp hv) [] []
    rw [List.append_nil] at this
    simp only [Id.parse, this, List.nil_append]
  · subst hv
    simp only [Length.parse, indefOctets, parseLength_indef]
  · subst hv
    have := parseLength_lenOctets hn [] []
    rw [List.append_nil] at this
    simp only [Length.parse, this]
  · have := Raw.berParse_ok m (rest := []) hv (by simpa using hl)
    rwa [List.append_nil] at this

/-- A value in two pieces; the reader would fail after it. -/
example : Ber.parse (σ := Script) .debug ([.chunk [0x04, 0x03, 0x01], .chunk [0x02, 0x03]] ++ [.fail (.other 7)]) =
    (.ok [0x04, 0x03, 0x01, 0x02, 0x03], [.fail (.other 7)]) := by
  refine (C102_returns_with_last_octet .debug (.cons _ _ _ (by simp) (.cons _ _ _ (by simp) .nil)) _).2.2.2 ?_ (by decide)
  exact .definite [0x04] [0x01, 0x02, 0x03] ⟨0, 0, 4, by decide, by decide, by decide +kernel⟩ (by decide)

/-! ### DER -/

theorem derParse_flow (m : Build) {s : Script} {p : Bytes} (h : Chunks s p) :
    ((WideLength p ∨ HeaderSoFar isizeMax p) ∧ ∀ k tail, k ≠ .interrupted → Der.parse m (s ++ .fail k :: tail) = (.err (.io k), tail)) ∨
    (¬ (WideLength p ∨ HeaderSoFar isizeMax p) ∧ ∃ r left, ∀ tail, Der.parse m (s ++ tail) = (r, left ++ tail)) := by
  have hi := isizeMax_eq
  have hu := usizeSize_eq
  obtain ⟨h1, h2⟩ := flow_parseIdLength s p [] h
  have hc := parseIdLength_cut p []
  have hspec := parseIdLength_spec p []
  have hio := NoIo.idLength p []
  rcases hy : (parseIdLength (σ := Bytes)).run p [] with ⟨r, p', w'⟩
  rw [hy] at h1 h2 hc hspec hio
  -- the two kinds of input that wait are no whole headers with something behind
  have hwide : WideLength p → ∃ rest w, (parseIdLength (σ := Bytes)).run p [] = (.err .unterminatedBytes, rest, w) := by
    rintro ⟨id, b, h3, h4, rfl⟩
    simp only [parseIdLength, P.bind_def, parseId_shape ((isId_iff_shape _).mp h3), parseLength_long_nil b _ (by omega)]
    exact ⟨_, _, rfl⟩
  have hso : ∀ id n t, t ≠ [] → IsId id → n < 2 ^ 64 → p ++ t = id ++ lenOctets n →
      ∃ rest w, (parseIdLength (σ := Bytes)).run p [] = (.err .unterminatedBytes, rest, w) := by
    intro id n t ht hid hn e
    have h3 := parseIdLength_definite hid hn [] []
    rw [List.append_nil, ← e] at h3
    rw [hy]
    cases hc with
    | definite id' n' rest w' k1 k2 k3 =>
      rw [k3, List.append_assoc _ _ t, parseIdLength_definite k1 k2] at h3
      simp at h3
      exact absurd h3.2.1.2 ht
    | indefinite id' rest w' k1 k2 =>
      rw [k2, List.append_assoc _ _ t, parseIdLength_indefinite k1] at h3
      simp at h3
    | cut => exact ⟨_, _, rfl⟩
    | wide => exact ⟨_, _, rfl⟩
    | final e rest w' k1 k2 =>
      have := k2 t []
      rw [h3] at this
      simp at this
  cases hc with
  | cut id n t rest w' k1 k2 k3 k4 k5 =>
    refine .inl ⟨.inr ⟨id, n, t, k2, k4, k5, fun h => absurd h k1⟩, fun k tail hk => ?_⟩
    obtain ⟨w'', h5⟩ := h1 (.inl rfl) k tail hk
    rw [Der.parse, h5]
  | wide rest w' k1 =>
    refine .inl ⟨.inl k1, fun k tail hk => ?_⟩
    obtain ⟨w'', h5⟩ := h1 (.inl rfl) k tail hk
    rw [Der.parse, h5]
  | final e rest w' k1 k2 =>
    have hne : ¬ AtEnd (.err e : Res Length) := by
      rintro (h | h)
      · exact k1 (Res.err.inj h)
      · exact hio _ h
    obtain ⟨left, -, h4⟩ := h2 hne
    refine .inr ⟨?_, .err e, left, fun tail => by rw [Der.parse, h4]⟩
    rintro (h5 | ⟨id, n, t, h5, h6, h7, -⟩)
    · obtain ⟨_, _, h5⟩ := hwide h5
      rw [hy] at h5; cases h5; exact k1 rfl
    · have := k2 t []
      have h8 := parseIdLength_definite h5 h6 [] []
      rw [List.append_nil, ← h7] at h8
      rw [h8] at this
      simp at this
  | indefinite id rest w' k1 k2 =>
    obtain ⟨left, -, h4⟩ := h2 (by simp)
    refine .inr ⟨?_, .err .indefiniteLength, left, fun tail => by rw [Der.parse, h4]⟩
    rintro (h5 | ⟨id, n, t, h5, h6, h7, -⟩)
    · obtain ⟨_, _, h5⟩ := hwide h5
      rw [hy] at h5; cases h5
    · by_cases ht : t = []
      · subst ht
        have h8 := parseIdLength_definite h5 h6 [] []
        rw [List.append_nil, ← h7, List.append_nil, hy] at h8
        cases h8
      · obtain ⟨_, _, h8⟩ := hso id n t ht h5 h6 h7
        rw [hy] at h8; cases h8
  | definite id n _ _ k1 k2 k3 =>
    obtain ⟨left, h3, h4⟩ := h2 (by simp)
    have e := parseIdLength_definite k1 k2 p' []
    rw [← k3, hy] at e
    simp only [List.nil_append, Prod.mk.injEq, true_and] at e
    subst e
    have hso' : WideLength p ∨ HeaderSoFar isizeMax p → p' = [] ∧ p.length + n ≤ isizeMax := by
      rintro (h5 | ⟨id', n', t, h5, h6, h7, h8⟩)
      · obtain ⟨_, _, h5⟩ := hwide h5
        rw [hy] at h5; cases h5
      · by_cases ht : t = []
        · subst ht
          have h9 := parseIdLength_definite h5 h6 [] []
          rw [List.append_nil, ← h7, List.append_nil, hy] at h9
          simp only [Prod.mk.injEq, Res.ok.injEq, Length.definite.injEq] at h9
          exact ⟨h9.2.1, by rw [h9.1]; exact h8 rfl⟩
        · obtain ⟨_, _, h8⟩ := hso id' n' t ht h5 h6 h7
          rw [hy] at h8; cases h8
    by_cases ho : isizeMax < (id ++ lenOctets n).length + n
    · refine .inr ⟨fun hw => ?_, .panic, left, fun tail => ?_⟩
      · obtain ⟨rfl, h6⟩ := hso' hw
        rw [k3, List.append_nil] at h6
        omega
      · rw [Der.parse, h4]
        simp only
        rw [derReserve_over ho (by omega)]
    · have hr : (do
          let totalLength ← uadd m (id ++ lenOctets n).length n
          let _ ← bufReserve m (id ++ lenOctets n).length n
          if (id ++ lenOctets n).length ≤ totalLength then return totalLength - (id ++ lenOctets n).length else .panic : Res Nat) = .ok n := by
        rw [uadd_ok (by omega)]
        simp only [Res.bind_ok]
        rw [bufReserve_ok (by omega)]
        simp only [Res.bind_ok]
        rw [if_pos (by omega)]
        simp
      have hd : ∀ tail, Der.parse m (s ++ tail) = (match Reader.read n (left ++ tail) with
          | (.fail k, s) => (.err (.io k), s)
          | (.data bs, s) => if bs.length < n then (.err .unterminatedBytes, s) else (.ok (id ++ lenOctets n ++ bs), s)) := by
        intro tail
        rw [Der.parse, h4]
        simp only
        rw [hr]
        simp only
        rcases Reader.read n (left ++ tail) with ⟨_ | _, _⟩ <;> rfl
      by_cases hrest : p' = []
      · subst hrest
        refine .inl ⟨.inr ⟨id, n, [], k1, k2, by rw [k3]; simp, fun _ => by rw [k3, List.append_nil]; omega⟩, fun k tail hk => ?_⟩
        rw [hd, Spec.Chunks.nil_inv h3]
        rfl
      · refine .inr ⟨fun hw => hrest (hso' hw).1, ?_⟩
        obtain ⟨j, l2, -, -, -, -, h9⟩ := h3.read_tail hrest n
        by_cases hj : (p'.take j).length < n
        · refine ⟨.err .unterminatedBytes, l2, fun tail => ?_⟩
          rw [hd, h9]
          simp only [if_pos hj]
        · refine ⟨.ok (id ++ lenOctets n ++ p'.take j), l2, fun tail => ?_⟩
          rw [hd, h9]
          simp only [if_neg hj]

/-- **C102.** `Der::parse` asks for more octets exactly as long as those that have come are the beginning of a header or a whole one whose
contents fit in memory, and once more after a length octet that announces more octets than any length has.  So it asks once more also when
the contents are empty, and never a second time for contents. -/
theorem C102_der_iff (m : Build) {s : Script} {p : Bytes} (h : Chunks s p) :
    ¬ Answered (Der.parse (σ := Script) m) s ↔ WideLength p ∨ HeaderSoFar isizeMax p := by
  rcases derParse_flow m h with ⟨h1, h2⟩ | ⟨h1, h2⟩
  · refine iff_of_true ?_ h1
    rintro ⟨r, left, h3⟩
    have h4 := h3 (.fail (.other 0) :: [])
    have h5 := h3 (.fail .unexpectedEof :: [])
    rw [h2 _ _ (by simp)] at h4 h5
    have h6 := (Prod.mk.inj h4).1.trans (Prod.mk.inj h5).1.symm
    simp at h6
  · exact iff_of_false (fun h => h h2) h1

/-- The whole value `05 00` has come, and `Der::parse` asks again. -/
example : ¬ Answered (Der.parse (σ := Script) .release) [.chunk [0x05, 0x00]] :=
  (C102_der_iff .release (.cons _ _ _ (by simp) .nil)).2
    (.inr ⟨[0x05], 0, [], ⟨0, 0, 5, by decide, by decide, by decide +kernel⟩, by decide, by decide +kernel, fun _ => by decide⟩)

/-- **C102.** Contents that come in one piece are returned with it. -/
theorem C102_der_returns_with_contents (m : Build) {s : Script} {id c : Bytes} (hid : IsId id) (hc : c ≠ [])
    (h : Chunks s (id ++ lenOctets c.length)) (hl : (tlv id c).length ≤ isizeMax) (tail : Script) :
    Der.parse m (s ++ .chunk c :: tail) = (.ok (tlv id c), tail) := by
  have hi := isizeMax_eq
  have hu := usizeSize_eq
  rw [tlv, List.length_append] at hl
  have hn : c.length < 2 ^ 64 := by omega
  obtain ⟨-, h2⟩ := flow_parseIdLength s _ [] h
  have e := parseIdLength_definite hid hn [] []
  rw [List.append_nil] at e
  rw [e] at h2
  obtain ⟨left, h3, h4⟩ := h2 (by simp)
  rw [Spec.Chunks.nil_inv h3] at h4
  rw [Der.parse, h4]
  simp only [List.nil_append]
  rw [uadd_ok (by omega)]
  simp only [Res.bind_ok]
  rw [bufReserve_ok (by omega)]
  simp only [Res.bind_ok]
  rw [if_pos (by omega)]
  simp only [Res.pure_eq, Nat.add_sub_cancel_left]
  have : Reader.read c.length (.chunk c :: tail : Script) = (.data c, tail) := by simp [Reader.read, Script.read]
  rw [this]
  simp [tlv]

example (tail : Script) : Der.parse (σ := Script) .release ([.chunk [0x02], .chunk [0x02]] ++ .chunk [0x01, 0x00] :: tail) =
    (.ok [0x02, 0x02, 0x01, 0x00], tail) :=
  C102_der_returns_with_contents .release (id := [0x02]) ⟨0, 0, 2, by decide, by decide, by decide +kernel⟩ (by simp)
    (.cons _ _ _ (by simp) (.cons _ _ _ (by simp) .nil)) (by decide) tail

/-! ### `read_ber` and `read_der` -/

/-- **C102.** For every type, `read_ber` asks for more octets exactly when `Ber::parse` does, and `read_der` exactly when `Der::parse`
does: deserializing asks for none. -/
theorem C102_read_iff {α : Type} (m : Build) (d : De α) {s : Script} {p : Bytes} (h : Chunks s p) :
    (Answered (readBer (σ := Script) m d) s ↔ Answered (Ber.parse (σ := Script) m) s) ∧
    (Answered (readDer (σ := Script) m d) s ↔ Answered (Der.parse (σ := Script) m) s) := by
  have two : ∀ f : Script → Res α × Script, (∀ k tail, k ≠ .interrupted → f (s ++ .fail k :: tail) = (.err (.io k), tail)) → ¬ Answered f s := by
    rintro f h2 ⟨r, left, h3⟩
    have h4 := h3 (.fail (.other 0) :: [])
    have h5 := h3 (.fail .unexpectedEof :: [])
    rw [h2 _ _ (by simp)] at h4 h5
    have h6 := (Prod.mk.inj h4).1.trans (Prod.mk.inj h5).1.symm
    simp at h6
  constructor
  · constructor
    · intro ha
      by_contra hn
      rw [(flow_berParse m h).answered_iff, not_not] at hn
      refine two _ (fun k tail hk => ?_) ha
      rw [readBer, (flow_berParse m h).1 hn k tail hk]
    · rintro ⟨r, left, h1⟩
      cases r with
      | ok v => exact ⟨fromBer d v, left, fun tail => by rw [readBer, h1]⟩
      | err e => exact ⟨.err e, left, fun tail => by rw [readBer, h1]⟩
      | panic => exact ⟨.panic, left, fun tail => by rw [readBer, h1]⟩
      | ub => exact ⟨.ub, left, fun tail => by rw [readBer, h1]⟩
  · constructor
    · intro ha
      rcases derParse_flow m h with ⟨-, h2⟩ | ⟨-, h2⟩
      · refine absurd ha (two _ fun k tail hk => ?_)
        rw [readDer, h2 k tail hk]
      · exact h2
    · rintro ⟨r, left, h1⟩
      cases r with
      | ok v => exact ⟨fromDer d v, left, fun tail => by rw [readDer, h1]⟩
      | err e => exact ⟨.err e, left, fun tail => by rw [readDer, h1]⟩
      | panic => exact ⟨.panic, left, fun tail => by rw [readDer, h1]⟩
      | ub => exact ⟨.ub, left, fun tail => by rw [readDer, h1]⟩

example : ¬ Answered (readBer (σ := Script) .debug (De.bool .debug)) [.chunk [0x01, 0x01]] := by
  rw [(C102_read_iff .debug (De.bool .debug) (.cons _ _ _ (by simp) .nil)).1, (flow_berParse .debug (.cons _ _ _ (by simp) .nil)).answered_iff, not_not]
  exact .inr (by decide +kernel)

/-! ### Streams without end -/

theorem isCont_before : ∀ {l t : Bytes}, IsCont (l ++ t) → t ≠ [] → ∀ x ∈ l, 128 ≤ x.toNat
  | [], _, _, _ => by simp
  | b :: l, t, h, ht => by
    have : ∃ c r, l ++ t = c :: r := by
      cases hx : l ++ t with
      | nil => simp at hx; exact absurd hx.2 ht
      | cons c r => exact ⟨c, r, rfl⟩
    obtain ⟨c, r, e⟩ := this
    rw [List.cons_append, e, isCont_cons_cons, ← e] at h
    intro x hx
    rcases List.mem_cons.mp hx with rfl | hx
    · exact h.1
    · exact isCont_before h.2 ht x hx

theorem isCont_zero : ∀ {l : Bytes}, (∀ x ∈ l, 128 ≤ x.toNat) → IsCont (l ++ [0])
  | [], _ => by simp [IsCont]
  | [b], h => by simp [IsCont]; exact h b (by simp)
  | b :: c :: l, h => by
    rw [List.cons_append, List.cons_append, isCont_cons_cons]
    exact ⟨h b (by simp), by simpa using isCont_zero (l := c :: l) fun x hx => h x (by simp at hx ⊢; tauto)⟩

theorem firstOctets_succ (a : Nat → UInt8) (n : Nat) : firstOctets a (n + 1) = a 0 :: firstOctets (fun i => a (i + 1)) n := by
  simp [firstOctets, List.range_succ_eq_map, Function.comp_def]

theorem firstOctets_length (a : Nat → UInt8) (n : Nat) : (firstOctets a n).length = n := by simp [firstOctets]

theorem firstOctets_add (a : Nat → UInt8) (n k : Nat) : ∃ l, firstOctets a (n + k) = firstOctets a n ++ l ∧ l.length = k := by
  refine ⟨(firstOctets a (n + k)).drop n, ?_, by simp [firstOctets_length]⟩
  have : firstOctets a n = (firstOctets a (n + k)).take n := by
    simp only [firstOctets, ← List.map_take, List.take_range, Nat.min_eq_left (Nat.le_add_right n k)]
  rw [this, List.take_append_drop]

theorem mem_firstOctets {a : Nat → UInt8} {n : Nat} {x : UInt8} : x ∈ firstOctets a n ↔ ∃ i, i < n ∧ a i = x := by
  simp [firstOctets]

theorem chunks_single (p : Bytes) : ∃ s, Chunks s p := by
  cases p with
  | nil => exact ⟨[], .nil⟩
  | cons b r => exact ⟨[.chunk (b :: r)], by simpa using Chunks.cons (b :: r) [] [] (by simp) .nil⟩

theorem endlessId_iff (a : Nat → UInt8) : EndlessId a ↔ ∀ n, Completable IsId (firstOctets a n) := by
  constructor
  · rintro ⟨h1, h2, h3⟩ n
    match n with
    | 0 => exact ⟨[0], by simp, (isId_iff_shape _).2 (.short 0 (by decide))⟩
    | 1 =>
      refine ⟨[31], by simp, (isId_iff_shape _).2 ?_⟩
      exact .long (a 0) 31 [] h1 (by simp [IsCont]) (by decide) (by decide)
    | n + 2 =>
      refine ⟨[0], by simp, (isId_iff_shape _).2 ?_⟩
      rw [firstOctets_succ, firstOctets_succ]
      refine .long (a 0) (a 1) _ h1 ?_ (by have := h3 1 (by omega); omega) ?_
      · refine isCont_zero (l := a 1 :: firstOctets (fun i => a (i + 1 + 1)) n) fun x hx => ?_
        rcases List.mem_cons.mp hx with rfl | hx
        · exact h3 1 (by omega)
        · obtain ⟨i, -, rfl⟩ := mem_firstOctets.mp hx
          exact h3 _ (by omega)
      · intro h
        exact h2 (UInt8.toNat_inj.mp (by rw [h]; rfl))
  · intro h
    have shape : ∀ n, ∃ t, t ≠ [] ∧ IdShape (a 0 :: a 1 :: (firstOctets (fun i => a (i + 1 + 1)) n ++ t)) := by
      intro n
      obtain ⟨t, ht, h1⟩ := h (n + 2)
      rw [firstOctets_succ, firstOctets_succ] at h1
      exact ⟨t, ht, (isId_iff_shape _).1 h1⟩
    have parts : ∀ n, (a 0).toNat % 32 = 31 ∧ (a 1).toNat ≠ 128 ∧ ∀ x ∈ a 1 :: firstOctets (fun i => a (i + 1 + 1)) n, 128 ≤ x.toNat := by
      intro n
      obtain ⟨t, ht, h1⟩ := shape n
      cases h1 with
      | long _ _ _ k1 k2 k3 k4 => exact ⟨k1, k4, isCont_before (t := t) (by simpa using k2) ht⟩
    refine ⟨(parts 0).1, fun h => (parts 0).2.1 (by rw [h]; rfl), fun i hi => ?_⟩
    match i, hi with
    | 1, _ => exact (parts 0).2.2 _ (by simp)
    | i + 2, _ => exact (parts (i + 1)).2.2 _ (List.mem_cons.mpr (.inr (mem_firstOctets.mpr ⟨i, by omega, rfl⟩)))

/-- **C102.** A stream without end lets `Id::parse` and `Der::parse` return, unless it is one identifier that never ends: a first octet
with the number 31, then octets that are all 128 or more, the first of them not 128. -/
theorem C102_endless_iff (m : Build) (a : Nat → UInt8) :
    ((∀ n, WaitsAt (Id.parse (σ := Script)) a n) ↔ EndlessId a) ∧ ((∀ n, WaitsAt (Der.parse (σ := Script) m) a n) ↔ EndlessId a) := by
  constructor
  · rw [endlessId_iff]
    constructor
    · intro h n
      obtain ⟨s, hs⟩ := chunks_single (firstOctets a n)
      exact (C102_id_iff hs).1 (h n s hs)
    · exact fun h n s hs => (C102_id_iff hs).2 (h n)
  · constructor
    · intro h
      rw [endlessId_iff]
      intro n
      by_contra hn
      obtain ⟨s, hs⟩ := chunks_single (firstOctets a (n + 10))
      obtain ⟨l, hl, hll⟩ := firstOctets_add a n 10
      have hid : ∀ id y, IsId id → (∃ z, firstOctets a n ++ y = id ++ z) → id.length ≤ n := by
        intro id y h1 h2
        by_contra hlt
        obtain ⟨z, h2⟩ := h2
        apply hn
        have h3 := congrArg (List.take id.length) h2
        rw [List.take_append, List.take_of_length_le (by rw [firstOctets_length]; omega), List.take_left, firstOctets_length] at h3
        refine ⟨_, ?_, by rw [h3]; exact h1⟩
        intro h4
        rw [h4, List.append_nil] at h3
        have := congrArg List.length h3
        rw [firstOctets_length] at this
        omega
      rcases (C102_der_iff m hs).1 (h _ s hs) with ⟨id, b, h1, -, h3⟩ | ⟨id, k, t, h1, h2, h3, -⟩
      · have h4 := hid id l h1 ⟨[b], by rw [← hl, h3]⟩
        have := congrArg List.length h3
        rw [firstOctets_length, List.length_append] at this
        simp at this
        omega
      · have h4 := hid id (l ++ t) h1 ⟨_, by rw [← List.append_assoc, ← hl, h3]⟩
        have := congrArg List.length h3
        have h5 := lenOctets_length_le h2
        simp only [List.length_append, firstOctets_length] at this
        omega
    · intro h n s hs
      obtain ⟨t, ht, h1⟩ := (endlessId_iff a).1 h n
      refine (C102_der_iff m hs).2 (.inr ⟨_, 0, t ++ [0], h1, by decide, ?_, by simp⟩)
      rw [← List.append_assoc]
      rfl

/-- The octets `1f 81 81 81 …`. -/
example : EndlessId fun i => if i = 0 then 0x1f else 0x81 := ⟨by decide, by decide, fun i hi => by simp [show i ≠ 0 by omega]⟩

/-- The octets `30 80 30 80 …`: every value opens another one. -/
def nesting (i : Nat) : UInt8 := if i % 2 = 0 then 0x30 else 0x80

theorem due_nesting : ∀ (n d : Nat), Due d (firstOctets nesting (2 * n)) (d + n)
  | 0, d => .nil d
  | n + 1, d => by
    have e : firstOctets nesting (2 * (n + 1)) = [0x30] ++ indefOctets ++ firstOctets nesting (2 * n) := by
      rw [show 2 * (n + 1) = 2 * n + 1 + 1 by omega, firstOctets_succ, firstOctets_succ]
      have : (fun i => nesting (i + 1 + 1)) = nesting := by funext i; simp [nesting, Nat.add_assoc]
      rw [this]; rfl
    rw [e, show d + (n + 1) = d + 1 + n by omega]
    exact .open d _ [0x30] _ ⟨0, 1, 16, by decide, by decide, by decide +kernel⟩ (due_nesting n (d + 1))

/-- **C102.** There is a stream without end on which `Ber::parse` never returns although each of its identifiers and lengths ends: it
asks for more after every number of octets that fits in memory. -/
theorem C102_endless_ber (m : Build) : ∃ a, ¬ EndlessId a ∧ ∀ n, n ≤ isizeMax → WaitsAt (Ber.parse (σ := Script) m) a n := by
  refine ⟨nesting, fun h => absurd h.1 (by decide), fun n hn s hs => ?_⟩
  rw [(flow_berParse m hs).answered_iff, not_not]
  have hz : ((0 : Nat) : Int) = 0 := rfl
  obtain ⟨x, hx, hl⟩ : ∃ x, (x = [] ∨ x = [0x30]) ∧ firstOctets nesting n = firstOctets nesting (2 * (n / 2)) ++ x := by
    rcases Nat.mod_two_eq_zero_or_one n with h | h
    · exact ⟨[], .inl rfl, by rw [show 2 * (n / 2) = n by omega, List.append_nil]⟩
    · refine ⟨[0x30], .inr rfl, ?_⟩
      have : n = 2 * (n / 2) + 1 := by omega
      conv_lhs => rw [this]
      simp only [firstOctets, List.range_succ, List.map_append, List.map_cons, List.map_nil]
      congr 1
      simp [nesting]
  have hlen : (firstOctets nesting (2 * (n / 2)) ++ x).length ≤ isizeMax := by rw [← hl, firstOctets_length]; exact hn
  obtain ⟨f', h1, h2, h3⟩ := berLoop_due m (due_nesting (n / 2) 0) x [] ((firstOctets nesting (2 * (n / 2)) ++ x).length + 1) (by simp)
    (by simpa using hlen) (by omega)
  rw [hz] at h3
  obtain ⟨f', rfl⟩ : ∃ g, f' = g + 1 := ⟨f' - 1, by omega⟩
  have hstep : ∃ s' w', (Ber.doParse m).run x ([] ++ firstOctets nesting (2 * (n / 2))) = (.err .unterminatedBytes, s', w') := by
    rcases hx with rfl | rfl
    · exact ⟨_, _, rfl⟩
    · exact ⟨_, _, rfl⟩
  obtain ⟨s', w', hstep⟩ := hstep
  rw [hl]
  simp only [Ber.parse, size_bytes, h3]
  simp only [Ber.parseLoop, P.bind_def, hstep]
  exact .inl rfl

end Bsn1
