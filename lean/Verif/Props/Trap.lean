import Verif.Lemmas.Trap
import Verif.Props.Decode
/-!
# C46, C69, C70: exactly what decoding does with indefinite lengths and segments
-/

namespace Bsn1
open Spec

variable {α : Type}

/-- **C69, exactly.** `parse_ber` in debug builds panics on those octets, and no others, that start with a value in which the decoder, all it
met before being in order, meets a boolean, integer or string of indefinite length.  Otherwise it returns a value or an error. -/
theorem C69_parse_ber_panic_iff (o : HashOrder) (t : Ty α) (hd : t.deserializable) (bs : Bytes) (hl : bs.length ≤ isizeMax) :
    ((parseBer (Ty.de .debug o t) bs).1 = .panic ↔
      ∃ p id indef raw rest, BerValue p id indef raw ∧ bs = p ++ rest ∧ t.berTrap o.order id indef raw) ∧
    ((parseBer (Ty.de .debug o t) bs).1 ≠ .panic → (parseBer (Ty.de .debug o t) bs).1.Settled) := by
  have key : (parseBer (Ty.de .debug o t) bs).1.Traps (FirstTrap (t.berTrap o.order) bs) := by
    rcases berParse_cases bs hl with ⟨e, rest, h⟩ | ⟨p, id, indef, raw, rest, hv, h, e⟩
    · rw [(C50_parse_error _ bs rest e).2 h]
      exact (Res.settled_err e).traps.congr ⟨False.elim, firstTrap_err hl h⟩
    · have := berValue_length hv
      subst e
      rw [C50_parse_ber_advances _ p id raw rest indef hv hl, firstTrap_value hv]
      rw [List.length_append] at hl
      exact Ty.trapsBer o t hd id indef raw (by omega)
  exact ⟨key.1, fun h => key.not fun hp => h (key.1.2 hp)⟩

/-- A list whose first element is in order and whose second element is a string of indefinite length; and one in which the first element is
not a string, where the second is not met. -/
example (o : HashOrder) :
    (Ty.vec .string).berTrap o.order [0x30] false [0x0c, 0x01, 0x61, 0x0c, 0x80, 0x00, 0x00] ∧
    ¬ (Ty.vec .string).berTrap o.order [0x30] false [0x04, 0x01, 0x61, 0x0c, 0x80, 0x00, 0x00] := by
  have v1 : ∀ b : UInt8, b = 0x0c ∨ b = 0x04 → BerValue [b, 0x01, 0x61] [b] false [0x61] := by
    rintro b (rfl | rfl)
    · exact ⟨⟨0, 0, 12, by decide, by decide, by decide +kernel⟩, by decide, by decide +kernel⟩
    · exact ⟨⟨0, 0, 4, by decide, by decide, by decide +kernel⟩, by decide, by decide +kernel⟩
  have v2 : BerValue [0x0c, 0x80, 0x00, 0x00] [0x0c] true [0x00, 0x00] :=
    ⟨⟨0, 0, 12, by decide, by decide, by decide +kernel⟩, [], .nil, rfl, by decide +kernel⟩
  constructor
  · refine ⟨rfl, _, rfl, .later [0x0c, 0x01, 0x61] [0x0c] false [0x61] _ "a" (v1 _ (.inl rfl)) ⟨.inl rfl, (nomatch ·), by decide +kernel⟩ ?_⟩
    exact .here [0x0c, 0x80, 0x00, 0x00] [0x0c] true [0x00, 0x00] [] v2 ⟨.inl rfl, rfl⟩
  · rintro ⟨_, c, hb, h⟩
    cases hb
    generalize hc : ([0x04, 0x01, 0x61, 0x0c, 0x80, 0x00, 0x00] : Bytes) = c at h
    have e : ([0x04, 0x01, 0x61, 0x0c, 0x80, 0x00, 0x00] : Bytes) = [0x04, 0x01, 0x61] ++ [0x0c, 0x80, 0x00, 0x00] := rfl
    rcases h with ⟨p, id, d, raw, c, hv, ht⟩ | ⟨p, id, d, raw, c, x, hv, hx, _⟩
    · obtain ⟨rfl, _⟩ := isBer_prefix_free (berValue_isBer (v1 _ (.inr rfl))) (berValue_isBer hv) (e.symm.trans hc)
      obtain ⟨rfl, rfl, rfl⟩ := berValue_unique (v1 _ (.inr rfl)) hv
      exact nomatch ht.2
    · obtain ⟨rfl, _⟩ := isBer_prefix_free (berValue_isBer (v1 _ (.inr rfl))) (berValue_isBer hv) (e.symm.trans hc)
      obtain ⟨rfl, rfl, rfl⟩ := berValue_unique (v1 _ (.inr rfl)) hv
      obtain ⟨h1 | h1, _⟩ := hx <;> exact absurd h1 (by decide)

/-- **C46, exactly.** What each primitive type does with a value of indefinite length and the contents `c`.  Debug builds panic, integers
whatever the identifier.  Release builds take the end-of-contents for contents: integers and strings that end in two zero octets result, booleans
fail.  Octet strings are rejected in all builds. -/
theorem C46_indefinite_primitive_exact (o : HashOrder) (p id c : Bytes) (h : BerValue p id true (c ++ eoc)) (hl : p.length ≤ isizeMax) :
    (∀ t, fromBer (Ty.de .debug o (.int t)) p = .panic) ∧
    fromBer (Ty.de .debug o .bool) p = (if id = [0x01] then .panic else .err .unmatchedId) ∧
    fromBer (Ty.de .debug o .string) p = (if id = [0x0c] ∨ id = [0x2c] then .panic else .err .unmatchedId) ∧
    (∀ t v, fromBer (Ty.de .release o (.int t)) p = .ok v ↔ id = [0x02] ∧ c ++ [0x00, 0x00] = intOctets v ∧ t.InRange v) ∧
    fromBer (Ty.de .release o .bool) p = (if id = [0x01] then .err .extraContentsOctet else .err .unmatchedId) ∧
    (∀ v, fromBer (Ty.de .release o .string) p = .ok v ↔
      (id = [0x0c] ∨ id = [0x2c]) ∧ c ++ [0x00, 0x00] = v.toByteArray.data.toList) ∧
    ∀ m, fromBer (Ty.de m o .octetString) p = (if id = [0x04] ∨ id = [0x24] then .err .indefiniteLength else .err .unmatchedId) := by
  have hr := berValue_length h
  have hraw : (c ++ eoc).length ≤ isizeMax := by omega
  simp only [fromBer_value _ h]
  have e2 : Length.indefinite.eq .indefinite = false := not_eq_indefinite _
  refine ⟨fun t => rfl, ?_, ?_, fun t v => ?_, ?_, fun v => ?_, fun m => ?_⟩
  · by_cases hid : id = [0x01]
    · subst hid; rfl
    · rw [if_neg hid]
      exact if_pos hid
  · by_cases hid : id = [0x0c] ∨ id = [0x2c]
    · rw [if_pos hid]
      rcases hid with rfl | rfl <;> rfl
    · rw [if_neg hid]
      exact if_pos (not_or.1 hid)
  · refine (Ty.fromBer_iff .release o (.int t) trivial id true (c ++ eoc) v hraw).trans ?_
    change (_ ∧ (true = true → decide (Build.release = .release) = true) ∧ _ ∧ _) ↔ _
    simp only [decide_true, implies_true, true_and]
    rfl
  · by_cases hid : id = [0x01]
    · subst hid
      rw [if_pos rfl]
      change ContentsRef.toBoolBer (c ++ eoc) = _
      have hlen : ∃ x y r, c ++ eoc = x :: y :: r := by
        match c with
        | [] => exact ⟨_, _, _, rfl⟩
        | [x] => exact ⟨_, _, _, rfl⟩
        | x :: y :: r => exact ⟨_, _, _, rfl⟩
      obtain ⟨x, y, r, e⟩ := hlen
      rw [e]
      simp [ContentsRef.toBoolBer]
    · rw [if_neg hid]
      exact if_pos hid
  · refine (Ty.fromBer_iff .release o .string trivial id true (c ++ eoc) v hraw).trans ?_
    change (_ ∧ (true = true → decide (Build.release = .release) = true) ∧ _) ↔ _
    simp only [decide_true, implies_true, true_and]
    rfl
  · by_cases hid : id = [0x04] ∨ id = [0x24]
    · rw [if_pos hid]
      rcases hid with rfl | rfl <;> rfl
    · rw [if_neg hid]
      exact if_pos (not_or.1 hid)

/-- A string of indefinite length with one segment. -/
example : BerValue [0x2c, 0x80, 0x0c, 0x01, 0x61, 0x00, 0x00] [0x2c] true ([0x0c, 0x01, 0x61] ++ eoc) :=
  ⟨⟨0, 1, 12, by decide, by decide, by decide +kernel⟩, [0x0c, 0x01, 0x61],
    .cons [0x0c, 0x01, 0x61] [] (.definite [0x0c] [0x61] ⟨0, 0, 12, by decide, by decide, by decide +kernel⟩ (by decide)) (by decide) .nil, rfl, rfl⟩

/-- The octets of the segments `segs` of a constructed string. -/
def segments (id : Bytes) (segs : List Bytes) : Bytes := segs.flatMap (tlv id)

theorem segments_length (id : Bytes) : ∀ segs : List Bytes, segs.flatten.length + 2 * segs.length ≤ (segments id segs).length ∨ id = []
  | [] => .inl (Nat.le_refl _)
  | s :: r => by
    rcases segments_length id r with h | h
    · by_cases hid : id = []
      · exact .inr hid
      refine .inl ?_
      have h1 := tlv_length id s
      have h2 : 0 < id.length := List.length_pos_of_ne_nil hid
      have h3 : 0 < (lenOctets s.length).length := List.length_pos_of_ne_nil (lenOctets_ne_nil _)
      have h4 : segments id (s :: r) = tlv id s ++ segments id r := rfl
      rw [h4, List.length_append, List.flatten_cons, List.length_append, List.length_cons]
      omega
    · exact .inr h

/-- **C70, exactly.** A constructed octet string of definite length decodes to the octets of its segments with their identifiers and lengths;
this is the concatenation of the segments only if there are none.  The same for strings, if these octets are UTF-8. -/
theorem C70_constructed_string_exact (m : Build) (o : HashOrder) (segs : List Bytes) :
    ((segments [0x04] segs).length < 2 ^ 63 →
      fromBer (Ty.de m o .octetString) (tlv [0x24] (segments [0x04] segs)) = .ok (segments [0x04] segs) ∧
      (fromBer (Ty.de m o .octetString) (tlv [0x24] (segments [0x04] segs)) = .ok segs.flatten ↔ segs = [])) ∧
    ((segments [0x0c] segs).length < 2 ^ 63 → ∀ s : String, s.toByteArray.data.toList = segs.flatten →
      (fromBer (Ty.de m o .string) (tlv [0x2c] (segments [0x0c] segs)) = .ok s ↔ segs = [])) := by
  have key : ∀ b : UInt8, segments [b] segs = segs.flatten ↔ segs = [] := by
    intro b
    constructor
    · intro h
      rcases segments_length [b] segs with h1 | h1
      · rw [h] at h1
        exact List.length_eq_zero_iff.1 (by omega)
      · exact absurd h1 (by simp)
    · rintro rfl; rfl
  have hi := isizeMax_eq
  constructor
  · intro hl
    have hid : IsId [0x24] := ⟨0, 1, 4, by decide, by decide, by decide +kernel⟩
    have e : fromBer (Ty.de m o .octetString) (tlv [0x24] (segments [0x04] segs)) = .ok (segments [0x04] segs) := by
      rw [fromBer_value (indef := false) _ ⟨hid, by omega, rfl⟩]
      rfl
    rw [e]
    exact ⟨rfl, by rw [Res.ok.injEq]; exact key 0x04⟩
  · intro hl s hs
    have hid : IsId [0x2c] := ⟨0, 1, 12, by decide, by decide, by decide +kernel⟩
    rw [fromBer_value (indef := false) _ ⟨hid, by omega, rfl⟩]
    refine (Ty.fromBer_iff m o .string trivial [0x2c] false _ s (by omega)).trans ?_
    change (_ ∧ (false = true → _) ∧ segments [0x0c] segs = s.toByteArray.data.toList) ↔ _
    rw [hs, key]
    simp

example : segments [0x04] [[0x61, 0x62], [0x63]] = [0x04, 0x02, 0x61, 0x62, 0x04, 0x01, 0x63] := by decide +kernel

end Bsn1
