import Verif.Lemmas.FaultsTy
import Verif.Props.Decode
/-!
# C89: the error reported by a decoder is that of the first fault
-/

namespace Bsn1
open Spec

variable {α : Type}

/-- C89.  `DerRef::parse` fails on those octets, and no others, that start with no DER value, and the error tells why. -/
theorem C89_der_ref_parse_error_iff (bs : Bytes) (e : Error) : (DerRef.parse bs).1 = .err e ↔ NoDer bs e := DerRef_parse_err_iff bs e

/-- An identifier and no more; a redundant length; a length of 2⁶⁴ octets; contents that are too short; an indefinite length. -/
example : NoDer [0x30] .unterminatedBytes ∧ NoDer [0x30, 0x81, 0x05, 0x00] .redundantBytes ∧
    NoDer [0x30, 0x89, 0x01, 0x00, 0x00, 0x00, 0x00, 0x00, 0x00, 0x00, 0x00] .overFlow ∧
    NoDer [0x04, 0x02, 0x61] .unterminatedBytes ∧ NoDer [0x30, 0x80, 0x00, 0x00] .indefiniteLength := by
  refine ⟨?_, ?_, ?_, ?_, ?_⟩ <;> · rw [← C89_der_ref_parse_error_iff]; decide +kernel

/-- C89.  `BerRef::parse` fails on those octets, and no others, that start with no BER value: at the first place where a header is due and there
is none, and the error tells why. -/
theorem C89_ber_ref_parse_error_iff (bs : Bytes) (e : Error) (hl : bs.length ≤ isizeMax) :
    (BerRef.parse bs).1 = .err e ↔ NoBer bs e := BerRef_parse_err_iff bs e hl

/-- The second value inside one of indefinite length has a redundant length. -/
example : NoBer [0x30, 0x80, 0x04, 0x01, 0x61, 0x04, 0x81, 0x05] .redundantBytes :=
  .mk [0x30, 0x80, 0x04, 0x01, 0x61] [0x04, 0x81, 0x05] 1 _
    (.open 0 1 [0x30] [0x04, 0x01, 0x61] ⟨0, 1, 16, by decide, by decide, by decide +kernel⟩
      (.skip 1 1 [0x04] [0x61] [] (by decide) ⟨0, 0, 4, by decide, by decide, by decide +kernel⟩ (by decide) (by decide +kernel) (.nil 1)))
    (.header _ _ (.length [0x04] [0x81, 0x05] _ ⟨0, 0, 4, by decide, by decide, by decide +kernel⟩
      (.redundant _ ⟨0x81, 0x05, [], rfl, by decide, .inr ⟨by decide, by decide⟩⟩)))

/-- **C89, DER.** `parse_der` fails with the error `e` exactly if the octets start with no DER value for the reason `e`, or the value at the
start has the fault `e`: that of the first part, in order, that does not denote what the type expects there. -/
theorem C89_parse_der_error_iff (m : Build) (o : HashOrder) (t : Ty α) (hd : t.deserializable) (bs : Bytes) (e : Error) :
    (parseDer (Ty.de m o t) bs).1 = .err e ↔
      NoDer bs e ∨ ∃ id raw rest, IsId id ∧ raw.length < 2 ^ 64 ∧ bs = tlv id raw ++ rest ∧ t.fault .der o.order id false raw e := by
  rcases derParse_rules bs with ⟨e', rest, hp, hn⟩ | ⟨id, b, rest, h1, h2, hp, hs⟩
  · rw [(C50_parse_error _ bs rest e').1 hp]
    constructor
    · rintro ⟨⟩; exact .inl hn
    · rintro (h | ⟨id, raw, rest, h1, h2, h3, _⟩)
      · rw [Spec.Rules.noValue_unique (fits_der bs) h hn]
      · exact (Spec.Rules.starts_noValue (fits_der bs) ⟨rfl, h1, h2, h3⟩ hn).elim
  · obtain ⟨_, _, _, rfl⟩ := hs
    rw [C50_parse_der_advances _ id b rest h1 h2]
    refine (Ty.errsDer m o t hd id b e).trans ⟨fun h => .inr ⟨id, b, rest, h1, h2, rfl, h⟩, ?_⟩
    rintro (h | ⟨id', raw', rest', h3, h4, h5, h6⟩)
    · exact (Spec.Rules.starts_noValue (r := .der) (fits_der _) ⟨rfl, h1, h2, rfl⟩ h).elim
    · obtain ⟨rfl, _, rfl, rfl⟩ := Spec.Rules.starts_unique (r := .der) (d := false) (d' := false) ⟨rfl, h1, h2, rfl⟩ ⟨rfl, h3, h4, h5⟩
      exact h6

example (m : Build) (o : HashOrder) : NoDer [0x30, 0x81, 0x05, 0x00] .redundantBytes → (parseDer (Ty.de m o (.vec .bool)) [0x30, 0x81, 0x05, 0x00]).1 = .err .redundantBytes :=
  fun h => (C89_parse_der_error_iff m o (.vec .bool) trivial _ _).2 (.inl h)

/-- **C89, BER.** The same for `parse_ber`.  Debug builds do not report on a boolean, integer or string of indefinite length: they panic (C69). -/
theorem C89_parse_ber_error_iff (m : Build) (o : HashOrder) (t : Ty α) (hd : t.deserializable) (bs : Bytes) (hl : bs.length ≤ isizeMax) (e : Error) :
    (parseBer (Ty.de m o t) bs).1 = .err e ↔
      NoBer bs e ∨ ∃ p id indef raw rest, BerValue p id indef raw ∧ bs = p ++ rest ∧
        t.fault (.ber (decide (m = .release))) o.order id indef raw e := by
  have hf : (Rules.ber false).Fits bs := hl
  rcases berParse_rules false bs hl with ⟨e', rest, hp, hn⟩ | ⟨p, id, d, b, rest, hv, hp, hs⟩
  · rw [(C50_parse_error _ bs rest e').2 hp]
    constructor
    · rintro ⟨⟩; exact .inl hn
    · rintro (h | ⟨p, id, d, raw, rest, h1, h2, _⟩)
      · rw [Spec.Rules.noValue_unique hf h hn]
      · exact (Spec.Rules.starts_noValue hf ⟨p, h1, h2⟩ hn).elim
  · have hlen := Spec.Rules.starts_length hs
    have hs' := hs
    obtain ⟨p, hv, rfl⟩ := hs'
    rw [C50_parse_ber_advances _ p id b rest d hv hl]
    refine (Ty.errsBer m o t hd id d b (by omega) e).trans ⟨fun h => .inr ⟨p, id, d, b, rest, hv, rfl, h⟩, ?_⟩
    rintro (h | ⟨p', id', d', raw', rest', h1, h2, h3⟩)
    · exact (Spec.Rules.starts_noValue hf hs h).elim
    · obtain ⟨rfl, rfl, rfl, _⟩ := Spec.Rules.starts_unique hs ⟨p', h1, h2⟩
      exact h3

example (m : Build) (o : HashOrder) : NoBer [0x01, 0x02, 0xff] .unterminatedBytes ∨ ∃ p id indef raw rest, BerValue p id indef raw ∧
    [0x01, 0x02, 0xff] = p ++ rest ∧ Ty.bool.fault (.ber (decide (m = .release))) o.order id indef raw .unterminatedBytes :=
  (C89_parse_ber_error_iff m o .bool trivial [0x01, 0x02, 0xff] (by decide) .unterminatedBytes).mp (by
    change (parseBer (De.bool m) _).1 = _
    cases m <;> decide +kernel)

/-- C89.  A DER value denotes something, or has exactly one fault. -/
theorem C89_value_or_fault_der (m : Build) (o : HashOrder) (t : Ty α) (hd : t.deserializable) (id raw : Bytes) :
    ((∃ v, t.derVal o.order id raw v) ∧ ∀ e, ¬ t.fault .der o.order id false raw e) ∨
    ((∀ v, ¬ t.derVal o.order id raw v) ∧ ∃ e, ∀ e', t.fault .der o.order id false raw e' ↔ e' = e) := by
  have h1 := Ty.fromDer_iff m o t hd id raw
  have h2 := Ty.errsDer m o t hd id raw
  rcases Ty.settlesDer m o t hd id raw with ⟨v, h⟩ | ⟨e, h⟩
  · refine .inl ⟨⟨v, (h1 v).1 h⟩, fun e he => ?_⟩
    have := (h2 e).2 he
    rw [h] at this; cases this
  · refine .inr ⟨fun v hv => ?_, e, fun e' => (h2 e').symm.trans ?_⟩
    · have := (h1 v).2 hv
      rw [h] at this; cases this
    · rw [h, Res.err.injEq]; exact eq_comm

/-- An integer of two octets for a `u8`. -/
example (m : Build) (o : HashOrder) := C89_value_or_fault_der m o (.int .u8) trivial [0x02] [0x01, 0x00]

/-- C89.  A BER value denotes something to a lax decoder, or has exactly one fault. -/
theorem C89_value_or_fault_ber (o : HashOrder) (t : Ty α) (hd : t.deserializable) (id : Bytes) (indef : Bool) (raw : Bytes)
    (hl : raw.length ≤ isizeMax) :
    ((∃ v, t.berVal true o.order id indef raw v) ∧ ∀ e, ¬ t.fault (.ber true) o.order id indef raw e) ∨
    ((∀ v, ¬ t.berVal true o.order id indef raw v) ∧ ∃ e, ∀ e', t.fault (.ber true) o.order id indef raw e' ↔ e' = e) := by
  have h1 := fun v => Ty.fromBer_iff .release o t hd id indef raw v hl
  have h2 := Ty.errsBer .release o t hd id indef raw hl
  rcases Ty.settlesBer o t hd id indef raw hl with ⟨v, h⟩ | ⟨e, h⟩
  · refine .inl ⟨⟨v, (h1 v).1 h⟩, fun e he => ?_⟩
    have := (h2 e).2 he
    rw [h] at this; cases this
  · refine .inr ⟨fun v hv => ?_, e, fun e' => (h2 e').symm.trans ?_⟩
    · have := (h1 v).2 hv
      rw [h] at this; cases this
    · rw [h, Res.err.injEq]; exact eq_comm

/-- A struct of a boolean and a list of strings, in which the boolean is in order and the second string is not UTF-8: the error has a context for
the list and one for the field. -/
example (o : HashOrder) : (Ty.struct [0x30] (.plain .bool (.plain (.vec .string) .nil))).fault .der o.order [0x30] false
    [0x01, 0x01, 0xff, 0x30, 0x06, 0x0c, 0x01, 0x61, 0x0c, 0x01, 0xff] (.anyhow (.context (.context (.err .invalidUtf8)))) := by
  refine .inr ⟨rfl, .inr ⟨_, rfl, .inr ⟨[0x01], false, [0xff], [0x30, 0x06, 0x0c, 0x01, 0x61, 0x0c, 0x01, 0xff], true, ?_, ?_, .inl ?_⟩⟩⟩
  · exact ⟨rfl, ⟨0, 0, 1, by decide, by decide, by decide +kernel⟩, by decide, by decide +kernel⟩
  · exact ⟨rfl, rfl⟩
  · refine ⟨.anyhow (.context (.err .invalidUtf8)), rfl, .inr ⟨[0x30], false, [0x0c, 0x01, 0x61, 0x0c, 0x01, 0xff], [], ?_, .inr ⟨rfl, .inr ⟨_, rfl, ?_⟩⟩⟩⟩
    · exact ⟨rfl, ⟨0, 1, 16, by decide, by decide, by decide +kernel⟩, by decide, by decide +kernel⟩
    · refine .later _ [0x0c] false [0x61] [0x0c, 0x01, 0xff] "a" _ ?_ ⟨rfl, by decide +kernel⟩ (.here _ [0x0c] false [0xff] [] .invalidUtf8 ?_ (.inr ⟨rfl, rfl, ?_, rfl⟩))
      · exact ⟨rfl, ⟨0, 0, 12, by decide, by decide, by decide +kernel⟩, by decide, by decide +kernel⟩
      · exact ⟨rfl, ⟨0, 0, 12, by decide, by decide, by decide +kernel⟩, by decide, by decide +kernel⟩
      · rintro ⟨s, hs⟩
        have := (strFromUtf8_iff [0xff] s).2 hs
        exact absurd this (by rw [show strFromUtf8 [0xff] = .err .invalidUtf8 by decide +kernel]; exact nofun)

end Bsn1
