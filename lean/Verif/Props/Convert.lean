import Verif.Model.Convert
import Verif.Props.Contents
import Verif.Props.Ser
import Verif.Props.De
import Verif.Props.Decode
/-!
# C75: conversions to `Der` and `Ber`
-/

namespace Bsn1
open Spec

/-- What is claimed of a conversion: the same octets `d` for `Der` and `Ber`; `d` is found again by both parsers at the start of
any longer input; identifier and contents are as given; it is what `to_der` and `to_ber` of the value yield, and
`parse_der` and `parse_ber` give the value back. -/
structure Converts {α : Type} (m : Build) (der ber : Res Bytes) (t : Ty α) (v : α) (id c d : Bytes) : Prop where
  der_eq : der = .ok d
  ber_eq : ber = .ok d
  parse_der : ∀ rest, DerRef.parse (d ++ rest) = (.ok d, rest)
  parse_ber : ∀ rest, (d ++ rest).length ≤ isizeMax → BerRef.parse (d ++ rest) = (.ok d, rest)
  id_eq : DerRef.id d = .ok id ∧ BerRef.id d = .ok id
  contents_eq : DerRef.contents d = .ok c ∧ BerRef.contents d = .ok c
  to_der : toDer m (Ty.ser m t) v = .ok d ∧ toBer m (Ty.ser m t) v = .ok d
  back : ∀ (o : HashOrder) (rest : Bytes), (d ++ rest).length ≤ isizeMax →
    parseDer (Ty.de m o t) (d ++ rest) = (.ok v, rest) ∧ parseBer (Ty.de m o t) (d ++ rest) = (.ok v, rest)

theorem converts_of {α : Type} {m : Build} {der ber : Res Bytes} {t : Ty α} {v : α}
    (hs : t.serializable) (hd : t.deserializable) (hr : t.restorable) (he : t.exact) (hok : t.ok v) (hc : t.convertible v)
    (hfit : (t.der v).length ≤ isizeMax) (h1 : der = .ok (t.der v)) (h2 : ber = .ok (t.der v)) :
    Converts m der ber t v (t.enc v).1 (t.enc v).2 (t.der v) := by
  obtain ⟨hl, hl', hid⟩ := der_enc_fits hs hfit
  have hb : IsBer (t.der v) := IsBer.definite _ _ hid hl
  refine ⟨h1, h2, (C41_to_der m t hs v hok hfit).2.2, fun rest h => BerRef_parse_ok hb h, ?_, ?_,
    ⟨(C41_to_der m t hs v hok hfit).1, (C41_to_der m t hs v hok hfit).2.1⟩, ?_⟩
  · exact ⟨DerRef_id_tlv hid _, DerRef_id_tlv hid _⟩
  · exact ⟨DerRef_contents_tlv hid hl, DerRef_contents_tlv hid hl⟩
  · intro o rest hlen
    obtain ⟨w, h3, h4⟩ := Ty.derVal_enc o t hs hr v hok hc hfit
    have e := Ty.exact_faithful t he v w h4
    subst e
    refine ⟨?_, ?_⟩
    · rw [Ty.der, tlvOf, C50_parse_der_advances _ _ _ _ hid hl]
      exact congrArg (·, rest) ((Ty.fromDer_iff m o t hd _ _ _).mpr h3)
    · rw [C50_parse_ber_advances _ (t.der w) (t.enc w).1 (t.enc w).2 rest false ⟨hid, hl, rfl⟩ hlen]
      exact congrArg (·, rest) ((Ty.fromBer_iff m o t hd _ false _ _ hl').mpr (Ty.derVal_berVal _ _ t _ _ _ h3))

/-- Integers of the supported types need at most 17 octets. -/
theorem intOctets_length_le (t : IntTy) (v : Int) (h : t.InRange v) : (intOctets v).length ≤ 17 := by
  have hb : -2 ^ 127 ≤ v ∧ v < 2 ^ 128 := by
    simp only [IntTy.InRange] at h
    cases t <;> simp only [IntTy.minVal, IntTy.maxVal, IntTy.signed, IntTy.size] at h <;> norm_num at h ⊢ <;> omega
  have key : ∀ n : Nat, n < 2 ^ 128 → (signedOctets n).length ≤ 17 := by
    intro n hn
    rw [← signedOctets_lz hn]
    omega
  rcases Int.lt_or_le v 0 with hv | hv
  · rw [intOctets_length_neg hv]; exact key _ (by omega)
  · rw [intOctets_length_nonneg hv]; exact key _ (by omega)

/-- C75, `From<bool>`; the octets are those of `DerRef::boolean`. -/
theorem C75_bool (m : Build) (junk : Nat → UInt8) (b : Bool) :
    Converts m (Der.ofBool m junk b) (Ber.ofBool m junk b) .bool b [0x01] [if b then 0xff else 0x00] (DerRef.boolean b) := by
  have e : (Ty.bool).der b = DerRef.boolean b := by cases b <;> decide +kernel
  have hi := isizeMax_eq
  have hfit : ((Ty.bool).der b).length ≤ isizeMax := by
    rw [e]; cases b <;> simp [DerRef.boolean, hi]
  have hid : IsId [0x01] := ⟨0, 0, 1, by decide, by decide, by decide +kernel⟩
  have h : Der.ofBool m junk b = .ok ((Ty.bool).der b) := by
    have hc : Contents.ofBool b = [if b then 0xff else 0x00] := by cases b <;> rfl
    rw [Der.ofBool, hc]
    exact Der_new_ok m junk hid _ hfit
  have := converts_of (m := m) (t := .bool) (v := b) trivial trivial trivial trivial trivial trivial hfit h
    (ber := Ber.ofBool m junk b) (by rw [Ber.ofBool, h]; rfl)
  rw [e] at this
  exact this

example := C75_bool .debug (fun _ => 0xaa) true

/-- C75, `From<i8>` … `From<usize>`: for all values, and `to_integer` of the contents gives the value back. -/
theorem C75_integer (m : Build) (junk : Nat → UInt8) (t : IntTy) (v : Int) (hv : t.InRange v) :
    ∃ c d, Converts m (Der.ofInt m junk t v) (Ber.ofInt m junk t v) (.int t) v [0x02] c d ∧
      IntMinimal c ∧ intVal c = v ∧ ContentsRef.toInteger t c = .ok v := by
  have hi := isizeMax_eq
  have hl := intOctets_length_le t v hv
  have hid : IsId [0x02] := ⟨0, 0, 2, by decide, by decide, by decide +kernel⟩
  have hfit : ((Ty.int t).der v).length ≤ isizeMax := by
    have h1 := lenOctets_length_le (n := (intOctets v).length) (by omega)
    have : ((Ty.int t).der v).length = 1 + (lenOctets (intOctets v).length).length + (intOctets v).length := by
      simp only [Ty.der, tlvOf, Ty.enc, tlv_length]; rfl
    omega
  have h : Der.ofInt m junk t v = .ok ((Ty.int t).der v) := by
    rw [Der.ofInt, ofInt_intOctets t v hv, Res.bind_ok]
    exact Der_new_ok m junk hid _ hfit
  exact ⟨intOctets v, _, converts_of (m := m) (t := .int t) (v := v) trivial trivial trivial trivial hv trivial hfit h
    (by rw [Ber.ofInt, h]; rfl), (intOctets_spec v).1, (intOctets_spec v).2, toInteger_intOctets t v hv⟩

example := C75_integer .release (fun _ => 0xaa) .i64 (-129) (by decide)

/-- C75: the octets of an integer do not depend on its type. -/
theorem C75_integer_type_independent (m : Build) (junk junk' : Nat → UInt8) (s t : IntTy) (v : Int) (hs : s.InRange v)
    (ht : t.InRange v) : Der.ofInt m junk s v = Der.ofInt m junk' t v := by
  have hi := isizeMax_eq
  have hid : IsId [0x02] := ⟨0, 0, 2, by decide, by decide, by decide +kernel⟩
  have hl := intOctets_length_le t v ht
  have hfit : (tlv [0x02] (intOctets v)).length ≤ isizeMax := by
    have h1 := lenOctets_length_le (n := (intOctets v).length) (by omega)
    rw [tlv_length]; simp only [List.length_singleton]; omega
  rw [Der.ofInt, Der.ofInt, ofInt_intOctets s v hs, ofInt_intOctets t v ht, Res.bind_ok, Res.bind_ok, IdRef.integer,
    Der_new_ok m junk hid _ hfit, Der_new_ok m junk' hid _ hfit]

example : Der.ofInt .debug (fun _ => 1) .u8 200 = Der.ofInt .debug (fun _ => 2) .i64 200 :=
  C75_integer_type_independent .debug _ _ .u8 .i64 200 (by decide) (by decide)

/-- C75, `From<&str>`: for all strings that fit in memory. -/
theorem C75_str (m : Build) (junk : Nat → UInt8) (v : String)
    (hfit : (tlv [0x0c] v.toByteArray.data.toList).length ≤ isizeMax) :
    Converts m (Der.ofStr m junk v) (Ber.ofStr m junk v) .string v [0x0c] v.toByteArray.data.toList
      (tlv [0x0c] v.toByteArray.data.toList) := by
  have hid : IsId [0x0c] := ⟨0, 0, 12, by decide, by decide, by decide +kernel⟩
  have h : Der.ofStr m junk v = .ok (tlv [0x0c] v.toByteArray.data.toList) := Der_new_ok m junk hid _ hfit
  exact converts_of (m := m) (t := .string) (v := v) trivial trivial trivial trivial trivial trivial hfit h
    (by rw [Ber.ofStr, h]; rfl)

example := C75_str .debug (fun _ => 0xaa) "é" (by decide +kernel)

/-- C75, `From<&[u8]>`: for all octets that fit in memory. -/
theorem C75_bytes (m : Build) (junk : Nat → UInt8) (v : Bytes) (hfit : (tlv [0x04] v).length ≤ isizeMax) :
    Converts m (Der.ofBytes m junk v) (Ber.ofBytes m junk v) .octetString v [0x04] v (tlv [0x04] v) := by
  have hid : IsId [0x04] := ⟨0, 0, 4, by decide, by decide, by decide +kernel⟩
  have h : Der.ofBytes m junk v = .ok (tlv [0x04] v) := Der_new_ok m junk hid _ hfit
  exact converts_of (m := m) (t := .octetString) (v := v) trivial trivial trivial trivial trivial trivial hfit h
    (by rw [Ber.ofBytes, h]; rfl)

example := C75_bytes .debug (fun _ => 0xaa) (List.replicate 200 7) (by decide +kernel)

/-- C75: conversions of different values of one kind differ. -/
theorem C75_integer_injective (m : Build) (junk junk' : Nat → UInt8) (s t : IntTy) (v w : Int) (hv : s.InRange v) (hw : t.InRange w)
    (h : Der.ofInt m junk s v = Der.ofInt m junk' t w) : v = w := by
  obtain ⟨c, d, h1, _, h2, _⟩ := C75_integer m junk s v hv
  obtain ⟨c', d', h1', _, h2', _⟩ := C75_integer m junk' t w hw
  rw [h1.der_eq, h1'.der_eq] at h
  have e : d = d' := by simpa using h
  subst e
  have a := h1.contents_eq.1
  rw [h1'.contents_eq.1] at a
  have : c' = c := by simpa using a
  subst this
  exact h2.symm.trans h2'

example : IntTy.InRange .i64 (-129) ∧ Der.ofInt .debug (fun _ => 7) .i64 (-129) = .ok [0x02, 0x02, 0xff, 0x7f] ∧
    Ber.ofStr .release (fun _ => 7) "é" = .ok [0x0c, 0x02, 0xc3, 0xa9] ∧
    Der.ofBytes .release (fun _ => 7) [1, 2, 3] = .ok [0x04, 0x03, 1, 2, 3] ∧
    Ber.ofBool .debug (fun _ => 7) true = .ok [0x01, 0x01, 0xff] := by decide +kernel

end Bsn1
