import Verif.Props.Decode
/-!
# C105: decoding BER and encoding again gives a normal form
-/

namespace Bsn1
open Spec

mutual
theorem Ty.canonical_convertible : {α : Type} → (t : Ty α) → t.canonical → ∀ v, t.convertible v
  | _, .bool, _, _ => trivial
  | _, .int _, _, _ => trivial
  | _, .string, _, _ => trivial
  | _, .octetString, _, _ => trivial
  | _, .vec t, h, _ => fun x _ => Ty.canonical_convertible t h x
  | _, .linkedList t, h, _ => fun x _ => Ty.canonical_convertible t h x
  | _, .vecDeque t, h, _ => fun x _ => Ty.canonical_convertible t h x
  | _, .btreeSet _ _ _ _, h, _ => h.elim
  | _, .btreeMap _ _ _ _ _, h, _ => h.elim
  | _, .hashSet _ _, h, _ => h.elim
  | _, .hashMap _ _ _, h, _ => h.elim
  | _, .struct _ fs, h, v => Fields.canonical_convertible fs h v
  | _, .enum vs, h, v => Variants.canonical_convertible vs h v
  | _, .transparent fs, h, v => Fields.canonical_convertible fs h.1 v
  | _, .conv _ _ _, h, _ => h.elim
  | _, .named t f _ _ _, h, v => Ty.canonical_convertible t h (f v)
  | _, .hole, _, _ => trivial
theorem Fields.canonical_convertible : {γ : Type} → (fs : Fields γ) → fs.canonical → ∀ v, fs.convertible v
  | _, .nil, _, _ => trivial
  | _, .plain t r, h, v => ⟨Ty.canonical_convertible t h.1 v.1, Fields.canonical_convertible r h.2 v.2⟩
  | _, .skip _ r, h, v => Fields.canonical_convertible r h v.2
  | _, .skipSer _ _, h, _ => h.elim
  | _, .skipDe _ _ _, h, _ => h.elim
  | _, .conv _ _ _ _, h, _ => h.elim
theorem Variants.canonical_convertible : {ρ : Type} → (vs : Variants ρ) → vs.canonical → ∀ v, vs.convertible v
  | _, .cons _ fs _, h, .inl v => Fields.canonical_convertible fs h.1 v
  | _, .cons _ _ r, h, .inr v => Variants.canonical_convertible r h.2 v
end

namespace Spec

/-- Decodes BER and encodes the value again: `to_der(&from_ber::<T>(ber)?)`. -/
def recode {α : Type} (m : Build) (o : HashOrder) (t : Ty α) (p : Bytes) : Res Bytes :=
  fromBer (Ty.de m o t) p >>= fun v => toDer m (Ty.ser m t) v

end Spec

/-- **C105.** For types that are restored exactly: encoding what was decoded from BER gives DER that both decoders take back to the same value, and
that decoding and encoding once more, in any build and with any order of hashing, does not change. -/
theorem C105_normal_form (m m' : Build) (o o' : HashOrder) (t : Ty α) (hs : t.serializable) (hd : t.deserializable) (hr : t.restorable)
    (he : t.exact) (hw : t.wellTyped) (p : Bytes) (hp : IsBer p) (hl : p.length ≤ isizeMax) (v : α) (h : fromBer (Ty.de m o t) p = .ok v)
    (hc : t.convertible v) (hfit : (t.der v).length ≤ isizeMax) :
    ∃ d, recode m o t p = .ok d ∧ IsDer d ∧ IsBer d ∧ fromDer (Ty.de m' o' t) d = .ok v ∧ fromBer (Ty.de m' o' t) d = .ok v ∧
      recode m' o' t d = .ok d := by
  have hok := (C68_decoded_valid m o t hd hw p hl v).2 hp h
  have h1 := C41_to_der m t hs v hok hfit
  have h2 := C43_der_round_trip_exact m m' o' t hs hd hr he v hok hc hfit
  have h3 := C44_ber_round_trip_exact m m' o' t hs hd hr he v hok hc hfit
  rw [h1.1, Res.bind_ok] at h2
  rw [h1.2.1, Res.bind_ok] at h3
  have h4 : IsDer (t.der v) := ((C19_der_parse_iff _ _ _).1 (h1.2.2 [])).1
  refine ⟨t.der v, ?_, h4, ?_, h2, h3, ?_⟩
  · rw [recode, h, Res.bind_ok, h1.1]
  · obtain ⟨id, c, h5, h6, h7⟩ := h4
    exact berValue_isBer (indef := false) ⟨h5, h6, h7⟩
  · rw [recode, h3, Res.bind_ok, (C41_to_der m' t hs v hok hfit).1]

/-- A vector of indefinite length in which a boolean has an octet that is not DER. -/
theorem sampleBer_value (m : Build) (o : HashOrder) :
    fromBer (Ty.de m o (.vec .bool)) ([0x30, 0x80, 0x01, 0x01, 0x05, 0x01, 0x01, 0x00, 0x00, 0x00] : Bytes) = .ok [true, false] := by
  change fromBer (De.vec m (De.bool m)) _ = _
  cases m <;> decide +kernel

example (m m' : Build) (o o' : HashOrder) : ∃ d, recode m o (.vec .bool) [0x30, 0x80, 0x01, 0x01, 0x05, 0x01, 0x01, 0x00, 0x00, 0x00] = .ok d ∧
    IsDer d ∧ IsBer d ∧ fromDer (Ty.de m' o' (.vec .bool)) d = .ok [true, false] ∧ fromBer (Ty.de m' o' (.vec .bool)) d = .ok [true, false] ∧
      recode m' o' (.vec .bool) d = .ok d :=
  C105_normal_form m m' o o' (.vec .bool) trivial trivial trivial trivial trivial _
    ((C29_ber_parse_iff [0x30, 0x80, 0x01, 0x01, 0x05, 0x01, 0x01, 0x00, 0x00, 0x00] _ [] (by decide +kernel)).1 (by decide +kernel)).1
    (by decide +kernel) _ (sampleBer_value m o) (fun _ _ => trivial) (by decide +kernel)

/-- **C105.** Two BER spellings have the same normal form exactly if they are spellings of the same value. -/
theorem C105_same_iff (m : Build) (o : HashOrder) (t : Ty α) (hs : t.serializable) (hd : t.deserializable) (hr : t.restorable)
    (he : t.exact) (hw : t.wellTyped) (p q : Bytes) (hp : IsBer p) (hq : IsBer q) (lp : p.length ≤ isizeMax) (lq : q.length ≤ isizeMax) (v w : α)
    (hv : fromBer (Ty.de m o t) p = .ok v) (hw' : fromBer (Ty.de m o t) q = .ok w) (cv : t.convertible v) (cw : t.convertible w)
    (fv : (t.der v).length ≤ isizeMax) (fw : (t.der w).length ≤ isizeMax) : recode m o t p = recode m o t q ↔ v = w := by
  rw [recode, recode, hv, hw', Res.bind_ok, Res.bind_ok]
  refine ⟨fun h => ?_, fun h => by rw [h]⟩
  exact C66_to_der_injective m m t hs hd hr he v w ((C68_decoded_valid m o t hd hw p lp v).2 hp hv)
    ((C68_decoded_valid m o t hd hw q lq w).2 hq hw') cv cw fv fw h

/-- Of indefinite length with `05` for true, and of definite length with `ff`. -/
example (m : Build) (o : HashOrder) : recode m o (.vec .bool) [0x30, 0x80, 0x01, 0x01, 0x05, 0x01, 0x01, 0x00, 0x00, 0x00] =
    recode m o (.vec .bool) [0x30, 0x06, 0x01, 0x01, 0xff, 0x01, 0x01, 0x00] :=
  (C105_same_iff m o (.vec .bool) trivial trivial trivial trivial trivial _ _
    ((C29_ber_parse_iff [0x30, 0x80, 0x01, 0x01, 0x05, 0x01, 0x01, 0x00, 0x00, 0x00] _ [] (by decide +kernel)).1 (by decide +kernel)).1
    ((C29_ber_parse_iff [0x30, 0x06, 0x01, 0x01, 0xff, 0x01, 0x01, 0x00] _ [] (by decide +kernel)).1 (by decide +kernel)).1
    (by decide +kernel) (by decide +kernel) _ _ (sampleBer_value m o)
    (by change fromBer (De.vec m (De.bool m)) _ = .ok [true, false]; cases m <;> decide +kernel) (fun _ _ => trivial) (fun _ _ => trivial)
    (by decide +kernel) (by decide +kernel)).2 rfl

/-- **C105.** For types whose values have only one encoding: `from_der` accepts exactly the values that decoding from BER and encoding again does
not change. -/
theorem C105_fixed_iff (m : Build) (o : HashOrder) (t : Ty α) (hs : t.serializable) (hd : t.deserializable) (hr : t.restorable) (hc : t.canonical)
    (p : Bytes) (hp : IsBer p) (hl : p.length ≤ isizeMax) (hfit : ∀ v, fromBer (Ty.de m o t) p = .ok v → (t.der v).length ≤ isizeMax) :
    recode m o t p = .ok p ↔ IsDer p ∧ ∃ v, fromDer (Ty.de m o t) p = .ok v := by
  constructor
  · intro h
    rw [recode] at h
    rcases hv : fromBer (Ty.de m o t) p with v | e | _ | _
    · rw [hv, Res.bind_ok] at h
      have hok := (C68_decoded_valid m o t hd (Ty.canonical_wellTyped t hc) p hl v).2 hp hv
      obtain ⟨d, w, h1, h2, -⟩ := C43_der_round_trip m m o t hs hd hr v hok (Ty.canonical_convertible t hc v) (hfit v hv)
      rw [h1] at h
      cases h
      have h3 := C41_to_der m t hs v hok (hfit v hv)
      rw [h1] at h3
      have h4 := h3.2.2 []
      rw [← Res.ok.inj h3.1] at h4
      exact ⟨((C19_der_parse_iff _ _ _).1 h4).1, w, h2⟩
    all_goals (rw [hv] at h; cases h)
  · rintro ⟨h1, v, h2⟩
    rw [recode, C67_ber_extends_der m m o t hd p h1 hl v h2, Res.bind_ok]
    exact C48_der_canonical m m o t hs hd hc p p [] hl ((C19_der_parse_iff p p []).mpr ⟨h1, by simp⟩) v h2

/-- `05` for true is not a fixed point, so that `from_der` does not accept it; `ff` is one. -/
example (m : Build) (o : HashOrder) : (¬ ∃ v, fromDer (Ty.de m o .bool) [0x01, 0x01, 0x05] = .ok v) ∧ recode m o .bool [0x01, 0x01, 0xff] = .ok [0x01, 0x01, 0xff] := by
  have hd : IsDer [0x01, 0x01, 0x05] := ((C19_der_parse_iff [0x01, 0x01, 0x05] _ []).1 (by decide +kernel)).1
  have hfit : ∀ p v, fromBer (Ty.de m o .bool) p = .ok v → (Ty.der .bool v).length ≤ isizeMax := by
    intro p v _
    cases v <;> decide +kernel
  constructor
  · intro h
    have h1 := (C105_fixed_iff m o .bool trivial trivial trivial trivial [0x01, 0x01, 0x05]
      ((C29_ber_parse_iff [0x01, 0x01, 0x05] _ [] (by decide +kernel)).1 (by decide +kernel)).1 (by decide +kernel) (hfit _)).2 ⟨hd, h⟩
    change (fromBer (De.bool m) _ >>= fun v => toDer m Ser.bool v) = _ at h1
    revert h1
    cases m <;> decide +kernel
  · refine (C105_fixed_iff m o .bool trivial trivial trivial trivial [0x01, 0x01, 0xff]
      ((C29_ber_parse_iff [0x01, 0x01, 0xff] _ [] (by decide +kernel)).1 (by decide +kernel)).1 (by decide +kernel) (hfit _)).2
        ⟨((C19_der_parse_iff [0x01, 0x01, 0xff] _ []).1 (by decide +kernel)).1, true, ?_⟩
    change fromDer (De.bool m) _ = _
    cases m <;> decide +kernel

end Bsn1
