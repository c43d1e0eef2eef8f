import Verif.Lemmas.DeSettled
import Verif.Lemmas.DeMore
import Verif.Props.Ser
/-!
# C43, C44, C46–C51, C58, C59, C63: deserialization
-/

namespace Bsn1
open Spec

variable {α β γ : Type}

theorem fromDer_tlv (d : De α) {id c : Bytes} (hid : IsId id) (hc : c.length < 2 ^ 64) :
    fromDer d (tlv id c) = d.fromDer id c := by
  rw [fromDer, show DerRef.disassemble (tlv id c) = _ from disassemble_tlv hid hc, Res.bind_ok]

theorem fromBer_value (d : De α) {p id raw : Bytes} {indef : Bool} (h : BerValue p id indef raw) :
    fromBer d p = d.fromBer id (lenOf indef raw) raw := by
  rw [fromBer, berValue_disassemble h, Res.bind_ok]

theorem der_enc_fits {t : Ty α} {v : α} (hs : t.serializable) (hfit : (t.der v).length ≤ isizeMax) :
    (t.enc v).2.length < 2 ^ 64 ∧ (t.enc v).2.length ≤ isizeMax ∧ IsId (t.enc v).1 := by
  have hi := isizeMax_eq
  have hid := Ty.enc_isId t hs v
  have h := hfit
  rw [Ty.der, tlvOf, tlv_length] at h
  exact ⟨by omega, by omega, hid⟩

/-! ### The type of `Props.Ser` can be restored -/

theorem sample_deserializable : sampleTy.deserializable :=
  ⟨trivial, ⟨trivial, trivial, ⟨trivial, trivial⟩, trivial⟩, trivial⟩

theorem sample_restorable : sampleTy.restorable :=
  ⟨⟨trivial, ⟨trivial, trivial, ⟨trivial, trivial, fun _ _ _ h => h⟩, trivial⟩, trivial⟩, by decide +kernel⟩

theorem sample_convertible : sampleTy.convertible sampleVal := by
  refine ⟨trivial, ⟨trivial, fun u _ => ⟨_, rfl⟩⟩, ?_, trivial⟩
  intro x _
  exact ⟨trivial, fun _ _ => trivial⟩

/-! ### C43, C44 -/

/-- C43.  `from_der(to_der(v))` succeeds for every supported type and every value that fits in memory, and restores the
value: equal, except that hashed collections come back in some order of iteration, fields that are skipped get their
defaults and converted values are converted back (`restores`).  Serialization and deserialization may be of different
build profiles. -/
theorem C43_der_round_trip (m m' : Build) (o : HashOrder) (t : Ty α) (hs : t.serializable) (hd : t.deserializable)
    (hr : t.restorable) (v : α) (hok : t.ok v) (hc : t.convertible v) (hfit : (t.der v).length ≤ isizeMax) :
    ∃ p w, toDer m (Ty.ser m t) v = .ok p ∧ fromDer (Ty.de m' o t) p = .ok w ∧ t.restores v w := by
  obtain ⟨w, h1, h2⟩ := Ty.derVal_enc o t hs hr v hok hc hfit
  obtain ⟨hl, _, hid⟩ := der_enc_fits hs hfit
  refine ⟨t.der v, w, (C41_to_der m t hs v hok hfit).1, ?_, h2⟩
  rw [Ty.der, tlvOf, fromDer_tlv _ hid hl]
  exact (Ty.fromDer_iff m' o t hd _ _ _).mpr h1

example (m m' : Build) (o : HashOrder) := C43_der_round_trip m m' o sampleTy sample_serializable sample_deserializable sample_restorable sampleVal sample_ok
  sample_convertible (by rw [sample_der]; decide)

/-- C43 for types without hashed collections and skipped fields: the value itself. -/
theorem C43_der_round_trip_exact (m m' : Build) (o : HashOrder) (t : Ty α) (hs : t.serializable) (hd : t.deserializable)
    (hr : t.restorable) (he : t.exact) (v : α) (hok : t.ok v) (hc : t.convertible v)
    (hfit : (t.der v).length ≤ isizeMax) :
    (toDer m (Ty.ser m t) v >>= fun p => fromDer (Ty.de m' o t) p) = .ok v := by
  obtain ⟨p, w, h1, h2, h3⟩ := C43_der_round_trip m m' o t hs hd hr v hok hc hfit
  rw [h1, Res.bind_ok, h2, Ty.exact_faithful t he v w h3]

example (m m' : Build) (o : HashOrder) :
    (toDer m (Ty.ser m (.vec (.int .u8))) [200, 5] >>= fun p => fromDer (Ty.de m' o (.vec (.int .u8))) p) = .ok [200, 5] :=
  C43_der_round_trip_exact m m' o (.vec (.int .u8)) trivial trivial trivial trivial [200, 5]
    (by simp [Ty.ok, IntTy.InRange, IntTy.minVal, IntTy.maxVal, IntTy.signed, IntTy.size]) (fun _ _ => trivial) (by decide +kernel)

/-- C43 for hashed collections: as a set, or a map. -/
theorem C43_hash_round_trip (m m' : Build) (o : HashOrder) (eq : DecidableEq α) (k : Ty α) (t : Ty β)
    (hk : k.serializable ∧ k.deserializable ∧ k.restorable ∧ k.exact ∧ k.sized = true)
    (ht : t.serializable ∧ t.deserializable ∧ t.restorable ∧ t.exact) :
    (∀ v : List α, (Ty.hashSet eq k).ok v → (Ty.hashSet eq k).convertible v → ((Ty.hashSet eq k).der v).length ≤ isizeMax →
      ∃ w, (toDer m (Ty.ser m (.hashSet eq k)) v >>= fun p => fromDer (Ty.de m' o (.hashSet eq k)) p) = .ok w ∧
        w.Nodup ∧ ∀ x, x ∈ w ↔ x ∈ v) ∧
    (∀ v : List (α × β), (Ty.hashMap eq k t).ok v → (Ty.hashMap eq k t).convertible v →
      ((Ty.hashMap eq k t).der v).length ≤ isizeMax →
      ∃ w, (toDer m (Ty.ser m (.hashMap eq k t)) v >>= fun p => fromDer (Ty.de m' o (.hashMap eq k t)) p) = .ok w ∧
        (w.map Prod.fst).Nodup ∧ ∀ x, x ∈ w ↔ x ∈ v) := by
  obtain ⟨k1, k2, k3, k4, k5⟩ := hk
  obtain ⟨t1, t2, t3, t4⟩ := ht
  constructor
  · intro v hok hc hfit
    obtain ⟨p, w, h1, h2, u, h3, h4⟩ := C43_der_round_trip m m' o (.hashSet eq k) k1 k2
      ⟨k3, fun v w _ => Ty.exact_faithful k k4 v w⟩ v hok hc hfit
    have e : u = v := forall₂_faithful h3 fun x _ y => Ty.exact_faithful k k4 x y
    subst e
    exact ⟨w, by rw [h1, Res.bind_ok, h2], h4.nodup_iff.mpr hok.1, fun x => h4.mem_iff⟩
  · intro v hok hc hfit
    obtain ⟨p, w, h1, h2, u, h3, h4⟩ := C43_der_round_trip m m' o (.hashMap eq k t) ⟨k1, t1, k5⟩ ⟨k2, t2⟩
      ⟨k3, t3, fun v w _ => Ty.exact_faithful k k4 v w⟩ v hok hc hfit
    have e : u = v := forall₂_faithful h3 fun x _ y h =>
      Prod.ext (Ty.exact_faithful k k4 x.1 y.1 h.1) (Ty.exact_faithful t t4 x.2 y.2 h.2)
    subst e
    exact ⟨w, by rw [h1, Res.bind_ok, h2], (h4.map Prod.fst).nodup_iff.mpr hok.1, fun x => h4.mem_iff⟩

example (m m' : Build) (o : HashOrder) :=
  (C43_hash_round_trip m m' o inferInstance (.int .u8) .bool ⟨trivial, trivial, trivial, trivial, rfl⟩ ⟨trivial, trivial, trivial, trivial⟩).1
    [200, 5] (by simp [Ty.ok, IntTy.InRange, IntTy.minVal, IntTy.maxVal, IntTy.signed, IntTy.size]) (by simp [Ty.convertible]) (by decide +kernel)

/-- C44.  The same through BER. -/
theorem C44_ber_round_trip (m m' : Build) (o : HashOrder) (t : Ty α) (hs : t.serializable) (hd : t.deserializable)
    (hr : t.restorable) (v : α) (hok : t.ok v) (hc : t.convertible v) (hfit : (t.der v).length ≤ isizeMax) :
    ∃ p w, toBer m (Ty.ser m t) v = .ok p ∧ fromBer (Ty.de m' o t) p = .ok w ∧ t.restores v w := by
  obtain ⟨w, h1, h2⟩ := Ty.derVal_enc o t hs hr v hok hc hfit
  obtain ⟨hl, hl', hid⟩ := der_enc_fits hs hfit
  refine ⟨t.der v, w, (C41_to_der m t hs v hok hfit).2.1, ?_, h2⟩
  rw [Ty.der, tlvOf, fromBer_value (indef := false) _ ⟨hid, hl, rfl⟩]
  exact (Ty.fromBer_iff m' o t hd _ false _ _ hl').mpr (Ty.derVal_berVal _ _ t _ _ _ h1)

example (m m' : Build) (o : HashOrder) := C44_ber_round_trip m m' o sampleTy sample_serializable sample_deserializable sample_restorable sampleVal sample_ok
  sample_convertible (by rw [sample_der]; decide)

/-- C44 for types without hashed collections and skipped fields. -/
theorem C44_ber_round_trip_exact (m m' : Build) (o : HashOrder) (t : Ty α) (hs : t.serializable) (hd : t.deserializable)
    (hr : t.restorable) (he : t.exact) (v : α) (hok : t.ok v) (hc : t.convertible v)
    (hfit : (t.der v).length ≤ isizeMax) :
    (toBer m (Ty.ser m t) v >>= fun p => fromBer (Ty.de m' o t) p) = .ok v := by
  obtain ⟨p, w, h1, h2, h3⟩ := C44_ber_round_trip m m' o t hs hd hr v hok hc hfit
  rw [h1, Res.bind_ok, h2, Ty.exact_faithful t he v w h3]

example : sampleTy.serializable ∧ sampleTy.deserializable ∧ sampleTy.restorable ∧ sampleTy.ok sampleVal ∧
    sampleTy.convertible sampleVal ∧ (sampleTy.der sampleVal).length ≤ isizeMax :=
  ⟨sample_serializable, sample_deserializable, sample_restorable, sample_ok, sample_convertible,
    by rw [sample_der]; decide⟩

/-- `sampleVal` comes back with the default in the skipped field. -/
example (o : HashOrder) : fromDer (Ty.de .debug o sampleTy) (sampleTy.der sampleVal) =
    .ok (.inr (.inl (200, true, 1, [("a", [1, -2]), ("b", [])], ()))) := by
  rw [sample_der]; rfl

example : (Ty.vec (.btreeMap compare inferInstance inferInstance (.int .u8) (.vecDeque .string))).exact :=
  ⟨trivial, trivial⟩

/-! ### C46 -/

/-- C46, negation: in release builds integers and strings of indefinite length are accepted, end-of-contents being
taken as contents; in debug builds `from_ber` panics.  The octets are those of a parsed BER value. -/
theorem C46_indefinite_primitive_violated (o : HashOrder) :
    BerRef.parse [0x02, 0x80, 0x02, 0x00, 0x00, 0x00] = (.ok [0x02, 0x80, 0x02, 0x00, 0x00, 0x00], []) ∧
    fromBer (Ty.de .release o (.int .i32)) [0x02, 0x80, 0x02, 0x00, 0x00, 0x00] = .ok 33554432 ∧
    fromBer (Ty.de .debug o (.int .i32)) [0x02, 0x80, 0x02, 0x00, 0x00, 0x00] = .panic ∧
    BerRef.parse [0x0c, 0x80, 0x00, 0x00] = (.ok [0x0c, 0x80, 0x00, 0x00], []) ∧
    fromBer (Ty.de .release o .string) [0x0c, 0x80, 0x00, 0x00] = .ok "\x00\x00" ∧
    fromBer (Ty.de .debug o .string) [0x0c, 0x80, 0x00, 0x00] = .panic ∧
    fromBer (Ty.de .release o .bool) [0x01, 0x80, 0x00, 0x00] = .err .extraContentsOctet ∧
    fromBer (Ty.de .debug o .bool) [0x01, 0x80, 0x00, 0x00] = .panic := by
  refine ⟨by decide +kernel, ?_, ?_, by decide +kernel, ?_, ?_, ?_, ?_⟩
  · change fromBer (De.int .release .i32) _ = _; decide +kernel
  · change fromBer (De.int .debug .i32) _ = _; decide +kernel
  · change fromBer (De.string .release) _ = _; decide +kernel
  · change fromBer (De.string .debug) _ = _; decide +kernel
  · change fromBer (De.bool .release) _ = _; decide +kernel
  · change fromBer (De.bool .debug) _ = _; decide +kernel

/-- C46, the part that holds (missing: integers and strings are not rejected, booleans are rejected with another
error, debug builds panic): for every BER value of indefinite length, `OctetString` gives `IndefiniteLength`, and
`bool` is not accepted. -/
theorem C46_indefinite_primitive_partial (m : Build) (o : HashOrder) (p id raw : Bytes) (h : BerValue p id true raw) :
    (id = [0x04] ∨ id = [0x24] → fromBer (Ty.de m o .octetString) p = .err .indefiniteLength) ∧
    ∀ b, fromBer (Ty.de m o .bool) p ≠ .ok b := by
  constructor
  · intro hid
    rw [fromBer_value _ h]
    change De.octetString.fromBer id .indefinite raw = _
    rcases hid with rfl | rfl <;> rfl
  · intro b hb
    rw [fromBer_value _ h] at hb
    obtain ⟨c, _, rfl, _⟩ := h.2
    change (if id ≠ IdRef.boolean then _ else if Length.indefinite.eq .indefinite then _ else
      (debugAssert m (Length.definite? .indefinite == some (c ++ eoc).length) >>= fun _ => _)) = _ at hb
    rw [guard_ok, guard_ok] at hb
    obtain ⟨_, _, hb⟩ := hb
    obtain ⟨_, _, hb⟩ := Res.bind_eq_ok.mp hb
    rw [C17_to_bool_ber] at hb
    obtain ⟨x, hx, _⟩ := hb
    have hl := congrArg List.length hx
    simp [eoc] at hl

example (m : Build) (o : HashOrder) :
    fromBer (Ty.de m o .octetString) [0x24, 0x80, 0x04, 0x01, 0x07, 0x00, 0x00] = .err .indefiniteLength :=
  (C46_indefinite_primitive_partial m o _ [0x24] [0x04, 0x01, 0x07, 0x00, 0x00]
    ⟨⟨0, 1, 4, by decide, by decide, by decide +kernel⟩, [0x04, 0x01, 0x07],
      .cons [0x04, 0x01, 0x07] [] (.definite [0x04] [0x07] ⟨0, 0, 4, by decide, by decide, by decide +kernel⟩ (by decide))
        (by decide) .nil, rfl, rfl⟩).1 (.inr rfl)

/-- C46, how far the acceptance goes (release builds): `from_ber` of an integer or string does not look at the form of
the length at all. -/
theorem C46_length_ignored_violated (o : HashOrder) (t : IntTy) (id raw : Bytes) :
    (Ty.de .release o (.int t)).fromBer id .indefinite raw = (Ty.de .release o (.int t)).fromBer id (.definite raw.length) raw ∧
    (Ty.de .release o .string).fromBer id .indefinite raw =
      (Ty.de .release o .string).fromBer id (.definite raw.length) raw := by
  have e : (Length.definite raw.length).eq .indefinite = false := not_eq_indefinite _
  have e' : Length.indefinite.eq .indefinite = false := not_eq_indefinite _
  constructor
  · change (De.int .release t).fromBer _ _ _ = (De.int .release t).fromBer _ _ _
    simp only [De.int, e, e', debugAssert]
  · change (De.string .release).fromBer _ _ _ = (De.string .release).fromBer _ _ _
    simp only [De.string, e, e', debugAssert]

example : BerValue [0x24, 0x80, 0x04, 0x01, 0x07, 0x00, 0x00] [0x24] true [0x04, 0x01, 0x07, 0x00, 0x00] :=
  ⟨⟨0, 1, 4, by decide, by decide, by decide +kernel⟩, [0x04, 0x01, 0x07],
    .cons [0x04, 0x01, 0x07] [] (.definite [0x04] [0x07] ⟨0, 0, 4, by decide, by decide, by decide +kernel⟩ (by decide))
      (by decide) .nil, rfl, rfl⟩

end Bsn1
