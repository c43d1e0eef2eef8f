import Verif.Lemmas.Alter
import Verif.Props.Origin
import Verif.Props.Place
/-!
# C125: a value in the input is changed in place, then the input is decoded

Octets that would be decoded to a value are changed before they are decoded: at the place where a part of the value comes from, a value of the same length is written.
-/

namespace Bsn1
open Spec

variable {α β : Type} {u : Ty β} {y : β}

mutual
theorem Spec.Ty.Alter.from : {α : Type} → {p : Place} → {t : Ty α} → {v : α} → {put : β → α} → Ty.Alter u y p t v put → Ty.From u y p t v
  | _, _, _, _, _, .here => .here
  | _, _, _, _, _, .vec hi hp => .vec hi hp.from
  | _, _, _, _, _, .linkedList hi hp => .linkedList hi hp.from
  | _, _, _, _, _, .vecDeque hi hp => .vecDeque hi hp.from
  | _, _, _, _, _, .btreeValue hn hi hp => .btreeValue hn (List.mem_of_getElem? hi) hp.from
  | _, _, _, _, _, .struct hp => .struct hp.from
  | _, _, _, _, _, .enum hp => .enum hp.from
  | _, _, _, _, _, .transparent hp => .transparent hp.from
  | _, _, _, _, _, .named hp => .named hp.from
theorem Spec.Fields.Alter.from : {γ : Type} → {i : Nat} → {p : Place} → {fs : Fields γ} → {v : γ} → {put : β → γ} → Fields.Alter u y i p fs v put → Fields.From u y i p fs v
  | _, _, _, _, _, _, .plain hp => .plain hp.from
  | _, _, _, _, _, _, .skipSer hp => .skipSer hp.from
  | _, _, _, _, _, _, .conv hp => .conv hp.from
  | _, _, _, _, _, _, .afterPlain hp => .afterPlain hp.from
  | _, _, _, _, _, _, .afterSkipSer hp => .afterSkipSer hp.from
  | _, _, _, _, _, _, .afterConv hp => .afterConv hp.from
  | _, _, _, _, _, _, .afterSkip hp => .afterSkip hp.from
  | _, _, _, _, _, _, .afterSkipDe hp => .afterSkipDe hp.from
theorem Spec.Fields.AlterOne.from : {γ : Type} → {p : Place} → {fs : Fields γ} → {v : γ} → {put : β → γ} → Fields.AlterOne u y p fs v put → Fields.FromOne u y p fs v
  | _, _, _, _, _, .plain _hn hp => .plain hp.from
  | _, _, _, _, _, .skipSer _hn hp => .skipSer hp.from
  | _, _, _, _, _, .conv _hn hp => .conv hp.from
  | _, _, _, _, _, .afterSkip hp => .afterSkip hp.from
  | _, _, _, _, _, .afterSkipDe hp => .afterSkipDe hp.from
theorem Spec.Variants.Alter.from : {ρ : Type} → {i : Nat} → {p : Place} → {vs : Variants ρ} → {v : ρ} → {put : β → ρ} → Variants.Alter u y i p vs v put →
    Variants.From u y i p vs v
  | _, _, _, _, _, _, .this hp => .this hp.from
  | _, _, _, _, _, _, .other hp => .other hp.from
end

theorem fromDer_den {m : Build} {o : HashOrder} {t : Ty α} (hd : t.deserializable) {b : Bytes} (hb : IsDer b) (v : α) :
    fromDer (Ty.de m o t) b = .ok v ↔ DerDen (t.derVal o.order) b v := by
  obtain ⟨id, c, hid, hc, rfl⟩ := hb
  rw [fromDer_tlv _ hid hc, Ty.fromDer_iff m o t hd, derDen_tlv hid hc]

theorem fromBer_den {m : Build} {o : HashOrder} {t : Ty α} (hd : t.deserializable) {b : Bytes} (hb : IsBer b) (hl : b.length ≤ isizeMax) (v : α) :
    fromBer (Ty.de m o t) b = .ok v ↔ BerDen (t.berVal (decide (m = .release)) o.order) b v := by
  obtain ⟨id, d, raw, hv⟩ := isBer_berValue hb
  have := berValue_length hv
  rw [fromBer_value _ hv, Ty.fromBer_iff m o t hd _ _ _ _ (by omega), berDen_value hv]

theorem parse_der_self {b : Bytes} : DerRef.parse b = (.ok b, []) ↔ IsDer b := by
  rw [C19_der_parse_iff]
  exact ⟨fun h => h.1, fun h => ⟨h, by simp⟩⟩

theorem parse_ber_self {b : Bytes} (hl : b.length ≤ isizeMax) : BerRef.parse b = (.ok b, []) ↔ IsBer b := by
  constructor
  · exact fun h => (BerRef_parse_sound hl h).1
  · intro h
    have := BerRef_parse_ok (rest := []) h (by simpa using hl)
    rwa [List.append_nil] at this

/-- **C125.** If `parse_der` gives a value, then at the place of a part is a value that `from_der` decodes to the part; if it is changed in place to another value (by anything that
can be done with a `&mut DerRef`), then `parse_der` gives the value with that part replaced by what `from_der` gives for the changed one, and no value if `from_der` gives none.  The
octets behind are left as before. -/
theorem C125_der (m : Build) (o : HashOrder) (t : Ty α) (hd : t.deserializable) (buffer rest : Bytes) (v : α)
    (h : parseDer (Ty.de m o t) buffer = (.ok v, rest)) (u : Ty β) (y : β) (p : Place) (put : β → α) (hp : Ty.Alter u y p t v put) :
    ∃ path b, p.Has path ∧ getDer (0 :: path) buffer = .ok b ∧ fromDer (Ty.de m o u) b = .ok y ∧
      ∀ k b', k b = .ok b' → b'.length = b.length → DerRef.parse b' = (.ok b', []) →
        ∃ buffer' r, onDer k (0 :: path) buffer = .ok buffer' ∧ buffer'.length = buffer.length ∧ parseDer (Ty.de m o t) buffer' = (r, rest) ∧
          ∀ w, r = .ok w ↔ ∃ z, fromDer (Ty.de m o u) b' = .ok z ∧ w = put z := by
  have hu := hp.from.de hd
  rw [parseDer] at h
  cases hx : DerRef.parse buffer with
  | mk r rest' =>
    rw [hx] at h
    cases r with
    | ok b =>
      simp only [Prod.mk.injEq] at h
      obtain ⟨h, rfl⟩ := h
      obtain ⟨hb, rfl⟩ := (C19_der_parse_iff buffer b rest').1 hx
      obtain ⟨id, c, hid, hc, rfl⟩ := hb
      rw [fromDer_tlv _ hid hc] at h
      obtain ⟨path, b, F, h1, h2, h3, h4⟩ := hp.der o hd id c hid hc ((Ty.fromDer_iff m o t hd _ _ _).1 h)
      refine ⟨path, b, h1, h3 0 _ (nth_der_zero _ hid hc), (fromDer_den hu (derDen_isDer h2) y).2 h2, fun k b' hk hl hb' => ?_⟩
      rw [parse_der_self] at hb'
      obtain ⟨e1, e2, e3, e4⟩ := h4 k b' hk hl hb'
      refine ⟨F b' ++ rest', fromDer (Ty.de m o t) (F b'), ?_, by rw [List.length_append, List.length_append, e2], ?_, fun w => ?_⟩
      · rw [onDer_cons]
        exact atIndex_zero ((C19_der_parse_mut_iff _ _ _).2 ⟨⟨id, c, hid, hc, rfl⟩, rfl⟩) e1
      · rw [parseDer, (C19_der_parse_iff _ _ _).2 ⟨e3, rfl⟩]
      · rw [fromDer_den hd e3, e4]
        exact exists_congr fun z => and_congr (fromDer_den hu hb' z).symm Iff.rfl
    | err e => simp at h
    | panic => simp at h
    | ub => simp at h

/-- **C125.** The same for BER, whatever forms of lengths there are in the input, if the changed value does not become an end-of-contents. -/
theorem C125_ber (m : Build) (o : HashOrder) (t : Ty α) (hd : t.deserializable) (buffer rest : Bytes) (hl : buffer.length ≤ isizeMax) (v : α)
    (h : parseBer (Ty.de m o t) buffer = (.ok v, rest)) (u : Ty β) (y : β) (p : Place) (put : β → α) (hp : Ty.Alter u y p t v put) :
    ∃ path b, p.Has path ∧ getBer (0 :: path) buffer = .ok b ∧ fromBer (Ty.de m o u) b = .ok y ∧
      ∀ k b', k b = .ok b' → b'.length = b.length → BerRef.parse b' = (.ok b', []) → (b' = [0x00, 0x00] → b = [0x00, 0x00]) →
        ∃ buffer' r, onBer k (0 :: path) buffer = .ok buffer' ∧ buffer'.length = buffer.length ∧ parseBer (Ty.de m o t) buffer' = (r, rest) ∧
          ∀ w, r = .ok w ↔ ∃ z, fromBer (Ty.de m o u) b' = .ok z ∧ w = put z := by
  have hu := hp.from.de hd
  rw [parseBer] at h
  cases hx : BerRef.parse buffer with
  | mk r rest' =>
    rw [hx] at h
    cases r with
    | ok b0 =>
      simp only [Prod.mk.injEq] at h
      obtain ⟨h, rfl⟩ := h
      obtain ⟨hb, rfl⟩ := BerRef_parse_sound hl hx
      obtain ⟨id, d, raw, hv⟩ := isBer_berValue hb
      rw [fromBer_value _ hv] at h
      have hlb : b0.length ≤ isizeMax := by rw [List.length_append] at hl; omega
      have hlr := berValue_length hv
      obtain ⟨path, b, F, h1, h2, h2', h3, h4⟩ := hp.ber m o hd b0 id d raw hv hlb ((Ty.fromBer_iff m o t hd _ _ _ _ (by omega)).1 h)
      have hbb : IsBer b := by obtain ⟨i, d, r, h, -⟩ := h2; exact berValue_isBer h
      refine ⟨path, b, h1, h3 0 _ (nth_ber_zero _ hv hl), (fromBer_den hu hbb h2' y).2 h2, fun k b' hk hlen hb' he => ?_⟩
      rw [parse_ber_self (by omega)] at hb'
      obtain ⟨e1, e2, e3, -, e4⟩ := h4 k b' hk hlen hb' he
      have hlen' : (F b' ++ rest').length = (b0 ++ rest').length := by rw [List.length_append, List.length_append, e2]
      refine ⟨F b' ++ rest', fromBer (Ty.de m o t) (F b'), ?_, hlen', ?_, fun w => ?_⟩
      · rw [onBer_cons]
        exact atIndex_zero ((C29_ber_parse_mut_iff _ _ _ hl).2 ⟨hb, rfl⟩) e1
      · rw [parseBer, BerRef_parse_ok e3 (by omega)]
      · rw [fromBer_den hd e3 (by omega), e4]
        exact exists_congr fun z => and_congr (fromBer_den hu hb' (by omega) z).symm Iff.rfl
    | err e => simp at h
    | panic => simp at h
    | ub => simp at h

/-- The part of `origin_part`, and the value with another in its place. -/
theorem origin_alter : Ty.Alter (.int .i16) (-2) [some 2, none, some 1, some 1] sampleTy originVal
    (fun z => .inr (.inl (200, true, 1, [("a", [1, z]), ("b", [])], ()))) := by
  have h1 : Ty.Alter (.int .i16) (-2) [some 1] (.vec (.int .i16)) [1, -2] (fun z => [1, z]) := .vec (i := 1) (l := [1, -2]) rfl .here
  have hn : (Ty.vec (.int .i16)).notEoc := fun _ _ _ h => absurd h.1 (by decide)
  have h2 : Ty.Alter (.int .i16) (-2) [none, some 1, some 1] (.btreeMap compare inferInstance inferInstance .string (.vec (.int .i16)))
      [("a", [1, -2]), ("b", [])] (fun z => [("a", [1, z]), ("b", [])]) := .btreeValue (i := 0) (x := ("a", [1, -2])) hn rfl h1
  exact .enum (.other (.this (.afterPlain (.afterSkip (.afterConv (.plain (v := ([("a", [1, -2]), ("b", [])], ())) h2))))))

example := C125_der _ _ sampleTy sample_deserializable _ _ _ origin_der.1 _ _ _ _ origin_alter
example := C125_ber _ _ sampleTy sample_deserializable _ _ (by decide +kernel) _ origin_ber _ _ _ _ origin_alter

/-- A value found with `DerRef::parse` is a DER, and no longer than what it was found in. -/
theorem nth_der_fits : ∀ (i : Nat) (bytes b : Bytes), nth DerRef.parse i bytes = .ok b → IsDer b ∧ b.length ≤ bytes.length
  | i, bytes, b, h => by
    rw [nth] at h
    cases hx : DerRef.parse bytes with
    | mk r rest =>
      rw [hx] at h
      cases r with
      | ok b0 =>
        obtain ⟨hb, rfl⟩ := (C19_der_parse_iff bytes b0 rest).1 hx
        rw [List.length_append]
        cases i with
        | zero =>
          cases h
          exact ⟨hb, by omega⟩
        | succ i =>
          have := nth_der_fits i rest b h
          exact ⟨this.1, by omega⟩
      | err e => simp at h
      | panic => simp at h
      | ub => simp at h

theorem getDer_fits : ∀ (path : List Nat) (i : Nat) (bytes b : Bytes), getDer (i :: path) bytes = .ok b → IsDer b ∧ b.length ≤ bytes.length
  | [], i, bytes, b, h => nth_der_fits i bytes b h
  | j :: path, i, bytes, b, h => by
    rw [getDer] at h
    cases hx : nth DerRef.parse i bytes with
    | ok b0 =>
      obtain ⟨⟨id, c, hid, hc, rfl⟩, hl⟩ := nth_der_fits i bytes b0 hx
      rw [hx, Res.bind_ok, DerRef_contents_tlv hid hc, Res.bind_ok] at h
      have := getDer_fits path j c b h
      rw [tlv_length] at hl
      exact ⟨this.1, by omega⟩
    | err e => rw [hx] at h; cases h
    | panic => rw [hx] at h; cases h
    | ub => rw [hx] at h; cases h

/-- **C125.** In particular other contents of the same length are copied over those of the value, with `mut_contents().as_mut().copy_from_slice(..)`: what `Deserialize::from_der` of the
part's type gives for the identifier that was there and the new contents is the part of what is decoded then. -/
theorem C125_copy (m : Build) (o : HashOrder) (t : Ty α) (hd : t.deserializable) (buffer rest : Bytes) (hl : buffer.length ≤ isizeMax) (v : α)
    (h : parseDer (Ty.de m o t) buffer = (.ok v, rest)) (u : Ty β) (y : β) (p : Place) (put : β → α) (hp : Ty.Alter u y p t v put) :
    ∃ path b id c, p.Has path ∧ getDer (0 :: path) buffer = .ok b ∧ DerRef.id b = .ok id ∧ DerRef.contents b = .ok c ∧ (Ty.de m o u).fromDer id c = .ok y ∧
      ∀ src, src.length = c.length → ∃ buffer' r, onDer (Touch.copy src).der (0 :: path) buffer = .ok buffer' ∧ buffer'.length = buffer.length ∧
        parseDer (Ty.de m o t) buffer' = (r, rest) ∧ ∀ w, r = .ok w ↔ ∃ z, (Ty.de m o u).fromDer id src = .ok z ∧ w = put z := by
  obtain ⟨path, b, h1, h2, h3, h4⟩ := C125_der m o t hd buffer rest v h u y p put hp
  obtain ⟨hb, hbl⟩ := getDer_fits _ _ _ _ h2
  replace hbl := le_trans hbl hl
  obtain ⟨id, c, hid, hc, rfl⟩ := hb
  refine ⟨path, tlv id c, id, c, h1, h2, DerRef_id_tlv hid c, DerRef_contents_tlv hid hc, by rwa [fromDer_tlv _ hid hc] at h3, fun src hs => ?_⟩
  have hk := ((touch_contents hid c hbl).2 src).2
  rw [if_pos hs] at hk
  have hlt : src.length < 2 ^ 64 := by omega
  obtain ⟨buffer', r, e1, e2, e3, e4⟩ := h4 _ _ hk (by rw [tlv_length, tlv_length, hs]) (parse_der_self.2 ⟨id, src, hid, hlt, rfl⟩)
  refine ⟨buffer', r, e1, e2, e3, fun w => ?_⟩
  rw [e4, fromDer_tlv _ hid hlt]

example := C125_copy _ _ sampleTy sample_deserializable _ _ (by decide +kernel) _ origin_der.1 _ _ _ _ origin_alter

/-- `fe` is overwritten by `05`: -2 becomes 5.  Overwritten by `00 05` it would not fit. -/
example : ∃ buffer', onDer (Touch.copy [0x05]).der [0, 2, 1, 1, 1] [0x65, 0x1d, 0x02, 0x02, 0x00, 0xc8, 0x04, 0x01, 0x07,
        0x30, 0x14, 0x30, 0x05, 0x0c, 0x01, 0x62, 0x30, 0x00,
        0x30, 0x0b, 0x0c, 0x01, 0x61, 0x30, 0x06, 0x02, 0x01, 0x01, 0x02, 0x01, 0xfe, 0x99] = .ok buffer' ∧
    parseDer (Ty.de .debug ⟨fun _ l => l, fun _ l => .refl l⟩ sampleTy) buffer' = (.ok (.inr (.inl (200, true, 1, [("a", [1, 5]), ("b", [])], ()))), [0x99]) :=
  ⟨_, by rfl, by rfl⟩

/-- **C125.** Why a key of a map is not among the parts that can be changed: changed to another key of the map, an entry is lost, the former of the two. -/
theorem C125_key :
    parseDer (Ty.de .debug ⟨fun _ l => l, fun _ l => .refl l⟩ (.btreeMap compare inferInstance inferInstance (.int .u8) .bool))
      [0x30, 0x10, 0x30, 0x06, 0x02, 0x01, 0x01, 0x01, 0x01, 0xff, 0x30, 0x06, 0x02, 0x01, 0x02, 0x01, 0x01, 0x00] = (.ok [(1, true), (2, false)], []) ∧
    ∃ buffer', onDer (Touch.copy [0x02]).der [0, 0, 0]
      [0x30, 0x10, 0x30, 0x06, 0x02, 0x01, 0x01, 0x01, 0x01, 0xff, 0x30, 0x06, 0x02, 0x01, 0x02, 0x01, 0x01, 0x00] = .ok buffer' ∧
    parseDer (Ty.de .debug ⟨fun _ l => l, fun _ l => .refl l⟩ (.btreeMap compare inferInstance inferInstance (.int .u8) .bool)) buffer' = (.ok [(2, false)], []) :=
  ⟨by rfl, _, by rfl, by rfl⟩

/-- **C125.** Why in BER the changed value may not become an end-of-contents: in a value of indefinite length it would end the contents; what stands behind is no longer part of it. -/
theorem C125_end_of_contents :
    parseBer (Ty.de .debug ⟨fun _ l => l, fun _ l => .refl l⟩ (.vec .octetString)) [0x30, 0x80, 0x04, 0x00, 0x04, 0x00, 0x00, 0x00] = (.ok [[], []], []) ∧
    ∃ buffer', onBer (fun _ => .ok [0x00, 0x00]) [0, 0] [0x30, 0x80, 0x04, 0x00, 0x04, 0x00, 0x00, 0x00] = .ok buffer' ∧
    parseBer (Ty.de .debug ⟨fun _ l => l, fun _ l => .refl l⟩ (.vec .octetString)) buffer' = (.ok [], [0x04, 0x00, 0x00, 0x00]) :=
  ⟨by rfl, _, by rfl, by rfl⟩

end Bsn1
