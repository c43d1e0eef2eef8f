import Verif.Lemmas.Origin
import Verif.Props.Decode
/-!
# C124: each part of a decoded value comes from the value at its place in the input
-/

namespace Bsn1
open Spec

variable {α β : Type} {u : Ty β} {y : β}

mutual
theorem Spec.Ty.From.de : {α : Type} → {p : Place} → {t : Ty α} → {v : α} → Ty.From u y p t v → t.deserializable → u.deserializable
  | _, _, _, _, .here, h => h
  | _, _, _, _, .vec _hi hp, h => hp.de h
  | _, _, _, _, .linkedList _hi hp, h => hp.de h
  | _, _, _, _, .vecDeque _hi hp, h => hp.de h
  | _, _, _, _, .btreeSet _hi hp, h => hp.de h
  | _, _, _, _, .hashSet _hi hp, h => hp.de h
  | _, _, _, _, .btreeKey _hn _hi hp, h => hp.de h.1
  | _, _, _, _, .btreeValue _hn _hi hp, h => hp.de h.2
  | _, _, _, _, .hashKey _hn _hi hp, h => hp.de h.1
  | _, _, _, _, .hashValue _hn _hi hp, h => hp.de h.2
  | _, _, _, _, .struct hp, h => hp.de h
  | _, _, _, _, .enum hp, h => hp.de h
  | _, _, _, _, .transparent hp, h => hp.de h.2
  | _, _, _, _, .named hp, h => hp.de h
theorem Spec.Fields.From.de : {γ : Type} → {i : Nat} → {p : Place} → {fs : Fields γ} → {v : γ} → Fields.From u y i p fs v → fs.deserializable → u.deserializable
  | _, _, _, _, _, .plain hp, h => hp.de h.1
  | _, _, _, _, _, .skipSer hp, h => hp.de h.1
  | _, _, _, _, _, .conv hp, h => hp.de h.1
  | _, _, _, _, _, .afterPlain hp, h => hp.de h.2
  | _, _, _, _, _, .afterSkipSer hp, h => hp.de h.2
  | _, _, _, _, _, .afterConv hp, h => hp.de h.2
  | _, _, _, _, _, .afterSkip hp, h => hp.de h
  | _, _, _, _, _, .afterSkipDe hp, h => hp.de h
theorem Spec.Fields.FromOne.de : {γ : Type} → {p : Place} → {fs : Fields γ} → {v : γ} → Fields.FromOne u y p fs v → fs.deserializable → u.deserializable
  | _, _, _, _, .plain hp, h => hp.de h.1
  | _, _, _, _, .skipSer hp, h => hp.de h.1
  | _, _, _, _, .conv hp, h => hp.de h.1
  | _, _, _, _, .afterSkip hp, h => hp.de h
  | _, _, _, _, .afterSkipDe hp, h => hp.de h
theorem Spec.Variants.From.de : {ρ : Type} → {i : Nat} → {p : Place} → {vs : Variants ρ} → {v : ρ} → Variants.From u y i p vs v → vs.deserializable → u.deserializable
  | _, _, _, _, _, .this hp, h => hp.de h.1
  | _, _, _, _, _, .other hp, h => hp.de h.2
end

/-- **C124.** If `parse_der` gives a value, then each part of it is what `from_der` of its type gives for the octets at its place in the input. -/
theorem C124_der (m : Build) (o : HashOrder) (t : Ty α) (hd : t.deserializable) (buffer rest : Bytes) (v : α)
    (h : parseDer (Ty.de m o t) buffer = (.ok v, rest)) (u : Ty β) (y : β) (p : Place) (hp : Ty.From u y p t v) :
    ∃ path b, p.Has path ∧ getDer (0 :: path) buffer = .ok b ∧ fromDer (Ty.de m o u) b = .ok y := by
  rw [parseDer] at h
  cases hx : DerRef.parse buffer with
  | mk r rest' =>
    rw [hx] at h
    cases r with
    | ok b =>
      simp only [Prod.mk.injEq] at h
      obtain ⟨h, rfl⟩ := h
      obtain ⟨hb, rfl⟩ := (C19_der_parse_iff buffer b rest').1 hx
      obtain ⟨id, c, hid, hc, rfl⟩ := hb
      rw [fromDer_tlv _ hid hc] at h
      obtain ⟨path, id', c', h1, h2, h3, h4, h5⟩ := hp.der o id c hid hc ((Ty.fromDer_iff m o t hd _ _ _).1 h)
      refine ⟨path, tlv id' c', h1, h5 0 _ (nth_der_zero _ hid hc), ?_⟩
      rw [fromDer_tlv _ h2 h3]
      exact (Ty.fromDer_iff m o u (hp.de hd) _ _ _).2 h4
    | err e => simp at h
    | panic => simp at h
    | ub => simp at h

/-- **C124.** The same for BER, whatever forms of lengths there are in the input. -/
theorem C124_ber (m : Build) (o : HashOrder) (t : Ty α) (hd : t.deserializable) (buffer rest : Bytes) (hl : buffer.length ≤ isizeMax) (v : α)
    (h : parseBer (Ty.de m o t) buffer = (.ok v, rest)) (u : Ty β) (y : β) (p : Place) (hp : Ty.From u y p t v) :
    ∃ path b, p.Has path ∧ getBer (0 :: path) buffer = .ok b ∧ fromBer (Ty.de m o u) b = .ok y := by
  rw [parseBer] at h
  cases hx : BerRef.parse buffer with
  | mk r rest' =>
    rw [hx] at h
    cases r with
    | ok b =>
      simp only [Prod.mk.injEq] at h
      obtain ⟨h, rfl⟩ := h
      obtain ⟨hb, rfl⟩ := BerRef_parse_sound hl hx
      obtain ⟨id, d, raw, hv⟩ := isBer_berValue hb
      rw [fromBer_value _ hv] at h
      have hlb : b.length ≤ isizeMax := by rw [List.length_append] at hl; omega
      have hlr := berValue_length hv
      obtain ⟨path, b', id', d', raw', h1, h2, h3, h4, h5⟩ := hp.ber _ o b id d raw hv hlb ((Ty.fromBer_iff m o t hd _ _ _ _ (by omega)).1 h)
      have hlr' := berValue_length h2
      refine ⟨path, b', h1, h5 0 _ (nth_ber_zero _ hv hl), ?_⟩
      rw [fromBer_value _ h2]
      exact (Ty.fromBer_iff m o u (hp.de hd) _ _ _ _ (by omega)).2 h4
    | err e => simp at h
    | panic => simp at h
    | ub => simp at h

/-- The value in the next example. -/
def originVal : Unit ⊕ ((Int × Bool × Int × List (String × List Int) × Unit) ⊕ Empty) :=
  .inr (.inl (200, true, 1, [("a", [1, -2]), ("b", [])], ()))

/-- The last number of the entry `"a"`: the map is the third decoded field, the entry may be anywhere. -/
theorem origin_part : Ty.From (.int .i16) (-2) [some 2, none, some 1, some 1] sampleTy originVal := by
  have h1 : Ty.From (.int .i16) (-2) [some 1] (.vec (.int .i16)) [1, -2] := .vec (i := 1) (l := [1, -2]) rfl .here
  have hn : (Ty.vec (.int .i16)).notEoc := fun _ _ _ h => absurd h.1 (by decide)
  have h2 : Ty.From (.int .i16) (-2) [none, some 1, some 1] (.btreeMap compare inferInstance inferInstance .string (.vec (.int .i16)))
      [("a", [1, -2]), ("b", [])] := .btreeValue (x := ("a", [1, -2])) hn (by simp) h1
  exact .enum (.other (.this (.afterPlain (.afterSkip (.afterConv (.plain (v := ([("a", [1, -2]), ("b", [])], ())) h2))))))

/-- The converted field. -/
theorem origin_conv : Ty.From (.conv .octetString (fun v : Int => if v = 0 then [] else [7]) (.from_ fun b => if b = [] then 0 else 1)) 1 [some 1] sampleTy originVal :=
  .enum (.other (.this (.afterPlain (.afterSkip (.conv (v := (1, [("a", [1, -2]), ("b", [])], ())) .here)))))

theorem origin_der : parseDer (Ty.de .debug ⟨fun _ l => l, fun _ l => .refl l⟩ sampleTy)
      [0x65, 0x1d, 0x02, 0x02, 0x00, 0xc8, 0x04, 0x01, 0x07,
        0x30, 0x14, 0x30, 0x05, 0x0c, 0x01, 0x62, 0x30, 0x00,
        0x30, 0x0b, 0x0c, 0x01, 0x61, 0x30, 0x06, 0x02, 0x01, 0x01, 0x02, 0x01, 0xfe, 0x99] = (.ok originVal, [0x99]) ∧
    getDer [0, 2, 1, 1, 1] [0x65, 0x1d, 0x02, 0x02, 0x00, 0xc8, 0x04, 0x01, 0x07,
        0x30, 0x14, 0x30, 0x05, 0x0c, 0x01, 0x62, 0x30, 0x00,
        0x30, 0x0b, 0x0c, 0x01, 0x61, 0x30, 0x06, 0x02, 0x01, 0x01, 0x02, 0x01, 0xfe, 0x99] = .ok [0x02, 0x01, 0xfe] :=
  ⟨by rfl, by decide +kernel⟩

example := C124_der _ _ sampleTy sample_deserializable _ _ _ origin_der.1 _ _ _ origin_part

theorem origin_ber : parseBer (Ty.de .debug ⟨fun _ l => l, fun _ l => .refl l⟩ sampleTy)
      [0x65, 0x80, 0x02, 0x02, 0x00, 0xc8, 0x24, 0x01, 0x07,
        0x30, 0x80, 0x30, 0x0d, 0x0c, 0x01, 0x61, 0x30, 0x80, 0x02, 0x01, 0x01, 0x02, 0x01, 0xfe, 0x00, 0x00,
        0x30, 0x05, 0x0c, 0x01, 0x62, 0x30, 0x00, 0x00, 0x00, 0x00, 0x00, 0x99] = (.ok originVal, [0x99]) := by
  rfl

example := C124_ber _ _ sampleTy sample_deserializable _ _ (by decide +kernel) _ origin_ber _ _ _ origin_part
example := C124_ber _ _ sampleTy sample_deserializable _ _ (by decide +kernel) _ origin_ber _ _ _ origin_conv

/-- **C124.** Why `notEoc` is there: a struct with the identifier of end-of-contents may be declared; as the value of a map entry of indefinite length it is taken from the
end-of-contents of the entry, so that no value inside of the entry is its origin. -/
theorem C124_end_of_contents :
    parseBer (Ty.de .debug ⟨fun _ l => l, fun _ l => .refl l⟩ (.hashMap inferInstance .bool (.struct [0x00] .nil)))
      [0x31, 0x07, 0x30, 0x80, 0x01, 0x01, 0xff, 0x00, 0x00] = (.ok [(true, ())], []) ∧
    getBer [0, 0, 1] [0x31, 0x07, 0x30, 0x80, 0x01, 0x01, 0xff, 0x00, 0x00] = .err .unterminatedBytes ∧
    ¬ (Ty.struct [0x00] .nil).notEoc := by
  refine ⟨by decide +kernel, by decide +kernel, fun h => h false (fun _ l => l) () ?_⟩
  exact ⟨rfl, [], rfl, rfl⟩

/-- **C124.** A place without sets and maps stands for one path, which is therefore where the part has come from. -/
theorem C124_path_iff (p path : List Nat) : Place.Has (p.map some) path ↔ path = p := by
  induction p generalizing path with
  | nil =>
    constructor
    · intro h; cases h; rfl
    · rintro rfl; exact .nil
  | cons i r ih =>
    constructor
    · intro h
      cases h with
      | cons h1 h2 => rw [h1 i rfl, (ih _).1 h2]
    · rintro rfl
      exact .cons (fun j h => Option.some.inj h) ((ih r).2 rfl)

example : Place.Has [some 2, none, some 1, some 1] [2, 0, 1, 1] :=
  .cons (by simp) (.cons (by simp) (.cons (by simp) (.cons (by simp) .nil)))

end Bsn1
