import Verif.Lemmas.Ser
import Verif.Lemmas.IntOctets
/-!
# Serialization of all supported types
-/

namespace Bsn1
open Spec

variable {α β γ ρ : Type}

/-! ### Derived structs, for arbitrary field types -/

/-- The field obeys the contract and is encoded as `bs`. -/
def FieldWrites : SerField β → β → Bytes → Prop
  | .skip, _, bs => bs = []
  | .plain s, v, bs => ∃ id c, Serializes s v id c ∧ bs = tlv id c
  | .conv s f, v, bs => ∃ id c, Serializes s (f v) id c ∧ bs = tlv id c

/-- The fields obey the contract and are encoded as `bs` together. -/
def FieldsWrite : {γ : Type} → SerFields γ → γ → Bytes → Prop
  | _, .nil, _, bs => bs = []
  | _, .cons f r, v, bs => ∃ a b, FieldWrites f v.1 a ∧ FieldsWrite r v.2 b ∧ bs = a ++ b

theorem writeField_writes (m : Build) {f : SerField β} {v : β} {bs : Bytes} (h : FieldWrites f v bs)
    (hfit : bs.length ≤ isizeMax) : Writes (writeField m f v) bs := by
  cases f with
  | skip => cases h; exact writesR_pure ()
  | plain s =>
    obtain ⟨id, c, h, rfl⟩ := h
    exact writeDer_writes m h (fits_contents hfit)
  | conv s g =>
    obtain ⟨id, c, h, rfl⟩ := h
    exact writeDer_writes m h (fits_contents hfit)

theorem writeFields_writes (m : Build) {fs : SerFields γ} {v : γ} {bs : Bytes} (h : FieldsWrite fs v bs)
    (hfit : bs.length ≤ isizeMax) : Writes (writeFields m fs v) bs := by
  induction fs generalizing bs with
  | nil => cases h; exact writesR_pure ()
  | cons f r ih =>
    obtain ⟨a, b, h1, h2, rfl⟩ := h
    rw [List.length_append] at hfit
    exact WritesR.bind (writeField_writes m h1 (by omega)) (ih h2 (by omega))

theorem fieldsLenLoop_ok (m : Build) {fs : SerFields γ} {v : γ} {bs : Bytes} (h : FieldsWrite fs v bs) (acc : Nat)
    (hc : anyConv fs = false) (hfit : acc + bs.length ≤ isizeMax) :
    fieldsLenLoop m fs v acc = .ok none ∨ fieldsLenLoop m fs v acc = .ok (some (acc + bs.length)) := by
  have := isizeMax_lt
  induction fs generalizing bs acc with
  | nil => cases h; right; simp [fieldsLenLoop]
  | cons f r ih =>
    obtain ⟨a, b, h1, h2, rfl⟩ := h
    rw [List.length_append] at hfit
    cases f with
    | skip =>
      cases h1
      simp only [List.length_nil, List.nil_append] at hfit ⊢
      exact ih h2 acc (by simpa [anyConv] using hc) (by omega)
    | conv s g => simp [anyConv] at hc
    | plain s =>
      obtain ⟨id, c, h, rfl⟩ := h1
      have hl := tlv_length id c
      rw [fieldsLenLoop]
      rcases h.contentsLen with e | e
      · left; rw [e]; rfl
      · rw [e, Res.bind_ok]
        simp only []
        rcases h.idLen with e | e
        · left; rw [e]; rfl
        · rw [e, Res.bind_ok]
          simp only []
          rw [len_definite (fits_lt (by omega)), uadd_ok (by omega), Res.bind_ok, uadd_ok (by omega), Res.bind_ok,
            uadd_ok (by omega), Res.bind_ok, ← hl]
          rcases ih h2 (acc + (tlv id c).length) (by simpa [anyConv] using hc) (by omega) with e | e
          · exact .inl e
          · right; rw [e, List.length_append, Nat.add_assoc]

theorem fieldsLen_ok (m : Build) {fs : SerFields γ} {v : γ} {bs : Bytes} (h : FieldsWrite fs v bs)
    (hfit : bs.length ≤ isizeMax) : fieldsLen m fs v = .ok none ∨ fieldsLen m fs v = .ok (some bs.length) := by
  rw [fieldsLen]
  cases hc : anyConv fs with
  | true => left; rfl
  | false =>
    simp only [Bool.false_eq_true, if_false]
    simpa using fieldsLenLoop_ok m h 0 hc (by omega)

theorem struct_serializes (m : Build) (id : Bytes) {fs : SerFields γ} {v : γ} {bs : Bytes} (h : FieldsWrite fs v bs)
    (hfit : bs.length ≤ isizeMax) : Serializes (Ser.struct m id fs) v id bs where
  writeId := writes_writeAll _
  writeContents := writeFields_writes m h hfit
  idLen := .inr rfl
  contentsLen := fieldsLen_ok m h hfit

/-- All fields that are encoded give size hints. -/
def FieldsHint : {γ : Type} → SerFields γ → γ → Bytes → Prop
  | _, .nil, _, bs => bs = []
  | _, .cons .skip r, v, bs => FieldsHint r v.2 bs
  | _, .cons (.plain s) r, v, bs => ∃ id c b, Hints s v.1 id c ∧ FieldsHint r v.2 b ∧ bs = tlv id c ++ b
  | _, .cons (.conv _ _) _, _, _ => False

theorem fieldsLen_hints (m : Build) {fs : SerFields γ} {v : γ} {bs : Bytes} (h : FieldsHint fs v bs)
    (hfit : bs.length ≤ isizeMax) : fieldsLen m fs v = .ok (some bs.length) := by
  have := isizeMax_lt
  have hc : anyConv fs = false := by
    clear hfit
    induction fs generalizing bs with
    | nil => rfl
    | cons f r ih =>
      cases f with
      | skip => exact ih h
      | plain s => obtain ⟨_, _, _, _, h, _⟩ := h; exact ih h
      | conv s g => exact h.elim
  have key : ∀ acc, acc + bs.length ≤ isizeMax → fieldsLenLoop m fs v acc = .ok (some (acc + bs.length)) := by
    clear hfit
    induction fs generalizing bs with
    | nil => cases h; intro acc _; simp [fieldsLenLoop]
    | cons f r ih =>
      intro acc hfit
      cases f with
      | skip => exact ih h (by simpa [anyConv] using hc) acc hfit
      | conv s g => exact h.elim
      | plain s =>
        obtain ⟨id, c, b, h, h2, rfl⟩ := h
        have hl := tlv_length id c
        rw [List.length_append] at hfit
        rw [fieldsLenLoop, h.2, Res.bind_ok]
        simp only []
        rw [h.1, Res.bind_ok]
        simp only []
        rw [len_definite (fits_lt (by omega)), uadd_ok (by omega), Res.bind_ok, uadd_ok (by omega), Res.bind_ok,
            uadd_ok (by omega), Res.bind_ok, ← hl, ih h2 (by simpa [anyConv] using hc) _ (by omega), List.length_append,
            Nat.add_assoc]
  rw [fieldsLen, hc]
  simpa using key 0 (by omega)

theorem comap_serializes {s : Ser β} (f : α → β) {v : α} {id c : Bytes} (h : Serializes s (f v) id c) :
    Serializes (s.comap f) v id c := ⟨h.1, h.2, h.3, h.4⟩

theorem conv_serializes {s : Ser β} (f : α → β) {v : α} {id c : Bytes} (h : Serializes s (f v) id c) :
    Serializes (Ser.conv s f) v id c := ⟨h.1, h.2, .inl rfl, .inl rfl⟩

/-- A transparent struct with one field to encode. -/
theorem transparent_serializes {fs : SerFields γ} {t : TransparentField γ} (ht : activeFields fs = [t]) {v : γ}
    {id c : Bytes} (h : Serializes t.ser v id c) : ∃ s, Ser.transparent fs = some s ∧ Serializes s v id c := by
  rw [Ser.transparent, ht]
  refine ⟨_, rfl, h.1, h.2, ?_, ?_⟩
  · cases t.converted
    · exact h.3
    · exact .inl rfl
  · cases t.converted
    · exact h.4
    · exact .inl rfl

theorem transparent_hints {fs : SerFields γ} {t : TransparentField γ} (ht : activeFields fs = [t])
    (hc : t.converted = false) {v : γ} {id c : Bytes} (h : Hints t.ser v id c) :
    ∃ s, Ser.transparent fs = some s ∧ Hints s v id c := by
  rw [Ser.transparent, ht]
  refine ⟨_, rfl, ?_⟩
  simp only [Hints, hc, Bool.false_eq_true, if_false]
  exact h

/-! ### All supported types -/

mutual
theorem Ty.enc_isId : ∀ {α : Type} (t : Ty α), t.serializable → ∀ v : α, IsId (t.enc v).1
  | _, .bool, _, _ => ⟨0, 0, 1, by decide, by decide, by simp only [Ty.enc]; decide +kernel⟩
  | _, .int _, _, _ => ⟨0, 0, 2, by decide, by decide, by simp only [Ty.enc]; decide +kernel⟩
  | _, .string, _, _ => ⟨0, 0, 12, by decide, by decide, by simp only [Ty.enc]; decide +kernel⟩
  | _, .octetString, _, _ => ⟨0, 0, 4, by decide, by decide, by simp only [Ty.enc]; decide +kernel⟩
  | _, .vec _, _, _ => ⟨0, 1, 16, by decide, by decide, by simp only [Ty.enc]; decide +kernel⟩
  | _, .linkedList _, _, _ => ⟨0, 1, 16, by decide, by decide, by simp only [Ty.enc]; decide +kernel⟩
  | _, .vecDeque _, _, _ => ⟨0, 1, 16, by decide, by decide, by simp only [Ty.enc]; decide +kernel⟩
  | _, .btreeSet _ _ _ _, _, _ => ⟨0, 1, 16, by decide, by decide, by simp only [Ty.enc]; decide +kernel⟩
  | _, .btreeMap _ _ _ _ _, _, _ => ⟨0, 1, 16, by decide, by decide, by simp only [Ty.enc]; decide +kernel⟩
  | _, .hashSet _ _, _, _ => ⟨0, 1, 17, by decide, by decide, by simp only [Ty.enc]; decide +kernel⟩
  | _, .hashMap _ _ _, _, _ => ⟨0, 1, 17, by decide, by decide, by simp only [Ty.enc]; decide +kernel⟩
  | _, .struct _ _, h, _ => h.1
  | _, .enum vs, h, v => Variants.enc_isId vs h v
  | _, .transparent fs, h, v => Fields.encOne_isId fs h.2 h.1 v
  | _, .conv t f _, h, v => Ty.enc_isId t h (f v)
  | _, .named t f _ _ _, h, v => Ty.enc_isId t h (f v)
  | _, .hole, _, _ => ⟨0, 0, 5, by decide, by decide, by simp only [Ty.enc]; decide +kernel⟩
theorem Fields.encOne_isId : ∀ {γ : Type} (fs : Fields γ), fs.serializable → fs.serCount = 1 → ∀ v : γ,
    IsId (fs.encOne v).1
  | _, .nil, _, h, _ => by cases h
  | _, .plain t _, h, _, v => Ty.enc_isId t h.1 v.1
  | _, .skip _ r, h, h', v => Fields.encOne_isId r h h' v.2
  | _, .skipSer _ r, h, h', v => Fields.encOne_isId r h h' v.2
  | _, .skipDe t _ _, h, _, v => Ty.enc_isId t h.1 v.1
  | _, .conv t f _ _, h, _, v => Ty.enc_isId t h.1 (f v.1)
theorem Variants.enc_isId : ∀ {ρ : Type} (vs : Variants ρ), vs.serializable → ∀ v : ρ, IsId (vs.enc v).1
  | _, .cons _ _ _, h, .inl _ => h.1
  | _, .cons _ _ r, h, .inr v => Variants.enc_isId r h.2.2 v
end

theorem fits_of_der {α : Type} {t : Ty α} {v : α} (h : (t.der v).length ≤ isizeMax) :
    (t.enc v).2.length ≤ isizeMax := fits_contents h

theorem map_fits_mem {l : List (α × β)} {f : α × β → Bytes} {g : α × β → Bytes} {x : α × β} (hx : x ∈ l)
    (h : (l.flatMap fun x => pairOctets (f x) (g x)).length ≤ isizeMax) :
    (f x).length ≤ isizeMax ∧ (g x).length ≤ isizeMax :=
  (pair_fits ((length_le_flatMap (f := fun x => pairOctets (f x) (g x)) hx).trans h)).2

theorem eachLen_ok (m : Build) {s : Ser α} {enc : α → Bytes × Bytes} (l : List α)
    (h : ∀ x ∈ l, (tlvOf (enc x)).length ≤ isizeMax → Serializes s x (enc x).1 (enc x).2)
    (hfit : (encAll enc l).length ≤ isizeMax) :
    derContentsLenLoop m s l 0 = .ok none ∨ derContentsLenLoop m s l 0 = .ok (some (encAll enc l).length) := by
  simpa using derContentsLenLoop_ok m l 0 h (by omega)

theorem eachLen_hints (m : Build) {s : Ser α} {enc : α → Bytes × Bytes} (l : List α)
    (h : ∀ x ∈ l, (tlvOf (enc x)).length ≤ isizeMax → Hints s x (enc x).1 (enc x).2)
    (hfit : (encAll enc l).length ≤ isizeMax) :
    derContentsLenLoop m s l 0 = .ok (some (encAll enc l).length) := by
  simpa using derContentsLenLoop_hints m l 0 h (by omega)

theorem pairsLen_ok (m : Build) {sk : Ser α} {sv : Ser β} {ek : α → Bytes × Bytes} {ev : β → Bytes × Bytes}
    (l : List (α × β))
    (hk : ∀ x ∈ l, (tlvOf (ek x.1)).length ≤ isizeMax → Serializes sk x.1 (ek x.1).1 (ek x.1).2)
    (hv : ∀ x ∈ l, (tlvOf (ev x.2)).length ≤ isizeMax → Serializes sv x.2 (ev x.2).1 (ev x.2).2)
    (hfit : (encPairs ek ev l).length ≤ isizeMax) :
    btreeMapLen m sk sv l 0 = .ok none ∨ btreeMapLen m sk sv l 0 = .ok (some (encPairs ek ev l).length) := by
  simpa using btreeMapLen_ok m l 0 hk hv (by omega)

theorem pairsLen_hints (m : Build) {sk : Ser α} {sv : Ser β} {ek : α → Bytes × Bytes} {ev : β → Bytes × Bytes}
    (l : List (α × β))
    (hk : ∀ x ∈ l, (tlvOf (ek x.1)).length ≤ isizeMax → Hints sk x.1 (ek x.1).1 (ek x.1).2)
    (hv : ∀ x ∈ l, (tlvOf (ev x.2)).length ≤ isizeMax → Hints sv x.2 (ev x.2).1 (ev x.2).2)
    (hfit : (encPairs ek ev l).length ≤ isizeMax) :
    btreeMapLen m sk sv l 0 = .ok (some (encPairs ek ev l).length) := by
  simpa using btreeMapLen_hints m l 0 hk hv (by omega)

/-- Keys with size hints: the sizes a `HashMap` and a `BTreeMap` compute agree. -/
theorem hashLen_eq (m : Build) {sk : Ser α} {sv : Ser β} {ek : α → Bytes × Bytes} {ev : β → Bytes × Bytes}
    (l : List (α × β))
    (hk : ∀ x ∈ l, (tlvOf (ek x.1)).length ≤ isizeMax → Hints sk x.1 (ek x.1).1 (ek x.1).2)
    (hfit : (encPairs ek ev l).length ≤ isizeMax) : hashMapLen m sk sv l 0 = btreeMapLen m sk sv l 0 :=
  hashMapLen_eq m l 0 fun x hx => by
    have hf := (map_fits_mem (f := fun x => tlvOf (ek x.1)) (g := fun x => tlvOf (ev x.2)) hx hfit).1
    rw [derLen_hints m (hk x hx hf) hf]
    simp

mutual
/-- Types of known size give both size hints, and these are right. -/
theorem Ty.hints (m : Build) : ∀ {α : Type} (t : Ty α), t.serializable → t.sized = true → ∀ v : α, t.ok v →
    (t.der v).length ≤ isizeMax → Hints (Ty.ser m t) v (t.enc v).1 (t.enc v).2
  | _, .bool, _, _, _, _, _ => ⟨rfl, rfl⟩
  | _, .int t, _, _, v, hok, _ => ⟨rfl, by
      change Res.ok (some (intLen t v)) = _
      rw [intLen_eq t v hok]; rfl⟩
  | _, .string, _, _, v, _, _ => ⟨rfl, by
      change Res.ok (some v.toByteArray.size) = .ok (some v.toByteArray.data.toList.length)
      simp⟩
  | _, .octetString, _, _, _, _, _ => ⟨rfl, rfl⟩
  | _, .vec t, hs, hz, v, hok, hfit => ⟨rfl, eachLen_hints m v
        (fun x hx => Ty.hints m t hs hz x (hok x hx)) (fits_of_der hfit)⟩
  | _, .linkedList t, hs, hz, v, hok, hfit => ⟨rfl, eachLen_hints m v
        (fun x hx => Ty.hints m t hs hz x (hok x hx)) (fits_of_der hfit)⟩
  | _, .vecDeque t, hs, hz, v, hok, hfit => ⟨rfl, eachLen_hints m v
        (fun x hx => Ty.hints m t hs hz x (hok x hx)) (fits_of_der hfit)⟩
  | _, .btreeSet _ _ _ t, hs, hz, v, hok, hfit => ⟨rfl, eachLen_hints m v
        (fun x hx => Ty.hints m t hs hz x (hok.2 x hx)) (fits_of_der hfit)⟩
  | _, .hashSet _ t, hs, hz, v, hok, hfit => ⟨rfl, eachLen_hints m v
        (fun x hx => Ty.hints m t hs hz x (hok.2 x hx)) (fits_of_der hfit)⟩
  | _, .btreeMap _ _ _ k t, hs, hz, v, hok, hfit => ⟨rfl, by
      simp only [Ty.sized, Bool.and_eq_true] at hz
      exact pairsLen_hints m v (fun x hx => Ty.hints m k hs.1 hz.1 x.1 (hok.2 x hx).1) (fun x hx => Ty.hints m t hs.2 hz.2 x.2 (hok.2 x hx).2)
        (fits_of_der hfit)⟩
  | _, .hashMap _ k t, hs, hz, v, hok, hfit => ⟨rfl, by
      simp only [Ty.sized, Bool.and_eq_true] at hz
      have hk : ∀ x ∈ v, (tlvOf (k.enc x.1)).length ≤ isizeMax → Hints (Ty.ser m k) x.1 (k.enc x.1).1 (k.enc x.1).2 :=
        fun x hx => Ty.hints m k hs.1 hz.1 x.1 (hok.2 x hx).1
      exact (hashLen_eq m v hk (fits_of_der hfit)).trans
        (pairsLen_hints m v hk (fun x hx => Ty.hints m t hs.2.1 hz.2 x.2 (hok.2 x hx).2) (fits_of_der hfit))⟩
  | _, .struct _ fs, hs, hz, v, hok, hfit => ⟨rfl,
      fieldsLen_hints m (Fields.hints m fs hs.2 hz v hok (fits_of_der hfit)) (fits_of_der hfit)⟩
  | _, .enum vs, hs, hz, v, hok, hfit => Variants.hints m vs hs hz v hok hfit
  | _, .transparent fs, hs, hz, v, hok, hfit => by
      obtain ⟨t, h1, h2, h3⟩ := Fields.hintsOne m fs hs.2 hs.1 hz v hok hfit
      obtain ⟨s, e, h⟩ := transparent_hints h1 h2 h3
      change Hints ((Ser.transparent (Fields.ser m fs)).getD (Ser.struct m [] (Fields.ser m fs))) _ _ _
      rw [e]
      exact h
  | _, .conv _ _ _, _, hz, _, _, _ => by cases hz
  | _, .named t f _ _ _, hs, hz, v, hok, hfit => Ty.hints m t hs hz (f v) hok hfit
  | _, .hole, _, _, _, hok, _ => hok.elim
theorem Fields.hints (m : Build) : ∀ {γ : Type} (fs : Fields γ), fs.serializable → fs.sized = true → ∀ v : γ, fs.ok v →
    (fs.enc v).length ≤ isizeMax → FieldsHint (Fields.ser m fs) v (fs.enc v)
  | _, .nil, _, _, _, _, _ => rfl
  | _, .plain t r, hs, hz, v, hok, hfit => by
      simp only [Fields.sized, Bool.and_eq_true] at hz
      simp only [Fields.enc, List.length_append] at hfit
      exact ⟨_, _, _, Ty.hints m t hs.1 hz.1 v.1 hok.1 (by rw [Ty.der]; omega),
        Fields.hints m r hs.2 hz.2 v.2 hok.2 (by omega), rfl⟩
  | _, .skip _ r, hs, hz, v, hok, hfit => Fields.hints m r hs hz v.2 hok hfit
  | _, .skipSer _ r, hs, hz, v, hok, hfit => Fields.hints m r hs hz v.2 hok hfit
  | _, .skipDe t _ r, hs, hz, v, hok, hfit => by
      simp only [Fields.sized, Bool.and_eq_true] at hz
      simp only [Fields.enc, List.length_append] at hfit
      exact ⟨_, _, _, Ty.hints m t hs.1 hz.1 v.1 hok.1 (by rw [Ty.der]; omega),
        Fields.hints m r hs.2 hz.2 v.2 hok.2 (by omega), rfl⟩
  | _, .conv _ _ _ _, _, hz, _, _, _ => by cases hz
theorem Fields.hintsOne (m : Build) : ∀ {γ : Type} (fs : Fields γ), fs.serializable → fs.serCount = 1 →
    fs.sized = true → ∀ v : γ, fs.ok v → (tlvOf (fs.encOne v)).length ≤ isizeMax →
    ∃ t, activeFields (Fields.ser m fs) = [t] ∧ t.converted = false ∧ Hints t.ser v (fs.encOne v).1 (fs.encOne v).2
  | _, .nil, _, h, _, _, _, _ => by cases h
  | _, .plain t r, hs, hn, hz, v, hok, hfit => by
      simp only [Fields.sized, Bool.and_eq_true] at hz
      simp only [Fields.serCount, Nat.add_eq_right] at hn
      refine ⟨⟨(Ty.ser m t).comap Prod.fst, false⟩, ?_, rfl, Ty.hints m t hs.1 hz.1 v.1 hok.1 hfit⟩
      simp [Fields.ser, activeFields, Fields.active_nil m r hn]
  | _, .skip _ r, hs, hn, hz, v, hok, hfit => by
      obtain ⟨t, h1, h2, h3⟩ := Fields.hintsOne m r hs hn hz v.2 hok hfit
      exact ⟨⟨t.ser.comap Prod.snd, t.converted⟩, by simp [Fields.ser, activeFields, h1], h2, h3⟩
  | _, .skipSer _ r, hs, hn, hz, v, hok, hfit => by
      obtain ⟨t, h1, h2, h3⟩ := Fields.hintsOne m r hs hn hz v.2 hok hfit
      exact ⟨⟨t.ser.comap Prod.snd, t.converted⟩, by simp [Fields.ser, activeFields, h1], h2, h3⟩
  | _, .skipDe t _ r, hs, hn, hz, v, hok, hfit => by
      simp only [Fields.sized, Bool.and_eq_true] at hz
      simp only [Fields.serCount, Nat.add_eq_right] at hn
      refine ⟨⟨(Ty.ser m t).comap Prod.fst, false⟩, ?_, rfl, Ty.hints m t hs.1 hz.1 v.1 hok.1 hfit⟩
      simp [Fields.ser, activeFields, Fields.active_nil m r hn]
  | _, .conv _ _ _ _, _, _, hz, _, _, _ => by cases hz
theorem Variants.hints (m : Build) : ∀ {ρ : Type} (vs : Variants ρ), vs.serializable → vs.sized = true → ∀ v : ρ,
    vs.ok v → (tlvOf (vs.enc v)).length ≤ isizeMax →
    Hints (Ser.enum m (Variants.ser m vs)) v (vs.enc v).1 (vs.enc v).2
  | _, .cons _ fs _, hs, hz, .inl v, hok, hfit => by
      simp only [Variants.sized, Bool.and_eq_true] at hz
      exact ⟨rfl, fieldsLen_hints m (Fields.hints m fs hs.2.1 hz.1 v hok (fits_contents hfit)) (fits_contents hfit)⟩
  | _, .cons _ _ r, hs, hz, .inr v, hok, hfit => by
      simp only [Variants.sized, Bool.and_eq_true] at hz
      exact Variants.hints m r hs.2.2 hz.2 v hok hfit
theorem Fields.active_nil (m : Build) : ∀ {γ : Type} (fs : Fields γ), fs.serCount = 0 →
    activeFields (Fields.ser m fs) = []
  | _, .nil, _ => rfl
  | _, .plain _ _, h => by simp [Fields.serCount] at h
  | _, .skip _ r, h => by simp [Fields.ser, activeFields, Fields.active_nil m r h]
  | _, .skipSer _ r, h => by simp [Fields.ser, activeFields, Fields.active_nil m r h]
  | _, .skipDe _ _ _, h => by simp [Fields.serCount] at h
  | _, .conv _ _ _ _, h => by simp [Fields.serCount] at h
end

mutual
/-- The implementation chosen for a type obeys the contract. -/
theorem Ty.serializes (m : Build) : ∀ {α : Type} (t : Ty α), t.serializable → ∀ v : α, t.ok v →
    (t.der v).length ≤ isizeMax → Serializes (Ty.ser m t) v (t.enc v).1 (t.enc v).2
  | _, .bool, _, v, _, _ => ⟨writes_writeAll _, by cases v <;> exact writes_writeAll _, .inr rfl, .inr rfl⟩
  | _, .int t, hs, v, hok, hfit => ⟨writes_writeAll _, by
      change Writes (Ser.int t |>.writeDerContents v) (intOctets v)
      exact WritesR.bind (writesR_lift (ofInt_intOctets t v hok)) (writes_writeAll _),
      .inr rfl, .inr (Ty.hints m (.int t) hs rfl v hok hfit).2⟩
  | _, .string, hs, v, hok, hfit => ⟨writes_writeAll _, writes_writeAll _, .inr rfl,
      .inr (Ty.hints m .string hs rfl v hok hfit).2⟩
  | _, .octetString, _, _, _, _ => ⟨writes_writeAll _, writes_writeAll _, .inr rfl, .inr rfl⟩
  | _, .vec t, hs, v, hok, hfit =>
    have h : ∀ x ∈ v, (tlvOf (t.enc x)).length ≤ isizeMax → Serializes (Ty.ser m t) x (t.enc x).1 (t.enc x).2 :=
      fun x hx => Ty.serializes m t hs x (hok x hx)
    ⟨writes_writeAll _, writeEach_writes m v h (fits_of_der hfit), .inr rfl, eachLen_ok m v h (fits_of_der hfit)⟩
  | _, .linkedList t, hs, v, hok, hfit =>
    have h : ∀ x ∈ v, (tlvOf (t.enc x)).length ≤ isizeMax → Serializes (Ty.ser m t) x (t.enc x).1 (t.enc x).2 :=
      fun x hx => Ty.serializes m t hs x (hok x hx)
    ⟨writes_writeAll _, writeEach_writes m v h (fits_of_der hfit), .inr rfl, eachLen_ok m v h (fits_of_der hfit)⟩
  | _, .vecDeque t, hs, v, hok, hfit =>
    have h : ∀ x ∈ v, (tlvOf (t.enc x)).length ≤ isizeMax → Serializes (Ty.ser m t) x (t.enc x).1 (t.enc x).2 :=
      fun x hx => Ty.serializes m t hs x (hok x hx)
    ⟨writes_writeAll _, writeEach_writes m v h (fits_of_der hfit), .inr rfl, eachLen_ok m v h (fits_of_der hfit)⟩
  | _, .btreeSet _ _ _ t, hs, v, hok, hfit =>
    have h : ∀ x ∈ v, (tlvOf (t.enc x)).length ≤ isizeMax → Serializes (Ty.ser m t) x (t.enc x).1 (t.enc x).2 :=
      fun x hx => Ty.serializes m t hs x (hok.2 x hx)
    ⟨writes_writeAll _, writeEach_writes m v h (fits_of_der hfit), .inr rfl, eachLen_ok m v h (fits_of_der hfit)⟩
  | _, .hashSet _ t, hs, v, hok, hfit =>
    have h : ∀ x ∈ v, (tlvOf (t.enc x)).length ≤ isizeMax → Serializes (Ty.ser m t) x (t.enc x).1 (t.enc x).2 :=
      fun x hx => Ty.serializes m t hs x (hok.2 x hx)
    ⟨writes_writeAll _, writeEach_writes m v h (fits_of_der hfit), .inr rfl, eachLen_ok m v h (fits_of_der hfit)⟩
  | _, .btreeMap _ _ _ k t, hs, v, hok, hfit =>
    have hk : ∀ x ∈ v, (tlvOf (k.enc x.1)).length ≤ isizeMax →
        Serializes (Ty.ser m k) x.1 (k.enc x.1).1 (k.enc x.1).2 :=
      fun x hx => Ty.serializes m k hs.1 x.1 (hok.2 x hx).1
    have ht : ∀ x ∈ v, (tlvOf (t.enc x.2)).length ≤ isizeMax →
        Serializes (Ty.ser m t) x.2 (t.enc x.2).1 (t.enc x.2).2 :=
      fun x hx => Ty.serializes m t hs.2 x.2 (hok.2 x hx).2
    ⟨writes_writeAll _, writePairs_writes m v hk ht (fits_of_der hfit), .inr rfl,
      pairsLen_ok m v hk ht (fits_of_der hfit)⟩
  | _, .hashMap _ k t, hs, v, hok, hfit =>
    have hk : ∀ x ∈ v, (tlvOf (k.enc x.1)).length ≤ isizeMax →
        Serializes (Ty.ser m k) x.1 (k.enc x.1).1 (k.enc x.1).2 :=
      fun x hx => Ty.serializes m k hs.1 x.1 (hok.2 x hx).1
    have ht : ∀ x ∈ v, (tlvOf (t.enc x.2)).length ≤ isizeMax →
        Serializes (Ty.ser m t) x.2 (t.enc x.2).1 (t.enc x.2).2 :=
      fun x hx => Ty.serializes m t hs.2.1 x.2 (hok.2 x hx).2
    ⟨writes_writeAll _, writePairs_writes m v hk ht (fits_of_der hfit), .inr rfl, by
      have e := hashLen_eq m (sv := Ty.ser m t) (ev := t.enc) v
        (fun x hx => Ty.hints m k hs.1 hs.2.2 x.1 (hok.2 x hx).1) (fits_of_der hfit)
      change hashMapLen m (Ty.ser m k) (Ty.ser m t) v 0 = _ ∨ hashMapLen m (Ty.ser m k) (Ty.ser m t) v 0 = _
      rw [e]
      exact pairsLen_ok m v hk ht (fits_of_der hfit)⟩
  | _, .struct id fs, hs, v, hok, hfit =>
    struct_serializes m id (Fields.writes m fs hs.2 v hok (fits_of_der hfit)) (fits_of_der hfit)
  | _, .enum vs, hs, v, hok, hfit => Variants.serializes m vs hs v hok hfit
  | _, .transparent fs, hs, v, hok, hfit => by
      obtain ⟨t, h1, h2⟩ := Fields.serializesOne m fs hs.2 hs.1 v hok hfit
      obtain ⟨s, e, h⟩ := transparent_serializes h1 h2
      change Serializes ((Ser.transparent (Fields.ser m fs)).getD (Ser.struct m [] (Fields.ser m fs))) _ _ _
      rw [e]
      exact h
  | _, .conv t f _, hs, v, hok, hfit => conv_serializes f (Ty.serializes m t hs (f v) hok hfit)
  | _, .named t f _ _ _, hs, v, hok, hfit => by
      have ih := Ty.serializes m t hs (f v) hok hfit
      exact ⟨ih.writeId, ih.writeContents, ih.idLen, ih.contentsLen⟩
  | _, .hole, _, _, hok, _ => hok.elim
theorem Fields.writes (m : Build) : ∀ {γ : Type} (fs : Fields γ), fs.serializable → ∀ v : γ, fs.ok v →
    (fs.enc v).length ≤ isizeMax → FieldsWrite (Fields.ser m fs) v (fs.enc v)
  | _, .nil, _, _, _, _ => rfl
  | _, .plain t r, hs, v, hok, hfit => by
      simp only [Fields.enc, List.length_append] at hfit
      exact ⟨_, _, ⟨_, _, Ty.serializes m t hs.1 v.1 hok.1 (by rw [Ty.der]; omega), rfl⟩,
        Fields.writes m r hs.2 v.2 hok.2 (by omega), rfl⟩
  | _, .skip _ r, hs, v, hok, hfit => ⟨_, _, rfl, Fields.writes m r hs v.2 hok hfit, rfl⟩
  | _, .skipSer _ r, hs, v, hok, hfit => ⟨_, _, rfl, Fields.writes m r hs v.2 hok hfit, rfl⟩
  | _, .skipDe t _ r, hs, v, hok, hfit => by
      simp only [Fields.enc, List.length_append] at hfit
      exact ⟨_, _, ⟨_, _, Ty.serializes m t hs.1 v.1 hok.1 (by rw [Ty.der]; omega), rfl⟩,
        Fields.writes m r hs.2 v.2 hok.2 (by omega), rfl⟩
  | _, .conv t f _ r, hs, v, hok, hfit => by
      simp only [Fields.enc, List.length_append] at hfit
      exact ⟨_, _, ⟨_, _, Ty.serializes m t hs.1 (f v.1) hok.1 (by rw [Ty.der]; omega), rfl⟩,
        Fields.writes m r hs.2 v.2 hok.2 (by omega), rfl⟩
theorem Fields.serializesOne (m : Build) : ∀ {γ : Type} (fs : Fields γ), fs.serializable → fs.serCount = 1 →
    ∀ v : γ, fs.ok v → (tlvOf (fs.encOne v)).length ≤ isizeMax →
    ∃ t, activeFields (Fields.ser m fs) = [t] ∧ Serializes t.ser v (fs.encOne v).1 (fs.encOne v).2
  | _, .nil, _, h, _, _, _ => by cases h
  | _, .plain t r, hs, hn, v, hok, hfit => by
      simp only [Fields.serCount, Nat.add_eq_right] at hn
      exact ⟨⟨(Ty.ser m t).comap Prod.fst, false⟩, by simp [Fields.ser, activeFields, Fields.active_nil m r hn],
        comap_serializes _ (Ty.serializes m t hs.1 v.1 hok.1 hfit)⟩
  | _, .skip _ r, hs, hn, v, hok, hfit => by
      obtain ⟨t, h1, h2⟩ := Fields.serializesOne m r hs hn v.2 hok hfit
      exact ⟨⟨t.ser.comap Prod.snd, t.converted⟩, by simp [Fields.ser, activeFields, h1], comap_serializes _ h2⟩
  | _, .skipSer _ r, hs, hn, v, hok, hfit => by
      obtain ⟨t, h1, h2⟩ := Fields.serializesOne m r hs hn v.2 hok hfit
      exact ⟨⟨t.ser.comap Prod.snd, t.converted⟩, by simp [Fields.ser, activeFields, h1], comap_serializes _ h2⟩
  | _, .skipDe t _ r, hs, hn, v, hok, hfit => by
      simp only [Fields.serCount, Nat.add_eq_right] at hn
      exact ⟨⟨(Ty.ser m t).comap Prod.fst, false⟩, by simp [Fields.ser, activeFields, Fields.active_nil m r hn],
        comap_serializes _ (Ty.serializes m t hs.1 v.1 hok.1 hfit)⟩
  | _, .conv t f _ r, hs, hn, v, hok, hfit => by
      simp only [Fields.serCount, Nat.add_eq_right] at hn
      exact ⟨⟨(Ty.ser m t).comap (fun v => f v.1), true⟩,
        by simp [Fields.ser, activeFields, Fields.active_nil m r hn],
        comap_serializes _ (Ty.serializes m t hs.1 (f v.1) hok.1 hfit)⟩
theorem Variants.serializes (m : Build) : ∀ {ρ : Type} (vs : Variants ρ), vs.serializable → ∀ v : ρ, vs.ok v →
    (tlvOf (vs.enc v)).length ≤ isizeMax →
    Serializes (Ser.enum m (Variants.ser m vs)) v (vs.enc v).1 (vs.enc v).2
  | _, .cons id fs _, hs, .inl v, hok, hfit =>
      have h := struct_serializes m id (Fields.writes m fs hs.2.1 v hok (fits_contents hfit)) (fits_contents hfit)
      ⟨h.1, h.2, h.3, h.4⟩
  | _, .cons _ _ r, hs, .inr v, hok, hfit =>
      have h := Variants.serializes m r hs.2.2 v hok hfit
      ⟨h.1, h.2, h.3, h.4⟩
end

end Bsn1
