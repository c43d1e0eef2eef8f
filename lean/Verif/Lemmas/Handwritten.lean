import Verif.Lemmas.RoundTrip
import Verif.Lemmas.Derive
import Verif.Spec.Handwritten
/-!
# Lemmas on implementations that keep their promise
-/

namespace Bsn1
open Spec

variable {α β γ δ ρ : Type}

theorem Honest.serializes {s : Ser α} {d : De α} {C : Codec α} {v : α} (h : Honest s d C v) :
    Serializes s v (C.enc v).1 (C.enc v).2 := ⟨h.writeId, h.writeContents, h.idLen, h.contentsLen⟩

/-- The value is decoded from DER and from BER of definite length. -/
def Both (d : De α) (id c : Bytes) (x : α) : Prop :=
  d.fromDer id c = .ok x ∧ d.fromBer id (.definite c.length) c = .ok x

theorem honest_of {s : Ser α} {d : De α} {C : Codec α} {v : α} (hid : IsId (C.enc v).1)
    (hs : Serializes s v (C.enc v).1 (C.enc v).2) (hb : ∃ w, C.back v w ∧ Both d (C.enc v).1 (C.enc v).2 w) :
    Honest s d C v := ⟨hid, hs.1, hs.2, hs.3, hs.4, hb⟩

theorem DerElems.mono {R S : Bytes → Bytes → α → Prop} {c : Bytes} {l : List α} (h : DerElems R c l)
    (hR : ∀ id b x, R id b x → S id b x) : DerElems S c l := by
  induction h with
  | nil => exact .nil
  | cons id b c x xs hid hb hr _ ih => exact .cons id b c x xs hid hb (hR _ _ _ hr) ih

theorem DerPair.mono {K K' : Bytes → Bytes → α → Prop} {V V' : Bytes → Bytes → β → Prop} {id c : Bytes} {x : α × β}
    (h : DerPair K V id c x) (hK : ∀ id b x, K id b x → K' id b x) (hV : ∀ id b x, V id b x → V' id b x) :
    DerPair K' V' id c x := by
  cases h with
  | mk ik ck iv cv k v h1 h2 h3 h4 h5 h6 => exact .mk ik ck iv cv k v h1 h2 (hK _ _ _ h3) h4 h5 (hV _ _ _ h6)

/-- The elements in both forms. -/
theorem elems_both {d : De α} {c : Bytes} {l : List α} (h : DerElems (Both d) c l) :
    DerElems (fun id b x => d.fromDer id b = .ok x) c l ∧
      BerElems (fun id indef raw x => d.fromBer id (lenOf indef raw) raw = .ok x) c l :=
  ⟨DerElems.mono h fun _ _ _ h => h.1, DerElems.toBer h fun _ _ _ h => h.2⟩

/-- The pairs in both forms. -/
theorem pairs_both {dk : De α} {dv : De β} {c : Bytes} {l : List (α × β)} (h : DerElems (DerPair (Both dk) (Both dv)) c l) :
    DerElems (DerPair (fun id b x => dk.fromDer id b = .ok x) (fun id b x => dv.fromDer id b = .ok x)) c l ∧
      BerElems (BerPair (fun id indef raw x => dk.fromBer id (lenOf indef raw) raw = .ok x)
        (fun id indef raw x => dv.fromBer id (lenOf indef raw) raw = .ok x)) c l :=
  ⟨DerElems.mono h fun _ _ _ h => DerPair.mono h (fun _ _ _ h => h.1) (fun _ _ _ h => h.1),
    DerElems.toBer h fun _ _ _ h => DerPair.toBer h (fun _ _ _ h => h.2) (fun _ _ _ h => h.2)⟩

/-- The elements of a list that is encoded are restored. -/
theorem honors_elems {s : Ser α} {d : De α} {C : Codec α} (h : Honors s d C) {l : List α} (hok : ∀ x ∈ l, C.ok x)
    (hfit : (l.flatMap fun x => tlvOf (C.enc x)).length ≤ isizeMax) :
    ∃ w, DerElems (Both d) (l.flatMap fun x => tlvOf (C.enc x)) w ∧ List.Forall₂ C.back l w :=
  elems_enc (enc := C.enc) (R := Both d) l
    (fun x hx hf => ⟨(h x (hok x hx) hf).isId, by
      obtain ⟨w, h1, h2⟩ := (h x (hok x hx) hf).back
      exact ⟨w, h2, h1⟩⟩) hfit

/-- The pairs of a map that is encoded are restored. -/
theorem honors_pairs {sk : Ser α} {dk : De α} {K : Codec α} (hk : Honors sk dk K) {sv : Ser β} {dv : De β} {V : Codec β}
    (hv : Honors sv dv V) {l : List (α × β)} (hok : ∀ x ∈ l, K.ok x.1 ∧ V.ok x.2)
    (hfit : (l.flatMap fun x => pairOctets (tlvOf (K.enc x.1)) (tlvOf (V.enc x.2))).length ≤ isizeMax) :
    ∃ w, DerElems (DerPair (Both dk) (Both dv)) (l.flatMap fun x => pairOctets (tlvOf (K.enc x.1)) (tlvOf (V.enc x.2))) w ∧
      List.Forall₂ (fun x y => K.back x.1 y.1 ∧ V.back x.2 y.2) l w :=
  pairs_enc (ek := K.enc) (ev := V.enc) l
    (fun x hx hf => ⟨(hk _ (hok x hx).1 hf).isId, by
      obtain ⟨w, h1, h2⟩ := (hk _ (hok x hx).1 hf).back
      exact ⟨w, h2, h1⟩⟩)
    (fun x hx hf => ⟨(hv _ (hok x hx).2 hf).isId, by
      obtain ⟨w, h1, h2⟩ := (hv _ (hok x hx).2 hf).back
      exact ⟨w, h2, h1⟩⟩) hfit

theorem forall₂_exactKeys {K : Codec α} (hK : K.Exact) {V : Codec β} {l w : List (α × β)} (hok : ∀ x ∈ l, K.ok x.1)
    (h : List.Forall₂ (fun x y => K.back x.1 y.1 ∧ V.back x.2 y.2) l w) :
    List.Forall₂ (fun x y => y.1 = x.1 ∧ V.back x.2 y.2) l w := by
  induction h with
  | nil => exact .nil
  | cons h _ ih => exact .cons ⟨hK _ _ (hok _ (by simp)) h.1, h.2⟩ (ih fun x hx => hok x (by simp [hx]))

theorem forall₂_sameKeys {V : β → β → Prop} {l w : List (α × β)} (h : List.Forall₂ (fun x y => y.1 = x.1 ∧ V x.2 y.2) l w) :
    w.map Prod.fst = l.map Prod.fst := by
  induction h with
  | nil => rfl
  | cons h _ ih => rw [List.map_cons, List.map_cons, h.1, ih]

/-- Serialization of the elements. -/
theorem honors_each (m : Build) {s : Ser α} {d : De α} {C : Codec α} (h : Honors s d C) {l : List α} (hok : ∀ x ∈ l, C.ok x)
    (hfit : (l.flatMap fun x => tlvOf (C.enc x)).length ≤ isizeMax) :
    Writes (writeEach m s l) (l.flatMap fun x => tlvOf (C.enc x)) ∧
      (derContentsLenLoop m s l 0 = .ok none ∨
        derContentsLenLoop m s l 0 = .ok (some (l.flatMap fun x => tlvOf (C.enc x)).length)) :=
  have hs : ∀ x ∈ l, (tlvOf (C.enc x)).length ≤ isizeMax → Serializes s x (C.enc x).1 (C.enc x).2 :=
    fun x hx hf => Honest.serializes (h x (hok x hx) hf)
  ⟨writeEach_writes m l hs hfit, eachLen_ok m l hs hfit⟩

/-- Serialization of the pairs. -/
theorem honors_each_pair (m : Build) {sk : Ser α} {dk : De α} {K : Codec α} (hk : Honors sk dk K) {sv : Ser β} {dv : De β}
    {V : Codec β} (hv : Honors sv dv V) {l : List (α × β)} (hok : ∀ x ∈ l, K.ok x.1 ∧ V.ok x.2)
    (hfit : (l.flatMap fun x => pairOctets (tlvOf (K.enc x.1)) (tlvOf (V.enc x.2))).length ≤ isizeMax) :
    Writes (writePairs m sk sv l) (l.flatMap fun x => pairOctets (tlvOf (K.enc x.1)) (tlvOf (V.enc x.2))) ∧
      (btreeMapLen m sk sv l 0 = .ok none ∨ btreeMapLen m sk sv l 0 =
        .ok (some (l.flatMap fun x => pairOctets (tlvOf (K.enc x.1)) (tlvOf (V.enc x.2))).length)) :=
  have h1 : ∀ x ∈ l, (tlvOf (K.enc x.1)).length ≤ isizeMax → Serializes sk x.1 (K.enc x.1).1 (K.enc x.1).2 :=
    fun x hx hf => Honest.serializes (hk _ (hok x hx).1 hf)
  have h2 : ∀ x ∈ l, (tlvOf (V.enc x.2)).length ≤ isizeMax → Serializes sv x.2 (V.enc x.2).1 (V.enc x.2).2 :=
    fun x hx hf => Honest.serializes (hv _ (hok x hx).2 hf)
  ⟨writePairs_writes m l h1 h2 hfit, pairsLen_ok m l h1 h2 hfit⟩

theorem fits_enc {C : Codec α} {v : α} (h : (tlvOf (C.enc v)).length ≤ isizeMax) : (C.enc v).2.length ≤ isizeMax :=
  fits_contents h

/-- The contents of a value of definite length. -/
theorem excludeEoc_definite (m : Build) (c : Bytes) : excludeEoc m (.definite c.length) c = .ok c :=
  (excludeEoc_iff m false c c).mpr rfl

/-! ### Fields -/

theorem HandField.writes {f : HandField β} (h : f.Honors) {v : β} (hok : f.ok v) (hfit : (f.enc v).length ≤ isizeMax) :
    FieldWrites f.ser v (f.enc v) := by
  cases f with
  | plain s d C => exact ⟨_, _, Honest.serializes (h v hok hfit), rfl⟩
  | skip dflt => exact rfl
  | conv s d C f g => exact ⟨_, _, Honest.serializes (h (f v) hok.1 hfit), rfl⟩

theorem HandFields.writes : {γ : Type} → (fs : HandFields γ) → fs.Honors → (v : γ) → fs.ok v →
    (fs.enc v).length ≤ isizeMax → FieldsWrite fs.ser v (fs.enc v)
  | _, .nil, _, _, _, _ => rfl
  | _, .cons f r, h, v, hok, hfit => by
    simp only [Spec.HandFields.enc, List.length_append] at hfit
    exact ⟨_, _, HandField.writes h.1 hok.1 (by omega), HandFields.writes r h.2 v.2 hok.2 (by omega), rfl⟩

/-- The fields are decoded in both forms. -/
theorem HandFields.decodes : {γ : Type} → (fs : HandFields γ) → fs.Honors → (v : γ) → fs.ok v →
    (fs.enc v).length ≤ isizeMax →
    ∃ w, fs.back v w ∧ fs.de.Decodes DerTakes (fs.enc v) w ∧ fs.de.Decodes BerTakes (fs.enc v) w
  | _, .nil, _, _, _, _ => ⟨(), trivial, rfl, rfl⟩
  | _, .cons (.skip dflt) r, h, v, hok, hfit => by
    obtain ⟨w, h1, h2, h3⟩ := HandFields.decodes r h.2 v.2 hok.2 hfit
    exact ⟨(dflt, w), ⟨rfl, h1⟩, ⟨rfl, h2⟩, ⟨rfl, h3⟩⟩
  | _, .cons (.plain s d C) r, h, v, hok, hfit => by
    simp only [Spec.HandFields.enc, List.length_append, Spec.HandField.enc] at hfit
    obtain ⟨w, h1, h2, h3⟩ := HandFields.decodes r h.2 v.2 hok.2 (by omega)
    have hv := h.1 v.1 hok.1 (Nat.le_trans (Nat.le_add_right _ _) hfit)
    obtain ⟨x, h4, h5, h6⟩ := hv.back
    have hb : (C.enc v.1).2.length < 2 ^ 64 := fits_lt (fits_enc (by omega))
    exact ⟨(x, w), ⟨h4, h1⟩, ⟨_, _, rfl, ⟨_, _, hv.isId, hb, rfl, h5⟩, h2⟩,
      ⟨_, _, rfl, ⟨_, false, _, ⟨hv.isId, hb, rfl⟩, h6⟩, h3⟩⟩
  | _, .cons (.conv s d C f (.from_ g)) r, h, v, hok, hfit => by
    simp only [Spec.HandFields.enc, List.length_append, Spec.HandField.enc] at hfit
    obtain ⟨w, h1, h2, h3⟩ := HandFields.decodes r h.2 v.2 hok.2 (by omega)
    have hv := h.1 (f v.1) hok.1.1 (Nat.le_trans (Nat.le_add_right _ _) hfit)
    obtain ⟨x, h4, h5, h6⟩ := hv.back
    have hb : (C.enc (f v.1)).2.length < 2 ^ 64 := fits_lt (fits_enc (by omega))
    exact ⟨(g x, w), ⟨⟨x, h4, rfl⟩, h1⟩, ⟨_, _, x, rfl, ⟨_, _, hv.isId, hb, rfl, h5⟩, rfl, h2⟩,
      ⟨_, _, x, rfl, ⟨_, false, _, ⟨hv.isId, hb, rfl⟩, h6⟩, rfl, h3⟩⟩
  | _, .cons (.conv s d C f (.tryFrom g)) r, h, v, hok, hfit => by
    simp only [Spec.HandFields.enc, List.length_append, Spec.HandField.enc] at hfit
    obtain ⟨w, h1, h2, h3⟩ := HandFields.decodes r h.2 v.2 hok.2 (by omega)
    have hv := h.1 (f v.1) hok.1.1 (Nat.le_trans (Nat.le_add_right _ _) hfit)
    obtain ⟨x, h4, h5, h6⟩ := hv.back
    obtain ⟨y, h7⟩ := hok.1.2 x h4
    have hb : (C.enc (f v.1)).2.length < 2 ^ 64 := fits_lt (fits_enc (by omega))
    exact ⟨(y, w), ⟨⟨x, h4, h7⟩, h1⟩, ⟨_, _, x, rfl, ⟨_, _, hv.isId, hb, rfl, h5⟩, h7, h2⟩,
      ⟨_, _, x, rfl, ⟨_, false, _, ⟨hv.isId, hb, rfl⟩, h6⟩, h7, h3⟩⟩

theorem HandFields.reads (m : Build) (fs : HandFields γ) (h : fs.Honors) (v : γ) (hok : fs.ok v)
    (hfit : (fs.enc v).length ≤ isizeMax) :
    ∃ w, fs.back v w ∧ fromDerContents fs.de (fs.enc v) = .ok w ∧
      fromBerContents m fs.de (.definite (fs.enc v).length) (fs.enc v) = .ok w := by
  obtain ⟨w, h1, h2, h3⟩ := HandFields.decodes fs h v hok hfit
  refine ⟨w, h1, (fromDerContents_iff _ _ _).mpr ?_, (fromBerContents_iff m _ false _ _).mpr ⟨_, rfl, ?_⟩⟩
  · exact (deFields_iff (derStepper _) _ _ _ _ (Nat.le_refl _)).mpr ⟨_, by simp, h2⟩
  · exact (deFields_iff berStepper _ _ _ _ hfit).mpr ⟨_, by simp, h3⟩

/-! ### Transparent structs -/

theorem HandFields.active_nil : {γ : Type} → (fs : HandFields γ) → fs.count = 0 → activeFields fs.ser = []
  | _, .nil, _ => rfl
  | _, .cons (.skip _) r, h => by simp [Spec.HandFields.ser, Spec.HandField.ser, activeFields, HandFields.active_nil r h]
  | _, .cons (.plain _ _ _) r, h => by simp [Spec.HandFields.count] at h
  | _, .cons (.conv _ _ _ _ _) r, h => by simp [Spec.HandFields.count] at h

theorem HandFields.active_one : {γ : Type} → (fs : HandFields γ) → fs.count = 1 → ∃ t, activeFields fs.ser = [t]
  | _, .nil, h => by cases h
  | _, .cons (.skip _) r, h => by
    obtain ⟨t, h1⟩ := HandFields.active_one r h
    exact ⟨⟨t.ser.comap Prod.snd, t.converted⟩, by simp [Spec.HandFields.ser, Spec.HandField.ser, activeFields, h1]⟩
  | _, .cons (.plain s d C) r, h => by
    simp only [Spec.HandFields.count, Nat.add_eq_right] at h
    exact ⟨⟨s.comap Prod.fst, false⟩,
      by simp [Spec.HandFields.ser, Spec.HandField.ser, activeFields, HandFields.active_nil r h]⟩
  | _, .cons (.conv s d C f g) r, h => by
    simp only [Spec.HandFields.count, Nat.add_eq_right] at h
    exact ⟨⟨s.comap (fun v : _ × _ => f v.1), true⟩,
      by simp [Spec.HandFields.ser, Spec.HandField.ser, activeFields, HandFields.active_nil r h]⟩

theorem HandFields.counted : {γ : Type} → (fs : HandFields γ) → deserializedFields fs.de = fs.count
  | _, .nil => rfl
  | _, .cons (.skip _) r => HandFields.counted r
  | _, .cons (.plain _ _ _) r => congrArg (· + 1) (HandFields.counted r)
  | _, .cons (.conv _ _ _ _ (.from_ _)) r => congrArg (· + 1) (HandFields.counted r)
  | _, .cons (.conv _ _ _ _ (.tryFrom _)) r => congrArg (· + 1) (HandFields.counted r)

theorem HandFields.serializesOne : {γ : Type} → (fs : HandFields γ) → fs.Honors → fs.count = 1 → (v : γ) → fs.ok v →
    (tlvOf (fs.encOne v)).length ≤ isizeMax → IsId (fs.encOne v).1 ∧
      ∃ t, activeFields fs.ser = [t] ∧ Serializes t.ser v (fs.encOne v).1 (fs.encOne v).2
  | _, .nil, _, h, _, _, _ => by cases h
  | _, .cons (.skip _) r, h, hn, v, hok, hfit => by
      obtain ⟨h0, t, h1, h2⟩ := HandFields.serializesOne r h.2 hn v.2 hok.2 hfit
      exact ⟨h0, ⟨t.ser.comap Prod.snd, t.converted⟩,
        by simp [Spec.HandFields.ser, Spec.HandField.ser, activeFields, h1], comap_serializes _ h2⟩
  | _, .cons (.plain s d C) r, h, hn, v, hok, hfit => by
      simp only [Spec.HandFields.count, Nat.add_eq_right] at hn
      have hv := h.1 v.1 hok.1 hfit
      exact ⟨hv.isId, ⟨s.comap Prod.fst, false⟩,
        by simp [Spec.HandFields.ser, Spec.HandField.ser, activeFields, HandFields.active_nil r hn],
        comap_serializes _ (Honest.serializes hv)⟩
  | _, .cons (.conv s d C f g) r, h, hn, v, hok, hfit => by
      simp only [Spec.HandFields.count, Nat.add_eq_right] at hn
      have hv := h.1 (f v.1) hok.1.1 hfit
      exact ⟨hv.isId, ⟨s.comap (fun v : _ × _ => f v.1), true⟩,
        by simp [Spec.HandFields.ser, Spec.HandField.ser, activeFields, HandFields.active_nil r hn],
        comap_serializes _ (Honest.serializes hv)⟩

theorem HandFields.readsNone : {γ : Type} → (fs : HandFields γ) → fs.count = 0 → (v : γ) →
    ∃ w, fs.back v w ∧ ∀ tmp : {δ : Type} → De δ → Res δ, deFieldsTransparent tmp fs.de = .ok w
  | _, .nil, _, _ => ⟨(), trivial, fun _ => rfl⟩
  | _, .cons (.skip d) r, h, v => by
    obtain ⟨w, h1, h2⟩ := HandFields.readsNone r h v.2
    exact ⟨(d, w), ⟨rfl, h1⟩, fun tmp => (deFieldsTransparent_cons tmp _ _ _).mpr ⟨rfl, h2 tmp⟩⟩
  | _, .cons (.plain _ _ _) _, h, _ => by simp [Spec.HandFields.count] at h
  | _, .cons (.conv _ _ _ _ _) _, h, _ => by simp [Spec.HandFields.count] at h

/-- What a transparent struct decodes from the encoding of its field. -/
theorem HandFields.readsOne : {γ : Type} → (fs : HandFields γ) → fs.Honors → fs.count = 1 → (v : γ) → fs.ok v →
    (tlvOf (fs.encOne v)).length ≤ isizeMax → ∃ w, fs.back v w ∧
      deFieldsTransparent (fun d => d.fromDer (fs.encOne v).1 (fs.encOne v).2) fs.de = .ok w ∧
      deFieldsTransparent (fun d => d.fromBer (fs.encOne v).1 (.definite (fs.encOne v).2.length) (fs.encOne v).2) fs.de = .ok w
  | _, .nil, _, h, _, _, _ => by cases h
  | _, .cons (.skip d) r, h, hn, v, hok, hfit => by
    obtain ⟨w, h1, h2, h3⟩ := HandFields.readsOne r h.2 hn v.2 hok.2 hfit
    exact ⟨(d, w), ⟨rfl, h1⟩, (deFieldsTransparent_cons _ _ _ _).mpr ⟨rfl, h2⟩,
      (deFieldsTransparent_cons _ _ _ _).mpr ⟨rfl, h3⟩⟩
  | _, .cons (.plain s d C) r, h, hn, v, hok, hfit => by
    simp only [Spec.HandFields.count, Nat.add_eq_right] at hn
    obtain ⟨x, h4, h5, h6⟩ := (h.1 v.1 hok.1 hfit).back
    obtain ⟨w, h1, h2⟩ := HandFields.readsNone r hn v.2
    exact ⟨(x, w), ⟨h4, h1⟩, (deFieldsTransparent_cons _ _ _ _).mpr ⟨mapErr_ok.mpr h5, h2 _⟩,
      (deFieldsTransparent_cons _ _ _ _).mpr ⟨mapErr_ok.mpr h6, h2 _⟩⟩
  | _, .cons (.conv s d C f g) r, h, hn, v, hok, hfit => by
    simp only [Spec.HandFields.count, Nat.add_eq_right] at hn
    obtain ⟨x, h4, h5, h6⟩ := (h.1 (f v.1) hok.1.1 hfit).back
    obtain ⟨y, h7⟩ := hok.1.2 x h4
    obtain ⟨w, h1, h2⟩ := HandFields.readsNone r hn v.2
    have e : (HandField.conv s d C f g).de = backField d g := by cases g <;> rfl
    refine ⟨(y, w), ⟨⟨x, h4, h7⟩, h1⟩, (deFieldsTransparent_cons _ _ _ _).mpr ⟨?_, h2 _⟩,
      (deFieldsTransparent_cons _ _ _ _).mpr ⟨?_, h2 _⟩⟩
    · rw [e, backField_transparent]; exact ⟨x, h5, h7⟩
    · rw [e, backField_transparent]; exact ⟨x, h6, h7⟩

/-! ### Variants -/

theorem HandVariants.enc_mem : {ρ : Type} → (vs : HandVariants ρ) → (v : ρ) → (vs.enc v).1 ∈ vs.ids
  | _, .cons _ _ _, .inl _ => List.mem_cons_self ..
  | _, .cons _ _ r, .inr v => List.mem_cons_of_mem _ (HandVariants.enc_mem r v)

theorem HandVariants.serializes (m : Build) : {ρ : Type} → (vs : HandVariants ρ) → vs.Honors → (v : ρ) → vs.ok v →
    (vs.enc v).2.length ≤ isizeMax → Serializes (Ser.enum m vs.ser) v (vs.enc v).1 (vs.enc v).2
  | _, .cons id fs _, h, .inl v, hok, hfit =>
      have h := struct_serializes m id (HandFields.writes fs h.1 v hok hfit) hfit
      ⟨h.1, h.2, h.3, h.4⟩
  | _, .cons _ _ r, h, .inr v, hok, hfit =>
      have h := HandVariants.serializes m r h.2 v hok hfit
      ⟨h.1, h.2, h.3, h.4⟩

theorem HandVariants.reads (m : Build) : {ρ : Type} → (vs : HandVariants ρ) → vs.Honors → vs.ids.Nodup → (v : ρ) → vs.ok v →
    (vs.enc v).2.length ≤ isizeMax → ∃ w, vs.back v w ∧ Both (De.enum m vs.de) (vs.enc v).1 (vs.enc v).2 w
  | _, .cons id fs _, h, _, .inl v, hok, hfit => by
    obtain ⟨w, h1, h2, h3⟩ := HandFields.reads m fs h.1 v hok hfit
    refine ⟨.inl w, h1, ?_, ?_⟩
    · change (if id = id then _ else _) = _
      rw [if_pos rfl]
      change (fromDerContents fs.de (fs.enc v) >>= _) = _
      rw [h2]
      rfl
    · change (if id = id then _ else _) = _
      rw [if_pos rfl]
      change (fromBerContents m fs.de (.definite (fs.enc v).length) (fs.enc v) >>= _) = _
      rw [h3]
      rfl
  | _, .cons i fs r, h, hn, .inr v, hok, hfit => by
    have hn := List.nodup_cons.mp hn
    obtain ⟨w, h1, h2, h3⟩ := HandVariants.reads m r h.2 hn.2 v hok hfit
    have hne : (r.enc v).1 ≠ i := fun e => hn.1 (e ▸ HandVariants.enc_mem r v)
    refine ⟨.inr w, h1, ?_, ?_⟩
    · change (if (r.enc v).1 = i then _ else ((De.enum m r.de).fromDer (r.enc v).1 (r.enc v).2 >>= _)) = _
      rw [if_neg hne, h2]
      rfl
    · change (if (r.enc v).1 = i then _ else ((De.enum m r.de).fromBer (r.enc v).1 _ (r.enc v).2 >>= _)) = _
      rw [if_neg hne]
      change ((De.enum m r.de).fromBer (r.enc v).1 (.definite (r.enc v).2.length) (r.enc v).2 >>= _) = _
      rw [h3]
      rfl

end Bsn1
