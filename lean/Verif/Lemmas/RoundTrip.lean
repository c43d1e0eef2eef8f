import Verif.Lemmas.DeTyBer
import Verif.Lemmas.SerTy
/-!
# Encoded values decode
-/

namespace Bsn1
open Spec

variable {α β γ : Type}

/-! ### Collections -/

/-- The elements of an encoded list are restored. -/
theorem elems_enc {enc : α → Bytes × Bytes} {R : Bytes → Bytes → α → Prop} {S : α → α → Prop} (v : List α)
    (h : ∀ x ∈ v, (tlvOf (enc x)).length ≤ isizeMax → IsId (enc x).1 ∧ ∃ w, R (enc x).1 (enc x).2 w ∧ S x w)
    (hfit : (v.flatMap fun x => tlvOf (enc x)).length ≤ isizeMax) :
    ∃ w, DerElems R (v.flatMap fun x => tlvOf (enc x)) w ∧ List.Forall₂ S v w := by
  induction v with
  | nil => exact ⟨[], .nil, .nil⟩
  | cons x r ih =>
    rw [List.flatMap_cons, List.length_append] at hfit
    obtain ⟨hid, w, h1, h2⟩ := h x (by simp) (by omega)
    obtain ⟨ws, h3, h4⟩ := ih (fun y hy => h y (by simp [hy])) (by omega)
    refine ⟨w :: ws, ?_, .cons h2 h4⟩
    rw [List.flatMap_cons]
    exact .cons _ _ _ _ _ hid (fits_lt (fits_contents (by rw [← tlvOf]; omega))) h1 h3

/-- The entries of an encoded map are restored. -/
theorem pairs_enc {ek : α → Bytes × Bytes} {ev : β → Bytes × Bytes} {K : Bytes → Bytes → α → Prop}
    {V : Bytes → Bytes → β → Prop} {S : α → α → Prop} {T : β → β → Prop} (v : List (α × β))
    (hk : ∀ x ∈ v, (tlvOf (ek x.1)).length ≤ isizeMax → IsId (ek x.1).1 ∧ ∃ w, K (ek x.1).1 (ek x.1).2 w ∧ S x.1 w)
    (hv : ∀ x ∈ v, (tlvOf (ev x.2)).length ≤ isizeMax → IsId (ev x.2).1 ∧ ∃ w, V (ev x.2).1 (ev x.2).2 w ∧ T x.2 w)
    (hfit : (v.flatMap fun x => pairOctets (tlvOf (ek x.1)) (tlvOf (ev x.2))).length ≤ isizeMax) :
    ∃ w, DerElems (DerPair K V) (v.flatMap fun x => pairOctets (tlvOf (ek x.1)) (tlvOf (ev x.2))) w ∧
      List.Forall₂ (fun x y => S x.1 y.1 ∧ T x.2 y.2) v w := by
  induction v with
  | nil => exact ⟨[], .nil, .nil⟩
  | cons x r ih =>
    rw [List.flatMap_cons, List.length_append] at hfit
    have hp := pair_fits (k := tlvOf (ek x.1)) (v := tlvOf (ev x.2)) (by omega)
    obtain ⟨hidk, wk, h1, h2⟩ := hk x (by simp) hp.2.1
    obtain ⟨hidv, wv, h3, h4⟩ := hv x (by simp) hp.2.2
    obtain ⟨ws, h5, h6⟩ := ih (fun y hy => hk y (by simp [hy])) (fun y hy => hv y (by simp [hy])) (by omega)
    refine ⟨(wk, wv) :: ws, ?_, .cons ⟨h2, h4⟩ h6⟩
    rw [List.flatMap_cons]
    refine .cons [0x30] (tlvOf (ek x.1) ++ tlvOf (ev x.2)) _ _ _ isId_sequence (fits_lt (fits_contents (id := [0x30]) ?_)) ?_ h5
    · rw [← pairOctets]; omega
    · exact .mk _ _ _ _ _ _ hidk (fits_lt (fits_contents hp.2.1)) h1 hidv (fits_lt (fits_contents hp.2.2)) h3

theorem forall₂_faithful {S : α → α → Prop} {v w : List α} (h : List.Forall₂ S v w) (hS : ∀ x ∈ v, ∀ y, S x y → y = x) :
    w = v := by
  induction h with
  | nil => rfl
  | cons h _ ih => rw [hS _ (by simp) _ h, ih fun x hx => hS x (by simp [hx])]

theorem forall₂_keys {S : α → α → Prop} {T : β → β → Prop} {v w : List (α × β)}
    (h : List.Forall₂ (fun x y => S x.1 y.1 ∧ T x.2 y.2) v w) (hS : ∀ x ∈ v, ∀ y, S x.1 y → y = x.1) :
    w.map Prod.fst = v.map Prod.fst := by
  induction h with
  | nil => rfl
  | cons h _ ih => rw [List.map_cons, List.map_cons, hS _ (by simp) _ h.1, ih fun x hx => hS x (by simp [hx])]

theorem Variants.enc_mem_ids : {ρ : Type} → (vs : Variants ρ) → (v : ρ) → (vs.enc v).1 ∈ vs.ids
  | _, .cons i _ _, .inl _ => List.mem_cons_self ..
  | _, .cons _ _ r, .inr v => List.mem_cons_of_mem _ (Variants.enc_mem_ids r v)

/-- Fields none of which is encoded are all restored by default. -/
theorem Fields.derOne_none (o : (α : Type) → List α → List α) : {γ : Type} → (fs : Fields γ) → fs.restorable →
    fs.serCount = 0 → (id c : Bytes) → (v : γ) → ∃ w, fs.derOne o id c w ∧ fs.restores v w
  | _, .nil, _, _, _, _, _ => ⟨(), trivial, trivial⟩
  | _, .plain _ r, _, h, _, _, _ => by simp [Spec.Fields.serCount] at h
  | _, .skip d r, hr, h, id, c, v => by
    obtain ⟨w, h1, h2⟩ := Fields.derOne_none o r hr h id c v.2
    exact ⟨(d, w), ⟨rfl, h1⟩, ⟨rfl, h2⟩⟩
  | _, .skipSer _ _, hr, _, _, _, _ => hr.elim
  | _, .skipDe _ _ _, hr, _, _, _, _ => hr.elim
  | _, .conv _ _ _ r, _, h, _, _, _ => by simp [Spec.Fields.serCount] at h

mutual
/-- The encoding of a value denotes a value restored from it. -/
theorem Ty.derVal_enc (o : HashOrder) : {α : Type} → (t : Ty α) → t.serializable → t.restorable → (v : α) → t.ok v →
    t.convertible v → (t.der v).length ≤ isizeMax → ∃ w, t.derVal o.order (t.enc v).1 (t.enc v).2 w ∧ t.restores v w
  | _, .bool, _, _, v, _, _, _ => ⟨v, ⟨rfl, rfl⟩, rfl⟩
  | _, .int _, _, _, v, hok, _, _ => ⟨v, ⟨rfl, rfl, hok⟩, rfl⟩
  | _, .string, _, _, v, _, _, _ => ⟨v, ⟨rfl, rfl⟩, rfl⟩
  | _, .octetString, _, _, v, _, _, _ => ⟨v, ⟨rfl, rfl⟩, rfl⟩
  | _, .vec t, hs, hr, v, hok, hc, hfit => by
    obtain ⟨w, h1, h2⟩ := elems_enc (enc := t.enc) v
      (fun x hx hf => ⟨Ty.enc_isId t hs x, Ty.derVal_enc o t hs hr x (hok x hx) (hc x hx) hf⟩) (fits_of_der hfit)
    exact ⟨w, ⟨rfl, h1⟩, h2⟩
  | _, .linkedList t, hs, hr, v, hok, hc, hfit => by
    obtain ⟨w, h1, h2⟩ := elems_enc (enc := t.enc) v
      (fun x hx hf => ⟨Ty.enc_isId t hs x, Ty.derVal_enc o t hs hr x (hok x hx) (hc x hx) hf⟩) (fits_of_der hfit)
    exact ⟨w, ⟨rfl, h1⟩, h2⟩
  | _, .vecDeque t, hs, hr, v, hok, hc, hfit => by
    obtain ⟨w, h1, h2⟩ := elems_enc (enc := t.enc) v
      (fun x hx hf => ⟨Ty.enc_isId t hs x, Ty.derVal_enc o t hs hr x (hok x hx) (hc x hx) hf⟩) (fits_of_der hfit)
    exact ⟨w, ⟨rfl, h1⟩, h2⟩
  | _, .btreeSet cmp i1 i2 t, hs, hr, v, hok, hc, hfit => by
    obtain ⟨w, h1, h2⟩ := elems_enc (enc := t.enc) v
      (fun x hx hf => ⟨Ty.enc_isId t hs x, Ty.derVal_enc o t hs hr.1 x (hok.2 x hx) (hc x hx) hf⟩) (fits_of_der hfit)
    have e := forall₂_faithful h2 fun x hx y hy => hr.2 x y (hok.2 x hx) hy
    refine ⟨w, ⟨rfl, w, h1, ?_⟩, h2⟩
    rw [e]
    exact setOf_self hok.1
  | _, .btreeMap cmp i1 i2 k t, hs, hr, v, hok, hc, hfit => by
    obtain ⟨w, h1, h2⟩ := pairs_enc (ek := k.enc) (ev := t.enc) v
      (fun x hx hf => ⟨Ty.enc_isId k hs.1 x.1, Ty.derVal_enc o k hs.1 hr.1 x.1 (hok.2 x hx).1 (hc x hx).1 hf⟩)
      (fun x hx hf => ⟨Ty.enc_isId t hs.2 x.2, Ty.derVal_enc o t hs.2 hr.2.1 x.2 (hok.2 x hx).2 (hc x hx).2 hf⟩)
      (fits_of_der hfit)
    have e := forall₂_keys h2 fun x hx y hy => hr.2.2 x.1 y (hok.2 x hx).1 hy
    refine ⟨w, ⟨rfl, w, h1, mapOf_self ?_⟩, h2⟩
    have hp : (v.map Prod.fst).Pairwise fun x y => cmp x y = .lt := List.pairwise_map.mpr hok.1
    rw [← e] at hp
    exact List.pairwise_map.mp hp
  | _, .hashSet eq t, hs, hr, v, hok, hc, hfit => by
    obtain ⟨w, h1, h2⟩ := elems_enc (enc := t.enc) v
      (fun x hx hf => ⟨Ty.enc_isId t hs x, Ty.derVal_enc o t hs hr.1 x (hok.2 x hx) (hc x hx) hf⟩) (fits_of_der hfit)
    have e := forall₂_faithful h2 fun x hx y hy => hr.2 x y (hok.2 x hx) hy
    refine ⟨o.order _ w, ⟨rfl, w, h1, ?_⟩, w, h2, o.perm _ w⟩
    rw [e, firsts_of_nodup hok.1]
  | _, .hashMap eq k t, hs, hr, v, hok, hc, hfit => by
    obtain ⟨w, h1, h2⟩ := pairs_enc (ek := k.enc) (ev := t.enc) v
      (fun x hx hf => ⟨Ty.enc_isId k hs.1 x.1, Ty.derVal_enc o k hs.1 hr.1 x.1 (hok.2 x hx).1 (hc x hx).1 hf⟩)
      (fun x hx hf => ⟨Ty.enc_isId t hs.2.1 x.2, Ty.derVal_enc o t hs.2.1 hr.2.1 x.2 (hok.2 x hx).2 (hc x hx).2 hf⟩)
      (fits_of_der hfit)
    have e := forall₂_keys h2 fun x hx y hy => hr.2.2 x.1 y (hok.2 x hx).1 hy
    refine ⟨o.order _ w, ⟨rfl, w, w, h1, hashMapOf_of_nodup ?_, rfl⟩, w, h2, o.perm _ w⟩
    rw [e]
    exact hok.1
  | _, .struct _ fs, hs, hr, v, hok, hc, hfit => by
    obtain ⟨w, h1, h2⟩ := Fields.derVal_enc o fs hs.2 hr v hok hc (fits_of_der hfit)
    exact ⟨w, ⟨rfl, h1⟩, h2⟩
  | _, .enum vs, hs, hr, v, hok, hc, hfit => Variants.derVal_enc o vs hs hr.1 hr.2 v hok hc (fits_of_der hfit)
  | _, .transparent fs, hs, hr, v, hok, hc, hfit => Fields.derOne_enc o fs hs.2 hr hs.1 v hok hc hfit
  | _, .conv t f g, hs, hr, v, hok, hc, hfit => by
    obtain ⟨u, h1, h2⟩ := Ty.derVal_enc o t hs hr (f v) hok hc.1 hfit
    obtain ⟨w, h3⟩ := hc.2 u h2
    exact ⟨w, ⟨u, h1, h3⟩, ⟨u, h2, h3⟩⟩
  | _, .named t f g hgf hfg, hs, hr, v, hok, hc, hfit => by
    obtain ⟨u, h1, h2⟩ := Ty.derVal_enc o t hs hr (f v) hok hc hfit
    refine ⟨g u, ?_, ?_⟩
    · change t.derVal o.order _ _ (f (g u))
      rw [hfg]; exact h1
    · change t.restores (f v) (f (g u))
      rw [hfg]; exact h2
  | _, .hole, _, _, _, hok, _, _ => hok.elim
/-- The same for fields. -/
theorem Fields.derVal_enc (o : HashOrder) : {γ : Type} → (fs : Fields γ) → fs.serializable → fs.restorable → (v : γ) →
    fs.ok v → fs.convertible v → (fs.enc v).length ≤ isizeMax → ∃ w, fs.derVal o.order (fs.enc v) w ∧ fs.restores v w
  | _, .nil, _, _, _, _, _, _ => ⟨(), rfl, trivial⟩
  | _, .plain t r, hs, hr, v, hok, hc, hfit => by
    change (tlvOf (t.enc v.1) ++ r.enc v.2).length ≤ isizeMax at hfit
    rw [List.length_append] at hfit
    have hf : (t.der v.1).length ≤ isizeMax := by rw [Ty.der]; omega
    obtain ⟨w, h1, h2⟩ := Ty.derVal_enc o t hs.1 hr.1 v.1 hok.1 hc.1 hf
    obtain ⟨ws, h3, h4⟩ := Fields.derVal_enc o r hs.2 hr.2 v.2 hok.2 hc.2 (by omega)
    exact ⟨(w, ws), ⟨_, _, _, Ty.enc_isId t hs.1 v.1, fits_lt (fits_of_der hf), rfl, h1, h3⟩, h2, h4⟩
  | _, .skip d r, hs, hr, v, hok, hc, hfit => by
    obtain ⟨ws, h3, h4⟩ := Fields.derVal_enc o r hs hr v.2 hok hc hfit
    exact ⟨(d, ws), ⟨rfl, h3⟩, rfl, h4⟩
  | _, .skipSer _ _, _, hr, _, _, _, _ => hr.elim
  | _, .skipDe _ _ _, _, hr, _, _, _, _ => hr.elim
  | _, .conv t f g r, hs, hr, v, hok, hc, hfit => by
    change (tlvOf (t.enc (f v.1)) ++ r.enc v.2).length ≤ isizeMax at hfit
    rw [List.length_append] at hfit
    have hf : (t.der (f v.1)).length ≤ isizeMax := by rw [Ty.der]; omega
    obtain ⟨u, h1, h2⟩ := Ty.derVal_enc o t hs.1 hr.1 (f v.1) hok.1 hc.1.1 hf
    obtain ⟨w, h5⟩ := hc.1.2 u h2
    obtain ⟨ws, h3, h4⟩ := Fields.derVal_enc o r hs.2 hr.2 v.2 hok.2 hc.2 (by omega)
    exact ⟨(w, ws), ⟨_, _, _, Ty.enc_isId t hs.1 (f v.1), fits_lt (fits_of_der hf), rfl, ⟨u, h1, h5⟩, h3⟩, ⟨u, h2, h5⟩, h4⟩
/-- The same for the field of a transparent struct. -/
theorem Fields.derOne_enc (o : HashOrder) : {γ : Type} → (fs : Fields γ) → fs.serializable → fs.restorable →
    fs.serCount = 1 → (v : γ) → fs.ok v → fs.convertible v → (tlvOf (fs.encOne v)).length ≤ isizeMax →
    ∃ w, fs.derOne o.order (fs.encOne v).1 (fs.encOne v).2 w ∧ fs.restores v w
  | _, .nil, _, _, h, _, _, _, _ => by simp [Spec.Fields.serCount] at h
  | _, .plain t r, hs, hr, h, v, hok, hc, hfit => by
    obtain ⟨w, h1, h2⟩ := Ty.derVal_enc o t hs.1 hr.1 v.1 hok.1 hc.1 hfit
    obtain ⟨ws, h3, h4⟩ := Fields.derOne_none o.order r hr.2 (by simpa [Spec.Fields.serCount] using h) (t.enc v.1).1 (t.enc v.1).2 v.2
    exact ⟨(w, ws), ⟨h1, h3⟩, h2, h4⟩
  | _, .skip d r, hs, hr, h, v, hok, hc, hfit => by
    obtain ⟨ws, h3, h4⟩ := Fields.derOne_enc o r hs hr h v.2 hok hc hfit
    exact ⟨(d, ws), ⟨rfl, h3⟩, rfl, h4⟩
  | _, .skipSer _ _, _, hr, _, _, _, _, _ => hr.elim
  | _, .skipDe _ _ _, _, hr, _, _, _, _, _ => hr.elim
  | _, .conv t f g r, hs, hr, h, v, hok, hc, hfit => by
    obtain ⟨u, h1, h2⟩ := Ty.derVal_enc o t hs.1 hr.1 (f v.1) hok.1 hc.1.1 hfit
    obtain ⟨w, h5⟩ := hc.1.2 u h2
    obtain ⟨ws, h3, h4⟩ := Fields.derOne_none o.order r hr.2 (by simpa [Spec.Fields.serCount] using h) (t.enc (f v.1)).1
      (t.enc (f v.1)).2 v.2
    exact ⟨(w, ws), ⟨⟨u, h1, h5⟩, h3⟩, ⟨u, h2, h5⟩, h4⟩
/-- The same for an enum. -/
theorem Variants.derVal_enc (o : HashOrder) : {ρ : Type} → (vs : Variants ρ) → vs.serializable → vs.restorable →
    vs.ids.Nodup → (v : ρ) → vs.ok v → vs.convertible v → (vs.enc v).2.length ≤ isizeMax →
    ∃ w, vs.derVal o.order (vs.enc v).1 (vs.enc v).2 w ∧ vs.restores v w
  | _, .cons _ fs _, hs, hr, _, .inl v, hok, hc, hfit => by
    obtain ⟨w, h1, h2⟩ := Fields.derVal_enc o fs hs.2.1 hr.1 v hok hc hfit
    exact ⟨.inl w, ⟨rfl, h1⟩, h2⟩
  | _, .cons i _ r, hs, hr, hn, .inr v, hok, hc, hfit => by
    have hn := List.nodup_cons.mp hn
    obtain ⟨w, h1, h2⟩ := Variants.derVal_enc o r hs.2.2 hr.2 hn.2 v hok hc hfit
    refine ⟨.inr w, ⟨?_, h1⟩, h2⟩
    intro e
    exact hn.1 (e ▸ Variants.enc_mem_ids r v)
end

/-! ### Exactly restored types -/

mutual
/-- Exact types are restored exactly. -/
theorem Ty.exact_faithful : {α : Type} → (t : Ty α) → t.exact → ∀ v w, t.restores v w → w = v
  | _, .bool, _, _, _, h => h
  | _, .int _, _, _, _, h => h
  | _, .string, _, _, _, h => h
  | _, .octetString, _, _, _, h => h
  | _, .vec t, he, _, _, h => forall₂_faithful h fun x _ y => Ty.exact_faithful t he x y
  | _, .linkedList t, he, _, _, h => forall₂_faithful h fun x _ y => Ty.exact_faithful t he x y
  | _, .vecDeque t, he, _, _, h => forall₂_faithful h fun x _ y => Ty.exact_faithful t he x y
  | _, .btreeSet _ _ _ t, he, _, _, h => forall₂_faithful h fun x _ y => Ty.exact_faithful t he x y
  | _, .btreeMap _ _ _ k t, he, _, _, h => forall₂_faithful h fun x _ y hy =>
      Prod.ext (Ty.exact_faithful k he.1 x.1 y.1 hy.1) (Ty.exact_faithful t he.2 x.2 y.2 hy.2)
  | _, .hashSet _ _, he, _, _, _ => he.elim
  | _, .hashMap _ _ _, he, _, _, _ => he.elim
  | _, .struct _ fs, he, v, w, h => Fields.exact_faithful fs he v w h
  | _, .enum vs, he, v, w, h => Variants.exact_faithful vs he v w h
  | _, .transparent fs, he, v, w, h => Fields.exact_faithful fs he v w h
  | _, .conv t f g, he, v, w, hh => by
    obtain ⟨u, h1, h2⟩ := hh
    rw [Ty.exact_faithful t he.1 (f v) u h1, he.2 v] at h2
    cases h2; rfl
  | _, .named t f g hgf _, he, v, w, h => by
    have e : f w = f v := Ty.exact_faithful t he (f v) (f w) h
    rw [← hgf w, e, hgf]
  | _, .hole, _, _, _, h => h.elim
/-- The same for fields. -/
theorem Fields.exact_faithful : {γ : Type} → (fs : Fields γ) → fs.exact → ∀ v w, fs.restores v w → w = v
  | _, .nil, _, _, _, _ => rfl
  | _, .plain t r, he, v, w, h => Prod.ext (Ty.exact_faithful t he.1 v.1 w.1 h.1) (Fields.exact_faithful r he.2 v.2 w.2 h.2)
  | _, .skip _ _, he, _, _, _ => he.elim
  | _, .skipSer t r, he, v, w, h => Prod.ext (Ty.exact_faithful t he.1 v.1 w.1 h.1) (Fields.exact_faithful r he.2 v.2 w.2 h.2)
  | _, .skipDe _ _ _, he, _, _, _ => he.elim
  | _, .conv t f g r, he, v, w, hh => by
    obtain ⟨⟨u, h1, h2⟩, h3⟩ := hh
    rw [Ty.exact_faithful t he.1.1 (f v.1) u h1, he.1.2 v.1] at h2
    exact Prod.ext (by injection h2 with h2; exact h2.symm) (Fields.exact_faithful r he.2 v.2 w.2 h3)
/-- The same for variants. -/
theorem Variants.exact_faithful : {ρ : Type} → (vs : Variants ρ) → vs.exact → ∀ v w, vs.restores v w → w = v
  | _, .cons _ fs _, he, .inl v, .inl w, h => congrArg Sum.inl (Fields.exact_faithful fs he.1 v w h)
  | _, .cons _ _ r, he, .inr v, .inr w, h => congrArg Sum.inr (Variants.exact_faithful r he.2 v w h)
end

/-! ### DER is BER -/

theorem DerElems.toBer {R : Bytes → Bytes → α → Prop} {R' : Bytes → Bool → Bytes → α → Prop} {c : Bytes} {l : List α}
    (h : DerElems R c l) (hR : ∀ id b x, R id b x → R' id false b x) : BerElems R' c l := by
  induction h with
  | nil => exact .nil
  | cons id b c x xs hid hb hr _ ih => exact .cons _ id false b c x xs ⟨hid, hb, rfl⟩ (hR _ _ _ hr) ih

theorem DerPair.toBer {K : Bytes → Bytes → α → Prop} {K' : Bytes → Bool → Bytes → α → Prop} {V : Bytes → Bytes → β → Prop}
    {V' : Bytes → Bool → Bytes → β → Prop} {id c : Bytes} {x : α × β} (h : DerPair K V id c x)
    (hK : ∀ id b x, K id b x → K' id false b x) (hV : ∀ id b x, V id b x → V' id false b x) :
    BerPair K' V' id false c x := by
  cases h with
  | mk ik ck iv cv k v h1 h2 h3 h4 h5 h6 =>
    exact .mk false _ ik false ck _ iv false cv k v ⟨h1, h2, rfl⟩ (hK _ _ _ h3) ⟨h4, h5, rfl⟩ (hV _ _ _ h6)

mutual
/-- What is a value in DER is the same value in BER. -/
theorem Ty.derVal_berVal (lax : Bool) (o : (α : Type) → List α → List α) : {α : Type} → (t : Ty α) → (id c : Bytes) →
    (v : α) → t.derVal o id c v → t.berVal lax o id false c v
  | _, .bool, _, _, v, hh => by
    obtain ⟨h1, h2⟩ := hh
    exact ⟨h1, (by simp), _, h2, by cases v <;> rfl⟩
  | _, .int _, _, _, _, hh => by
    obtain ⟨h1, h2, h3⟩ := hh
    exact ⟨h1, (by simp), h2, h3⟩
  | _, .string, _, _, _, hh => by
    obtain ⟨h1, h2⟩ := hh
    exact ⟨.inl h1, (by simp), h2⟩
  | _, .octetString, _, _, _, hh => by
    obtain ⟨h1, h2⟩ := hh
    exact ⟨.inl h1, rfl, h2⟩
  | _, .vec t, _, c, _, hh => by
    obtain ⟨h1, h2⟩ := hh
    exact ⟨h1, c, rfl, DerElems.toBer h2 (Ty.derVal_berVal lax o t)⟩
  | _, .linkedList t, _, c, _, hh => by
    obtain ⟨h1, h2⟩ := hh
    exact ⟨h1, c, rfl, DerElems.toBer h2 (Ty.derVal_berVal lax o t)⟩
  | _, .vecDeque t, _, c, _, hh => by
    obtain ⟨h1, h2⟩ := hh
    exact ⟨h1, c, rfl, DerElems.toBer h2 (Ty.derVal_berVal lax o t)⟩
  | _, .btreeSet _ _ _ t, _, c, _, hh => by
    obtain ⟨h1, l, h2, h3⟩ := hh
    exact ⟨h1, c, l, rfl, DerElems.toBer h2 (Ty.derVal_berVal lax o t), h3⟩
  | _, .btreeMap _ _ _ k t, _, c, _, hh => by
    obtain ⟨h1, l, h2, h3⟩ := hh
    exact ⟨h1, c, l, rfl, DerElems.toBer h2 fun _ _ _ h =>
        DerPair.toBer h (Ty.derVal_berVal lax o k) (Ty.derVal_berVal lax o t), h3⟩
  | _, .hashSet _ t, _, c, _, hh => by
    obtain ⟨h1, l, h2, h3⟩ := hh
    exact ⟨h1, c, l, rfl, DerElems.toBer h2 (Ty.derVal_berVal lax o t), h3⟩
  | _, .hashMap _ k t, _, c, _, hh => by
    obtain ⟨h1, l, u, h2, h3⟩ := hh
    exact ⟨h1, c, l, u, rfl, DerElems.toBer h2 fun _ _ _ h =>
        DerPair.toBer h (Ty.derVal_berVal lax o k) (Ty.derVal_berVal lax o t), h3⟩
  | _, .struct _ fs, _, c, v, hh => by
    obtain ⟨h1, h2⟩ := hh
    exact ⟨h1, c, rfl, Fields.derVal_berVal lax o fs c v h2⟩
  | _, .enum vs, id, c, v, h => Variants.derVal_berVal lax o vs id c v h
  | _, .transparent fs, id, c, v, h => Fields.derOne_berOne lax o fs id c v h
  | _, .conv t _ _, id, c, _, hh => by
    obtain ⟨u, h1, h2⟩ := hh
    exact ⟨u, Ty.derVal_berVal lax o t id c u h1, h2⟩
  | _, .named t f _ _ _, id, c, v, h => Ty.derVal_berVal lax o t id c (f v) h
  | _, .hole, _, _, _, h => h.elim
/-- The same for fields. -/
theorem Fields.derVal_berVal (lax : Bool) (o : (α : Type) → List α → List α) : {γ : Type} → (fs : Fields γ) → (c : Bytes) →
    (v : γ) → fs.derVal o c v → fs.berVal lax o c v
  | _, .nil, _, _, h => h
  | _, .plain t r, _, v, hh => by
    obtain ⟨id, b, c', h1, h2, h3, h4, h5⟩ := hh
    exact
      ⟨_, id, false, b, c', ⟨h1, h2, rfl⟩, h3, Ty.derVal_berVal lax o t id b v.1 h4, Fields.derVal_berVal lax o r c' v.2 h5⟩
  | _, .skip _ r, c, v, hh => by
    obtain ⟨h1, h2⟩ := hh
    exact ⟨h1, Fields.derVal_berVal lax o r c v.2 h2⟩
  | _, .skipSer t r, _, v, hh => by
    obtain ⟨id, b, c', h1, h2, h3, h4, h5⟩ := hh
    exact
      ⟨_, id, false, b, c', ⟨h1, h2, rfl⟩, h3, Ty.derVal_berVal lax o t id b v.1 h4, Fields.derVal_berVal lax o r c' v.2 h5⟩
  | _, .skipDe _ _ r, c, v, hh => by
    obtain ⟨h1, h2⟩ := hh
    exact ⟨h1, Fields.derVal_berVal lax o r c v.2 h2⟩
  | _, .conv t _ _ r, _, v, hh => by
    obtain ⟨id, b, c', h1, h2, h3, ⟨u, h4, h6⟩, h5⟩ := hh
    exact
      ⟨_, id, false, b, c', ⟨h1, h2, rfl⟩, h3, ⟨u, Ty.derVal_berVal lax o t id b u h4, h6⟩,
        Fields.derVal_berVal lax o r c' v.2 h5⟩
/-- The same for a transparent struct. -/
theorem Fields.derOne_berOne (lax : Bool) (o : (α : Type) → List α → List α) : {γ : Type} → (fs : Fields γ) →
    (id c : Bytes) → (v : γ) → fs.derOne o id c v → fs.berOne lax o id false c v
  | _, .nil, _, _, _, h => h
  | _, .plain t r, id, c, v, hh => by
    obtain ⟨h1, h2⟩ := hh
    exact ⟨Ty.derVal_berVal lax o t id c v.1 h1, Fields.derOne_berOne lax o r id c v.2 h2⟩
  | _, .skip _ r, id, c, v, hh => by
    obtain ⟨h1, h2⟩ := hh
    exact ⟨h1, Fields.derOne_berOne lax o r id c v.2 h2⟩
  | _, .skipSer t r, id, c, v, hh => by
    obtain ⟨h1, h2⟩ := hh
    exact ⟨Ty.derVal_berVal lax o t id c v.1 h1, Fields.derOne_berOne lax o r id c v.2 h2⟩
  | _, .skipDe _ _ r, id, c, v, hh => by
    obtain ⟨h1, h2⟩ := hh
    exact ⟨h1, Fields.derOne_berOne lax o r id c v.2 h2⟩
  | _, .conv t _ _ r, id, c, v, hh => by
    obtain ⟨⟨u, h1, h3⟩, h2⟩ := hh
    exact
      ⟨⟨u, Ty.derVal_berVal lax o t id c u h1, h3⟩, Fields.derOne_berOne lax o r id c v.2 h2⟩
/-- The same for an enum. -/
theorem Variants.derVal_berVal (lax : Bool) (o : (α : Type) → List α → List α) : {ρ : Type} → (vs : Variants ρ) →
    (id c : Bytes) → (v : ρ) → vs.derVal o id c v → vs.berVal lax o id false c v
  | _, .cons _ fs _, _, c, .inl v, hh => by
    obtain ⟨h1, h2⟩ := hh
    exact ⟨h1, c, rfl, Fields.derVal_berVal lax o fs c v h2⟩
  | _, .cons _ _ r, id, c, .inr v, hh => by
    obtain ⟨h1, h2⟩ := hh
    exact ⟨h1, Variants.derVal_berVal lax o r id c v h2⟩
end

end Bsn1
