import Verif.Lemmas.DeSettled
import Verif.Lemmas.DeMore
import Verif.Spec.Rec
/-!
# Lemmas on recursive types
-/

namespace Bsn1
open Spec

variable {α β γ : Type}

/-! ### Unfoldings -/

theorem RecDecl.unroll_upto (d : RecDecl α) : ∀ n m, Ty.Upto n (d.unroll n) (d.unroll (n + m))
  | 0, m => by rw [Nat.zero_add]; exact .hole _
  | n + 1, m => by
    rw [Nat.add_right_comm]
    exact d.guarded n _ _ (RecDecl.unroll_upto d n m)

theorem Spec.Ty.Upto.of_le {d : RecDecl α} {n m : Nat} (h : n ≤ m) : Ty.Upto n (d.unroll n) (d.unroll m) := by
  obtain ⟨k, rfl⟩ := Nat.le.dest h
  exact RecDecl.unroll_upto d n k

/-! ### Values and encodings -/

mutual
theorem Spec.Ty.Upto.ok : {k : Nat} → {α : Type} → {t t' : Ty α} → Ty.Upto k t t' → ∀ v, t.ok v → t'.ok v ∧ t'.enc v = t.enc v
  | _, _, _, _, .hole _, _, h => h.elim
  | _, _, _, _, .refl _ _, _, h => ⟨h, rfl⟩
  | _, _, _, _, .vec _ u, v, h => ⟨fun x hx => (Ty.Upto.ok u x (h x hx)).1,
      congrArg (Prod.mk _) (List.flatMap_congr fun x hx => congrArg tlvOf (Ty.Upto.ok u x (h x hx)).2)⟩
  | _, _, _, _, .linkedList _ u, v, h => ⟨fun x hx => (Ty.Upto.ok u x (h x hx)).1,
      congrArg (Prod.mk _) (List.flatMap_congr fun x hx => congrArg tlvOf (Ty.Upto.ok u x (h x hx)).2)⟩
  | _, _, _, _, .vecDeque _ u, v, h => ⟨fun x hx => (Ty.Upto.ok u x (h x hx)).1,
      congrArg (Prod.mk _) (List.flatMap_congr fun x hx => congrArg tlvOf (Ty.Upto.ok u x (h x hx)).2)⟩
  | _, _, _, _, .btreeSet _ _ _ _ u, v, h => ⟨⟨h.1, fun x hx => (Ty.Upto.ok u x (h.2 x hx)).1⟩,
      congrArg (Prod.mk _) (List.flatMap_congr fun x hx => congrArg tlvOf (Ty.Upto.ok u x (h.2 x hx)).2)⟩
  | _, _, _, _, .btreeMap _ _ _ _ u u', v, h =>
    ⟨⟨h.1, fun x hx => ⟨(Ty.Upto.ok u x.1 (h.2 x hx).1).1, (Ty.Upto.ok u' x.2 (h.2 x hx).2).1⟩⟩,
      congrArg (Prod.mk _) (List.flatMap_congr fun x hx => by
        rw [(Ty.Upto.ok u x.1 (h.2 x hx).1).2, (Ty.Upto.ok u' x.2 (h.2 x hx).2).2])⟩
  | _, _, _, _, .hashSet _ _ u, v, h => ⟨⟨h.1, fun x hx => (Ty.Upto.ok u x (h.2 x hx)).1⟩,
      congrArg (Prod.mk _) (List.flatMap_congr fun x hx => congrArg tlvOf (Ty.Upto.ok u x (h.2 x hx)).2)⟩
  | _, _, _, _, .hashMap _ _ u u', v, h =>
    ⟨⟨h.1, fun x hx => ⟨(Ty.Upto.ok u x.1 (h.2 x hx).1).1, (Ty.Upto.ok u' x.2 (h.2 x hx).2).1⟩⟩,
      congrArg (Prod.mk _) (List.flatMap_congr fun x hx => by
        rw [(Ty.Upto.ok u x.1 (h.2 x hx).1).2, (Ty.Upto.ok u' x.2 (h.2 x hx).2).2])⟩
  | _, _, _, _, .struct _ _ u, v, h => ⟨(Fields.Upto.ok u v h).1, congrArg (Prod.mk _) (Fields.Upto.ok u v h).2.1⟩
  | _, _, _, _, .enum _ u, v, h => Variants.Upto.ok u v h
  | _, _, _, _, .transparent u, v, h => ⟨(Fields.Upto.ok u v h).1, (Fields.Upto.ok u v h).2.2⟩
  | _, _, _, _, .conv f _ u, v, h => Ty.Upto.ok u (f v) h
  | _, _, _, _, .named f _ _ _ u, v, h => Ty.Upto.ok u (f v) h
theorem Spec.Fields.Upto.ok : {k : Nat} → {γ : Type} → {fs fs' : Fields γ} → Fields.Upto k fs fs' → ∀ v, fs.ok v →
    fs'.ok v ∧ fs'.enc v = fs.enc v ∧ fs'.encOne v = fs.encOne v
  | _, _, _, _, .nil _, _, _ => ⟨trivial, rfl, rfl⟩
  | _, _, _, _, .plain u r, v, h =>
    have e := Ty.Upto.ok u v.1 h.1
    have er := Fields.Upto.ok r v.2 h.2
    ⟨⟨e.1, er.1⟩, congrArg₂ (fun x y : Bytes => x ++ y) (congrArg tlvOf e.2) er.2.1, e.2⟩
  | _, _, _, _, .skip _ r, v, h => Fields.Upto.ok r v.2 h
  | _, _, _, _, .skipSer _ r, v, h => Fields.Upto.ok r v.2 h
  | _, _, _, _, .skipDe _ u r, v, h =>
    have e := Ty.Upto.ok u v.1 h.1
    have er := Fields.Upto.ok r v.2 h.2
    ⟨⟨e.1, er.1⟩, congrArg₂ (fun x y : Bytes => x ++ y) (congrArg tlvOf e.2) er.2.1, e.2⟩
  | _, _, _, _, .conv f _ u r, v, h =>
    have e := Ty.Upto.ok u (f v.1) h.1
    have er := Fields.Upto.ok r v.2 h.2
    ⟨⟨e.1, er.1⟩, congrArg₂ (fun x y : Bytes => x ++ y) (congrArg tlvOf e.2) er.2.1, e.2⟩
theorem Spec.Variants.Upto.ok : {k : Nat} → {ρ : Type} → {vs vs' : Variants ρ} → Variants.Upto k vs vs' → ∀ v, vs.ok v →
    vs'.ok v ∧ vs'.enc v = vs.enc v
  | _, _, _, _, .cons _ u _, .inl v, h =>
    have e := Fields.Upto.ok u v h
    ⟨e.1, congrArg (Prod.mk _) e.2.1⟩
  | _, _, _, _, .cons _ _ r, .inr v, h => Variants.Upto.ok r v h
end

/-! ### What decodes -/

mutual
theorem Spec.Ty.Upto.derVal (o : (α : Type) → List α → List α) : {k : Nat} → {α : Type} → {t t' : Ty α} → Ty.Upto k t t' →
    ∀ id c v, t.derVal o id c v → t'.derVal o id c v
  | _, _, _, _, .hole _, _, _, _, h => h.elim
  | _, _, _, _, .refl _ _, _, _, _, h => h
  | _, _, _, _, .vec _ u, _, _, _, h => ⟨h.1, h.2.mono (Ty.Upto.derVal o u)⟩
  | _, _, _, _, .linkedList _ u, _, _, _, h => ⟨h.1, h.2.mono (Ty.Upto.derVal o u)⟩
  | _, _, _, _, .vecDeque _ u, _, _, _, h => ⟨h.1, h.2.mono (Ty.Upto.derVal o u)⟩
  | _, _, _, _, .btreeSet _ _ _ _ u, _, _, _, h => by
    obtain ⟨h1, l, h2, h3⟩ := h
    exact ⟨h1, l, h2.mono (Ty.Upto.derVal o u), h3⟩
  | _, _, _, _, .btreeMap _ _ _ _ u u', _, _, _, h => by
    obtain ⟨h1, l, h2, h3⟩ := h
    exact ⟨h1, l, h2.mono fun _ _ _ h => h.mono (Ty.Upto.derVal o u) (Ty.Upto.derVal o u'), h3⟩
  | _, _, _, _, .hashSet _ _ u, _, _, _, h => by
    obtain ⟨h1, l, h2, h3⟩ := h
    exact ⟨h1, l, h2.mono (Ty.Upto.derVal o u), h3⟩
  | _, _, _, _, .hashMap _ _ u u', _, _, _, h => by
    obtain ⟨h1, l, x, h2, h3⟩ := h
    exact ⟨h1, l, x, h2.mono fun _ _ _ h => h.mono (Ty.Upto.derVal o u) (Ty.Upto.derVal o u'), h3⟩
  | _, _, _, _, .struct _ _ u, _, c, v, h => ⟨h.1, Fields.Upto.derVal o u c v h.2⟩
  | _, _, _, _, .enum _ u, id, c, v, h => Variants.Upto.derVal o u id c v h
  | _, _, _, _, .transparent u, id, c, v, h => Fields.Upto.derOne o u id c v h
  | _, _, _, _, .conv f _ u, id, c, _, h => by
    obtain ⟨x, h1, h2⟩ := h
    exact ⟨x, Ty.Upto.derVal o u id c x h1, h2⟩
  | _, _, _, _, .named f _ _ _ u, id, c, v, h => Ty.Upto.derVal o u id c (f v) h
theorem Spec.Fields.Upto.derVal (o : (α : Type) → List α → List α) : {k : Nat} → {γ : Type} → {fs fs' : Fields γ} →
    Fields.Upto k fs fs' → ∀ c v, fs.derVal o c v → fs'.derVal o c v
  | _, _, _, _, .nil _, _, _, h => h
  | _, _, _, _, .plain u r, _, v, h => by
    obtain ⟨id, b, c', h1, h2, h3, h4, h5⟩ := h
    exact ⟨id, b, c', h1, h2, h3, Ty.Upto.derVal o u id b v.1 h4, Fields.Upto.derVal o r c' v.2 h5⟩
  | _, _, _, _, .skip _ r, c, v, h => ⟨h.1, Fields.Upto.derVal o r c v.2 h.2⟩
  | _, _, _, _, .skipSer u r, _, v, h => by
    obtain ⟨id, b, c', h1, h2, h3, h4, h5⟩ := h
    exact ⟨id, b, c', h1, h2, h3, Ty.Upto.derVal o u id b v.1 h4, Fields.Upto.derVal o r c' v.2 h5⟩
  | _, _, _, _, .skipDe _ _ r, c, v, h => ⟨h.1, Fields.Upto.derVal o r c v.2 h.2⟩
  | _, _, _, _, .conv f _ u r, _, v, h => by
    obtain ⟨id, b, c', h1, h2, h3, ⟨x, h4, h6⟩, h5⟩ := h
    exact ⟨id, b, c', h1, h2, h3, ⟨x, Ty.Upto.derVal o u id b x h4, h6⟩, Fields.Upto.derVal o r c' v.2 h5⟩
theorem Spec.Fields.Upto.derOne (o : (α : Type) → List α → List α) : {k : Nat} → {γ : Type} → {fs fs' : Fields γ} →
    Fields.Upto k fs fs' → ∀ id c v, fs.derOne o id c v → fs'.derOne o id c v
  | _, _, _, _, .nil _, _, _, _, h => h
  | _, _, _, _, .plain u r, id, c, v, h => ⟨Ty.Upto.derVal o u id c v.1 h.1, Fields.Upto.derOne o r id c v.2 h.2⟩
  | _, _, _, _, .skip _ r, id, c, v, h => ⟨h.1, Fields.Upto.derOne o r id c v.2 h.2⟩
  | _, _, _, _, .skipSer u r, id, c, v, h => ⟨Ty.Upto.derVal o u id c v.1 h.1, Fields.Upto.derOne o r id c v.2 h.2⟩
  | _, _, _, _, .skipDe _ _ r, id, c, v, h => ⟨h.1, Fields.Upto.derOne o r id c v.2 h.2⟩
  | _, _, _, _, .conv f _ u r, id, c, v, h => by
    obtain ⟨⟨x, h1, h3⟩, h2⟩ := h
    exact ⟨⟨x, Ty.Upto.derVal o u id c x h1, h3⟩, Fields.Upto.derOne o r id c v.2 h2⟩
theorem Spec.Variants.Upto.derVal (o : (α : Type) → List α → List α) : {k : Nat} → {ρ : Type} → {vs vs' : Variants ρ} →
    Variants.Upto k vs vs' → ∀ id c v, vs.derVal o id c v → vs'.derVal o id c v
  | _, _, _, _, .cons _ u _, _, c, .inl v, h => ⟨h.1, Fields.Upto.derVal o u c v h.2⟩
  | _, _, _, _, .cons _ _ r, id, c, .inr v, h => ⟨h.1, Variants.Upto.derVal o r id c v h.2⟩
end

theorem Spec.BerElems.weaken {R R' : List UInt8 → Bool → List UInt8 → α → Prop} {c : List UInt8} {xs : List α}
    (h : BerElems R c xs) (hR : ∀ id d raw x, R id d raw x → R' id d raw x) : BerElems R' c xs := by
  induction h with
  | nil => exact .nil
  | cons p id indef raw c x xs h1 h2 _ ih => exact .cons p id indef raw c x xs h1 (hR _ _ _ _ h2) ih

theorem Spec.BerPair.weaken {K K' : List UInt8 → Bool → List UInt8 → α → Prop} {V V' : List UInt8 → Bool → List UInt8 → β → Prop}
    {id : List UInt8} {d : Bool} {raw : List UInt8} {x : α × β} (h : BerPair K V id d raw x)
    (hK : ∀ id d raw x, K id d raw x → K' id d raw x) (hV : ∀ id d raw x, V id d raw x → V' id d raw x) :
    BerPair K' V' id d raw x := by
  cases h with
  | mk _ _ _ _ _ _ _ _ _ _ _ h1 h2 h3 h4 => exact .mk _ _ _ _ _ _ _ _ _ _ _ h1 (hK _ _ _ _ h2) h3 (hV _ _ _ _ h4)

mutual
theorem Spec.Ty.Upto.berVal (lax : Bool) (o : (α : Type) → List α → List α) : {k : Nat} → {α : Type} → {t t' : Ty α} →
    Ty.Upto k t t' → ∀ id d raw v, t.berVal lax o id d raw v → t'.berVal lax o id d raw v
  | _, _, _, _, .hole _, _, _, _, _, h => h.elim
  | _, _, _, _, .refl _ _, _, _, _, _, h => h
  | _, _, _, _, .vec _ u, _, _, _, _, h => by
    obtain ⟨h1, c, h2, h3⟩ := h
    exact ⟨h1, c, h2, h3.weaken (Ty.Upto.berVal lax o u)⟩
  | _, _, _, _, .linkedList _ u, _, _, _, _, h => by
    obtain ⟨h1, c, h2, h3⟩ := h
    exact ⟨h1, c, h2, h3.weaken (Ty.Upto.berVal lax o u)⟩
  | _, _, _, _, .vecDeque _ u, _, _, _, _, h => by
    obtain ⟨h1, c, h2, h3⟩ := h
    exact ⟨h1, c, h2, h3.weaken (Ty.Upto.berVal lax o u)⟩
  | _, _, _, _, .btreeSet _ _ _ _ u, _, _, _, _, h => by
    obtain ⟨h1, c, l, h2, h3, h4⟩ := h
    exact ⟨h1, c, l, h2, h3.weaken (Ty.Upto.berVal lax o u), h4⟩
  | _, _, _, _, .btreeMap _ _ _ _ u u', _, _, _, _, h => by
    obtain ⟨h1, c, l, h2, h3, h4⟩ := h
    exact ⟨h1, c, l, h2, h3.weaken fun _ _ _ _ h => h.weaken (Ty.Upto.berVal lax o u) (Ty.Upto.berVal lax o u'), h4⟩
  | _, _, _, _, .hashSet _ _ u, _, _, _, _, h => by
    obtain ⟨h1, c, l, h2, h3, h4⟩ := h
    exact ⟨h1, c, l, h2, h3.weaken (Ty.Upto.berVal lax o u), h4⟩
  | _, _, _, _, .hashMap _ _ u u', _, _, _, _, h => by
    obtain ⟨h1, c, l, x, h2, h3, h4⟩ := h
    exact ⟨h1, c, l, x, h2, h3.weaken fun _ _ _ _ h => h.weaken (Ty.Upto.berVal lax o u) (Ty.Upto.berVal lax o u'), h4⟩
  | _, _, _, _, .struct _ _ u, _, _, _, v, h => by
    obtain ⟨h1, c, h2, h3⟩ := h
    exact ⟨h1, c, h2, Fields.Upto.berVal lax o u c v h3⟩
  | _, _, _, _, .enum _ u, id, d, raw, v, h => Variants.Upto.berVal lax o u id d raw v h
  | _, _, _, _, .transparent u, id, d, raw, v, h => Fields.Upto.berOne lax o u id d raw v h
  | _, _, _, _, .conv f _ u, id, d, raw, _, h => by
    obtain ⟨x, h1, h2⟩ := h
    exact ⟨x, Ty.Upto.berVal lax o u id d raw x h1, h2⟩
  | _, _, _, _, .named f _ _ _ u, id, d, raw, v, h => Ty.Upto.berVal lax o u id d raw (f v) h
theorem Spec.Fields.Upto.berVal (lax : Bool) (o : (α : Type) → List α → List α) : {k : Nat} → {γ : Type} → {fs fs' : Fields γ} →
    Fields.Upto k fs fs' → ∀ c v, fs.berVal lax o c v → fs'.berVal lax o c v
  | _, _, _, _, .nil _, _, _, h => h
  | _, _, _, _, .plain u r, _, v, h => by
    obtain ⟨p, id, d, raw, c', h1, h2, h4, h5⟩ := h
    exact ⟨p, id, d, raw, c', h1, h2, Ty.Upto.berVal lax o u id d raw v.1 h4, Fields.Upto.berVal lax o r c' v.2 h5⟩
  | _, _, _, _, .skip _ r, c, v, h => ⟨h.1, Fields.Upto.berVal lax o r c v.2 h.2⟩
  | _, _, _, _, .skipSer u r, _, v, h => by
    obtain ⟨p, id, d, raw, c', h1, h2, h4, h5⟩ := h
    exact ⟨p, id, d, raw, c', h1, h2, Ty.Upto.berVal lax o u id d raw v.1 h4, Fields.Upto.berVal lax o r c' v.2 h5⟩
  | _, _, _, _, .skipDe _ _ r, c, v, h => ⟨h.1, Fields.Upto.berVal lax o r c v.2 h.2⟩
  | _, _, _, _, .conv f _ u r, _, v, h => by
    obtain ⟨p, id, d, raw, c', h1, h2, ⟨x, h4, h6⟩, h5⟩ := h
    exact ⟨p, id, d, raw, c', h1, h2, ⟨x, Ty.Upto.berVal lax o u id d raw x h4, h6⟩, Fields.Upto.berVal lax o r c' v.2 h5⟩
theorem Spec.Fields.Upto.berOne (lax : Bool) (o : (α : Type) → List α → List α) : {k : Nat} → {γ : Type} → {fs fs' : Fields γ} →
    Fields.Upto k fs fs' → ∀ id d raw v, fs.berOne lax o id d raw v → fs'.berOne lax o id d raw v
  | _, _, _, _, .nil _, _, _, _, _, h => h
  | _, _, _, _, .plain u r, id, d, raw, v, h =>
    ⟨Ty.Upto.berVal lax o u id d raw v.1 h.1, Fields.Upto.berOne lax o r id d raw v.2 h.2⟩
  | _, _, _, _, .skip _ r, id, d, raw, v, h => ⟨h.1, Fields.Upto.berOne lax o r id d raw v.2 h.2⟩
  | _, _, _, _, .skipSer u r, id, d, raw, v, h =>
    ⟨Ty.Upto.berVal lax o u id d raw v.1 h.1, Fields.Upto.berOne lax o r id d raw v.2 h.2⟩
  | _, _, _, _, .skipDe _ _ r, id, d, raw, v, h => ⟨h.1, Fields.Upto.berOne lax o r id d raw v.2 h.2⟩
  | _, _, _, _, .conv f _ u r, id, d, raw, v, h => by
    obtain ⟨⟨x, h1, h3⟩, h2⟩ := h
    exact ⟨⟨x, Ty.Upto.berVal lax o u id d raw x h1, h3⟩, Fields.Upto.berOne lax o r id d raw v.2 h2⟩
theorem Spec.Variants.Upto.berVal (lax : Bool) (o : (α : Type) → List α → List α) : {k : Nat} → {ρ : Type} →
    {vs vs' : Variants ρ} → Variants.Upto k vs vs' → ∀ id d raw v, vs.berVal lax o id d raw v → vs'.berVal lax o id d raw v
  | _, _, _, _, .cons _ u _, _, _, _, .inl v, h => by
    obtain ⟨h1, c, h2, h3⟩ := h
    exact ⟨h1, c, h2, Fields.Upto.berVal lax o u c v h3⟩
  | _, _, _, _, .cons _ _ r, id, d, raw, .inr v, h => ⟨h.1, Variants.Upto.berVal lax o r id d raw v h.2⟩
end

/-! ### Short inputs -/

/-- The decoders do the same with DER values whose contents are shorter than `2 * k`. -/
def AgreeDer (k : Nat) (d d' : De α) : Prop := ∀ id c, c.length < 2 * k → d.fromDer id c = d'.fromDer id c

/-- The same for BER. -/
def AgreeBer (k : Nat) (d d' : De α) : Prop :=
  ∀ id indef raw, raw.length ≤ isizeMax → raw.length < 2 * k → d.fromBer id (lenOf indef raw) raw = d'.fromBer id (lenOf indef raw) raw

theorem collect_agree {next next' : Bytes → Res (Option (α × Bytes))} {n : Nat} (hn : Consumes n next)
    (hs : ∀ c : Bytes, c.length ≤ n → next c = next' c) (insert : γ → α → γ) :
    ∀ (f : Nat) (c : Bytes) (ret : γ), c.length ≤ n → collectLoop next insert f c ret = collectLoop next' insert f c ret := by
  intro f
  induction f with
  | zero => intro c ret _; rfl
  | succ f ih =>
    intro c ret hc
    rw [collectLoop, collectLoop, ← hs c hc]
    cases e : next c with
    | ok o =>
      cases o with
      | none => rfl
      | some x =>
        obtain ⟨t, c'⟩ := x
        have := hn c t c' hc e
        exact ih c' _ (by omega)
    | _ => rfl

theorem tlv_contents_lt {id b c rest : Bytes} (h : IsId id) (e : c = tlv id b ++ rest) : b.length + rest.length + 2 ≤ c.length := by
  have := isId_length_pos h
  have : 0 < (lenOctets b.length).length := List.length_pos_iff.mpr (lenOctets_ne_nil _)
  rw [e, List.length_append, tlv_length]
  omega

theorem derToVal_agree {k : Nat} {d d' : De α} (h : AgreeDer k d d') (c : Bytes) (hc : c.length ≤ 2 * k + 1) :
    derToVal d c = derToVal d' c := by
  rw [derToVal, derToVal]
  split
  · rfl
  · rcases derParse_cases c with ⟨e, rest, hp⟩ | ⟨id, b, rest, h1, h2, hp, he⟩
    · rw [hp]; rfl
    · rw [hp]
      have := tlv_contents_lt h1 he
      simp only [mapErrContext, Res.bind_ok]
      rw [show DerRef.disassemble (tlv id b) = _ from disassemble_tlv h1 h2, Res.bind_ok]
      simp only []
      rw [h id b (by omega)]; rfl

theorem derTmpVal_agree {k : Nat} {d d' : De α} (h : AgreeDer k d d') (c : Bytes) (hc : c.length ≤ 2 * k + 1) :
    derTmpVal d c = derTmpVal d' c := by
  rw [derTmpVal, derTmpVal]
  rcases derParse_cases c with ⟨e, rest, hp⟩ | ⟨id, b, rest, h1, h2, hp, he⟩
  · rw [hp]; rfl
  · rw [hp]
    have := tlv_contents_lt h1 he
    simp only [mapErrContext, Res.bind_ok]
    rw [show DerRef.disassemble (tlv id b) = _ from disassemble_tlv h1 h2, Res.bind_ok]
    simp only []
    rw [h id b (by omega)]; rfl

theorem derTmpVal_shorter {d : De α} {c : Bytes} {v : α} {rest : Bytes} (h : derTmpVal d c = .ok (v, rest)) :
    rest.length ≤ c.length := by
  rw [derTmpVal] at h
  rcases derParse_cases c with ⟨e, rest', hp⟩ | ⟨id, b, rest', h1, h2, hp, he⟩
  · rw [hp] at h; cases h
  · rw [hp] at h
    have := tlv_contents_lt h1 he
    simp only [mapErrContext, Res.bind_ok] at h
    rw [show DerRef.disassemble (tlv id b) = _ from disassemble_tlv h1 h2, Res.bind_ok] at h
    obtain ⟨_, _, h⟩ := Res.bind_eq_ok.mp h
    cases h
    omega

theorem derToKeyVal_agree {k : Nat} {dk dk' : De α} {dv dv' : De β} (hk : AgreeDer k dk dk') (hv : AgreeDer k dv dv')
    (c : Bytes) (hc : c.length ≤ 2 * k + 1) : derToKeyVal dk dv c = derToKeyVal dk' dv' c := by
  rw [derToKeyVal, derToKeyVal]
  split
  · rfl
  · rcases derParse_cases c with ⟨e, rest, hp⟩ | ⟨id, b, rest, h1, h2, hp, he⟩
    · rw [hp]; rfl
    · rw [hp]
      have := tlv_contents_lt h1 he
      simp only [mapErrContext, Res.bind_ok]
      rw [DerRef_id_tlv h1 b, Res.bind_ok, Res.bind_ok]
      split
      · rfl
      rw [DerRef_contents_tlv h1 h2, Res.bind_ok, Res.bind_ok]
      rcases derParse_cases b with ⟨e, rest', hp'⟩ | ⟨id', b', rest', h1', h2', hp', he'⟩
      · rw [hp']; rfl
      rw [hp']
      have := tlv_contents_lt h1' he'
      simp only [Res.bind_ok]
      rcases derParse_cases rest' with ⟨e, rest'', hp''⟩ | ⟨id'', b'', rest'', h1'', h2'', hp'', he''⟩
      · rw [hp'']; rfl
      rw [hp'']
      have := tlv_contents_lt h1'' he''
      simp only [Res.bind_ok]
      split
      · rw [show DerRef.disassemble (tlv id' b') = _ from disassemble_tlv h1' h2', Res.bind_ok, Res.bind_ok]
        simp only []
        rw [show DerRef.disassemble (tlv id'' b'') = _ from disassemble_tlv h1'' h2'']
        simp only [Res.bind_ok]
        rw [hk id' b' (by omega), hv id'' b'' (by omega)]
      · rfl

theorem berToVal_agree {k : Nat} {d d' : De α} (h : AgreeBer k d d') (c : Bytes) (hm : c.length ≤ isizeMax)
    (hc : c.length ≤ 2 * k + 1) : berToVal d c = berToVal d' c := by
  rw [berToVal, berToVal]
  split
  · rfl
  · rcases berParse_cases c hm with ⟨e, rest, hp⟩ | ⟨p, id, indef, raw, rest, hv, hp, rfl⟩
    · rw [hp]; rfl
    · rw [hp]
      have hl := berValue_length hv
      rw [List.length_append] at hc hm
      simp only [mapErrContext, Res.bind_ok]
      rw [berValue_disassemble hv, Res.bind_ok]
      simp only []
      rw [h id indef raw (by omega) (by omega)]; rfl

theorem berTmpVal_agree {k : Nat} {d d' : De α} (h : AgreeBer k d d') (c : Bytes) (hm : c.length ≤ isizeMax)
    (hc : c.length ≤ 2 * k + 1) : berTmpVal d c = berTmpVal d' c := by
  rw [berTmpVal, berTmpVal]
  rcases berParse_cases c hm with ⟨e, rest, hp⟩ | ⟨p, id, indef, raw, rest, hv, hp, rfl⟩
  · rw [hp]; rfl
  · rw [hp]
    have hl := berValue_length hv
    rw [List.length_append] at hc hm
    simp only [mapErrContext, Res.bind_ok]
    rw [berValue_disassemble hv, Res.bind_ok]
    simp only []
    rw [h id indef raw (by omega) (by omega)]; rfl

theorem berTmpVal_shorter {d : De α} {c : Bytes} (hc : c.length ≤ isizeMax) {v : α} {rest : Bytes}
    (h : berTmpVal d c = .ok (v, rest)) : rest.length ≤ c.length := by
  obtain ⟨p, id, indef, raw, _, _, rfl⟩ := (berTmpVal_iff d c hc v rest).mp h
  rw [List.length_append]
  omega

theorem berToKeyVal_agree {k : Nat} {dk dk' : De α} {dv dv' : De β} (hk : AgreeBer k dk dk') (hv : AgreeBer k dv dv')
    (c : Bytes) (hm : c.length ≤ isizeMax) (hc : c.length ≤ 2 * k + 1) : berToKeyVal dk dv c = berToKeyVal dk' dv' c := by
  rw [berToKeyVal, berToKeyVal]
  split
  · rfl
  · rcases berParse_cases c hm with ⟨e, rest, hp⟩ | ⟨p, id, indef, raw, rest, hb, hp, rfl⟩
    · rw [hp]; rfl
    · rw [hp]
      have hl := berValue_length hb
      rw [List.length_append] at hc hm
      simp only [mapErrContext, Res.bind_ok]
      rw [berValue_id hb, Res.bind_ok, Res.bind_ok]
      split
      · rfl
      rw [berValue_contents hb, Res.bind_ok, Res.bind_ok]
      rcases berParse_cases raw (by omega) with ⟨e, rest', hp'⟩ | ⟨p', id', d', b', rest', hb', hp', e'⟩
      · rw [hp']; rfl
      have hl' := berValue_length hb'
      have he' := congrArg List.length e'
      rw [List.length_append] at he'
      rw [hp']
      simp only [Res.bind_ok]
      rcases berParse_cases rest' (by omega) with ⟨e, rest'', hp''⟩ | ⟨p'', id'', d'', b'', rest'', hb'', hp'', e''⟩
      · rw [hp'']; rfl
      have hl'' := berValue_length hb''
      have he'' := congrArg List.length e''
      rw [List.length_append] at he''
      rw [hp'']
      simp only [Res.bind_ok]
      split
      · rw [berValue_disassemble hb', Res.bind_ok, Res.bind_ok]
        simp only []
        rw [berValue_disassemble hb'']
        simp only [Res.bind_ok]
        rw [hk id' d' b' (by omega) (by omega), hv id'' d'' b'' (by omega) (by omega)]
      · rfl

theorem Res.bind_congr {x : Res α} {f g : α → Res β} (h : ∀ a, x = .ok a → f a = g a) : x.bind f = x.bind g := by
  cases x with
  | ok a => exact h a rfl
  | _ => rfl

theorem guard_congr {c : Prop} [Decidable c] {e : Res α} {x y : Res α} (h : x = y) : (if c then e else x) = if c then e else y := by
  rw [h]

theorem collectDer_agree {k : Nat} {d d' : De α} (h : AgreeDer k d d') (insert : γ → α → γ) (c : Bytes) (hc : c.length ≤ 2 * k + 1)
    (ret : γ) : collect (derToVal d) insert c ret = collect (derToVal d') insert c ret :=
  collect_agree (derToVal_consumes (2 * k + 1) d) (fun c hc => derToVal_agree h c hc) insert _ c ret hc

theorem collectDerPairs_agree {k : Nat} {dk dk' : De α} {dv dv' : De β} (hk : AgreeDer k dk dk') (hv : AgreeDer k dv dv')
    (insert : γ → α × β → γ) (c : Bytes) (hc : c.length ≤ 2 * k + 1) (ret : γ) :
    collect (derToKeyVal dk dv) insert c ret = collect (derToKeyVal dk' dv') insert c ret :=
  collect_agree (derToKeyVal_consumes (2 * k + 1) dk dv) (fun c hc => derToKeyVal_agree hk hv c hc) insert _ c ret hc

theorem collectBer_agree {k : Nat} {d d' : De α} (h : AgreeBer k d d') (insert : γ → α → γ) (c : Bytes)
    (hm : c.length ≤ isizeMax) (hc : c.length ≤ 2 * k + 1) (ret : γ) :
    collect (berToVal d) insert c ret = collect (berToVal d') insert c ret :=
  collect_agree (n := c.length) (fun c' x r h => berToVal_consumes d c' x r (Nat.le_trans h hm))
    (fun c' hc' => berToVal_agree h c' (by omega) (by omega)) insert _ c ret (Nat.le_refl _)

theorem collectBerPairs_agree {k : Nat} {dk dk' : De α} {dv dv' : De β} (hk : AgreeBer k dk dk') (hv : AgreeBer k dv dv')
    (insert : γ → α × β → γ) (c : Bytes) (hm : c.length ≤ isizeMax) (hc : c.length ≤ 2 * k + 1) (ret : γ) :
    collect (berToKeyVal dk dv) insert c ret = collect (berToKeyVal dk' dv') insert c ret :=
  collect_agree (n := c.length) (fun c' x r h => berToKeyVal_consumes dk dv c' x r (Nat.le_trans h hm))
    (fun c' hc' => berToKeyVal_agree hk hv c' (by omega) (by omega)) insert _ c ret (Nat.le_refl _)

theorem body_agree {m : Build} {indef : Bool} {raw : Bytes} {n : Nat} {f g : Bytes → Res α} (hl : raw.length ≤ isizeMax)
    (hn : raw.length ≤ n) (h : ∀ c : Bytes, c.length ≤ isizeMax → c.length ≤ n → f c = g c) :
    (excludeEoc m (lenOf indef raw) raw).bind f = (excludeEoc m (lenOf indef raw) raw).bind g :=
  Res.bind_congr fun c hc => by
    have := isBody_length ((excludeEoc_iff m indef raw c).mp hc)
    exact h c (by omega) (by omega)

theorem back_agreeDer {k : Nat} {d d' : De β} (h : AgreeDer k d d') (g : Back β α) : AgreeDer k (De.back d g) (De.back d' g) := by
  intro id c hc
  cases g with
  | from_ g => exact congrArg (fun x : Res β => x.bind fun v => .ok (g v)) (h id c hc)
  | tryFrom g => exact congrArg (fun x : Res β => x.bind fun v => convErr (g v)) (h id c hc)

theorem back_agreeBer {k : Nat} {d d' : De β} (h : AgreeBer k d d') (g : Back β α) : AgreeBer k (De.back d g) (De.back d' g) := by
  intro id i raw hm hc
  cases g with
  | from_ g => exact congrArg (fun x : Res β => x.bind fun v => .ok (g v)) (h id i raw hm hc)
  | tryFrom g => exact congrArg (fun x : Res β => x.bind fun v => convErr (g v)) (h id i raw hm hc)

theorem backField_agree {tmp : {δ : Type} → De δ → Bytes → Res (δ × Bytes)} {d d' : De β} {bytes : Bytes}
    (h : tmp d bytes = tmp d' bytes) (g : Back β α) :
    deField tmp (backField d g) bytes = deField tmp (backField d' g) bytes := by
  cases g with
  | from_ g => exact congrArg (fun x : Res (β × Bytes) => x.bind fun v => .ok (g v.1, v.2)) h
  | tryFrom g => exact congrArg (fun x : Res (β × Bytes) => x.bind fun v => (convErr (g v.1)).bind fun w => .ok (w, v.2)) h

theorem backFieldTransparent_agree {tmp : {δ : Type} → De δ → Res δ} {d d' : De β} (h : tmp d = tmp d') (g : Back β α) :
    deFieldTransparent tmp (backField d g) = deFieldTransparent tmp (backField d' g) := by
  cases g with
  | from_ g => exact congrArg (fun x : Res β => (mapErrContext x).bind fun v => .ok (g v)) h
  | tryFrom g => exact congrArg (fun x : Res β => (mapErrContext x).bind fun v => convErr (g v)) h

theorem backField_shorterDer {d : De β} {bytes : Bytes} {g : Back β α} {v : α} {rest : Bytes}
    (h : deField derTmpVal (backField d g) bytes = .ok (v, rest)) : rest.length ≤ bytes.length := by
  cases g with
  | from_ g =>
    obtain ⟨⟨_, _⟩, h1, h2⟩ := Res.bind_eq_ok.mp h
    cases h2
    exact derTmpVal_shorter h1
  | tryFrom g =>
    obtain ⟨⟨_, _⟩, h1, h2⟩ := Res.bind_eq_ok.mp h
    obtain ⟨_, _, h2⟩ := Res.bind_eq_ok.mp h2
    cases h2
    exact derTmpVal_shorter h1

theorem backField_shorterBer {d : De β} {bytes : Bytes} (hm : bytes.length ≤ isizeMax) {g : Back β α} {v : α} {rest : Bytes}
    (h : deField berTmpVal (backField d g) bytes = .ok (v, rest)) : rest.length ≤ bytes.length := by
  cases g with
  | from_ g =>
    obtain ⟨⟨_, _⟩, h1, h2⟩ := Res.bind_eq_ok.mp h
    cases h2
    exact berTmpVal_shorter hm h1
  | tryFrom g =>
    obtain ⟨⟨_, _⟩, h1, h2⟩ := Res.bind_eq_ok.mp h
    obtain ⟨_, _, h2⟩ := Res.bind_eq_ok.mp h2
    cases h2
    exact berTmpVal_shorter hm h1

/-- Two fields decoded one after the other. -/
theorem seq_agree {x y : Res (β × Bytes)} {f g : Bytes → Res (γ × Bytes)} (h : x = y)
    (hf : ∀ v rest, x = .ok (v, rest) → f rest = g rest) :
    (x.bind fun v => (f v.2).bind fun w => Res.ok ((v.1, w.1), w.2)) =
      y.bind fun v => (g v.2).bind fun w => Res.ok ((v.1, w.1), w.2) := by
  subst h
  exact Res.bind_congr fun v hv => by rw [hf v.1 v.2 hv]

theorem pair_agree {x y : Res β} {f g : Res γ} (h : x = y) (hf : f = g) :
    (x.bind fun v => f.bind fun w => Res.ok (v, w)) = y.bind fun v => g.bind fun w => Res.ok (v, w) := by
  rw [h, hf]

theorem deserializedFields_agree (m : Build) (o : HashOrder) : {k : Nat} → {γ : Type} → {fs fs' : Fields γ} →
    Fields.Upto k fs fs' → deserializedFields (Fields.de m o fs) = deserializedFields (Fields.de m o fs')
  | _, _, _, _, .nil _ => rfl
  | _, _, _, _, .plain _ r => congrArg (· + 1) (deserializedFields_agree m o r)
  | _, _, _, _, .skip _ r => by
    rw [Fields.de, Fields.de, deserializedFields, deserializedFields]
    exact deserializedFields_agree m o r
  | _, _, _, _, .skipSer _ r => congrArg (· + 1) (deserializedFields_agree m o r)
  | _, _, _, _, .skipDe _ _ r => by
    rw [Fields.de, Fields.de, deserializedFields, deserializedFields]
    exact deserializedFields_agree m o r
  | _, _, _, _, .conv _ (.from_ _) _ r => congrArg (· + 1) (deserializedFields_agree m o r)
  | _, _, _, _, .conv _ (.tryFrom _) _ r => congrArg (· + 1) (deserializedFields_agree m o r)

mutual
theorem Spec.Ty.Upto.agreeDer (m : Build) (o : HashOrder) : {k : Nat} → {α : Type} → {t t' : Ty α} → Ty.Upto k t t' →
    AgreeDer k (Ty.de m o t) (Ty.de m o t')
  | _, _, _, _, .hole _, _, _, h => absurd h (Nat.not_lt_zero _)
  | _, _, _, _, .refl _ _, _, _, _ => rfl
  | _, _, _, _, .vec hk u, _, c, h => guard_congr (collectDer_agree (Ty.Upto.agreeDer m o u) _ c (by omega) _)
  | _, _, _, _, .linkedList hk u, _, c, h => guard_congr (collectDer_agree (Ty.Upto.agreeDer m o u) _ c (by omega) _)
  | _, _, _, _, .vecDeque hk u, _, c, h => guard_congr (collectDer_agree (Ty.Upto.agreeDer m o u) _ c (by omega) _)
  | _, _, _, _, .btreeSet _ _ _ hk u, _, c, h => guard_congr (collectDer_agree (Ty.Upto.agreeDer m o u) _ c (by omega) _)
  | _, _, _, _, .btreeMap _ _ _ hk u u', _, c, h =>
    guard_congr (collectDerPairs_agree (Ty.Upto.agreeDer m o u) (Ty.Upto.agreeDer m o u') _ c (by omega) _)
  | _, _, _, _, .hashSet _ hk u, _, c, h =>
    guard_congr (congrArg (fun x : Res _ => x.bind _) (collectDer_agree (Ty.Upto.agreeDer m o u) _ c (by omega) _))
  | _, _, _, _, .hashMap _ hk u u', _, c, h =>
    guard_congr (congrArg (fun x : Res _ => x.bind _)
      (collectDerPairs_agree (Ty.Upto.agreeDer m o u) (Ty.Upto.agreeDer m o u') _ c (by omega) _))
  | _, _, _, _, .struct _ hk u, _, c, h =>
    guard_congr (congrArg (fun x : Res _ => x.bind _) (Fields.Upto.agreeDer m o u c (by omega)))
  | _, _, _, _, .enum hk u, id, c, h => Variants.Upto.agreeDer m o u id c (by omega)
  | _, _, _, _, .transparent u, id, c, h => by
    rw [Ty.de, Ty.de, De.transparent, De.transparent, ← deserializedFields_agree m o u]
    split
    · exact Fields.Upto.agreeOneDer m o u id c h
    · exact guard_congr (congrArg (fun x : Res _ => x.bind _) (Fields.Upto.agreeDer m o u c (by omega)))
  | _, _, _, _, .conv _ g u, id, c, h => back_agreeDer (Ty.Upto.agreeDer m o u) g id c h
  | _, _, _, _, .named _ g _ _ u, id, c, h => back_agreeDer (Ty.Upto.agreeDer m o u) (.from_ g) id c h
theorem Spec.Fields.Upto.agreeDer (m : Build) (o : HashOrder) : {k : Nat} → {γ : Type} → {fs fs' : Fields γ} →
    Fields.Upto k fs fs' → ∀ c : Bytes, c.length ≤ 2 * k + 1 →
    deFields derTmpVal (Fields.de m o fs) c = deFields derTmpVal (Fields.de m o fs') c
  | _, _, _, _, .nil _, _, _ => rfl
  | _, _, _, _, .plain u r, c, h => seq_agree (derTmpVal_agree (Ty.Upto.agreeDer m o u) c h)
      fun _ rest hx => Fields.Upto.agreeDer m o r rest (Nat.le_trans (derTmpVal_shorter hx) h)
  | _, _, _, _, .skip _ r, c, h => seq_agree (x := .ok (_, c)) rfl fun _ rest hx => by
      cases hx
      exact Fields.Upto.agreeDer m o r c h
  | _, _, _, _, .skipSer u r, c, h => seq_agree (derTmpVal_agree (Ty.Upto.agreeDer m o u) c h)
      fun _ rest hx => Fields.Upto.agreeDer m o r rest (Nat.le_trans (derTmpVal_shorter hx) h)
  | _, _, _, _, .skipDe _ _ r, c, h => seq_agree (x := .ok (_, c)) rfl fun _ rest hx => by
      cases hx
      exact Fields.Upto.agreeDer m o r c h
  | _, _, _, _, .conv _ g u r, c, h => seq_agree (backField_agree (derTmpVal_agree (Ty.Upto.agreeDer m o u) c h) g)
      fun _ rest hx => Fields.Upto.agreeDer m o r rest (Nat.le_trans (backField_shorterDer hx) h)
theorem Spec.Fields.Upto.agreeOneDer (m : Build) (o : HashOrder) : {k : Nat} → {γ : Type} → {fs fs' : Fields γ} →
    Fields.Upto k fs fs' → ∀ (id c : Bytes), c.length < 2 * k →
    deFieldsTransparent (fun d => d.fromDer id c) (Fields.de m o fs) =
      deFieldsTransparent (fun d => d.fromDer id c) (Fields.de m o fs')
  | _, _, _, _, .nil _, _, _, _ => rfl
  | _, _, _, _, .plain u r, id, c, h =>
    pair_agree (congrArg mapErrContext (Ty.Upto.agreeDer m o u id c h)) (Fields.Upto.agreeOneDer m o r id c h)
  | _, _, _, _, .skip d r, id, c, h => pair_agree (x := .ok d) rfl (Fields.Upto.agreeOneDer m o r id c h)
  | _, _, _, _, .skipSer u r, id, c, h =>
    pair_agree (congrArg mapErrContext (Ty.Upto.agreeDer m o u id c h)) (Fields.Upto.agreeOneDer m o r id c h)
  | _, _, _, _, .skipDe d _ r, id, c, h => pair_agree (x := .ok d) rfl (Fields.Upto.agreeOneDer m o r id c h)
  | _, _, _, _, .conv _ g u r, id, c, h =>
    pair_agree (backFieldTransparent_agree (Ty.Upto.agreeDer m o u id c h) g) (Fields.Upto.agreeOneDer m o r id c h)
theorem Spec.Variants.Upto.agreeDer (m : Build) (o : HashOrder) : {k : Nat} → {ρ : Type} → {vs vs' : Variants ρ} →
    Variants.Upto k vs vs' → ∀ (id c : Bytes), c.length ≤ 2 * k + 1 →
    (Variants.de m o vs).pick id (fun fs => fromDerContents fs c) = (Variants.de m o vs').pick id fun fs => fromDerContents fs c
  | _, _, _, _, .nil _, _, _, _ => rfl
  | _, _, _, _, .cons i u r, id, c, h => by
    rw [Variants.de, Variants.de, DeVariants.pick, DeVariants.pick]
    refine if_congr Iff.rfl ?_ ?_
    · exact congrArg (fun x : Res _ => (x.bind finish).bind _) (Fields.Upto.agreeDer m o u c h)
    · exact congrArg (fun x : Res _ => x.bind _) (Variants.Upto.agreeDer m o r id c h)
end

mutual
theorem Spec.Ty.Upto.agreeBer (m : Build) (o : HashOrder) : {k : Nat} → {α : Type} → {t t' : Ty α} → Ty.Upto k t t' →
    AgreeBer k (Ty.de m o t) (Ty.de m o t')
  | _, _, _, _, .hole _, _, _, _, _, h => absurd h (Nat.not_lt_zero _)
  | _, _, _, _, .refl _ _, _, _, _, _, _ => rfl
  | _, _, _, _, .vec (k := n) hk u, _, _, _, hm, h => guard_congr (body_agree (n := 2 * n + 1) hm (by omega) fun c h1 h2 =>
      collectBer_agree (Ty.Upto.agreeBer m o u) _ c h1 h2 _)
  | _, _, _, _, .linkedList (k := n) hk u, _, _, _, hm, h => guard_congr (body_agree (n := 2 * n + 1) hm (by omega) fun c h1 h2 =>
      collectBer_agree (Ty.Upto.agreeBer m o u) _ c h1 h2 _)
  | _, _, _, _, .vecDeque (k := n) hk u, _, _, _, hm, h => guard_congr (body_agree (n := 2 * n + 1) hm (by omega) fun c h1 h2 =>
      collectBer_agree (Ty.Upto.agreeBer m o u) _ c h1 h2 _)
  | _, _, _, _, .btreeSet (k := n) _ _ _ hk u, _, _, _, hm, h => guard_congr (body_agree (n := 2 * n + 1) hm (by omega) fun c h1 h2 =>
      collectBer_agree (Ty.Upto.agreeBer m o u) _ c h1 h2 _)
  | _, _, _, _, .btreeMap (k := n) _ _ _ hk u u', _, _, _, hm, h =>
    guard_congr (body_agree (n := 2 * n + 1) hm (by omega) fun c h1 h2 =>
      collectBerPairs_agree (Ty.Upto.agreeBer m o u) (Ty.Upto.agreeBer m o u') _ c h1 h2 _)
  | _, _, _, _, .hashSet (k := n) _ hk u, _, _, _, hm, h => guard_congr (body_agree (n := 2 * n + 1) hm (by omega) fun c h1 h2 =>
      congrArg (fun x : Res _ => x.bind _) (collectBer_agree (Ty.Upto.agreeBer m o u) _ c h1 h2 _))
  | _, _, _, _, .hashMap (k := n) _ hk u u', _, _, _, hm, h =>
    guard_congr (body_agree (n := 2 * n + 1) hm (by omega) fun c h1 h2 => congrArg (fun x : Res _ => x.bind _)
      (collectBerPairs_agree (Ty.Upto.agreeBer m o u) (Ty.Upto.agreeBer m o u') _ c h1 h2 _))
  | _, _, _, _, .struct (k := n) _ hk u, _, _, _, hm, h => guard_congr (by
      rw [fromBerContents, fromBerContents, structContents_eq]
      exact body_agree (n := 2 * n + 1) hm (by omega) fun c h1 h2 =>
        congrArg (fun x : Res _ => x.bind _) (Fields.Upto.agreeBer m o u c h1 h2))
  | _, _, _, _, .enum hk u, id, i, raw, hm, h => Variants.Upto.agreeBer m o u id i raw hm (by omega)
  | _, _, _, _, .transparent (k := n) u, id, i, raw, hm, h => by
    rw [Ty.de, Ty.de, De.transparent, De.transparent, ← deserializedFields_agree m o u]
    split
    · exact Fields.Upto.agreeOneBer m o u id i raw hm h
    · exact guard_congr (by
        rw [fromBerContents, fromBerContents, structContents_eq]
        exact body_agree (n := 2 * n + 1) hm (by omega) fun c h1 h2 =>
          congrArg (fun x : Res _ => x.bind _) (Fields.Upto.agreeBer m o u c h1 h2))
  | _, _, _, _, .conv _ g u, id, i, raw, hm, h => back_agreeBer (Ty.Upto.agreeBer m o u) g id i raw hm h
  | _, _, _, _, .named _ g _ _ u, id, i, raw, hm, h => back_agreeBer (Ty.Upto.agreeBer m o u) (.from_ g) id i raw hm h
theorem Spec.Fields.Upto.agreeBer (m : Build) (o : HashOrder) : {k : Nat} → {γ : Type} → {fs fs' : Fields γ} →
    Fields.Upto k fs fs' → ∀ c : Bytes, c.length ≤ isizeMax → c.length ≤ 2 * k + 1 →
    deFields berTmpVal (Fields.de m o fs) c = deFields berTmpVal (Fields.de m o fs') c
  | _, _, _, _, .nil _, _, _, _ => rfl
  | _, _, _, _, .plain u r, c, hm, h => seq_agree (berTmpVal_agree (Ty.Upto.agreeBer m o u) c hm h)
      fun _ rest hx => have := berTmpVal_shorter hm hx
        Fields.Upto.agreeBer m o r rest (Nat.le_trans this hm) (Nat.le_trans this h)
  | _, _, _, _, .skip _ r, c, hm, h => seq_agree (x := .ok (_, c)) rfl fun _ rest hx => by
      cases hx
      exact Fields.Upto.agreeBer m o r c hm h
  | _, _, _, _, .skipSer u r, c, hm, h => seq_agree (berTmpVal_agree (Ty.Upto.agreeBer m o u) c hm h)
      fun _ rest hx => have := berTmpVal_shorter hm hx
        Fields.Upto.agreeBer m o r rest (Nat.le_trans this hm) (Nat.le_trans this h)
  | _, _, _, _, .skipDe _ _ r, c, hm, h => seq_agree (x := .ok (_, c)) rfl fun _ rest hx => by
      cases hx
      exact Fields.Upto.agreeBer m o r c hm h
  | _, _, _, _, .conv _ g u r, c, hm, h => seq_agree (backField_agree (berTmpVal_agree (Ty.Upto.agreeBer m o u) c hm h) g)
      fun _ rest hx => have := backField_shorterBer hm hx
        Fields.Upto.agreeBer m o r rest (Nat.le_trans this hm) (Nat.le_trans this h)
theorem Spec.Fields.Upto.agreeOneBer (m : Build) (o : HashOrder) : {k : Nat} → {γ : Type} → {fs fs' : Fields γ} →
    Fields.Upto k fs fs' → ∀ (id : Bytes) (i : Bool) (raw : Bytes), raw.length ≤ isizeMax → raw.length < 2 * k →
    deFieldsTransparent (fun d => d.fromBer id (lenOf i raw) raw) (Fields.de m o fs) =
      deFieldsTransparent (fun d => d.fromBer id (lenOf i raw) raw) (Fields.de m o fs')
  | _, _, _, _, .nil _, _, _, _, _, _ => rfl
  | _, _, _, _, .plain u r, id, i, raw, hm, h =>
    pair_agree (congrArg mapErrContext (Ty.Upto.agreeBer m o u id i raw hm h)) (Fields.Upto.agreeOneBer m o r id i raw hm h)
  | _, _, _, _, .skip d r, id, i, raw, hm, h => pair_agree (x := .ok d) rfl (Fields.Upto.agreeOneBer m o r id i raw hm h)
  | _, _, _, _, .skipSer u r, id, i, raw, hm, h =>
    pair_agree (congrArg mapErrContext (Ty.Upto.agreeBer m o u id i raw hm h)) (Fields.Upto.agreeOneBer m o r id i raw hm h)
  | _, _, _, _, .skipDe d _ r, id, i, raw, hm, h => pair_agree (x := .ok d) rfl (Fields.Upto.agreeOneBer m o r id i raw hm h)
  | _, _, _, _, .conv _ g u r, id, i, raw, hm, h =>
    pair_agree (backFieldTransparent_agree (Ty.Upto.agreeBer m o u id i raw hm h) g)
      (Fields.Upto.agreeOneBer m o r id i raw hm h)
theorem Spec.Variants.Upto.agreeBer (m : Build) (o : HashOrder) : {k : Nat} → {ρ : Type} → {vs vs' : Variants ρ} →
    Variants.Upto k vs vs' → ∀ (id : Bytes) (i : Bool) (raw : Bytes), raw.length ≤ isizeMax → raw.length ≤ 2 * k + 1 →
    (Variants.de m o vs).pick id (fun fs => fromBerContents m fs (lenOf i raw) raw) =
      (Variants.de m o vs').pick id fun fs => fromBerContents m fs (lenOf i raw) raw
  | _, _, _, _, .nil _, _, _, _, _, _ => rfl
  | k, _, _, _, .cons j u r, id, i, raw, hm, h => by
    rw [Variants.de, Variants.de, DeVariants.pick, DeVariants.pick]
    refine if_congr Iff.rfl ?_ ?_
    · refine congrArg (fun x : Res _ => x.bind _) ?_
      rw [fromBerContents, fromBerContents, structContents_eq]
      exact body_agree (n := 2 * k + 1) hm h fun c h1 h2 =>
        congrArg (fun x : Res _ => x.bind _) (Fields.Upto.agreeBer m o u c h1 h2)
    · exact congrArg (fun x : Res _ => x.bind _) (Variants.Upto.agreeBer m o r id i raw hm h)
end

end Bsn1
