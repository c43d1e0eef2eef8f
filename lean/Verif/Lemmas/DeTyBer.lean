import Verif.Lemmas.DeTy
/-!
# Decoding BER follows the specification, for every type expression
-/

namespace Bsn1
open Spec

variable {α β γ : Type}

/-- A decoder that follows a relation from BER. -/
def DecodesBer (d : De α) (R : Bytes → Bool → Bytes → α → Prop) : Prop :=
  ∀ id indef raw v, raw.length ≤ isizeMax → (d.fromBer id (lenOf indef raw) raw = .ok v ↔ R id indef raw v)

theorem DecodesBer.elems {d : De α} {R : Bytes → Bool → Bytes → α → Prop} (h : DecodesBer d R) (c : Bytes)
    (hc : c.length ≤ isizeMax) (l : List α) :
    BerElems (fun id indef raw x => d.fromBer id (lenOf indef raw) raw = .ok x) c l ↔ BerElems R c l :=
  Spec.BerElems.congr hc h

theorem DecodesBer.pairs {dk : De α} {K : Bytes → Bool → Bytes → α → Prop} (hk : DecodesBer dk K) {dv : De β}
    {V : Bytes → Bool → Bytes → β → Prop} (hv : DecodesBer dv V) (c : Bytes) (hc : c.length ≤ isizeMax)
    (l : List (α × β)) :
    BerElems (BerPair (fun id indef raw x => dk.fromBer id (lenOf indef raw) raw = .ok x)
      (fun id indef raw x => dv.fromBer id (lenOf indef raw) raw = .ok x)) c l ↔ BerElems (BerPair K V) c l :=
  Spec.BerElems.congr hc fun _ _ _ _ hl => Spec.BerPair.congr hl hk hv

theorem ber_list {m : Build} {d : De α} {R : Bytes → Bool → Bytes → α → Prop} (h : DecodesBer d R) (id : Bytes)
    (indef : Bool) (raw : Bytes) (v : List α) (hl : raw.length ≤ isizeMax) :
    (if id ≠ IdRef.sequence then .err .unmatchedId
      else do
        let contents ← excludeEoc m (lenOf indef raw) raw
        collect (berToVal d) (fun ret t => ret ++ [t]) contents []) = .ok v ↔
      id = [0x30] ∧ ∃ c, IsBody indef raw c ∧ BerElems R c v := by
  rw [guard_ok, not_not, body_bind]
  refine and_congr Iff.rfl (exists_congr fun c => and_congr_right fun hb => ?_)
  have hc := Nat.le_trans (isBody_length hb) hl
  rw [fromBer_list d c hc, h.elems c hc]

theorem ber_field {d : De β} {R : Bytes → Bool → Bytes → β → Prop} (h : DecodesBer d R) {r : DeFields γ}
    {S : Bytes → γ → Prop}
    (hr : ∀ bytes v rest, bytes.length ≤ isizeMax →
      (deFields berTmpVal r bytes = .ok (v, rest) ↔ ∃ c, bytes = c ++ rest ∧ S c v))
    (bytes : Bytes) (v : β × γ) (rest : Bytes) (hl : bytes.length ≤ isizeMax) :
    (∃ mid, berTmpVal d bytes = .ok (v.1, mid) ∧ deFields berTmpVal r mid = .ok (v.2, rest)) ↔
      ∃ c, bytes = c ++ rest ∧ ∃ p id indef raw c', BerValue p id indef raw ∧ c = p ++ c' ∧ R id indef raw v.1 ∧ S c' v.2 := by
  constructor
  · rintro ⟨mid, h1, h2⟩
    obtain ⟨p, id, indef, raw, hv, h3, rfl⟩ := (berTmpVal_iff d bytes hl v.1 mid).mp h1
    have := berValue_length hv
    rw [List.length_append] at hl
    obtain ⟨c', rfl, h4⟩ := (hr mid v.2 rest (by omega)).mp h2
    exact ⟨p ++ c', by simp, p, id, indef, raw, c', hv, rfl, (h id indef raw v.1 (by omega)).mp h3, h4⟩
  · rintro ⟨c, rfl, p, id, indef, raw, c', hv, rfl, h3, h4⟩
    have hl' := hl
    have := berValue_length hv
    rw [List.append_assoc, List.length_append] at hl'
    refine ⟨c' ++ rest, (berTmpVal_iff d _ hl v.1 _).mpr
      ⟨p, id, indef, raw, hv, (h id indef raw v.1 (by omega)).mpr h3, by simp⟩, ?_⟩
    exact (hr _ v.2 rest (by omega)).mpr ⟨c', rfl, h4⟩

theorem not_eq_indefinite (l : Length) : l.eq .indefinite = false := by
  cases l <;> simp [Length.eq, Length.isDefinite, Length.definite?]

theorem assert_iff (m : Build) (indef : Bool) (raw : Bytes) (k : Res α) (v : α) :
    (debugAssert m ((lenOf indef raw).definite? == some raw.length) >>= fun _ => k) = .ok v ↔
      (indef = true → decide (m = .release) = true) ∧ k = .ok v := by
  cases indef <;> cases m <;> simp [debugAssert, lenOf, Length.definite?]

mutual
/-- `from_ber` of a type decodes exactly what the specification says. -/
theorem Ty.fromBer_iff (m : Build) (o : HashOrder) : {α : Type} → (t : Ty α) → t.deserializable →
    DecodesBer (Ty.de m o t) (t.berVal (decide (m = .release)) o.order)
  | _, .bool, _ => fun id indef raw v _ => by
    change (if id ≠ IdRef.boolean then _ else if (lenOf indef raw).eq .indefinite then _ else
      (debugAssert m ((lenOf indef raw).definite? == some raw.length) >>= fun _ => ContentsRef.toBoolBer raw)) = _ ↔
      id = [0x01] ∧ (indef → decide (m = .release)) ∧ ∃ b : UInt8, raw = [b] ∧ v = (b != 0)
    rw [guard_ok, not_not, not_eq_indefinite, if_neg (by simp), assert_iff, C17_to_bool_ber]
    refine and_congr Iff.rfl (and_congr Iff.rfl (exists_congr fun b => and_congr Iff.rfl ?_))
    by_cases hb : b = 0 <;> cases v <;> simp [hb]
  | _, .int t, _ => fun id indef raw v _ => by
    change (if (lenOf indef raw).eq .indefinite then _ else
      (debugAssert m ((lenOf indef raw).definite? == some raw.length) >>= fun _ =>
        if id ≠ IdRef.integer then _ else ContentsRef.toInteger t raw)) = _ ↔
      id = [0x02] ∧ (indef → decide (m = .release)) ∧ raw = intOctets v ∧ t.InRange v
    rw [not_eq_indefinite, if_neg (by simp), assert_iff, guard_ok, not_not, and_left_comm]
    refine and_congr Iff.rfl (and_congr Iff.rfl ⟨toInteger_sound t raw v, ?_⟩)
    rintro ⟨rfl, h⟩
    exact toInteger_intOctets t v h
  | _, .string, _ => fun id indef raw v _ => by
    change (if id ≠ IdRef.utf8String ∧ id ≠ IdRef.utf8StringConstructed then _ else
      if (lenOf indef raw).eq .indefinite then _ else
      (debugAssert m ((lenOf indef raw).definite? == some raw.length) >>= fun _ => strFromUtf8 raw)) = _ ↔
      (id = [0x0c] ∨ id = [0x2c]) ∧ (indef → decide (m = .release)) ∧ raw = v.toByteArray.data.toList
    rw [guard_ok, not_eq_indefinite, if_neg (by simp), assert_iff, strFromUtf8_iff, ne_eq, ne_eq, ← not_or, not_not]
    rfl
  | _, .octetString, _ => fun id indef raw v _ => by
    change (if id ≠ IdRef.octetString ∧ id ≠ IdRef.octetStringConstructed then _ else
      if (lenOf indef raw).isIndefinite then _ else Res.ok raw) = _ ↔
      (id = [0x04] ∨ id = [0x24]) ∧ indef = false ∧ raw = v
    rw [guard_ok, guard_ok, Res.ok.injEq, ne_eq, ne_eq, ← not_or, not_not]
    refine and_congr Iff.rfl (and_congr ?_ Iff.rfl)
    cases indef <;> simp [lenOf, Length.isIndefinite]
  | _, .vec t, h => fun id indef raw v hl => ber_list (Ty.fromBer_iff m o t h) id indef raw v hl
  | _, .linkedList t, h => fun id indef raw v hl => ber_list (Ty.fromBer_iff m o t h) id indef raw v hl
  | _, .vecDeque t, h => fun id indef raw v hl => ber_list (Ty.fromBer_iff m o t h) id indef raw v hl
  | _, .btreeSet cmp h1 h2 t, h => fun id indef raw v hl => by
    have ih := Ty.fromBer_iff m o t h
    change (if id ≠ IdRef.sequence then _ else
      (excludeEoc m (lenOf indef raw) raw >>= fun c => collect (berToVal (Ty.de m o t)) _ c [])) = _ ↔
      id = [0x30] ∧ ∃ c l, IsBody indef raw c ∧ BerElems (t.berVal _ o.order) c l ∧ SetOf cmp l v
    rw [guard_ok, not_not, body_bind]
    refine and_congr Iff.rfl (exists_congr fun c => ?_)
    rw [exists_and_left]
    refine and_congr_right fun hb => ?_
    have hc := Nat.le_trans (isBody_length hb) hl
    rw [fromBer_fold _ _ c hc]
    simp only [ih.elems c hc, setOf_iff]
  | _, .btreeMap cmp h1 h2 k t, h => fun id indef raw v hl => by
    have ihk := Ty.fromBer_iff m o k h.1
    have ih := Ty.fromBer_iff m o t h.2
    change (if id ≠ IdRef.sequence then _ else
      (excludeEoc m (lenOf indef raw) raw >>= fun c => collect (berToKeyVal (Ty.de m o k) (Ty.de m o t)) _ c [])) = _ ↔
      id = [0x30] ∧ ∃ c l, IsBody indef raw c ∧ BerElems (BerPair (k.berVal _ o.order) (t.berVal _ o.order)) c l ∧ MapOf cmp l v
    rw [guard_ok, not_not, body_bind]
    refine and_congr Iff.rfl (exists_congr fun c => ?_)
    rw [exists_and_left]
    refine and_congr_right fun hb => ?_
    have hc := Nat.le_trans (isBody_length hb) hl
    rw [fromBer_foldPairs _ _ _ c hc]
    simp only [ihk.pairs ih c hc, mapOf_iff]
  | _, .hashSet eq t, h => fun id indef raw v hl => by
    have ih := Ty.fromBer_iff m o t h
    change (if id ≠ IdRef.set then _ else
      (excludeEoc m (lenOf indef raw) raw >>= fun c =>
        (collect (berToVal (Ty.de m o t)) _ c [] >>= fun ret => pure (o.order _ ret)))) = _ ↔
      id = [0x31] ∧ ∃ c l, IsBody indef raw c ∧ BerElems (t.berVal _ o.order) c l ∧ v = o.order _ (firsts l)
    rw [guard_ok, not_not, body_bind]
    refine and_congr Iff.rfl (exists_congr fun c => ?_)
    rw [exists_and_left]
    refine and_congr_right fun hb => ?_
    have hc := Nat.le_trans (isBody_length hb) hl
    rw [map_ok]
    simp only [fromBer_fold _ _ c hc, ih.elems c hc, foldl_hashInsert]
    constructor
    · rintro ⟨_, ⟨l, h1, rfl⟩, h2⟩; exact ⟨l, h1, h2⟩
    · rintro ⟨l, h1, h2⟩; exact ⟨_, ⟨l, h1, rfl⟩, h2⟩
  | _, .hashMap eq k t, h => fun id indef raw v hl => by
    have ihk := Ty.fromBer_iff m o k h.1
    have ih := Ty.fromBer_iff m o t h.2
    change (if id ≠ IdRef.set then _ else
      (excludeEoc m (lenOf indef raw) raw >>= fun c =>
        (collect (berToKeyVal (Ty.de m o k) (Ty.de m o t)) _ c [] >>= fun ret => pure (o.order _ ret)))) = _ ↔
      id = [0x31] ∧ ∃ c l u, IsBody indef raw c ∧ BerElems (BerPair (k.berVal _ o.order) (t.berVal _ o.order)) c l ∧
        HashMapOf l u ∧ v = o.order _ u
    rw [guard_ok, not_not, body_bind]
    refine and_congr Iff.rfl (exists_congr fun c => ?_)
    simp only [exists_and_left]
    refine and_congr_right fun hb => ?_
    have hc := Nat.le_trans (isBody_length hb) hl
    rw [map_ok]
    simp only [fromBer_foldPairs _ _ _ c hc, ihk.pairs ih c hc, hashMapOf_iff]
    constructor
    · rintro ⟨u, ⟨l, h1, h3⟩, h2⟩; exact ⟨l, h1, u, h3, h2⟩
    · rintro ⟨l, h1, u, h3, h2⟩; exact ⟨u, ⟨l, h1, h3⟩, h2⟩
  | _, .struct i fs, h => fun id indef raw v hl => by
    change (if id ≠ i then _ else fromBerContents m (Fields.de m o fs) (lenOf indef raw) raw) = _ ↔
      id = i ∧ ∃ c, IsBody indef raw c ∧ fs.berVal _ o.order c v
    rw [guard_ok, not_not, fromBerContents_iff]
    refine and_congr Iff.rfl (exists_congr fun c => and_congr_right fun hb => ?_)
    rw [Fields.fromBer_iff m o fs h c v [] (Nat.le_trans (isBody_length hb) hl)]
    simp
  | _, .enum vs, h => fun id indef raw v hl => Variants.fromBer_iff m o vs h id indef raw v hl
  | _, .transparent fs, h => fun id indef raw v hl => by
    change ((De.transparent (Fields.de m o fs)).getD (De.struct m [] (Fields.de m o fs))).fromBer id (lenOf indef raw) raw = _ ↔
      fs.berOne _ o.order id indef raw v
    rw [De.transparent, if_pos (by rw [Fields.deCount_eq]; exact h.1)]
    exact Fields.fromBerOne_iff m o fs h.2 id indef raw v hl
  | _, .conv t _ g, h => fun id indef raw v hl => by
    have ih := Ty.fromBer_iff m o t h
    change (De.back (Ty.de m o t) g).fromBer id (lenOf indef raw) raw = .ok v ↔
      ∃ u, t.berVal _ o.order id indef raw u ∧ g.apply u = .ok v
    rw [back_fromBer]
    exact exists_congr fun u => and_congr (ih id indef raw u hl) Iff.rfl
  | _, .named t f g hgf hfg, h => fun id indef raw v hl => by
    exact (map_ok_iff hgf hfg v).trans (Ty.fromBer_iff m o t h id indef raw (f v) hl)
  | _, .hole, _ => fun _ _ _ _ _ => iff_of_false (fun e => nomatch e) (fun e => e)
/-- The same for the fields of a struct. -/
theorem Fields.fromBer_iff (m : Build) (o : HashOrder) : {γ : Type} → (fs : Fields γ) → fs.deserializable →
    (bytes : Bytes) → (v : γ) → (rest : Bytes) → bytes.length ≤ isizeMax →
    (deFields berTmpVal (Fields.de m o fs) bytes = .ok (v, rest) ↔
      ∃ c, bytes = c ++ rest ∧ fs.berVal (decide (m = .release)) o.order c v)
  | _, .nil, _ => fun bytes v rest _ => by
    change Res.ok ((), bytes) = .ok (v, rest) ↔ ∃ c, bytes = c ++ rest ∧ c = []
    simp
  | _, .plain t r, h => fun bytes v rest hl => by
    rw [Fields.de, deFields_cons]
    exact ber_field (Ty.fromBer_iff m o t h.1) (Fields.fromBer_iff m o r h.2) bytes v rest hl
  | _, .skip d r, h => fun bytes v rest hl => by
    rw [Fields.de, deFields_cons]
    simp only [deField, Res.ok.injEq, Prod.mk.injEq]
    change _ ↔ ∃ c, bytes = c ++ rest ∧ v.1 = d ∧ r.berVal _ o.order c v.2
    have ih := Fields.fromBer_iff m o r h bytes v.2 rest hl
    constructor
    · rintro ⟨_, ⟨h1, rfl⟩, h2⟩
      obtain ⟨c, h3, h4⟩ := ih.mp h2
      exact ⟨c, h3, h1.symm, h4⟩
    · rintro ⟨c, h3, h1, h4⟩
      exact ⟨bytes, ⟨h1.symm, rfl⟩, ih.mpr ⟨c, h3, h4⟩⟩
  | _, .skipSer t r, h => fun bytes v rest hl => by
    rw [Fields.de, deFields_cons]
    exact ber_field (Ty.fromBer_iff m o t h.1) (Fields.fromBer_iff m o r h.2) bytes v rest hl
  | _, .skipDe _ d r, h => fun bytes v rest hl => by
    rw [Fields.de, deFields_cons]
    simp only [deField, Res.ok.injEq, Prod.mk.injEq]
    change _ ↔ ∃ c, bytes = c ++ rest ∧ v.1 = d ∧ r.berVal _ o.order c v.2
    have ih := Fields.fromBer_iff m o r h bytes v.2 rest hl
    constructor
    · rintro ⟨_, ⟨h1, rfl⟩, h2⟩
      obtain ⟨c, h3, h4⟩ := ih.mp h2
      exact ⟨c, h3, h1.symm, h4⟩
    · rintro ⟨c, h3, h1, h4⟩
      exact ⟨bytes, ⟨h1.symm, rfl⟩, ih.mpr ⟨c, h3, h4⟩⟩
  | _, .conv t _ g r, h => fun bytes v rest hl => by
    rw [Fields.de, deFields_cons]
    have iht := Ty.fromBer_iff m o t h.1
    have e : ∀ mid, deField berTmpVal (backField (Ty.de m o t) g) bytes = .ok (v.1, mid) ↔
        berTmpVal (De.back (Ty.de m o t) g) bytes = .ok (v.1, mid) := by
      intro mid
      rw [backField_de, berTmpVal_iff _ _ hl]
      simp only [berTmpVal_iff _ _ hl, back_fromBer]
      constructor
      · rintro ⟨u, ⟨p, id, indef, raw, h1, h3, h4⟩, h5⟩; exact ⟨p, id, indef, raw, h1, ⟨u, h3, h5⟩, h4⟩
      · rintro ⟨p, id, indef, raw, h1, ⟨u, h3, h5⟩, h4⟩; exact ⟨u, ⟨p, id, indef, raw, h1, h3, h4⟩, h5⟩
    simp only [e]
    have hb : DecodesBer (De.back (Ty.de m o t) g)
        (fun id indef raw w => ∃ u, t.berVal (decide (m = .release)) o.order id indef raw u ∧ g.apply u = .ok w) := by
      intro id indef raw w hl
      rw [back_fromBer]
      exact exists_congr fun u => and_congr (iht id indef raw u hl) Iff.rfl
    exact ber_field hb (Fields.fromBer_iff m o r h.2) bytes v rest hl
/-- The same for the field of a transparent struct. -/
theorem Fields.fromBerOne_iff (m : Build) (o : HashOrder) : {γ : Type} → (fs : Fields γ) → fs.deserializable →
    (id : Bytes) → (indef : Bool) → (raw : Bytes) → (v : γ) → raw.length ≤ isizeMax →
    (deFieldsTransparent (fun d => d.fromBer id (lenOf indef raw) raw) (Fields.de m o fs) = .ok v ↔
      fs.berOne (decide (m = .release)) o.order id indef raw v)
  | _, .nil, _ => fun id indef raw v _ => by
    change Res.ok () = .ok v ↔ True
    simp
  | _, .plain t r, h => fun id indef raw v hl => by
    rw [Fields.de, deFieldsTransparent_cons, deFieldTransparent, mapErr_ok, Fields.fromBerOne_iff m o r h.2 _ _ _ _ hl]
    exact and_congr (Ty.fromBer_iff m o t h.1 id indef raw v.1 hl) Iff.rfl
  | _, .skip d r, h => fun id indef raw v hl => by
    rw [Fields.de, deFieldsTransparent_cons, deFieldTransparent, Fields.fromBerOne_iff m o r h _ _ _ _ hl, Res.ok.injEq, eq_comm]
    rfl
  | _, .skipSer t r, h => fun id indef raw v hl => by
    rw [Fields.de, deFieldsTransparent_cons, deFieldTransparent, mapErr_ok, Fields.fromBerOne_iff m o r h.2 _ _ _ _ hl]
    exact and_congr (Ty.fromBer_iff m o t h.1 id indef raw v.1 hl) Iff.rfl
  | _, .skipDe _ d r, h => fun id indef raw v hl => by
    rw [Fields.de, deFieldsTransparent_cons, deFieldTransparent, Fields.fromBerOne_iff m o r h _ _ _ _ hl, Res.ok.injEq, eq_comm]
    rfl
  | _, .conv t _ g r, h => fun id indef raw v hl => by
    rw [Fields.de, deFieldsTransparent_cons, backField_transparent, Fields.fromBerOne_iff m o r h.2 _ _ _ _ hl]
    have iht := Ty.fromBer_iff m o t h.1
    exact and_congr (exists_congr fun u => and_congr (iht id indef raw u hl) Iff.rfl) Iff.rfl
/-- The same for an enum. -/
theorem Variants.fromBer_iff (m : Build) (o : HashOrder) : {ρ : Type} → (vs : Variants ρ) → vs.deserializable →
    (id : Bytes) → (indef : Bool) → (raw : Bytes) → (v : ρ) → raw.length ≤ isizeMax →
    ((Variants.de m o vs).pick id (fun fs => fromBerContents m fs (lenOf indef raw) raw) = .ok v ↔
      vs.berVal (decide (m = .release)) o.order id indef raw v)
  | _, .nil, _ => fun _ _ _ v _ => v.elim
  | _, .cons i fs r, h => fun id indef raw v hl => by
    rw [Variants.de, DeVariants.pick]
    by_cases hi : id = i
    · rw [if_pos hi, map_ok]
      cases v with
      | inl v =>
        change _ ↔ id = i ∧ ∃ c, IsBody indef raw c ∧ fs.berVal _ o.order c v
        simp only [fromBerContents_iff, Sum.inl.injEq, exists_eq_right', hi, true_and]
        refine exists_congr fun c => and_congr_right fun hb => ?_
        rw [Fields.fromBer_iff m o fs h.1 c v [] (Nat.le_trans (isBody_length hb) hl)]
        simp
      | inr v =>
        change _ ↔ id ≠ i ∧ r.berVal _ o.order id indef raw v
        simp [hi]
    · rw [if_neg hi, map_ok]
      cases v with
      | inl v =>
        change _ ↔ id = i ∧ ∃ c, IsBody indef raw c ∧ fs.berVal _ o.order c v
        simp [hi]
      | inr v =>
        change _ ↔ id ≠ i ∧ r.berVal _ o.order id indef raw v
        simp only [Sum.inr.injEq, exists_eq_right', ne_eq, hi, not_false_eq_true, true_and]
        exact Variants.fromBer_iff m o r h.2 id indef raw v hl
end

end Bsn1
