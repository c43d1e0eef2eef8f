import Verif.Lemmas.RoundTrip
/-!
# Consequences of the specification of decoding
-/

namespace Bsn1
open Spec

variable {α β γ : Type}

/-! ### Decoded values are values of the type -/

theorem BerElems.mem {R : Bytes → Bool → Bytes → α → Prop} {c : Bytes} {l : List α} (h : BerElems R c l) {P : α → Prop}
    (hP : ∀ id d raw x, R id d raw x → P x) : ∀ x ∈ l, P x := by
  induction h with
  | nil => simp
  | cons p id d raw c x xs _ h _ ih =>
    intro y hy
    rcases List.mem_cons.mp hy with rfl | hy
    · exact hP _ _ _ _ h
    · exact ih y hy

theorem BerPair.prop {K : Bytes → Bool → Bytes → α → Prop} {V : Bytes → Bool → Bytes → β → Prop} {id : Bytes} {d : Bool}
    {raw : Bytes} {x : α × β} (h : BerPair K V id d raw x) {P : α → Prop} {Q : β → Prop}
    (hP : ∀ id d raw x, K id d raw x → P x) (hQ : ∀ id d raw x, V id d raw x → Q x) : P x.1 ∧ Q x.2 := by
  cases h with
  | mk _ _ _ _ _ _ _ _ _ k v _ h2 _ h4 => exact ⟨hP _ _ _ _ h2, hQ _ _ _ _ h4⟩

theorem hashMapOf_mem [DecidableEq α] {l u : List (α × β)} (h : HashMapOf l u) : ∀ e ∈ u, e ∈ l :=
  fun e he => lastEntry_mem (h.2 e he)

mutual
/-- Values decoded from BER are values of the type. -/
theorem Ty.berVal_ok (lax : Bool) (o : HashOrder) : {α : Type} → (t : Ty α) → t.wellTyped → (id : Bytes) → (d : Bool) →
    (raw : Bytes) → (v : α) → t.berVal lax o.order id d raw v → t.ok v
  | _, .bool, _, _, _, _, _, _ => trivial
  | _, .int _, _, _, _, _, _, h => h.2.2.2
  | _, .string, _, _, _, _, _, _ => trivial
  | _, .octetString, _, _, _, _, _, _ => trivial
  | _, .vec t, ht, _, _, _, _, hh => by
    obtain ⟨_, c, _, h⟩ := hh
    exact BerElems.mem h (Ty.berVal_ok lax o t ht)
  | _, .linkedList t, ht, _, _, _, _, hh => by
    obtain ⟨_, c, _, h⟩ := hh
    exact BerElems.mem h (Ty.berVal_ok lax o t ht)
  | _, .vecDeque t, ht, _, _, _, _, hh => by
    obtain ⟨_, c, _, h⟩ := hh
    exact BerElems.mem h (Ty.berVal_ok lax o t ht)
  | _, .btreeSet _ _ _ t, ht, _, _, _, _, hh => by
    obtain ⟨_, c, l, _, h, h1, h2⟩ := hh
    exact
      ⟨h1, fun x hx => BerElems.mem h (Ty.berVal_ok lax o t ht) x ((h2 x).mp hx)⟩
  | _, .btreeMap _ _ _ k t, ht, _, _, _, _, hh => by
    obtain ⟨_, c, l, _, h, h1, h2⟩ := hh
    exact
      ⟨h1, fun x hx => BerElems.mem h (P := fun x => k.ok x.1 ∧ t.ok x.2)
        (fun _ _ _ _ h => BerPair.prop h (Ty.berVal_ok lax o k ht.1) (Ty.berVal_ok lax o t ht.2)) x
        (lastEntry_mem ((h2 x.1 x.2).mp hx))⟩
  | _, .hashSet _ t, ht, _, _, _, _, hh => by
    obtain ⟨_, c, l, _, h, h1⟩ := hh
    subst h1
    exact ⟨(o.perm _ _).nodup_iff.mpr (firsts_nodup l), fun x hx => BerElems.mem h (Ty.berVal_ok lax o t ht) x
      ((mem_firsts l x).mp ((o.perm _ _).mem_iff.mp hx))⟩
  | _, .hashMap _ k t, ht, _, _, _, _, hh => by
    obtain ⟨_, c, l, u, _, h, h1, h2⟩ := hh
    subst h2
    refine ⟨((o.perm _ u).map Prod.fst).nodup_iff.mpr (h1.1 ▸ firsts_nodup _), fun x hx => ?_⟩
    exact BerElems.mem h (P := fun x => k.ok x.1 ∧ t.ok x.2)
      (fun _ _ _ _ h => BerPair.prop h (Ty.berVal_ok lax o k ht.1) (Ty.berVal_ok lax o t ht.2)) x
      (hashMapOf_mem h1 x ((o.perm _ _).mem_iff.mp hx))
  | _, .struct _ fs, ht, _, _, _, v, hh => by
    obtain ⟨_, c, _, h⟩ := hh
    exact Fields.berVal_ok lax o fs ht c v h
  | _, .enum vs, ht, id, d, raw, v, h => Variants.berVal_ok lax o vs ht id d raw v h
  | _, .transparent fs, ht, id, d, raw, v, h => Fields.berOne_ok lax o fs ht id d raw v h
  | _, .conv _ _ _, ht, _, _, _, v, _ => ht v
  | _, .named t f _ _ _, ht, id, d, raw, v, h => Ty.berVal_ok lax o t ht id d raw (f v) h
  | _, .hole, _, _, _, _, _, h => h.elim
/-- The same for fields. -/
theorem Fields.berVal_ok (lax : Bool) (o : HashOrder) : {γ : Type} → (fs : Fields γ) → fs.wellTyped → (c : Bytes) →
    (v : γ) → fs.berVal lax o.order c v → fs.ok v
  | _, .nil, _, _, _, _ => trivial
  | _, .plain t r, ht, _, v, hh => by
    obtain ⟨_, id, d, raw, c', _, _, h4, h5⟩ := hh
    exact
      ⟨Ty.berVal_ok lax o t ht.1 id d raw v.1 h4, Fields.berVal_ok lax o r ht.2 c' v.2 h5⟩
  | _, .skip _ r, ht, c, v, hh => by
    obtain ⟨_, h2⟩ := hh
    exact Fields.berVal_ok lax o r ht c v.2 h2
  | _, .skipSer t r, ht, _, v, hh => by
    obtain ⟨_, id, d, raw, c', _, _, h4, h5⟩ := hh
    exact Fields.berVal_ok lax o r ht c' v.2 h5
  | _, .skipDe t d r, ht, c, v, hh => by
    obtain ⟨h1, h2⟩ := hh
    exact ⟨h1 ▸ ht.1, Fields.berVal_ok lax o r ht.2 c v.2 h2⟩
  | _, .conv t _ _ r, ht, _, v, hh => by
    obtain ⟨_, id, d, raw, c', _, _, _, h5⟩ := hh
    exact
      ⟨ht.1 v.1, Fields.berVal_ok lax o r ht.2 c' v.2 h5⟩
/-- The same for a transparent struct. -/
theorem Fields.berOne_ok (lax : Bool) (o : HashOrder) : {γ : Type} → (fs : Fields γ) → fs.wellTyped → (id : Bytes) →
    (d : Bool) → (raw : Bytes) → (v : γ) → fs.berOne lax o.order id d raw v → fs.ok v
  | _, .nil, _, _, _, _, _, _ => trivial
  | _, .plain t r, ht, id, d, raw, v, hh => by
    obtain ⟨h1, h2⟩ := hh
    exact
      ⟨Ty.berVal_ok lax o t ht.1 id d raw v.1 h1, Fields.berOne_ok lax o r ht.2 id d raw v.2 h2⟩
  | _, .skip _ r, ht, id, d, raw, v, hh => by
    obtain ⟨_, h2⟩ := hh
    exact Fields.berOne_ok lax o r ht id d raw v.2 h2
  | _, .skipSer t r, ht, id, d, raw, v, hh => by
    obtain ⟨_, h2⟩ := hh
    exact Fields.berOne_ok lax o r ht id d raw v.2 h2
  | _, .skipDe t df r, ht, id, d, raw, v, hh => by
    obtain ⟨h1, h2⟩ := hh
    exact ⟨h1 ▸ ht.1, Fields.berOne_ok lax o r ht.2 id d raw v.2 h2⟩
  | _, .conv t _ _ r, ht, id, d, raw, v, hh => by
    obtain ⟨_, h2⟩ := hh
    exact ⟨ht.1 v.1, Fields.berOne_ok lax o r ht.2 id d raw v.2 h2⟩
/-- The same for an enum. -/
theorem Variants.berVal_ok (lax : Bool) (o : HashOrder) : {ρ : Type} → (vs : Variants ρ) → vs.wellTyped → (id : Bytes) →
    (d : Bool) → (raw : Bytes) → (v : ρ) → vs.berVal lax o.order id d raw v → vs.ok v
  | _, .cons _ fs _, ht, _, _, _, .inl v, hh => by
    obtain ⟨_, c, _, h⟩ := hh
    exact Fields.berVal_ok lax o fs ht.1 c v h
  | _, .cons _ _ r, ht, id, d, raw, .inr v, hh => by
    obtain ⟨_, h⟩ := hh
    exact Variants.berVal_ok lax o r ht.2 id d raw v h
end

/-! ### Canonical types -/

theorem DerElems.octets {R : Bytes → Bytes → α → Prop} {enc : α → Bytes × Bytes} {c : Bytes} {l : List α}
    (h : DerElems R c l) (hR : ∀ id b x, R id b x → enc x = (id, b)) : c = l.flatMap fun x => tlvOf (enc x) := by
  induction h with
  | nil => rfl
  | cons id b c x xs _ _ h _ ih => rw [List.flatMap_cons, hR _ _ _ h, ← ih, tlvOf]

mutual
/-- What decodes is the encoding of the value. -/
theorem Ty.canonical_enc (o : (α : Type) → List α → List α) : {α : Type} → (t : Ty α) → t.canonical → (id c : Bytes) →
    (v : α) → t.derVal o id c v → t.enc v = (id, c)
  | _, .bool, _, _, _, _, hh => by
    obtain ⟨h1, h2⟩ := hh
    exact by rw [h1, h2]; rfl
  | _, .int _, _, _, _, _, hh => by
    obtain ⟨h1, h2, _⟩ := hh
    exact by rw [h1, h2]; rfl
  | _, .string, _, _, _, _, hh => by
    obtain ⟨h1, h2⟩ := hh
    exact by rw [h1, h2]; rfl
  | _, .octetString, _, _, _, _, hh => by
    obtain ⟨h1, h2⟩ := hh
    exact by rw [h1, h2]; rfl
  | _, .vec t, ht, _, _, _, hh => by
    obtain ⟨h1, h2⟩ := hh
    exact by rw [h1, DerElems.octets h2 (Ty.canonical_enc o t ht)]; rfl
  | _, .linkedList t, ht, _, _, _, hh => by
    obtain ⟨h1, h2⟩ := hh
    exact by rw [h1, DerElems.octets h2 (Ty.canonical_enc o t ht)]; rfl
  | _, .vecDeque t, ht, _, _, _, hh => by
    obtain ⟨h1, h2⟩ := hh
    exact by rw [h1, DerElems.octets h2 (Ty.canonical_enc o t ht)]; rfl
  | _, .btreeSet _ _ _ _, ht, _, _, _, _ => ht.elim
  | _, .btreeMap _ _ _ _ _, ht, _, _, _, _ => ht.elim
  | _, .hashSet _ _, ht, _, _, _, _ => ht.elim
  | _, .hashMap _ _ _, ht, _, _, _, _ => ht.elim
  | _, .struct _ fs, ht, _, c, v, hh => by
    obtain ⟨h1, h2⟩ := hh
    exact by rw [h1, ← Fields.canonical_enc o fs ht c v h2]; rfl
  | _, .enum vs, ht, id, c, v, h => Variants.canonical_enc o vs ht id c v h
  | _, .transparent fs, ht, id, c, v, h =>
    Fields.canonical_one o fs ht.1 (by rw [ht.2]; decide) id c v h
  | _, .conv _ _ _, ht, _, _, _, _ => ht.elim
  | _, .named t f _ _ _, ht, id, c, v, h => Ty.canonical_enc o t ht id c (f v) h
  | _, .hole, _, _, _, _, h => h.elim
/-- The same for fields. -/
theorem Fields.canonical_enc (o : (α : Type) → List α → List α) : {γ : Type} → (fs : Fields γ) → fs.canonical →
    (c : Bytes) → (v : γ) → fs.derVal o c v → fs.enc v = c
  | _, .nil, _, _, _, h => h.symm
  | _, .plain t r, ht, _, v, hh => by
    obtain ⟨id, b, c', _, _, h3, h4, h5⟩ := hh
    rw [h3, ← Fields.canonical_enc o r ht.2 c' v.2 h5]
    change tlvOf (t.enc v.1) ++ r.enc v.2 = _
    rw [Ty.canonical_enc o t ht.1 id b v.1 h4]; rfl
  | _, .skip _ r, ht, c, v, hh => by
    obtain ⟨_, h2⟩ := hh
    exact Fields.canonical_enc o r ht c v.2 h2
  | _, .skipSer _ _, ht, _, _, _ => ht.elim
  | _, .skipDe _ _ _, ht, _, _, _ => ht.elim
  | _, .conv _ _ _ _, ht, _, _, _ => ht.elim
/-- The same for a transparent struct. -/
theorem Fields.canonical_one (o : (α : Type) → List α → List α) : {γ : Type} → (fs : Fields γ) → fs.canonical →
    fs.serCount ≠ 0 → (id c : Bytes) → (v : γ) → fs.derOne o id c v → fs.encOne v = (id, c)
  | _, .nil, _, h, _, _, _, _ => absurd rfl h
  | _, .plain t r, ht, _, id, c, v, h => Ty.canonical_enc o t ht.1 id c v.1 h.1
  | _, .skip _ r, ht, hn, id, c, v, h => Fields.canonical_one o r ht hn id c v.2 h.2
  | _, .skipSer _ _, ht, _, _, _, _, _ => ht.elim
  | _, .skipDe _ _ _, ht, _, _, _, _, _ => ht.elim
  | _, .conv _ _ _ _, ht, _, _, _, _, _ => ht.elim
/-- The same for an enum. -/
theorem Variants.canonical_enc (o : (α : Type) → List α → List α) : {ρ : Type} → (vs : Variants ρ) → vs.canonical →
    (id c : Bytes) → (v : ρ) → vs.derVal o id c v → vs.enc v = (id, c)
  | _, .cons _ fs _, ht, _, c, .inl v, hh => by
    obtain ⟨h1, h2⟩ := hh
    rw [h1, ← Fields.canonical_enc o fs ht.1 c v h2]; rfl
  | _, .cons _ _ r, ht, id, c, .inr v, hh => by
    obtain ⟨_, h2⟩ := hh
    exact Variants.canonical_enc o r ht.2 id c v h2
end

mutual
theorem Ty.canonical_wellTyped : {α : Type} → (t : Ty α) → t.canonical → t.wellTyped
  | _, .bool, _ => trivial
  | _, .int _, _ => trivial
  | _, .string, _ => trivial
  | _, .octetString, _ => trivial
  | _, .vec t, h => Ty.canonical_wellTyped t h
  | _, .linkedList t, h => Ty.canonical_wellTyped t h
  | _, .vecDeque t, h => Ty.canonical_wellTyped t h
  | _, .btreeSet _ _ _ _, h => h.elim
  | _, .btreeMap _ _ _ _ _, h => h.elim
  | _, .hashSet _ _, h => h.elim
  | _, .hashMap _ _ _, h => h.elim
  | _, .struct _ fs, h => Fields.canonical_wellTyped fs h
  | _, .enum vs, h => Variants.canonical_wellTyped vs h
  | _, .transparent fs, h => Fields.canonical_wellTyped fs h.1
  | _, .conv _ _ _, h => h.elim
  | _, .named t _ _ _ _, h => Ty.canonical_wellTyped t h
  | _, .hole, _ => trivial
theorem Fields.canonical_wellTyped : {γ : Type} → (fs : Fields γ) → fs.canonical → fs.wellTyped
  | _, .nil, _ => trivial
  | _, .plain t r, h => ⟨Ty.canonical_wellTyped t h.1, Fields.canonical_wellTyped r h.2⟩
  | _, .skip _ r, h => Fields.canonical_wellTyped r h
  | _, .skipSer _ _, h => h.elim
  | _, .skipDe _ _ _, h => h.elim
  | _, .conv _ _ _ _, h => h.elim
theorem Variants.canonical_wellTyped : {ρ : Type} → (vs : Variants ρ) → vs.canonical → vs.wellTyped
  | _, .nil, _ => trivial
  | _, .cons _ fs r, h => ⟨Fields.canonical_wellTyped fs h.1, Variants.canonical_wellTyped r h.2⟩
end

/-! ### Forms of the length -/

theorem SameSeq.symm {c c' : Bytes} (h : SameSeq c c') : SameSeq c' c := by
  induction h with
  | nil => exact .nil
  | same p c c' hp _ ih => exact .same p c' c hp ih
  | form p p' id d d' raw raw' b b' c c' h1 h2 h3 h4 h5 _ _ ih1 ih2 =>
    exact .form p' p id d' d raw' raw b' b c' c h2 h1 h3 h5 h4 ih1 ih2

/-- A relation on values that does not depend on the form of the length. -/
def FormFree (R : Bytes → Bool → Bytes → α → Prop) : Prop :=
  ∀ id d d' raw raw' b b' x, id ∉ leafIds → IsBody d raw b → IsBody d' raw' b' → SameSeq b b' → R id d raw x →
    R id d' raw' x

theorem SameSeq.uncons {p c q : Bytes} (hp : IsBer p) (h : SameSeq (p ++ c) q) :
    ∃ p' c', q = p' ++ c' ∧ SameSeq c c' ∧ (p' = p ∨ ∃ id d d' raw raw' b b', BerValue p id d raw ∧ BerValue p' id d' raw' ∧
      id ∉ leafIds ∧ IsBody d raw b ∧ IsBody d' raw' b' ∧ SameSeq b b') := by
  generalize hx : p ++ c = x at h
  cases h with
  | nil =>
    have := berValue_length (isBer_berValue hp).choose_spec.choose_spec.choose_spec
    have hl := congrArg List.length hx
    rw [List.length_append, List.length_nil] at hl
    omega
  | same p1 c1 c' hp1 h =>
    obtain ⟨rfl, rfl⟩ := isBer_prefix_free hp hp1 hx
    exact ⟨p, c', rfl, h, .inl rfl⟩
  | form p1 p' id d d' raw raw' b b' c1 c' h1 h2 h3 h4 h5 h6 h7 =>
    obtain ⟨rfl, rfl⟩ := isBer_prefix_free hp (berValue_isBer h1) hx
    exact ⟨p', c', rfl, h7, .inr ⟨id, d, d', raw, raw', b, b', h1, h2, h3, h4, h5, h6⟩⟩

theorem BerElems.sameForm {R : Bytes → Bool → Bytes → α → Prop} (hR : FormFree R) {c : Bytes} {l : List α}
    (h : BerElems R c l) : ∀ {c' : Bytes}, SameSeq c c' → BerElems R c' l := by
  induction h with
  | nil =>
    intro c' hs
    generalize hx : ([] : Bytes) = x at hs
    cases hs with
    | nil => exact .nil
    | same p1 c1 c' hp1 h =>
      have := berValue_length (isBer_berValue hp1).choose_spec.choose_spec.choose_spec
      have hl := congrArg List.length hx
      rw [List.length_append, List.length_nil] at hl
      omega
    | form p1 p' id d d' raw raw' b b' c1 c' h1 =>
      have := berValue_length h1
      have hl := congrArg List.length hx
      rw [List.length_append, List.length_nil] at hl
      omega
  | cons p id d raw c x xs hv hx _ ih =>
    intro q hs
    obtain ⟨p', c', rfl, hs', h⟩ := SameSeq.uncons (berValue_isBer hv) hs
    rcases h with rfl | ⟨id1, d1, d', raw1, raw', b, b', h1, h2, h3, h4, h5, h6⟩
    · exact .cons p' id d raw c' x xs hv hx (ih hs')
    · obtain ⟨rfl, rfl, rfl⟩ := berValue_unique hv h1
      exact .cons p' id d' raw' c' x xs h2 (hR id d d' raw raw' b b' x h3 h4 h5 h6 hx) (ih hs')

theorem isBody_unique {d : Bool} {raw b b' : Bytes} (h : IsBody d raw b) (h' : IsBody d raw b') : b = b' := by
  cases d with
  | false => exact h.symm.trans h'
  | true => exact List.append_cancel_right (h.symm.trans h')

mutual
/-- Decoding does not depend on the form of the length of constructed values. -/
theorem Ty.formFree (lax : Bool) (o : (α : Type) → List α → List α) : {α : Type} → (t : Ty α) → t.mapFree →
    FormFree (t.berVal lax o)
  | _, .bool, _ => fun _ _ _ _ _ _ _ _ hid _ _ _ h => absurd h.1 (by rintro rfl; simp [leafIds] at hid)
  | _, .int _, _ => fun _ _ _ _ _ _ _ _ hid _ _ _ h => absurd h.1 (by rintro rfl; simp [leafIds] at hid)
  | _, .string, _ => fun _ _ _ _ _ _ _ _ hid _ _ _ h => absurd h.1 (by rintro (rfl | rfl) <;> simp [leafIds] at hid)
  | _, .octetString, _ => fun _ _ _ _ _ _ _ _ hid _ _ _ h => absurd h.1 (by rintro (rfl | rfl) <;> simp [leafIds] at hid)
  | _, .vec t, ht => fun _ _ _ _ _ _ _ _ _ hb hb' hs h => by
    obtain ⟨h1, c, h2, h3⟩ := h
    cases isBody_unique hb h2
    exact ⟨h1, _, hb', BerElems.sameForm (Ty.formFree lax o t ht) h3 hs⟩
  | _, .linkedList t, ht => fun _ _ _ _ _ _ _ _ _ hb hb' hs h => by
    obtain ⟨h1, c, h2, h3⟩ := h
    cases isBody_unique hb h2
    exact ⟨h1, _, hb', BerElems.sameForm (Ty.formFree lax o t ht) h3 hs⟩
  | _, .vecDeque t, ht => fun _ _ _ _ _ _ _ _ _ hb hb' hs h => by
    obtain ⟨h1, c, h2, h3⟩ := h
    cases isBody_unique hb h2
    exact ⟨h1, _, hb', BerElems.sameForm (Ty.formFree lax o t ht) h3 hs⟩
  | _, .btreeSet _ _ _ t, ht => fun _ _ _ _ _ _ _ _ _ hb hb' hs h => by
    obtain ⟨h1, c, l, h2, h3, h4⟩ := h
    cases isBody_unique hb h2
    exact ⟨h1, _, l, hb', BerElems.sameForm (Ty.formFree lax o t ht) h3 hs, h4⟩
  | _, .btreeMap _ _ _ _ _, ht => ht.elim
  | _, .hashSet _ t, ht => fun _ _ _ _ _ _ _ _ _ hb hb' hs h => by
    obtain ⟨h1, c, l, h2, h3, h4⟩ := h
    cases isBody_unique hb h2
    exact ⟨h1, _, l, hb', BerElems.sameForm (Ty.formFree lax o t ht) h3 hs, h4⟩
  | _, .hashMap _ _ _, ht => ht.elim
  | _, .struct _ fs, ht => fun _ _ _ _ _ _ _ _ _ hb hb' hs h => by
    obtain ⟨h1, c, h2, h3⟩ := h
    cases isBody_unique hb h2
    exact ⟨h1, _, hb', Fields.formFree lax o fs ht _ _ _ hs h3⟩
  | _, .enum vs, ht => Variants.formFree lax o vs ht
  | _, .transparent fs, ht => Fields.formFreeOne lax o fs ht
  | _, .conv t _ _, ht => fun id d d' raw raw' b b' _ hid hb hb' hs h => by
    obtain ⟨u, h1, h2⟩ := h
    exact ⟨u, Ty.formFree lax o t ht id d d' raw raw' b b' u hid hb hb' hs h1, h2⟩
  | _, .named t f _ _ _, ht => fun id d d' raw raw' b b' v hid hb hb' hs h =>
    Ty.formFree lax o t ht id d d' raw raw' b b' (f v) hid hb hb' hs h
  | _, .hole, _ => fun _ _ _ _ _ _ _ _ _ _ _ _ h => h.elim
/-- The same for fields. -/
theorem Fields.formFree (lax : Bool) (o : (α : Type) → List α → List α) : {γ : Type} → (fs : Fields γ) → fs.mapFree →
    (c c' : Bytes) → (v : γ) → SameSeq c c' → fs.berVal lax o c v → fs.berVal lax o c' v
  | _, .nil, _, c, c', v, hs, h => by
    have h : c = [] := h
    subst h
    have := BerElems.sameForm (R := fun _ _ _ (_ : Unit) => False) (fun _ _ _ _ _ _ _ _ _ _ _ _ h => h) .nil hs
    cases this
    rfl
  | _, .plain t r, ht, c, c', v, hs, h => by
    obtain ⟨p, id, d, raw, c1, hv, rfl, h1, h2⟩ := h
    obtain ⟨p', c2, rfl, hs', h⟩ := SameSeq.uncons (berValue_isBer hv) hs
    have ih := Fields.formFree lax o r ht.2 c1 c2 v.2 hs' h2
    rcases h with rfl | ⟨id1, d1, d', raw1, raw', b, b', k1, k2, k3, k4, k5, k6⟩
    · exact ⟨p', id, d, raw, c2, hv, rfl, h1, ih⟩
    · obtain ⟨rfl, rfl, rfl⟩ := berValue_unique hv k1
      exact ⟨p', id, d', raw', c2, k2, rfl, Ty.formFree lax o t ht.1 id d d' raw raw' b b' v.1 k3 k4 k5 k6 h1, ih⟩
  | _, .skip _ r, ht, c, c', v, hs, h => ⟨h.1, Fields.formFree lax o r ht c c' v.2 hs h.2⟩
  | _, .skipSer t r, ht, c, c', v, hs, h => by
    obtain ⟨p, id, d, raw, c1, hv, rfl, h1, h2⟩ := h
    obtain ⟨p', c2, rfl, hs', h⟩ := SameSeq.uncons (berValue_isBer hv) hs
    have ih := Fields.formFree lax o r ht.2 c1 c2 v.2 hs' h2
    rcases h with rfl | ⟨id1, d1, d', raw1, raw', b, b', k1, k2, k3, k4, k5, k6⟩
    · exact ⟨p', id, d, raw, c2, hv, rfl, h1, ih⟩
    · obtain ⟨rfl, rfl, rfl⟩ := berValue_unique hv k1
      exact ⟨p', id, d', raw', c2, k2, rfl, Ty.formFree lax o t ht.1 id d d' raw raw' b b' v.1 k3 k4 k5 k6 h1, ih⟩
  | _, .skipDe _ _ r, ht, c, c', v, hs, h => ⟨h.1, Fields.formFree lax o r ht c c' v.2 hs h.2⟩
  | _, .conv t _ _ r, ht, c, c', v, hs, h => by
    obtain ⟨p, id, d, raw, c1, hv, rfl, ⟨u, h1, h3⟩, h2⟩ := h
    obtain ⟨p', c2, rfl, hs', h⟩ := SameSeq.uncons (berValue_isBer hv) hs
    have ih := Fields.formFree lax o r ht.2 c1 c2 v.2 hs' h2
    rcases h with rfl | ⟨id1, d1, d', raw1, raw', b, b', k1, k2, k3, k4, k5, k6⟩
    · exact ⟨p', id, d, raw, c2, hv, rfl, ⟨u, h1, h3⟩, ih⟩
    · obtain ⟨rfl, rfl, rfl⟩ := berValue_unique hv k1
      exact ⟨p', id, d', raw', c2, k2, rfl, ⟨u, Ty.formFree lax o t ht.1 id d d' raw raw' b b' u k3 k4 k5 k6 h1, h3⟩, ih⟩
/-- The same for a transparent struct. -/
theorem Fields.formFreeOne (lax : Bool) (o : (α : Type) → List α → List α) : {γ : Type} → (fs : Fields γ) → fs.mapFree →
    FormFree (fs.berOne lax o)
  | _, .nil, _ => fun _ _ _ _ _ _ _ _ _ _ _ _ h => h
  | _, .plain t r, ht => fun id d d' raw raw' b b' v hid hb hb' hs h =>
    ⟨Ty.formFree lax o t ht.1 id d d' raw raw' b b' v.1 hid hb hb' hs h.1,
      Fields.formFreeOne lax o r ht.2 id d d' raw raw' b b' v.2 hid hb hb' hs h.2⟩
  | _, .skip _ r, ht => fun id d d' raw raw' b b' v hid hb hb' hs h =>
    ⟨h.1, Fields.formFreeOne lax o r ht id d d' raw raw' b b' v.2 hid hb hb' hs h.2⟩
  | _, .skipSer t r, ht => fun id d d' raw raw' b b' v hid hb hb' hs h =>
    ⟨Ty.formFree lax o t ht.1 id d d' raw raw' b b' v.1 hid hb hb' hs h.1,
      Fields.formFreeOne lax o r ht.2 id d d' raw raw' b b' v.2 hid hb hb' hs h.2⟩
  | _, .skipDe _ _ r, ht => fun id d d' raw raw' b b' v hid hb hb' hs h =>
    ⟨h.1, Fields.formFreeOne lax o r ht id d d' raw raw' b b' v.2 hid hb hb' hs h.2⟩
  | _, .conv t _ _ r, ht => fun id d d' raw raw' b b' v hid hb hb' hs h => by
    obtain ⟨⟨u, h1, h3⟩, h2⟩ := h
    exact ⟨⟨u, Ty.formFree lax o t ht.1 id d d' raw raw' b b' u hid hb hb' hs h1, h3⟩,
      Fields.formFreeOne lax o r ht.2 id d d' raw raw' b b' v.2 hid hb hb' hs h2⟩
/-- The same for an enum. -/
theorem Variants.formFree (lax : Bool) (o : (α : Type) → List α → List α) : {ρ : Type} → (vs : Variants ρ) → vs.mapFree →
    FormFree (vs.berVal lax o)
  | _, .nil, _ => fun _ _ _ _ _ _ _ v _ _ _ _ _ => v.elim
  | _, .cons _ fs r, ht => fun id d d' raw raw' b b' v hid hb hb' hs h => by
    cases v with
    | inl v =>
      obtain ⟨h1, c, h2, h3⟩ := h
      cases isBody_unique hb h2
      exact ⟨h1, _, hb', Fields.formFree lax o fs ht.1 _ _ _ hs h3⟩
    | inr v => exact ⟨h.1, Variants.formFree lax o r ht.2 id d d' raw raw' b b' v hid hb hb' hs h.2⟩
end

end Bsn1
