import Verif.Lemmas.Stable
import Verif.Spec.Pairs
/-!
# Which forms of lengths are accepted, for all types
-/

namespace Bsn1
open Spec

variable {α β γ : Type}

/-- What `R` accepts, it accepts in other forms with the property `P`, and in those only. -/
def Carries (R : Bytes → Bool → Bytes → α → Prop) (P : Bytes → Bool → Bytes → Prop) : Prop :=
  (∀ id d raw x, R id d raw x → P id d raw) ∧
  ∀ id d raw d' raw' x, Alike id d raw d' raw' → R id d raw x → P id d' raw' → R id d' raw' x

theorem berElems_all {R : Bytes → Bool → Bytes → α → Prop} {P : Bytes → Bool → Bytes → Prop} (hR : Carries R P) {c : Bytes} {l : List α}
    (h : BerElems R c l) : BerAll P c := by
  induction h with
  | nil => exact .nil
  | cons p id d raw c x xs hv hx _ ih => exact .cons p id d raw c hv (hR.1 _ _ _ _ hx) ih

theorem berElems_carries {R : Bytes → Bool → Bytes → α → Prop} {P : Bytes → Bool → Bytes → Prop} (hR : Carries R P) {c : Bytes} {l : List α}
    (h : BerElems R c l) : ∀ {c' : Bytes}, SeqAlike c c' → BerAll P c' → BerElems R c' l := by
  induction h with
  | nil =>
    intro c' hs h'
    cases hs.nil
    exact .nil
  | cons p id d raw c x xs hv hx _ ih =>
    intro c' hs h'
    cases h' with
    | nil =>
      have := berValue_length hv
      have hl := congrArg List.length hs.symm.nil
      rw [List.length_append, List.length_nil] at hl
      omega
    | cons p' id' d' raw' c' hv' hx' h' =>
      obtain ⟨rfl, h1, h2⟩ := hs.uncons hv hv'
      exact .cons p' id d' raw' c' x xs hv' (hR.2 _ _ _ _ _ _ h1 hx hx') (ih h2 h')

theorem berPair_carries {K : Bytes → Bool → Bytes → α → Prop} {V : Bytes → Bool → Bytes → β → Prop} {PK PV : Bytes → Bool → Bytes → Prop}
    (hK : Carries K PK) (hV : Carries V PV) : Carries (BerPair K V) (fun _ _ raw => TwoValues PK PV raw) := by
  constructor
  · intro id d raw x h
    cases h with
    | mk _ pk ik dk ck pv iv dv cv k v h1 h2 h3 h4 =>
      exact ⟨pk, ik, dk, ck, pv, iv, dv, cv, h1, hK.1 _ _ _ _ h2, h3, hV.1 _ _ _ _ h4, rfl⟩
  · intro id d raw d' raw' x ha h h'
    have key : SeqAlike raw raw' → BerPair K V id d' raw' x := by
      intro hsa
      obtain ⟨pk', ik', dk', ck', pv', iv', dv', cv', h1', h2', h3', h4', rfl⟩ := h'
      cases h with
      | mk _ pk ik dk ck pv iv dv cv k v h1 h2 h3 h4 =>
        obtain ⟨rfl, a1, a2⟩ := hsa.uncons h1 h1'
        rw [← List.append_nil pv, ← List.append_nil pv'] at a2
        obtain ⟨rfl, a3, _⟩ := a2.uncons h3 h3'
        exact .mk _ _ _ _ _ _ _ _ _ _ _ h1' (hK.2 _ _ _ _ _ _ a1 h2 h2') h3' (hV.2 _ _ _ _ _ _ a3 h4 h4')
    rcases ha with ⟨rfl, rfl⟩ | ⟨b, b', _, h2, h3, h4⟩
    · exact h
    · cases d with
      | false =>
        cases d' with
        | false => exact key (.inr (by rw [h2, h3]; exact h4))
        | true =>
          exfalso
          have h3 : raw' = b' ++ Spec.eoc := h3
          obtain ⟨pk', ik', dk', ck', pv', iv', dv', cv', k1', k2', k3', k4', rfl⟩ := h'
          cases h with
          | mk _ pk ik dk ck pv iv dv cv k v k1 k2 k3 k4 =>
            exact two_not_three h4 h3.symm h2.symm (berValue_isBer k1') (berValue_isBer k3') (berValue_isBer k1) (berValue_isBer k3)
      | true =>
        have h2 : raw = b ++ Spec.eoc := h2
        cases d' with
        | true =>
          have h3 : raw' = b' ++ Spec.eoc := h3
          exact key (.inr (by rw [h2, h3]; exact SameSeq.append_eoc h4))
        | false =>
          exfalso
          obtain ⟨pk', ik', dk', ck', pv', iv', dv', cv', k1', k2', k3', k4', e⟩ := h'
          cases h with
          | mk _ pk ik dk ck pv iv dv cv k v k1 k2 k3 k4 =>
            exact two_not_three (Bsn1.SameSeq.symm h4) h2.symm (h3.symm.trans e) (berValue_isBer k1) (berValue_isBer k3) (berValue_isBer k1')
              (berValue_isBer k3')

mutual
theorem Ty.carries (lax : Bool) (o : (α : Type) → List α → List α) : {α : Type} → (t : Ty α) → Carries (t.berVal lax o) t.barePairs
  | _, .bool => ⟨fun _ _ _ _ _ => trivial, by
    rintro id d raw d' raw' x ha ⟨rfl, h1, b, rfl, rfl⟩ _
    rcases ha with ⟨rfl, rfl⟩ | ⟨_, _, h, _⟩
    · exact ⟨rfl, h1, b, rfl, rfl⟩
    · simp [leafIds] at h⟩
  | _, .int _ => ⟨fun _ _ _ _ _ => trivial, by
    rintro id d raw d' raw' x ha ⟨rfl, h1⟩ _
    rcases ha with ⟨rfl, rfl⟩ | ⟨_, _, h, _⟩
    · exact ⟨rfl, h1⟩
    · simp [leafIds] at h⟩
  | _, .string => ⟨fun _ _ _ _ _ => trivial, by
    rintro id d raw d' raw' x ha ⟨hid, h1⟩ _
    rcases ha with ⟨rfl, rfl⟩ | ⟨_, _, h, _⟩
    · exact ⟨hid, h1⟩
    · rcases hid with rfl | rfl <;> simp [leafIds] at h⟩
  | _, .octetString => ⟨fun _ _ _ _ _ => trivial, by
    rintro id d raw d' raw' x ha ⟨hid, h1⟩ _
    rcases ha with ⟨rfl, rfl⟩ | ⟨_, _, h, _⟩
    · exact ⟨hid, h1⟩
    · rcases hid with rfl | rfl <;> simp [leafIds] at h⟩
  | _, .vec t => ⟨fun _ _ _ _ ⟨_, c, h1, h2⟩ => ⟨c, h1, berElems_all (Ty.carries lax o t) h2⟩, by
    rintro id d raw d' raw' x ha ⟨h0, c, h1, h2⟩ ⟨c', h1', h2'⟩
    exact ⟨h0, c', h1', berElems_carries (Ty.carries lax o t) h2 (ha.body h1 h1') h2'⟩⟩
  | _, .linkedList t => ⟨fun _ _ _ _ ⟨_, c, h1, h2⟩ => ⟨c, h1, berElems_all (Ty.carries lax o t) h2⟩, by
    rintro id d raw d' raw' x ha ⟨h0, c, h1, h2⟩ ⟨c', h1', h2'⟩
    exact ⟨h0, c', h1', berElems_carries (Ty.carries lax o t) h2 (ha.body h1 h1') h2'⟩⟩
  | _, .vecDeque t => ⟨fun _ _ _ _ ⟨_, c, h1, h2⟩ => ⟨c, h1, berElems_all (Ty.carries lax o t) h2⟩, by
    rintro id d raw d' raw' x ha ⟨h0, c, h1, h2⟩ ⟨c', h1', h2'⟩
    exact ⟨h0, c', h1', berElems_carries (Ty.carries lax o t) h2 (ha.body h1 h1') h2'⟩⟩
  | _, .btreeSet cmp i1 i2 t => ⟨fun _ _ _ _ ⟨_, c, _, h1, h2, _⟩ => ⟨c, h1, berElems_all (Ty.carries lax o t) h2⟩, by
    rintro id d raw d' raw' x ha ⟨h0, c, l, h1, h2, h3⟩ ⟨c', h1', h2'⟩
    exact ⟨h0, c', l, h1', berElems_carries (Ty.carries lax o t) h2 (ha.body h1 h1') h2', h3⟩⟩
  | _, .btreeMap cmp i1 i2 k t =>
    ⟨fun _ _ _ _ ⟨_, c, _, h1, h2, _⟩ => ⟨c, h1, berElems_all (berPair_carries (Ty.carries lax o k) (Ty.carries lax o t)) h2⟩, by
    rintro id d raw d' raw' x ha ⟨h0, c, l, h1, h2, h3⟩ ⟨c', h1', h2'⟩
    exact ⟨h0, c', l, h1', berElems_carries (berPair_carries (Ty.carries lax o k) (Ty.carries lax o t)) h2 (ha.body h1 h1') h2', h3⟩⟩
  | _, .hashSet _ t => ⟨fun _ _ _ _ ⟨_, c, _, h1, h2, _⟩ => ⟨c, h1, berElems_all (Ty.carries lax o t) h2⟩, by
    rintro id d raw d' raw' x ha ⟨h0, c, l, h1, h2, h3⟩ ⟨c', h1', h2'⟩
    exact ⟨h0, c', l, h1', berElems_carries (Ty.carries lax o t) h2 (ha.body h1 h1') h2', h3⟩⟩
  | _, .hashMap _ k t =>
    ⟨fun _ _ _ _ ⟨_, c, _, _, h1, h2, _⟩ => ⟨c, h1, berElems_all (berPair_carries (Ty.carries lax o k) (Ty.carries lax o t)) h2⟩, by
    rintro id d raw d' raw' x ha ⟨h0, c, l, u, h1, h2, h3⟩ ⟨c', h1', h2'⟩
    exact ⟨h0, c', l, u, h1', berElems_carries (berPair_carries (Ty.carries lax o k) (Ty.carries lax o t)) h2 (ha.body h1 h1') h2', h3⟩⟩
  | _, .struct _ fs => ⟨fun _ _ _ _ ⟨_, c, h1, h2⟩ => ⟨c, h1, Fields.bare lax o fs _ _ h2⟩, by
    rintro id d raw d' raw' x ha ⟨h0, c, h1, h2⟩ ⟨c', h1', h2'⟩
    exact ⟨h0, c', h1', Fields.carries lax o fs _ _ _ (ha.body h1 h1') h2 h2'⟩⟩
  | _, .enum vs => Variants.carries lax o vs
  | _, .transparent fs => Fields.carriesOne lax o fs
  | _, .conv t _ g => ⟨fun _ _ _ _ ⟨_, h, _⟩ => (Ty.carries lax o t).1 _ _ _ _ h,
    fun _ _ _ _ _ _ ha ⟨u, h1, h2⟩ h' => ⟨u, (Ty.carries lax o t).2 _ _ _ _ _ _ ha h1 h', h2⟩⟩
  | _, .named t f g hg _ => ⟨fun _ _ _ _ h => (Ty.carries lax o t).1 _ _ _ _ h,
    fun _ _ _ _ _ _ ha h h' => (Ty.carries lax o t).2 _ _ _ _ _ _ ha h h'⟩
  | _, .hole => ⟨fun _ _ _ _ h => h.elim, fun _ _ _ _ _ _ _ h _ => h.elim⟩
theorem Fields.bare (lax : Bool) (o : (α : Type) → List α → List α) : {γ : Type} → (fs : Fields γ) → (c : Bytes) → (v : γ) →
    fs.berVal lax o c v → fs.barePairs c
  | _, .nil, _, _, _ => trivial
  | _, .plain t r, _, _, h => by
    obtain ⟨p, id, d, raw, c1, k1, k2, k3, k4⟩ := h
    exact ⟨p, id, d, raw, c1, k1, k2, (Ty.carries lax o t).1 _ _ _ _ k3, Fields.bare lax o r _ _ k4⟩
  | _, .skip _ r, _, _, h => Fields.bare lax o r _ _ h.2
  | _, .skipSer t r, _, _, h => by
    obtain ⟨p, id, d, raw, c1, k1, k2, k3, k4⟩ := h
    exact ⟨p, id, d, raw, c1, k1, k2, (Ty.carries lax o t).1 _ _ _ _ k3, Fields.bare lax o r _ _ k4⟩
  | _, .skipDe _ _ r, _, _, h => Fields.bare lax o r _ _ h.2
  | _, .conv t _ g r, _, _, h => by
    obtain ⟨p, id, d, raw, c1, k1, k2, ⟨_, k3, _⟩, k4⟩ := h
    exact ⟨p, id, d, raw, c1, k1, k2, (Ty.carries lax o t).1 _ _ _ _ k3, Fields.bare lax o r _ _ k4⟩
theorem Fields.carries (lax : Bool) (o : (α : Type) → List α → List α) : {γ : Type} → (fs : Fields γ) → (c c' : Bytes) → (v : γ) →
    SeqAlike c c' → fs.berVal lax o c v → fs.barePairs c' → fs.berVal lax o c' v
  | _, .nil, _, _, _, hs, h, _ => by
    cases h
    exact hs.nil
  | _, .plain t r, _, _, v, hs, h, h' => by
    obtain ⟨p, id, d, raw, c1, k1, rfl, k3, k4⟩ := h
    obtain ⟨p', id', d', raw', c1', k1', rfl, k3', k4'⟩ := h'
    obtain ⟨rfl, a1, a2⟩ := hs.uncons k1 k1'
    exact ⟨p', id, d', raw', c1', k1', rfl, (Ty.carries lax o t).2 _ _ _ _ _ _ a1 k3 k3', Fields.carries lax o r _ _ _ a2 k4 k4'⟩
  | _, .skip _ r, _, _, v, hs, h, h' => ⟨h.1, Fields.carries lax o r _ _ _ hs h.2 h'⟩
  | _, .skipSer t r, _, _, v, hs, h, h' => by
    obtain ⟨p, id, d, raw, c1, k1, rfl, k3, k4⟩ := h
    obtain ⟨p', id', d', raw', c1', k1', rfl, k3', k4'⟩ := h'
    obtain ⟨rfl, a1, a2⟩ := hs.uncons k1 k1'
    exact ⟨p', id, d', raw', c1', k1', rfl, (Ty.carries lax o t).2 _ _ _ _ _ _ a1 k3 k3', Fields.carries lax o r _ _ _ a2 k4 k4'⟩
  | _, .skipDe _ _ r, _, _, v, hs, h, h' => ⟨h.1, Fields.carries lax o r _ _ _ hs h.2 h'⟩
  | _, .conv t _ g r, _, _, v, hs, h, h' => by
    obtain ⟨p, id, d, raw, c1, k1, rfl, ⟨u, k3, k5⟩, k4⟩ := h
    obtain ⟨p', id', d', raw', c1', k1', rfl, k3', k4'⟩ := h'
    obtain ⟨rfl, a1, a2⟩ := hs.uncons k1 k1'
    exact ⟨p', id, d', raw', c1', k1', rfl, ⟨u, (Ty.carries lax o t).2 _ _ _ _ _ _ a1 k3 k3', k5⟩, Fields.carries lax o r _ _ _ a2 k4 k4'⟩
theorem Fields.carriesOne (lax : Bool) (o : (α : Type) → List α → List α) : {γ : Type} → (fs : Fields γ) → Carries (fs.berOne lax o) fs.bareOne
  | _, .nil => ⟨fun _ _ _ _ _ => trivial, fun _ _ _ _ _ _ _ _ _ => trivial⟩
  | _, .plain t r => ⟨fun _ _ _ _ h => ⟨(Ty.carries lax o t).1 _ _ _ _ h.1, (Fields.carriesOne lax o r).1 _ _ _ _ h.2⟩,
    fun _ _ _ _ _ _ ha h h' => ⟨(Ty.carries lax o t).2 _ _ _ _ _ _ ha h.1 h'.1, (Fields.carriesOne lax o r).2 _ _ _ _ _ _ ha h.2 h'.2⟩⟩
  | _, .skip _ r => ⟨fun _ _ _ _ h => (Fields.carriesOne lax o r).1 _ _ _ _ h.2,
    fun _ _ _ _ _ _ ha h h' => ⟨h.1, (Fields.carriesOne lax o r).2 _ _ _ _ _ _ ha h.2 h'⟩⟩
  | _, .skipSer t r => ⟨fun _ _ _ _ h => ⟨(Ty.carries lax o t).1 _ _ _ _ h.1, (Fields.carriesOne lax o r).1 _ _ _ _ h.2⟩,
    fun _ _ _ _ _ _ ha h h' => ⟨(Ty.carries lax o t).2 _ _ _ _ _ _ ha h.1 h'.1, (Fields.carriesOne lax o r).2 _ _ _ _ _ _ ha h.2 h'.2⟩⟩
  | _, .skipDe _ _ r => ⟨fun _ _ _ _ h => (Fields.carriesOne lax o r).1 _ _ _ _ h.2,
    fun _ _ _ _ _ _ ha h h' => ⟨h.1, (Fields.carriesOne lax o r).2 _ _ _ _ _ _ ha h.2 h'⟩⟩
  | _, .conv t _ g r => ⟨fun _ _ _ _ ⟨⟨_, h, _⟩, h2⟩ => ⟨(Ty.carries lax o t).1 _ _ _ _ h, (Fields.carriesOne lax o r).1 _ _ _ _ h2⟩,
    fun _ _ _ _ _ _ ha ⟨⟨u, h, h3⟩, h2⟩ h' => ⟨⟨u, (Ty.carries lax o t).2 _ _ _ _ _ _ ha h h'.1, h3⟩,
      (Fields.carriesOne lax o r).2 _ _ _ _ _ _ ha h2 h'.2⟩⟩
theorem Variants.carries (lax : Bool) (o : (α : Type) → List α → List α) : {ρ : Type} → (vs : Variants ρ) → Carries (vs.berVal lax o) vs.barePairs
  | _, .nil => ⟨fun _ _ _ x => (nomatch x), fun _ _ _ _ _ x => (nomatch x)⟩
  | _, .cons i fs r => by
    constructor
    · intro id d raw x h
      match x with
      | .inl v =>
        obtain ⟨h0, c, h1, h2⟩ := h
        exact And.intro (fun _ => ⟨c, h1, Fields.bare lax o fs _ _ h2⟩) (fun h => absurd h0 h)
      | .inr v => exact And.intro (fun h0 => absurd h0 h.1) (fun _ => (Variants.carries lax o r).1 _ _ _ _ h.2)
    · intro id d raw d' raw' x ha h h'
      match x with
      | .inl v =>
        obtain ⟨h0, c, h1, h2⟩ := h
        obtain ⟨c', h1', h2'⟩ := h'.1 h0
        exact ⟨h0, c', h1', Fields.carries lax o fs _ _ _ (ha.body h1 h1') h2 h2'⟩
      | .inr v => exact ⟨h.1, (Variants.carries lax o r).2 _ _ _ _ _ _ ha h.2 (h'.2 h.1)⟩
end

end Bsn1
