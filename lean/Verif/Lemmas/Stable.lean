import Verif.Lemmas.DeMore
/-!
# The form of a length never changes what is decoded, for all types
-/

namespace Bsn1
open Spec

variable {α β γ : Type}

/-- The same value, or values that differ in the forms of lengths only. -/
def Alike (id : Bytes) (d : Bool) (raw : Bytes) (d' : Bool) (raw' : Bytes) : Prop :=
  (d = d' ∧ raw = raw') ∨ ∃ b b', id ∉ leafIds ∧ IsBody d raw b ∧ IsBody d' raw' b' ∧ SameSeq b b'

/-- The same octets, or octets that differ in the forms of lengths only. -/
def SeqAlike (c c' : Bytes) : Prop := c = c' ∨ SameSeq c c'

/-- `R` relates alike values to one thing only. -/
def Stable (R : Bytes → Bool → Bytes → α → Prop) : Prop :=
  ∀ id d raw d' raw' x x', Alike id d raw d' raw' → R id d raw x → R id d' raw' x' → x = x'

theorem SeqAlike.nil {c : Bytes} (h : SeqAlike [] c) : c = [] := by
  rcases h with h | h
  · exact h.symm
  · generalize hx : ([] : Bytes) = x at h
    cases h with
    | nil => rfl
    | same p1 c1 c' hp1 h =>
      have := berValue_length (isBer_berValue hp1).choose_spec.choose_spec.choose_spec
      have hl := congrArg List.length hx
      rw [List.length_append, List.length_nil] at hl
      omega
    | form p1 p' id d d' raw raw' b b' c1 c' h1 =>
      have := berValue_length h1
      have hl := congrArg List.length hx
      rw [List.length_append, List.length_nil] at hl
      omega

theorem SeqAlike.symm {c c' : Bytes} (h : SeqAlike c c') : SeqAlike c' c :=
  h.imp Eq.symm Bsn1.SameSeq.symm

theorem SeqAlike.uncons {p c p' c' id id' raw raw' : Bytes} {d d' : Bool} (h : SeqAlike (p ++ c) (p' ++ c'))
    (hp : BerValue p id d raw) (hp' : BerValue p' id' d' raw') : id = id' ∧ Alike id d raw d' raw' ∧ SeqAlike c c' := by
  rcases h with h | h
  · obtain ⟨rfl, rfl⟩ := isBer_prefix_free (berValue_isBer hp) (berValue_isBer hp') h
    obtain ⟨rfl, rfl, rfl⟩ := berValue_unique hp hp'
    exact ⟨rfl, .inl ⟨rfl, rfl⟩, .inl rfl⟩
  · obtain ⟨q, c2, e, hs, hq⟩ := SameSeq.uncons (berValue_isBer hp) h
    rcases hq with rfl | ⟨id1, d1, d2, raw1, raw2, b, b', h1, h2, h3, h4, h5, h6⟩
    · obtain ⟨rfl, rfl⟩ := isBer_prefix_free (berValue_isBer hp') (berValue_isBer hp) e
      obtain ⟨rfl, rfl, rfl⟩ := berValue_unique hp hp'
      exact ⟨rfl, .inl ⟨rfl, rfl⟩, .inr hs⟩
    · obtain ⟨rfl, rfl, rfl⟩ := berValue_unique hp h1
      obtain ⟨rfl, rfl⟩ := isBer_prefix_free (berValue_isBer hp') (berValue_isBer h2) e
      obtain ⟨rfl, rfl, rfl⟩ := berValue_unique hp' h2
      exact ⟨rfl, .inr ⟨b, b', h3, h4, h5, h6⟩, .inr hs⟩

theorem SameSeq.append_eoc {b b' : Bytes} (h : SameSeq b b') : SameSeq (b ++ Spec.eoc) (b' ++ Spec.eoc) := by
  induction h with
  | nil => exact .same Spec.eoc [] [] (berValue_isBer (id := [0x00]) (indef := false) (raw := []) ⟨isId_zero, by decide, tlv_zero_nil.symm⟩) .nil
  | same p c c' hp _ ih =>
    rw [List.append_assoc, List.append_assoc]
    exact .same p _ _ hp ih
  | form p p' id d d' raw raw' b b' c c' h1 h2 h3 h4 h5 h6 _ ih1 ih2 =>
    rw [List.append_assoc, List.append_assoc]
    exact .form p p' id d d' raw raw' b b' _ _ h1 h2 h3 h4 h5 h6 ih2

theorem Alike.body {id raw raw' c c' : Bytes} {d d' : Bool} (h : Alike id d raw d' raw') (hc : IsBody d raw c) (hc' : IsBody d' raw' c') :
    SeqAlike c c' := by
  rcases h with ⟨rfl, rfl⟩ | ⟨b, b', _, h2, h3, h4⟩
  · exact .inl (isBody_unique hc hc')
  · cases isBody_unique hc h2
    cases isBody_unique hc' h3
    exact .inr h4

theorem berElems_stable {R : Bytes → Bool → Bytes → α → Prop} (hR : Stable R) {c : Bytes} {l : List α} (h : BerElems R c l) :
    ∀ {c' : Bytes} {l' : List α}, SeqAlike c c' → BerElems R c' l' → l = l' := by
  induction h with
  | nil =>
    intro c' l' hs h'
    cases hs.nil
    generalize hx : ([] : Bytes) = x at h'
    cases h' with
    | nil => rfl
    | cons p id d raw c x xs hv _ _ =>
      have := berValue_length hv
      have hl := congrArg List.length hx
      rw [List.length_append, List.length_nil] at hl
      omega
  | cons p id d raw c x xs hv hx _ ih =>
    intro c' l' hs h'
    cases h' with
    | nil =>
      have := berValue_length hv
      have hl := congrArg List.length hs.symm.nil
      rw [List.length_append, List.length_nil] at hl
      omega
    | cons p' id' d' raw' c' x' xs' hv' hx' h' =>
      obtain ⟨rfl, h1, h2⟩ := hs.uncons hv hv'
      rw [hR _ _ _ _ _ _ _ h1 hx hx', ih h2 h']

/-- A body of two values does not continue as two values with an end-of-contents. -/
theorem two_not_three {b b' pk pv pk' pv' : Bytes} (hs : SameSeq b' b) (e : b ++ Spec.eoc = pk ++ pv) (e' : b' = pk' ++ pv')
    (hk : IsBer pk) (hv : IsBer pv) (hk' : IsBer pk') (hv' : IsBer pv') : False := by
  subst e'
  have isBer : ∀ {p p' : Bytes}, IsBer p → (p' = p ∨ ∃ id d d' raw raw' b b', BerValue p id d raw ∧ BerValue p' id d' raw' ∧
      id ∉ leafIds ∧ IsBody d raw b ∧ IsBody d' raw' b' ∧ SameSeq b b') → IsBer p' := by
    rintro p p' hp (rfl | ⟨_, _, _, _, _, _, _, _, h, _⟩)
    · exact hp
    · exact berValue_isBer h
  obtain ⟨q1, c1, rfl, h1, h2⟩ := SameSeq.uncons hk' hs
  rw [← List.append_nil pv'] at h1
  obtain ⟨q2, c2, rfl, h3, h4⟩ := SameSeq.uncons hv' h1
  cases SeqAlike.nil (.inr h3)
  rw [List.append_nil, List.append_assoc] at e
  obtain ⟨rfl, e1⟩ := isBer_prefix_free (isBer hk' h2) hk e
  rw [← List.append_nil pv] at e1
  obtain ⟨_, e2⟩ := isBer_prefix_free (isBer hv' h4) hv e1
  exact absurd e2 (by decide)

theorem berPair_stable {K : Bytes → Bool → Bytes → α → Prop} {V : Bytes → Bool → Bytes → β → Prop} (hK : Stable K) (hV : Stable V) :
    Stable (BerPair K V) := by
  intro id d raw d' raw' x x' ha h h'
  have key : ∀ {raw raw' : Bytes} {d d' : Bool}, SeqAlike raw raw' → BerPair K V id d raw x → BerPair K V id d' raw' x' → x = x' := by
    intro raw raw' d d' ha h h'
    cases h with
    | mk _ pk ik dk ck pv iv dv cv k v h1 h2 h3 h4 =>
      cases h' with
      | mk _ pk' ik' dk' ck' pv' iv' dv' cv' k' v' h1' h2' h3' h4' =>
        obtain ⟨rfl, a1, a2⟩ := ha.uncons h1 h1'
        rw [← List.append_nil pv, ← List.append_nil pv'] at a2
        obtain ⟨rfl, a3, _⟩ := a2.uncons h3 h3'
        rw [hK _ _ _ _ _ _ _ a1 h2 h2', hV _ _ _ _ _ _ _ a3 h4 h4']
  rcases ha with ⟨rfl, rfl⟩ | ⟨b, b', _, h2, h3, h4⟩
  · exact key (.inl rfl) h h'
  · cases d with
    | false =>
      cases d' with
      | false => exact key (.inr (by rw [h2, h3]; exact h4)) h h'
      | true =>
        exfalso
        cases h with
        | mk _ pk ik dk ck pv iv dv cv k v k1 k2 k3 k4 =>
          have h3 : raw' = b' ++ Spec.eoc := h3
          cases h' with
          | mk _ pk' ik' dk' ck' pv' iv' dv' cv' k' v' k1' k2' k3' k4' =>
            exact two_not_three h4 h3.symm h2.symm (berValue_isBer k1') (berValue_isBer k3') (berValue_isBer k1) (berValue_isBer k3)
    | true =>
      have h2 : raw = b ++ Spec.eoc := h2
      cases d' with
      | true =>
        have h3 : raw' = b' ++ Spec.eoc := h3
        exact key (.inr (by rw [h2, h3]; exact SameSeq.append_eoc h4)) h h'
      | false =>
        exfalso
        cases h with
        | mk _ pk ik dk ck pv iv dv cv k v k1 k2 k3 k4 =>
          cases h' with
          | mk _ pk' ik' dk' ck' pv' iv' dv' cv' k' v' k1' k2' k3' k4' =>
            exact two_not_three (Bsn1.SameSeq.symm h4) h2.symm h3.symm (berValue_isBer k1) (berValue_isBer k3) (berValue_isBer k1')
              (berValue_isBer k3')

theorem setOf_unique {cmp : α → α → Ordering} [Std.TransCmp cmp] [Std.LawfulEqCmp cmp] {l v v' : List α} (h : SetOf cmp l v)
    (h' : SetOf cmp l v') : v = v' := ((setOf_iff l v).2 h).trans ((setOf_iff l v').2 h').symm

theorem mapOf_unique {cmp : α → α → Ordering} [Std.TransCmp cmp] [Std.LawfulEqCmp cmp] {l v v' : List (α × β)} (h : MapOf cmp l v)
    (h' : MapOf cmp l v') : v = v' := ((mapOf_iff l v).2 h).trans ((mapOf_iff l v').2 h').symm

mutual
theorem Ty.stable (lax : Bool) (o : (α : Type) → List α → List α) : {α : Type} → (t : Ty α) → Stable (t.berVal lax o)
  | _, .bool => by
    rintro id d raw d' raw' x x' ha ⟨rfl, _, b, rfl, rfl⟩ ⟨_, _, b', rfl, rfl⟩
    rcases ha with ⟨_, e⟩ | ⟨_, _, h, _⟩
    · cases e; rfl
    · simp [leafIds] at h
  | _, .int _ => by
    rintro id d raw d' raw' x x' ha ⟨rfl, _, rfl, _⟩ ⟨_, _, rfl, _⟩
    rcases ha with ⟨_, e⟩ | ⟨_, _, h, _⟩
    · rw [← (intOctets_spec x).2, e, (intOctets_spec x').2]
    · simp [leafIds] at h
  | _, .string => by
    rintro id d raw d' raw' x x' ha ⟨hid, _, rfl⟩ ⟨_, _, rfl⟩
    rcases ha with ⟨_, e⟩ | ⟨_, _, h, _⟩
    · exact String.toByteArray_inj.1 (ByteArray.ext (Array.toList_inj.1 e))
    · rcases hid with rfl | rfl <;> simp [leafIds] at h
  | _, .octetString => by
    rintro id d raw d' raw' x x' ha ⟨hid, _, rfl⟩ ⟨_, _, rfl⟩
    rcases ha with ⟨_, e⟩ | ⟨_, _, h, _⟩
    · exact e
    · rcases hid with rfl | rfl <;> simp [leafIds] at h
  | _, .vec t => by
    rintro id d raw d' raw' x x' ha ⟨_, c, h1, h2⟩ ⟨_, c', h1', h2'⟩
    exact berElems_stable (Ty.stable lax o t) h2 (ha.body h1 h1') h2'
  | _, .linkedList t => by
    rintro id d raw d' raw' x x' ha ⟨_, c, h1, h2⟩ ⟨_, c', h1', h2'⟩
    exact berElems_stable (Ty.stable lax o t) h2 (ha.body h1 h1') h2'
  | _, .vecDeque t => by
    rintro id d raw d' raw' x x' ha ⟨_, c, h1, h2⟩ ⟨_, c', h1', h2'⟩
    exact berElems_stable (Ty.stable lax o t) h2 (ha.body h1 h1') h2'
  | _, .btreeSet cmp i1 i2 t => by
    rintro id d raw d' raw' x x' ha ⟨_, c, l, h1, h2, h3⟩ ⟨_, c', l', h1', h2', h3'⟩
    cases berElems_stable (Ty.stable lax o t) h2 (ha.body h1 h1') h2'
    exact setOf_unique h3 h3'
  | _, .btreeMap cmp i1 i2 k t => by
    rintro id d raw d' raw' x x' ha ⟨_, c, l, h1, h2, h3⟩ ⟨_, c', l', h1', h2', h3'⟩
    cases berElems_stable (berPair_stable (Ty.stable lax o k) (Ty.stable lax o t)) h2 (ha.body h1 h1') h2'
    exact mapOf_unique h3 h3'
  | _, .hashSet _ t => by
    rintro id d raw d' raw' x x' ha ⟨_, c, l, h1, h2, rfl⟩ ⟨_, c', l', h1', h2', rfl⟩
    cases berElems_stable (Ty.stable lax o t) h2 (ha.body h1 h1') h2'
    rfl
  | _, .hashMap _ k t => by
    rintro id d raw d' raw' x x' ha ⟨_, c, l, u, h1, h2, h3, rfl⟩ ⟨_, c', l', u', h1', h2', h3', rfl⟩
    cases berElems_stable (berPair_stable (Ty.stable lax o k) (Ty.stable lax o t)) h2 (ha.body h1 h1') h2'
    rw [hashMapOf_unique h3 h3']
  | _, .struct _ fs => by
    rintro id d raw d' raw' x x' ha ⟨_, c, h1, h2⟩ ⟨_, c', h1', h2'⟩
    exact Fields.stable lax o fs _ _ _ _ (ha.body h1 h1') h2 h2'
  | _, .enum vs => Variants.stable lax o vs
  | _, .transparent fs => Fields.stableOne lax o fs
  | _, .conv t _ g => by
    rintro id d raw d' raw' x x' ha ⟨u, h1, h2⟩ ⟨u', h1', h2'⟩
    cases Ty.stable lax o t _ _ _ _ _ _ _ ha h1 h1'
    exact Except.ok.inj (h2.symm.trans h2')
  | _, .named t f g hg _ => by
    intro id d raw d' raw' x x' ha h h'
    have e := Ty.stable lax o t _ _ _ _ _ _ _ ha h h'
    rw [← hg x, e, hg]
  | _, .hole => fun _ _ _ _ _ _ _ _ h _ => h.elim
theorem Fields.stable (lax : Bool) (o : (α : Type) → List α → List α) : {γ : Type} → (fs : Fields γ) → (c c' : Bytes) → (v v' : γ) →
    SeqAlike c c' → fs.berVal lax o c v → fs.berVal lax o c' v' → v = v'
  | _, .nil, _, _, _, _, _, _, _ => rfl
  | _, .plain t r, _, _, v, v', hs, h, h' => by
    obtain ⟨p, id, d, raw, c1, k1, rfl, k3, k4⟩ := h
    obtain ⟨p', id', d', raw', c1', k1', rfl, k3', k4'⟩ := h'
    obtain ⟨rfl, a1, a2⟩ := hs.uncons k1 k1'
    exact Prod.ext (Ty.stable lax o t _ _ _ _ _ _ _ a1 k3 k3') (Fields.stable lax o r _ _ _ _ a2 k4 k4')
  | _, .skip _ r, _, _, v, v', hs, h, h' => Prod.ext (h.1.trans h'.1.symm) (Fields.stable lax o r _ _ _ _ hs h.2 h'.2)
  | _, .skipSer t r, _, _, v, v', hs, h, h' => by
    obtain ⟨p, id, d, raw, c1, k1, rfl, k3, k4⟩ := h
    obtain ⟨p', id', d', raw', c1', k1', rfl, k3', k4'⟩ := h'
    obtain ⟨rfl, a1, a2⟩ := hs.uncons k1 k1'
    exact Prod.ext (Ty.stable lax o t _ _ _ _ _ _ _ a1 k3 k3') (Fields.stable lax o r _ _ _ _ a2 k4 k4')
  | _, .skipDe _ _ r, _, _, v, v', hs, h, h' => Prod.ext (h.1.trans h'.1.symm) (Fields.stable lax o r _ _ _ _ hs h.2 h'.2)
  | _, .conv t _ g r, _, _, v, v', hs, h, h' => by
    obtain ⟨p, id, d, raw, c1, k1, rfl, ⟨u, k3, k5⟩, k4⟩ := h
    obtain ⟨p', id', d', raw', c1', k1', rfl, ⟨u', k3', k5'⟩, k4'⟩ := h'
    obtain ⟨rfl, a1, a2⟩ := hs.uncons k1 k1'
    cases Ty.stable lax o t _ _ _ _ _ _ _ a1 k3 k3'
    exact Prod.ext (Except.ok.inj (k5.symm.trans k5')) (Fields.stable lax o r _ _ _ _ a2 k4 k4')
theorem Fields.stableOne (lax : Bool) (o : (α : Type) → List α → List α) : {γ : Type} → (fs : Fields γ) → Stable (fs.berOne lax o)
  | _, .nil => fun _ _ _ _ _ _ _ _ _ _ => rfl
  | _, .plain t r => fun _ _ _ _ _ _ _ ha h h' =>
    Prod.ext (Ty.stable lax o t _ _ _ _ _ _ _ ha h.1 h'.1) (Fields.stableOne lax o r _ _ _ _ _ _ _ ha h.2 h'.2)
  | _, .skip _ r => fun _ _ _ _ _ _ _ ha h h' =>
    Prod.ext (h.1.trans h'.1.symm) (Fields.stableOne lax o r _ _ _ _ _ _ _ ha h.2 h'.2)
  | _, .skipSer t r => fun _ _ _ _ _ _ _ ha h h' =>
    Prod.ext (Ty.stable lax o t _ _ _ _ _ _ _ ha h.1 h'.1) (Fields.stableOne lax o r _ _ _ _ _ _ _ ha h.2 h'.2)
  | _, .skipDe _ _ r => fun _ _ _ _ _ _ _ ha h h' =>
    Prod.ext (h.1.trans h'.1.symm) (Fields.stableOne lax o r _ _ _ _ _ _ _ ha h.2 h'.2)
  | _, .conv t _ g r => by
    rintro _ _ _ _ _ x x' ha ⟨⟨u, k1, k2⟩, k3⟩ ⟨⟨u', k1', k2'⟩, k3'⟩
    cases Ty.stable lax o t _ _ _ _ _ _ _ ha k1 k1'
    exact Prod.ext (Except.ok.inj (k2.symm.trans k2')) (Fields.stableOne lax o r _ _ _ _ _ _ _ ha k3 k3')
theorem Variants.stable (lax : Bool) (o : (α : Type) → List α → List α) : {ρ : Type} → (vs : Variants ρ) → Stable (vs.berVal lax o)
  | _, .nil => fun _ _ _ _ _ x _ _ _ _ => nomatch x
  | _, .cons i fs r => by
    intro id d raw d' raw' x x' ha h h'
    match x, x' with
    | .inl v, .inl v' =>
      obtain ⟨_, c, h1, h2⟩ := h
      obtain ⟨_, c', h1', h2'⟩ := h'
      rw [Fields.stable lax o fs _ _ _ _ (ha.body h1 h1') h2 h2']
    | .inr v, .inr v' => rw [Variants.stable lax o r _ _ _ _ _ _ _ ha h.2 h'.2]
    | .inl v, .inr v' => exact absurd h.1 h'.1
    | .inr v, .inl v' => exact absurd h'.1 h.1
end

end Bsn1
