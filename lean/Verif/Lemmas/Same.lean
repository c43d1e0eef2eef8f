import Verif.Spec.Same
import Verif.Lemmas.Sets
/-!
# Same values have the same encodings
-/

namespace Bsn1
open Spec

variable {α β γ : Type}

theorem forall₂_flatMap {R : α → α → Prop} {f : α → Bytes} {v w : List α} (h : List.Forall₂ R v w)
    (hf : ∀ x ∈ v, ∀ y ∈ w, R x y → f x = f y) : v.flatMap f = w.flatMap f := by
  induction h with
  | nil => rfl
  | cons h1 _ ih =>
    rw [List.flatMap_cons, List.flatMap_cons, hf _ (by simp) _ (by simp) h1,
      ih fun x hx y hy => hf x (by simp [hx]) y (by simp [hy])]

theorem forall₂_of_keys {R : β → β → Prop} : ∀ {v w : List (α × β)}, v.map Prod.fst = w.map Prod.fst →
    (v.map Prod.fst).Nodup → (∀ k x, (k, x) ∈ v → ∃ y, (k, y) ∈ w ∧ R x y) →
    List.Forall₂ (fun x y => x.1 = y.1 ∧ R x.2 y.2) v w
  | [], [], _, _, _ => .nil
  | [], _ :: _, h, _, _ => by simp at h
  | _ :: _, [], h, _, _ => by simp at h
  | (k, x) :: v, (k', y) :: w, h, hn, hm => by
    simp only [List.map_cons, List.cons.injEq] at h
    obtain ⟨rfl, h⟩ := h
    rw [List.map_cons, List.nodup_cons] at hn
    have hk : ∀ y', (k, y') ∉ w := fun y' hy' => hn.1 (by rw [h]; exact List.mem_map.mpr ⟨(k, y'), hy', rfl⟩)
    refine .cons ⟨rfl, ?_⟩ (forall₂_of_keys h hn.2 fun k2 x2 h2 => ?_)
    · obtain ⟨y', h1, h2⟩ := hm k x (by simp)
      rcases List.mem_cons.mp h1 with h1 | h1
      · simp only [Prod.mk.injEq, true_and] at h1; rw [h1] at h2; exact h2
      · exact absurd h1 (hk y')
    · obtain ⟨y', h3, h4⟩ := hm k2 x2 (by simp [h2])
      rcases List.mem_cons.mp h3 with h3 | h3
      · simp only [Prod.mk.injEq] at h3
        rw [← h3.1] at hn
        exact absurd (List.mem_map_of_mem (f := Prod.fst) h2) hn.1
      · exact ⟨y', h3, h4⟩

theorem sorted_nodup {cmp : α → α → Ordering} [Std.TransCmp cmp] [Std.LawfulEqCmp cmp] {l : List α}
    (h : l.Pairwise fun x y => cmp x y = .lt) : l.Nodup :=
  h.imp fun {a b} hab e => by subst e; exact cmp_lt_irrefl a hab

mutual
theorem Ty.same_enc : {α : Type} → (t : Ty α) → t.hashFree → (v w : α) → t.ok v → t.ok w → t.same v w → t.enc v = t.enc w
  | _, .bool, _, _, _, _, _, h => congrArg _ h
  | _, .int _, _, _, _, _, _, h => congrArg _ h
  | _, .string, _, _, _, _, _, h => congrArg _ h
  | _, .octetString, _, _, _, _, _, h => congrArg _ h
  | _, .vec t, ht, v, w, hv, hw, h => by
    exact congrArg (Prod.mk _) (forall₂_flatMap h fun x hx y hy hr =>
      congrArg tlvOf (Ty.same_enc t ht x y (hv x hx) (hw y hy) hr))
  | _, .linkedList t, ht, v, w, hv, hw, h => by
    exact congrArg (Prod.mk _) (forall₂_flatMap h fun x hx y hy hr =>
      congrArg tlvOf (Ty.same_enc t ht x y (hv x hx) (hw y hy) hr))
  | _, .vecDeque t, ht, v, w, hv, hw, h => by
    exact congrArg (Prod.mk _) (forall₂_flatMap h fun x hx y hy hr =>
      congrArg tlvOf (Ty.same_enc t ht x y (hv x hx) (hw y hy) hr))
  | _, .btreeSet cmp h1 h2 t, ht, v, w, hv, hw, h => by
    exact congrArg _ (sorted_unique (cmp := cmp) (fun x => x) hv.1 hw.1 h)
  | _, .btreeMap cmp h1 h2 k t, ht, v, w, hv, hw, h => by
    have hv' : (v.map Prod.fst).Pairwise fun x y => cmp x y = .lt := List.pairwise_map.mpr hv.1
    have hw' : (w.map Prod.fst).Pairwise fun x y => cmp x y = .lt := List.pairwise_map.mpr hw.1
    have hk : v.map Prod.fst = w.map Prod.fst := sorted_unique (cmp := cmp) (fun x => x) hv' hw' fun x => by
      simp only [List.mem_map, Prod.exists, exists_and_right, exists_eq_right]
      constructor
      · rintro ⟨y, hy⟩; obtain ⟨z, hz, _⟩ := h.1 x y hy; exact ⟨z, hz⟩
      · rintro ⟨y, hy⟩; obtain ⟨z, hz, _⟩ := h.2 x y hy; exact ⟨z, hz⟩
    refine congrArg (Prod.mk _) (forall₂_flatMap (forall₂_of_keys hk (sorted_nodup hv') h.1) fun x hx y hy hr => ?_)
    rw [hr.1, Ty.same_enc t ht.2 x.2 y.2 (hv.2 x hx).2 (hw.2 y hy).2 hr.2]
  | _, .hashSet _ _, ht, _, _, _, _, _ => ht.elim
  | _, .hashMap _ _ _, ht, _, _, _, _, _ => ht.elim
  | _, .struct _ fs, ht, v, w, hv, hw, h => congrArg (Prod.mk _) (Fields.same_enc fs ht v w hv hw h)
  | _, .enum vs, ht, v, w, hv, hw, h => Variants.same_enc vs ht v w hv hw h
  | _, .transparent fs, ht, v, w, hv, hw, h => Fields.same_encOne fs ht v w hv hw h
  | _, .conv t f _, ht, v, w, hv, hw, h => Ty.same_enc t ht (f v) (f w) hv hw h
  | _, .named t f _ _ _, ht, v, w, hv, hw, h => Ty.same_enc t ht (f v) (f w) hv hw h
  | _, .hole, _, _, _, hv, _, _ => hv.elim
theorem Fields.same_enc : {γ : Type} → (fs : Fields γ) → fs.hashFree → (v w : γ) → fs.ok v → fs.ok w → fs.same v w →
    fs.enc v = fs.enc w
  | _, .nil, _, _, _, _, _, _ => rfl
  | _, .plain t r, ht, v, w, hv, hw, h => by
    change tlvOf (t.enc v.1) ++ r.enc v.2 = tlvOf (t.enc w.1) ++ r.enc w.2
    rw [Ty.same_enc t ht.1 _ _ hv.1 hw.1 h.1, Fields.same_enc r ht.2 _ _ hv.2 hw.2 h.2]
  | _, .skip _ r, ht, v, w, hv, hw, h => Fields.same_enc r ht v.2 w.2 hv hw h
  | _, .skipSer _ r, ht, v, w, hv, hw, h => Fields.same_enc r ht v.2 w.2 hv hw h
  | _, .skipDe t _ r, ht, v, w, hv, hw, h => by
    change tlvOf (t.enc v.1) ++ r.enc v.2 = tlvOf (t.enc w.1) ++ r.enc w.2
    rw [Ty.same_enc t ht.1 _ _ hv.1 hw.1 h.1, Fields.same_enc r ht.2 _ _ hv.2 hw.2 h.2]
  | _, .conv t f _ r, ht, v, w, hv, hw, h => by
    change tlvOf (t.enc (f v.1)) ++ r.enc v.2 = tlvOf (t.enc (f w.1)) ++ r.enc w.2
    rw [Ty.same_enc t ht.1 _ _ hv.1 hw.1 h.1, Fields.same_enc r ht.2 _ _ hv.2 hw.2 h.2]
theorem Fields.same_encOne : {γ : Type} → (fs : Fields γ) → fs.hashFree → (v w : γ) → fs.ok v → fs.ok w → fs.same v w →
    fs.encOne v = fs.encOne w
  | _, .nil, _, _, _, _, _, _ => rfl
  | _, .plain t _, ht, _, _, hv, hw, h => Ty.same_enc t ht.1 _ _ hv.1 hw.1 h.1
  | _, .skip _ r, ht, v, w, hv, hw, h => Fields.same_encOne r ht v.2 w.2 hv hw h
  | _, .skipSer _ r, ht, v, w, hv, hw, h => Fields.same_encOne r ht v.2 w.2 hv hw h
  | _, .skipDe t _ _, ht, _, _, hv, hw, h => Ty.same_enc t ht.1 _ _ hv.1 hw.1 h.1
  | _, .conv t _ _ _, ht, _, _, hv, hw, h => Ty.same_enc t ht.1 _ _ hv.1 hw.1 h.1
theorem Variants.same_enc : {ρ : Type} → (vs : Variants ρ) → vs.hashFree → (v w : ρ) → vs.ok v → vs.ok w → vs.same v w →
    vs.enc v = vs.enc w
  | _, .cons id fs _, ht, .inl v, .inl w, hv, hw, h => congrArg (Prod.mk id) (Fields.same_enc fs ht.1 v w hv hw h)
  | _, .cons _ _ r, ht, .inr v, .inr w, hv, hw, h => Variants.same_enc r ht.2 v w hv hw h
  | _, .cons _ _ _, _, .inl _, .inr _, _, _, h => h.elim
  | _, .cons _ _ _, _, .inr _, .inl _, _, _, h => h.elim
end

end Bsn1
