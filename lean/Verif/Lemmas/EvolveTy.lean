import Verif.Lemmas.Evolve
/-!
# Old encodings denote new values
-/

namespace Bsn1
open Spec

theorem Variants.derVal_mem (o : (α : Type) → List α → List α) (id c : Bytes) : {ρ : Type} → (vs : Variants ρ) → (v : ρ) →
    vs.derVal o id c v → id ∈ vs.ids
  | _, .nil, v, _ => v.elim
  | _, .cons i fs r, .inl v, h => by rw [Variants.ids, h.1]; exact List.mem_cons_self
  | _, .cons i fs r, .inr v, h => List.mem_cons_of_mem _ (Variants.derVal_mem o id c r v h.2)

theorem Variants.berVal_mem (lax : Bool) (o : (α : Type) → List α → List α) (id : Bytes) (d : Bool) (c : Bytes) : {ρ : Type} →
    (vs : Variants ρ) → (v : ρ) → vs.berVal lax o id d c v → id ∈ vs.ids
  | _, .nil, v, _ => v.elim
  | _, .cons i fs r, .inl v, h => by rw [Variants.ids, h.1]; exact List.mem_cons_self
  | _, .cons i fs r, .inr v, h => List.mem_cons_of_mem _ (Variants.berVal_mem lax o id d c r v h.2)

mutual
/-- What denotes an old value denotes a new one related to it. -/
theorem Spec.Evolves.der (o : HashOrder) {α β : Type} {t : Ty α} {t' : Ty β} {R : α → β → Prop} :
    Evolves t t' R → ∀ (id c : Bytes) v, t.derVal o.order id c v → ∃ w, t'.derVal o.order id c w ∧ R v w
  | .refl t, id, c, v, h => ⟨v, h, rfl⟩
  | .int s t hr, id, c, v, h0 => by
    obtain ⟨h1, h2, h3⟩ := h0
    exact ⟨v, ⟨h1, h2, hr v h3⟩, rfl⟩
  | .seq .vec .vec e, id, c, v, h0 => by
    obtain ⟨h1, h2⟩ := h0
    obtain ⟨w, h3, h4⟩ := derElems_sim (Evolves.der o e) h2
    exact ⟨w, ⟨h1, h3⟩, h4⟩
  | .seq .vec .linkedList e, id, c, v, h0 => by
    obtain ⟨h1, h2⟩ := h0
    obtain ⟨w, h3, h4⟩ := derElems_sim (Evolves.der o e) h2
    exact ⟨w, ⟨h1, h3⟩, h4⟩
  | .seq .vec .vecDeque e, id, c, v, h0 => by
    obtain ⟨h1, h2⟩ := h0
    obtain ⟨w, h3, h4⟩ := derElems_sim (Evolves.der o e) h2
    exact ⟨w, ⟨h1, h3⟩, h4⟩
  | .seq .linkedList .vec e, id, c, v, h0 => by
    obtain ⟨h1, h2⟩ := h0
    obtain ⟨w, h3, h4⟩ := derElems_sim (Evolves.der o e) h2
    exact ⟨w, ⟨h1, h3⟩, h4⟩
  | .seq .linkedList .linkedList e, id, c, v, h0 => by
    obtain ⟨h1, h2⟩ := h0
    obtain ⟨w, h3, h4⟩ := derElems_sim (Evolves.der o e) h2
    exact ⟨w, ⟨h1, h3⟩, h4⟩
  | .seq .linkedList .vecDeque e, id, c, v, h0 => by
    obtain ⟨h1, h2⟩ := h0
    obtain ⟨w, h3, h4⟩ := derElems_sim (Evolves.der o e) h2
    exact ⟨w, ⟨h1, h3⟩, h4⟩
  | .seq .vecDeque .vec e, id, c, v, h0 => by
    obtain ⟨h1, h2⟩ := h0
    obtain ⟨w, h3, h4⟩ := derElems_sim (Evolves.der o e) h2
    exact ⟨w, ⟨h1, h3⟩, h4⟩
  | .seq .vecDeque .linkedList e, id, c, v, h0 => by
    obtain ⟨h1, h2⟩ := h0
    obtain ⟨w, h3, h4⟩ := derElems_sim (Evolves.der o e) h2
    exact ⟨w, ⟨h1, h3⟩, h4⟩
  | .seq .vecDeque .vecDeque e, id, c, v, h0 => by
    obtain ⟨h1, h2⟩ := h0
    obtain ⟨w, h3, h4⟩ := derElems_sim (Evolves.der o e) h2
    exact ⟨w, ⟨h1, h3⟩, h4⟩
  | .btreeSet _ _ _ _ _ _ e hc, id, c, v, h0 => by
    obtain ⟨h1, l, h2, h3⟩ := h0
    obtain ⟨l', h4, h5⟩ := derElems_sim (Evolves.der o e) h2
    obtain ⟨w, h6, h7⟩ := setOf_sim hc h5 h3
    exact ⟨w, ⟨h1, l', h4, h6⟩, h7⟩
  | .btreeMap _ _ _ _ _ _ ek e hc, id, c, v, h0 => by
    obtain ⟨h1, l, h2, h3⟩ := h0
    obtain ⟨l', h4, h5⟩ := derElems_sim (derPair_sim (Evolves.der o ek) (Evolves.der o e)) h2
    obtain ⟨w, h6, h7⟩ := mapOf_sim hc h5 h3
    exact ⟨w, ⟨h1, l', h4, h6⟩, h7⟩
  | .hashSet _ _ e hc, id, c, v, h0 => by
    obtain ⟨h1, l, h2, h3⟩ := h0
    obtain ⟨l', h4, h5⟩ := derElems_sim (Evolves.der o e) h2
    exact ⟨_, ⟨h1, l', h4, rfl⟩, upToOrder_of_perm (firsts_sim hc h5) (h3 ▸ o.perm _ _) (o.perm _ _)⟩
  | .hashMap _ _ ek e hc, id, c, v, h0 => by
    obtain ⟨h1, l, u, h2, h3, h4⟩ := h0
    obtain ⟨l', h5, h6⟩ := derElems_sim (derPair_sim (Evolves.der o ek) (Evolves.der o e)) h2
    obtain ⟨u', h7, h8⟩ := hashMapOf_sim hc h6 h3
    exact ⟨_, ⟨h1, l', u', h5, h7, rfl⟩, upToOrder_of_perm h8 (h4 ▸ o.perm _ _) (o.perm _ _)⟩
  | .struct i e, id, c, v, h0 => by
    obtain ⟨h1, h2⟩ := h0
    obtain ⟨w, h3, h4⟩ := EvolvesFields.der o e c v h2
    exact ⟨w, ⟨h1, h3⟩, h4⟩
  | .enum e, id, c, v, h => EvolvesVariants.der o e id c v h
  | .transparent e, id, c, v, h => EvolvesFields.derOne o e id c v h
  | .wrap e, id, c, v, h => by
    obtain ⟨w, h1, h2⟩ := Evolves.der o e id c v h
    exact ⟨(w, ()), ⟨h1, trivial⟩, h2⟩
  | .unwrap e, id, c, v, h0 => by
    obtain ⟨h, _⟩ := h0
    exact Evolves.der o e id c v.1 h
  | .conv S f g f' g' e hg _ _, id, c, v, h0 => by
    obtain ⟨u, h1, h2⟩ := h0
    obtain ⟨u', h3, h4⟩ := Evolves.der o e id c u h1
    obtain ⟨w, h5, h6⟩ := hg u u' v h4 h2
    exact ⟨w, ⟨u', h3, h5⟩, h6⟩
  | .named f g hgf hfg f' g' k k' e, id, c, v, h => by
    obtain ⟨u, h1, h2⟩ := Evolves.der o e id c (f v) h
    refine ⟨g' u, ?_, by simpa only [k'] using h2⟩
    simp only [Ty.derVal, k']
    exact h1
theorem Spec.EvolvesFields.der (o : HashOrder) {γ δ : Type} {fs : Fields γ} {fs' : Fields δ} {R : γ → δ → Prop} :
    EvolvesFields fs fs' R → ∀ (c : Bytes) v, fs.derVal o.order c v → ∃ w, fs'.derVal o.order c w ∧ R v w
  | .nil, c, v, h => ⟨(), h, trivial⟩
  | .plain e er, c, v, h0 => by
    obtain ⟨id, b, c', h1, h2, h3, h4, h5⟩ := h0
    obtain ⟨w, h6, h7⟩ := Evolves.der o e id b v.1 h4
    obtain ⟨ws, h8, h9⟩ := EvolvesFields.der o er c' v.2 h5
    exact ⟨(w, ws), ⟨id, b, c', h1, h2, h3, h6, h8⟩, h7, h9⟩
  | .conv T f g f' g' e hg _ _ er, c, v, h0 => by
    obtain ⟨id, b, c', h1, h2, h3, ⟨u, h4, h4'⟩, h5⟩ := h0
    obtain ⟨u', h6, h7⟩ := Evolves.der o e id b u h4
    obtain ⟨w, h10, h11⟩ := hg u u' v.1 h7 h4'
    obtain ⟨ws, h8, h9⟩ := EvolvesFields.der o er c' v.2 h5
    exact ⟨(w, ws), ⟨id, b, c', h1, h2, h3, ⟨u', h6, h10⟩, h8⟩, h11, h9⟩
  | .skip a a' R hd _ er, c, v, h0 => by
    obtain ⟨h1, h2⟩ := h0
    obtain ⟨ws, h8, h9⟩ := EvolvesFields.der o er c v.2 h2
    exact ⟨(a', ws), ⟨rfl, h8⟩, by rw [h1]; exact hd, h9⟩
  | .addSkip a er, c, v, h => by
    obtain ⟨ws, h8, h9⟩ := EvolvesFields.der o er c v h
    exact ⟨(a, ws), ⟨rfl, h8⟩, rfl, h9⟩
  | .dropSkip a er, c, v, h0 => by
    obtain ⟨_, h⟩ := h0
    exact EvolvesFields.der o er c v.2 h
theorem Spec.EvolvesFields.derOne (o : HashOrder) {γ δ : Type} {fs : Fields γ} {fs' : Fields δ} {R : γ → δ → Prop} :
    EvolvesFields fs fs' R → ∀ (id c : Bytes) v, fs.derOne o.order id c v → ∃ w, fs'.derOne o.order id c w ∧ R v w
  | .nil, id, c, v, h => ⟨(), h, trivial⟩
  | .plain e er, id, c, v, h0 => by
    obtain ⟨h4, h5⟩ := h0
    obtain ⟨w, h6, h7⟩ := Evolves.der o e id c v.1 h4
    obtain ⟨ws, h8, h9⟩ := EvolvesFields.derOne o er id c v.2 h5
    exact ⟨(w, ws), ⟨h6, h8⟩, h7, h9⟩
  | .conv T f g f' g' e hg _ _ er, id, c, v, h0 => by
    obtain ⟨⟨u, h4, h4'⟩, h5⟩ := h0
    obtain ⟨u', h6, h7⟩ := Evolves.der o e id c u h4
    obtain ⟨w, h10, h11⟩ := hg u u' v.1 h7 h4'
    obtain ⟨ws, h8, h9⟩ := EvolvesFields.derOne o er id c v.2 h5
    exact ⟨(w, ws), ⟨⟨u', h6, h10⟩, h8⟩, h11, h9⟩
  | .skip a a' R hd _ er, id, c, v, h0 => by
    obtain ⟨h1, h2⟩ := h0
    obtain ⟨ws, h8, h9⟩ := EvolvesFields.derOne o er id c v.2 h2
    exact ⟨(a', ws), ⟨rfl, h8⟩, by rw [h1]; exact hd, h9⟩
  | .addSkip a er, id, c, v, h => by
    obtain ⟨ws, h8, h9⟩ := EvolvesFields.derOne o er id c v h
    exact ⟨(a, ws), ⟨rfl, h8⟩, rfl, h9⟩
  | .dropSkip a er, id, c, v, h0 => by
    obtain ⟨_, h⟩ := h0
    exact EvolvesFields.derOne o er id c v.2 h
theorem Spec.EvolvesVariants.der (o : HashOrder) {γ δ : Type} {vs : Variants γ} {vs' : Variants δ} {R : γ → δ → Prop} :
    EvolvesVariants vs vs' R → ∀ (id c : Bytes) v, vs.derVal o.order id c v → ∃ w, vs'.derVal o.order id c w ∧ R v w
  | .nil, id, c, v, h => v.elim
  | .cons i e er, id, c, .inl v, h0 => by
    obtain ⟨h1, h2⟩ := h0
    obtain ⟨w, h3, h4⟩ := EvolvesFields.der o e c v h2
    exact ⟨.inl w, ⟨h1, h3⟩, h4⟩
  | .cons i e er, id, c, .inr v, h0 => by
    obtain ⟨h1, h2⟩ := h0
    obtain ⟨w, h3, h4⟩ := EvolvesVariants.der o er id c v h2
    exact ⟨.inr w, ⟨h1, h3⟩, h4⟩
  | .insert i fs hi er, id, c, v, h => by
    obtain ⟨w, h3, h4⟩ := EvolvesVariants.der o er id c v h
    exact ⟨.inr w, ⟨fun he => hi (he ▸ Variants.derVal_mem o.order id c _ v h), h3⟩, h4⟩
end

mutual
/-- What denotes an old value denotes a new one related to it. -/
theorem Spec.Evolves.ber (lax : Bool) (o : HashOrder) {α β : Type} {t : Ty α} {t' : Ty β} {R : α → β → Prop} :
    Evolves t t' R → ∀ (id : Bytes) (d : Bool) (c : Bytes) v, t.berVal lax o.order id d c v → ∃ w, t'.berVal lax o.order id d c w ∧ R v w
  | .refl t, id, d, c, v, h => ⟨v, h, rfl⟩
  | .int s t hr, id, d, c, v, h0 => by
    obtain ⟨h1, h2, h3, h4⟩ := h0
    exact ⟨v, ⟨h1, h2, h3, hr v h4⟩, rfl⟩
  | .seq .vec .vec e, id, d, c, v, h0 => by
    obtain ⟨h1, b, hb, h2⟩ := h0
    obtain ⟨w, h3, h4⟩ := berElems_sim (Evolves.ber lax o e) h2
    exact ⟨w, ⟨h1, b, hb, h3⟩, h4⟩
  | .seq .vec .linkedList e, id, d, c, v, h0 => by
    obtain ⟨h1, b, hb, h2⟩ := h0
    obtain ⟨w, h3, h4⟩ := berElems_sim (Evolves.ber lax o e) h2
    exact ⟨w, ⟨h1, b, hb, h3⟩, h4⟩
  | .seq .vec .vecDeque e, id, d, c, v, h0 => by
    obtain ⟨h1, b, hb, h2⟩ := h0
    obtain ⟨w, h3, h4⟩ := berElems_sim (Evolves.ber lax o e) h2
    exact ⟨w, ⟨h1, b, hb, h3⟩, h4⟩
  | .seq .linkedList .vec e, id, d, c, v, h0 => by
    obtain ⟨h1, b, hb, h2⟩ := h0
    obtain ⟨w, h3, h4⟩ := berElems_sim (Evolves.ber lax o e) h2
    exact ⟨w, ⟨h1, b, hb, h3⟩, h4⟩
  | .seq .linkedList .linkedList e, id, d, c, v, h0 => by
    obtain ⟨h1, b, hb, h2⟩ := h0
    obtain ⟨w, h3, h4⟩ := berElems_sim (Evolves.ber lax o e) h2
    exact ⟨w, ⟨h1, b, hb, h3⟩, h4⟩
  | .seq .linkedList .vecDeque e, id, d, c, v, h0 => by
    obtain ⟨h1, b, hb, h2⟩ := h0
    obtain ⟨w, h3, h4⟩ := berElems_sim (Evolves.ber lax o e) h2
    exact ⟨w, ⟨h1, b, hb, h3⟩, h4⟩
  | .seq .vecDeque .vec e, id, d, c, v, h0 => by
    obtain ⟨h1, b, hb, h2⟩ := h0
    obtain ⟨w, h3, h4⟩ := berElems_sim (Evolves.ber lax o e) h2
    exact ⟨w, ⟨h1, b, hb, h3⟩, h4⟩
  | .seq .vecDeque .linkedList e, id, d, c, v, h0 => by
    obtain ⟨h1, b, hb, h2⟩ := h0
    obtain ⟨w, h3, h4⟩ := berElems_sim (Evolves.ber lax o e) h2
    exact ⟨w, ⟨h1, b, hb, h3⟩, h4⟩
  | .seq .vecDeque .vecDeque e, id, d, c, v, h0 => by
    obtain ⟨h1, b, hb, h2⟩ := h0
    obtain ⟨w, h3, h4⟩ := berElems_sim (Evolves.ber lax o e) h2
    exact ⟨w, ⟨h1, b, hb, h3⟩, h4⟩
  | .btreeSet _ _ _ _ _ _ e hc, id, d, c, v, h0 => by
    obtain ⟨h1, b, l, hb, h2, h3⟩ := h0
    obtain ⟨l', h4, h5⟩ := berElems_sim (Evolves.ber lax o e) h2
    obtain ⟨w, h6, h7⟩ := setOf_sim hc h5 h3
    exact ⟨w, ⟨h1, b, l', hb, h4, h6⟩, h7⟩
  | .btreeMap _ _ _ _ _ _ ek e hc, id, d, c, v, h0 => by
    obtain ⟨h1, b, l, hb, h2, h3⟩ := h0
    obtain ⟨l', h4, h5⟩ := berElems_sim (berPair_sim (Evolves.ber lax o ek) (Evolves.ber lax o e)) h2
    obtain ⟨w, h6, h7⟩ := mapOf_sim hc h5 h3
    exact ⟨w, ⟨h1, b, l', hb, h4, h6⟩, h7⟩
  | .hashSet _ _ e hc, id, d, c, v, h0 => by
    obtain ⟨h1, b, l, hb, h2, h3⟩ := h0
    obtain ⟨l', h4, h5⟩ := berElems_sim (Evolves.ber lax o e) h2
    exact ⟨_, ⟨h1, b, l', hb, h4, rfl⟩, upToOrder_of_perm (firsts_sim hc h5) (h3 ▸ o.perm _ _) (o.perm _ _)⟩
  | .hashMap _ _ ek e hc, id, d, c, v, h0 => by
    obtain ⟨h1, b, l, u, hb, h2, h3, h4⟩ := h0
    obtain ⟨l', h5, h6⟩ := berElems_sim (berPair_sim (Evolves.ber lax o ek) (Evolves.ber lax o e)) h2
    obtain ⟨u', h7, h8⟩ := hashMapOf_sim hc h6 h3
    exact ⟨_, ⟨h1, b, l', u', hb, h5, h7, rfl⟩, upToOrder_of_perm h8 (h4 ▸ o.perm _ _) (o.perm _ _)⟩
  | .struct i e, id, d, c, v, h0 => by
    obtain ⟨h1, b, hb, h2⟩ := h0
    obtain ⟨w, h3, h4⟩ := EvolvesFields.ber lax o e b v h2
    exact ⟨w, ⟨h1, b, hb, h3⟩, h4⟩
  | .enum e, id, d, c, v, h => EvolvesVariants.ber lax o e id d c v h
  | .transparent e, id, d, c, v, h => EvolvesFields.berOne lax o e id d c v h
  | .wrap e, id, d, c, v, h => by
    obtain ⟨w, h1, h2⟩ := Evolves.ber lax o e id d c v h
    exact ⟨(w, ()), ⟨h1, trivial⟩, h2⟩
  | .unwrap e, id, d, c, v, h0 => by
    obtain ⟨h, _⟩ := h0
    exact Evolves.ber lax o e id d c v.1 h
  | .conv S f g f' g' e hg _ _, id, d, c, v, h0 => by
    obtain ⟨u, h1, h2⟩ := h0
    obtain ⟨u', h3, h4⟩ := Evolves.ber lax o e id d c u h1
    obtain ⟨w, h5, h6⟩ := hg u u' v h4 h2
    exact ⟨w, ⟨u', h3, h5⟩, h6⟩
  | .named f g hgf hfg f' g' k k' e, id, d, c, v, h => by
    obtain ⟨u, h1, h2⟩ := Evolves.ber lax o e id d c (f v) h
    refine ⟨g' u, ?_, by simpa only [k'] using h2⟩
    simp only [Ty.berVal, k']
    exact h1
theorem Spec.EvolvesFields.ber (lax : Bool) (o : HashOrder) {γ δ : Type} {fs : Fields γ} {fs' : Fields δ} {R : γ → δ → Prop} :
    EvolvesFields fs fs' R → ∀ (c : Bytes) v, fs.berVal lax o.order c v → ∃ w, fs'.berVal lax o.order c w ∧ R v w
  | .nil, c, v, h => ⟨(), h, trivial⟩
  | .plain e er, c, v, h0 => by
    obtain ⟨p, id, d, b, c', h1, h3, h4, h5⟩ := h0
    obtain ⟨w, h6, h7⟩ := Evolves.ber lax o e id d b v.1 h4
    obtain ⟨ws, h8, h9⟩ := EvolvesFields.ber lax o er c' v.2 h5
    exact ⟨(w, ws), ⟨p, id, d, b, c', h1, h3, h6, h8⟩, h7, h9⟩
  | .conv T f g f' g' e hg _ _ er, c, v, h0 => by
    obtain ⟨p, id, d, b, c', h1, h3, ⟨u, h4, h4'⟩, h5⟩ := h0
    obtain ⟨u', h6, h7⟩ := Evolves.ber lax o e id d b u h4
    obtain ⟨w, h10, h11⟩ := hg u u' v.1 h7 h4'
    obtain ⟨ws, h8, h9⟩ := EvolvesFields.ber lax o er c' v.2 h5
    exact ⟨(w, ws), ⟨p, id, d, b, c', h1, h3, ⟨u', h6, h10⟩, h8⟩, h11, h9⟩
  | .skip a a' R hd _ er, c, v, h0 => by
    obtain ⟨h1, h2⟩ := h0
    obtain ⟨ws, h8, h9⟩ := EvolvesFields.ber lax o er c v.2 h2
    exact ⟨(a', ws), ⟨rfl, h8⟩, by rw [h1]; exact hd, h9⟩
  | .addSkip a er, c, v, h => by
    obtain ⟨ws, h8, h9⟩ := EvolvesFields.ber lax o er c v h
    exact ⟨(a, ws), ⟨rfl, h8⟩, rfl, h9⟩
  | .dropSkip a er, c, v, h0 => by
    obtain ⟨_, h⟩ := h0
    exact EvolvesFields.ber lax o er c v.2 h
theorem Spec.EvolvesFields.berOne (lax : Bool) (o : HashOrder) {γ δ : Type} {fs : Fields γ} {fs' : Fields δ} {R : γ → δ → Prop} :
    EvolvesFields fs fs' R → ∀ (id : Bytes) (d : Bool) (c : Bytes) v, fs.berOne lax o.order id d c v → ∃ w, fs'.berOne lax o.order id d c w ∧ R v w
  | .nil, id, d, c, v, h => ⟨(), h, trivial⟩
  | .plain e er, id, d, c, v, h0 => by
    obtain ⟨h4, h5⟩ := h0
    obtain ⟨w, h6, h7⟩ := Evolves.ber lax o e id d c v.1 h4
    obtain ⟨ws, h8, h9⟩ := EvolvesFields.berOne lax o er id d c v.2 h5
    exact ⟨(w, ws), ⟨h6, h8⟩, h7, h9⟩
  | .conv T f g f' g' e hg _ _ er, id, d, c, v, h0 => by
    obtain ⟨⟨u, h4, h4'⟩, h5⟩ := h0
    obtain ⟨u', h6, h7⟩ := Evolves.ber lax o e id d c u h4
    obtain ⟨w, h10, h11⟩ := hg u u' v.1 h7 h4'
    obtain ⟨ws, h8, h9⟩ := EvolvesFields.berOne lax o er id d c v.2 h5
    exact ⟨(w, ws), ⟨⟨u', h6, h10⟩, h8⟩, h11, h9⟩
  | .skip a a' R hd _ er, id, d, c, v, h0 => by
    obtain ⟨h1, h2⟩ := h0
    obtain ⟨ws, h8, h9⟩ := EvolvesFields.berOne lax o er id d c v.2 h2
    exact ⟨(a', ws), ⟨rfl, h8⟩, by rw [h1]; exact hd, h9⟩
  | .addSkip a er, id, d, c, v, h => by
    obtain ⟨ws, h8, h9⟩ := EvolvesFields.berOne lax o er id d c v h
    exact ⟨(a, ws), ⟨rfl, h8⟩, rfl, h9⟩
  | .dropSkip a er, id, d, c, v, h0 => by
    obtain ⟨_, h⟩ := h0
    exact EvolvesFields.berOne lax o er id d c v.2 h
theorem Spec.EvolvesVariants.ber (lax : Bool) (o : HashOrder) {γ δ : Type} {vs : Variants γ} {vs' : Variants δ} {R : γ → δ → Prop} :
    EvolvesVariants vs vs' R → ∀ (id : Bytes) (d : Bool) (c : Bytes) v, vs.berVal lax o.order id d c v → ∃ w, vs'.berVal lax o.order id d c w ∧ R v w
  | .nil, id, d, c, v, h => v.elim
  | .cons i e er, id, d, c, .inl v, h0 => by
    obtain ⟨h1, b, hb, h2⟩ := h0
    obtain ⟨w, h3, h4⟩ := EvolvesFields.ber lax o e b v h2
    exact ⟨.inl w, ⟨h1, b, hb, h3⟩, h4⟩
  | .cons i e er, id, d, c, .inr v, h0 => by
    obtain ⟨h1, h2⟩ := h0
    obtain ⟨w, h3, h4⟩ := EvolvesVariants.ber lax o er id d c v h2
    exact ⟨.inr w, ⟨h1, h3⟩, h4⟩
  | .insert i fs hi er, id, d, c, v, h => by
    obtain ⟨w, h3, h4⟩ := EvolvesVariants.ber lax o er id d c v h
    exact ⟨.inr w, ⟨fun he => hi (he ▸ Variants.berVal_mem lax o.order id d c _ v h), h3⟩, h4⟩
end

end Bsn1
