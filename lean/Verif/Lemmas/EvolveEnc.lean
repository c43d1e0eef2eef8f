import Verif.Lemmas.EvolveTy
/-!
# Old encodings are those of new values
-/

namespace Bsn1
open Spec

variable {α β γ δ : Type}

theorem list_enc_sim {P : α → Prop} {Q : β → Prop} {R : α → β → Prop} {f : α → Bytes} {g : β → Bytes}
    (h : ∀ x, P x → ∃ y, R x y ∧ Q y ∧ g y = f x) : ∀ v : List α, (∀ x ∈ v, P x) →
    ∃ w, List.Forall₂ R v w ∧ (∀ y ∈ w, Q y) ∧ w.flatMap g = v.flatMap f := by
  intro v
  induction v with
  | nil => intro _; exact ⟨[], .nil, by simp, rfl⟩
  | cons x r ih =>
    intro hv
    obtain ⟨w, h1, h2, h3⟩ := ih fun y hy => hv y (by simp [hy])
    obtain ⟨y, h4, h5, h6⟩ := h x (hv x (by simp))
    refine ⟨y :: w, .cons h4 h1, ?_, by rw [List.flatMap_cons, List.flatMap_cons, h3, h6]⟩
    intro z hz
    rcases List.mem_cons.mp hz with rfl | hz
    · exact h5
    · exact h2 z hz

theorem forall₂_right {R : α → β → Prop} {v : List α} {w : List β} (h : List.Forall₂ R v w) : ∀ y ∈ w, ∃ x ∈ v, R x y := by
  induction h with
  | nil => simp
  | @cons a b l l' h1 _ ih =>
    intro y hy
    rcases List.mem_cons.mp hy with rfl | hy
    · exact ⟨a, by simp, h1⟩
    · obtain ⟨x, hx, hr⟩ := ih y hy
      exact ⟨x, by simp [hx], hr⟩

theorem pairwise_sim {R : α → β → Prop} {P : α → α → Prop} {Q : β → β → Prop} (hpq : ∀ a b x y, R a x → R b y → P a b → Q x y) {v : List α}
    {w : List β} (h : List.Forall₂ R v w) (hp : v.Pairwise P) : w.Pairwise Q := by
  induction h with
  | nil => exact .nil
  | @cons a b l l' h1 h2 ih =>
    rw [List.pairwise_cons] at hp ⊢
    refine ⟨fun y hy => ?_, ih hp.2⟩
    obtain ⟨x, hx, hr⟩ := forall₂_right h2 y hy
    exact hpq a x b y h1 hr (hp.1 x hx)

theorem flatMap_sim {R : α → β → Prop} {f : α → Bytes} {g : β → Bytes} (h : ∀ x y, R x y → g y = f x) {v : List α} {w : List β}
    (hr : List.Forall₂ R v w) : w.flatMap g = v.flatMap f := by
  induction hr with
  | nil => rfl
  | cons h1 _ ih => rw [List.flatMap_cons, List.flatMap_cons, ih, h _ _ h1]

theorem tlvOf_sim {P : α → Prop} {Q : β → Prop} {R : α → β → Prop} {f : α → Bytes × Bytes} {g : β → Bytes × Bytes}
    (h : ∀ x, P x → ∃ y, R x y ∧ Q y ∧ g y = f x) (x : α) (hx : P x) : ∃ y, R x y ∧ Q y ∧ tlvOf (g y) = tlvOf (f x) := by
  obtain ⟨y, h1, h2, h3⟩ := h x hx
  exact ⟨y, h1, h2, by rw [h3]⟩

theorem pair_enc_sim {P : α → Prop} {Q : β → Prop} {R : α → β → Prop} {f : α → Bytes × Bytes} {g : β → Bytes × Bytes}
    {P' : γ → Prop} {Q' : δ → Prop} {S : γ → δ → Prop} {f' : γ → Bytes × Bytes} {g' : δ → Bytes × Bytes}
    (h : ∀ x, P x → ∃ y, R x y ∧ Q y ∧ g y = f x) (h' : ∀ x, P' x → ∃ y, S x y ∧ Q' y ∧ g' y = f' x) (x : α × γ) (hx : P x.1 ∧ P' x.2) :
    ∃ y, Both R S x y ∧ (Q y.1 ∧ Q' y.2) ∧ pairOctets (tlvOf (g y.1)) (tlvOf (g' y.2)) = pairOctets (tlvOf (f x.1)) (tlvOf (f' x.2)) := by
  obtain ⟨y, h1, h2, h3⟩ := h x.1 hx.1
  obtain ⟨z, h4, h5, h6⟩ := h' x.2 hx.2
  exact ⟨(y, z), ⟨h1, h4⟩, ⟨h2, h5⟩, by rw [h3, h6]⟩

mutual
/-- Each old value has a new one with the same octets. -/
theorem Spec.Evolves.enc {α β : Type} {t : Ty α} {t' : Ty β} {R : α → β → Prop} :
    Evolves t t' R → ∀ v, t.ok v → ∃ w, R v w ∧ t'.ok w ∧ t'.enc w = t.enc v
  | .refl t, v, h => ⟨v, rfl, h, rfl⟩
  | .int s t hr, v, h => ⟨v, rfl, hr v h, rfl⟩
  | .seq .vec .vec e, v, h => by
    obtain ⟨w, h1, h2, h3⟩ := list_enc_sim (tlvOf_sim (Evolves.enc e)) v h
    exact ⟨w, h1, h2, congrArg (Prod.mk _) h3⟩
  | .seq .vec .linkedList e, v, h => by
    obtain ⟨w, h1, h2, h3⟩ := list_enc_sim (tlvOf_sim (Evolves.enc e)) v h
    exact ⟨w, h1, h2, congrArg (Prod.mk _) h3⟩
  | .seq .vec .vecDeque e, v, h => by
    obtain ⟨w, h1, h2, h3⟩ := list_enc_sim (tlvOf_sim (Evolves.enc e)) v h
    exact ⟨w, h1, h2, congrArg (Prod.mk _) h3⟩
  | .seq .linkedList .vec e, v, h => by
    obtain ⟨w, h1, h2, h3⟩ := list_enc_sim (tlvOf_sim (Evolves.enc e)) v h
    exact ⟨w, h1, h2, congrArg (Prod.mk _) h3⟩
  | .seq .linkedList .linkedList e, v, h => by
    obtain ⟨w, h1, h2, h3⟩ := list_enc_sim (tlvOf_sim (Evolves.enc e)) v h
    exact ⟨w, h1, h2, congrArg (Prod.mk _) h3⟩
  | .seq .linkedList .vecDeque e, v, h => by
    obtain ⟨w, h1, h2, h3⟩ := list_enc_sim (tlvOf_sim (Evolves.enc e)) v h
    exact ⟨w, h1, h2, congrArg (Prod.mk _) h3⟩
  | .seq .vecDeque .vec e, v, h => by
    obtain ⟨w, h1, h2, h3⟩ := list_enc_sim (tlvOf_sim (Evolves.enc e)) v h
    exact ⟨w, h1, h2, congrArg (Prod.mk _) h3⟩
  | .seq .vecDeque .linkedList e, v, h => by
    obtain ⟨w, h1, h2, h3⟩ := list_enc_sim (tlvOf_sim (Evolves.enc e)) v h
    exact ⟨w, h1, h2, congrArg (Prod.mk _) h3⟩
  | .seq .vecDeque .vecDeque e, v, h => by
    obtain ⟨w, h1, h2, h3⟩ := list_enc_sim (tlvOf_sim (Evolves.enc e)) v h
    exact ⟨w, h1, h2, congrArg (Prod.mk _) h3⟩
  | .btreeSet _ _ _ _ _ _ e hc, v, h => by
    obtain ⟨w, h1, h2, h3⟩ := list_enc_sim (tlvOf_sim (Evolves.enc e)) v h.2
    exact ⟨w, h1, ⟨pairwise_sim (fun a b x y ha hb hl => (hc a b x y ha hb).trans hl) h1 h.1, h2⟩, congrArg (Prod.mk _) h3⟩
  | .btreeMap _ _ _ _ _ _ ek e hc, v, h => by
    obtain ⟨w, h1, h2, h3⟩ := list_enc_sim (pair_enc_sim (Evolves.enc ek) (Evolves.enc e)) v h.2
    exact ⟨w, h1, ⟨pairwise_sim (fun a b x y ha hb hl => (hc a.1 b.1 x.1 y.1 ha.1 hb.1).trans hl) h1 h.1, h2⟩, congrArg (Prod.mk _) h3⟩
  | .hashSet _ _ e hc, v, h => by
    obtain ⟨w, h1, h2, h3⟩ := list_enc_sim (tlvOf_sim (Evolves.enc e)) v h.2
    exact ⟨w, ⟨w, h1, .refl _⟩, ⟨pairwise_sim (fun a b x y ha hb hl hx => hl ((hc a b x y ha hb).1 hx)) h1 h.1, h2⟩, congrArg (Prod.mk _) h3⟩
  | .hashMap _ _ ek e hc, v, h => by
    obtain ⟨w, h1, h2, h3⟩ := list_enc_sim (pair_enc_sim (Evolves.enc ek) (Evolves.enc e)) v h.2
    refine ⟨w, ⟨w, h1, .refl _⟩, ⟨?_, h2⟩, congrArg (Prod.mk _) h3⟩
    have hn := h.1
    rw [List.Nodup, List.pairwise_map] at hn ⊢
    exact pairwise_sim (fun a b x y ha hb hl hx => hl ((hc a.1 b.1 x.1 y.1 ha.1 hb.1).1 hx)) h1 hn
  | .struct i e, v, h => by
    obtain ⟨w, h1, h2, h3⟩ := EvolvesFields.enc e v h
    exact ⟨w, h1, h2, congrArg (Prod.mk _) h3⟩
  | .enum e, v, h => EvolvesVariants.enc e v h
  | .transparent e, v, h => by
    obtain ⟨w, h1, h2, h3⟩ := EvolvesFields.encOne e v h
    exact ⟨w, h1, h2, h3⟩
  | .wrap e, v, h => by
    obtain ⟨w, h1, h2, h3⟩ := Evolves.enc e v h
    exact ⟨(w, ()), h1, ⟨h2, trivial⟩, h3⟩
  | .unwrap e, v, h => Evolves.enc e v.1 h.1
  | .conv S f g f' g' e _ hf _, v, h => by
    obtain ⟨u, h1, h2, h3⟩ := Evolves.enc e (f v) h
    obtain ⟨w, h4, rfl⟩ := hf v u h1
    exact ⟨w, h4, h2, h3⟩
  | .named f g hgf hfg f' g' k k' e, v, h => by
    obtain ⟨u, h1, h2, h3⟩ := Evolves.enc e (f v) h
    refine ⟨g' u, ?_, ?_, ?_⟩
    · beta_reduce; rw [k']; exact h1
    · show Ty.ok _ (f' (g' u)); rw [k']; exact h2
    · show Ty.enc _ (f' (g' u)) = _; rw [k']; exact h3
theorem Spec.EvolvesFields.enc {γ δ : Type} {fs : Fields γ} {fs' : Fields δ} {R : γ → δ → Prop} :
    EvolvesFields fs fs' R → ∀ v, fs.ok v → ∃ w, R v w ∧ fs'.ok w ∧ fs'.enc w = fs.enc v
  | .nil, v, h => ⟨(), trivial, trivial, rfl⟩
  | .plain e er, v, h => by
    obtain ⟨w, h1, h2, h3⟩ := Evolves.enc e v.1 h.1
    obtain ⟨ws, h4, h5, h6⟩ := EvolvesFields.enc er v.2 h.2
    exact ⟨(w, ws), ⟨h1, h4⟩, ⟨h2, h5⟩, by simp only [Fields.enc, h3, h6]⟩
  | .conv T f g f' g' e _ hf _ er, v, h => by
    obtain ⟨u, h1, h2, h3⟩ := Evolves.enc e (f v.1) h.1
    obtain ⟨w, h7, rfl⟩ := hf v.1 u h1
    obtain ⟨ws, h4, h5, h6⟩ := EvolvesFields.enc er v.2 h.2
    exact ⟨(w, ws), ⟨h7, h4⟩, ⟨h2, h5⟩, by simp only [Fields.enc, h3, h6]⟩
  | .skip a a' R _ ht er, v, h => by
    obtain ⟨ws, h4, h5, h6⟩ := EvolvesFields.enc er v.2 h
    obtain ⟨w, hw⟩ := ht v.1
    exact ⟨(w, ws), ⟨hw, h4⟩, h5, h6⟩
  | .addSkip a er, v, h => by
    obtain ⟨ws, h4, h5, h6⟩ := EvolvesFields.enc er v h
    exact ⟨(a, ws), ⟨rfl, h4⟩, h5, h6⟩
  | .dropSkip a er, v, h => EvolvesFields.enc er v.2 h
theorem Spec.EvolvesFields.encOne {γ δ : Type} {fs : Fields γ} {fs' : Fields δ} {R : γ → δ → Prop} :
    EvolvesFields fs fs' R → ∀ v, fs.ok v → ∃ w, R v w ∧ fs'.ok w ∧ fs'.encOne w = fs.encOne v
  | .nil, v, h => ⟨(), trivial, trivial, rfl⟩
  | .plain e er, v, h => by
    obtain ⟨w, h1, h2, h3⟩ := Evolves.enc e v.1 h.1
    obtain ⟨ws, h4, h5, _⟩ := EvolvesFields.encOne er v.2 h.2
    exact ⟨(w, ws), ⟨h1, h4⟩, ⟨h2, h5⟩, h3⟩
  | .conv T f g f' g' e _ hf _ er, v, h => by
    obtain ⟨u, h1, h2, h3⟩ := Evolves.enc e (f v.1) h.1
    obtain ⟨w, h7, rfl⟩ := hf v.1 u h1
    obtain ⟨ws, h4, h5, _⟩ := EvolvesFields.encOne er v.2 h.2
    exact ⟨(w, ws), ⟨h7, h4⟩, ⟨h2, h5⟩, h3⟩
  | .skip a a' R _ ht er, v, h => by
    obtain ⟨ws, h4, h5, h6⟩ := EvolvesFields.encOne er v.2 h
    obtain ⟨w, hw⟩ := ht v.1
    exact ⟨(w, ws), ⟨hw, h4⟩, h5, h6⟩
  | .addSkip a er, v, h => by
    obtain ⟨ws, h4, h5, h6⟩ := EvolvesFields.encOne er v h
    exact ⟨(a, ws), ⟨rfl, h4⟩, h5, h6⟩
  | .dropSkip a er, v, h => EvolvesFields.encOne er v.2 h
theorem Spec.EvolvesVariants.enc {γ δ : Type} {vs : Variants γ} {vs' : Variants δ} {R : γ → δ → Prop} :
    EvolvesVariants vs vs' R → ∀ v, vs.ok v → ∃ w, R v w ∧ vs'.ok w ∧ vs'.enc w = vs.enc v
  | .nil, v, _ => v.elim
  | .cons i e er, .inl v, h => by
    obtain ⟨w, h1, h2, h3⟩ := EvolvesFields.enc e v h
    exact ⟨.inl w, h1, h2, congrArg (Prod.mk _) h3⟩
  | .cons i e er, .inr v, h => by
    obtain ⟨w, h1, h2, h3⟩ := EvolvesVariants.enc er v h
    exact ⟨.inr w, h1, h2, h3⟩
  | .insert i fs _ er, v, h => by
    obtain ⟨w, h1, h2, h3⟩ := EvolvesVariants.enc er v h
    exact ⟨.inr w, h1, h2, h3⟩
end

mutual
/-- Related values have the same octets, unless they contain hashed collections or skipped fields. -/
theorem Spec.Evolves.encEq {α β : Type} {t : Ty α} {t' : Ty β} {R : α → β → Prop} :
    Evolves t t' R → t'.exact → ∀ v w, R v w → t'.enc w = t.enc v
  | .refl t, _, v, w, h => by rw [h]
  | .int s t hr, _, v, w, h => by rw [h]; rfl
  | .seq .vec .vec e, he, v, w, h => congrArg (Prod.mk _) (flatMap_sim (fun x y hr => congrArg tlvOf (Evolves.encEq e he x y hr)) h)
  | .seq .vec .linkedList e, he, v, w, h => congrArg (Prod.mk _) (flatMap_sim (fun x y hr => congrArg tlvOf (Evolves.encEq e he x y hr)) h)
  | .seq .vec .vecDeque e, he, v, w, h => congrArg (Prod.mk _) (flatMap_sim (fun x y hr => congrArg tlvOf (Evolves.encEq e he x y hr)) h)
  | .seq .linkedList .vec e, he, v, w, h => congrArg (Prod.mk _) (flatMap_sim (fun x y hr => congrArg tlvOf (Evolves.encEq e he x y hr)) h)
  | .seq .linkedList .linkedList e, he, v, w, h => congrArg (Prod.mk _) (flatMap_sim (fun x y hr => congrArg tlvOf (Evolves.encEq e he x y hr)) h)
  | .seq .linkedList .vecDeque e, he, v, w, h => congrArg (Prod.mk _) (flatMap_sim (fun x y hr => congrArg tlvOf (Evolves.encEq e he x y hr)) h)
  | .seq .vecDeque .vec e, he, v, w, h => congrArg (Prod.mk _) (flatMap_sim (fun x y hr => congrArg tlvOf (Evolves.encEq e he x y hr)) h)
  | .seq .vecDeque .linkedList e, he, v, w, h => congrArg (Prod.mk _) (flatMap_sim (fun x y hr => congrArg tlvOf (Evolves.encEq e he x y hr)) h)
  | .seq .vecDeque .vecDeque e, he, v, w, h => congrArg (Prod.mk _) (flatMap_sim (fun x y hr => congrArg tlvOf (Evolves.encEq e he x y hr)) h)
  | .btreeSet _ _ _ _ _ _ e hc, he, v, w, h => congrArg (Prod.mk _) (flatMap_sim (fun x y hr => congrArg tlvOf (Evolves.encEq e he x y hr)) h)
  | .btreeMap _ _ _ _ _ _ ek e hc, he, v, w, h => congrArg (Prod.mk _) (flatMap_sim (fun x y hr => by
      rw [Evolves.encEq ek he.1 x.1 y.1 hr.1, Evolves.encEq e he.2 x.2 y.2 hr.2]) h)
  | .hashSet _ _ e hc, he, v, w, h => he.elim
  | .hashMap _ _ ek e hc, he, v, w, h => he.elim
  | .struct i e, he, v, w, h => congrArg (Prod.mk _) (EvolvesFields.encEq e he v w h)
  | .enum e, he, v, w, h => EvolvesVariants.encEq e he v w h
  | .transparent e, he, v, w, h => EvolvesFields.encOneEq e he v w h
  | .wrap e, he, v, w, h => Evolves.encEq e he.1 v w.1 h
  | .unwrap e, he, v, w, h => Evolves.encEq e he v.1 w h
  | .conv S f g f' g' e _ _ hr, he, v, w, h => Evolves.encEq e he.1 (f v) (f' w) (hr v w h)
  | .named f g hgf hfg f' g' k k' e, he, v, w, h => Evolves.encEq e he (f v) (f' w) h
theorem Spec.EvolvesFields.encEq {γ δ : Type} {fs : Fields γ} {fs' : Fields δ} {R : γ → δ → Prop} :
    EvolvesFields fs fs' R → fs'.exact → ∀ v w, R v w → fs'.enc w = fs.enc v
  | .nil, _, v, w, h => rfl
  | .plain e er, he, v, w, h => by
    simp only [Fields.enc, Evolves.encEq e he.1 v.1 w.1 h.1, EvolvesFields.encEq er he.2 v.2 w.2 h.2]
  | .conv T f g f' g' e _ _ hr er, he, v, w, h => by
    simp only [Fields.enc, Evolves.encEq e he.1.1 (f v.1) (f' w.1) (hr _ _ h.1), EvolvesFields.encEq er he.2 v.2 w.2 h.2]
  | .skip a a' R _ ht er, he, v, w, h => he.elim
  | .addSkip a er, he, v, w, h => he.elim
  | .dropSkip a er, he, v, w, h => EvolvesFields.encEq er he v.2 w h
theorem Spec.EvolvesFields.encOneEq {γ δ : Type} {fs : Fields γ} {fs' : Fields δ} {R : γ → δ → Prop} :
    EvolvesFields fs fs' R → fs'.exact → ∀ v w, R v w → fs'.encOne w = fs.encOne v
  | .nil, _, v, w, h => rfl
  | .plain e er, he, v, w, h => Evolves.encEq e he.1 v.1 w.1 h.1
  | .conv T f g f' g' e _ _ hr er, he, v, w, h => Evolves.encEq e he.1.1 (f v.1) (f' w.1) (hr _ _ h.1)
  | .skip a a' R _ ht er, he, v, w, h => he.elim
  | .addSkip a er, he, v, w, h => he.elim
  | .dropSkip a er, he, v, w, h => EvolvesFields.encOneEq er he v.2 w h
theorem Spec.EvolvesVariants.encEq {γ δ : Type} {vs : Variants γ} {vs' : Variants δ} {R : γ → δ → Prop} :
    EvolvesVariants vs vs' R → vs'.exact → ∀ v w, R v w → vs'.enc w = vs.enc v
  | .nil, _, v, _, _ => v.elim
  | .cons i e er, he, .inl v, .inl w, h => congrArg (Prod.mk _) (EvolvesFields.encEq e he.1 v w h)
  | .cons i e er, he, .inr v, .inr w, h => EvolvesVariants.encEq er he.2 v w h
  | .cons i e er, he, .inl v, .inr w, h => h.elim
  | .cons i e er, he, .inr v, .inl w, h => h.elim
  | .insert i fs _ er, he, v, .inl w, h => h.elim
  | .insert i fs _ er, he, v, .inr w, h => EvolvesVariants.encEq er he.2 v w h
end

end Bsn1
