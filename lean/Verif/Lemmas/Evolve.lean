import Verif.Spec.Evolve
import Verif.Lemmas.Sets
import Verif.Lemmas.DeTyBer
/-!
# Changes of a type that keep old encodings readable
-/

namespace Bsn1
open Spec

variable {α β γ δ : Type}

/-! ### Collections of related elements -/

theorem derElems_sim {P : Bytes → Bytes → α → Prop} {Q : Bytes → Bytes → β → Prop} {R : α → β → Prop}
    (h : ∀ id c x, P id c x → ∃ y, Q id c y ∧ R x y) {c : Bytes} {xs : List α} (he : DerElems P c xs) :
    ∃ ys, DerElems Q c ys ∧ List.Forall₂ R xs ys := by
  induction he with
  | nil => exact ⟨[], .nil, .nil⟩
  | cons id b c x xs h1 h2 h3 _ ih =>
    obtain ⟨ys, h4, h5⟩ := ih
    obtain ⟨y, h6, h7⟩ := h id b x h3
    exact ⟨y :: ys, .cons id b c y ys h1 h2 h6 h4, .cons h7 h5⟩

theorem derPair_sim {K : Bytes → Bytes → α → Prop} {K' : Bytes → Bytes → β → Prop} {V : Bytes → Bytes → γ → Prop} {V' : Bytes → Bytes → δ → Prop}
    {R : α → β → Prop} {S : γ → δ → Prop} (hk : ∀ id c x, K id c x → ∃ y, K' id c y ∧ R x y)
    (hv : ∀ id c x, V id c x → ∃ y, V' id c y ∧ S x y) (id c : Bytes) (x : α × γ) (h : DerPair K V id c x) :
    ∃ y, DerPair K' V' id c y ∧ Both R S x y := by
  cases h with
  | mk ik ck iv cv k v h1 h2 h3 h4 h5 h6 =>
    obtain ⟨k', h7, h8⟩ := hk ik ck k h3
    obtain ⟨v', h9, h10⟩ := hv iv cv v h6
    exact ⟨(k', v'), .mk ik ck iv cv k' v' h1 h2 h7 h4 h5 h9, h8, h10⟩

theorem berElems_sim {P : Bytes → Bool → Bytes → α → Prop} {Q : Bytes → Bool → Bytes → β → Prop} {R : α → β → Prop}
    (h : ∀ id d c x, P id d c x → ∃ y, Q id d c y ∧ R x y) {c : Bytes} {xs : List α} (he : BerElems P c xs) :
    ∃ ys, BerElems Q c ys ∧ List.Forall₂ R xs ys := by
  induction he with
  | nil => exact ⟨[], .nil, .nil⟩
  | cons p id d raw c x xs h1 h2 _ ih =>
    obtain ⟨ys, h4, h5⟩ := ih
    obtain ⟨y, h6, h7⟩ := h id d raw x h2
    exact ⟨y :: ys, .cons p id d raw c y ys h1 h6 h4, .cons h7 h5⟩

theorem berPair_sim {K : Bytes → Bool → Bytes → α → Prop} {K' : Bytes → Bool → Bytes → β → Prop} {V : Bytes → Bool → Bytes → γ → Prop}
    {V' : Bytes → Bool → Bytes → δ → Prop}
    {R : α → β → Prop} {S : γ → δ → Prop} (hk : ∀ id d c x, K id d c x → ∃ y, K' id d c y ∧ R x y)
    (hv : ∀ id d c x, V id d c x → ∃ y, V' id d c y ∧ S x y) (id : Bytes) (d : Bool) (c : Bytes) (x : α × γ) (h : BerPair K V id d c x) :
    ∃ y, BerPair K' V' id d c y ∧ Both R S x y := by
  cases h with
  | mk d pk ik dk ck pv iv dv cv k v h1 h2 h3 h4 =>
    obtain ⟨k', h7, h8⟩ := hk ik dk ck k h2
    obtain ⟨v', h9, h10⟩ := hv iv dv cv v h4
    exact ⟨(k', v'), .mk d pk ik dk ck pv iv dv cv k' v' h1 h7 h3 h9, h8, h10⟩

theorem foldl_sim {f : γ → α → γ} {g : δ → β → δ} {R : α → β → Prop} {S : γ → δ → Prop} (h : ∀ a b x y, S a b → R x y → S (f a x) (g b y)) :
    ∀ (xs : List α) (ys : List β), List.Forall₂ R xs ys → ∀ a b, S a b → S (xs.foldl f a) (ys.foldl g b) := by
  intro xs ys hxy
  induction hxy with
  | nil => intro a b hab; exact hab
  | cons h1 _ ih => intro a b hab; exact ih _ _ (h _ _ _ _ hab h1)

section ordered
variable {cmp : α → α → Ordering} {cmp' : β → β → Ordering} {R : α → β → Prop} {S : γ → δ → Prop}

theorem btreeInsert_sim (hc : ∀ a b x y, R a x → R b y → cmp' x y = cmp a b) {x : α} {y : β} (hxy : R x y) {l : List α} {l' : List β}
    (h : List.Forall₂ R l l') : List.Forall₂ R (btreeInsert cmp x l) (btreeInsert cmp' y l') := by
  induction h with
  | nil => exact .cons hxy .nil
  | cons h1 h2 ih =>
    rw [btreeInsert, btreeInsert, hc _ _ _ _ hxy h1]
    split
    · exact .cons hxy (.cons h1 h2)
    · exact .cons h1 h2
    · exact .cons h1 ih

theorem btreeMapInsert_sim (hc : ∀ a b x y, R a x → R b y → cmp' x y = cmp a b) {x : α} {y : β} (hxy : R x y) {u : γ} {v : δ} (huv : S u v)
    {l : List (α × γ)} {l' : List (β × δ)}
    (h : List.Forall₂ (Both R S) l l') : List.Forall₂ (Both R S) (btreeMapInsert cmp x u l) (btreeMapInsert cmp' y v l') := by
  induction h with
  | nil => exact .cons ⟨hxy, huv⟩ .nil
  | @cons a b _ _ h1 h2 ih =>
    obtain ⟨a1, a2⟩ := a
    obtain ⟨b1, b2⟩ := b
    rw [btreeMapInsert, btreeMapInsert, hc _ _ _ _ hxy h1.1]
    simp only
    cases cmp x a1 with
    | lt => exact .cons ⟨hxy, huv⟩ (.cons h1 h2)
    | eq => exact .cons ⟨h1.1, huv⟩ h2
    | gt => exact .cons h1 ih

theorem setOf_sim [Std.TransCmp cmp] [Std.LawfulEqCmp cmp] [Std.TransCmp cmp'] [Std.LawfulEqCmp cmp'] (hc : ∀ a b x y, R a x → R b y → cmp' x y = cmp a b) {l v : List α}
    {l' : List β} (h : List.Forall₂ R l l') (hs : SetOf cmp l v) : ∃ v', SetOf cmp' l' v' ∧ List.Forall₂ R v v' := by
  rw [← setOf_iff] at hs
  subst hs
  exact ⟨_, (setOf_iff _ _).mp rfl, foldl_sim (f := fun ret t => btreeInsert cmp t ret) (g := fun ret t => btreeInsert cmp' t ret) (S := List.Forall₂ R)
    (fun _ _ _ _ h1 h2 => btreeInsert_sim hc h2 h1) l l' h [] [] .nil⟩

theorem mapOf_sim [Std.TransCmp cmp] [Std.LawfulEqCmp cmp] [Std.TransCmp cmp'] [Std.LawfulEqCmp cmp'] (hc : ∀ a b x y, R a x → R b y → cmp' x y = cmp a b)
    {l v : List (α × γ)} {l' : List (β × δ)} (h : List.Forall₂ (Both R S) l l') (hs : MapOf cmp l v) :
    ∃ v', MapOf cmp' l' v' ∧ List.Forall₂ (Both R S) v v' := by
  rw [← mapOf_iff] at hs
  subst hs
  exact ⟨_, (mapOf_iff _ _).mp rfl,
    foldl_sim (f := fun ret kv => btreeMapInsert cmp kv.1 kv.2 ret) (g := fun ret kv => btreeMapInsert cmp' kv.1 kv.2 ret)
      (S := List.Forall₂ (Both R S)) (fun _ _ _ _ h1 h2 => btreeMapInsert_sim hc h2.1 h2.2 h1) l l' h [] [] .nil⟩

end ordered

section hashed
variable [DecidableEq α] [DecidableEq β] {R : α → β → Prop} {S : γ → δ → Prop}

theorem mem_sim (hc : ∀ a b x y, R a x → R b y → (x = y ↔ a = b)) {x : α} {y : β} (hxy : R x y) {l : List α} {l' : List β}
    (h : List.Forall₂ R l l') : y ∈ l' ↔ x ∈ l := by
  induction h with
  | nil => simp
  | cons h1 _ ih => rw [List.mem_cons, List.mem_cons, hc _ _ _ _ hxy h1, ih]

theorem hashInsert_sim (hc : ∀ a b x y, R a x → R b y → (x = y ↔ a = b)) {x : α} {y : β} (hxy : R x y) {l : List α} {l' : List β}
    (h : List.Forall₂ R l l') : List.Forall₂ R (hashInsert x l) (hashInsert y l') := by
  rw [hashInsert, hashInsert]
  by_cases hx : x ∈ l
  · rw [if_pos hx, if_pos ((mem_sim hc hxy h).2 hx)]; exact h
  · rw [if_neg hx, if_neg fun hy => hx ((mem_sim hc hxy h).1 hy)]
    exact List.rel_append h (.cons hxy .nil)

theorem hashMapInsert_sim (hc : ∀ a b x y, R a x → R b y → (x = y ↔ a = b)) {x : α} {y : β} (hxy : R x y) {u : γ} {v : δ} (huv : S u v)
    {l : List (α × γ)} {l' : List (β × δ)}
    (h : List.Forall₂ (Both R S) l l') : List.Forall₂ (Both R S) (hashMapInsert x u l) (hashMapInsert y v l') := by
  induction h with
  | nil => exact .cons ⟨hxy, huv⟩ .nil
  | @cons a b _ _ h1 h2 ih =>
    obtain ⟨a1, a2⟩ := a
    obtain ⟨b1, b2⟩ := b
    rw [hashMapInsert, hashMapInsert]
    by_cases hx : x = a1
    · rw [if_pos hx, if_pos ((hc _ _ _ _ hxy h1.1).2 hx)]; exact .cons ⟨h1.1, huv⟩ h2
    · rw [if_neg hx, if_neg fun hy => hx ((hc _ _ _ _ hxy h1.1).1 hy)]; exact .cons h1 ih

theorem firsts_sim (hc : ∀ a b x y, R a x → R b y → (x = y ↔ a = b)) {l : List α} {l' : List β} (h : List.Forall₂ R l l') :
    List.Forall₂ R (firsts l) (firsts l') := by
  rw [← foldl_hashInsert, ← foldl_hashInsert]
  exact foldl_sim (f := fun ret t => hashInsert t ret) (g := fun ret t => hashInsert t ret) (S := List.Forall₂ R)
    (fun _ _ _ _ h1 h2 => hashInsert_sim hc h2 h1) l l' h [] [] .nil

theorem hashMapOf_sim (hc : ∀ a b x y, R a x → R b y → (x = y ↔ a = b)) {l v : List (α × γ)} {l' : List (β × δ)}
    (h : List.Forall₂ (Both R S) l l') (hs : HashMapOf l v) : ∃ v', HashMapOf l' v' ∧ List.Forall₂ (Both R S) v v' := by
  rw [← hashMapOf_iff] at hs
  subst hs
  exact ⟨_, (hashMapOf_iff _ _).mp rfl,
    foldl_sim (f := fun ret kv => hashMapInsert kv.1 kv.2 ret) (g := fun ret kv => hashMapInsert kv.1 kv.2 ret)
      (S := List.Forall₂ (Both R S)) (fun _ _ _ _ h1 h2 => hashMapInsert_sim hc h2.1 h2.2 h1) l l' h [] [] .nil⟩

end hashed

/-- Related lists in two orders. -/
theorem upToOrder_of_perm {R : α → β → Prop} {l v : List α} {l' w : List β} (h : List.Forall₂ R l l') (hv : v.Perm l) (hw : w.Perm l') :
    UpToOrder R v w := by
  obtain ⟨u, h1, h2⟩ := List.perm_comp_forall₂ hv h
  exact ⟨u, h1, hw.trans h2.symm⟩

end Bsn1
