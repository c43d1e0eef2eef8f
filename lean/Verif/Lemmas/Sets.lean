import Verif.Model.De
import Verif.Spec.Decode
/-!
# Insertion into sets and maps
-/

namespace Bsn1
open Spec

variable {α β : Type}

/-! ### Ordered sets -/

section
variable {cmp : α → α → Ordering} [Std.TransCmp cmp] [Std.LawfulEqCmp cmp]

theorem cmp_lt_irrefl (x : α) : cmp x x ≠ .lt := by
  rw [Std.ReflCmp.compare_self (cmp := cmp)]; simp

theorem cmp_lt_trans {x y z : α} (h : cmp x y = .lt) (h' : cmp y z = .lt) : cmp x z = .lt :=
  Std.TransCmp.lt_trans h h'

theorem cmp_lt_asymm {x y : α} (h : cmp x y = .lt) : cmp y x ≠ .lt :=
  fun h' => cmp_lt_irrefl x (cmp_lt_trans h h')

theorem mem_btreeInsert (x z : α) (l : List α) : z ∈ btreeInsert cmp x l ↔ z = x ∨ z ∈ l := by
  induction l with
  | nil => simp [btreeInsert]
  | cons y r ih =>
    rw [btreeInsert]
    cases h : cmp x y with
    | lt => simp
    | eq =>
      have := Std.LawfulEqCmp.eq_of_compare h
      subst this
      simp
    | gt => simp only [List.mem_cons, ih]; tauto

theorem btreeInsert_sorted (x : α) (l : List α) (h : l.Pairwise fun x y => cmp x y = .lt) :
    (btreeInsert cmp x l).Pairwise fun x y => cmp x y = .lt := by
  induction l with
  | nil => simp [btreeInsert]
  | cons y r ih =>
    rw [List.pairwise_cons] at h
    rw [btreeInsert]
    cases hc : cmp x y with
    | lt =>
      refine List.pairwise_cons.mpr ⟨fun z hz => ?_, List.pairwise_cons.mpr h⟩
      rcases List.mem_cons.mp hz with rfl | hz
      · exact hc
      · exact cmp_lt_trans hc (h.1 z hz)
    | eq => exact List.pairwise_cons.mpr h
    | gt =>
      refine List.pairwise_cons.mpr ⟨fun z hz => ?_, ih h.2⟩
      rcases (mem_btreeInsert x z r).mp hz with rfl | hz
      · exact Std.OrientedCmp.gt_iff_lt.mp hc
      · exact h.1 z hz

/-- Ascending lists with the same elements are equal. -/
theorem sorted_unique {γ : Type} (f : γ → α) : ∀ {l l' : List γ}, l.Pairwise (fun x y => cmp (f x) (f y) = .lt) →
    l'.Pairwise (fun x y => cmp (f x) (f y) = .lt) → (∀ x, x ∈ l ↔ x ∈ l') → l = l'
  | [], [], _, _, _ => rfl
  | [], x :: _, _, _, h => by simpa using (h x).mpr
  | x :: _, [], _, _, h => by simpa using (h x).mp
  | x :: r, y :: r', h1, h2, h => by
    rw [List.pairwise_cons] at h1 h2
    have e : x = y := by
      rcases List.mem_cons.mp ((h x).mp (List.mem_cons_self ..)) with e | hx
      · exact e
      · rcases List.mem_cons.mp ((h y).mpr (List.mem_cons_self ..)) with e | hy
        · exact e.symm
        · exact absurd (h1.1 y hy) (cmp_lt_asymm (h2.1 x hx))
    subst e
    have hx1 : x ∉ r := fun hx => cmp_lt_irrefl _ (h1.1 x hx)
    have hx2 : x ∉ r' := fun hx => cmp_lt_irrefl _ (h2.1 x hx)
    congr 1
    refine sorted_unique f h1.2 h2.2 fun z => ⟨fun hz => ?_, fun hz => ?_⟩
    · rcases List.mem_cons.mp ((h z).mp (List.mem_cons_of_mem _ hz)) with rfl | h
      · exact absurd hz hx1
      · exact h
    · rcases List.mem_cons.mp ((h z).mpr (List.mem_cons_of_mem _ hz)) with rfl | h
      · exact absurd hz hx2
      · exact h

theorem foldl_btreeInsert (l ret : List α) (h : ret.Pairwise fun x y => cmp x y = .lt) :
    (l.foldl (fun ret t => btreeInsert cmp t ret) ret).Pairwise (fun x y => cmp x y = .lt) ∧
      ∀ x, x ∈ l.foldl (fun ret t => btreeInsert cmp t ret) ret ↔ x ∈ ret ∨ x ∈ l := by
  induction l generalizing ret with
  | nil => exact ⟨h, by simp⟩
  | cons y r ih =>
    obtain ⟨h1, h2⟩ := ih (btreeInsert cmp y ret) (btreeInsert_sorted y ret h)
    refine ⟨h1, fun x => ?_⟩
    rw [List.foldl_cons, h2, mem_btreeInsert, List.mem_cons]
    tauto

theorem setOf_iff (l v : List α) : v = l.foldl (fun ret t => btreeInsert cmp t ret) [] ↔ SetOf cmp l v := by
  obtain ⟨h1, h2⟩ := foldl_btreeInsert (cmp := cmp) l [] .nil
  constructor
  · rintro rfl
    exact ⟨h1, fun x => by rw [h2]; simp⟩
  · rintro ⟨h3, h4⟩
    exact sorted_unique (cmp := cmp) id h3 h1 fun x => by rw [h4, h2]; simp

/-! ### Ordered maps -/

theorem mem_btreeMapInsert (k : α) (v : β) (l : List (α × β)) (h : l.Pairwise fun x y => cmp x.1 y.1 = .lt) (k' : α)
    (v' : β) : (k', v') ∈ btreeMapInsert cmp k v l ↔ (k' = k ∧ v' = v) ∨ (k' ≠ k ∧ (k', v') ∈ l) := by
  induction l with
  | nil => simp [btreeMapInsert]
  | cons y r ih =>
    obtain ⟨ky, vy⟩ := y
    rw [List.pairwise_cons] at h
    rw [btreeMapInsert]
    cases hc : cmp k ky with
    | lt =>
      have hne : k' = k → (k', v') ∉ (ky, vy) :: r := by
        rintro rfl hm
        rcases List.mem_cons.mp hm with e | hm
        · cases e; exact cmp_lt_irrefl _ hc
        · exact cmp_lt_irrefl _ (cmp_lt_trans hc (h.1 _ hm))
      simp only [List.mem_cons, Prod.mk.injEq] at hne ⊢
      tauto
    | eq =>
      have := Std.LawfulEqCmp.eq_of_compare hc
      subst this
      have hne : k' = k → (k', v') ∉ r := by
        rintro rfl hm
        exact cmp_lt_irrefl _ (h.1 (_, v') hm)
      simp only [List.mem_cons, Prod.mk.injEq]
      tauto
    | gt =>
      have hne : ky ≠ k := by
        rintro rfl
        rw [Std.ReflCmp.compare_self (cmp := cmp)] at hc
        cases hc
      have hne' : k' = ky → k' ≠ k := by rintro rfl; exact hne
      simp only [List.mem_cons, ih h.2, Prod.mk.injEq]
      tauto

theorem btreeMapInsert_sorted (k : α) (v : β) (l : List (α × β)) (h : l.Pairwise fun x y => cmp x.1 y.1 = .lt) :
    (btreeMapInsert cmp k v l).Pairwise fun x y => cmp x.1 y.1 = .lt := by
  induction l with
  | nil => simp [btreeMapInsert]
  | cons y r ih =>
    obtain ⟨ky, vy⟩ := y
    have h0 := h
    rw [List.pairwise_cons] at h
    rw [btreeMapInsert]
    cases hc : cmp k ky with
    | lt =>
      refine List.pairwise_cons.mpr ⟨fun z hz => ?_, h0⟩
      rcases List.mem_cons.mp hz with rfl | hz
      · exact hc
      · exact cmp_lt_trans hc (h.1 z hz)
    | eq => exact List.pairwise_cons.mpr h
    | gt =>
      refine List.pairwise_cons.mpr ⟨fun z hz => ?_, ih h.2⟩
      obtain ⟨kz, vz⟩ := z
      rcases (mem_btreeMapInsert k v r h.2 kz vz).mp hz with ⟨rfl, rfl⟩ | ⟨_, hz⟩
      · exact Std.OrientedCmp.gt_iff_lt.mp hc
      · exact h.1 _ hz

end

theorem lastEntry_nil (k : α) (y : β) : ¬ LastEntry k y [] := by
  rintro ⟨a, b, h, _⟩
  have := congrArg List.length h
  simp at this

theorem lastEntry_snoc (k : α) (y : β) (l : List (α × β)) (k' : α) (y' : β) :
    LastEntry k y (l ++ [(k', y')]) ↔ (k = k' ∧ y = y') ∨ (k ≠ k' ∧ LastEntry k y l) := by
  constructor
  · rintro ⟨a, b, h, hb⟩
    rcases List.eq_nil_or_concat b with rfl | ⟨b, z, rfl⟩
    · have h := List.append_inj' h rfl
      simp only [List.cons.injEq, and_true, Prod.mk.injEq] at h
      exact .inl ⟨h.2.1.symm, h.2.2.symm⟩
    · rw [List.concat_eq_append, ← List.cons_append, ← List.append_assoc] at h
      have h := List.append_inj' h rfl
      simp only [List.cons.injEq, and_true] at h
      refine .inr ⟨?_, a, b, h.1, fun e he => hb e (by simp [he])⟩
      have := hb z (by simp)
      rw [← h.2] at this
      exact fun e => this e.symm
  · rintro (⟨rfl, rfl⟩ | ⟨hne, a, b, rfl, hb⟩)
    · exact ⟨l, [], rfl, by simp⟩
    · refine ⟨a, b ++ [(k', y')], by simp, ?_⟩
      intro e he
      rcases List.mem_append.mp he with he | he
      · exact hb e he
      · simp only [List.mem_singleton] at he
        subst he
        exact fun e => hne e.symm

theorem lastEntry_mem {k : α} {y : β} {l : List (α × β)} (h : LastEntry k y l) : (k, y) ∈ l := by
  obtain ⟨a, b, rfl, _⟩ := h
  simp

theorem lastEntry_unique {k : α} {y y' : β} {l : List (α × β)} (h : LastEntry k y l) (h' : LastEntry k y' l) : y = y' := by
  induction l using List.reverseRecOn with
  | nil => exact absurd h (lastEntry_nil _ _)
  | append_singleton l x ih =>
    obtain ⟨kx, vx⟩ := x
    rw [lastEntry_snoc] at h h'
    rcases h with ⟨h1, h2⟩ | ⟨h1, h2⟩ <;> rcases h' with ⟨h3, h4⟩ | ⟨h3, h4⟩
    · rw [h2, h4]
    · exact absurd h1 h3
    · exact absurd h3 h1
    · exact ih h2 h4

section
variable {cmp : α → α → Ordering} [Std.TransCmp cmp] [Std.LawfulEqCmp cmp]

theorem foldl_btreeMapInsert (l : List (α × β)) :
    MapOf cmp l (l.foldl (fun ret kv => btreeMapInsert cmp kv.1 kv.2 ret) []) := by
  induction l using List.reverseRecOn with
  | nil => exact ⟨.nil, fun k y => by simp [lastEntry_nil]⟩
  | append_singleton l x ih =>
    obtain ⟨h1, h2⟩ := ih
    rw [List.foldl_append, List.foldl_cons, List.foldl_nil]
    refine ⟨btreeMapInsert_sorted _ _ _ h1, fun k y => ?_⟩
    rw [mem_btreeMapInsert _ _ _ h1, lastEntry_snoc, h2]

theorem mapOf_iff (l v : List (α × β)) :
    v = l.foldl (fun ret kv => btreeMapInsert cmp kv.1 kv.2 ret) [] ↔ MapOf cmp l v := by
  have h := foldl_btreeMapInsert (cmp := cmp) l
  constructor
  · rintro rfl; exact h
  · intro h'
    exact sorted_unique (cmp := cmp) Prod.fst h'.1 h.1 fun x => by
      obtain ⟨k, y⟩ := x
      rw [h'.2, h.2]

end

/-! ### Hashed sets and maps -/

section
variable [DecidableEq α]

theorem mem_firsts (l : List α) (x : α) : x ∈ firsts l ↔ x ∈ l := by
  induction l with
  | nil => simp [firsts]
  | cons y r ih =>
    simp only [firsts, List.mem_cons, List.mem_filter, ih, decide_eq_true_eq]
    by_cases h : x = y <;> simp [h]

theorem firsts_nodup (l : List α) : (firsts l).Nodup := by
  induction l with
  | nil => simp [firsts]
  | cons y r ih =>
    rw [firsts, List.nodup_cons]
    exact ⟨by simp, ih.filter _⟩

theorem firsts_snoc (l : List α) (x : α) : firsts (l ++ [x]) = if x ∈ l then firsts l else firsts l ++ [x] := by
  induction l with
  | nil => simp [firsts]
  | cons y r ih =>
    rw [List.cons_append, firsts, ih, firsts]
    by_cases h : x = y
    · subst h
      by_cases hr : x ∈ r
      · simp [hr]
      · simp [hr, List.filter_append]
    · by_cases hr : x ∈ r
      · simp [hr]
      · simp [hr, h, List.filter_append]

theorem firsts_of_nodup {l : List α} (h : l.Nodup) : firsts l = l := by
  induction l with
  | nil => rfl
  | cons y r ih =>
    rw [List.nodup_cons] at h
    rw [firsts, ih h.2, List.filter_eq_self.mpr]
    intro z hz
    simp only [ne_eq, decide_eq_true_eq]
    rintro rfl
    exact h.1 hz

theorem foldl_hashInsert (l : List α) : l.foldl (fun ret t => hashInsert t ret) [] = firsts l := by
  induction l using List.reverseRecOn with
  | nil => rfl
  | append_singleton l x ih =>
    rw [List.foldl_append, List.foldl_cons, List.foldl_nil, ih, firsts_snoc, hashInsert]
    simp only [mem_firsts]

theorem hashMapInsert_keys (k : α) (v : β) (l : List (α × β)) :
    (hashMapInsert k v l).map Prod.fst = if k ∈ l.map Prod.fst then l.map Prod.fst else l.map Prod.fst ++ [k] := by
  induction l with
  | nil => simp [hashMapInsert]
  | cons y r ih =>
    obtain ⟨ky, vy⟩ := y
    rw [hashMapInsert]
    by_cases h : k = ky
    · subst h; simp
    · rw [if_neg h, List.map_cons, ih]
      by_cases hr : k ∈ r.map Prod.fst
      · rw [if_pos hr, if_pos (by simp only [List.map_cons, List.mem_cons]; exact .inr hr), List.map_cons]
      · rw [if_neg hr, if_neg (by simp only [List.map_cons, List.mem_cons]; tauto)]
        simp

theorem mem_hashMapInsert (k : α) (v : β) (l : List (α × β)) (hn : (l.map Prod.fst).Nodup) (e : α × β)
    (he : e ∈ hashMapInsert k v l) : e = (k, v) ∨ e.1 ≠ k ∧ e ∈ l := by
  induction l with
  | nil => simpa [hashMapInsert] using he
  | cons y r ih =>
    obtain ⟨ky, vy⟩ := y
    rw [List.map_cons, List.nodup_cons] at hn
    rw [hashMapInsert] at he
    by_cases h : k = ky
    · rw [if_pos h] at he
      rcases List.mem_cons.mp he with rfl | he
      · exact .inl (by rw [h])
      · refine .inr ⟨fun hk => hn.1 ?_, List.mem_cons_of_mem _ he⟩
        rw [List.mem_map]
        exact ⟨e, he, hk.trans h⟩
    · rw [if_neg h] at he
      rcases List.mem_cons.mp he with rfl | he
      · exact .inr ⟨fun e => h e.symm, by simp⟩
      · rcases ih hn.2 he with h1 | ⟨h1, h2⟩
        · exact .inl h1
        · exact .inr ⟨h1, List.mem_cons_of_mem _ h2⟩

theorem foldl_hashMapInsert (l : List (α × β)) :
    HashMapOf l (l.foldl (fun ret kv => hashMapInsert kv.1 kv.2 ret) []) := by
  induction l using List.reverseRecOn with
  | nil => exact ⟨rfl, by simp⟩
  | append_singleton l x ih =>
    obtain ⟨h1, h2⟩ := ih
    rw [List.foldl_append, List.foldl_cons, List.foldl_nil]
    refine ⟨?_, fun e he => ?_⟩
    · rw [hashMapInsert_keys, h1, List.map_append, List.map_cons, List.map_nil, firsts_snoc]
      simp only [mem_firsts]
    · obtain ⟨kx, vx⟩ := x
      rw [lastEntry_snoc]
      rcases mem_hashMapInsert kx vx _ (by rw [h1]; exact firsts_nodup _) e he with rfl | ⟨h3, h4⟩
      · exact .inl ⟨rfl, rfl⟩
      · exact .inr ⟨h3, h2 e h4⟩

theorem hashMapOf_unique {l u u' : List (α × β)} (h : HashMapOf l u) (h' : HashMapOf l u') : u = u' := by
  obtain ⟨h1, h2⟩ := h
  obtain ⟨h3, h4⟩ := h'
  rw [← h3] at h1
  clear h3
  induction u generalizing u' with
  | nil => cases u' with
    | nil => rfl
    | cons _ _ => simp at h1
  | cons x r ih => cases u' with
    | nil => simp at h1
    | cons y r' =>
      simp only [List.map_cons, List.cons.injEq] at h1
      obtain ⟨kx, vx⟩ := x
      obtain ⟨ky, vy⟩ := y
      obtain ⟨h5, h6⟩ := h1
      simp only at h5
      subst h5
      have := lastEntry_unique (h2 (kx, vx) (by simp)) (h4 (kx, vy) (by simp))
      simp only at this
      rw [this, ih h6 (fun e he => h2 e (by simp [he])) (fun e he => h4 e (by simp [he]))]

theorem hashMapOf_iff (l u : List (α × β)) :
    u = l.foldl (fun ret kv => hashMapInsert kv.1 kv.2 ret) [] ↔ HashMapOf l u := by
  constructor
  · rintro rfl; exact foldl_hashMapInsert l
  · intro h; exact hashMapOf_unique h (foldl_hashMapInsert l)

theorem lastEntry_of_nodup {l : List (α × β)} (h : (l.map Prod.fst).Nodup) {e : α × β} (he : e ∈ l) : LastEntry e.1 e.2 l := by
  obtain ⟨a, b, rfl⟩ := List.append_of_mem he
  refine ⟨a, b, rfl, fun x hx hxe => ?_⟩
  rw [List.map_append, List.map_cons] at h
  have := (List.nodup_append.mp h).2.1
  rw [List.nodup_cons] at this
  exact this.1 (hxe ▸ List.mem_map_of_mem hx)

/-- A list without repeated keys is its own map. -/
theorem hashMapOf_of_nodup {l : List (α × β)} (h : (l.map Prod.fst).Nodup) : HashMapOf l l :=
  ⟨(firsts_of_nodup h).symm, fun _ he => lastEntry_of_nodup h he⟩

end

/-- An ascending list is its own set. -/
theorem setOf_self {cmp : α → α → Ordering} {l : List α} (h : l.Pairwise fun x y => cmp x y = .lt) : SetOf cmp l l :=
  ⟨h, fun _ => Iff.rfl⟩

/-- An ascending list is its own map. -/
theorem mapOf_self {cmp : α → α → Ordering} [Std.TransCmp cmp] [Std.LawfulEqCmp cmp] {l : List (α × β)}
    (h : l.Pairwise fun x y => cmp x.1 y.1 = .lt) : MapOf cmp l l := by
  refine ⟨h, fun k y => ⟨fun hm => ?_, lastEntry_mem⟩⟩
  obtain ⟨a, b, rfl⟩ := List.append_of_mem hm
  refine ⟨a, b, rfl, fun e he hk => ?_⟩
  have := (List.pairwise_append.mp h).2.1
  rw [List.pairwise_cons] at this
  have := this.1 e he
  rw [hk] at this
  exact cmp_lt_irrefl _ this

end Bsn1
