import Verif.Spec.Alike
import Verif.Lemmas.Sets
/-!
# Lemmas about calls that end alike
-/

namespace Bsn1
open Spec

variable {α β γ : Type}

theorem ends_bind_ok (r : Res α) {R : β → γ → Prop} {f : α → β} {g : α → γ} (h : ∀ x, R (f x) (g x)) :
    EndsAlike R (r.bind fun x => .ok (f x)) (r.bind fun x => .ok (g x)) := by
  cases r with
  | ok x => exact .ok _ _ (h x)
  | err e => exact .err e
  | panic => exact .panic
  | ub => exact .ub

theorem ends_bind {δ : Type} (r : Res δ) {R : β → γ → Prop} {f : δ → Res β} {g : δ → Res γ} (h : ∀ x, EndsAlike R (f x) (g x)) :
    EndsAlike R (r.bind f) (r.bind g) := by
  cases r with
  | ok x => exact h x
  | err e => exact .err e
  | panic => exact .panic
  | ub => exact .ub

theorem ends_ite {p q : Prop} [Decidable p] [Decidable q] (h : p ↔ q) {e : Error} {R : β → γ → Prop} {x : Res β} {y : Res γ} (hxy : EndsAlike R x y) :
    EndsAlike R (if p then .err e else x) (if q then .err e else y) := by
  by_cases hp : p
  · rw [if_pos hp, if_pos (h.1 hp)]
    exact .err e
  · rw [if_neg hp, if_neg fun hq => hp (h.2 hq)]
    exact hxy

/-- The loop inserts what the loop of `Vec` pushes. -/
theorem collectLoop_fuse (next : Bytes → Res (Option (α × Bytes))) (insert : γ → α → γ) (init : γ) : ∀ (fuel : Nat) (c : Bytes) (l : List α),
    collectLoop next insert fuel c (l.foldl insert init) =
      (collectLoop next (fun ret t => ret ++ [t]) fuel c l).bind fun l => .ok (l.foldl insert init)
  | 0, _, _ => rfl
  | fuel + 1, c, l => by
    rw [collectLoop, collectLoop]
    cases next c with
    | ok x =>
      cases x with
      | none => rfl
      | some x =>
        obtain ⟨t, c'⟩ := x
        have := collectLoop_fuse next insert init fuel c' (l ++ [t])
        rw [List.foldl_append, List.foldl_cons, List.foldl_nil] at this
        exact this
    | err e => rfl
    | panic => rfl
    | ub => rfl

theorem collect_fuse (next : Bytes → Res (Option (α × Bytes))) (insert : γ → α → γ) (init : γ) (c : Bytes) :
    collect next insert c init = (collect next (fun ret t => ret ++ [t]) c []).bind fun l => .ok (l.foldl insert init) :=
  collectLoop_fuse next insert init _ c []

theorem bind_ok_self (r : Res α) : (r.bind fun x => .ok x) = r := by cases r <;> rfl

theorem bind_bind_ok (r : Res α) (f : α → β) (g : β → γ) : (r.bind fun x => .ok (f x)).bind (fun y => .ok (g y)) = r.bind fun x => .ok (g (f x)) := by
  cases r <;> rfl

/-- What `BTreeSet` makes of the elements, beside what `Vec` does. -/
theorem collect_set {cmp : α → α → Ordering} [Std.TransCmp cmp] [Std.LawfulEqCmp cmp] (next : Bytes → Res (Option (α × Bytes))) (c : Bytes) :
    EndsAlike (SetOf cmp) (collect next (fun ret t => ret ++ [t]) c []) (collect next (fun ret t => btreeInsert cmp t ret) c []) := by
  rw [collect_fuse next (fun ret t => btreeInsert cmp t ret)]
  have := ends_bind_ok (collect next (fun ret t => ret ++ [t]) c []) (R := SetOf cmp) (f := fun l => l)
    (g := fun l => l.foldl (fun ret t => btreeInsert cmp t ret) []) fun l => (setOf_iff l _).1 rfl
  rwa [bind_ok_self] at this

theorem collect_hash [DecidableEq α] (order : List α → List α) (ho : ∀ l, (order l).Perm l) (next : Bytes → Res (Option (α × Bytes))) (c : Bytes) :
    EndsAlike Distinct (collect next (fun ret t => ret ++ [t]) c []) ((collect next (fun ret t => hashInsert t ret) c []).bind fun ret => .ok (order ret)) := by
  rw [collect_fuse next (fun ret t => hashInsert t ret), bind_bind_ok]
  have := ends_bind_ok (collect next (fun ret t => ret ++ [t]) c []) (R := Distinct) (f := fun l => l)
    (g := fun l => order (l.foldl (fun ret t => hashInsert t ret) [])) fun l => by
      rw [foldl_hashInsert]
      exact ⟨(ho _).nodup_iff.2 (firsts_nodup l), fun x => by rw [(ho _).mem_iff, mem_firsts]⟩
  rwa [bind_ok_self] at this

theorem hashMapOf_nodup [DecidableEq α] {l v : List (α × β)} (h : HashMapOf l v) : (v.map Prod.fst).Nodup := by
  rw [h.1]; exact firsts_nodup _

theorem mapOf_nodup {cmp : α → α → Ordering} [Std.TransCmp cmp] [Std.LawfulEqCmp cmp] {l v : List (α × β)} (h : MapOf cmp l v) : (v.map Prod.fst).Nodup := by
  rw [List.Nodup, List.pairwise_map]
  exact h.1.imp fun {a b} hab he => by rw [he] at hab; exact cmp_lt_irrefl _ hab

/-- What the two kinds of maps make of the entries. -/
theorem collect_maps {cmp : α → α → Ordering} [Std.TransCmp cmp] [Std.LawfulEqCmp cmp] [DecidableEq α] (order : List (α × β) → List (α × β))
    (ho : ∀ l, (order l).Perm l) (next : Bytes → Res (Option ((α × β) × Bytes))) (c : Bytes) :
    EndsAlike SameEntries (collect next (fun ret kv => btreeMapInsert cmp kv.1 kv.2 ret) c [])
      ((collect next (fun ret kv => hashMapInsert kv.1 kv.2 ret) c []).bind fun ret => .ok (order ret)) := by
  rw [collect_fuse next (fun ret kv => btreeMapInsert cmp kv.1 kv.2 ret), collect_fuse next (fun ret kv => hashMapInsert kv.1 kv.2 ret), bind_bind_ok]
  refine ends_bind_ok _ fun l => ?_
  have h1 : MapOf cmp l _ := (mapOf_iff l _).1 rfl
  have h2 : HashMapOf l _ := (hashMapOf_iff l _).1 rfl
  refine ⟨mapOf_nodup h1, ((ho _).map _).nodup_iff.2 (hashMapOf_nodup h2), fun e => ?_⟩
  obtain ⟨k, y⟩ := e
  rw [(ho _).mem_iff, h1.2]
  constructor
  · intro h
    have hk : k ∈ (List.foldl (fun ret (kv : α × β) => hashMapInsert kv.1 kv.2 ret) [] l).map Prod.fst := by
      rw [h2.1, mem_firsts]
      exact List.mem_map_of_mem (f := Prod.fst) (lastEntry_mem h)
    obtain ⟨⟨k', y'⟩, hm, rfl⟩ := List.mem_map.1 hk
    have := lastEntry_unique (h2.2 _ hm) h
    simp only at this
    rwa [← this]
  · exact h2.2 (k, y)

/-! ### Elements that end alike -/

theorem ends_bind_rel {δ ε : Type} {S : δ → ε → Prop} {R : β → γ → Prop} {r : Res δ} {r' : Res ε} (h : EndsAlike S r r') {f : δ → Res β} {g : ε → Res γ}
    (hfg : ∀ x y, S x y → EndsAlike R (f x) (g y)) : EndsAlike R (r.bind f) (r'.bind g) := by
  cases h with
  | ok x y h => exact hfg x y h
  | err e => exact .err e
  | panic => exact .panic
  | ub => exact .ub

theorem ends_context {R : β → γ → Prop} {r : Res β} {r' : Res γ} (h : EndsAlike R r r') : EndsAlike R (mapErrContext r) (mapErrContext r') := by
  cases h with
  | ok x y h => exact .ok x y h
  | err e => exact .err _
  | panic => exact .panic
  | ub => exact .ub

theorem ends_if {p : Prop} [Decidable p] {e : Error} {R : β → γ → Prop} {x : Res β} {y : Res γ} (hxy : EndsAlike R x y) :
    EndsAlike R (if p then x else .err e) (if p then y else .err e) := by
  by_cases hp : p
  · rw [if_pos hp, if_pos hp]
    exact hxy
  · rw [if_neg hp, if_neg hp]
    exact .err e

/-- The same step of the loop: both are at the end, or the elements are related and the same octets remain. -/
def StepRel (R : α → β → Prop) : Option (α × Bytes) → Option (β × Bytes) → Prop
  | none, none => True
  | some x, some y => R x.1 y.1 ∧ x.2 = y.2
  | _, _ => False

theorem ends_derToVal {R : α → β → Prop} {d : De α} {d' : De β} (h : ∀ id c, EndsAlike R (d.fromDer id c) (d'.fromDer id c)) (c : Bytes) :
    EndsAlike (StepRel R) (derToVal d c) (derToVal d' c) := by
  rw [derToVal, derToVal]
  split
  · exact .ok _ _ trivial
  · exact ends_bind _ fun _ => ends_bind _ fun ⟨_, _, _⟩ => ends_bind_rel (ends_context (h _ _)) fun x y hxy => .ok _ _ ⟨hxy, rfl⟩

theorem ends_berToVal {R : α → β → Prop} {d : De α} {d' : De β} (h : ∀ id length c, EndsAlike R (d.fromBer id length c) (d'.fromBer id length c)) (c : Bytes) :
    EndsAlike (StepRel R) (berToVal d c) (berToVal d' c) := by
  rw [berToVal, berToVal]
  split
  · exact .ok _ _ trivial
  · exact ends_bind _ fun _ => ends_bind _ fun ⟨_, _, _⟩ => ends_bind_rel (ends_context (h _ _ _)) fun x y hxy => .ok _ _ ⟨hxy, rfl⟩

theorem ends_derToKeyVal {R : β → γ → Prop} (dk : De α) {d : De β} {d' : De γ} (h : ∀ id c, EndsAlike R (d.fromDer id c) (d'.fromDer id c)) (c : Bytes) :
    EndsAlike (StepRel (EntryRel R)) (derToKeyVal dk d c) (derToKeyVal dk d' c) := by
  rw [derToKeyVal, derToKeyVal]
  split
  · exact .ok _ _ trivial
  · exact ends_bind _ fun _ => ends_bind _ fun _ => ends_ite Iff.rfl (ends_bind _ fun _ => ends_bind _ fun _ => ends_bind _ fun _ => 
      ends_if (ends_bind _ fun ⟨_, _, _⟩ => ends_bind _ fun _ => ends_bind _ fun ⟨_, _, _⟩ => ends_bind_rel (ends_context (h _ _)) fun x y hxy => .ok _ _ ⟨⟨rfl, hxy⟩, rfl⟩))

theorem ends_berToKeyVal {R : β → γ → Prop} (dk : De α) {d : De β} {d' : De γ} (h : ∀ id length c, EndsAlike R (d.fromBer id length c) (d'.fromBer id length c)) (c : Bytes) :
    EndsAlike (StepRel (EntryRel R)) (berToKeyVal dk d c) (berToKeyVal dk d' c) := by
  rw [berToKeyVal, berToKeyVal]
  split
  · exact .ok _ _ trivial
  · exact ends_bind _ fun _ => ends_bind _ fun _ => ends_ite Iff.rfl (ends_bind _ fun _ => ends_bind _ fun _ => ends_bind _ fun _ => 
      ends_if (ends_bind _ fun ⟨_, _, _⟩ => ends_bind _ fun _ => ends_bind _ fun ⟨_, _, _⟩ => ends_bind_rel (ends_context (h _ _ _)) fun x y hxy => .ok _ _ ⟨⟨rfl, hxy⟩, rfl⟩))

theorem ends_collectLoop {δ ε : Type} {S : α → β → Prop} {R : δ → ε → Prop} {next : Bytes → Res (Option (α × Bytes))} {next' : Bytes → Res (Option (β × Bytes))}
    (hn : ∀ c, EndsAlike (StepRel S) (next c) (next' c)) {insert : δ → α → δ} {insert' : ε → β → ε} (hi : ∀ r r' x y, R r r' → S x y → R (insert r x) (insert' r' y)) :
    ∀ (fuel : Nat) (c : Bytes) (r : δ) (r' : ε), R r r' → EndsAlike R (collectLoop next insert fuel c r) (collectLoop next' insert' fuel c r')
  | 0, _, _, _, _ => .panic
  | fuel + 1, c, r, r', h => by
    rw [collectLoop, collectLoop]
    refine ends_bind_rel (hn c) fun x y hxy => ?_
    cases x with
    | none => cases y with
      | none => exact .ok _ _ h
      | some y => exact hxy.elim
    | some x => cases y with
      | none => exact hxy.elim
      | some y =>
        obtain ⟨x, c1⟩ := x
        obtain ⟨y, c2⟩ := y
        obtain ⟨hxy, rfl⟩ := hxy
        exact ends_collectLoop hn hi fuel _ _ _ (hi _ _ _ _ h hxy)

theorem forall₂_snoc {R : α → β → Prop} {l : List α} {l' : List β} (h : List.Forall₂ R l l') {x : α} {y : β} (hxy : R x y) : List.Forall₂ R (l ++ [x]) (l' ++ [y]) := by
  induction h with
  | nil => exact .cons hxy .nil
  | cons h1 _ ih => exact .cons h1 ih

theorem forall₂_btreeMapInsert {R : β → γ → Prop} (cmp : α → α → Ordering) {l : List (α × β)} {l' : List (α × γ)} (h : List.Forall₂ (EntryRel R) l l') (k : α) {x : β} {y : γ}
    (hxy : R x y) : List.Forall₂ (EntryRel R) (btreeMapInsert cmp k x l) (btreeMapInsert cmp k y l') := by
  induction h with
  | nil => exact .cons ⟨rfl, hxy⟩ .nil
  | @cons a b l l' h1 h2 ih =>
    obtain ⟨k1, a⟩ := a
    obtain ⟨k2, b⟩ := b
    obtain ⟨e, h1⟩ := h1
    simp only at e h1
    subst e
    rw [btreeMapInsert, btreeMapInsert]
    cases cmp k k1 with
    | lt => exact .cons ⟨rfl, hxy⟩ (.cons ⟨rfl, h1⟩ h2)
    | eq => exact .cons ⟨rfl, hxy⟩ h2
    | gt => exact .cons ⟨rfl, h1⟩ ih

end Bsn1
