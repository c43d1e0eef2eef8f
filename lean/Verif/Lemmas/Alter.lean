import Verif.Spec.Alter
import Verif.Lemmas.Origin
import Verif.Lemmas.Place
import Verif.Lemmas.Faults
import Verif.Lemmas.Stable
/-!
# A value in the input is changed, and that part of the decoded value
-/

namespace Bsn1
open Spec

variable {α β γ : Type} {u : Ty β} {y : β}

theorem deCount_zero_derOne (o : (α : Type) → List α → List α) : {γ : Type} → (fs : Fields γ) → fs.deCount = 0 → (id c id' c' : Bytes) → (v w : γ) →
    fs.derOne o id c v → (fs.derOne o id' c' w ↔ w = v)
  | _, .nil, _, _, _, _, _, _, _, _ => ⟨fun _ => rfl, fun _ => trivial⟩
  | _, .skip _ r, h, id, c, id', c', v, w, hv =>
    ⟨fun hw => Prod.ext (hw.1.trans hv.1.symm) ((deCount_zero_derOne o r h id c id' c' v.2 w.2 hv.2).1 hw.2),
      fun e => e ▸ ⟨hv.1, (deCount_zero_derOne o r h id c id' c' v.2 v.2 hv.2).2 rfl⟩⟩
  | _, .skipDe _ _ r, h, id, c, id', c', v, w, hv =>
    ⟨fun hw => Prod.ext (hw.1.trans hv.1.symm) ((deCount_zero_derOne o r h id c id' c' v.2 w.2 hv.2).1 hw.2),
      fun e => e ▸ ⟨hv.1, (deCount_zero_derOne o r h id c id' c' v.2 v.2 hv.2).2 rfl⟩⟩

theorem deCount_zero_berOne (lax : Bool) (o : (α : Type) → List α → List α) : {γ : Type} → (fs : Fields γ) → fs.deCount = 0 → (id : Bytes) → (d : Bool) → (c id' : Bytes) →
    (d' : Bool) → (c' : Bytes) → (v w : γ) → fs.berOne lax o id d c v → (fs.berOne lax o id' d' c' w ↔ w = v)
  | _, .nil, _, _, _, _, _, _, _, _, _, _ => ⟨fun _ => rfl, fun _ => trivial⟩
  | _, .skip _ r, h, id, d, c, id', d', c', v, w, hv =>
    ⟨fun hw => Prod.ext (hw.1.trans hv.1.symm) ((deCount_zero_berOne lax o r h id d c id' d' c' v.2 w.2 hv.2).1 hw.2),
      fun e => e ▸ ⟨hv.1, (deCount_zero_berOne lax o r h id d c id' d' c' v.2 v.2 hv.2).2 rfl⟩⟩
  | _, .skipDe _ _ r, h, id, d, c, id', d', c', v, w, hv =>
    ⟨fun hw => Prod.ext (hw.1.trans hv.1.symm) ((deCount_zero_berOne lax o r h id d c id' d' c' v.2 w.2 hv.2).1 hw.2),
      fun e => e ▸ ⟨hv.1, (deCount_zero_berOne lax o r h id d c id' d' c' v.2 v.2 hv.2).2 rfl⟩⟩

theorem atIndex_zero {parse : Bytes → Res Bytes × Bytes} {k : Bytes → Res Bytes} {b x q rest : Bytes} (hp : parse b = (.ok x, rest)) (hk : k x = .ok q) :
    atIndex parse k 0 b = .ok (q ++ rest) := by
  simp only [atIndex, hp, hk]; rfl

theorem atIndex_succ {parse : Bytes → Res Bytes × Bytes} {k : Bytes → Res Bytes} {b x q rest : Bytes} {i : Nat} (hp : parse b = (.ok x, rest))
    (hk : atIndex parse k i rest = .ok q) : atIndex parse k (i + 1) b = .ok (x ++ q) := by
  simp only [atIndex, hp, hk]; rfl

/-! ### Maps -/

theorem lastEntry_set {a b : List (α × γ)} {k : α} {w w' : γ} (hb : ∀ e ∈ b, e.1 ≠ k) (k' : α) (z : γ) :
    LastEntry k' z (a ++ (k, w') :: b) ↔ (k' = k ∧ z = w') ∨ (k' ≠ k ∧ LastEntry k' z (a ++ (k, w) :: b)) := by
  classical
  by_cases hk : k' = k
  · subst hk
    constructor
    · intro h
      refine .inl ⟨rfl, ?_⟩
      exact lastEntry_unique h ⟨a, b, rfl, hb⟩
    · rintro (⟨-, rfl⟩ | ⟨h, -⟩)
      · exact ⟨a, b, rfl, hb⟩
      · exact absurd rfl h
  · have key : ∀ w1 w2 : γ, LastEntry k' z (a ++ (k, w1) :: b) → LastEntry k' z (a ++ (k, w2) :: b) := by
      rintro w1 w2 ⟨a1, b1, e, h1⟩
      rcases List.append_eq_append_iff.1 e with ⟨m, rfl, hm⟩ | ⟨m, rfl, hm⟩
      · -- a1 = a ++ m
        cases m with
        | nil => simp only [List.nil_append, List.cons.injEq, Prod.mk.injEq] at hm; exact absurd hm.1.1.symm hk
        | cons e' m =>
          simp only [List.cons_append, List.cons.injEq] at hm
          obtain ⟨rfl, rfl⟩ := hm
          exact ⟨a ++ (k, w2) :: m, b1, by simp, h1⟩
      · cases m with
        | nil => simp only [List.nil_append, List.cons.injEq, Prod.mk.injEq] at hm; exact absurd hm.1.1 hk
        | cons e' m =>
          simp only [List.cons_append, List.cons.injEq] at hm
          obtain ⟨rfl, rfl⟩ := hm
          refine ⟨a1, m ++ (k, w2) :: b, by simp, ?_⟩
          intro e he
          simp only [List.mem_append, List.mem_cons] at he
          rcases he with he | rfl | he
          · exact h1 e (by simp [he])
          · exact fun h => hk h.symm
          · exact h1 e (by simp [he])
    constructor
    · intro h; exact .inr ⟨hk, key _ _ h⟩
    · rintro (⟨h, -⟩ | ⟨-, h⟩)
      · exact absurd h hk
      · exact key _ _ h

theorem mapOf_set {cmp : α → α → Ordering} [Std.TransCmp cmp] [Std.LawfulEqCmp cmp] {l v : List (α × γ)} (h : MapOf cmp l v) {i : Nat} {x : α × γ} (hx : v[i]? = some x) :
    ∃ j, l[j]? = some x ∧ ∀ w', MapOf cmp (l.set j (x.1, w')) (v.set i (x.1, w')) := by
  obtain ⟨hp, hm⟩ := h
  obtain ⟨k, w⟩ := x
  obtain ⟨a, b, rfl, hb⟩ := (hm k w).1 (List.mem_of_getElem? hx)
  refine ⟨a.length, by simp, fun w' => ?_⟩
  have hset : (a ++ (k, w) :: b).set a.length (k, w') = a ++ (k, w') :: b := by simp
  obtain ⟨hi, hxi⟩ := List.getElem?_eq_some_iff.1 hx
  have hv : v = v.take i ++ (k, w) :: v.drop (i + 1) := by
    rw [← hxi, List.getElem_cons_drop, List.take_append_drop]
  have hv' : v.set i (k, w') = v.take i ++ (k, w') :: v.drop (i + 1) := List.set_eq_take_append_cons_drop.trans (by simp [hi])
  rw [hset, hv']
  rw [hv] at hp hm
  generalize v.take i = c at hp hm
  generalize v.drop (i + 1) = d at hp hm
  rw [List.pairwise_append, List.pairwise_cons] at hp
  obtain ⟨h1, ⟨h2, h3⟩, h4⟩ := hp
  refine ⟨?_, ?_⟩
  · rw [List.pairwise_append, List.pairwise_cons]
    refine ⟨h1, ⟨h2, h3⟩, ?_⟩
    intro e he f hf
    rcases List.mem_cons.1 hf with rfl | hf
    · exact h4 e he (k, w) (by simp)
    · exact h4 e he f (by simp [hf])
  · have hc : ∀ e ∈ c, e.1 ≠ k := by
      intro e he hek
      have := h4 e he (k, w) (by simp)
      rw [hek, Std.ReflCmp.compare_self (cmp := cmp)] at this
      cases this
    have hd : ∀ e ∈ d, e.1 ≠ k := by
      intro e he hek
      have := h2 e he
      rw [hek, Std.ReflCmp.compare_self (cmp := cmp)] at this
      cases this
    intro k' z
    rw [lastEntry_set (w := w) hb, ← hm]
    simp only [List.mem_append, List.mem_cons, Prod.mk.injEq]
    constructor
    · rintro (h | ⟨rfl, rfl⟩ | h)
      · exact .inr ⟨hc _ h, .inl h⟩
      · exact .inl ⟨rfl, rfl⟩
      · exact .inr ⟨hd _ h, .inr (.inr h)⟩
    · rintro (⟨rfl, rfl⟩ | ⟨hne, h | ⟨rfl, rfl⟩ | h⟩)
      · exact .inr (.inl ⟨rfl, rfl⟩)
      · exact .inl h
      · exact absurd rfl hne
      · exact .inr (.inr h)

/-! ### DER -/

/-- The octets are a value which the relation relates to `x`. -/
def DerDen (R : Bytes → Bytes → α → Prop) (b : Bytes) (x : α) : Prop := ∃ id c, IsId id ∧ c.length < 2 ^ 64 ∧ b = tlv id c ∧ R id c x

/-- No more than one value is related to the octets. -/
def OneD (T : Bytes → Bytes → α → Prop) : Prop := ∀ id c v v', T id c v → T id c v' → v = v'

theorem ty_oneD (o : HashOrder) {t : Ty α} (hd : t.deserializable) : OneD (t.derVal o.order) := fun id c v v' h h' => by
  have e := ((Ty.fromDer_iff .debug o t hd id c v).2 h).symm.trans ((Ty.fromDer_iff .debug o t hd id c v').2 h')
  exact Res.ok.inj e

theorem fields_oneD (o : HashOrder) {fs : Fields γ} (hd : fs.deserializable) {c : Bytes} {v v' : γ} (h : fs.derVal o.order c v) (h' : fs.derVal o.order c v') : v = v' :=
  ty_oneD o (t := .struct [0x30] fs) hd [0x30] c v v' ⟨rfl, h⟩ ⟨rfl, h'⟩

theorem der_prefix_free {id b x r r' : Bytes} (hid : IsId id) (hb : b.length < 2 ^ 64) (hx : IsDer x) (e : tlv id b ++ r = x ++ r') : x = tlv id b ∧ r = r' := by
  obtain ⟨id', c', h1, h2, rfl⟩ := hx
  obtain ⟨e1, e2⟩ := isBer_prefix_free (.definite id b hid hb) (.definite id' c' h1 h2) e
  exact ⟨e1.symm, e2⟩

theorem derDen_tlv {R : Bytes → Bytes → α → Prop} {id c : Bytes} {x : α} (hid : IsId id) (hc : c.length < 2 ^ 64) : DerDen R (tlv id c) x ↔ R id c x := by
  constructor
  · rintro ⟨id', c', h1, h2, e, h⟩
    obtain ⟨rfl, rfl⟩ := tlv_inj hid h1 hc h2 e
    exact h
  · exact fun h => ⟨id, c, hid, hc, rfl, h⟩

theorem derDen_isDer {R : Bytes → Bytes → α → Prop} {b : Bytes} {x : α} (h : DerDen R b x) : IsDer b := by
  obtain ⟨id, c, h1, h2, rfl, -⟩ := h
  exact ⟨id, c, h1, h2, rfl⟩

/-- What `onDer` does with the value that is reached by the first index. -/
def onD (k : Bytes → Res Bytes) : List Nat → Bytes → Res Bytes
  | [] => k
  | j :: p => inContents DerRef.disassemble (onDer k (j :: p))

theorem onDer_cons (k : Bytes → Res Bytes) (i : Nat) (path : List Nat) (c : Bytes) : onDer k (i :: path) c = atIndex DerRef.parseMut (onD k path) i c := by
  cases path <;> rw [onDer] <;> rfl

/-- A value denoting `y` is reached by a path of the place; with another one there, the whole denotes `put` of what that denotes, and nothing if that denotes nothing. -/
def ChangeD (R : Bytes → Bytes → β → Prop) (T : Bytes → Bytes → α → Prop) (y : β) (p : Place) (put : β → α) (b : Bytes) : Prop :=
  ∃ path b', ∃ F : Bytes → Bytes, p.Has path ∧ DerDen R b' y ∧ ReachD b path b' ∧
    ∀ k q, k b' = .ok q → q.length = b'.length → IsDer q →
      onD k path b = .ok (F q) ∧ (F q).length = b.length ∧ IsDer (F q) ∧ ∀ w, DerDen T (F q) w ↔ ∃ z, DerDen R q z ∧ w = put z

/-- The same in contents: the first index is `i`, and `S` tells something of the contents. -/
def ChangeDs (R : Bytes → Bytes → β → Prop) (S : Bytes → Prop) (T : Bytes → α → Prop) (y : β) (i : Nat) (p : Place) (put : β → α) (c : Bytes) : Prop :=
  ∃ path b' x, ∃ F : Bytes → Bytes, p.Has path ∧ DerDen R b' y ∧ nth DerRef.parse i c = .ok x ∧ ReachD x path b' ∧
    ∀ k q, k b' = .ok q → q.length = b'.length → IsDer q →
      onDer k (i :: path) c = .ok (F q) ∧ (F q).length = c.length ∧ S (F q) ∧ ∀ w, T (F q) w ↔ ∃ z, DerDen R q z ∧ w = put z

theorem ChangeDs.mono {δ : Type} {R : Bytes → Bytes → β → Prop} {S : Bytes → Prop} {T : Bytes → α → Prop} {T' : Bytes → δ → Prop} {i : Nat} {p : Place} {put : β → α}
    {c : Bytes} (g : α → δ) (h : ChangeDs R S T y i p put c) (hm : ∀ c', S c' → ∀ w, T' c' w ↔ ∃ v, T c' v ∧ w = g v) :
    ChangeDs R (fun _ => True) T' y i p (fun z => g (put z)) c := by
  obtain ⟨path, b', x, F, h1, h2, h3, h4, h5⟩ := h
  refine ⟨path, b', x, F, h1, h2, h3, h4, fun k q hk hq hz => ?_⟩
  obtain ⟨k1, k2, k3, k4⟩ := h5 k q hk hq hz
  refine ⟨k1, k2, trivial, fun w => ?_⟩
  rw [hm _ k3 w]
  constructor
  · rintro ⟨v, hv, rfl⟩
    obtain ⟨z, hz, rfl⟩ := (k4 v).1 hv
    exact ⟨z, hz, rfl⟩
  · rintro ⟨z, hz, rfl⟩
    exact ⟨_, (k4 _).2 ⟨z, hz, rfl⟩, rfl⟩

theorem ChangeD.mono {δ : Type} {R : Bytes → Bytes → β → Prop} {T : Bytes → Bytes → α → Prop} {T' : Bytes → Bytes → δ → Prop} {p : Place} {put : β → α} {b : Bytes} (g : α → δ)
    (h : ChangeD R T y p put b) (hm : ∀ id c w, T' id c w ↔ ∃ v, T id c v ∧ w = g v) : ChangeD R T' y p (fun z => g (put z)) b := by
  obtain ⟨path, b', F, h1, h2, h4, h5⟩ := h
  refine ⟨path, b', F, h1, h2, h4, fun k q hk hq hz => ?_⟩
  obtain ⟨k1, k2, k3, k4⟩ := h5 k q hk hq hz
  refine ⟨k1, k2, k3, fun w => ?_⟩
  constructor
  · rintro ⟨id, c, e1, e2, e3, e4⟩
    obtain ⟨v, hv, rfl⟩ := (hm _ _ _).1 e4
    obtain ⟨z, hz, rfl⟩ := (k4 v).1 ⟨id, c, e1, e2, e3, hv⟩
    exact ⟨z, hz, rfl⟩
  · rintro ⟨z, hz, rfl⟩
    obtain ⟨id, c, e1, e2, e3, e4⟩ := (k4 _).2 ⟨z, hz, rfl⟩
    exact ⟨id, c, e1, e2, e3, (hm _ _ _).2 ⟨_, e4, rfl⟩⟩

theorem ChangeD.here {R : Bytes → Bytes → β → Prop} {b : Bytes} (h : DerDen R b y) : ChangeD R R y [] (fun z => z) b :=
  ⟨[], b, fun q => q, .nil, h, .here _, fun _ _ hk hq hz => ⟨hk, hq, hz, fun w => ⟨fun h => ⟨w, h, rfl⟩, fun ⟨_, h, e⟩ => e ▸ h⟩⟩⟩

/-- From the contents to the value. -/
theorem ChangeDs.value {R : Bytes → Bytes → β → Prop} {S : Bytes → Prop} {T : Bytes → α → Prop} {T' : Bytes → Bytes → α → Prop} {i : Nat} {o : Option Nat} {p : Place}
    {put : β → α} {id c : Bytes} (hid : IsId id) (hc : c.length < 2 ^ 64) (h : ChangeDs R S T y i p put c) (ho : ∀ k, o = some k → i = k)
    (hT : ∀ c' v, T' id c' v ↔ T c' v) : ChangeD R T' y (o :: p) put (tlv id c) := by
  obtain ⟨path, b', x, F, h1, h2, h3, h4, h5⟩ := h
  refine ⟨i :: path, b', fun q => tlv id (F q), .cons ho h1, h2, .step hid hc h3 h4, fun k q hk hq hz => ?_⟩
  obtain ⟨k1, k2, -, k3⟩ := h5 k q hk hq hz
  have hc' : (F q).length < 2 ^ 64 := by omega
  refine ⟨?_, by rw [tlv_length, tlv_length, k2], ⟨id, F q, hid, hc', rfl⟩, fun w => by rw [derDen_tlv hid hc', hT, k3]⟩
  have hdis : DerRef.disassemble (tlv id c) = _ := disassemble_tlv hid hc
  have ht : (tlv id c).take ((tlv id c).length - c.length) = id ++ lenOctets c.length := by
    rw [tlv, List.length_append, Nat.add_sub_cancel, List.take_left' rfl]
  simp only [onD, inContents, hdis, Res.bind_ok, List.take_length, k1, List.drop_length, List.append_nil, ht]
  rw [tlv, k2]; rfl

/-- The first value of the contents. -/
theorem ChangeD.first {R : Bytes → Bytes → β → Prop} {T : Bytes → Bytes → α → Prop} {p : Place} {put : β → α} {id b : Bytes} (hid : IsId id) (hb : b.length < 2 ^ 64)
    (h : ChangeD R T y p put (tlv id b)) (c : Bytes) :
    ChangeDs R (fun c' => ∃ x, c' = x ++ c ∧ IsDer x) (fun c' v => ∃ x, c' = x ++ c ∧ DerDen T x v) y 0 p put (tlv id b ++ c) := by
  obtain ⟨path, b', F, h1, h2, h4, h5⟩ := h
  refine ⟨path, b', tlv id b, fun q => F q ++ c, h1, h2, nth_der_zero c hid hb, h4, fun k q hk hq hz => ?_⟩
  obtain ⟨k1, k2, k3, k4⟩ := h5 k q hk hq hz
  refine ⟨?_, by rw [List.length_append, List.length_append, k2], ⟨_, rfl, k3⟩, fun w => ?_⟩
  · rw [onDer_cons]
    exact atIndex_zero ((C19_der_parse_mut_iff _ _ _).2 ⟨⟨id, b, hid, hb, rfl⟩, rfl⟩) k1
  · rw [← k4]
    constructor
    · rintro ⟨x, e, hx⟩
      rw [List.append_cancel_right e]
      exact hx
    · exact fun hx => ⟨_, rfl, hx⟩

/-- One of the others. -/
theorem ChangeDs.later {R : Bytes → Bytes → β → Prop} {S : Bytes → Prop} {T : Bytes → α → Prop} {i : Nat} {p : Place} {put : β → α} {id b c : Bytes} (hid : IsId id)
    (hb : b.length < 2 ^ 64) (h : ChangeDs R S T y i p put c) :
    ChangeDs R (fun c' => ∃ c'', c' = tlv id b ++ c'' ∧ S c'') (fun c' v => ∃ c'', c' = tlv id b ++ c'' ∧ T c'' v) y (i + 1) p put (tlv id b ++ c) := by
  obtain ⟨path, b', x, F, h1, h2, h3, h4, h5⟩ := h
  refine ⟨path, b', x, fun q => tlv id b ++ F q, h1, h2, by rw [nth_der_succ c _ hid hb]; exact h3, h4, fun k q hk hq hz => ?_⟩
  obtain ⟨k1, k2, k3, k4⟩ := h5 k q hk hq hz
  refine ⟨?_, by rw [List.length_append, List.length_append, k2], ⟨_, rfl, k3⟩, fun w => ?_⟩
  · rw [onDer_cons] at k1 ⊢
    exact atIndex_succ ((C19_der_parse_mut_iff _ _ _).2 ⟨⟨id, b, hid, hb, rfl⟩, rfl⟩) k1
  · rw [← k4]
    constructor
    · rintro ⟨x, e, hx⟩
      rw [List.append_cancel_left e]
      exact hx
    · exact fun hx => ⟨_, rfl, hx⟩

theorem derElems_cons_iff {T : Bytes → Bytes → α → Prop} {x c : Bytes} {w : List α} (hx : IsDer x) :
    DerElems T (x ++ c) w ↔ ∃ v vs, w = v :: vs ∧ DerDen T x v ∧ DerElems T c vs := by
  constructor
  · intro h
    generalize e : x ++ c = c' at h
    cases h with
    | nil =>
      obtain ⟨id, b, h1, -, rfl⟩ := hx
      have := congrArg List.length e
      have := isId_length_pos h1
      simp only [List.length_append, tlv_length, List.length_nil] at *
      omega
    | cons id b c1 v vs h1 h2 h3 h4 =>
      obtain ⟨rfl, rfl⟩ := der_prefix_free h1 h2 hx e.symm
      exact ⟨v, vs, rfl, ⟨id, b, h1, h2, rfl, h3⟩, h4⟩
  · rintro ⟨v, vs, rfl, ⟨id, b, h1, h2, rfl, h3⟩, h4⟩
    exact .cons id b c v vs h1 h2 h3 h4

theorem derElems_one {T : Bytes → Bytes → α → Prop} (hT : OneD T) {c : Bytes} {l l' : List α} (h : DerElems T c l) : DerElems T c l' → l' = l := by
  induction h generalizing l' with
  | nil =>
    intro h
    generalize e : ([] : Bytes) = c' at h
    cases h with
    | nil => rfl
    | cons id b c v vs h1 =>
      have := congrArg List.length e
      have := isId_length_pos h1
      simp only [List.length_append, tlv_length, List.length_nil] at *
      omega
  | cons id b c x xs h1 h2 h3 _ ih =>
    intro h
    obtain ⟨v, vs, rfl, hv, hvs⟩ := (derElems_cons_iff ⟨id, b, h1, h2, rfl⟩).1 h
    rw [ih hvs, hT _ _ _ _ ((derDen_tlv h1 h2).1 hv) h3]

theorem derElems_change {R : Bytes → Bytes → β → Prop} {T : Bytes → Bytes → α → Prop} (hT : OneD T) {p : Place} {put : β → α} {c : Bytes} {l : List α} (h : DerElems T c l) :
    ∀ {i : Nat} {x : α}, l[i]? = some x → (∀ id b, IsId id → b.length < 2 ^ 64 → T id b x → ChangeD R T y p put (tlv id b)) →
      ChangeDs R (fun _ => True) (DerElems T) y i p (fun z => l.set i (put z)) c := by
  induction h with
  | nil => intro i x hx; simp at hx
  | cons id b c z zs hid hb hr hs ih =>
    intro i x hx hch
    cases i with
    | zero =>
      obtain rfl := Option.some.inj hx
      refine ((hch id b hid hb hr).first hid hb c).mono (fun v => v :: zs) ?_
      rintro c' ⟨q, rfl, hq⟩ w
      rw [derElems_cons_iff hq]
      constructor
      · rintro ⟨v, vs, rfl, h1, h2⟩
        obtain rfl := derElems_one hT hs h2
        exact ⟨v, ⟨q, rfl, h1⟩, rfl⟩
      · rintro ⟨v, ⟨q', e, h1⟩, rfl⟩
        rw [← List.append_cancel_right e] at h1
        exact ⟨v, zs, rfl, h1, hs⟩
    | succ i =>
      refine ((ih (show zs[i]? = some x by simpa using hx) hch).later hid hb).mono (fun v => z :: v) ?_
      rintro c' ⟨c'', rfl, -⟩ w
      rw [derElems_cons_iff ⟨id, b, hid, hb, rfl⟩]
      constructor
      · rintro ⟨v, vs, rfl, h1, h2⟩
        obtain rfl := hT _ _ _ _ ((derDen_tlv hid hb).1 h1) hr
        exact ⟨vs, ⟨c'', rfl, h2⟩, rfl⟩
      · rintro ⟨v, ⟨q', e, h1⟩, rfl⟩
        rw [← List.append_cancel_left e] at h1
        exact ⟨z, v, rfl, ⟨id, b, hid, hb, rfl, hr⟩, h1⟩

theorem derPair_one {K : Bytes → Bytes → α → Prop} {V : Bytes → Bytes → γ → Prop} (hK : OneD K) (hV : OneD V) : OneD (DerPair K V) := by
  rintro id c v v' ⟨ik, ck, iv, cv, k, w, h1, h2, h3, h4, h5, h6⟩ h
  generalize e : tlv ik ck ++ tlv iv cv = c' at h
  cases h with
  | mk ik' ck' iv' cv' k' w' h1' h2' h3' h4' h5' h6' =>
    obtain ⟨e1, e2⟩ := der_prefix_free h1' h2' ⟨ik, ck, h1, h2, rfl⟩ e.symm
    obtain ⟨rfl, rfl⟩ := tlv_inj h1 h1' h2 h2' e1
    obtain ⟨rfl, rfl⟩ := tlv_inj h4' h4 h5' h5 e2
    rw [hK _ _ _ _ h3 h3', hV _ _ _ _ h6 h6']

/-- The value of an entry. -/
theorem derPair_change {R : Bytes → Bytes → β → Prop} {K : Bytes → Bytes → α → Prop} {V : Bytes → Bytes → γ → Prop} (hK : OneD K) {p : Place} {put : β → γ} {id c : Bytes}
    {x : α × γ} (hid : IsId id) (hc : c.length < 2 ^ 64) (h : DerPair K V id c x)
    (hch : ∀ id b, IsId id → b.length < 2 ^ 64 → V id b x.2 → ChangeD R V y p put (tlv id b)) :
    ChangeD R (DerPair K V) y (some 1 :: p) (fun z => (x.1, put z)) (tlv id c) := by
  cases h with
  | mk ik ck iv cv k v h1 h2 h3 h4 h5 h6 =>
    have hx := ((hch iv cv h4 h5 h6).first h4 h5 []).later h1 h2
    rw [List.append_nil] at hx
    refine (hx.mono (T' := fun c' v => DerPair K V [0x30] c' v) (fun v => (k, v)) ?_).value hid hc (fun _ h => Option.some.inj h) (fun _ _ => Iff.rfl)
    rintro c' ⟨c'', rfl, q, rfl, hq⟩ w
    constructor
    · intro h
      generalize e : tlv ik ck ++ (q ++ []) = c' at h
      cases h with
      | mk ik' ck' iv' cv' k' w' h1' h2' h3' h4' h5' h6' =>
        obtain ⟨e1, e2⟩ := der_prefix_free h1' h2' ⟨ik, ck, h1, h2, rfl⟩ e.symm
        obtain ⟨rfl, rfl⟩ := tlv_inj h1 h1' h2 h2' e1
        rw [hK _ _ _ _ h3' h3]
        rw [List.append_nil] at e2
        exact ⟨w', ⟨_, rfl, q, by rw [e2, List.append_nil], iv', cv', h4', h5', e2.symm, h6'⟩, rfl⟩
    · rintro ⟨v', ⟨c1, e1, q', e2, id', b', k1, k2, e3, k3⟩, rfl⟩
      rw [e1, e2, e3, List.append_nil]
      exact .mk ik ck id' b' k _ h1 h2 h3 k1 k2 k3

/-- The first of the fields. -/
theorem first_field (o : HashOrder) {δ : Type} {R : Bytes → Bytes → β → Prop} {T : Bytes → Bytes → δ → Prop} {r : Fields γ} (hd : r.deserializable) {p : Place} {put : β → δ}
    {v : δ × γ} {id b c' : Bytes} (h1 : IsId id) (h2 : b.length < 2 ^ 64) (h4 : r.derVal o.order c' v.2) (h : ChangeD R T y p put (tlv id b)) :
    ChangeDs R (fun _ => True) (fun c w => ∃ id b c', IsId id ∧ b.length < 2 ^ 64 ∧ c = tlv id b ++ c' ∧ T id b w.1 ∧ r.derVal o.order c' w.2) y 0 p
      (fun z => (put z, v.2)) (tlv id b ++ c') := by
  refine (h.first h1 h2 c').mono (fun x => (x, v.2)) ?_
  rintro c'' ⟨q, rfl, hq⟩ w
  constructor
  · rintro ⟨id', b', c1, k1, k2, e, k3, k4⟩
    obtain ⟨e1, e2⟩ := der_prefix_free k1 k2 hq e.symm
    rw [e2] at k4
    rw [e1]
    exact ⟨w.1, ⟨_, rfl, id', b', k1, k2, rfl, k3⟩, Prod.ext rfl (fields_oneD o hd k4 h4)⟩
  · rintro ⟨x, ⟨q', e, id', b', k1, k2, rfl, k3⟩, rfl⟩
    exact ⟨id', b', c', k1, k2, e, k3, h4⟩

/-- One of the other fields. -/
theorem later_field (o : HashOrder) {δ : Type} {R : Bytes → Bytes → β → Prop} {T : Bytes → Bytes → δ → Prop} (hT : OneD T) {r : Fields γ} {i : Nat} {p : Place} {put : β → γ}
    {v : δ × γ} {id b c' : Bytes} (h1 : IsId id) (h2 : b.length < 2 ^ 64) (h3 : T id b v.1) (h : ChangeDs R (fun _ => True) (r.derVal o.order) y i p put c') :
    ChangeDs R (fun _ => True) (fun c w => ∃ id b c', IsId id ∧ b.length < 2 ^ 64 ∧ c = tlv id b ++ c' ∧ T id b w.1 ∧ r.derVal o.order c' w.2) y (i + 1) p
      (fun z => (v.1, put z)) (tlv id b ++ c') := by
  refine (h.later h1 h2).mono (fun x => (v.1, x)) ?_
  rintro c'' ⟨q, rfl, -⟩ w
  constructor
  · rintro ⟨id', b', c1, k1, k2, e, k3, k4⟩
    obtain ⟨e1, e2⟩ := der_prefix_free k1 k2 ⟨id, b, h1, h2, rfl⟩ e.symm
    obtain ⟨rfl, rfl⟩ := tlv_inj h1 k1 h2 k2 e1
    rw [e2] at k4
    exact ⟨w.2, ⟨_, rfl, k4⟩, Prod.ext (hT _ _ _ _ k3 h3) rfl⟩
  · rintro ⟨x, ⟨q', e, k3⟩, rfl⟩
    exact ⟨id, b, q', h1, h2, e, h3, k3⟩

mutual
theorem Spec.Ty.Alter.der (o : HashOrder) : {α : Type} → {p : Place} → {t : Ty α} → {v : α} → {put : β → α} → Ty.Alter u y p t v put → t.deserializable →
    (id c : Bytes) → IsId id → c.length < 2 ^ 64 → t.derVal o.order id c v → ChangeD (u.derVal o.order) (t.derVal o.order) y p put (tlv id c)
  | _, _, _, _, _, .here, _, id, c, hid, hc, h => .here ⟨id, c, hid, hc, rfl, h⟩
  | _, _, _, _, _, .vec (t := t) hi hp, hd, id, c, hid, hc, h =>
    (derElems_change (ty_oneD o (t := t) hd) h.2 hi (fun id b h1 h2 h3 => hp.der o hd id b h1 h2 h3)).value hid hc (fun _ h => Option.some.inj h)
      (fun _ _ => ⟨fun hx => hx.2, fun hx => ⟨h.1, hx⟩⟩)
  | _, _, _, _, _, .linkedList (t := t) hi hp, hd, id, c, hid, hc, h =>
    (derElems_change (ty_oneD o (t := t) hd) h.2 hi (fun id b h1 h2 h3 => hp.der o hd id b h1 h2 h3)).value hid hc (fun _ h => Option.some.inj h)
      (fun _ _ => ⟨fun hx => hx.2, fun hx => ⟨h.1, hx⟩⟩)
  | _, _, _, _, _, .vecDeque (t := t) hi hp, hd, id, c, hid, hc, h =>
    (derElems_change (ty_oneD o (t := t) hd) h.2 hi (fun id b h1 h2 h3 => hp.der o hd id b h1 h2 h3)).value hid hc (fun _ h => Option.some.inj h)
      (fun _ _ => ⟨fun hx => hx.2, fun hx => ⟨h.1, hx⟩⟩)
  | _, _, _, _, _, .btreeValue (cmp := cmp) (k := k) (t := t) (l := l0) (i := i0) (x := x) (put := put) _hn hi hp, hd, id, c, hid, hc, h => by
    obtain ⟨hid', l, h, hs⟩ := h
    obtain ⟨j, hj, hset⟩ := mapOf_set hs hi
    have hpair : OneD (DerPair (k.derVal o.order) (t.derVal o.order)) := derPair_one (ty_oneD o hd.1) (ty_oneD o hd.2)
    have := derElems_change hpair h hj (fun id b h1 h2 h3 => derPair_change (ty_oneD o hd.1) h1 h2 h3 (fun id b h1 h2 h3 => hp.der o hd.2 id b h1 h2 h3))
    obtain ⟨path, b', x', F, k1, k2, k3, k4, k5⟩ := this
    refine ChangeDs.value (S := fun _ => True) (T := fun c' v => ∃ l, DerElems (DerPair (k.derVal o.order) (t.derVal o.order)) c' l ∧ MapOf cmp l v) hid hc
      ⟨path, b', x', F, k1, k2, k3, k4, fun f q hk hq hz => ?_⟩ (fun _ h => nomatch h) (fun _ _ => ⟨fun hx => hx.2, fun hx => ⟨hid', hx⟩⟩)
    obtain ⟨e1, e2, -, e3⟩ := k5 f q hk hq hz
    refine ⟨e1, e2, trivial, fun w => ?_⟩
    constructor
    · rintro ⟨l', hl', hw⟩
      obtain ⟨z, hz, rfl⟩ := (e3 l').1 hl'
      exact ⟨z, hz, mapOf_unique hw (hset _)⟩
    · rintro ⟨z, hz, rfl⟩
      exact ⟨_, (e3 _).2 ⟨z, hz, rfl⟩, hset _⟩
  | _, _, _, _, _, .struct hp, hd, id, c, hid, hc, h =>
    (hp.der o hd c h.2).value hid hc (fun _ h => Option.some.inj h) (fun _ _ => ⟨fun hx => hx.2, fun hx => ⟨h.1, hx⟩⟩)
  | _, _, _, _, _, .enum hp, hd, id, c, hid, hc, h => (hp.der o hd id c h).value hid hc (fun _ h => Option.some.inj h) (fun _ _ => Iff.rfl)
  | _, _, _, _, _, .transparent hp, hd, id, c, hid, hc, h => hp.der o hd.2 id c hid hc h
  | _, _, _, _, _, .named (f := f) (g := g) (h := h0) (h' := h') hp, hd, id, c, hid, hc, h =>
    (hp.der o hd id c hid hc h).mono g (fun _ _ w => ⟨fun hw => ⟨f w, hw, (h0 w).symm⟩, fun ⟨v, hv, e⟩ => by rw [e, Ty.derVal, h']; exact hv⟩)
theorem Spec.Fields.Alter.der (o : HashOrder) : {γ : Type} → {i : Nat} → {p : Place} → {fs : Fields γ} → {v : γ} → {put : β → γ} → Fields.Alter u y i p fs v put →
    fs.deserializable → (c : Bytes) → fs.derVal o.order c v → ChangeDs (u.derVal o.order) (fun _ => True) (fs.derVal o.order) y i p put c
  | _, _, _, _, _, _, .plain hp, hd, c, h => by
    obtain ⟨id, b, c', h1, h2, rfl, h3, h4⟩ := h
    exact first_field o hd.2 h1 h2 h4 (hp.der o hd.1 id b h1 h2 h3)
  | _, _, _, _, _, _, .skipSer hp, hd, c, h => by
    obtain ⟨id, b, c', h1, h2, rfl, h3, h4⟩ := h
    exact first_field o hd.2 h1 h2 h4 (hp.der o hd.1 id b h1 h2 h3)
  | _, _, _, _, _, _, .conv hp, hd, c, h => by
    obtain ⟨id, b, c', h1, h2, rfl, h3, h4⟩ := h
    exact first_field o hd.2 h1 h2 h4 (hp.der o hd.1 id b h1 h2 h3)
  | _, _, _, _, _, _, .afterPlain (t := t) hp, hd, c, h => by
    obtain ⟨id, b, c', h1, h2, rfl, h3, h4⟩ := h
    exact later_field o (ty_oneD o (t := t) hd.1) h1 h2 h3 (hp.der o hd.2 c' h4)
  | _, _, _, _, _, _, .afterSkipSer (t := t) hp, hd, c, h => by
    obtain ⟨id, b, c', h1, h2, rfl, h3, h4⟩ := h
    exact later_field o (ty_oneD o (t := t) hd.1) h1 h2 h3 (hp.der o hd.2 c' h4)
  | _, _, _, _, _, _, .afterConv (t := t) (f := f) (g := g) hp, hd, c, h => by
    obtain ⟨id, b, c', h1, h2, rfl, h3, h4⟩ := h
    exact later_field o (ty_oneD o (t := .conv t f g) hd.1) h1 h2 h3 (hp.der o hd.2 c' h4)
  | _, _, _, _, _, _, .afterSkip (v := v) hp, hd, c, h =>
    (hp.der o hd c h.2).mono (fun x => (v.1, x)) (fun _ _ w => ⟨fun hw => ⟨w.2, hw.2, Prod.ext (hw.1.trans h.1.symm) rfl⟩, fun ⟨_, hx, e⟩ => e ▸ ⟨h.1, hx⟩⟩)
  | _, _, _, _, _, _, .afterSkipDe (v := v) hp, hd, c, h =>
    (hp.der o hd c h.2).mono (fun x => (v.1, x)) (fun _ _ w => ⟨fun hw => ⟨w.2, hw.2, Prod.ext (hw.1.trans h.1.symm) rfl⟩, fun ⟨_, hx, e⟩ => e ▸ ⟨h.1, hx⟩⟩)
theorem Spec.Fields.AlterOne.der (o : HashOrder) : {γ : Type} → {p : Place} → {fs : Fields γ} → {v : γ} → {put : β → γ} → Fields.AlterOne u y p fs v put →
    fs.deserializable → (id c : Bytes) → IsId id → c.length < 2 ^ 64 → fs.derOne o.order id c v → ChangeD (u.derVal o.order) (fs.derOne o.order) y p put (tlv id c)
  | _, _, _, _, _, .plain (v := v) hn hp, hd, id, c, hid, hc, h => (hp.der o hd.1 id c hid hc h.1).mono (fun x => (x, v.2)) (fun _ _ w =>
      ⟨fun hw => ⟨w.1, hw.1, Prod.ext rfl ((deCount_zero_derOne _ _ hn _ _ _ _ _ _ h.2).1 hw.2)⟩,
        fun ⟨_, hx, e⟩ => e ▸ ⟨hx, (deCount_zero_derOne _ _ hn _ _ _ _ _ _ h.2).2 rfl⟩⟩)
  | _, _, _, _, _, .skipSer (v := v) hn hp, hd, id, c, hid, hc, h => (hp.der o hd.1 id c hid hc h.1).mono (fun x => (x, v.2)) (fun _ _ w =>
      ⟨fun hw => ⟨w.1, hw.1, Prod.ext rfl ((deCount_zero_derOne _ _ hn _ _ _ _ _ _ h.2).1 hw.2)⟩,
        fun ⟨_, hx, e⟩ => e ▸ ⟨hx, (deCount_zero_derOne _ _ hn _ _ _ _ _ _ h.2).2 rfl⟩⟩)
  | _, _, _, _, _, .conv (v := v) hn hp, hd, id, c, hid, hc, h => (hp.der o hd.1 id c hid hc h.1).mono (fun x => (x, v.2)) (fun _ _ w =>
      ⟨fun hw => ⟨w.1, hw.1, Prod.ext rfl ((deCount_zero_derOne _ _ hn _ _ _ _ _ _ h.2).1 hw.2)⟩,
        fun ⟨_, hx, e⟩ => e ▸ ⟨hx, (deCount_zero_derOne _ _ hn _ _ _ _ _ _ h.2).2 rfl⟩⟩)
  | _, _, _, _, _, .afterSkip (v := v) hp, hd, id, c, hid, hc, h =>
    (hp.der o hd id c hid hc h.2).mono (fun x => (v.1, x)) (fun _ _ w => ⟨fun hw => ⟨w.2, hw.2, Prod.ext (hw.1.trans h.1.symm) rfl⟩, fun ⟨_, hx, e⟩ => e ▸ ⟨h.1, hx⟩⟩)
  | _, _, _, _, _, .afterSkipDe (v := v) hp, hd, id, c, hid, hc, h =>
    (hp.der o hd id c hid hc h.2).mono (fun x => (v.1, x)) (fun _ _ w => ⟨fun hw => ⟨w.2, hw.2, Prod.ext (hw.1.trans h.1.symm) rfl⟩, fun ⟨_, hx, e⟩ => e ▸ ⟨h.1, hx⟩⟩)
theorem Spec.Variants.Alter.der (o : HashOrder) : {ρ : Type} → {i : Nat} → {p : Place} → {vs : Variants ρ} → {v : ρ} → {put : β → ρ} → Variants.Alter u y i p vs v put →
    vs.deserializable → (id c : Bytes) → vs.derVal o.order id c v → ChangeDs (u.derVal o.order) (fun _ => True) (vs.derVal o.order id) y i p put c
  | _, _, _, _, _, _, .this hp, hd, _, c, h => (hp.der o hd.1 c h.2).mono Sum.inl (fun _ _ w => by
      cases w with
      | inl w => exact ⟨fun hw => ⟨w, hw.2, rfl⟩, fun ⟨_, hx, e⟩ => by cases e; exact ⟨h.1, hx⟩⟩
      | inr w => exact ⟨fun hw => absurd h.1 hw.1, fun ⟨_, _, e⟩ => by cases e⟩)
  | _, _, _, _, _, _, .other hp, hd, id, c, h => (hp.der o hd.2 id c h.2).mono Sum.inr (fun _ _ w => by
      cases w with
      | inl w => exact ⟨fun hw => absurd hw.1 h.1, fun ⟨_, _, e⟩ => by cases e⟩
      | inr w => exact ⟨fun hw => ⟨w, hw.2, rfl⟩, fun ⟨_, hx, e⟩ => by cases e; exact ⟨h.1, hx⟩⟩)
end

/-! ### BER -/

/-- The octets are a value which the relation relates to `x`. -/
def BerDen (R : Bytes → Bool → Bytes → α → Prop) (b : Bytes) (x : α) : Prop := ∃ id d raw, BerValue b id d raw ∧ R id d raw x

/-- No more than one value is related to the octets. -/
def OneB (T : Bytes → Bool → Bytes → α → Prop) : Prop := ∀ id d raw v v', raw.length ≤ isizeMax → T id d raw v → T id d raw v' → v = v'

theorem ty_oneB (m : Build) (o : HashOrder) {t : Ty α} (hd : t.deserializable) : OneB (t.berVal (decide (m = .release)) o.order) := fun id d c v v' hl h h' => by
  have hi := isizeMax_eq
  have e := ((Ty.fromBer_iff m o t hd id d c v (by omega)).2 h).symm.trans ((Ty.fromBer_iff m o t hd id d c v' (by omega)).2 h')
  exact Res.ok.inj e

theorem fields_oneB (m : Build) (o : HashOrder) {fs : Fields γ} (hd : fs.deserializable) {c : Bytes} {v v' : γ} (hl : c.length ≤ isizeMax)
    (h : fs.berVal (decide (m = .release)) o.order c v) (h' : fs.berVal (decide (m = .release)) o.order c v') : v = v' :=
  ty_oneB m o (t := .struct [0x30] fs) hd [0x30] false c v v' hl ⟨rfl, c, rfl, h⟩ ⟨rfl, c, rfl, h'⟩

theorem berDen_value {R : Bytes → Bool → Bytes → α → Prop} {b id raw : Bytes} {d : Bool} {x : α} (hv : BerValue b id d raw) : BerDen R b x ↔ R id d raw x := by
  constructor
  · rintro ⟨id', d', raw', h1, h⟩
    obtain ⟨rfl, rfl, rfl⟩ := berValue_unique hv h1
    exact h
  · exact fun h => ⟨id, d, raw, hv, h⟩

/-- What `onBer` does with the value that is reached by the first index. -/
def onB (k : Bytes → Res Bytes) : List Nat → Bytes → Res Bytes
  | [] => k
  | j :: p => inContents BerRef.disassemble (onBer k (j :: p))

theorem onBer_cons (k : Bytes → Res Bytes) (i : Nat) (path : List Nat) (c : Bytes) : onBer k (i :: path) c = atIndex BerRef.parseMut (onB k path) i c := by
  cases path <;> rw [onBer] <;> rfl

/-- The same as `ChangeD`; the value does not become an end-of-contents. -/
def ChangeB (R : Bytes → Bool → Bytes → β → Prop) (T : Bytes → Bool → Bytes → α → Prop) (y : β) (p : Place) (put : β → α) (b : Bytes) : Prop :=
  ∃ path b', ∃ F : Bytes → Bytes, p.Has path ∧ BerDen R b' y ∧ b'.length ≤ isizeMax ∧ ReachB b path b' ∧
    ∀ k q, k b' = .ok q → q.length = b'.length → IsBer q → (q = eoc → b' = eoc) →
      onB k path b = .ok (F q) ∧ (F q).length = b.length ∧ IsBer (F q) ∧ (F q = eoc → b = eoc) ∧ ∀ w, BerDen T (F q) w ↔ ∃ z, BerDen R q z ∧ w = put z

/-- The same in contents: the first index is `i`, and `S` tells something of the contents. -/
def ChangeBs (R : Bytes → Bool → Bytes → β → Prop) (S : Bytes → Prop) (T : Bytes → α → Prop) (y : β) (i : Nat) (p : Place) (put : β → α) (c : Bytes) : Prop :=
  ∃ path b' x, ∃ F : Bytes → Bytes, p.Has path ∧ BerDen R b' y ∧ b'.length ≤ isizeMax ∧ nth BerRef.parse i c = .ok x ∧ ReachB x path b' ∧ 0 < c.length ∧
    ∀ k q, k b' = .ok q → q.length = b'.length → IsBer q → (q = eoc → b' = eoc) →
      onBer k (i :: path) c = .ok (F q) ∧ (F q).length = c.length ∧ (BerSeq c → BerSeq (F q)) ∧ S (F q) ∧ ∀ w, T (F q) w ↔ ∃ z, BerDen R q z ∧ w = put z

theorem ChangeBs.mono {δ : Type} {R : Bytes → Bool → Bytes → β → Prop} {S : Bytes → Prop} {T : Bytes → α → Prop} {T' : Bytes → δ → Prop} {i : Nat} {p : Place} {put : β → α}
    {c : Bytes} (g : α → δ) (h : ChangeBs R S T y i p put c) (hm : ∀ c', c'.length = c.length → S c' → ∀ w, T' c' w ↔ ∃ v, T c' v ∧ w = g v) :
    ChangeBs R (fun _ => True) T' y i p (fun z => g (put z)) c := by
  obtain ⟨path, b', x, F, h1, h2, h2', h3, h4, h6, h5⟩ := h
  refine ⟨path, b', x, F, h1, h2, h2', h3, h4, h6, fun k q hk hq hz he => ?_⟩
  obtain ⟨k1, k2, k5, k3, k4⟩ := h5 k q hk hq hz he
  refine ⟨k1, k2, k5, trivial, fun w => ?_⟩
  rw [hm _ k2 k3 w]
  constructor
  · rintro ⟨v, hv, rfl⟩
    obtain ⟨z, hz, rfl⟩ := (k4 v).1 hv
    exact ⟨z, hz, rfl⟩
  · rintro ⟨z, hz, rfl⟩
    exact ⟨_, (k4 _).2 ⟨z, hz, rfl⟩, rfl⟩

theorem ChangeB.mono {δ : Type} {R : Bytes → Bool → Bytes → β → Prop} {T : Bytes → Bool → Bytes → α → Prop} {T' : Bytes → Bool → Bytes → δ → Prop} {p : Place} {put : β → α}
    {b : Bytes} (g : α → δ) (h : ChangeB R T y p put b) (hm : ∀ id d c w, T' id d c w ↔ ∃ v, T id d c v ∧ w = g v) : ChangeB R T' y p (fun z => g (put z)) b := by
  obtain ⟨path, b', F, h1, h2, h3, h4, h5⟩ := h
  refine ⟨path, b', F, h1, h2, h3, h4, fun k q hk hq hz he => ?_⟩
  obtain ⟨k1, k2, k3, k5, k4⟩ := h5 k q hk hq hz he
  refine ⟨k1, k2, k3, k5, fun w => ?_⟩
  constructor
  · rintro ⟨id, d, c, e1, e4⟩
    obtain ⟨v, hv, rfl⟩ := (hm _ _ _ _).1 e4
    obtain ⟨z, hz, rfl⟩ := (k4 v).1 ⟨id, d, c, e1, hv⟩
    exact ⟨z, hz, rfl⟩
  · rintro ⟨z, hz, rfl⟩
    obtain ⟨id, d, c, e1, e4⟩ := (k4 _).2 ⟨z, hz, rfl⟩
    exact ⟨id, d, c, e1, (hm _ _ _ _).2 ⟨_, e4, rfl⟩⟩

theorem ChangeB.here {R : Bytes → Bool → Bytes → β → Prop} {b : Bytes} (h : BerDen R b y) (hl : b.length ≤ isizeMax) : ChangeB R R y [] (fun z => z) b :=
  ⟨[], b, fun q => q, .nil, h, hl, .here _, fun _ _ hk hq hz he => ⟨hk, hq, hz, he, fun w => ⟨fun h => ⟨w, h, rfl⟩, fun ⟨_, h, e⟩ => e ▸ h⟩⟩⟩

/-- From the contents to the value. -/
theorem ChangeBs.value {R : Bytes → Bool → Bytes → β → Prop} {S : Bytes → Prop} {T : Bytes → α → Prop} {T' : Bytes → Bool → Bytes → α → Prop} {i : Nat} {o : Option Nat}
    {p : Place} {put : β → α} {b id raw c : Bytes} {d : Bool} (hv : BerValue b id d raw) (hb : IsBody d raw c) (h : ChangeBs R S T y i p put c) (ho : ∀ k, o = some k → i = k)
    (hT : ∀ raw' c' v, IsBody d raw' c' → (T' id d raw' v ↔ T c' v)) : ChangeB R T' y (o :: p) put b := by
  obtain ⟨path, b', x, F, h1, h2, h2', h3, h4, h6, h5⟩ := h
  cases d with
  | false =>
    obtain rfl := show raw = c from hb
    obtain ⟨hid, hc, rfl⟩ := hv
    refine ⟨i :: path, b', fun q => tlv id (F q), .cons ho h1, h2, h2', .step (show BerValue (tlv id raw) id false raw from ⟨hid, hc, rfl⟩) hb h3 h4, fun k q hk hq hz he => ?_⟩
    obtain ⟨k1, k2, -, -, k3⟩ := h5 k q hk hq hz he
    have hv' : BerValue (tlv id (F q)) id false (F q) := ⟨hid, by omega, rfl⟩
    refine ⟨?_, by rw [tlv_length, tlv_length, k2], berValue_isBer hv', fun e => ?_, fun w => by rw [berDen_value hv', hT _ _ _ rfl, k3]⟩
    · have hdis : BerRef.disassemble (tlv id raw) = _ := disassemble_tlv hid hc
      have ht : (tlv id raw).take ((tlv id raw).length - raw.length) = id ++ lenOctets raw.length := by
        rw [tlv, List.length_append, Nat.add_sub_cancel, List.take_left' rfl]
      simp only [onB, inContents, hdis, Res.bind_ok, List.take_length, k1, List.drop_length, List.append_nil, ht]
      rw [tlv, k2]; rfl
    · exfalso
      have e' := congrArg List.length e
      have := berValue_length hv'
      simp only [eoc, List.length_cons, List.length_nil] at e'
      omega
  | true =>
    obtain rfl := show raw = c ++ eoc from hb
    have hvv := hv
    obtain ⟨hid, c0, hs, hc0, rfl⟩ := hv
    obtain rfl := List.append_cancel_right hc0
    refine ⟨i :: path, b', fun q => id ++ indefOctets ++ (F q ++ eoc), .cons ho h1, h2, h2', .step hvv hb h3 h4, fun k q hk hq hz he => ?_⟩
    obtain ⟨k1, k2, k4, -, k3⟩ := h5 k q hk hq hz he
    have hv' : BerValue (id ++ indefOctets ++ (F q ++ eoc)) id true (F q ++ eoc) := ⟨hid, F q, k4 hs, rfl, rfl⟩
    refine ⟨?_, by simp only [List.length_append, k2], berValue_isBer hv', fun e => ?_, fun w => by rw [berDen_value hv', hT _ _ _ rfl, k3]⟩
    · have hdis := berValue_disassemble hvv
      have hn : (c ++ eoc).length - BerRef.eoc.length = c.length := by simp [eoc, BerRef.eoc]
      have ht : (id ++ indefOctets ++ (c ++ eoc)).take ((id ++ indefOctets ++ (c ++ eoc)).length - (c ++ eoc).length) = id ++ indefOctets := by
        rw [List.length_append, Nat.add_sub_cancel, List.take_left' rfl]
      simp only [onB, inContents, hdis, lenOf, Res.bind_ok, hn, List.take_left' rfl, List.drop_left' rfl, k1, ht]
      simp only [List.append_assoc]; rfl
    · exfalso
      have e' := congrArg List.length e
      have := isId_length_pos hid
      simp only [eoc, indefOctets, List.length_append, List.length_cons, List.length_nil] at e'
      omega

theorem berSeq_cons_iff {b c : Bytes} (hb : IsBer b) : BerSeq (b ++ c) ↔ b ≠ eoc ∧ BerSeq c := by
  constructor
  · intro h
    generalize e : b ++ c = c' at h
    cases h with
    | nil =>
      obtain ⟨id, d, raw, hv⟩ := isBer_berValue hb
      have := congrArg List.length e
      have := berValue_length hv
      simp only [List.length_append, List.length_nil] at *
      omega
    | cons w r hw hne hs =>
      obtain ⟨rfl, rfl⟩ := isBer_prefix_free hb hw e
      exact ⟨hne, hs⟩
  · exact fun h => .cons b c hb h.1 h.2

/-- The first value of the contents. -/
theorem ChangeB.first {R : Bytes → Bool → Bytes → β → Prop} {T : Bytes → Bool → Bytes → α → Prop} {p : Place} {put : β → α} {b id raw : Bytes} {d : Bool}
    (hv : BerValue b id d raw) (c : Bytes) (hl : (b ++ c).length ≤ isizeMax) (h : ChangeB R T y p put b) :
    ChangeBs R (fun c' => ∃ x, c' = x ++ c ∧ IsBer x) (fun c' v => ∃ x, c' = x ++ c ∧ BerDen T x v) y 0 p put (b ++ c) := by
  obtain ⟨path, b', F, h1, h2, h2', h4, h5⟩ := h
  have hb := berValue_isBer hv
  have hlen := berValue_length hv
  refine ⟨path, b', b, fun q => F q ++ c, h1, h2, h2', nth_ber_zero c hv hl, h4, by rw [List.length_append]; omega, fun k q hk hq hz he => ?_⟩
  obtain ⟨k1, k2, k3, k5, k4⟩ := h5 k q hk hq hz he
  refine ⟨?_, by rw [List.length_append, List.length_append, k2], ?_, ⟨_, rfl, k3⟩, fun w => ?_⟩
  · rw [onBer_cons]
    exact atIndex_zero ((C29_ber_parse_mut_iff _ _ _ hl).2 ⟨hb, rfl⟩) k1
  · rw [berSeq_cons_iff hb, berSeq_cons_iff k3]
    exact fun h => ⟨fun e => h.1 (k5 e), h.2⟩
  · rw [← k4]
    constructor
    · rintro ⟨x, e, hx⟩
      rw [List.append_cancel_right e]
      exact hx
    · exact fun hx => ⟨_, rfl, hx⟩

/-- One of the others. -/
theorem ChangeBs.later {R : Bytes → Bool → Bytes → β → Prop} {S : Bytes → Prop} {T : Bytes → α → Prop} {i : Nat} {p : Place} {put : β → α} {b id raw c : Bytes} {d : Bool}
    (hv : BerValue b id d raw) (hl : (b ++ c).length ≤ isizeMax) (h : ChangeBs R S T y i p put c) :
    ChangeBs R (fun c' => ∃ c'', c' = b ++ c'' ∧ S c'') (fun c' v => ∃ c'', c' = b ++ c'' ∧ T c'' v) y (i + 1) p put (b ++ c) := by
  obtain ⟨path, b', x, F, h1, h2, h2', h3, h4, h6, h5⟩ := h
  have hb := berValue_isBer hv
  refine ⟨path, b', x, fun q => b ++ F q, h1, h2, h2', by rw [nth_ber_succ c _ hv hl]; exact h3, h4, by rw [List.length_append]; omega, fun k q hk hq hz he => ?_⟩
  obtain ⟨k1, k2, k5, k3, k4⟩ := h5 k q hk hq hz he
  refine ⟨?_, by rw [List.length_append, List.length_append, k2], ?_, ⟨_, rfl, k3⟩, fun w => ?_⟩
  · rw [onBer_cons] at k1 ⊢
    exact atIndex_succ ((C29_ber_parse_mut_iff _ _ _ hl).2 ⟨hb, rfl⟩) k1
  · rw [berSeq_cons_iff hb, berSeq_cons_iff hb]
    exact fun h => ⟨h.1, k5 h.2⟩
  · rw [← k4]
    constructor
    · rintro ⟨x, e, hx⟩
      rw [List.append_cancel_left e]
      exact hx
    · exact fun hx => ⟨_, rfl, hx⟩

theorem berElems_cons_iff {T : Bytes → Bool → Bytes → α → Prop} {x c : Bytes} {w : List α} (hx : IsBer x) :
    BerElems T (x ++ c) w ↔ ∃ v vs, w = v :: vs ∧ BerDen T x v ∧ BerElems T c vs := by
  constructor
  · intro h
    generalize e : x ++ c = c' at h
    cases h with
    | nil =>
      obtain ⟨id, d, raw, hv⟩ := isBer_berValue hx
      have := congrArg List.length e
      have := berValue_length hv
      simp only [List.length_append, List.length_nil] at *
      omega
    | cons b id d raw c1 v vs h1 h3 h4 =>
      obtain ⟨rfl, rfl⟩ := isBer_prefix_free hx (berValue_isBer h1) e
      exact ⟨v, vs, rfl, ⟨id, d, raw, h1, h3⟩, h4⟩
  · rintro ⟨v, vs, rfl, ⟨id, d, raw, h1, h3⟩, h4⟩
    exact .cons x id d raw c v vs h1 h3 h4

theorem berElems_one {T : Bytes → Bool → Bytes → α → Prop} (hT : OneB T) {c : Bytes} {l l' : List α} (h : BerElems T c l) : c.length ≤ isizeMax → BerElems T c l' → l' = l := by
  induction h generalizing l' with
  | nil =>
    intro _ h
    generalize e : ([] : Bytes) = c' at h
    cases h with
    | nil => rfl
    | cons b id d raw c v vs h1 =>
      have := congrArg List.length e
      have := berValue_length h1
      simp only [List.length_append, List.length_nil] at *
      omega
  | cons b id d raw c x xs h1 h3 _ ih =>
    intro hl h
    rw [List.length_append] at hl
    have := berValue_length h1
    obtain ⟨v, vs, rfl, hv, hvs⟩ := (berElems_cons_iff (berValue_isBer h1)).1 h
    rw [ih (by omega) hvs, hT _ _ _ _ _ (by omega) ((berDen_value h1).1 hv) h3]

theorem berElems_change {R : Bytes → Bool → Bytes → β → Prop} {T : Bytes → Bool → Bytes → α → Prop} (hT : OneB T) {p : Place} {put : β → α} {c : Bytes} {l : List α}
    (h : BerElems T c l) : c.length ≤ isizeMax → ∀ {i : Nat} {x : α}, l[i]? = some x →
      (∀ b id d raw, BerValue b id d raw → b.length ≤ isizeMax → T id d raw x → ChangeB R T y p put b) →
      ChangeBs R (fun _ => True) (BerElems T) y i p (fun z => l.set i (put z)) c := by
  induction h with
  | nil => intro _ i x hx; simp at hx
  | cons b id d raw c z zs hv hr hs ih =>
    intro hl i x hx hch
    have hl' := hl
    rw [List.length_append] at hl'
    have hlv := berValue_length hv
    cases i with
    | zero =>
      obtain rfl := Option.some.inj hx
      refine ((hch b id d raw hv (by omega) hr).first hv c hl).mono (fun v => v :: zs) ?_
      rintro c' - ⟨q, rfl, hq⟩ w
      rw [berElems_cons_iff hq]
      constructor
      · rintro ⟨v, vs, rfl, h1, h2⟩
        obtain rfl := berElems_one hT hs (by omega) h2
        exact ⟨v, ⟨q, rfl, h1⟩, rfl⟩
      · rintro ⟨v, ⟨q', e, h1⟩, rfl⟩
        rw [← List.append_cancel_right e] at h1
        exact ⟨v, zs, rfl, h1, hs⟩
    | succ i =>
      refine ((ih (by omega) (show zs[i]? = some x by simpa using hx) hch).later hv hl).mono (fun v => z :: v) ?_
      rintro c' - ⟨c'', rfl, -⟩ w
      rw [berElems_cons_iff (berValue_isBer hv)]
      constructor
      · rintro ⟨v, vs, rfl, h1, h2⟩
        obtain rfl := hT _ _ _ _ _ (by omega) ((berDen_value hv).1 h1) hr
        exact ⟨vs, ⟨c'', rfl, h2⟩, rfl⟩
      · rintro ⟨v, ⟨q', e, h1⟩, rfl⟩
        rw [← List.append_cancel_left e] at h1
        exact ⟨z, v, rfl, ⟨id, d, raw, hv, hr⟩, h1⟩

theorem berPair_one {K : Bytes → Bool → Bytes → α → Prop} {V : Bytes → Bool → Bytes → γ → Prop} (hK : OneB K) (hV : OneB V) : OneB (BerPair K V) := by
  rintro id d c v v' hl ⟨_, pk, ik, dk, ck, pv, iv, dv, cv, k, w, h1, h3, h4, h6⟩ h
  generalize e : pk ++ pv = c' at h
  cases h with
  | mk _ pk' ik' dk' ck' pv' iv' dv' cv' k' w' h1' h3' h4' h6' =>
    obtain ⟨rfl, rfl⟩ := isBer_prefix_free (berValue_isBer h1) (berValue_isBer h1') e
    obtain ⟨rfl, rfl, rfl⟩ := berValue_unique h1 h1'
    obtain ⟨rfl, rfl, rfl⟩ := berValue_unique h4 h4'
    rw [List.length_append] at hl
    have := berValue_length h1
    have := berValue_length h4
    rw [hK _ _ _ _ _ (by omega) h3 h3', hV _ _ _ _ _ (by omega) h6 h6']

/-- The value of an entry. -/
theorem berPair_change {R : Bytes → Bool → Bytes → β → Prop} {K : Bytes → Bool → Bytes → α → Prop} {lax : Bool} {o : (α : Type) → List α → List α} {t : Ty γ} (hK : OneB K)
    {p : Place} {put : β → γ} {b id raw : Bytes} {d : Bool} {x : α × γ} (hn : t.notEoc) (hv : BerValue b id d raw) (hl : b.length ≤ isizeMax)
    (h : BerPair K (t.berVal lax o) id d raw x)
    (hch : ∀ b id d raw, BerValue b id d raw → b.length ≤ isizeMax → t.berVal lax o id d raw x.2 → ChangeB R (t.berVal lax o) y p put b) :
    ChangeB R (BerPair K (t.berVal lax o)) y (some 1 :: p) (fun z => (x.1, put z)) b := by
  obtain rfl := berPair_definite hn hv h
  have hr := body_fits hv (show IsBody false raw raw from rfl) hl
  cases h with
  | mk _ pk ik dk ck pv iv dv cv k v h1 h2 h3 h4 =>
    have hr' := hr
    rw [List.length_append] at hr'
    have hlk := berValue_length h1
    have hx := ((hch pv iv dv cv h3 (by omega) h4).first h3 [] (by rw [List.append_nil]; omega)).later h1 (by rw [List.append_nil]; exact hr)
    rw [List.append_nil] at hx
    refine (hx.mono (T' := fun c' v => BerPair K (t.berVal lax o) [0x30] false c' v) (fun v => (k, v)) ?_).value hv rfl (fun _ h => Option.some.inj h)
      (fun raw' c' v e => by obtain rfl := show raw' = c' from e; exact Iff.rfl)
    rintro c' hcl ⟨c'', rfl, q, rfl, hq⟩ w
    constructor
    · intro h
      generalize e : pk ++ (q ++ []) = c' at h
      cases h with
      | mk _ pk' ik' dk' ck' pv' iv' dv' cv' k' w' h1' h3' h4' h6' =>
        obtain ⟨rfl, e2⟩ := isBer_prefix_free (berValue_isBer h1) (berValue_isBer h1') e
        obtain ⟨rfl, rfl, rfl⟩ := berValue_unique h1 h1'
        rw [hK _ _ _ _ _ (by omega) h3' h2]
        rw [List.append_nil] at e2
        exact ⟨w', ⟨_, rfl, q, by rw [← e2, List.append_nil], iv', dv', cv', by rw [e2]; exact h4', h6'⟩, rfl⟩
    · rintro ⟨v', ⟨c1, e1, q', e2, id', d', b', k1, k3⟩, rfl⟩
      rw [e1, e2, List.append_nil]
      exact .mk false pk ik dk ck q' id' d' b' k _ h1 h2 k1 k3

/-- The first of the fields. -/
theorem first_fieldB (m : Build) (o : HashOrder) {δ : Type} {R : Bytes → Bool → Bytes → β → Prop} {T : Bytes → Bool → Bytes → δ → Prop} {r : Fields γ} (hd : r.deserializable)
    {p : Place} {put : β → δ} {v : δ × γ} {b id raw c' : Bytes} {d : Bool} (h1 : BerValue b id d raw) (hl : (b ++ c').length ≤ isizeMax)
    (h4 : r.berVal (decide (m = .release)) o.order c' v.2) (h : ChangeB R T y p put b) :
    ChangeBs R (fun _ => True) (fun c w => ∃ b id d raw c', BerValue b id d raw ∧ c = b ++ c' ∧ T id d raw w.1 ∧ r.berVal (decide (m = .release)) o.order c' w.2) y 0 p
      (fun z => (put z, v.2)) (b ++ c') := by
  refine (h.first h1 c' hl).mono (fun x => (x, v.2)) ?_
  rintro c'' - ⟨q, rfl, hq⟩ w
  rw [List.length_append] at hl
  constructor
  · rintro ⟨b', id', d', raw', c1, k1, e, k3, k4⟩
    obtain ⟨rfl, rfl⟩ := isBer_prefix_free hq (berValue_isBer k1) e
    exact ⟨w.1, ⟨_, rfl, id', d', raw', k1, k3⟩, Prod.ext rfl (fields_oneB m o hd (by omega) k4 h4)⟩
  · rintro ⟨x, ⟨q', e, id', d', raw', k1, k3⟩, rfl⟩
    exact ⟨q', id', d', raw', c', k1, e, k3, h4⟩

/-- One of the other fields. -/
theorem later_fieldB (m : Build) (o : HashOrder) {δ : Type} {R : Bytes → Bool → Bytes → β → Prop} {T : Bytes → Bool → Bytes → δ → Prop} (hT : OneB T) {r : Fields γ} {i : Nat}
    {p : Place} {put : β → γ} {v : δ × γ} {b id raw c' : Bytes} {d : Bool} (h1 : BerValue b id d raw) (hl : (b ++ c').length ≤ isizeMax) (h3 : T id d raw v.1)
    (h : ChangeBs R (fun _ => True) (r.berVal (decide (m = .release)) o.order) y i p put c') :
    ChangeBs R (fun _ => True) (fun c w => ∃ b id d raw c', BerValue b id d raw ∧ c = b ++ c' ∧ T id d raw w.1 ∧ r.berVal (decide (m = .release)) o.order c' w.2) y (i + 1) p
      (fun z => (v.1, put z)) (b ++ c') := by
  refine (h.later h1 hl).mono (fun x => (v.1, x)) ?_
  rintro c'' - ⟨q, rfl, -⟩ w
  rw [List.length_append] at hl
  have := berValue_length h1
  constructor
  · rintro ⟨b', id', d', raw', c1, k1, e, k3, k4⟩
    obtain ⟨rfl, rfl⟩ := isBer_prefix_free (berValue_isBer h1) (berValue_isBer k1) e
    obtain ⟨rfl, rfl, rfl⟩ := berValue_unique h1 k1
    exact ⟨w.2, ⟨_, rfl, k4⟩, Prod.ext (hT _ _ _ _ _ (by omega) k3 h3) rfl⟩
  · rintro ⟨x, ⟨q', e, k3⟩, rfl⟩
    exact ⟨b, id, d, raw, q', h1, e, h3, k3⟩

mutual
theorem Spec.Ty.Alter.ber (m : Build) (o : HashOrder) : {α : Type} → {p : Place} → {t : Ty α} → {v : α} → {put : β → α} → Ty.Alter u y p t v put → t.deserializable →
    (b id : Bytes) → (d : Bool) → (raw : Bytes) → BerValue b id d raw → b.length ≤ isizeMax → t.berVal (decide (m = .release)) o.order id d raw v →
    ChangeB (u.berVal (decide (m = .release)) o.order) (t.berVal (decide (m = .release)) o.order) y p put b
  | _, _, _, _, _, .here, _, b, id, d, raw, hv, hl, h => .here ⟨id, d, raw, hv, h⟩ hl
  | _, _, _, _, _, .vec (t := t) hi hp, hd, b, id, d, raw, hv, hl, h => by
    obtain ⟨hid, c, hb, h⟩ := h
    exact (berElems_change (ty_oneB m o (t := t) hd) h (body_fits hv hb hl) hi (fun b id d raw h1 h2 h3 => hp.ber m o hd b id d raw h1 h2 h3)).value hv hb
      (fun _ h => Option.some.inj h) (fun _ _ _ e => ⟨fun ⟨_, _, e', hx⟩ => body_unique e e' ▸ hx, fun hx => ⟨hid, _, e, hx⟩⟩)
  | _, _, _, _, _, .linkedList (t := t) hi hp, hd, b, id, d, raw, hv, hl, h => by
    obtain ⟨hid, c, hb, h⟩ := h
    exact (berElems_change (ty_oneB m o (t := t) hd) h (body_fits hv hb hl) hi (fun b id d raw h1 h2 h3 => hp.ber m o hd b id d raw h1 h2 h3)).value hv hb
      (fun _ h => Option.some.inj h) (fun _ _ _ e => ⟨fun ⟨_, _, e', hx⟩ => body_unique e e' ▸ hx, fun hx => ⟨hid, _, e, hx⟩⟩)
  | _, _, _, _, _, .vecDeque (t := t) hi hp, hd, b, id, d, raw, hv, hl, h => by
    obtain ⟨hid, c, hb, h⟩ := h
    exact (berElems_change (ty_oneB m o (t := t) hd) h (body_fits hv hb hl) hi (fun b id d raw h1 h2 h3 => hp.ber m o hd b id d raw h1 h2 h3)).value hv hb
      (fun _ h => Option.some.inj h) (fun _ _ _ e => ⟨fun ⟨_, _, e', hx⟩ => body_unique e e' ▸ hx, fun hx => ⟨hid, _, e, hx⟩⟩)
  | _, _, _, _, _, .btreeValue (cmp := cmp) (k := k) (t := t) (l := l0) (i := i0) (x := x) (put := put) hn hi hp, hd, b, id, d, raw, hv, hl, h => by
    obtain ⟨hid', c, l, hb, h, hs⟩ := h
    obtain ⟨j, hj, hset⟩ := mapOf_set hs hi
    have hpair : OneB (BerPair (k.berVal (decide (m = .release)) o.order) (t.berVal (decide (m = .release)) o.order)) := berPair_one (ty_oneB m o hd.1) (ty_oneB m o hd.2)
    have := berElems_change hpair h (body_fits hv hb hl) hj (fun b id d raw h1 h2 h3 =>
      berPair_change (ty_oneB m o hd.1) hn h1 h2 h3 (fun b id d raw h1 h2 h3 => hp.ber m o hd.2 b id d raw h1 h2 h3))
    obtain ⟨path, b', x', F, k1, k2, k2', k3, k4, k6, k5⟩ := this
    refine ChangeBs.value (S := fun _ => True)
      (T := fun c' v => ∃ l, BerElems (BerPair (k.berVal (decide (m = .release)) o.order) (t.berVal (decide (m = .release)) o.order)) c' l ∧ MapOf cmp l v) hv hb
      ⟨path, b', x', F, k1, k2, k2', k3, k4, k6, fun f q hk hq hz he => ?_⟩ (fun _ h => nomatch h)
      (fun _ _ _ e => ⟨fun ⟨_, _, l, e', hx⟩ => body_unique e e' ▸ ⟨l, hx⟩, fun ⟨l, hx⟩ => ⟨hid', _, l, e, hx⟩⟩)
    obtain ⟨e1, e2, e4, -, e3⟩ := k5 f q hk hq hz he
    refine ⟨e1, e2, e4, trivial, fun w => ?_⟩
    constructor
    · rintro ⟨l', hl', hw⟩
      obtain ⟨z, hz, rfl⟩ := (e3 l').1 hl'
      exact ⟨z, hz, mapOf_unique hw (hset _)⟩
    · rintro ⟨z, hz, rfl⟩
      exact ⟨_, (e3 _).2 ⟨z, hz, rfl⟩, hset _⟩
  | _, _, _, _, _, .struct hp, hd, b, id, d, raw, hv, hl, h => by
    obtain ⟨hid, c, hb, h⟩ := h
    exact (hp.ber m o hd c (body_fits hv hb hl) h).value hv hb (fun _ h => Option.some.inj h)
      (fun _ _ _ e => ⟨fun ⟨_, _, e', hx⟩ => body_unique e e' ▸ hx, fun hx => ⟨hid, _, e, hx⟩⟩)
  | _, _, _, _, _, .enum (vs := vs) hp, hd, b, id, d, raw, hv, hl, h => by
    obtain ⟨c, hb⟩ := exists_body hv
    exact (hp.ber m o hd id d raw c hb (body_fits hv hb hl) h).value hv hb (fun _ h => Option.some.inj h)
      (fun raw' c' v e => ⟨fun hx => ⟨raw', e, hx⟩, fun ⟨raw'', e', hx⟩ => by
        have : raw'' = raw' := by
          cases d with
          | false => exact (show raw'' = c' from e').trans (show raw' = c' from e).symm
          | true => exact (show raw'' = c' ++ eoc from e').trans (show raw' = c' ++ eoc from e).symm
        exact this ▸ hx⟩)
  | _, _, _, _, _, .transparent hp, hd, b, id, d, raw, hv, hl, h => hp.ber m o hd.2 b id d raw hv hl h
  | _, _, _, _, _, .named (f := f) (g := g) (h := h0) (h' := h') hp, hd, b, id, d, raw, hv, hl, h =>
    (hp.ber m o hd b id d raw hv hl h).mono g (fun _ _ _ w => ⟨fun hw => ⟨f w, hw, (h0 w).symm⟩, fun ⟨v, hv, e⟩ => by rw [e, Ty.berVal, h']; exact hv⟩)
theorem Spec.Fields.Alter.ber (m : Build) (o : HashOrder) : {γ : Type} → {i : Nat} → {p : Place} → {fs : Fields γ} → {v : γ} → {put : β → γ} → Fields.Alter u y i p fs v put →
    fs.deserializable → (c : Bytes) → c.length ≤ isizeMax → fs.berVal (decide (m = .release)) o.order c v →
    ChangeBs (u.berVal (decide (m = .release)) o.order) (fun _ => True) (fs.berVal (decide (m = .release)) o.order) y i p put c
  | _, _, _, _, _, _, .plain hp, hd, c, hl, h => by
    obtain ⟨b, id, d, raw, c', h1, rfl, h3, h4⟩ := h
    exact first_fieldB m o hd.2 h1 hl h4 (hp.ber m o hd.1 b id d raw h1 (by rw [List.length_append] at hl; omega) h3)
  | _, _, _, _, _, _, .skipSer hp, hd, c, hl, h => by
    obtain ⟨b, id, d, raw, c', h1, rfl, h3, h4⟩ := h
    exact first_fieldB m o hd.2 h1 hl h4 (hp.ber m o hd.1 b id d raw h1 (by rw [List.length_append] at hl; omega) h3)
  | _, _, _, _, _, _, .conv hp, hd, c, hl, h => by
    obtain ⟨b, id, d, raw, c', h1, rfl, h3, h4⟩ := h
    exact first_fieldB m o hd.2 h1 hl h4 (hp.ber m o hd.1 b id d raw h1 (by rw [List.length_append] at hl; omega) h3)
  | _, _, _, _, _, _, .afterPlain (t := t) hp, hd, c, hl, h => by
    obtain ⟨b, id, d, raw, c', h1, rfl, h3, h4⟩ := h
    exact later_fieldB m o (ty_oneB m o (t := t) hd.1) h1 hl h3 (hp.ber m o hd.2 c' (by rw [List.length_append] at hl; omega) h4)
  | _, _, _, _, _, _, .afterSkipSer (t := t) hp, hd, c, hl, h => by
    obtain ⟨b, id, d, raw, c', h1, rfl, h3, h4⟩ := h
    exact later_fieldB m o (ty_oneB m o (t := t) hd.1) h1 hl h3 (hp.ber m o hd.2 c' (by rw [List.length_append] at hl; omega) h4)
  | _, _, _, _, _, _, .afterConv (t := t) (f := f) (g := g) hp, hd, c, hl, h => by
    obtain ⟨b, id, d, raw, c', h1, rfl, h3, h4⟩ := h
    exact later_fieldB m o (ty_oneB m o (t := .conv t f g) hd.1) h1 hl h3 (hp.ber m o hd.2 c' (by rw [List.length_append] at hl; omega) h4)
  | _, _, _, _, _, _, .afterSkip (v := v) hp, hd, c, hl, h =>
    (hp.ber m o hd c hl h.2).mono (fun x => (v.1, x)) (fun _ _ _ w => ⟨fun hw => ⟨w.2, hw.2, Prod.ext (hw.1.trans h.1.symm) rfl⟩, fun ⟨_, hx, e⟩ => e ▸ ⟨h.1, hx⟩⟩)
  | _, _, _, _, _, _, .afterSkipDe (v := v) hp, hd, c, hl, h =>
    (hp.ber m o hd c hl h.2).mono (fun x => (v.1, x)) (fun _ _ _ w => ⟨fun hw => ⟨w.2, hw.2, Prod.ext (hw.1.trans h.1.symm) rfl⟩, fun ⟨_, hx, e⟩ => e ▸ ⟨h.1, hx⟩⟩)
theorem Spec.Fields.AlterOne.ber (m : Build) (o : HashOrder) : {γ : Type} → {p : Place} → {fs : Fields γ} → {v : γ} → {put : β → γ} → Fields.AlterOne u y p fs v put →
    fs.deserializable → (b id : Bytes) → (d : Bool) → (raw : Bytes) → BerValue b id d raw → b.length ≤ isizeMax → fs.berOne (decide (m = .release)) o.order id d raw v →
    ChangeB (u.berVal (decide (m = .release)) o.order) (fs.berOne (decide (m = .release)) o.order) y p put b
  | _, _, _, _, _, .plain (v := v) hn hp, hd, b, id, d, raw, hv, hl, h => (hp.ber m o hd.1 b id d raw hv hl h.1).mono (fun x => (x, v.2)) (fun _ _ _ w =>
      ⟨fun hw => ⟨w.1, hw.1, Prod.ext rfl ((deCount_zero_berOne _ _ _ hn _ _ _ _ _ _ _ _ h.2).1 hw.2)⟩,
        fun ⟨_, hx, e⟩ => e ▸ ⟨hx, (deCount_zero_berOne _ _ _ hn _ _ _ _ _ _ _ _ h.2).2 rfl⟩⟩)
  | _, _, _, _, _, .skipSer (v := v) hn hp, hd, b, id, d, raw, hv, hl, h => (hp.ber m o hd.1 b id d raw hv hl h.1).mono (fun x => (x, v.2)) (fun _ _ _ w =>
      ⟨fun hw => ⟨w.1, hw.1, Prod.ext rfl ((deCount_zero_berOne _ _ _ hn _ _ _ _ _ _ _ _ h.2).1 hw.2)⟩,
        fun ⟨_, hx, e⟩ => e ▸ ⟨hx, (deCount_zero_berOne _ _ _ hn _ _ _ _ _ _ _ _ h.2).2 rfl⟩⟩)
  | _, _, _, _, _, .conv (v := v) hn hp, hd, b, id, d, raw, hv, hl, h => (hp.ber m o hd.1 b id d raw hv hl h.1).mono (fun x => (x, v.2)) (fun _ _ _ w =>
      ⟨fun hw => ⟨w.1, hw.1, Prod.ext rfl ((deCount_zero_berOne _ _ _ hn _ _ _ _ _ _ _ _ h.2).1 hw.2)⟩,
        fun ⟨_, hx, e⟩ => e ▸ ⟨hx, (deCount_zero_berOne _ _ _ hn _ _ _ _ _ _ _ _ h.2).2 rfl⟩⟩)
  | _, _, _, _, _, .afterSkip (v := v) hp, hd, b, id, d, raw, hv, hl, h =>
    (hp.ber m o hd b id d raw hv hl h.2).mono (fun x => (v.1, x)) (fun _ _ _ w => ⟨fun hw => ⟨w.2, hw.2, Prod.ext (hw.1.trans h.1.symm) rfl⟩, fun ⟨_, hx, e⟩ => e ▸ ⟨h.1, hx⟩⟩)
  | _, _, _, _, _, .afterSkipDe (v := v) hp, hd, b, id, d, raw, hv, hl, h =>
    (hp.ber m o hd b id d raw hv hl h.2).mono (fun x => (v.1, x)) (fun _ _ _ w => ⟨fun hw => ⟨w.2, hw.2, Prod.ext (hw.1.trans h.1.symm) rfl⟩, fun ⟨_, hx, e⟩ => e ▸ ⟨h.1, hx⟩⟩)
theorem Spec.Variants.Alter.ber (m : Build) (o : HashOrder) : {ρ : Type} → {i : Nat} → {p : Place} → {vs : Variants ρ} → {v : ρ} → {put : β → ρ} → Variants.Alter u y i p vs v put →
    vs.deserializable → (id : Bytes) → (d : Bool) → (raw c : Bytes) → IsBody d raw c → c.length ≤ isizeMax → vs.berVal (decide (m = .release)) o.order id d raw v →
    ChangeBs (u.berVal (decide (m = .release)) o.order) (fun _ => True) (fun c' w => ∃ raw', IsBody d raw' c' ∧ vs.berVal (decide (m = .release)) o.order id d raw' w) y i p put c
  | _, _, _, _, _, _, .this hp, hd, _, d, raw, c, hb, hl, h => by
    obtain ⟨hid, c', hb', h⟩ := h
    obtain rfl := body_unique hb hb'
    refine (hp.ber m o hd.1 c hl h).mono Sum.inl (fun c' _ _ w => ?_)
    have hbody : ∃ raw', IsBody d raw' c' := by
      cases d with
      | false => exact ⟨c', rfl⟩
      | true => exact ⟨c' ++ eoc, rfl⟩
    cases w with
    | inl w => exact ⟨fun ⟨raw', e, _, c'', e', hw⟩ => ⟨w, body_unique e e' ▸ hw, rfl⟩, fun ⟨_, hx, e⟩ => by
        cases e
        obtain ⟨raw', e⟩ := hbody
        exact ⟨raw', e, hid, c', e, hx⟩⟩
    | inr w => exact ⟨fun ⟨_, _, hw⟩ => absurd hid hw.1, fun ⟨_, _, e⟩ => by cases e⟩
  | _, _, _, _, _, _, .other hp, hd, id, d, raw, c, hb, hl, h => (hp.ber m o hd.2 id d raw c hb hl h.2).mono Sum.inr (fun c' _ _ w => by
      cases w with
      | inl w => exact ⟨fun ⟨_, _, hw⟩ => absurd hw.1 h.1, fun ⟨_, _, e⟩ => by cases e⟩
      | inr w => exact ⟨fun ⟨raw', e, hw⟩ => ⟨w, ⟨raw', e, hw.2⟩, rfl⟩, fun ⟨_, ⟨raw', e', hx⟩, e⟩ => by cases e; exact ⟨raw', e', h.1, hx⟩⟩)
end

end Bsn1
