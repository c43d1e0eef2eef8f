import Verif.Spec.Expand
import Verif.Lemmas.Handwritten
import Verif.Lemmas.AttributePlan
/-!
# Lemmas on declarations and their plans
-/

namespace Bsn1
open Spec Expand

variable {Pa : Type} {T : Types Pa} {β γ ρ : Type}

theorem kinds_mem {as : List (Arg Pa)} {a : Arg Pa} (h : a ∈ as) : kinds as a.kind := ⟨a, h, rfl⟩

theorem Spec.Untouched.not {as : List (Arg Pa)} (h : Untouched as) {k : ArgKind} (hk : k ≠ .default) (hg : k.group = .skip ∨ k.group = .conversion) :
    ¬ kinds as k := fun hh => by
  rcases h k hh with e | ⟨e, e'⟩
  · exact hk e
  · rcases hg with e2 | e2
    · exact e e2
    · exact e' e2

/-- The plans of both sides for a field that is one of those of the specification. -/
theorem Spec.Means.plans {f : FieldType T β} {as : List (Arg Pa)} {h : HandField β} (hm : Means f as h) :
    ∃ ps pd, Spec.SerField as ps ∧ Spec.DeField as pd ∧ Expand.serField f ps = h.ser ∧ Expand.deField f pd = h.de ∧
      ((∃ d, h = .skip d) → serSkips ps = true ∧ deSkips pd = true) ∧ ((¬ ∃ d, h = .skip d) → serSkips ps = false ∧ deSkips pd = false) := by
  cases hm with
  | plain C hu =>
    have n := fun k hk hg => hu.not (k := k) hk hg
    exact ⟨.plain, .plain, ⟨n _ (by decide) (by decide), n _ (by decide) (by decide), n _ (by decide) (by decide), n _ (by decide) (by decide)⟩,
      ⟨n _ (by decide) (by decide), n _ (by decide) (by decide), n _ (by decide) (by decide), n _ (by decide) (by decide)⟩, rfl, rfl,
      fun ⟨_, e⟩ => (nomatch e), fun _ => ⟨rfl, rfl⟩⟩
  | @skipBy p hb hp =>
    refine ⟨.skip, .skip (some p), hb.imp id And.left, ⟨hb.imp id And.right, hp⟩, rfl, rfl, fun _ => ⟨rfl, rfl⟩, fun e => absurd ⟨_, rfl⟩ e⟩
  | skip hb hp =>
    refine ⟨.skip, .skip none, hb.imp id And.left, ⟨hb.imp id And.right, hp⟩, rfl, rfl, fun _ => ⟨rfl, rfl⟩, fun e => absurd ⟨_, rfl⟩ e⟩
  | conv C ht hf =>
    cases ht with
    | into h1 =>
      cases hf with
      | from_ h2 => exact ⟨.into _, .from_ _, h1, h2, rfl, rfl, fun ⟨_, e⟩ => (nomatch e), fun _ => ⟨rfl, rfl⟩⟩
      | tryFrom h2 => exact ⟨.into _, .tryFrom _, h1, h2, rfl, rfl, fun ⟨_, e⟩ => (nomatch e), fun _ => ⟨rfl, rfl⟩⟩
    | @«to» q h1 =>
      cases hf with
      | from_ h2 => exact ⟨.to q, .from_ _, h1, h2, rfl, rfl, fun ⟨_, e⟩ => (nomatch e), fun _ => ⟨rfl, rfl⟩⟩
      | tryFrom h2 => exact ⟨.to q, .tryFrom _, h1, h2, rfl, rfl, fun ⟨_, e⟩ => (nomatch e), fun _ => ⟨rfl, rfl⟩⟩

theorem count_skip {h : HandField β} {hs : HandFields γ} (hd : ∃ d, h = .skip d) : (HandFields.cons h hs).count = hs.count := by
  obtain ⟨d, rfl⟩ := hd; rfl

theorem count_not_skip {h : HandField β} {hs : HandFields γ} (hd : ¬ ∃ d, h = .skip d) : (HandFields.cons h hs).count = hs.count + 1 := by
  cases h with
  | plain => rfl
  | skip d => exact absurd ⟨d, rfl⟩ hd
  | conv => rfl

/-- The plans of both sides for the fields, and how many are not skipped. -/
theorem Spec.FieldsMean.plans {pp : String → Option Pa} {fs : Decl T γ} {hs : HandFields γ} (h : FieldsMean pp fs hs) :
    ∃ ps pd, List.Forall₂ (FieldPlan pp Spec.SerField) fs.attrs ps ∧ List.Forall₂ (FieldPlan pp Spec.DeField) fs.attrs pd ∧
      Expand.serFields fs ps = some hs.ser ∧ Expand.deFields fs pd = some hs.de ∧
      (ps.filter fun p => !serSkips p).length = hs.count ∧ (pd.filter fun p => !deSkips p).length = hs.count := by
  induction h with
  | nil => exact ⟨[], [], .nil, .nil, rfl, rfl, rfl, rfl⟩
  | @cons _ _ attrs as f h r hs hd hm _ ih =>
    obtain ⟨ps, pd, h1, h2, h3, h4, h5, h6⟩ := ih
    obtain ⟨p, q, k1, k2, k3, k4, k5, k6⟩ := hm.plans
    refine ⟨p :: ps, q :: pd, .cons ⟨as, hd, k1⟩ h1, .cons ⟨as, hd, k2⟩ h2, ?_, ?_, ?_, ?_⟩
    · rw [Expand.serFields, h3, k3]; rfl
    · rw [Expand.deFields, h4, k4]; rfl
    · by_cases e : ∃ d, h = .skip d
      · rw [count_skip e, ← h5, List.filter_cons_of_neg (by rw [(k5 e).1]; decide)]
      · rw [count_not_skip e, ← h5, List.filter_cons_of_pos (by rw [(k6 e).1]; rfl), List.length_cons]
    · by_cases e : ∃ d, h = .skip d
      · rw [count_skip e, ← h6, List.filter_cons_of_neg (by rw [(k5 e).2]; decide)]
      · rw [count_not_skip e, ← h6, List.filter_cons_of_pos (by rw [(k6 e).2]; rfl), List.length_cons]

/-- The plans of both sides for the variants. -/
theorem Spec.VariantsMean.plans {pp : String → Option Pa} {vs : DeclVariants T ρ} {hs : HandVariants ρ} (h : VariantsMean pp vs hs) :
    ∃ ps pd, List.Forall₂ (VariantPlan pp Spec.SerField) vs.attrs ps ∧ List.Forall₂ (VariantPlan pp Spec.DeField) vs.attrs pd ∧
      Expand.serVariants vs ps = some hs.ser ∧ Expand.deVariants vs pd = some hs.de := by
  induction h with
  | nil => exact ⟨[], [], .nil, .nil, rfl, rfl⟩
  | @cons _ _ attrs as c p n fs hs r vs hd hi hf _ ih =>
    obtain ⟨ps, pd, h1, h2, h3, h4⟩ := ih
    obtain ⟨qs, qd, k1, k2, k3, k4, _, _⟩ := hf.plans
    refine ⟨(idOctets c p n, qs) :: ps, (idOctets c p n, qd) :: pd, .cons ⟨as, c, p, n, hd, hi, rfl, k1⟩ h1, .cons ⟨as, c, p, n, hd, hi, rfl, k2⟩ h2, ?_, ?_⟩
    · rw [Expand.serVariants, k3, h3]; rfl
    · rw [Expand.deVariants, k4, h4]; rfl

/-- One element passes a filter: where it is. -/
theorem filter_one {F : Type} (skips : F → Bool) : ∀ (l : List F), (l.filter fun p => !skips p).length = 1 →
    ∃ a f b, l = a ++ f :: b ∧ (∀ x ∈ a, skips x = true) ∧ skips f = false ∧ ∀ x ∈ b, skips x = true
  | [], h => by simp at h
  | x :: l, h => by
    cases hx : skips x with
    | true =>
      rw [List.filter_cons_of_neg (by rw [hx]; decide)] at h
      obtain ⟨a, f, b, rfl, h1, h2, h3⟩ := filter_one skips l h
      exact ⟨x :: a, f, b, rfl, by simpa [hx] using h1, h2, h3⟩
    | false =>
      rw [List.filter_cons_of_pos (by rw [hx]; rfl), List.length_cons] at h
      refine ⟨[], x, l, rfl, by simp, hx, fun y hy => ?_⟩
      have h0 : (l.filter fun p => !skips p) = [] := List.length_eq_zero_iff.mp (by omega)
      simpa using List.filter_eq_nil_iff.mp h0 y hy

theorem Spec.Unconverted.ser {as : List (Arg Pa)} (h : Unconverted as) : ¬ kinds as .into ∧ ¬ kinds as .to :=
  ⟨fun hk => h _ hk rfl, fun hk => h _ hk rfl⟩

theorem Spec.Unconverted.de {as : List (Arg Pa)} (h : Unconverted as) : ¬ kinds as .from_ ∧ ¬ kinds as .tryFrom :=
  ⟨fun hk => h _ hk rfl, fun hk => h _ hk rfl⟩

theorem Spec.VariantsMean.isId {pp : String → Option Pa} {vs : DeclVariants T ρ} {hs : HandVariants ρ} (h : VariantsMean pp vs hs) :
    ∀ id ∈ hs.ids, IsId id := by
  induction h with
  | nil => simp [HandVariants.ids]
  | @cons _ _ attrs as c p n fs hs r vs hd hi hf _ ih =>
    intro id hm
    rcases List.mem_cons.mp hm with rfl | hm
    · have b := Attribute.identOf_bounded (Attribute.hasArgs_bounded hd.1) hi
      exact ⟨c, p, n, b.1, b.2.1, rfl⟩
    · exact ih id hm

/-! ### When there is code -/

theorem serFields_some : {γ : Type} → (fs : Decl T γ) → (ps : List (SerFieldPlan Pa)) → fs.attrs.length = ps.length →
    ∃ a, Expand.serFields fs ps = some a ∧ (activeFields a).length = (ps.filter fun p => !serSkips p).length
  | _, .nil, [], _ => ⟨_, rfl, rfl⟩
  | _, .nil, _ :: _, h => by simp [Decl.attrs] at h
  | _, .cons _ _ _, [], h => by simp [Decl.attrs] at h
  | _, .cons at' f r, p :: ps, h => by
    obtain ⟨a, h1, h2⟩ := serFields_some r ps (by simpa [Decl.attrs] using h)
    refine ⟨.cons (Expand.serField f p) a, by rw [Expand.serFields, h1]; rfl, ?_⟩
    cases p with
    | skip => rw [List.filter_cons_of_neg (by simp [serSkips]), ← h2]; simp [Expand.serField, activeFields]
    | into p => rw [List.filter_cons_of_pos rfl, List.length_cons, ← h2]; simp [Expand.serField, activeFields]
    | «to» p => rw [List.filter_cons_of_pos rfl, List.length_cons, ← h2]; simp [Expand.serField, activeFields]
    | plain => rw [List.filter_cons_of_pos rfl, List.length_cons, ← h2]; simp [Expand.serField, activeFields]

theorem deFields_some : {γ : Type} → (fs : Decl T γ) → (ps : List (DeFieldPlan Pa)) → fs.attrs.length = ps.length →
    ∃ a, Expand.deFields fs ps = some a ∧ deserializedFields a = (ps.filter fun p => !deSkips p).length
  | _, .nil, [], _ => ⟨_, rfl, rfl⟩
  | _, .nil, _ :: _, h => by simp [Decl.attrs] at h
  | _, .cons _ _ _, [], h => by simp [Decl.attrs] at h
  | _, .cons at' f r, p :: ps, h => by
    obtain ⟨a, h1, h2⟩ := deFields_some r ps (by simpa [Decl.attrs] using h)
    refine ⟨.cons (Expand.deField f p) a, by rw [Expand.deFields, h1]; rfl, ?_⟩
    cases p with
    | skip d => rw [List.filter_cons_of_neg (by simp [deSkips]), ← h2]; cases d <;> simp [Expand.deField, deserializedFields]
    | from_ p => rw [List.filter_cons_of_pos rfl, List.length_cons, ← h2]; simp [Expand.deField, deserializedFields]
    | tryFrom p => rw [List.filter_cons_of_pos rfl, List.length_cons, ← h2]; simp [Expand.deField, deserializedFields]
    | plain => rw [List.filter_cons_of_pos rfl, List.length_cons, ← h2]; simp [Expand.deField, deserializedFields]

theorem serVariants_some {pp : String → Option Pa} : {ρ : Type} → (vs : DeclVariants T ρ) → (ps : List (Bytes × List (SerFieldPlan Pa))) →
    List.Forall₂ (VariantPlan pp Spec.SerField) vs.attrs ps → ∃ a, Expand.serVariants vs ps = some a
  | _, .nil, [], _ => ⟨_, rfl⟩
  | _, .nil, _ :: _, h => by cases h
  | _, .cons _ _ _, [], h => by cases h
  | _, .cons at' fs r, p :: ps, h => by
    rw [DeclVariants.attrs, List.forall₂_cons] at h
    obtain ⟨⟨_, _, _, _, _, _, _, h0⟩, h⟩ := h
    obtain ⟨a, h1⟩ := serVariants_some r ps h
    obtain ⟨b, h2, _⟩ := serFields_some fs p.2 h0.length_eq
    exact ⟨.cons p.1 b a, by rw [Expand.serVariants, h2, h1]; rfl⟩

theorem deVariants_some {pp : String → Option Pa} : {ρ : Type} → (vs : DeclVariants T ρ) → (ps : List (Bytes × List (DeFieldPlan Pa))) →
    List.Forall₂ (VariantPlan pp Spec.DeField) vs.attrs ps → ∃ a, Expand.deVariants vs ps = some a
  | _, .nil, [], _ => ⟨_, rfl⟩
  | _, .nil, _ :: _, h => by cases h
  | _, .cons _ _ _, [], h => by cases h
  | _, .cons at' fs r, p :: ps, h => by
    rw [DeclVariants.attrs, List.forall₂_cons] at h
    obtain ⟨⟨_, _, _, _, _, _, _, h0⟩, h⟩ := h
    obtain ⟨a, h1⟩ := deVariants_some r ps h
    obtain ⟨b, h2, _⟩ := deFields_some fs p.2 h0.length_eq
    exact ⟨.cons p.1 b a, by rw [Expand.deVariants, h2, h1]; rfl⟩

theorem filter_of_one {F : Type} {skips : F → Bool} {a b : List F} {f : F} (h1 : ∀ x ∈ a, skips x = true) (h2 : skips f = false)
    (h3 : ∀ x ∈ b, skips x = true) : ((a ++ f :: b).filter fun p => !skips p).length = 1 := by
  rw [List.filter_append, List.filter_cons_of_pos (by rw [h2]; rfl), List.filter_eq_nil_iff.mpr (by simpa using h1),
    List.filter_eq_nil_iff.mpr (by simpa using h3)]
  rfl

theorem transparent_some {a : SerFields γ} (h : (activeFields a).length = 1) : ∃ s, Ser.transparent a = some s := by
  obtain ⟨t, e⟩ := List.length_eq_one_iff.mp h
  rw [Ser.transparent, e]
  exact ⟨_, rfl⟩

/-! ### One side alone -/

theorem fieldPlan_unique_ser {pp : String → Option Pa} {attrs : List SynAttr} {p q : SerFieldPlan Pa} (hp : FieldPlan pp Spec.SerField attrs p)
    (hq : FieldPlan pp Spec.SerField attrs q) : p = q := by
  have hi := fun f => Attribute.field_iff (F := SerFieldPlan Pa) (fun _ _ hn hd ha f => Attribute.serField_iff hn hd ha f) pp attrs f
  obtain ⟨a, h1, _, rfl⟩ := (hi p).mp hp
  obtain ⟨b, h2, _, rfl⟩ := (hi q).mp hq
  rw [h1] at h2; cases h2; rfl

theorem fieldPlan_unique_de {pp : String → Option Pa} {attrs : List SynAttr} {p q : DeFieldPlan Pa} (hp : FieldPlan pp Spec.DeField attrs p)
    (hq : FieldPlan pp Spec.DeField attrs q) : p = q := by
  have hi := fun f => Attribute.field_iff (F := DeFieldPlan Pa) (fun _ _ hn hd ha f => Attribute.deField_iff hn hd ha f) pp attrs f
  obtain ⟨a, h1, _, rfl⟩ := (hi p).mp hp
  obtain ⟨b, h2, _, rfl⟩ := (hi q).mp hq
  rw [h1] at h2; cases h2; rfl

theorem fieldPlan_exists_de {pp : String → Option Pa} {attrs : List SynAttr} {as : List (Arg Pa)} (hd : Documented pp .field attrs as) :
    ∃ p, FieldPlan pp Spec.DeField attrs p :=
  have hfold := Attribute.describes_foldl as hd.1.1
  ⟨_, as, hd, (Attribute.deField_iff hd.1.1 hfold hd.2 _).mpr rfl⟩

theorem fieldPlan_exists_ser {pp : String → Option Pa} {attrs : List SynAttr} {as : List (Arg Pa)} (hd : Documented pp .field attrs as) :
    ∃ p, FieldPlan pp Spec.SerField attrs p :=
  have hfold := Attribute.describes_foldl as hd.1.1
  ⟨_, as, hd, (Attribute.serField_iff hd.1.1 hfold hd.2 _).mpr rfl⟩

theorem forall₂_exists {A F : Type} {R : A → F → Prop} : ∀ (l : List A), (∀ a ∈ l, ∃ p, R a p) → ∃ ps, List.Forall₂ R l ps
  | [], _ => ⟨[], .nil⟩
  | a :: l, h => by
    obtain ⟨p, hp⟩ := h a (.head _)
    obtain ⟨ps, hps⟩ := forall₂_exists l fun b hb => h b (.tail _ hb)
    exact ⟨p :: ps, .cons hp hps⟩

theorem Spec.Encodes.serializes {α : Type} {s : Ser α} {v : α} {id c : Bytes} (h : Encodes s v id c) : Serializes s v id c :=
  ⟨h.1, h.2, h.3, h.4⟩

theorem encodes_of_serializes {α : Type} {s : Ser α} {v : α} {id c : Bytes} (h : Serializes s v id c) : Encodes s v id c :=
  ⟨h.1, h.2, h.3, h.4⟩

/-- The plan for a field that has octets, and that its code writes them. -/
theorem Spec.FieldGives.plan {f : FieldType T β} {as : List (Arg Pa)} {v : β} {o : Bytes} (h : FieldGives f as v o) :
    ∃ p, Spec.SerField as p ∧ FieldWrites (Expand.serField f p) v o := by
  cases h with
  | skip h => exact ⟨.skip, h, rfl⟩
  | conv ht he =>
    cases ht with
    | into h1 => exact ⟨.into _, h1, _, _, he.serializes, rfl⟩
    | @«to» q h1 => exact ⟨.to q, h1, _, _, he.serializes, rfl⟩
  | plain h1 h2 h3 h4 he => exact ⟨.plain, ⟨h1, h2, h3, h4⟩, _, _, he.serializes, rfl⟩

theorem Spec.FieldsGive.plans {pp : String → Option Pa} : {γ : Type} → (fs : Decl T γ) → (v : γ) → (o : Bytes) → FieldsGive pp fs v o →
    ∃ ps a, List.Forall₂ (FieldPlan pp Spec.SerField) fs.attrs ps ∧ Expand.serFields fs ps = some a ∧ FieldsWrite a v o
  | _, .nil, _, _, h => ⟨[], .nil, .nil, rfl, h⟩
  | _, .cons _ f r, v, o, h => by
    obtain ⟨as, x, y, hd, hf, hr, rfl⟩ := h
    obtain ⟨ps, a, h1, h2, h3⟩ := Spec.FieldsGive.plans r v.2 y hr
    obtain ⟨p, k1, k2⟩ := hf.plan
    exact ⟨p :: ps, .cons (Expand.serField f p) a, .cons ⟨_, hd, k1⟩ h1, by rw [Expand.serFields, h2]; rfl, _, _, k2, h3, rfl⟩

/-- The octets that a field takes. -/
def DeField.Decodes1 (R : {δ : Type} → De δ → Bytes → δ → Prop) : DeField β → Bytes → β → Prop
  | .skip dflt, o, v => o = [] ∧ v = dflt
  | .plain d, o, v => R d o v
  | .from_ d g, o, v => ∃ u, R d o u ∧ v = g u
  | .tryFrom d g, o, v => ∃ u, R d o u ∧ g u = .ok v

theorem decodes_cons (R : {δ : Type} → De δ → Bytes → δ → Prop) (x : DeField β) (r : DeFields γ) (c : Bytes) (v : β × γ) :
    (DeFields.cons x r).Decodes R c v ↔ ∃ o o', c = o ++ o' ∧ x.Decodes1 R o v.1 ∧ r.Decodes R o' v.2 := by
  cases x with
  | skip d =>
    constructor
    · rintro ⟨h1, h2⟩; exact ⟨[], c, rfl, ⟨rfl, h1⟩, h2⟩
    · rintro ⟨_, o', rfl, ⟨rfl, h1⟩, h2⟩; exact ⟨h1, h2⟩
  | plain d => exact Iff.rfl
  | from_ d g =>
    constructor
    · rintro ⟨p, c', u, h1, h2, h3, h4⟩; exact ⟨p, c', h1, ⟨u, h2, h3⟩, h4⟩
    · rintro ⟨p, c', h1, ⟨u, h2, h3⟩, h4⟩; exact ⟨p, c', u, h1, h2, h3, h4⟩
  | tryFrom d g =>
    constructor
    · rintro ⟨p, c', u, h1, h2, h3, h4⟩; exact ⟨p, c', h1, ⟨u, h2, h3⟩, h4⟩
    · rintro ⟨p, c', h1, ⟨u, h2, h3⟩, h4⟩; exact ⟨p, c', u, h1, h2, h3, h4⟩

theorem fieldTakes_iff (R : {δ : Type} → De δ → Bytes → δ → Prop) {pp : String → Option Pa} {attrs : List SynAttr} {p : DeFieldPlan Pa}
    (hp : FieldPlan pp Spec.DeField attrs p) (f : FieldType T β) (o : Bytes) (v : β) :
    (Expand.deField f p).Decodes1 R o v ↔ ∃ as, Documented pp .field attrs as ∧ FieldTakes R f as o v := by
  constructor
  · obtain ⟨as, hd, h⟩ := hp
    intro hv
    refine ⟨as, hd, ?_⟩
    cases p with
    | skip d =>
      cases d with
      | none => obtain ⟨e1, e2⟩ : o = [] ∧ v = f.dflt := hv; rw [e1, e2]; exact .skip h.1 h.2
      | some q => obtain ⟨e1, e2⟩ : o = [] ∧ v = f.dfltBy q := hv; rw [e1, e2]; exact .skipBy h.1 h.2
    | from_ q => obtain ⟨u, h1, e⟩ := hv; rw [e]; exact .from_ h h1
    | tryFrom q => obtain ⟨u, h1, h2⟩ := hv; exact .tryFrom h h1 h2
    | plain => exact .plain h.1 h.2.1 h.2.2.1 h.2.2.2 hv
  · rintro ⟨as, hd, h⟩
    have key : ∀ q, Spec.DeField as q → p = q := fun q hq => fieldPlan_unique_de hp ⟨as, hd, hq⟩
    cases h with
    | @skipBy q h1 h2 => rw [key (.skip (some q)) ⟨h1, h2⟩]; exact ⟨rfl, rfl⟩
    | skip h1 h2 => rw [key (.skip none) ⟨h1, h2⟩]; exact ⟨rfl, rfl⟩
    | @from_ q _ u h1 h2 => rw [key (.from_ q) h1]; exact ⟨u, h2, rfl⟩
    | @tryFrom q _ u _ h1 h2 h3 => rw [key (.tryFrom q) h1]; exact ⟨u, h2, h3⟩
    | plain h1 h2 h3 h4 h5 => rw [key .plain ⟨h1, h2, h3, h4⟩]; exact h5

theorem fieldsTake_iff (R : {δ : Type} → De δ → Bytes → δ → Prop) {pp : String → Option Pa} : {γ : Type} → (fs : Decl T γ) →
    (ps : List (DeFieldPlan Pa)) → List.Forall₂ (FieldPlan pp Spec.DeField) fs.attrs ps → (a : DeFields γ) → Expand.deFields fs ps = some a →
    ∀ (o : Bytes) (v : γ), a.Decodes R o v ↔ FieldsTake pp R fs o v
  | _, .nil, [], _, a, e, o, v => by
    obtain rfl : DeFields.nil = a := Option.some.inj e
    exact Iff.rfl
  | _, .nil, _ :: _, h, _, _, _, _ => by cases h
  | _, .cons _ _ _, [], h, _, _, _, _ => by cases h
  | _, .cons at' f r, p :: ps, h, a, e, o, v => by
    rw [Decl.attrs, List.forall₂_cons] at h
    obtain ⟨b, e1, _⟩ := deFields_some r ps h.2.length_eq
    rw [Expand.deFields, e1] at e
    obtain rfl : DeFields.cons (Expand.deField f p) b = a := Option.some.inj e
    rw [decodes_cons]
    constructor
    · rintro ⟨x, y, rfl, h1, h2⟩
      obtain ⟨as, hd, h1⟩ := (fieldTakes_iff R h.1 f _ _).mp h1
      exact ⟨as, x, y, hd, h1, (fieldsTake_iff R r ps h.2 b e1 _ _).mp h2, rfl⟩
    · rintro ⟨as, x, y, hd, h1, h2, rfl⟩
      exact ⟨x, y, rfl, (fieldTakes_iff R h.1 f _ _).mpr ⟨as, hd, h1⟩, (fieldsTake_iff R r ps h.2 b e1 _ _).mpr h2⟩

theorem fromBerValue_eq : @FromBerValue = @BerTakes := by
  funext δ d o x
  refine propext (exists_congr fun id => exists_congr fun indef => exists_congr fun raw => ?_)
  cases indef <;> rfl

theorem fieldsDocumented_ser {pp : String → Option Pa} {fs : Decl T γ} (h : FieldsDocumented pp fs) :
    ∃ ps, List.Forall₂ (FieldPlan pp Spec.SerField) fs.attrs ps :=
  forall₂_exists _ fun a ha => (h a ha).elim fun _ hd => fieldPlan_exists_ser hd

theorem fieldsDocumented_de {pp : String → Option Pa} {fs : Decl T γ} (h : FieldsDocumented pp fs) :
    ∃ ps, List.Forall₂ (FieldPlan pp Spec.DeField) fs.attrs ps :=
  forall₂_exists _ fun a ha => (h a ha).elim fun _ hd => fieldPlan_exists_de hd

/-- A variant has one identifier. -/
theorem variantId_unique {pp : String → Option Pa} {attrs : List SynAttr} {id id' : Bytes} (h : VariantId pp attrs id) (h' : VariantId pp attrs id') :
    id = id' := by
  obtain ⟨as, c, p, n, hd, hi, rfl⟩ := h
  obtain ⟨as', c', p', n', hd', hi', rfl⟩ := h'
  have k := (Attribute.variant_iff (F := SerFieldPlan Pa) (fun _ _ hn hd ha f => Attribute.serField_iff hn hd ha f) pp (attrs, []) (idOctets c p n, [])).mp
    ⟨as, c, p, n, hd, hi, rfl, .nil⟩
  have k' := (Attribute.variant_iff (F := SerFieldPlan Pa) (fun _ _ hn hd ha f => Attribute.serField_iff hn hd ha f) pp (attrs, []) (idOctets c' p' n', [])).mp
    ⟨as', c', p', n', hd', hi', rfl, .nil⟩
  obtain ⟨a, l, h1, _, _, e⟩ := k
  obtain ⟨a', l', h1', _, _, e'⟩ := k'
  rw [h1] at h1'; cases h1'
  exact (congrArg Prod.fst e).trans (congrArg Prod.fst e').symm

theorem variantsDocumented_ser {pp : String → Option Pa} : {ρ : Type} → (vs : DeclVariants T ρ) → VariantsDocumented pp vs →
    ∃ ps, List.Forall₂ (VariantPlan pp Spec.SerField) vs.attrs ps
  | _, .nil, _ => ⟨[], .nil⟩
  | _, .cons attrs fs r, h => by
    obtain ⟨⟨as, hd⟩, hf, hr⟩ := h
    obtain ⟨ps, h1⟩ := variantsDocumented_ser r hr
    obtain ⟨qs, h2⟩ := fieldsDocumented_ser hf
    obtain ⟨c, p, n, hi⟩ := Attribute.identOf_exists as
    exact ⟨(idOctets c p n, qs) :: ps, .cons ⟨as, c, p, n, hd, hi, rfl, h2⟩ h1⟩

theorem variantsDocumented_de {pp : String → Option Pa} : {ρ : Type} → (vs : DeclVariants T ρ) → VariantsDocumented pp vs →
    ∃ ps, List.Forall₂ (VariantPlan pp Spec.DeField) vs.attrs ps
  | _, .nil, _ => ⟨[], .nil⟩
  | _, .cons attrs fs r, h => by
    obtain ⟨⟨as, hd⟩, hf, hr⟩ := h
    obtain ⟨ps, h1⟩ := variantsDocumented_de r hr
    obtain ⟨qs, h2⟩ := fieldsDocumented_de hf
    obtain ⟨c, p, n, hi⟩ := Attribute.identOf_exists as
    exact ⟨(idOctets c p n, qs) :: ps, .cons ⟨as, c, p, n, hd, hi, rfl, h2⟩ h1⟩

theorem fieldPlans_unique_ser {pp : String → Option Pa} : ∀ {l : List (List SynAttr)} {p q : List (SerFieldPlan Pa)},
    List.Forall₂ (FieldPlan pp Spec.SerField) l p → List.Forall₂ (FieldPlan pp Spec.SerField) l q → p = q
  | [], _, _, .nil, .nil => rfl
  | _ :: _, _, _, .cons h1 h2, .cons k1 k2 => by rw [fieldPlan_unique_ser h1 k1, fieldPlans_unique_ser h2 k2]

theorem variantsGive_writes (m : Build) {pp : String → Option Pa} : {ρ : Type} → (vs : DeclVariants T ρ) → (ps : List (Bytes × List (SerFieldPlan Pa))) →
    List.Forall₂ (VariantPlan pp Spec.SerField) vs.attrs ps → (a : SerVariants ρ) → Expand.serVariants vs ps = some a →
    (v : ρ) → (id o : Bytes) → VariantsGive pp vs v id o → o.length ≤ isizeMax → Serializes (Ser.enum m a) v id o
  | _, .cons _ _ _, [], h, _, _, _, _, _, _, _ => by cases h
  | _, .cons at' fs r, p :: ps, h, a, e, v, id, o, hv, hfit => by
    rw [DeclVariants.attrs, List.forall₂_cons] at h
    obtain ⟨hp, hps⟩ := h
    obtain ⟨as, c, q, n, hd, hi, e0, hq⟩ := hp
    obtain ⟨b, e1, _⟩ := serFields_some fs p.2 hq.length_eq
    obtain ⟨b', e2⟩ := serVariants_some r ps hps
    rw [Expand.serVariants, e1, e2] at e
    obtain rfl : SerVariants.cons p.1 b b' = a := Option.some.inj e
    cases v with
    | inl v =>
      obtain ⟨hid, hf⟩ := hv
      obtain ⟨qs, x, k1, k2, k3⟩ := Spec.FieldsGive.plans fs v o hf
      rw [fieldPlans_unique_ser k1 hq, e1] at k2
      obtain rfl := Option.some.inj k2
      have hs := struct_serializes m p.1 k3 hfit
      obtain rfl : id = p.1 := variantId_unique hid ⟨as, c, q, n, hd, hi, e0⟩
      exact ⟨hs.1, hs.2, hs.3, hs.4⟩
    | inr v =>
      have hs := variantsGive_writes m r ps hps b' e2 v id o hv hfit
      exact ⟨hs.1, hs.2, hs.3, hs.4⟩

/-- The fields of the variant that is picked. -/
theorem pick_iff (R : {δ : Type} → De δ → Bytes → δ → Prop) {pp : String → Option Pa} (k : {γ : Type} → DeFields γ → Res γ) (id o : Bytes)
    (hk : ∀ {γ : Type} (a : DeFields γ) (v : γ), k a = .ok v ↔ a.Decodes R o v) : {ρ : Type} → (vs : DeclVariants T ρ) →
    (ps : List (Bytes × List (DeFieldPlan Pa))) → List.Forall₂ (VariantPlan pp Spec.DeField) vs.attrs ps → (a : DeVariants ρ) →
    Expand.deVariants vs ps = some a → (v : ρ) → (a.pick id k = .ok v ↔ VariantsTake pp R vs id o v)
  | _, .nil, _, _, _, _, v => v.elim
  | _, .cons _ _ _, [], h, _, _, _ => by cases h
  | _, .cons at' fs r, p :: ps, h, a, e, v => by
    rw [DeclVariants.attrs, List.forall₂_cons] at h
    obtain ⟨hp, hps⟩ := h
    obtain ⟨as, c, q, n, hd, hi, e0, hq⟩ := hp
    obtain ⟨b, e1, _⟩ := deFields_some fs p.2 hq.length_eq
    obtain ⟨b', e2⟩ := deVariants_some r ps hps
    rw [Expand.deVariants, e1, e2] at e
    obtain rfl : DeVariants.cons p.1 b b' = a := Option.some.inj e
    have hid : VariantId pp at' p.1 := ⟨as, c, q, n, hd, hi, e0⟩
    have hb := fieldsTake_iff R fs p.2 hq b e1 o
    have hr := pick_iff R k id o hk r ps hps b' e2
    rw [DeVariants.pick]
    by_cases hc : id = p.1
    · rw [if_pos hc]
      cases v with
      | inl v =>
        rw [show VariantsTake pp R (.cons at' fs r) id o (.inl v) ↔ VariantId pp at' id ∧ FieldsTake pp R fs o v from Iff.rfl, ← hb, ← hk]
        rw [hc]
        simp only [hid, true_and]
        cases k b <;> simp
      | inr v =>
        refine iff_of_false ?_ fun hv => hv.1 (hc ▸ hid)
        cases k b <;> simp
    · rw [if_neg hc]
      have hn : ¬ VariantId pp at' id := fun h' => hc (variantId_unique h' hid)
      cases v with
      | inl v =>
        refine iff_of_false ?_ fun hv => hn hv.1
        cases b'.pick id k <;> simp
      | inr v =>
        rw [show VariantsTake pp R (.cons at' fs r) id o (.inr v) ↔ ¬ VariantId pp at' id ∧ VariantsTake pp R r id o v from Iff.rfl, ← hr]
        simp only [hn, not_false_eq_true, true_and]
        cases b'.pick id k <;> simp

end Bsn1
