import Verif.Spec.Typing
import Verif.Lemmas.AttributePlan
/-!
# Lemmas on the types of generated code
-/

namespace Bsn1.Typing
open Spec

variable {Pa : Type}

/-! ### Arguments are determined by the attributes -/

/-- Two lists of arguments that come of the same attributes. -/
structure SameArgs (as bs : List (Arg Pa)) : Prop where
  kinds : ∀ k, Spec.kinds as k ↔ Spec.kinds bs k
  into : ∀ p, Arg.into p ∈ as ↔ Arg.into p ∈ bs
  to_ : ∀ p, Arg.to p ∈ as ↔ Arg.to p ∈ bs
  from_ : ∀ p, Arg.from_ p ∈ as ↔ Arg.from_ p ∈ bs
  tryFrom : ∀ p, Arg.tryFrom p ∈ as ↔ Arg.tryFrom p ∈ bs
  dflt : ∀ p, Arg.default p ∈ as ↔ Arg.default p ∈ bs

theorem documented_describes {pp : String → Option Pa} {pos : Position} {attrs : List SynAttr} {as : List (Arg Pa)}
    (h : Documented pp pos attrs as) : ∃ a, Attribute.tryFromAttrs pp attrs = some a ∧ Describes as a := by
  have hd := Attribute.describes_foldl as h.1.1
  exact ⟨_, ((Attribute.checked_iff pp attrs _ pos).mpr ⟨as, h, hd⟩).1, hd⟩

theorem sameArgs {pp : String → Option Pa} {pos pos' : Position} {attrs : List SynAttr} {as bs : List (Arg Pa)}
    (h : Documented pp pos attrs as) (h' : Documented pp pos' attrs bs) : SameArgs as bs := by
  obtain ⟨a, h1, h2⟩ := documented_describes h
  obtain ⟨b, h3, h4⟩ := documented_describes h'
  rw [h1] at h3
  cases h3
  exact ⟨fun k => (Attribute.describes_has h.1.1 h2 k).symm.trans (Attribute.describes_has h'.1.1 h4 k),
    fun p => (h2.into p).symm.trans (h4.into p), fun p => (h2.to_ p).symm.trans (h4.to_ p), fun p => (h2.from_ p).symm.trans (h4.from_ p),
    fun p => (h2.tryFrom p).symm.trans (h4.tryFrom p), fun p => (h2.default_ p).symm.trans (h4.default_ p)⟩

theorem documented_enum {pp : String → Option Pa} {attrs : List SynAttr} {as : List (Arg Pa)} (h : Documented pp .enum attrs as) :
    Documented pp .struct attrs as :=
  ⟨h.1, fun k hk => .inr (.inl (h.2.1 k hk)), h.2.2⟩

/-- Each conversion has one value. -/
theorem one_into {pp : String → Option Pa} {pos : Position} {attrs : List SynAttr} {as : List (Arg Pa)} (h : Documented pp pos attrs as) {p q : Pa}
    (hp : Arg.into p ∈ as) (hq : Arg.into q ∈ as) : p = q := by
  obtain ⟨a, _, hd⟩ := documented_describes h
  exact Option.some.inj (((hd.into p).mpr hp).symm.trans ((hd.into q).mpr hq))
theorem one_to {pp : String → Option Pa} {pos : Position} {attrs : List SynAttr} {as : List (Arg Pa)} (h : Documented pp pos attrs as) {p q : Pa}
    (hp : Arg.to p ∈ as) (hq : Arg.to q ∈ as) : p = q := by
  obtain ⟨a, _, hd⟩ := documented_describes h
  exact Option.some.inj (((hd.to_ p).mpr hp).symm.trans ((hd.to_ q).mpr hq))
theorem one_from {pp : String → Option Pa} {pos : Position} {attrs : List SynAttr} {as : List (Arg Pa)} (h : Documented pp pos attrs as) {p q : Pa}
    (hp : Arg.from_ p ∈ as) (hq : Arg.from_ q ∈ as) : p = q := by
  obtain ⟨a, _, hd⟩ := documented_describes h
  exact Option.some.inj (((hd.from_ p).mpr hp).symm.trans ((hd.from_ q).mpr hq))
theorem one_tryFrom {pp : String → Option Pa} {pos : Position} {attrs : List SynAttr} {as : List (Arg Pa)} (h : Documented pp pos attrs as) {p q : Pa}
    (hp : Arg.tryFrom p ∈ as) (hq : Arg.tryFrom q ∈ as) : p = q := by
  obtain ⟨a, _, hd⟩ := documented_describes h
  exact Option.some.inj (((hd.tryFrom p).mpr hp).symm.trans ((hd.tryFrom q).mpr hq))
theorem one_default {pp : String → Option Pa} {pos : Position} {attrs : List SynAttr} {as : List (Arg Pa)} (h : Documented pp pos attrs as) {p q : Pa}
    (hp : Arg.default p ∈ as) (hq : Arg.default q ∈ as) : p = q := by
  obtain ⟨a, _, hd⟩ := documented_describes h
  exact Option.some.inj (((hd.default_ p).mpr hp).symm.trans ((hd.default_ q).mpr hq))

theorem kinds_into {as : List (Arg Pa)} : kinds as .into ↔ ∃ p, Arg.into p ∈ as :=
  ⟨fun ⟨a, h, e⟩ => by cases a <;> cases e; exact ⟨_, h⟩, fun ⟨_, h⟩ => ⟨_, h, rfl⟩⟩
theorem kinds_to {as : List (Arg Pa)} : kinds as .to ↔ ∃ p, Arg.to p ∈ as :=
  ⟨fun ⟨a, h, e⟩ => by cases a <;> cases e; exact ⟨_, h⟩, fun ⟨_, h⟩ => ⟨_, h, rfl⟩⟩
theorem kinds_from {as : List (Arg Pa)} : kinds as .from_ ↔ ∃ p, Arg.from_ p ∈ as :=
  ⟨fun ⟨a, h, e⟩ => by cases a <;> cases e; exact ⟨_, h⟩, fun ⟨_, h⟩ => ⟨_, h, rfl⟩⟩
theorem kinds_tryFrom {as : List (Arg Pa)} : kinds as .tryFrom ↔ ∃ p, Arg.tryFrom p ∈ as :=
  ⟨fun ⟨a, h, e⟩ => by cases a <;> cases e; exact ⟨_, h⟩, fun ⟨_, h⟩ => ⟨_, h, rfl⟩⟩
theorem kinds_default {as : List (Arg Pa)} : kinds as .default ↔ ∃ p, Arg.default p ∈ as :=
  ⟨fun ⟨a, h, e⟩ => by cases a <;> cases e; exact ⟨_, h⟩, fun ⟨_, h⟩ => ⟨_, h, rfl⟩⟩

/-! ### Expressions -/

/-- What one field asks for, by what is generated for it. -/
def PlanSer (E : Env Pa) : SerFieldPlan Pa → RTy → Prop
  | .skip, _ => True
  | .into ty, τ => Holds E .serialize (E.tyOf ty) ∧ Holds E .clone τ ∧ Holds E (.into (E.tyOf ty)) τ
  | .to path, τ => ∃ σ, E.toFn path τ = some σ ∧ Holds E .serialize σ
  | .plain, τ => Holds E .serialize τ

theorem field_ok {E : Env Pa} {c : SCall Pa} {τ : RTy} (h : c.arg = .field τ) : c.Ok E ↔ PlanSer E .plain τ := by
  rw [SCall.Ok, h]
  constructor
  · rintro ⟨ρ, h1, h2⟩; cases h1; exact h2
  · exact fun h => ⟨_, .field τ, h⟩

theorem into_ok {E : Env Pa} {c : SCall Pa} {ty : Pa} {τ : RTy} (h : c.arg = .borrow (.into ty (.clone (.field τ)))) : c.Ok E ↔ PlanSer E (.into ty) τ := by
  rw [SCall.Ok, h]
  constructor
  · rintro ⟨ρ, h1, h2⟩
    cases h1 with
    | borrow h1 => cases h1 with
      | into _ h1 h3 => cases h1 with
        | clone h1 h4 => cases h1; exact ⟨h2, h4, h3⟩
  · rintro ⟨h1, h2, h3⟩
    exact ⟨_, .borrow (.into ty (.clone (.field τ) h2) h3), h1⟩

theorem to_ok {E : Env Pa} {c : SCall Pa} {path : Pa} {τ : RTy} (h : c.arg = .borrow (.call path (.field τ))) : c.Ok E ↔ PlanSer E (.to path) τ := by
  rw [SCall.Ok, h]
  constructor
  · rintro ⟨ρ, h1, h2⟩
    cases h1 with
    | borrow h1 => cases h1 with
      | call _ h1 h3 => cases h1; exact ⟨_, h3, h2⟩
  · rintro ⟨σ, h1, h2⟩
    exact ⟨_, .borrow (.call path (.field τ) h1), h2⟩

theorem all_singleton {α : Type} {P : α → Prop} {x : α} : (∀ y ∈ [x], P y) ↔ P x := by simp

theorem writeDerContents_ok {E : Env Pa} {fs : List (SerFieldPlan Pa × RTy)} :
    (∀ c ∈ writeDerContentsCode fs, c.Ok E) ↔ ∀ f ∈ fs, PlanSer E f.1 f.2 := by
  induction fs with
  | nil => simp [writeDerContentsCode]
  | cons f fs ih =>
    obtain ⟨p, τ⟩ := f
    have e : writeDerContentsCode ((p, τ) :: fs) = (match fieldRef p τ with | none => [] | some e => [SCall.writeDer e]) ++ writeDerContentsCode fs := rfl
    rw [e, List.forall_mem_append, ih, List.forall_mem_cons]
    refine and_congr ?_ Iff.rfl
    cases p with
    | skip => simp [fieldRef, PlanSer]
    | into ty => exact all_singleton.trans (into_ok rfl)
    | «to» path => exact all_singleton.trans (to_ok rfl)
    | plain => exact all_singleton.trans (field_ok rfl)

theorem derContentsLen_ok {E : Env Pa} {fs : List (SerFieldPlan Pa × RTy)} (h : ∀ f ∈ fs, PlanSer E f.1 f.2) :
    ∀ c ∈ derContentsLenCode fs, c.Ok E := by
  intro c hc
  rw [derContentsLenCode] at hc
  split at hc
  · cases hc
  · rename_i hn
    obtain ⟨f, hf, hc⟩ := List.mem_flatMap.mp hc
    have hf' := h f hf
    have hn' : planConverts f.1 = false := by
      by_contra hx
      exact hn (List.any_eq_true.mpr ⟨f, hf, by simpa using hx⟩)
    obtain ⟨p, τ⟩ := f
    cases p with
    | skip => cases hc
    | into ty => cases hn'
    | «to» path => cases hn'
    | plain =>
      simp only [List.mem_cons, List.not_mem_nil, or_false] at hc
      rcases hc with rfl | rfl
      · exact (field_ok rfl).mpr hf'
      · exact (field_ok rfl).mpr hf'

theorem transparent_mem {E : Env Pa} {fs : List (SerFieldPlan Pa × RTy)} :
    (∀ f ∈ transparentField fs, PlanSer E f.1 f.2) ↔ ∀ f ∈ fs, PlanSer E f.1 f.2 := by
  constructor
  · intro h f hf
    obtain ⟨p, τ⟩ := f
    cases p with
    | skip => trivial
    | into ty => exact h _ (List.mem_filter.mpr ⟨hf, rfl⟩)
    | «to» path => exact h _ (List.mem_filter.mpr ⟨hf, rfl⟩)
    | plain => exact h _ (List.mem_filter.mpr ⟨hf, rfl⟩)
  · exact fun h f hf => h f (List.mem_filter.mp hf).1

theorem transparent_not_skip {fs : List (SerFieldPlan Pa × RTy)} {f : SerFieldPlan Pa × RTy} (h : f ∈ transparentField fs) : f.1 ≠ .skip := by
  have := (List.mem_filter.mp h).2
  intro e
  rw [e] at this
  cases this

theorem struct_ok {E : Env Pa} {self : RTy} {id : Bytes} {plans : List (SerFieldPlan Pa)} {tys : List RTy} :
    (∀ m ∈ serImpl self (.struct id plans) (.struct tys), m.Ok E) ↔ ∀ f ∈ plans.zip tys, PlanSer E f.1 f.2 := by
  constructor
  · intro h
    have := (h ⟨false, [writeDerContentsCode (plans.zip tys)]⟩ (by simp [serImpl])).2 _ (List.mem_singleton.mpr rfl)
    exact writeDerContents_ok.mp this
  · intro h m hm
    simp only [serImpl, List.mem_cons, List.not_mem_nil, or_false] at hm
    rcases hm with rfl | rfl | rfl | rfl <;> refine ⟨nofun, ?_⟩ <;> simp only [List.mem_cons, List.not_mem_nil, or_false, forall_eq]
    · simp
    · exact writeDerContents_ok.mpr h
    · simp
    · exact derContentsLen_ok h

theorem transparent_ok {E : Env Pa} {self : RTy} {plans : List (SerFieldPlan Pa)} {tys : List RTy} :
    (∀ m ∈ serImpl self (.transparent plans) (.struct tys), m.Ok E) ↔ ∀ f ∈ plans.zip tys, PlanSer E f.1 f.2 := by
  rw [← transparent_mem]
  constructor
  · intro h f hf
    have h1 := (h ⟨false, [(transparentField (plans.zip tys)).flatMap fun f => writeDerContentsTransparentCode f.1 f.2]⟩ (by simp [serImpl])).2 _
      (List.mem_singleton.mpr rfl)
    have hs := transparent_not_skip hf
    obtain ⟨p, τ⟩ := f
    cases p with
    | skip => exact absurd rfl hs
    | into ty => exact (into_ok rfl).mp (h1 _ (List.mem_flatMap.mpr ⟨_, hf, List.mem_singleton.mpr rfl⟩))
    | «to» path => exact (to_ok rfl).mp (h1 _ (List.mem_flatMap.mpr ⟨_, hf, List.mem_singleton.mpr rfl⟩))
    | plain => exact (field_ok rfl).mp (h1 _ (List.mem_flatMap.mpr ⟨_, hf, List.mem_singleton.mpr rfl⟩))
  · intro h m hm
    simp only [serImpl, List.mem_cons, List.not_mem_nil, or_false] at hm
    rcases hm with rfl | rfl | rfl | rfl <;> refine ⟨nofun, ?_⟩ <;> simp only [List.mem_cons, List.not_mem_nil, or_false, forall_eq] <;>
      intro c hc <;> obtain ⟨f, hf, hc⟩ := List.mem_flatMap.mp hc <;> have hp := h f hf <;> have hs := transparent_not_skip hf <;> obtain ⟨p, τ⟩ := f <;> cases p
    case inl.skip | inr.inl.skip | inr.inr.inl.skip | inr.inr.inr.skip => exact absurd rfl hs
    case inl.into | inr.inl.into => exact (into_ok (by rw [List.mem_singleton.mp hc]; rfl)).mpr hp
    case inl.«to» | inr.inl.«to» => exact (to_ok (by rw [List.mem_singleton.mp hc]; rfl)).mpr hp
    case inl.plain | inr.inl.plain | inr.inr.inl.plain | inr.inr.inr.plain => exact (field_ok (by rw [List.mem_singleton.mp hc]; rfl)).mpr hp
    all_goals cases hc

theorem enum_ok {E : Env Pa} {self : RTy} {vs : List (Bytes × List (SerFieldPlan Pa))} {tys : List (List RTy)} :
    (∀ m ∈ serImpl self (.enum vs) (.enum tys), m.Ok E) ↔ vs.zip tys ≠ [] ∧ ∀ v ∈ vs.zip tys, ∀ f ∈ v.1.2.zip v.2, PlanSer E f.1 f.2 := by
  constructor
  · intro h
    have h1 := h ⟨true, ((vs.zip tys).map fun v => v.1.2.zip v.2).map writeDerContentsCode⟩ (by simp [serImpl])
    refine ⟨fun e => h1.1 rfl (by simp [e]), fun v hv => ?_⟩
    exact writeDerContents_ok.mp (h1.2 _ (List.mem_map.mpr ⟨_, List.mem_map.mpr ⟨v, hv, rfl⟩, rfl⟩))
  · rintro ⟨hne, h⟩ m hm
    simp only [serImpl, List.mem_cons, List.not_mem_nil, or_false] at hm
    rcases hm with rfl | rfl | rfl | rfl <;> refine ⟨fun _ e => hne (by simpa only [List.map_eq_nil_iff] using e), ?_⟩ <;> intro arm harm <;>
      obtain ⟨fs, hfs, rfl⟩ := List.mem_map.mp harm <;> obtain ⟨v, hv, rfl⟩ := List.mem_map.mp hfs
    · simp
    · exact writeDerContents_ok.mpr (h v hv)
    · simp
    · exact derContentsLen_ok (h v hv)

theorem conv1_ok {E : Env Pa} {self : RTy} {ty : Pa} {d : DataTys} :
    (∀ m ∈ serImpl self (.conv1 ty) d, m.Ok E) ↔ PlanSer E (.into ty) self := by
  constructor
  · intro h
    have := (h ⟨false, [[.writeId (.borrow (.into ty (.clone (.field self))))]]⟩ (by simp [serImpl])).2 _ (List.mem_singleton.mpr rfl) _ (List.mem_singleton.mpr rfl)
    exact (into_ok rfl).mp this
  · intro h m hm
    simp only [serImpl, List.mem_cons, List.not_mem_nil, or_false] at hm
    rcases hm with rfl | rfl | rfl | rfl <;> refine ⟨nofun, ?_⟩ <;> simp only [List.mem_cons, List.not_mem_nil, or_false, forall_eq]
    · exact (into_ok rfl).mpr h
    · exact (into_ok rfl).mpr h
    · simp
    · simp

theorem conv2_ok {E : Env Pa} {self : RTy} {path : Pa} {d : DataTys} :
    (∀ m ∈ serImpl self (.conv2 path) d, m.Ok E) ↔ PlanSer E (.to path) self := by
  constructor
  · intro h
    have := (h ⟨false, [[.writeId (.borrow (.call path (.field self)))]]⟩ (by simp [serImpl])).2 _ (List.mem_singleton.mpr rfl) _ (List.mem_singleton.mpr rfl)
    exact (to_ok rfl).mp this
  · intro h m hm
    simp only [serImpl, List.mem_cons, List.not_mem_nil, or_false] at hm
    rcases hm with rfl | rfl | rfl | rfl <;> refine ⟨nofun, ?_⟩ <;> simp only [List.mem_cons, List.not_mem_nil, or_false, forall_eq]
    · exact (to_ok rfl).mpr h
    · exact (to_ok rfl).mpr h
    · simp
    · simp

/-! ### What is generated, and what the documentation says -/

theorem serNeeds_into {E : Env Pa} {pp : String → Option Pa} {pos : Position} {attrs : List SynAttr} {as : List (Arg Pa)} (h : Documented pp pos attrs as)
    {p : Pa} (hp : Arg.into p ∈ as) (τ : RTy) : SerNeeds E as τ ↔ PlanSer E (.into p) τ := by
  have hk : kinds as .into := kinds_into.mpr ⟨p, hp⟩
  constructor
  · exact fun hs => hs.into p hp
  · exact fun hs => ⟨fun q hq => one_into h hp hq ▸ hs, fun q hq => absurd ⟨hk, kinds_to.mpr ⟨q, hq⟩⟩ h.2.2.2.2, fun hn => absurd hk hn⟩

theorem serNeeds_to {E : Env Pa} {pp : String → Option Pa} {pos : Position} {attrs : List SynAttr} {as : List (Arg Pa)} (h : Documented pp pos attrs as)
    {p : Pa} (hp : Arg.to p ∈ as) (τ : RTy) : SerNeeds E as τ ↔ PlanSer E (.to p) τ := by
  have hk : kinds as .to := kinds_to.mpr ⟨p, hp⟩
  constructor
  · exact fun hs => hs.to_ p hp
  · exact fun hs => ⟨fun q hq => absurd ⟨kinds_into.mpr ⟨q, hq⟩, hk⟩ h.2.2.2.2, fun q hq => one_to h hp hq ▸ hs, fun _ hn => absurd hk hn⟩

theorem group_skip {as : List (Arg Pa)} {pos : Position} (h : Accepted pos (kinds as)) {k : ArgKind} (hk : k.group = .conversion) (hc : kinds as k) :
    ¬ kinds as .skip ∧ ¬ kinds as .skipSerializing ∧ ¬ kinds as .skipDeserializing :=
  ⟨fun hs => absurd ((h.2.1 _ _ hs hc).trans hk) (by decide), fun hs => absurd ((h.2.1 _ _ hs hc).trans hk) (by decide),
    fun hs => absurd ((h.2.1 _ _ hs hc).trans hk) (by decide)⟩

theorem planSer_iff {E : Env Pa} {pp : String → Option Pa} {attrs : List SynAttr} {as : List (Arg Pa)} (h : Documented pp .field attrs as)
    {f : SerFieldPlan Pa} (hf : SerField as f) (τ : RTy) : PlanSer E f τ ↔ FieldSerNeeds E as τ := by
  cases f with
  | skip =>
    refine iff_of_true trivial fun h1 h2 => ?_
    rcases hf with hf | hf
    · exact absurd hf h1
    · exact absurd hf h2
  | into ty =>
    have hg := group_skip h.2 rfl (kinds_into.mpr ⟨ty, hf⟩)
    rw [← serNeeds_into h hf]
    exact ⟨fun hs _ _ => hs, fun hs => hs hg.1 hg.2.1⟩
  | «to» path =>
    have hg := group_skip h.2 rfl (kinds_to.mpr ⟨path, hf⟩)
    rw [← serNeeds_to h hf]
    exact ⟨fun hs _ _ => hs, fun hs => hs hg.1 hg.2.1⟩
  | plain =>
    obtain ⟨h1, h2, h3, h4⟩ := hf
    exact ⟨fun hs _ _ => ⟨fun p hp => absurd (kinds_into.mpr ⟨p, hp⟩) h3, fun p hp => absurd (kinds_to.mpr ⟨p, hp⟩) h4, fun _ _ => hs⟩,
      fun hs => (hs h1 h2).plain h3 h4⟩

/-- What one field asks for, by what is generated for it. -/
def PlanDe (E : Env Pa) : DeFieldPlan Pa → RTy → Prop
  | .skip none, τ => Holds E .default τ
  | .skip (some p), τ => E.mkFn p τ
  | .from_ ty, τ => Holds E (.from_ (E.tyOf ty)) τ ∧ Holds E .deserialize (E.tyOf ty)
  | .tryFrom ty, τ => Holds E (.tryFrom (E.tyOf ty)) τ ∧ Holds E (.tryFromStd (E.tyOf ty)) τ ∧ E.anyhow ∧ Holds E .deserialize (E.tyOf ty)
  | .plain, τ => Holds E .deserialize τ

theorem berContents_ok {E : Env Pa} {f : DeFieldPlan Pa} {τ : RTy} : (fromBerContentsCode f).Ok E τ ↔ PlanDe E f τ := by
  cases f with
  | skip d => cases d <;> exact Iff.rfl
  | _ => exact Iff.rfl
theorem berTransparent_ok {E : Env Pa} {f : DeFieldPlan Pa} {τ : RTy} : (fromBerTransparentCode f).Ok E τ ↔ PlanDe E f τ := by
  cases f with
  | skip d => cases d <;> exact Iff.rfl
  | _ => exact Iff.rfl
theorem derContents_ok {E : Env Pa} {f : DeFieldPlan Pa} {τ : RTy} : (fromDerContentsCode f).Ok E τ ↔ PlanDe E f τ := by
  cases f with
  | skip d => cases d <;> exact Iff.rfl
  | _ => exact Iff.rfl
theorem derTransparent_ok {E : Env Pa} {f : DeFieldPlan Pa} {τ : RTy} : (fromDerTransparentCode f).Ok E τ ↔ PlanDe E f τ := by
  cases f with
  | skip d => cases d <;> exact Iff.rfl
  | _ => exact Iff.rfl

theorem two_bodies {α : Type} {P : α → Prop} {l m : List α} : (∀ b ∈ [l, m], ∀ x ∈ b, P x) ↔ (∀ x ∈ l, P x) ∧ ∀ x ∈ m, P x := by simp

theorem deConv1_ok {E : Env Pa} {self : RTy} {ty : Pa} {d : DataTys} :
    (∀ b ∈ deImpl self (.conv1 ty) d, ∀ x ∈ b, x.1.Ok E x.2) ↔ PlanDe E (.from_ ty) self := by
  rw [deImpl, two_bodies, all_singleton, and_self]; exact Iff.rfl
theorem deConv2_ok {E : Env Pa} {self : RTy} {ty : Pa} {d : DataTys} :
    (∀ b ∈ deImpl self (.conv2 ty) d, ∀ x ∈ b, x.1.Ok E x.2) ↔ PlanDe E (.tryFrom ty) self := by
  rw [deImpl, two_bodies, all_singleton, and_self]; exact Iff.rfl
theorem deStruct_ok {E : Env Pa} {self : RTy} {id : Bytes} {plans : List (DeFieldPlan Pa)} {tys : List RTy} :
    (∀ b ∈ deImpl self (.struct id plans) (.struct tys), ∀ x ∈ b, x.1.Ok E x.2) ↔ ∀ f ∈ plans.zip tys, PlanDe E f.1 f.2 := by
  simp only [deImpl, two_bodies, List.forall_mem_map, berContents_ok, derContents_ok, and_self]
theorem deTransparent_ok {E : Env Pa} {self : RTy} {plans : List (DeFieldPlan Pa)} {tys : List RTy} :
    (∀ b ∈ deImpl self (.transparent plans) (.struct tys), ∀ x ∈ b, x.1.Ok E x.2) ↔ ∀ f ∈ plans.zip tys, PlanDe E f.1 f.2 := by
  simp only [deImpl, two_bodies, List.forall_mem_map, berTransparent_ok, derTransparent_ok, and_self]
theorem forall_flatMap {α β : Type} {P : β → Prop} {l : List α} {f : α → List β} : (∀ x ∈ l.flatMap f, P x) ↔ ∀ a ∈ l, ∀ x ∈ f a, P x := by
  simp only [List.mem_flatMap]
  exact ⟨fun h a ha x hx => h x ⟨a, ha, hx⟩, fun h x ⟨a, ha, hx⟩ => h a ha x hx⟩
theorem deEnum_ok {E : Env Pa} {self : RTy} {vs : List (Bytes × List (DeFieldPlan Pa))} {tys : List (List RTy)} :
    (∀ b ∈ deImpl self (.enum vs) (.enum tys), ∀ x ∈ b, x.1.Ok E x.2) ↔ ∀ v ∈ vs.zip tys, ∀ f ∈ v.1.2.zip v.2, PlanDe E f.1 f.2 := by
  simp only [deImpl, two_bodies, forall_flatMap, List.forall_mem_map, berContents_ok, derContents_ok, and_self]

theorem deNeeds_from {E : Env Pa} {pp : String → Option Pa} {pos : Position} {attrs : List SynAttr} {as : List (Arg Pa)} (h : Documented pp pos attrs as)
    {p : Pa} (hp : Arg.from_ p ∈ as) (τ : RTy) : (DeNeeds E as τ ∧ WrapNeeds E as τ) ↔ PlanDe E (.from_ p) τ := by
  have hk : kinds as .from_ := kinds_from.mpr ⟨p, hp⟩
  constructor
  · exact fun hs => (hs.1.from_ p hp).symm
  · exact fun hs => ⟨⟨fun q hq => one_from h hp hq ▸ hs.symm, fun q hq => absurd ⟨hk, kinds_tryFrom.mpr ⟨q, hq⟩⟩ h.2.2.2.1, fun hn => absurd hk hn⟩,
      fun q hq => absurd ⟨hk, kinds_tryFrom.mpr ⟨q, hq⟩⟩ h.2.2.2.1⟩

theorem deNeeds_tryFrom {E : Env Pa} {pp : String → Option Pa} {pos : Position} {attrs : List SynAttr} {as : List (Arg Pa)} (h : Documented pp pos attrs as)
    {p : Pa} (hp : Arg.tryFrom p ∈ as) (τ : RTy) : (DeNeeds E as τ ∧ WrapNeeds E as τ) ↔ PlanDe E (.tryFrom p) τ := by
  have hk : kinds as .tryFrom := kinds_tryFrom.mpr ⟨p, hp⟩
  constructor
  · intro hs
    obtain ⟨h1, h2⟩ := hs.1.tryFrom p hp
    obtain ⟨h3, h4⟩ := hs.2 p hp
    exact ⟨h2, h3, h4, h1⟩
  · rintro ⟨h1, h2, h3, h4⟩
    exact ⟨⟨fun q hq => absurd ⟨kinds_from.mpr ⟨q, hq⟩, hk⟩ h.2.2.2.1, fun q hq => one_tryFrom h hp hq ▸ ⟨h4, h1⟩, fun _ hn => absurd hk hn⟩,
      fun q hq => one_tryFrom h hp hq ▸ ⟨h2, h3⟩⟩

theorem planDe_iff {E : Env Pa} {pp : String → Option Pa} {attrs : List SynAttr} {as : List (Arg Pa)} (h : Documented pp .field attrs as)
    {f : DeFieldPlan Pa} (hf : DeField as f) (τ : RTy) : PlanDe E f τ ↔ (FieldDeNeeds E as τ ∧ WrapNeeds E as τ) := by
  have noskip : (kinds as .skip ∨ kinds as .skipDeserializing) → ∀ p, Arg.tryFrom p ∉ as := by
    intro hs p hp
    have hg := group_skip h.2 rfl (kinds_tryFrom.mpr ⟨p, hp⟩)
    rcases hs with hs | hs
    · exact hg.1 hs
    · exact hg.2.2 hs
  cases f with
  | skip d =>
    cases d with
    | none =>
      obtain ⟨hs, hd⟩ := hf
      refine ⟨fun hp => ⟨⟨fun h1 h2 => ?_, fun _ _ => hp, fun _ p hp => absurd (kinds_default.mpr ⟨p, hp⟩) hd⟩, fun p hp => absurd hp (noskip hs p)⟩,
        fun hp => hp.1.dflt hs hd⟩
      rcases hs with hs | hs
      · exact absurd hs h1
      · exact absurd hs h2
    | some q =>
      obtain ⟨hs, hd⟩ := hf
      refine ⟨fun hp => ⟨⟨fun h1 h2 => ?_, fun _ hn => absurd (kinds_default.mpr ⟨q, hd⟩) hn, fun _ p hp' => one_default h hd hp' ▸ hp⟩,
        fun p hp => absurd hp (noskip hs p)⟩, fun hp => hp.1.given hs q hd⟩
      rcases hs with hs | hs
      · exact absurd hs h1
      · exact absurd hs h2
  | from_ ty =>
    have hg := group_skip h.2 rfl (kinds_from.mpr ⟨ty, hf⟩)
    rw [← deNeeds_from h hf]
    refine and_congr_left' ⟨fun hs => ⟨fun _ _ => hs, fun hs => ?_, fun hs => ?_⟩, fun hs => hs.read hg.1 hg.2.2⟩ <;>
      exact absurd hs (fun hs => hs.elim hg.1 hg.2.2)
  | tryFrom ty =>
    have hg := group_skip h.2 rfl (kinds_tryFrom.mpr ⟨ty, hf⟩)
    rw [← deNeeds_tryFrom h hf]
    refine and_congr_left' ⟨fun hs => ⟨fun _ _ => hs, fun hs => ?_, fun hs => ?_⟩, fun hs => hs.read hg.1 hg.2.2⟩ <;>
      exact absurd hs (fun hs => hs.elim hg.1 hg.2.2)
  | plain =>
    obtain ⟨h1, h2, h3, h4⟩ := hf
    refine ⟨fun hs => ⟨⟨fun _ _ => ⟨fun p hp => absurd (kinds_from.mpr ⟨p, hp⟩) h3, fun p hp => absurd (kinds_tryFrom.mpr ⟨p, hp⟩) h4, fun _ _ => hs⟩, ?_, ?_⟩,
      fun p hp => absurd (kinds_tryFrom.mpr ⟨p, hp⟩) h4⟩, fun hs => (hs.1.read h1 h2).plain h3 h4⟩ <;> exact fun hs => absurd hs (fun hs => hs.elim h1 h2)

/-! ### All fields -/

/-- The plan of a field fits any list of arguments of its attributes. -/
def Fits (pp : String → Option Pa) {F : Type} (spec : List (Arg Pa) → F → Prop) : Prop :=
  ∀ attrs f as, FieldPlan pp spec attrs f → Documented pp .field attrs as → spec as f

theorem fits_ser (pp : String → Option Pa) : Fits pp (SerField (Pa := Pa)) := by
  rintro attrs f as ⟨bs, hb, hf⟩ ha
  obtain ⟨a, h1, h2⟩ := documented_describes ha
  obtain ⟨b, h3, h4⟩ := documented_describes hb
  rw [h1] at h3
  cases h3
  rw [Attribute.serField_iff ha.1.1 h2 ha.2]
  exact (Attribute.serField_iff hb.1.1 h4 hb.2 f).mp hf

theorem fits_de (pp : String → Option Pa) : Fits pp (DeField (Pa := Pa)) := by
  rintro attrs f as ⟨bs, hb, hf⟩ ha
  obtain ⟨a, h1, h2⟩ := documented_describes ha
  obtain ⟨b, h3, h4⟩ := documented_describes hb
  rw [h1] at h3
  cases h3
  rw [Attribute.deField_iff ha.1.1 h2 ha.2]
  exact (Attribute.deField_iff hb.1.1 h4 hb.2 f).mp hf

/-- The needs of the fields, by the plans and by the documentation. -/
theorem each_iff {pp : String → Option Pa} {F : Type} {spec : List (Arg Pa) → F → Prop} {P : F → RTy → Prop} {needs : List (Arg Pa) → RTy → Prop}
    (hfit : Fits pp spec) (hP : ∀ attrs as, Documented pp .field attrs as → ∀ f, spec as f → ∀ τ, P f τ ↔ needs as τ)
    {fs : List (List SynAttr × RTy)} {plans : List F} (h : List.Forall₂ (FieldPlan pp spec) (fs.map (·.1)) plans) :
    (∀ x ∈ plans.zip (fs.map (·.2)), P x.1 x.2) ↔ ∀ f ∈ fs, ∃ as, Documented pp .field f.1 as ∧ needs as f.2 := by
  induction fs generalizing plans with
  | nil => cases h; simp
  | cons f fs ih =>
    rw [List.map_cons, List.forall₂_cons_left_iff] at h
    obtain ⟨p, ps, h1, h2, rfl⟩ := h
    rw [List.map_cons, List.zip_cons_cons, List.forall_mem_cons, List.forall_mem_cons, ih h2]
    refine and_congr ?_ Iff.rfl
    constructor
    · obtain ⟨as, h3, h4⟩ := h1
      exact fun hp => ⟨as, h3, (hP _ as h3 p h4 _).mp hp⟩
    · rintro ⟨as, h3, h4⟩
      exact (hP _ as h3 p (hfit _ p as h1 h3) _).mpr h4

theorem eachVariant_iff {pp : String → Option Pa} {F : Type} {spec : List (Arg Pa) → F → Prop} {P : F → RTy → Prop} {needs : List (Arg Pa) → RTy → Prop}
    (hfit : Fits pp spec) (hP : ∀ attrs as, Documented pp .field attrs as → ∀ f, spec as f → ∀ τ, P f τ ↔ needs as τ)
    {vs : List (List SynAttr × List (List SynAttr × RTy))} {plans : List (Bytes × List F)}
    (h : List.Forall₂ (VariantPlan pp spec) (vs.map fun v => (v.1, v.2.map (·.1))) plans) :
    (∀ v ∈ plans.zip (vs.map fun v => v.2.map (·.2)), ∀ x ∈ v.1.2.zip v.2, P x.1 x.2) ↔
      ∀ f ∈ vs.flatMap (·.2), ∃ as, Documented pp .field f.1 as ∧ needs as f.2 := by
  induction vs generalizing plans with
  | nil => cases h; simp
  | cons v vs ih =>
    rw [List.map_cons, List.forall₂_cons_left_iff] at h
    obtain ⟨p, ps, h1, h2, rfl⟩ := h
    rw [List.map_cons, List.zip_cons_cons, List.forall_mem_cons, List.flatMap_cons, List.forall_mem_append, ih h2]
    obtain ⟨as, c, q, n, _, _, _, h3⟩ := h1
    exact and_congr (each_iff hfit hP h3) Iff.rfl

theorem zip_nil_iff {pp : String → Option Pa} {F : Type} {spec : List (Arg Pa) → F → Prop} {vs : List (List SynAttr × List (List SynAttr × RTy))}
    {plans : List (Bytes × List F)} (h : List.Forall₂ (VariantPlan pp spec) (vs.map fun v => (v.1, v.2.map (·.1))) plans) :
    plans.zip (vs.map fun v => v.2.map (·.2)) = [] ↔ vs = [] := by
  cases vs with
  | nil => cases h; simp
  | cons v vs =>
    rw [List.map_cons, List.forall₂_cons_left_iff] at h
    obtain ⟨p, ps, _, _, rfl⟩ := h
    simp

/-! ### Instances and bounds -/

theorem holds_instance {s : String → RTy} {E E' : Env Pa} (hi : Instance s E E') {tr : TraitRef} {τ : RTy} (h : Holds E tr τ) :
    Holds E' (TraitRef.subst s tr) (RTy.subst s τ) := by
  induction h with
  | given h => exact hi.impls _ _ h
  | serPrim p => exact .serPrim p
  | ser1 c _ ih => exact .ser1 c ih
  | ser2 c _ _ ih ih' => exact .ser2 c ih ih'
  | dePrim p => exact .dePrim p
  | deVec _ ih => exact .deVec ih
  | deLinkedList _ ih => exact .deLinkedList ih
  | deVecDeque _ ih => exact .deVecDeque ih
  | deBTreeSet _ _ ih ih' => exact .deBTreeSet ih ih'
  | deBTreeMap _ _ _ ih ih' ih'' => exact .deBTreeMap ih ih' ih''
  | deHashSet _ _ _ ih ih' ih'' => exact .deHashSet ih ih' ih''
  | deHashMap _ _ _ _ i1 i2 i3 i4 => exact .deHashMap i1 i2 i3 i4

theorem orphan_ser {E : Env Pa} (ho : Orphans E) {bounds : List (TraitRef × RTy)} {τ : RTy} :
    Holds (E.inside bounds) .serialize τ ↔ SerBound E bounds τ := by
  constructor
  · intro h
    generalize htr : TraitRef.serialize = tr at h
    induction h with
    | @given tr τ h =>
      subst htr
      rcases h with h | h
      · obtain ⟨n, rfl⟩ := ho _ _ (.inl rfl) h
        exact .inl h
      · cases τ with
        | param n => exact h
        | prim p => trivial
        | coll1 c t => exact .inr h
        | coll2 c k v => exact .inr h
        | named n => exact .inr h
    | serPrim p => trivial
    | ser1 c _ ih => exact .inl (ih rfl)
    | ser2 c _ _ ih ih' => exact .inl ⟨ih rfl, ih' rfl⟩
    | _ => cases htr
  · intro h
    induction τ with
    | param n => exact .given (.inr h)
    | prim p => exact .serPrim p
    | coll1 c t ih => rcases h with h | h; exacts [.ser1 c (ih h), .given (.inr h)]
    | coll2 c k v ih ih' => rcases h with h | h; exacts [.ser2 c (ih h.1) (ih' h.2), .given (.inr h)]
    | named n => exact .given h

theorem orphan_de {E : Env Pa} (ho : Orphans E) {bounds : List (TraitRef × RTy)} {τ : RTy} :
    Holds (E.inside bounds) .deserialize τ ↔ DeBound E bounds τ := by
  constructor
  · intro h
    generalize htr : TraitRef.deserialize = tr at h
    induction h with
    | @given tr τ h =>
      subst htr
      rcases h with h | h
      · obtain ⟨n, rfl⟩ := ho _ _ (.inr rfl) h
        exact .inl h
      · cases τ with
        | param n => exact h
        | prim p => trivial
        | coll1 c t => cases c <;> exact .inr h
        | coll2 c k v => cases c <;> exact .inr h
        | named n => exact .inr h
    | dePrim p => trivial
    | deVec _ ih => exact .inl (ih rfl)
    | deLinkedList _ ih => exact .inl (ih rfl)
    | deVecDeque _ ih => exact .inl (ih rfl)
    | deBTreeSet _ h' ih => exact .inl ⟨ih rfl, h'⟩
    | deBTreeMap _ h' _ ih _ ih' => exact .inl ⟨ih rfl, h', ih' rfl⟩
    | deHashSet _ h1 h2 ih => exact .inl ⟨ih rfl, h1, h2⟩
    | deHashMap _ h1 h2 _ ih _ _ ih' => exact .inl ⟨ih rfl, ⟨h2, h1⟩, ih' rfl⟩
    | _ => cases htr
  · intro h
    induction τ with
    | param n => exact .given (.inr h)
    | prim p => exact .dePrim p
    | coll1 c t ih =>
      cases c <;> rcases h with h | h
      exacts [.deVec (ih h), .given (.inr h), .deLinkedList (ih h), .given (.inr h), .deVecDeque (ih h), .given (.inr h), .deBTreeSet (ih h.1) h.2,
        .given (.inr h), .deHashSet (ih h.1) h.2.1 h.2.2, .given (.inr h)]
    | coll2 c k v ih ih' =>
      cases c <;> rcases h with h | h
      exacts [.deBTreeMap (ih h.1) h.2.1 (ih' h.2.2), .given (.inr h), .deHashMap (ih h.1) h.2.1.2 h.2.1.1 (ih' h.2.2), .given (.inr h)]
    | named n => exact .given h

end Bsn1.Typing
