import Verif.Lemmas.Typing
import Verif.Props.Attribute
/-!
# C119: what a derive asks of the types in a declaration
-/

namespace Bsn1
open Spec Typing

variable {Pa : Type}

namespace Typing

/-- What an accepted declaration is, for both derives. -/
theorem plan_noConv {as : List (Arg Pa)} {pos : Position} (h : Accepted pos (kinds as)) (ht : kinds as .transparent) {k : ArgKind} (hk : k.group = .conversion) :
    ¬ kinds as k := by
  intro hc
  exact absurd ((h.2.1 _ _ ht hc).trans hk) (by decide)

theorem serByFields_iff {pp : String → Option Pa} {attrs : List SynAttr} {as : List (Arg Pa)} (h : Documented pp .struct attrs as) :
    SerByFields pp attrs ↔ ¬ kinds as .into ∧ ¬ kinds as .to := by
  constructor
  · rintro ⟨bs, hb, h1, h2⟩
    exact ⟨fun hk => h1 (((sameArgs h hb).kinds _).mp hk), fun hk => h2 (((sameArgs h hb).kinds _).mp hk)⟩
  · exact fun hk => ⟨as, h, hk⟩

theorem serDoc_conv {E : Env Pa} {pp : String → Option Pa} {self : RTy} {attrs : List SynAttr} {d : TData} {as : List (Arg Pa)} (h : Documented pp .struct attrs as)
    (hk : kinds as .into ∨ kinds as .to) : SerDoc E pp self attrs d ↔ ∃ bs, Documented pp .struct attrs bs ∧ SerNeeds E bs self := by
  constructor
  · rintro ⟨bs, hb, ⟨_, h2⟩ | ⟨h1, h2, _⟩⟩
    · exact ⟨bs, hb, h2⟩
    · have hs := (sameArgs h hb).kinds
      exact hk.elim (fun hk => absurd ((hs _).mp hk) h1) (fun hk => absurd ((hs _).mp hk) h2)
  · rintro ⟨bs, hb, h2⟩
    have hs := (sameArgs h hb).kinds
    exact ⟨bs, hb, .inl ⟨hk.imp (hs _).mp (hs _).mp, h2⟩⟩

theorem serDoc_fields {E : Env Pa} {pp : String → Option Pa} {self : RTy} {attrs : List SynAttr} {d : TData} {as : List (Arg Pa)} (h : Documented pp .struct attrs as)
    (hk : ¬ kinds as .into ∧ ¬ kinds as .to) : SerDoc E pp self attrs d ↔ EachField pp d (FieldSerNeeds E) := by
  constructor
  · rintro ⟨bs, hb, ⟨h1, _⟩ | ⟨_, _, h3⟩⟩
    · have hs := (sameArgs h hb).kinds
      exact h1.elim (fun h1 => absurd ((hs _).mpr h1) hk.1) (fun h1 => absurd ((hs _).mpr h1) hk.2)
    · exact h3
  · exact fun h3 => ⟨as, h, .inr ⟨hk.1, hk.2, h3⟩⟩

theorem deDoc_conv {E : Env Pa} {pp : String → Option Pa} {self : RTy} {attrs : List SynAttr} {d : TData} {as : List (Arg Pa)} (h : Documented pp .struct attrs as)
    (hk : kinds as .from_ ∨ kinds as .tryFrom) :
    (DeDoc E pp self attrs d ∧ DeWrap E pp self attrs d) ↔ (∃ bs, Documented pp .struct attrs bs ∧ DeNeeds E bs self) ∧
      ∃ bs, Documented pp .struct attrs bs ∧ WrapNeeds E bs self := by
  refine and_congr ?_ ?_
  · constructor
    · rintro ⟨bs, hb, ⟨_, h2⟩ | ⟨h1, h2, _⟩⟩
      · exact ⟨bs, hb, h2⟩
      · have hs := (sameArgs h hb).kinds
        exact hk.elim (fun hk => absurd ((hs _).mp hk) h1) (fun hk => absurd ((hs _).mp hk) h2)
    · rintro ⟨bs, hb, h2⟩
      have hs := (sameArgs h hb).kinds
      exact ⟨bs, hb, .inl ⟨hk.imp (hs _).mp (hs _).mp, h2⟩⟩
  · constructor
    · exact fun ⟨bs, hb, h1, _⟩ => ⟨bs, hb, h1⟩
    · rintro ⟨bs, hb, h1⟩
      have hs := (sameArgs h hb).kinds
      exact ⟨bs, hb, h1, fun n1 n2 => hk.elim (fun hk => absurd ((hs _).mp hk) n1) (fun hk => absurd ((hs _).mp hk) n2)⟩

theorem deDoc_fields {E : Env Pa} {pp : String → Option Pa} {self : RTy} {attrs : List SynAttr} {d : TData} {as : List (Arg Pa)} (h : Documented pp .struct attrs as)
    (hk : ¬ kinds as .from_ ∧ ¬ kinds as .tryFrom) :
    (DeDoc E pp self attrs d ∧ DeWrap E pp self attrs d) ↔ EachField pp d (FieldDeNeeds E) ∧ EachField pp d (WrapNeeds E) := by
  refine and_congr ?_ ?_
  · constructor
    · rintro ⟨bs, hb, ⟨h1, _⟩ | ⟨_, _, h3⟩⟩
      · have hs := (sameArgs h hb).kinds
        exact h1.elim (fun h1 => absurd ((hs _).mpr h1) hk.1) (fun h1 => absurd ((hs _).mpr h1) hk.2)
      · exact h3
    · exact fun h3 => ⟨as, h, .inr ⟨hk.1, hk.2, h3⟩⟩
  · constructor
    · rintro ⟨bs, hb, _, h2⟩
      have hs := (sameArgs h hb).kinds
      exact h2 (fun hn => hk.1 ((hs _).mpr hn)) (fun hn => hk.2 ((hs _).mpr hn))
    · exact fun h2 => ⟨as, h, fun p hp => absurd (kinds_tryFrom.mpr ⟨p, hp⟩) hk.2, fun _ _ => h2⟩

theorem sameSer {E : Env Pa} {as bs : List (Arg Pa)} (h : SameArgs as bs) {τ : RTy} (hs : SerNeeds E as τ) : SerNeeds E bs τ :=
  ⟨fun p hp => hs.into p ((h.into p).mpr hp), fun p hp => hs.to_ p ((h.to_ p).mpr hp),
    fun h1 h2 => hs.plain (fun hk => h1 ((h.kinds _).mp hk)) (fun hk => h2 ((h.kinds _).mp hk))⟩
theorem sameDe {E : Env Pa} {as bs : List (Arg Pa)} (h : SameArgs as bs) {τ : RTy} (hs : DeNeeds E as τ) : DeNeeds E bs τ :=
  ⟨fun p hp => hs.from_ p ((h.from_ p).mpr hp), fun p hp => hs.tryFrom p ((h.tryFrom p).mpr hp),
    fun h1 h2 => hs.plain (fun hk => h1 ((h.kinds _).mp hk)) (fun hk => h2 ((h.kinds _).mp hk))⟩
theorem sameWrap {E : Env Pa} {as bs : List (Arg Pa)} (h : SameArgs as bs) {τ : RTy} (hs : WrapNeeds E as τ) : WrapNeeds E bs τ :=
  fun p hp => hs p ((h.tryFrom p).mpr hp)

/-- The same requirements for a struct or an enum, taken apart or at once. -/
theorem eachField_and {pp : String → Option Pa} {d : TData} {E : Env Pa} :
    EachField pp d (FieldDeNeeds E) ∧ EachField pp d (WrapNeeds E) ↔ EachField pp d fun as τ => FieldDeNeeds E as τ ∧ WrapNeeds E as τ := by
  constructor
  · rintro ⟨h1, h2⟩ f hf
    obtain ⟨as, ha, h3⟩ := h1 f hf
    obtain ⟨bs, hb, h4⟩ := h2 f hf
    exact ⟨as, ha, h3, sameWrap (sameArgs hb ha) h4⟩
  · exact fun h => ⟨fun f hf => (h f hf).imp fun _ h => ⟨h.1, h.2.1⟩, fun f hf => (h f hf).imp fun _ h => ⟨h.1, h.2.2⟩⟩

end Typing

/-! ### What is necessary, and enough -/

/-- The impl of `derive(Serialize)` compiles if and only if the macro accepts the declaration, what the documentation asks of the types holds, and, where the fields
are serialized, the declaration is not an enum without variants. -/
theorem C119_serialize_exact (E : Env Pa) (pp : String → Option Pa) (self : RTy) (attrs : List SynAttr) (d : TData) :
    SerCompiles E pp self attrs d ↔
      (Attribute.doSerialize pp attrs d.data).isSome = true ∧ SerDoc E pp self attrs d ∧ (SerByFields pp attrs → ¬ TData.never d) := by
  rw [SerCompiles]
  cases hp : Attribute.doSerialize pp attrs d.data with
  | none => simp
  | some plan =>
    simp only [Option.isSome_some, true_and]
    rcases (C73_serialize pp attrs d.data plan).mp hp with ⟨as, ty, ha, hm, rfl⟩ | ⟨as, path, ha, hm, rfl⟩ | h
    · have hk : kinds as .into := kinds_into.mpr ⟨ty, hm⟩
      rw [conv1_ok, serDoc_conv ha (.inl hk), serByFields_iff ha, ← serNeeds_into ha hm]
      exact ⟨fun h => ⟨⟨as, ha, h⟩, fun hn => absurd hk hn.1⟩, fun ⟨⟨bs, hb, h⟩, _⟩ => sameSer (sameArgs hb ha) h⟩
    · have hk : kinds as .to := kinds_to.mpr ⟨path, hm⟩
      rw [conv2_ok, serDoc_conv ha (.inr hk), serByFields_iff ha, ← serNeeds_to ha hm]
      exact ⟨fun h => ⟨⟨as, ha, h⟩, fun hn => absurd hk hn.2⟩, fun ⟨⟨bs, hb, h⟩, _⟩ => sameSer (sameArgs hb ha) h⟩
    · have hP := fun attrs as (h : Documented pp .field attrs as) f (hf : SerField as f) τ => planSer_iff (E := E) h hf τ
      cases d with
      | struct fs =>
        cases h with
        | struct ha hn _ _ hf =>
          rw [TData.types, struct_ok, serDoc_fields ha hn, each_iff (fits_ser pp) hP hf]
          exact ⟨fun h => ⟨h, fun _ h => h⟩, fun h => h.1⟩
        | transparent ha ht _ _ _ hf =>
          rw [TData.types, transparent_ok, serDoc_fields ha ⟨plan_noConv ha.2 ht rfl, plan_noConv ha.2 ht rfl⟩, each_iff (fits_ser pp) hP hf]
          exact ⟨fun h => ⟨h, fun _ h => h⟩, fun h => h.1⟩
      | enum vs =>
        cases h with
        | enum ha hn hv =>
          have ha' := documented_enum ha
          rw [TData.types, enum_ok, serDoc_fields ha' hn, serByFields_iff ha', Ne, zip_nil_iff hv, eachVariant_iff (fits_ser pp) hP hv]
          exact ⟨fun h => ⟨h.2, fun _ => h.1⟩, fun h => ⟨h.2 hn, h.1⟩⟩

/-- The impl of `derive(Deserialize)` compiles if and only if the macro accepts the declaration, what the documentation asks of the types holds, and, wherever
`try_from` is used, its error can be wrapped and the crate has a dependency on anyhow. -/
theorem C119_deserialize_exact (E : Env Pa) (pp : String → Option Pa) (self : RTy) (attrs : List SynAttr) (d : TData) :
    DeCompiles E pp self attrs d ↔
      (Attribute.doDeserialize pp attrs d.data).isSome = true ∧ DeDoc E pp self attrs d ∧ DeWrap E pp self attrs d := by
  rw [DeCompiles]
  cases hp : Attribute.doDeserialize pp attrs d.data with
  | none => simp
  | some plan =>
    simp only [Option.isSome_some, true_and]
    rcases (C73_deserialize pp attrs d.data plan).mp hp with ⟨as, ty, ha, hm, rfl⟩ | ⟨as, ty, ha, hm, rfl⟩ | h
    · rw [deConv1_ok, deDoc_conv ha (.inl (kinds_from.mpr ⟨ty, hm⟩)), ← deNeeds_from ha hm]
      exact ⟨fun h => ⟨⟨as, ha, h.1⟩, ⟨as, ha, h.2⟩⟩, fun ⟨⟨_, hb, h⟩, ⟨_, hc, h'⟩⟩ => ⟨sameDe (sameArgs hb ha) h, sameWrap (sameArgs hc ha) h'⟩⟩
    · rw [deConv2_ok, deDoc_conv ha (.inr (kinds_tryFrom.mpr ⟨ty, hm⟩)), ← deNeeds_tryFrom ha hm]
      exact ⟨fun h => ⟨⟨as, ha, h.1⟩, ⟨as, ha, h.2⟩⟩, fun ⟨⟨_, hb, h⟩, ⟨_, hc, h'⟩⟩ => ⟨sameDe (sameArgs hb ha) h, sameWrap (sameArgs hc ha) h'⟩⟩
    · have hP := fun attrs as (h : Documented pp .field attrs as) f (hf : DeField as f) τ => planDe_iff (E := E) h hf τ
      cases d with
      | struct fs =>
        cases h with
        | struct ha hn _ _ hf =>
          rw [TData.types, deStruct_ok, deDoc_fields ha hn, each_iff (fits_de pp) hP hf, eachField_and]
          exact Iff.rfl
        | transparent ha ht _ _ _ hf =>
          rw [TData.types, deTransparent_ok, deDoc_fields ha ⟨plan_noConv ha.2 ht rfl, plan_noConv ha.2 ht rfl⟩, each_iff (fits_de pp) hP hf, eachField_and]
          exact Iff.rfl
      | enum vs =>
        cases h with
        | enum ha hn hv =>
          rw [TData.types, deEnum_ok, deDoc_fields (documented_enum ha) hn, eachVariant_iff (fits_de pp) hP hv, eachField_and]
          exact Iff.rfl

/-! ### Worlds for the examples -/

/-- A crate that depends on anyhow, with a type `Foo` that is `Serialize`, `Deserialize`, `Clone` and `Into<Foo>`, and the impls of the standard library that are
used below. -/
def exampleWorld : Env String where
  impls tr τ := (tr, τ) ∈ ([(.serialize, .named "Foo"), (.deserialize, .named "Foo"), (.clone, .named "Bar"), (.into (.named "Foo"), .named "Bar"),
    (.from_ (.named "Foo"), .named "Bar"), (.tryFrom (.named "Foo"), .named "Bar"), (.default, .prim .i32), (.ord, .prim .string)] : List (TraitRef × RTy))
  tyOf s := .named s
  toFn _ _ := none
  mkFn _ _ := False
  anyhow := True

instance (tr : TraitRef) (τ : RTy) : Decidable (exampleWorld.impls tr τ) := by unfold exampleWorld; infer_instance

theorem exampleWorld_orphans : Orphans exampleWorld := by
  rintro tr τ (rfl | rfl) h
  · refine ⟨"Foo", ?_⟩
    simpa [exampleWorld] using h
  · refine ⟨"Foo", ?_⟩
    simpa [exampleWorld] using h

/-- `#[bsn1_serde(name = "ty")]` -/
def exampleConv (name ty : String) : List SynAttr := [.bsn1Serde [.ident name, .punct '=', .literal ("\"" ++ ty ++ "\"")]]

-- `struct S { x: BTreeMap<String, Foo>, #[bsn1_serde(into = "Foo")] y: Bar }` is fine, with `y` not annotated it is not.
example : SerCompiles exampleWorld anyPath (.named "S") []
    (.struct [([], .coll2 .btreeMap (.prim .string) (.named "Foo")), (exampleConv "into" "Foo", .named "Bar")]) := by
  refine struct_ok.mpr (List.forall_mem_cons.mpr ⟨?_, List.forall_mem_cons.mpr ⟨?_, by simp⟩⟩)
  · exact .ser2 _ (.serPrim _) (.given (by simp [exampleWorld]))
  · exact ⟨.given (by decide +kernel), .given (by decide +kernel), .given (by decide +kernel)⟩
example : ¬ SerCompiles exampleWorld anyPath (.named "S") [] (.struct [([], .named "Bar")]) := by
  intro h
  have := (struct_ok.mp h) _ (List.mem_singleton.mpr rfl)
  rcases this with h | _ | _ | _
  simp [exampleWorld] at h

-- Likewise when it is read; here the map asks for the order of its keys as well.
example : DeCompiles exampleWorld anyPath (.named "S") []
    (.struct [([], .coll2 .btreeMap (.prim .string) (.named "Foo")), (exampleConv "from" "Foo", .named "Bar"),
      ([.bsn1Serde [.ident "skip"]], .prim .i32)]) := by
  refine deStruct_ok.mpr (List.forall_mem_cons.mpr ⟨?_, List.forall_mem_cons.mpr ⟨?_, List.forall_mem_cons.mpr ⟨?_, by simp⟩⟩⟩)
  · exact .deBTreeMap (.dePrim _) (.given (by decide +kernel)) (.given (by decide +kernel))
  · exact ⟨.given (by decide +kernel), .given (by decide +kernel)⟩
  · exact .given (by decide +kernel)

/-! ### Where the documentation says too little -/

/-- `derive(Serialize)` on an enum without variants: it is accepted and all that is documented holds, yet the code does not compile, whatever is known. -/
theorem C119_never_violated (E : Env Pa) (pp : String → Option Pa) (self : RTy) :
    (Attribute.doSerialize pp [] (TData.enum []).data).isSome = true ∧ SerDoc E pp self [] (.enum []) ∧ ¬ SerCompiles E pp self [] (.enum []) := by
  have hd : Documented pp .struct [] [] :=
    ⟨⟨List.nodup_nil, .inl ⟨by simp, rfl⟩⟩, by simp [Accepted, kinds]⟩
  have hk : ∀ k, ¬ kinds ([] : List (Arg Pa)) k := by simp [kinds]
  refine ⟨rfl, ⟨[], hd, .inr ⟨hk _, hk _, by simp [EachField, TData.fields]⟩⟩, fun h => ?_⟩
  exact ((C119_serialize_exact E pp self [] (.enum [])).mp h).2.2 ⟨[], hd, hk _, hk _⟩ rfl

/-- `#[bsn1_serde(try_from = "Foo")] struct Bar;` where `Bar` is `TryFrom<Foo>` with an error that is not a `std::error::Error` (a `String`, say): all that is
documented holds, yet the code does not compile.  The documentation says "wraps the error into `::bsn1::Error`" of any error. -/
theorem C119_error_violated :
    (Attribute.doDeserialize anyPath (exampleConv "try_from" "Foo") (TData.struct []).data).isSome = true ∧
      DeDoc exampleWorld anyPath (.named "Bar") (exampleConv "try_from" "Foo") (.struct []) ∧
      ¬ DeCompiles exampleWorld anyPath (.named "Bar") (exampleConv "try_from" "Foo") (.struct []) := by
  obtain ⟨as, ty, ha, hm, e⟩ : ∃ as ty, Documented anyPath .struct (exampleConv "try_from" "Foo") as ∧ Arg.tryFrom ty ∈ as ∧
      (Plan.conv2 "Foo" : Plan String (DeFieldPlan String)) = .conv2 ty := by
    rcases (C73_deserialize anyPath (exampleConv "try_from" "Foo") (.struct []) (.conv2 "Foo")).mp rfl with ⟨_, _, _, _, e⟩ | h | h
    · cases e
    · exact h
    · cases h
  cases e
  refine ⟨rfl, ⟨as, ha, .inl ⟨.inr (kinds_tryFrom.mpr ⟨_, hm⟩), ?_⟩⟩, fun h => ?_⟩
  · refine ⟨fun q hq => absurd ⟨kinds_from.mpr ⟨q, hq⟩, kinds_tryFrom.mpr ⟨_, hm⟩⟩ ha.2.2.2.1, fun q hq => ?_, fun _ hn => absurd (kinds_tryFrom.mpr ⟨_, hm⟩) hn⟩
    cases one_tryFrom ha hm hq
    exact ⟨.given (by decide +kernel), .given (by decide +kernel)⟩
  · have := (deConv2_ok (d := .struct [])).mp h
    cases this.2.1 with
    | given h => exact absurd h (by decide +kernel)

/-- The same world without anyhow, but with an error that can be wrapped. -/
def exampleNoAnyhow : Env String :=
  { exampleWorld with impls := fun tr τ => exampleWorld.impls tr τ ∨ tr = .tryFromStd (.named "Foo") ∧ τ = .named "Bar", anyhow := False }

/-- The same declaration where the error is fine, in a crate that does not depend on anyhow: generated code names `::anyhow::Error`, so it does not compile. -/
theorem C119_anyhow_violated :
    (Attribute.doDeserialize anyPath (exampleConv "try_from" "Foo") (TData.struct []).data).isSome = true ∧
      DeDoc exampleNoAnyhow anyPath (.named "Bar") (exampleConv "try_from" "Foo") (.struct []) ∧
      Holds exampleNoAnyhow (.tryFromStd (.named "Foo")) (.named "Bar") ∧
      ¬ DeCompiles exampleNoAnyhow anyPath (.named "Bar") (exampleConv "try_from" "Foo") (.struct []) := by
  obtain ⟨as, ty, ha, hm, e⟩ : ∃ as ty, Documented anyPath .struct (exampleConv "try_from" "Foo") as ∧ Arg.tryFrom ty ∈ as ∧
      (Plan.conv2 "Foo" : Plan String (DeFieldPlan String)) = .conv2 ty := by
    rcases (C73_deserialize anyPath (exampleConv "try_from" "Foo") (.struct []) (.conv2 "Foo")).mp rfl with ⟨_, _, _, _, e⟩ | h | h
    · cases e
    · exact h
    · cases h
  cases e
  refine ⟨rfl, ⟨as, ha, .inl ⟨.inr (kinds_tryFrom.mpr ⟨_, hm⟩), ?_⟩⟩, .given (.inr ⟨rfl, rfl⟩), fun h => ?_⟩
  · refine ⟨fun q hq => absurd ⟨kinds_from.mpr ⟨q, hq⟩, kinds_tryFrom.mpr ⟨_, hm⟩⟩ ha.2.2.2.1, fun q hq => ?_, fun _ hn => absurd (kinds_tryFrom.mpr ⟨_, hm⟩) hn⟩
    cases one_tryFrom ha hm hq
    exact ⟨.given (.inl (by decide +kernel)), .given (.inl (by decide +kernel))⟩
  · exact ((deConv2_ok (d := .struct [])).mp h).2.2.1

/-- Without `try_from` and with at least one variant, what is documented is enough. -/
theorem C119_documented_partial (E : Env Pa) (pp : String → Option Pa) (self : RTy) (attrs : List SynAttr) (d : TData)
    (hs : (Attribute.doSerialize pp attrs d.data).isSome = true) (hd : (Attribute.doDeserialize pp attrs d.data).isSome = true)
    (hv : ¬ TData.never d) (hc : ∀ as, Documented pp .struct attrs as → ¬ kinds as .tryFrom)
    (hf : ∀ f ∈ TData.fields d, ∀ as, Documented pp .field f.1 as → ¬ kinds as .tryFrom) :
    (SerCompiles E pp self attrs d ↔ SerDoc E pp self attrs d) ∧ (DeCompiles E pp self attrs d ↔ DeDoc E pp self attrs d) := by
  refine ⟨⟨fun h => ((C119_serialize_exact ..).mp h).2.1, fun h => (C119_serialize_exact ..).mpr ⟨hs, h, fun _ => hv⟩⟩,
    ⟨fun h => ((C119_deserialize_exact ..).mp h).2.1, fun h => (C119_deserialize_exact ..).mpr ⟨hd, h, ?_⟩⟩⟩
  obtain ⟨as, ha, h⟩ := h
  refine ⟨as, ha, fun p hp => absurd (kinds_tryFrom.mpr ⟨p, hp⟩) (hc as ha), fun h1 h2 f hm => ?_⟩
  rcases h with ⟨h3, _⟩ | ⟨_, _, h3⟩
  · exact absurd h3 (not_or.mpr ⟨h1, h2⟩)
  · obtain ⟨bs, hb, _⟩ := h3 f hm
    exact ⟨bs, hb, fun p hp => absurd (kinds_tryFrom.mpr ⟨p, hp⟩) (hf f hm bs hb)⟩

/-! ### Parameters and their bounds -/

/-- The bounds of a generated impl are those of the declaration, at its parameters and in its where clause: all of them and no others. -/
theorem C119_bounds_kept (params : List (String × List TraitRef)) (wc : List (TraitRef × RTy)) (tr : TraitRef) (τ : RTy) :
    (tr, τ) ∈ implBounds params wc ↔ (∃ p ∈ params, tr ∈ p.2 ∧ τ = .param p.1) ∨ (tr, τ) ∈ wc := by
  simp only [implBounds, List.mem_append, List.mem_flatMap, List.mem_map, Prod.mk.injEq]
  refine or_congr_left ⟨?_, ?_⟩
  · rintro ⟨p, hp, t, ht, rfl, rfl⟩; exact ⟨p, hp, ht, rfl⟩
  · rintro ⟨p, hp, ht, rfl⟩; exact ⟨p, hp, tr, ht, rfl, rfl⟩

-- `<T: Serialize + Ord> where Vec<T>: Default`
example : (.ord, .param "T") ∈ implBounds [("T", [.serialize, .ord])] [(.default, .coll1 .vec (.param "T"))] ∧
    (.default, .coll1 .vec (.param "T")) ∈ implBounds [("T", [.serialize, .ord])] [(.default, .coll1 .vec (.param "T"))] ∧
    (.deserialize, .param "T") ∉ implBounds [("T", [.serialize, .ord])] [(.default, .coll1 .vec (.param "T"))] := by decide

/-- Which bounds make a type `Serialize` or `Deserialize` inside of a generated impl. -/
theorem C119_bounds_exact (E : Env Pa) (ho : Orphans E) (params : List (String × List TraitRef)) (wc : List (TraitRef × RTy)) (τ : RTy) :
    (Holds (E.inside (implBounds params wc)) .serialize τ ↔ SerBound E (implBounds params wc) τ) ∧
      (Holds (E.inside (implBounds params wc)) .deserialize τ ↔ DeBound E (implBounds params wc) τ) :=
  ⟨orphan_ser ho, orphan_de ho⟩

-- `Vec<T>` is `Serialize` where `T: Serialize`, and is not where `T: Deserialize` only.
example : SerBound exampleWorld (implBounds [("T", [.serialize])] []) (.coll1 .vec (.param "T")) ∧
    ¬ SerBound exampleWorld (implBounds [("T", [.deserialize])] []) (.coll1 .vec (.param "T")) := by
  simp [SerBound, implBounds]

/-- For a struct without attributes: what the bounds have to say of its fields. -/
theorem C119_plain_struct_exact (E : Env Pa) (ho : Orphans E) (params : List (String × List TraitRef)) (wc : List (TraitRef × RTy))
    (pp : String → Option Pa) (self : RTy) (tys : List RTy) :
    (SerCompiles (E.inside (implBounds params wc)) pp self [] (.struct (tys.map fun τ => ([], τ))) ↔ ∀ τ ∈ tys, SerBound E (implBounds params wc) τ) ∧
      (DeCompiles (E.inside (implBounds params wc)) pp self [] (.struct (tys.map fun τ => ([], τ))) ↔ ∀ τ ∈ tys, DeBound E (implBounds params wc) τ) := by
  have hk : ∀ k, ¬ kinds ([] : List (Arg Pa)) k := by simp [kinds]
  have hd : ∀ pos, Documented pp pos [] ([] : List (Arg Pa)) := fun pos => ⟨⟨List.nodup_nil, .inl ⟨by simp, rfl⟩⟩, by simp [Accepted, kinds]⟩
  have hi : IdentOf ([] : List (Arg Pa)) 0 1 16 := ⟨0, 1, 16, .inr ⟨hk _, rfl⟩, .inr ⟨hk _, rfl⟩, .inr ⟨hk _, rfl⟩, .inr ⟨hk _, rfl⟩⟩
  have hdata : (TData.struct (tys.map fun τ => (([] : List SynAttr), τ))).data = .struct (List.replicate tys.length []) := by
    rw [TData.data, List.map_map]
    exact congrArg Data.struct (List.map_const' ..)
  have htys : (TData.struct (tys.map fun τ => (([] : List SynAttr), τ))).types = .struct tys := by
    rw [TData.types, List.map_map]
    exact congrArg DataTys.struct (List.map_id _)
  have hzip : ∀ {F : Type} (f : F) (P : F → RTy → Prop), (∀ x ∈ (List.replicate tys.length f).zip tys, P x.1 x.2) ↔ ∀ τ ∈ tys, P f τ := by
    intro F f P
    induction tys with
    | nil => simp
    | cons t ts ih => simp only [List.length_cons, List.replicate_succ, List.zip_cons_cons, List.forall_mem_cons, ih (by
        rw [TData.data, List.map_map]; exact congrArg Data.struct (List.map_const' ..)) (by
        rw [TData.types, List.map_map]; exact congrArg DataTys.struct (List.map_id _))]
  have hall : ∀ {F : Type} (spec : List (Arg Pa) → F → Prop) (f : F), spec [] f → ∀ n, List.Forall₂ (FieldPlan pp spec) (List.replicate n []) (List.replicate n f) := by
    intro F spec f h n
    induction n with
    | zero => exact .nil
    | succ n ih => exact .cons ⟨[], hd _, h⟩ ih
  constructor
  · have hp := (C73_serialize pp [] (.struct (List.replicate tys.length [])) _).mpr (.inr (.inr (.struct (hd _) ⟨hk _, hk _⟩ (hk _) hi
      (hall SerField .plain ⟨hk _, hk _, hk _, hk _⟩ tys.length))))
    rw [SerCompiles, hdata, hp, htys]
    refine struct_ok.trans ((hzip SerFieldPlan.plain (PlanSer _)).trans (forall₂_congr fun τ _ => orphan_ser ho))
  · have hp := (C73_deserialize pp [] (.struct (List.replicate tys.length [])) _).mpr (.inr (.inr (.struct (hd _) ⟨hk _, hk _⟩ (hk _) hi
      (hall DeField .plain ⟨hk _, hk _, hk _, hk _⟩ tys.length))))
    rw [DeCompiles, hdata, hp, htys]
    refine deStruct_ok.trans ((hzip DeFieldPlan.plain (PlanDe _)).trans (forall₂_congr fun τ _ => orphan_de ho))

-- `struct S<T: Serialize> { x: Vec<T>, y: Foo }`
example : SerCompiles (exampleWorld.inside (implBounds [("T", [.serialize])] [])) anyPath (.named "S<T>") [] (.struct [([], .coll1 .vec (.param "T")), ([], .named "Foo")]) :=
  (C119_plain_struct_exact exampleWorld exampleWorld_orphans [("T", [.serialize])] [] anyPath (.named "S<T>") [.coll1 .vec (.param "T"), .named "Foo"]).1.mpr
    (by simp [SerBound, implBounds, exampleWorld])

/-- `struct S<T> { x: T }` does not compile with either derive: unlike the derives of the standard library, these add no bound for `T`.  Its instances are fine. -/
theorem C119_no_bound_added (E : Env Pa) (ho : Orphans E) (pp : String → Option Pa) (self : RTy) :
    ¬ SerCompiles (E.inside (implBounds [("T", [])] [])) pp self [] (.struct [([], .param "T")]) ∧
    ¬ DeCompiles (E.inside (implBounds [("T", [])] [])) pp self [] (.struct [([], .param "T")]) ∧
    SerCompiles E pp self [] (.struct [([], .prim .i32)]) ∧ DeCompiles E pp self [] (.struct [([], .prim .i32)]) := by
  refine ⟨fun h => ?_, fun h => ?_, ?_, ?_⟩
  · have := (C119_plain_struct_exact E ho [("T", [])] [] pp self [.param "T"]).1.mp h
    simp [SerBound, implBounds] at this
  · have := (C119_plain_struct_exact E ho [("T", [])] [] pp self [.param "T"]).2.mp h
    simp [DeBound, implBounds] at this
  · have h := (C119_plain_struct_exact E ho [] [] pp self [.prim .i32]).1.mpr (by simp [SerBound])
    simpa [Env.inside, implBounds] using h
  · have h := (C119_plain_struct_exact E ho [] [] pp self [.prim .i32]).2.mpr (by simp [DeBound])
    simpa [Env.inside, implBounds] using h

example : Orphans exampleWorld := exampleWorld_orphans

/-! ### Instances -/

/-- What compiles with parameters compiles with all types in their place that meet the bounds: no error shows up only when the type is used. -/
theorem C119_instances (s : String → RTy) (E E' : Env Pa) (hi : Instance s E E') (pp : String → Option Pa) (self : RTy) (attrs : List SynAttr) (d : TData) :
    (SerCompiles E pp self attrs d → SerCompiles E' pp (RTy.subst s self) attrs (TData.subst s d)) ∧
      (DeCompiles E pp self attrs d → DeCompiles E' pp (RTy.subst s self) attrs (TData.subst s d)) := by
  have hdata : (TData.subst s d).data = d.data := by
    cases d with
    | struct fs => simp [TData.subst, TData.data, Function.comp_def]
    | enum vs => simp [TData.subst, TData.data, Function.comp_def]
  have hnever : TData.never (TData.subst s d) ↔ TData.never d := by
    cases d with
    | struct fs => exact Iff.rfl
    | enum vs => simp [TData.subst, TData.never]
  have hfields : ∀ f ∈ TData.fields (TData.subst s d), ∃ g ∈ TData.fields d, f = (g.1, RTy.subst s g.2) := by
    intro f hf
    cases d with
    | struct fs =>
      obtain ⟨g, hg, rfl⟩ := List.mem_map.mp hf
      exact ⟨g, hg, rfl⟩
    | enum vs =>
      obtain ⟨v', hv', hf⟩ := List.mem_flatMap.mp hf
      obtain ⟨v, hv, rfl⟩ := List.mem_map.mp hv'
      obtain ⟨g, hg, rfl⟩ := List.mem_map.mp hf
      exact ⟨g, List.mem_flatMap.mpr ⟨v, hv, hg⟩, rfl⟩
  have each : ∀ needs needs' : List (Arg Pa) → RTy → Prop, (∀ as τ, needs as τ → needs' as (RTy.subst s τ)) → EachField pp d needs →
      EachField pp (TData.subst s d) needs' := by
    intro needs needs' h he f hf
    obtain ⟨g, hg, rfl⟩ := hfields f hf
    obtain ⟨as, ha, h'⟩ := he g hg
    exact ⟨as, ha, h as _ h'⟩
  have hh := fun {tr τ} (h : Holds E tr τ) => holds_instance hi h
  have ser : ∀ as τ, SerNeeds E as τ → SerNeeds E' as (RTy.subst s τ) := fun as τ h =>
    ⟨fun p hp => by
      obtain ⟨h1, h2, h3⟩ := h.into p hp
      rw [hi.tyOf]
      exact ⟨hh h1, hh h2, hh h3⟩,
    fun p hp => by
      obtain ⟨σ, h1, h2⟩ := h.to_ p hp
      exact ⟨_, hi.toFn p τ σ h1, hh h2⟩,
    fun h1 h2 => hh (h.plain h1 h2)⟩
  have de : ∀ as τ, DeNeeds E as τ → DeNeeds E' as (RTy.subst s τ) := fun as τ h =>
    ⟨fun p hp => by rw [hi.tyOf]; exact ⟨hh (h.from_ p hp).1, hh (h.from_ p hp).2⟩,
      fun p hp => by rw [hi.tyOf]; exact ⟨hh (h.tryFrom p hp).1, hh (h.tryFrom p hp).2⟩, fun h1 h2 => hh (h.plain h1 h2)⟩
  have wrap : ∀ as τ, WrapNeeds E as τ → WrapNeeds E' as (RTy.subst s τ) := fun as τ h p hp => by
    rw [hi.tyOf]
    exact ⟨hh (h p hp).1, hi.anyhow (h p hp).2⟩
  constructor
  · intro h
    obtain ⟨h1, ⟨as, ha, h2⟩, h3⟩ := (C119_serialize_exact ..).mp h
    refine (C119_serialize_exact ..).mpr ⟨by rw [hdata]; exact h1, ⟨as, ha, ?_⟩, fun hb hn => h3 hb (hnever.mp hn)⟩
    exact h2.imp (fun h => ⟨h.1, ser as _ h.2⟩) (fun h => ⟨h.1, h.2.1, each _ _ (fun as τ h n1 n2 => ser as τ (h n1 n2)) h.2.2⟩)
  · intro h
    obtain ⟨h1, ⟨as, ha, h2⟩, ⟨bs, hb, h3, h4⟩⟩ := (C119_deserialize_exact ..).mp h
    refine (C119_deserialize_exact ..).mpr ⟨by rw [hdata]; exact h1, ⟨as, ha, ?_⟩, ⟨bs, hb, wrap bs _ h3, fun n1 n2 => each _ _ wrap (h4 n1 n2)⟩⟩
    exact h2.imp (fun h => ⟨h.1, de as _ h.2⟩) (fun h => ⟨h.1, h.2.1, each _ _ (fun as τ h =>
      ⟨fun n1 n2 => de as τ (h.read n1 n2), fun n1 n2 => hh (tr := .default) (h.dflt n1 n2), fun n1 p hp => hi.mkFn p τ (h.given n1 p hp)⟩) h.2.2⟩)

-- `S<i32>` of the struct above
example : SerCompiles exampleWorld anyPath (.named "S<T>") [] (.struct [([], .coll1 .vec (.prim .i32)), ([], .named "Foo")]) := by
  refine (C119_instances (fun _ => .prim .i32) (exampleWorld.inside (implBounds [("T", [.serialize])] [])) exampleWorld ⟨?_, fun _ => rfl, nofun, nofun, id⟩
    anyPath (.named "S<T>") [] (.struct [([], .coll1 .vec (.param "T")), ([], .named "Foo")])).1
    ((C119_plain_struct_exact exampleWorld exampleWorld_orphans [("T", [.serialize])] [] anyPath (.named "S<T>") [.coll1 .vec (.param "T"), .named "Foo"]).1.mpr
      (by simp [SerBound, implBounds, exampleWorld]))
  rintro tr τ (h | h)
  · simp only [exampleWorld, List.mem_cons, List.not_mem_nil, or_false, Prod.mk.injEq] at h
    rcases h with h | h | h | h | h | h | h | h <;> obtain ⟨rfl, rfl⟩ := h <;> exact .given (by decide +kernel)
  · simp only [implBounds, List.flatMap_cons, List.flatMap_nil, List.map_cons, List.map_nil, List.append_nil, List.mem_singleton, Prod.mk.injEq] at h
    obtain ⟨rfl, rfl⟩ := h
    exact .serPrim _

end Bsn1
