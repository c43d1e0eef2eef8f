import Verif.Spec.Scope
/-!
# C106: names in a declaration keep their meaning in the generated code

Exactly which paths in the attributes of a declaration, and which names around it, are taken for something else in the code that the derive macros generate.
-/

namespace Bsn1
open Spec

/-! ## Which paths are safe -/

/-- A path to a type that `W`, the parameter of the generated methods, does not hide. -/
def Spec.TypeFree (p : UPath) : Prop := p.global = true ∨ p.head ≠ "W"

/-- A path to a function that neither `W` (as the first of several segments) nor one of the given variables (as the only segment) hides. -/
def Spec.FnFree (vars : List String) (p : UPath) : Prop :=
  p.global = true ∨ if p.more then p.head ≠ "W" else p.head ∉ vars

/-- The paths in the attributes of a field are not hidden where they are written out. -/
def Spec.ConversionFree (vars : List String) : SerAttr → Prop
  | .into ty => TypeFree ty
  | .to path => FnFree vars path
  | _ => True

/-- The path in `default` is not hidden by the given variables, or there is none and `Default` is the one of the prelude. -/
def Spec.DefaultFree (E : UserScope) (vars : List String) : DeAttr → Prop
  | .skip none => "Default" ∉ E.types
  | .skip (some p) => p.global = true ∨ p.more = true ∨ p.head ∉ vars
  | _ => True

theorem right_type_W (E : UserScope) (vs : List String) (p : UPath) : Right E ["W"] vs ⟨p, false, true⟩ ↔ TypeFree p := by
  rcases p with ⟨g, h, m⟩
  cases g <;> simp [Right, meaning, amongTypes, TypeFree]
  by_cases hW : h = "W" <;> simp [hW]
  split <;> simp

theorem right_fn_W (E : UserScope) (vs : List String) (p : UPath) : Right E ["W"] vs ⟨p, true, true⟩ ↔ FnFree vs p := by
  rcases p with ⟨g, h, m⟩
  cases g <;> simp [Right, meaning, amongTypes, FnFree]
  cases m
  · by_cases hW : h ∈ vs <;> simp [hW]
    split <;> simp
  · by_cases hW : h = "W" <;> simp [hW]
    split <;> simp

theorem right_some (E : UserScope) (vs : List String) : Right E [] vs someMention ↔ "Some" ∉ vs ∧ "Some" ∉ E.values := by
  by_cases h1 : "Some" ∈ vs <;> by_cases h2 : "Some" ∈ E.values <;> simp [Right, meaning, amongTypes, someMention, h1, h2]

theorem right_type_nil (E : UserScope) (vs : List String) (p : UPath) : Right E [] vs ⟨p, false, true⟩ := by
  rcases p with ⟨g, h, m⟩
  cases g <;> simp [Right, meaning, amongTypes]
  split <;> simp

theorem right_fn_nil (E : UserScope) (vs : List String) (p : UPath) :
    Right E [] vs ⟨p, true, true⟩ ↔ p.global = true ∨ p.more = true ∨ p.head ∉ vs := by
  rcases p with ⟨g, h, m⟩
  cases g <;> cases m <;> simp [Right, meaning, amongTypes]
  · by_cases hW : h ∈ vs <;> simp [hW]
    split <;> simp
  · split <;> simp

theorem right_mentions (E : UserScope) (vs : List String) (f : DeAttr) :
    (∀ m ∈ f.mentions, Right E [] vs m) ↔ DefaultFree E vs f := by
  cases f with
  | skip d =>
    cases d with
    | none => by_cases h : "Default" ∈ E.types <;> simp [DeAttr.mentions, defaultMention, DefaultFree, Right, meaning, amongTypes, h]
    | some p => simp [DeAttr.mentions, defaultMention, DefaultFree, right_fn_nil]
  | «from» ty => simp [DeAttr.mentions, DefaultFree, right_type_nil]
  | tryFrom ty => simp [DeAttr.mentions, DefaultFree, right_type_nil]
  | plain => simp [DeAttr.mentions, DefaultFree]

theorem right_writeField (E : UserScope) (vs : List String) (f : SerAttr) :
    RightBlock E ["W"] vs f.writeField ↔ ConversionFree vs f := by
  cases f <;> simp [SerAttr.writeField, RightBlock, ConversionFree, right_type_W, right_fn_W]

theorem right_writeDerContents (E : UserScope) (vs : List String) (fields : List SerAttr) :
    (∀ b ∈ writeDerContentsNames fields, RightBlock E ["W"] vs b) ↔ ∀ f ∈ fields, ConversionFree vs f := by
  simp [writeDerContentsNames, right_writeField]

/-- Whether `Some` is mentioned: a field that counts, and no conversion. -/
def Spec.Counts (fields : List SerAttr) : Prop :=
  (∀ f ∈ fields, ∀ p, f ≠ .into p ∧ f ≠ .to p) ∧ .plain ∈ fields

theorem right_derContentsLen (E : UserScope) (vs : List String) (fields : List SerAttr) (hv : "Some" ∉ vs) :
    (∀ b ∈ derContentsLenNames fields, RightBlock E [] vs b) ↔ (Counts fields → "Some" ∉ E.values) := by
  unfold derContentsLenNames
  by_cases hc : fields.any SerAttr.converts = true
  · rw [if_pos hc]
    simp only [List.not_mem_nil, false_implies, implies_true, true_iff]
    rintro ⟨h, -⟩
    obtain ⟨f, hf, hfc⟩ := List.any_eq_true.1 hc
    cases f with
    | into p => exact absurd rfl (h _ hf p).1
    | to p => exact absurd rfl (h _ hf p).2
    | skip => simp [SerAttr.converts] at hfc
    | plain => simp [SerAttr.converts] at hfc
  · rw [if_neg hc]
    have hn : ∀ f ∈ fields, ∀ p, f ≠ .into p ∧ f ≠ .to p := by
      intro f hf p
      constructor <;> rintro rfl <;> exact hc (List.any_eq_true.2 ⟨_, hf, rfl⟩)
    constructor
    · rintro h ⟨-, hp⟩
      have := h [.eval [someMention]] (List.mem_cons_of_mem _ (List.mem_map.2 ⟨_, hp, rfl⟩))
      simpa [RightBlock, right_some, hv] using this
    · intro h b hb
      rcases List.mem_cons.1 hb with rfl | hb
      · simp [RightBlock]
      · obtain ⟨f, hf, rfl⟩ := List.mem_map.1 hb
        cases f with
        | into p => exact absurd rfl (hn _ hf p).1
        | to p => exact absurd rfl (hn _ hf p).2
        | skip => simp [RightBlock]
        | plain => simpa [RightBlock, right_some, hv] using h ⟨hn, hf⟩

theorem rightMethods_ser (E : UserScope) (a b c d : List GArm) :
    RightMethods E (serMethods a b c d) ↔
      (∀ x ∈ a, ∀ y ∈ x.blocks, RightBlock E ["W"] (x.vars ++ ["buffer"]) y) ∧
      (∀ x ∈ b, ∀ y ∈ x.blocks, RightBlock E ["W"] (x.vars ++ ["buffer"]) y) ∧
      (∀ x ∈ c, ∀ y ∈ x.blocks, RightBlock E [] (x.vars ++ []) y) ∧
      (∀ x ∈ d, ∀ y ∈ x.blocks, RightBlock E [] (x.vars ++ []) y) := by
  simp [RightMethods, serMethods]

/-! ## `derive(Serialize)` -/

/-- **C106.** In what `derive(Serialize)` generates for a struct, all paths stand for what was meant exactly if no type of an `into` begins with `W`, no function of a
`to` is `buffer` or begins with `W::`, and, if some field counts and none is converted, the user has no `Some` of their own. -/
theorem C106_ser_struct_iff (E : UserScope) (fields : List SerAttr) (ms : List GMethod) (h : serStructNames false fields = some ms) :
    RightMethods E ms ↔ (∀ f ∈ fields, ConversionFree ["buffer"] f) ∧ (Counts fields → "Some" ∉ E.values) := by
  simp only [serStructNames, Bool.false_eq_true, if_false, Option.some.injEq] at h
  subst h
  rw [rightMethods_ser]
  simp [right_writeDerContents, right_derContentsLen]

example : ∃ ms, serStructNames false [.plain, .into ⟨false, "Wire", false⟩, .skip, .to ⟨false, "conv", true⟩] = some ms ∧
    RightMethods ⟨["Wire", "conv"], []⟩ ms :=
  ⟨_, rfl, (C106_ser_struct_iff _ _ _ rfl).2 (by constructor <;> simp [ConversionFree, TypeFree, FnFree, Counts])⟩

/-- **C106.** The same for a `transparent` struct: only the field that counts matters. -/
theorem C106_ser_transparent_iff (E : UserScope) (fields : List SerAttr) (ms : List GMethod) (h : serStructNames true fields = some ms) :
    RightMethods E ms ↔ ∀ f ∈ fields, ConversionFree ["buffer"] f := by
  simp only [serStructNames, if_true, transparentField] at h
  obtain ⟨f, hf, h⟩ := Option.bind_eq_some_iff.1 h
  simp only [Option.pure_def, Option.some.injEq] at h
  subst h
  have hfil : fields.filter SerAttr.counts = [f] := by
    split at hf
    · next g hg => rw [hg]; simpa using hf
    · cases hf
  have hall : (∀ g ∈ fields, ConversionFree ["buffer"] g) ↔ ConversionFree ["buffer"] f := by
    constructor
    · intro hg
      have : f ∈ fields.filter SerAttr.counts := by rw [hfil]; simp
      exact hg f (List.mem_filter.1 this).1
    · intro hg g hgm
      by_cases hs : g = .skip
      · subst hs; simp [ConversionFree]
      · have : g ∈ fields.filter SerAttr.counts :=
          List.mem_filter.2 ⟨hgm, by cases g <;> simp_all [SerAttr.counts]⟩
        rw [hfil] at this
        rw [List.mem_singleton.1 this]; exact hg
  rw [rightMethods_ser, hall]
  cases f <;> simp [SerAttr.transparent, RightBlock, ConversionFree, right_type_W, right_fn_W]

example : ∃ ms, serStructNames true [.skip, .to ⟨false, "conv", false⟩] = some ms ∧ RightMethods ⟨[], ["conv", "Some"]⟩ ms :=
  ⟨_, rfl, (C106_ser_transparent_iff _ [.skip, .to ⟨false, "conv", false⟩] _ rfl).2 (by simp [ConversionFree, FnFree])⟩

/-- **C106.** The same for an enum, where the variables of the pattern may hide a function too. -/
theorem C106_ser_enum_iff (E : UserScope) (variants : List (List String × List SerAttr)) (hv : ∀ v ∈ variants, "Some" ∉ v.1) :
    RightMethods E (serEnumNames variants) ↔
      ∀ v ∈ variants, (∀ f ∈ v.2, ConversionFree (v.1 ++ ["buffer"]) f) ∧ (Counts v.2 → "Some" ∉ E.values) := by
  rw [serEnumNames, rightMethods_ser]
  simp only [List.mem_map, forall_exists_index, and_imp, forall_apply_eq_imp_iff₂, List.not_mem_nil, false_implies, implies_true, true_and,
    right_writeDerContents, List.append_nil]
  constructor
  · rintro ⟨h1, h2⟩ v hm
    exact ⟨h1 v hm, (right_derContentsLen E v.1 v.2 (hv v hm)).1 (h2 v hm)⟩
  · intro h
    exact ⟨fun v hm => (h v hm).1, fun v hm => (right_derContentsLen E v.1 v.2 (hv v hm)).2 (h v hm).2⟩

example : RightMethods ⟨["Wire"], ["conv"]⟩ (serEnumNames [([], []), (["bsn1_macro_field_1701146321_x"], [.to ⟨false, "conv", false⟩]),
    (["bsn1_macro_field_1701146321_0", "bsn1_macro_field_1701146321_1"], [.plain, .into ⟨false, "Wire", false⟩])]) :=
  (C106_ser_enum_iff _ _ (by simp)).2 (by simp [ConversionFree, TypeFree, FnFree, Counts])

/-- **C106.** A container with `into` needs a type that does not begin with `W`. -/
theorem C106_ser_into_iff (E : UserScope) (ty : UPath) : RightMethods E (serIntoNames ty) ↔ TypeFree ty := by
  simp [serIntoNames, rightMethods_ser, RightBlock, right_type_W]

example : RightMethods ⟨["Wire"], []⟩ (serIntoNames ⟨false, "Wire", true⟩) := (C106_ser_into_iff _ _).2 (by simp [TypeFree])

/-- **C106.** A container with `to` needs a function that is not `buffer` and does not begin with `W::`. -/
theorem C106_ser_to_iff (E : UserScope) (path : UPath) : RightMethods E (serToNames path) ↔ FnFree ["buffer"] path := by
  simp [serToNames, rightMethods_ser, RightBlock, right_fn_W]

example : RightMethods ⟨[], ["this"]⟩ (serToNames ⟨false, "this", false⟩) := (C106_ser_to_iff _ _).2 (by simp [FnFree])

/-! ## `derive(Deserialize)` -/

theorem rightMethods_de (E : UserScope) (a : List GArm) :
    RightMethods E (deMethods a) ↔
      (∀ x ∈ a, ∀ y ∈ x.blocks, RightBlock E [] (x.vars ++ ["id", "length", "contents"]) y) ∧
      (∀ x ∈ a, ∀ y ∈ x.blocks, RightBlock E [] (x.vars ++ ["id", "contents"]) y) := by
  simp [RightMethods, deMethods]

theorem right_ctor (E : UserScope) (vs : List String) (name : String) (variant : Bool) (style : CtorStyle) :
    Right E [] vs (ctorMention name variant style) ↔ variant = true ∨ style = .named ∨ name ∉ vs := by
  cases style <;> simp [ctorMention, CtorStyle.isValue, right_fn_nil, right_type_nil]

theorem defaultFree_mono (E : UserScope) {vs ws : List String} (h : ∀ x ∈ vs, x ∈ ws) (f : DeAttr) (hf : DefaultFree E ws f) : DefaultFree E vs f := by
  cases f with
  | skip d =>
    cases d with
    | none => exact hf
    | some p =>
      rcases hf with hf | hf | hf
      · exact .inl hf
      · exact .inr (.inl hf)
      · exact .inr (.inr fun hm => hf (h _ hm))
  | _ => trivial

/-- The variables in scope where the fields of a constructor are written, unless the struct is `transparent`. -/
def Spec.deVars (transparent : Bool) : List String :=
  if transparent then ["id", "length", "contents"]
  else ["bsn1_macro_1704080283_contents_bytes", "id", "length", "contents"]

theorem right_fromContents (E : UserScope) (vs : List String) (c : Mention) (fields : List DeAttr) :
    RightBlock E [] vs (fromContentsNames c fields) ↔
      Right E [] ("bsn1_macro_1704080283_contents_bytes" :: "bsn1_macro_1704080283_contents_bytes" :: vs) c ∧
      ∀ f ∈ fields, DefaultFree E ("bsn1_macro_1704080283_contents_bytes" :: "bsn1_macro_1704080283_contents_bytes" :: vs) f := by
  simp only [fromContentsNames, RightBlock, List.not_mem_nil, false_implies, implies_true, true_and, and_true, List.mem_cons, forall_eq_or_imp,
    List.mem_flatMap, forall_exists_index, and_imp, ← right_mentions]
  constructor
  · rintro ⟨h1, h2⟩; exact ⟨h1, fun f hf m hm => h2 m f hf hm⟩
  · rintro ⟨h1, h2⟩; exact ⟨h1, fun m f hf hm => h2 f hf m hm⟩

theorem right_evalFields (E : UserScope) (vs : List String) (c : Mention) (fields : List DeAttr) :
    RightBlock E [] vs [.eval (c :: fields.flatMap DeAttr.mentions)] ↔ Right E [] vs c ∧ ∀ f ∈ fields, DefaultFree E vs f := by
  simp only [RightBlock, and_true, List.mem_cons, forall_eq_or_imp, List.mem_flatMap, forall_exists_index, and_imp, ← right_mentions]
  constructor
  · rintro ⟨h1, h2⟩; exact ⟨h1, fun f hf m hm => h2 m f hf hm⟩
  · rintro ⟨h1, h2⟩; exact ⟨h1, fun m f hf hm => h2 f hf m hm⟩

/-- **C106.** In what `derive(Deserialize)` generates for a struct, all paths stand for what was meant exactly if no function of a `default` is one of the variables there, no
field is skipped without a `default` while the user has a `Default` of their own, and the struct, unless it has braces, is not called as one of the variables.  Types of
`from` and `try_from` do not matter. -/
theorem C106_de_struct_iff (E : UserScope) (transparent : Bool) (name : String) (style : CtorStyle) (fields : List DeAttr) :
    RightMethods E (deStructNames transparent name style fields) ↔
      (style = .named ∨ name ∉ deVars transparent) ∧ ∀ f ∈ fields, DefaultFree E (deVars transparent) f := by
  cases transparent
  · simp only [deStructNames, Bool.false_eq_true, if_false, rightMethods_de, List.mem_singleton, forall_eq, right_fromContents, right_ctor, false_or,
      List.nil_append, deVars]
    constructor
    · rintro ⟨⟨h1, h2⟩, -⟩
      exact ⟨h1.imp_right fun h hm => h (List.mem_cons_of_mem _ hm),
        fun f hf => defaultFree_mono E (fun x hx => List.mem_cons_of_mem _ hx) f (h2 f hf)⟩
    · rintro ⟨h1, h2⟩
      refine ⟨⟨h1.imp_right fun h => ?_, fun f hf => defaultFree_mono E ?_ f (h2 f hf)⟩, h1.imp_right fun h => ?_, fun f hf => defaultFree_mono E ?_ f (h2 f hf)⟩
      all_goals simp_all
  · simp only [deStructNames, if_true, rightMethods_de, List.mem_singleton, forall_eq, right_evalFields, right_ctor, Bool.false_eq_true, false_or,
      List.nil_append, deVars]
    constructor
    · rintro ⟨h, -⟩; exact h
    · rintro ⟨h1, h2⟩
      refine ⟨⟨h1, h2⟩, h1.imp_right fun h => ?_, fun f hf => defaultFree_mono E ?_ f (h2 f hf)⟩
      all_goals simp_all

example : RightMethods ⟨["W", "P", "Wire"], ["make", "P"]⟩ (deStructNames false "P" .unnamed
    [.plain, .skip none, .skip (some ⟨false, "make", false⟩), .from ⟨false, "W", false⟩, .tryFrom ⟨false, "Wire", false⟩]) :=
  (C106_de_struct_iff _ _ _ _ _).2 (by simp [deVars, DefaultFree])

/-- **C106.** The same for an enum, whose name does not matter. -/
theorem C106_de_enum_iff (E : UserScope) (name : String) (variants : List (CtorStyle × List DeAttr)) :
    RightMethods E (deEnumNames name variants) ↔ ∀ v ∈ variants, ∀ f ∈ v.2, DefaultFree E (deVars false) f := by
  simp only [deEnumNames, rightMethods_de, List.mem_map, forall_exists_index, and_imp, forall_apply_eq_imp_iff₂, List.mem_singleton, forall_eq,
    right_fromContents, right_ctor, true_or, true_and, List.nil_append, deVars, Bool.false_eq_true, if_false]
  constructor
  · rintro ⟨h, -⟩ v hv f hf
    exact defaultFree_mono E (fun x hx => List.mem_cons_of_mem _ hx) f (h v hv f hf)
  · intro h
    refine ⟨fun v hv f hf => defaultFree_mono E ?_ f (h v hv f hf), fun v hv f hf => defaultFree_mono E ?_ f (h v hv f hf)⟩
    all_goals simp_all

example : RightMethods ⟨["contents"], ["make"]⟩ (deEnumNames "contents" [(.unit, []), (.unnamed, [.plain, .skip none]), (.named, [.skip (some ⟨false, "id", true⟩)])]) :=
  (C106_de_enum_iff _ _ _).2 (by simp [deVars, DefaultFree])

/-- **C106.** With `from` or `try_from` on the container every type keeps its meaning. -/
theorem C106_de_from (E : UserScope) (ty : UPath) : RightMethods E (deFromNames ty) := by
  simp [deFromNames, rightMethods_de, RightBlock, right_type_nil]

example : RightMethods ⟨["W"], []⟩ (deFromNames ⟨false, "W", false⟩) := C106_de_from _ _

/-! ## Parameters of the declaration -/

/-- **C106.** Whatever `derive(Serialize)` generates, it declares `W` beside the parameters of the declaration, so it is accepted exactly if none of them is called `W`. -/
theorem C106_params_iff (params : List String) (a b c d : List GArm) : ParamsDistinct params (serMethods a b c d) ↔ "W" ∉ params := by
  simp [ParamsDistinct, serMethods]

example : ParamsDistinct ["T", "N"] (serIntoNames ⟨false, "Wire", false⟩) := (C106_params_iff _ _ _ _ _).2 (by simp)

/-- **C106.** `derive(Deserialize)` declares no parameter. -/
theorem C106_de_params (params : List String) (a : List GArm) : ParamsDistinct params (deMethods a) := by
  simp [ParamsDistinct, deMethods]

example : ParamsDistinct ["W"] (deFromNames ⟨false, "W", false⟩) := C106_de_params _ _

/-! ## A rule that is enough, and what goes wrong without it -/

/-- The names that the generated code declares. -/
def Spec.reserved : List String := ["W", "buffer", "id", "length", "contents", "bsn1_macro_1704080283_contents_bytes"]

/-- **C106, partial.** If no path of an attribute and no struct has a reserved name in front and the user hides neither `Some` nor `Default`, every path in the code that is generated for a
struct means what was meant.  Missing is that there are reserved names at all. -/
theorem C106_struct_partial (E : UserScope) (transparent : Bool) (name : String) (style : CtorStyle) (ser : List SerAttr) (de : List DeAttr) (ms : List GMethod)
    (hs : serStructNames transparent ser = some ms) (hsome : "Some" ∉ E.values) (hdef : "Default" ∉ E.types) (hname : name ∉ reserved)
    (hser : ∀ p, (.into p ∈ ser ∨ .to p ∈ ser) → p.head ∉ reserved) (hde : ∀ p, .skip (some p) ∈ de → p.head ∉ reserved) :
    RightMethods E ms ∧ RightMethods E (deStructNames transparent name style de) := by
  have hc : ∀ f ∈ ser, ConversionFree ["buffer"] f := by
    intro f hf
    cases f with
    | into p => have := hser p (.inl hf); simp [reserved] at this; exact .inr this.1
    | to p =>
      have := hser p (.inr hf)
      simp [reserved] at this
      refine .inr ?_
      split
      · exact this.1
      · simpa using this.2.1
    | _ => trivial
  have hv : ∀ x ∈ deVars transparent, x ∈ reserved := by cases transparent <;> simp [deVars, reserved]
  refine ⟨?_, (C106_de_struct_iff _ _ _ _ _).2 ⟨.inr fun h => hname (hv _ h), fun f hf => ?_⟩⟩
  · cases transparent
    · exact (C106_ser_struct_iff _ _ _ hs).2 ⟨hc, fun _ => hsome⟩
    · exact (C106_ser_transparent_iff _ _ _ hs).2 hc
  · cases f with
    | skip d =>
      cases d with
      | none => exact hdef
      | some p => exact .inr (.inr fun h => hde p hf (hv _ h))
    | _ => trivial

example : RightMethods ⟨["T"], []⟩ (deStructNames false "P" .unnamed [.skip none, .skip (some ⟨false, "T", true⟩)]) :=
  (C106_struct_partial ⟨["T"], []⟩ false "P" .unnamed [.into ⟨false, "T", false⟩] _ _ rfl (by simp) (by simp) (by simp [reserved])
    (by simp [reserved]) (by simp [reserved])).2

/-- **C106, violated.** A struct with a type parameter `W` cannot derive `Serialize`; a type `W` in `into`, a function `buffer` in `to`, a function `contents` in `default` and a `Default` of
the user's own each stand for something else in the generated code. -/
theorem C106_names_violated :
    ¬ ParamsDistinct ["W"] (serEnumNames []) ∧
    ¬ RightMethods ⟨["W"], []⟩ (serIntoNames ⟨false, "W", false⟩) ∧
    ¬ RightMethods ⟨[], ["buffer"]⟩ (serToNames ⟨false, "buffer", false⟩) ∧
    ¬ RightMethods ⟨[], ["contents"]⟩ (deStructNames false "P" .named [.plain, .skip (some ⟨false, "contents", false⟩)]) ∧
    ¬ RightMethods ⟨["Default"], []⟩ (deEnumNames "E" [(.unnamed, [.skip none])]) := by
  refine ⟨fun h => (C106_params_iff _ _ _ _ _).1 h (by simp), fun h => ?_, fun h => ?_, fun h => ?_, fun h => ?_⟩
  · simpa [TypeFree] using (C106_ser_into_iff _ _).1 h
  · simpa [FnFree] using (C106_ser_to_iff _ _).1 h
  · simpa [DefaultFree, deVars] using ((C106_de_struct_iff _ _ _ _ _).1 h).2
  · simpa [DefaultFree] using (C106_de_enum_iff _ _ _).1 h

end Bsn1
