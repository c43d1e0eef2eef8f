import Verif.Lemmas.Attribute
/-!
# Lemmas on the arguments of attributes, the checks and the identifier
-/

namespace Bsn1
open Spec

variable {Pa : Type}

namespace Attribute

/-! ### The parsed attribute -/

theorem describes_nil : Describes ([] : List (Arg Pa)) {} := by
  constructor <;> simp

theorem describes_snoc {as : List (Arg Pa)} {a : Attribute Pa} {x : Arg Pa} (h : Describes as a)
    (hk : ∀ y ∈ as, y.kind ≠ x.kind) : Describes (as ++ [x]) (a.set x) := by
  cases x with
  | id c p n =>
    have hk : ∀ c p n, Arg.id c p n ∉ as := fun _ _ _ hm => hk _ hm rfl
    constructor <;> simp [set, octet, hk, h.id_, h.tagClass, h.tagPc, h.tagNum, h.skipSerializing, h.skipDeserializing,
      h.default_, h.skip, h.into, h.from_, h.to_, h.tryFrom, h.transparent, eq_comm]
  | tagClass c =>
    have hk : ∀ c, Arg.tagClass c ∉ as := fun _ hm => hk _ hm rfl
    constructor <;> simp [set, octet, hk, h.id_, h.tagClass, h.tagPc, h.tagNum, h.skipSerializing, h.skipDeserializing,
      h.default_, h.skip, h.into, h.from_, h.to_, h.tryFrom, h.transparent, eq_comm]
  | tagPc c =>
    have hk : ∀ c, Arg.tagPc c ∉ as := fun _ hm => hk _ hm rfl
    constructor <;> simp [set, octet, hk, h.id_, h.tagClass, h.tagPc, h.tagNum, h.skipSerializing, h.skipDeserializing,
      h.default_, h.skip, h.into, h.from_, h.to_, h.tryFrom, h.transparent, eq_comm]
  | tagNum c =>
    have hk : ∀ c, Arg.tagNum c ∉ as := fun _ hm => hk _ hm rfl
    constructor <;> simp [set, octet, hk, h.id_, h.tagClass, h.tagPc, h.tagNum, h.skipSerializing, h.skipDeserializing,
      h.default_, h.skip, h.into, h.from_, h.to_, h.tryFrom, h.transparent, eq_comm]
  | default c =>
    have hk : ∀ c, Arg.default c ∉ as := fun _ hm => hk _ hm rfl
    constructor <;> simp [set, octet, hk, h.id_, h.tagClass, h.tagPc, h.tagNum, h.skipSerializing, h.skipDeserializing,
      h.default_, h.skip, h.into, h.from_, h.to_, h.tryFrom, h.transparent, eq_comm]
  | into c =>
    have hk : ∀ c, Arg.into c ∉ as := fun _ hm => hk _ hm rfl
    constructor <;> simp [set, octet, hk, h.id_, h.tagClass, h.tagPc, h.tagNum, h.skipSerializing, h.skipDeserializing,
      h.default_, h.skip, h.into, h.from_, h.to_, h.tryFrom, h.transparent, eq_comm]
  | from_ c =>
    have hk : ∀ c, Arg.from_ c ∉ as := fun _ hm => hk _ hm rfl
    constructor <;> simp [set, octet, hk, h.id_, h.tagClass, h.tagPc, h.tagNum, h.skipSerializing, h.skipDeserializing,
      h.default_, h.skip, h.into, h.from_, h.to_, h.tryFrom, h.transparent, eq_comm]
  | «to» c =>
    have hk : ∀ c, Arg.to c ∉ as := fun _ hm => hk _ hm rfl
    constructor <;> simp [set, octet, hk, h.id_, h.tagClass, h.tagPc, h.tagNum, h.skipSerializing, h.skipDeserializing,
      h.default_, h.skip, h.into, h.from_, h.to_, h.tryFrom, h.transparent, eq_comm]
  | tryFrom c =>
    have hk : ∀ c, Arg.tryFrom c ∉ as := fun _ hm => hk _ hm rfl
    constructor <;> simp [set, octet, hk, h.id_, h.tagClass, h.tagPc, h.tagNum, h.skipSerializing, h.skipDeserializing,
      h.default_, h.skip, h.into, h.from_, h.to_, h.tryFrom, h.transparent, eq_comm]
  | skip | skipSerializing | skipDeserializing | transparent =>
    constructor <;> simp [set, octet, h.id_, h.tagClass, h.tagPc, h.tagNum, h.skipSerializing, h.skipDeserializing,
      h.default_, h.skip, h.into, h.from_, h.to_, h.tryFrom, h.transparent, eq_comm]

theorem describes_foldl (as : List (Arg Pa)) (h : (as.map Arg.kind).Nodup) : Describes as (as.foldl set {}) := by
  induction as using List.reverseRecOn with
  | nil => exact describes_nil
  | append_singleton as x ih =>
    rw [List.map_append, List.nodup_append] at h
    rw [List.foldl_append]
    exact describes_snoc (ih h.1) fun y hy => h.2.2 _ (List.mem_map.mpr ⟨y, hy, rfl⟩) _ (by simp)

theorem describes_unique {as : List (Arg Pa)} {a b : Attribute Pa} (ha : Describes as a) (hb : Describes as b) : a = b := by
  have u : ∀ {o o' : Option Unit}, (o = some () ↔ o' = some ()) → o = o' := by
    intro o o' h
    cases o <;> cases o' <;> simp at h ⊢
  have h1 := Option.ext fun v => (ha.id_ v).trans (hb.id_ v).symm
  have h2 := Option.ext fun v => (ha.tagClass v).trans (hb.tagClass v).symm
  have h3 := Option.ext fun v => (ha.tagPc v).trans (hb.tagPc v).symm
  have h4 := Option.ext fun v => (ha.tagNum v).trans (hb.tagNum v).symm
  have h5 := u (ha.skipSerializing.trans hb.skipSerializing.symm)
  have h6 := u (ha.skipDeserializing.trans hb.skipDeserializing.symm)
  have h7 := Option.ext fun v => (ha.default_ v).trans (hb.default_ v).symm
  have h8 := u (ha.skip.trans hb.skip.symm)
  have h9 := Option.ext fun v => (ha.into v).trans (hb.into v).symm
  have h10 := Option.ext fun v => (ha.from_ v).trans (hb.from_ v).symm
  have h11 := Option.ext fun v => (ha.to_ v).trans (hb.to_ v).symm
  have h12 := Option.ext fun v => (ha.tryFrom v).trans (hb.tryFrom v).symm
  have h13 := u (ha.transparent.trans hb.transparent.symm)
  cases a
  cases b
  simp only at *
  subst h1 h2 h3 h4 h5 h6 h7 h8 h9 h10 h11 h12 h13
  rfl

theorem parse_describes (pp : String → Option Pa) (ts : List Tok) (a : Attribute Pa) : parse pp ts = some a ↔
    ∃ as, ArgList pp ts as ∧ (as.map Arg.kind).Nodup ∧ Describes as a := by
  rw [parse_iff]
  constructor
  · rintro ⟨as, h1, h2, rfl⟩; exact ⟨as, h1, h2, describes_foldl as h2⟩
  · rintro ⟨as, h1, h2, h3⟩; exact ⟨as, h1, h2, describes_unique h3 (describes_foldl as h2)⟩

theorem foldl_has (as : List (Arg Pa)) (a : Attribute Pa) (k : ArgKind) :
    (as.foldl set a).has k = true ↔ a.has k = true ∨ kinds as k := by
  induction as generalizing a with
  | nil => simp [kinds]
  | cons x as ih =>
    rw [List.foldl_cons, ih, has_set]
    simp [kinds, or_assoc]

theorem describes_has {as : List (Arg Pa)} {a : Attribute Pa} (hn : (as.map Arg.kind).Nodup) (h : Describes as a) (k : ArgKind) :
    a.has k = true ↔ kinds as k := by
  rw [describes_unique h (describes_foldl as hn), foldl_has]
  have : ({} : Attribute Pa).has k = false := by cases k <;> rfl
  simp [this]

/-! ### The checks -/

/-- Whether an argument of the section is there. -/
def anyOf (a : Attribute Pa) : Group → Bool
  | .identifier => a.has .id || a.has .tagClass || a.has .tagPc || a.has .tagNum
  | .skip => a.has .skipSerializing || a.has .skipDeserializing || a.has .skip || a.has .default
  | .conversion => a.has .into || a.has .from_ || a.has .to || a.has .tryFrom
  | .transparent => a.has .transparent

theorem anyOf_iff (a : Attribute Pa) (g : Group) : a.anyOf g = true ↔ ∃ k, a.has k = true ∧ k.group = g := by
  constructor
  · intro h
    cases g <;> simp only [anyOf, Bool.or_eq_true] at h
    · rcases h with ((h | h) | h) | h <;> exact ⟨_, h, rfl⟩
    · rcases h with ((h | h) | h) | h <;> exact ⟨_, h, rfl⟩
    · rcases h with ((h | h) | h) | h <;> exact ⟨_, h, rfl⟩
    · exact ⟨_, h, rfl⟩
  · rintro ⟨k, h, rfl⟩
    cases k <;> simp [anyOf, ArgKind.group, h]

theorem loopExclusive_eq (l m : List Bool) : loopExclusive l m = !(l.any (·) && m.any (·)) := by
  rw [Bool.eq_iff_iff]
  simp only [loopExclusive, List.all_eq_true, Bool.not_eq_true', Bool.and_eq_false_iff, List.any_eq_false]
  constructor
  · intro h
    by_cases hl : ∃ x ∈ l, x = true
    · obtain ⟨x, hx, rfl⟩ := hl
      right
      intro y hy
      rcases h _ hx y hy with h | h
      · cases h
      · simp [h]
    · left
      intro x hx he
      exact hl ⟨x, hx, he⟩
  · rintro (h | h) x hx y hy
    · exact .inl (by simpa using h x hx)
    · exact .inr (by simpa using h y hy)

theorem sanitize_eq (a : Attribute Pa) : a.sanitize =
    (!(a.anyOf .identifier && a.anyOf .skip) && !(a.anyOf .identifier && a.anyOf .conversion) &&
     !(a.anyOf .skip && a.anyOf .conversion) && !(a.has .from_ && a.has .tryFrom) && !(a.has .into && a.has .to) &&
     !(a.anyOf .identifier && a.anyOf .transparent) && !(a.anyOf .skip && a.anyOf .transparent) &&
     !(a.anyOf .conversion && a.anyOf .transparent)) := by
  simp only [sanitize, loopExclusive_eq, idArgs, skipArgs, convArgs, List.any_cons, List.any_nil, Bool.or_false, anyOf, has,
    Bool.or_assoc]

theorem notAllowed_id (a : Attribute Pa) : notAllowed [a.id_.isSome, a.tagClass.isSome, a.tagPc.isSome, a.tagNum.isSome] =
    !a.anyOf .identifier := by
  simp [notAllowed, anyOf, has, Bool.and_assoc]

theorem notAllowed_skip (a : Attribute Pa) :
    notAllowed [a.skipSerializing.isSome, a.skipDeserializing.isSome, a.skip.isSome, a.default_.isSome] =
    !a.anyOf .skip := by
  simp [notAllowed, anyOf, has, Bool.and_assoc]

theorem notAllowed_conv (a : Attribute Pa) :
    notAllowed [a.into.isSome, a.from_.isSome, a.to.isSome, a.tryFrom.isSome] = !a.anyOf .conversion := by
  simp [notAllowed, anyOf, has, Bool.and_assoc]

theorem notAllowed_transparent (a : Attribute Pa) : notAllowed [a.transparent.isSome] = !a.anyOf .transparent := by
  simp [notAllowed, anyOf, has]

/-- Bounded to sections. -/
theorem accepted_iff (p : Position) (a : Attribute Pa) : Accepted p (fun k => a.has k = true) ↔
    (∀ g, a.anyOf g = true → p.admits g) ∧ (∀ g g', a.anyOf g = true → a.anyOf g' = true → g = g') ∧
    ¬ (a.has .from_ = true ∧ a.has .tryFrom = true) ∧ ¬ (a.has .into = true ∧ a.has .to = true) := by
  simp only [anyOf_iff]
  constructor
  · rintro ⟨h1, h2, h3, h4⟩
    exact ⟨by rintro g ⟨k, hk, rfl⟩; exact h1 k hk, by rintro g g' ⟨k, hk, rfl⟩ ⟨k', hk', rfl⟩; exact h2 k k' hk hk', h3, h4⟩
  · rintro ⟨h1, h2, h3, h4⟩
    exact ⟨fun k hk => h1 _ ⟨k, hk, rfl⟩, fun k k' hk hk' => h2 _ _ ⟨k, hk, rfl⟩ ⟨k', hk', rfl⟩, h3, h4⟩

/-- The check for a position. -/
def check (a : Attribute Pa) : Position → Bool
  | .struct => a.sanitizeAsStruct
  | .enum => a.sanitizeAsEnum
  | .variant => a.sanitizeAsVariant
  | .field => a.sanitizeAsField

theorem forall_group {P : Group → Prop} : (∀ g, P g) ↔ P .identifier ∧ P .skip ∧ P .conversion ∧ P .transparent :=
  ⟨fun h => ⟨h _, h _, h _, h _⟩, fun h g => by cases g; exacts [h.1, h.2.1, h.2.2.1, h.2.2.2]⟩

theorem check_iff (p : Position) (a : Attribute Pa) : a.check p = true ↔ Accepted p (fun k => a.has k = true) := by
  rw [accepted_iff]
  simp only [forall_group]
  cases p <;>
    simp only [check, sanitizeAsStruct, sanitizeAsContainer, sanitizeAsEnum, sanitizeAsVariant, sanitizeAsField, sanitize_eq,
      notAllowed_id, notAllowed_skip, notAllowed_conv, notAllowed_transparent, Position.admits] <;>
    generalize a.anyOf .identifier = b1 <;> generalize a.anyOf .skip = b2 <;> generalize a.anyOf .conversion = b3 <;>
    generalize a.anyOf .transparent = b4 <;> generalize a.has .from_ = b5 <;> generalize a.has .tryFrom = b6 <;>
    generalize a.has .into = b7 <;> generalize a.has .to = b8 <;>
    cases b1 <;> cases b2 <;> cases b3 <;> cases b4 <;> simp <;>
    cases b5 <;> cases b6 <;> cases b7 <;> cases b8 <;> simp

/-- Every check includes `sanitize`. -/
theorem check_sanitize (p : Position) (a : Attribute Pa) (h : a.check p = true) : a.sanitize = true := by
  cases p <;> simp only [check, sanitizeAsStruct, sanitizeAsContainer, sanitizeAsEnum, sanitizeAsVariant, sanitizeAsField,
    Bool.and_eq_true] at h
  · exact h.2
  · exact h.2.2
  · exact h.2
  · exact h.2

/-! ### The attributes of a position -/

theorem tryFromLoop_some (pp : String → Option Pa) (attrs : List SynAttr) (a : Attribute Pa) (r : Option (Attribute Pa)) :
    tryFromLoop pp attrs (some a) = some r ↔ r = some a ∧ ∀ x ∈ attrs, x = .other := by
  induction attrs with
  | nil => simp [tryFromLoop, eq_comm]
  | cons x attrs ih =>
    cases x with
    | other => simp [tryFromLoop, ih]
    | bsn1Serde ts =>
      simp only [tryFromLoop]
      cases parse pp ts <;> simp

theorem tryFromLoop_none (pp : String → Option Pa) (attrs : List SynAttr) (r : Option (Attribute Pa)) :
    tryFromLoop pp attrs none = some r ↔ (r = none ∧ ∀ x ∈ attrs, x = .other) ∨
      ∃ a l ts r', r = some a ∧ attrs = l ++ .bsn1Serde ts :: r' ∧ (∀ x ∈ l, x = .other) ∧ (∀ x ∈ r', x = .other) ∧
        parse pp ts = some a := by
  induction attrs with
  | nil =>
    simp only [tryFromLoop, Option.some.injEq]
    constructor
    · rintro rfl; exact .inl ⟨rfl, by simp⟩
    · rintro (⟨rfl, _⟩ | ⟨a, l, ts, r', rfl, e, _⟩)
      · rfl
      · cases l <;> cases e
  | cons x attrs ih =>
    cases x with
    | other =>
      rw [tryFromLoop, ih]
      constructor
      · rintro (⟨rfl, h⟩ | ⟨a, l, ts, r', rfl, rfl, h1, h2, h3⟩)
        · exact .inl ⟨rfl, by simpa using h⟩
        · exact .inr ⟨a, .other :: l, ts, r', rfl, rfl, by simpa using h1, h2, h3⟩
      · rintro (⟨rfl, h⟩ | ⟨a, l, ts, r', rfl, e, h1, h2, h3⟩)
        · exact .inl ⟨rfl, by simpa using h⟩
        · cases l with
          | nil => cases e
          | cons y l => cases e; exact .inr ⟨a, l, ts, r', rfl, rfl, fun x hx => h1 x (by simp [hx]), h2, h3⟩
    | bsn1Serde ts =>
      rw [tryFromLoop]
      constructor
      · intro h
        cases hp : parse pp ts with
        | none => rw [hp] at h; cases h
        | some a =>
          rw [hp] at h
          obtain ⟨e, ho⟩ := (tryFromLoop_some pp attrs a r).mp h
          exact .inr ⟨a, [], ts, attrs, e, rfl, by simp, ho, hp⟩
      · rintro (⟨rfl, h⟩ | ⟨a, l, ts, r', rfl, e, h1, h2, h3⟩)
        · exact nomatch h _ List.mem_cons_self
        · cases l with
          | nil =>
            cases e
            rw [h3]
            exact (tryFromLoop_some pp attrs a (some a)).mpr ⟨rfl, h2⟩
          | cons y l =>
            cases e
            exact nomatch h1 _ List.mem_cons_self

theorem tryFromAttrs_iff (pp : String → Option Pa) (attrs : List SynAttr) (a : Attribute Pa) :
    tryFromAttrs pp attrs = some a ↔ ∃ as, HasArgs pp attrs as ∧ Describes as a ∧ a.sanitize = true := by
  constructor
  · intro h
    rw [tryFromAttrs] at h
    cases hl : tryFromLoop pp attrs none with
    | none => rw [hl] at h; cases h
    | some r =>
      rw [hl] at h
      rcases (tryFromLoop_none pp attrs r).mp hl with ⟨rfl, ho⟩ | ⟨b, l, ts, r', rfl, rfl, h1, h2, h3⟩
      · simp only [Option.some.injEq] at h
        subst h
        exact ⟨[], ⟨by simp, .inl ⟨ho, rfl⟩⟩, describes_nil, rfl⟩
      · simp only [] at h
        split at h
        · rename_i hs
          cases h
          obtain ⟨as, h4, h5, h6⟩ := (parse_describes pp ts _).mp h3
          exact ⟨as, ⟨h5, .inr ⟨l, ts, r', rfl, h1, h2, h4⟩⟩, h6, hs⟩
        · cases h
  · rintro ⟨as, ⟨hn, h⟩, hd, hs⟩
    rcases h with ⟨ho, rfl⟩ | ⟨l, ts, r', rfl, h1, h2, h4⟩
    · rw [tryFromAttrs, (tryFromLoop_none pp attrs none).mpr (.inl ⟨rfl, ho⟩), describes_unique hd describes_nil]
    · have hp := (parse_describes pp ts a).mpr ⟨as, h4, hn, hd⟩
      rw [tryFromAttrs, (tryFromLoop_none pp _ (some a)).mpr (.inr ⟨a, l, ts, r', rfl, rfl, h1, h2, hp⟩)]
      simp only [hs, if_true]

/-- The attributes parse and pass the check for the position exactly if they are documented. -/
theorem checked_iff (pp : String → Option Pa) (attrs : List SynAttr) (a : Attribute Pa) (pos : Position) :
    (tryFromAttrs pp attrs = some a ∧ a.check pos = true) ↔ ∃ as, Documented pp pos attrs as ∧ Describes as a := by
  rw [tryFromAttrs_iff]
  constructor
  · rintro ⟨⟨as, h1, h2, h3⟩, h4⟩
    refine ⟨as, ⟨h1, ?_⟩, h2⟩
    have := (check_iff pos a).mp h4
    rwa [show (fun k => a.has k = true) = kinds as from funext fun k => propext (describes_has h1.1 h2 k)] at this
  · rintro ⟨as, ⟨h1, h4⟩, h2⟩
    have h5 : a.check pos = true := by
      rw [check_iff, show (fun k => a.has k = true) = kinds as from funext fun k => propext (describes_has h1.1 h2 k)]
      exact h4
    exact ⟨⟨as, h1, h2, check_sanitize pos a h5⟩, h5⟩

end Attribute
end Bsn1
