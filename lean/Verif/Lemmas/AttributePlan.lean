import Verif.Lemmas.AttributeArgs
/-!
# Lemmas on the identifier and on what is generated
-/

namespace Bsn1
open Spec

variable {Pa : Type}

namespace Attribute

/-! ### The identifier -/

theorem octet_class : ∀ c < 4, ∀ c' < 4, ∀ p < 2, ∀ n < 31,
    (octet c' p n &&& 0x3f) ||| UInt8.ofNat (64 * c) = octet c p n := by decide +kernel

theorem octet_pc : ∀ p < 2, ∀ p' < 2, ∀ c < 4, ∀ n < 31,
    (octet c p' n &&& 0xdf) ||| UInt8.ofNat (32 * p) = octet c p n := by decide +kernel

theorem octet_num : ∀ n < 31, ∀ n' < 31, ∀ c < 4, ∀ p < 2,
    (octet c p n' &&& 0xe0) ||| UInt8.ofNat n = octet c p n := by decide +kernel

theorem octet_long : ∀ n' < 31, ∀ c < 4, ∀ p < 2, octet c p n' ||| 0x1f = octet c p 31 := by decide +kernel

theorem pushDigits_eq (fuel n : Nat) (acc : Bytes) (h : n < 128 ^ fuel) :
    pushDigits fuel n acc = acc ++ (Nat.digits 128 n).map UInt8.ofNat := by
  induction fuel generalizing n acc with
  | zero =>
    have : n = 0 := by simpa using h
    subst this
    simp [pushDigits]
  | succ fuel ih =>
    rw [pushDigits]
    split
    · rename_i hn
      rw [ih _ _ (by rw [Nat.div_lt_iff_lt_mul (by norm_num)]; rwa [← pow_succ]), Nat.digits_def' (by norm_num) hn]
      simp
    · rename_i hn
      have : n = 0 := by omega
      subst this
      simp

theorem contOctets_eq (n : Nat) (h : n < 2 ^ 128) (h0 : 31 ≤ n) :
    (markMore (pushDigits 19 n [])).reverse = contOctets (baseDigits 128 n) := by
  rw [pushDigits_eq 19 n [] (lt_trans h (by norm_num)), List.nil_append, baseDigits]
  have hl : ∀ d ∈ Nat.digits 128 n, d < 128 := fun d hd => Nat.digits_lt_base (by norm_num) hd
  generalize Nat.digits 128 n = l at hl
  cases l with
  | nil => rfl
  | cons d ds =>
    rw [List.reverse_cons, contOctets_append, List.map_cons, markMore, List.reverse_cons, List.map_map, ← List.map_reverse]
    congr 1
    apply List.map_congr_left
    intro x hx
    have hx : x < 128 := hl x (by simp [List.mem_reverse.mp hx])
    have e : (0x80 : UInt8) = IdRef.MORE_FLAG := by decide
    rw [Function.comp_apply, e, ofNat_or_more, Nat.mod_eq_of_lt hx]

theorem idSlice_eq (a : Attribute Pa) (c p n c' p' n' : Nat) (hc : c < 4) (hp : p < 2) (hn : n < 2 ^ 128) (hc' : c' < 4)
    (hp' : p' < 2) (hn' : n' < 31)
    (h1 : a.id_ = some (octet c' p' n') ∨ a.id_ = none ∧ (c', p', n') = (0, 1, 16))
    (h2 : a.tagClass = some (UInt8.ofNat (64 * c)) ∨ a.tagClass = none ∧ c = c')
    (h3 : a.tagPc = some (UInt8.ofNat (32 * p)) ∨ a.tagPc = none ∧ p = p')
    (h4 : a.tagNum = some n ∨ a.tagNum = none ∧ n = n') : a.idSlice = idOctets c p n := by
  have e2 := octet_class c hc c' hc' p' hp' n' hn'
  have e3 := octet_pc p hp p' hp' c hc n' hn'
  have e5 := octet_long n' hn' c hc p hp
  have e7 : ∀ m, m < 31 → idOctets c p m = [octet c p m] := fun m hm => by rw [idOctets, if_pos hm, octet]
  have e8 : 31 ≤ n → idOctets c p n = octet c p 31 :: (markMore (pushDigits 19 n [])).reverse := fun hm => by
    rw [idOctets, if_neg (by omega), contOctets_eq n hn hm, octet]
  have num : ∀ first, first = octet c p n' → (match (if n < 0x1f then some [(first &&& 0xe0) ||| UInt8.ofNat n]
      else some ((first ||| 0x1f) :: (markMore (pushDigits 19 n [])).reverse)) with
      | some id => id
      | none => [0x30]) = idOctets c p n := by
    rintro first rfl
    by_cases hs : n < 0x1f
    · rw [if_pos hs, e7 n hs, ← octet_num n hs n' hn' c hc p hp]
    · rw [if_neg hs, e8 (by omega), e5]
  have e0 : (c', p', n') = (0, 1, 16) → (0x30 : UInt8) = octet c' p' n' := by
    intro e; cases e; decide +kernel
  rcases h1 with h1 | ⟨h1, e1⟩ <;> rcases h2 with h2 | ⟨h2, rfl⟩ <;> rcases h3 with h3 | ⟨h3, rfl⟩ <;>
    rcases h4 with h4 | ⟨h4, rfl⟩ <;>
    simp only [idSlice, Attribute.id, h1, h2, h3, h4, Option.isNone_none, Option.isNone_some, Bool.and_true, Bool.and_false,
      Bool.false_eq_true, if_false, if_true] <;>
    first
      | exact num _ (by simp only [e2, e3])
      | exact num _ (by rw [e0 e1] <;> simp only [e2, e3])
      | (rw [e7 _ hn'] <;> simp only [e2, e3])
      | (rw [e7 _ hn', e0 e1] <;> simp only [e2, e3])

/-- The values of the arguments are in range. -/
def Bounded : Arg Pa → Prop
  | .id c p n => c < 4 ∧ p < 2 ∧ n < 31
  | .tagClass c => c < 4
  | .tagPc p => p < 2
  | .tagNum n => n < 2 ^ 128
  | _ => True

theorem tokens_bounded (pp : String → Option Pa) (x : Arg Pa) (ts : List Tok) (h : x.Tokens pp ts) : Bounded x := by
  cases x with
  | id c p n =>
    obtain ⟨name, h, _⟩ := h
    have : ∀ y ∈ idNames, y.2.1 < 4 ∧ y.2.2.1 < 2 ∧ y.2.2.2 < 31 := by decide
    exact this _ h
  | tagClass c =>
    obtain ⟨name, h, _⟩ := h
    have : ∀ y ∈ classNames, y.2 < 4 := by decide
    exact this _ h
  | tagPc c =>
    obtain ⟨name, h, _⟩ := h
    have : ∀ y ∈ pcNames, y.2 < 2 := by decide
    exact this _ h
  | tagNum n =>
    obtain ⟨s, ⟨_, _, _, _, _, _, _, _, _, _, h⟩, _⟩ := h
    exact h
  | _ => trivial

theorem argList_bounded {pp : String → Option Pa} {ts : List Tok} {as : List (Arg Pa)} (h : ArgList pp ts as) :
    ∀ x ∈ as, Bounded x := by
  induction h with
  | nil => simp
  | comma _ ih => exact ih
  | arg h1 _ ih =>
    intro x hx
    rcases List.mem_cons.mp hx with rfl | hx
    · exact tokens_bounded pp _ _ h1
    · exact ih x hx

theorem hasArgs_bounded {pp : String → Option Pa} {attrs : List SynAttr} {as : List (Arg Pa)} (h : HasArgs pp attrs as) :
    ∀ x ∈ as, Bounded x := by
  rcases h.2 with ⟨_, rfl⟩ | ⟨_, _, _, _, _, _, h⟩
  · simp
  · exact argList_bounded h

theorem identOf_bounded {as : List (Arg Pa)} {c p n : Nat} (hb : ∀ x ∈ as, Bounded x) (h : IdentOf as c p n) :
    c < 4 ∧ p < 2 ∧ n < 2 ^ 128 := by
  obtain ⟨c', p', n', h1, h2, h3, h4⟩ := h
  have h1 : c' < 4 ∧ p' < 2 ∧ n' < 31 := by
    rcases h1 with h1 | ⟨_, e⟩
    · exact hb _ h1
    · cases e; decide
  have p1 : 31 < 2 ^ 128 := by norm_num
  refine ⟨?_, ?_, ?_⟩
  · rcases h2 with h2 | ⟨_, rfl⟩
    · exact hb _ h2
    · exact h1.1
  · rcases h3 with h3 | ⟨_, rfl⟩
    · exact hb _ h3
    · exact h1.2.1
  · rcases h4 with h4 | ⟨_, rfl⟩
    · exact hb _ h4
    · exact lt_trans h1.2.2 p1

theorem identOf_exists (as : List (Arg Pa)) : ∃ c p n, IdentOf as c p n := by
  have h1 : ∃ c' p' n', (Arg.id c' p' n' ∈ as ∨ ¬ kinds as .id ∧ (c', p', n') = (0, 1, 16)) := by
    by_cases h : kinds as .id
    · obtain ⟨x, hx, e⟩ := h
      cases x <;> simp only [Arg.kind, reduceCtorEq] at e
      exact ⟨_, _, _, .inl hx⟩
    · exact ⟨0, 1, 16, .inr ⟨h, rfl⟩⟩
  obtain ⟨c', p', n', h1⟩ := h1
  have h2 : ∃ c, (Arg.tagClass c ∈ as ∨ ¬ kinds as .tagClass ∧ c = c') := by
    by_cases h : kinds as .tagClass
    · obtain ⟨x, hx, e⟩ := h
      cases x <;> simp only [Arg.kind, reduceCtorEq] at e
      exact ⟨_, .inl hx⟩
    · exact ⟨c', .inr ⟨h, rfl⟩⟩
  have h3 : ∃ c, (Arg.tagPc c ∈ as ∨ ¬ kinds as .tagPc ∧ c = p') := by
    by_cases h : kinds as .tagPc
    · obtain ⟨x, hx, e⟩ := h
      cases x <;> simp only [Arg.kind, reduceCtorEq] at e
      exact ⟨_, .inl hx⟩
    · exact ⟨p', .inr ⟨h, rfl⟩⟩
  have h4 : ∃ c, (Arg.tagNum c ∈ as ∨ ¬ kinds as .tagNum ∧ c = n') := by
    by_cases h : kinds as .tagNum
    · obtain ⟨x, hx, e⟩ := h
      cases x <;> simp only [Arg.kind, reduceCtorEq] at e
      exact ⟨_, .inl hx⟩
    · exact ⟨n', .inr ⟨h, rfl⟩⟩
  obtain ⟨c, h2⟩ := h2
  obtain ⟨p, h3⟩ := h3
  obtain ⟨n, h4⟩ := h4
  exact ⟨c, p, n, c', p', n', h1, h2, h3, h4⟩

theorem opt_none {α : Type} {o : Option α} {Q : α → Prop} (h : ∀ v, o = some v ↔ Q v) (hn : ∀ v, ¬ Q v) : o = none := by
  cases o with
  | none => rfl
  | some v => exact absurd ((h v).mp rfl) (hn v)

theorem idSlice_spec {as : List (Arg Pa)} {a : Attribute Pa} (h : Describes as a) (hb : ∀ x ∈ as, Bounded x) {c p n : Nat}
    (hi : IdentOf as c p n) : a.idSlice = idOctets c p n := by
  obtain ⟨hc, hp, hn⟩ := identOf_bounded hb hi
  obtain ⟨c', p', n', h1, h2, h3, h4⟩ := hi
  have hb' : c' < 4 ∧ p' < 2 ∧ n' < 31 := by
    rcases h1 with h1 | ⟨_, e⟩
    · exact hb _ h1
    · cases e; decide
  apply idSlice_eq a c p n c' p' n' hc hp hn hb'.1 hb'.2.1 hb'.2.2
  · rcases h1 with h1 | ⟨h1, e⟩
    · exact .inl ((h.id_ _).mpr ⟨_, _, _, h1, rfl⟩)
    · exact .inr ⟨opt_none h.id_ fun v hv => by obtain ⟨_, _, _, hm, _⟩ := hv; exact h1 ⟨_, hm, rfl⟩, e⟩
  · rcases h2 with h1 | ⟨h1, e⟩
    · exact .inl ((h.tagClass _).mpr ⟨_, h1, rfl⟩)
    · exact .inr ⟨opt_none h.tagClass fun v hv => by obtain ⟨_, hm, _⟩ := hv; exact h1 ⟨_, hm, rfl⟩, e⟩
  · rcases h3 with h1 | ⟨h1, e⟩
    · exact .inl ((h.tagPc _).mpr ⟨_, h1, rfl⟩)
    · exact .inr ⟨opt_none h.tagPc fun v hv => by obtain ⟨_, hm, _⟩ := hv; exact h1 ⟨_, hm, rfl⟩, e⟩
  · rcases h4 with h1 | ⟨h1, e⟩
    · exact .inl ((h.tagNum _).mpr h1)
    · exact .inr ⟨opt_none h.tagNum fun v hv => h1 ⟨_, hv, rfl⟩, e⟩

/-! ### Treatment of fields -/

/-- With documented arguments for a field there is no choice. -/
theorem serField_iff {as : List (Arg Pa)} {a : Attribute Pa} (hn : (as.map Arg.kind).Nodup) (h : Describes as a)
    (ha : Accepted .field (kinds as)) (f : SerFieldPlan Pa) : SerField as f ↔ a.serField = f := by
  have hk := describes_has hn h
  have hs : a.isSkipSerializing = true ↔ kinds as .skip ∨ kinds as .skipSerializing := by
    rw [isSkipSerializing, Bool.or_eq_true]
    exact or_congr (hk .skip) (hk .skipSerializing)
  have hgrp : (kinds as .skip ∨ kinds as .skipSerializing) → ∀ k, kinds as k → k.group = .skip := by
    rintro (h | h) k hk
    · exact (ha.2.1 _ _ hk h).trans rfl
    · exact (ha.2.1 _ _ hk h).trans rfl
  rw [serField]
  by_cases hsk : a.isSkipSerializing = true
  · rw [if_pos hsk]
    have hsk' := hs.mp hsk
    have hg := hgrp hsk'
    cases f with
    | skip => simpa [SerField] using hsk'
    | into ty => simp only [SerField, reduceCtorEq, iff_false]; intro hm; exact absurd (hg _ ⟨_, hm, rfl⟩) (by simp [Arg.kind, ArgKind.group])
    | «to» ty => simp only [SerField, reduceCtorEq, iff_false]; intro hm; exact absurd (hg _ ⟨_, hm, rfl⟩) (by simp [Arg.kind, ArgKind.group])
    | plain => simp only [SerField, reduceCtorEq, iff_false]; rintro ⟨h1, h2, _⟩; exact hsk'.elim h1 h2
  · rw [if_neg hsk]
    have hsk' : ¬ (kinds as .skip ∨ kinds as .skipSerializing) := fun h => hsk (hs.mpr h)
    have hI : ∀ ty, a.into = some ty ↔ Arg.into ty ∈ as := h.into
    have hT : ∀ ty, a.to = some ty ↔ Arg.to ty ∈ as := h.to_
    cases ei : a.into with
    | some ty =>
      have hi := (hI ty).mp ei
      cases f with
      | skip => simpa [SerField] using hsk'
      | into ty' =>
        simp only [SerField, ← hI, ei, Option.some.injEq, SerFieldPlan.into.injEq]
      | «to» ty' =>
        simp only [SerField, reduceCtorEq, iff_false]
        intro hm
        exact ha.2.2.2 ⟨⟨_, hi, rfl⟩, ⟨_, hm, rfl⟩⟩
      | plain => simp only [SerField, reduceCtorEq, iff_false]; rintro ⟨_, _, h1, _⟩; exact h1 ⟨_, hi, rfl⟩
    | none =>
      have hi : ∀ ty, Arg.into ty ∉ as := fun ty hm => by have := (hI ty).mpr hm; rw [ei] at this; cases this
      have hik : ¬ kinds as .into := fun hk' => by have := (hk .into).mpr hk'; simp [has, ei] at this
      cases et : a.to with
      | some ty =>
        have ht := (hT ty).mp et
        cases f with
        | skip => simpa [SerField] using hsk'
        | into ty' => simpa [SerField] using hi ty'
        | «to» ty' =>
          simp only [SerField, ← hT, et, Option.some.injEq, SerFieldPlan.to.injEq]
        | plain => simp only [SerField, reduceCtorEq, iff_false]; rintro ⟨_, _, _, h1⟩; exact h1 ⟨_, ht, rfl⟩
      | none =>
        have ht : ∀ ty, Arg.to ty ∉ as := fun ty hm => by have := (hT ty).mpr hm; rw [et] at this; cases this
        have htk : ¬ kinds as .to := fun hk' => by have := (hk .to).mpr hk'; simp [has, et] at this
        cases f with
        | skip => simpa [SerField] using hsk'
        | into ty' => simpa [SerField] using hi ty'
        | «to» ty' => simpa [SerField] using ht ty'
        | plain => simp only [SerField, iff_true]; exact ⟨fun h => hsk' (.inl h), fun h => hsk' (.inr h), hik, htk⟩

theorem deField_iff {as : List (Arg Pa)} {a : Attribute Pa} (hn : (as.map Arg.kind).Nodup) (h : Describes as a)
    (ha : Accepted .field (kinds as)) (f : DeFieldPlan Pa) : DeField as f ↔ a.deField = f := by
  have hk := describes_has hn h
  have hs : a.isSkipDeserializing = true ↔ kinds as .skip ∨ kinds as .skipDeserializing := by
    rw [isSkipDeserializing, Bool.or_eq_true]
    exact or_congr (hk .skip) (hk .skipDeserializing)
  have hgrp : (kinds as .skip ∨ kinds as .skipDeserializing) → ∀ k, kinds as k → k.group = .skip := by
    rintro (h | h) k hk
    · exact (ha.2.1 _ _ hk h).trans rfl
    · exact (ha.2.1 _ _ hk h).trans rfl
  rw [deField]
  by_cases hsk : a.isSkipDeserializing = true
  · rw [if_pos hsk]
    have hsk' := hs.mp hsk
    have hg := hgrp hsk'
    cases f with
    | skip d =>
      cases d with
      | some p =>
        simp only [DeField, hsk', true_and, DeFieldPlan.skip.injEq]
        exact (h.default_ p).symm
      | none =>
        simp only [DeField, hsk', true_and, DeFieldPlan.skip.injEq, ← hk .default, has]
        cases a.default_ <;> simp
    | from_ ty => simp only [DeField, reduceCtorEq, iff_false]; intro hm; exact absurd (hg _ ⟨_, hm, rfl⟩) (by simp [Arg.kind, ArgKind.group])
    | tryFrom ty => simp only [DeField, reduceCtorEq, iff_false]; intro hm; exact absurd (hg _ ⟨_, hm, rfl⟩) (by simp [Arg.kind, ArgKind.group])
    | plain => simp only [DeField, reduceCtorEq, iff_false]; rintro ⟨h1, h2, _⟩; exact hsk'.elim h1 h2
  · rw [if_neg hsk]
    have hsk' : ¬ (kinds as .skip ∨ kinds as .skipDeserializing) := fun h => hsk (hs.mpr h)
    have hI : ∀ ty, a.from_ = some ty ↔ Arg.from_ ty ∈ as := h.from_
    have hT : ∀ ty, a.tryFrom = some ty ↔ Arg.tryFrom ty ∈ as := h.tryFrom
    have hnoskip : ∀ d, ¬ DeField as (.skip d) := by
      intro d hd
      cases d <;> exact hsk' hd.1
    cases ei : a.from_ with
    | some ty =>
      have hi := (hI ty).mp ei
      cases f with
      | skip d => simp [hnoskip d]
      | from_ ty' =>
        simp only [DeField, ← hI, ei, Option.some.injEq, DeFieldPlan.from_.injEq]
      | tryFrom ty' =>
        simp only [DeField, reduceCtorEq, iff_false]
        intro hm
        exact ha.2.2.1 ⟨⟨_, hi, rfl⟩, ⟨_, hm, rfl⟩⟩
      | plain => simp only [DeField, reduceCtorEq, iff_false]; rintro ⟨_, _, h1, _⟩; exact h1 ⟨_, hi, rfl⟩
    | none =>
      have hi : ∀ ty, Arg.from_ ty ∉ as := fun ty hm => by have := (hI ty).mpr hm; rw [ei] at this; cases this
      have hik : ¬ kinds as .from_ := fun hk' => by have := (hk .from_).mpr hk'; simp [has, ei] at this
      cases et : a.tryFrom with
      | some ty =>
        have ht := (hT ty).mp et
        cases f with
        | skip d => simp [hnoskip d]
        | from_ ty' => simpa [DeField] using hi ty'
        | tryFrom ty' =>
          simp only [DeField, ← hT, et, Option.some.injEq, DeFieldPlan.tryFrom.injEq]
        | plain => simp only [DeField, reduceCtorEq, iff_false]; rintro ⟨_, _, _, h1⟩; exact h1 ⟨_, ht, rfl⟩
      | none =>
        have ht : ∀ ty, Arg.tryFrom ty ∉ as := fun ty hm => by have := (hT ty).mpr hm; rw [et] at this; cases this
        have htk : ¬ kinds as .tryFrom := fun hk' => by have := (hk .tryFrom).mpr hk'; simp [has, et] at this
        cases f with
        | skip d => simp [hnoskip d]
        | from_ ty' => simpa [DeField] using hi ty'
        | tryFrom ty' => simpa [DeField] using ht ty'
        | plain => simp only [DeField, iff_true]; exact ⟨fun h => hsk' (.inl h), fun h => hsk' (.inr h), hik, htk⟩

/-! ### Containers -/

variable {F : Type}

/-- The treatment of fields in the model is the one of the specification. -/
def Treats (field : Attribute Pa → F) (spec : List (Arg Pa) → F → Prop) : Prop :=
  ∀ as a, (as.map Arg.kind).Nodup → Describes as a → Accepted .field (kinds as) → ∀ f, spec as f ↔ field a = f

theorem field_iff {field : Attribute Pa → F} {spec : List (Arg Pa) → F → Prop} (ht : Treats field spec)
    (pp : String → Option Pa) (attrs : List SynAttr) (f : F) : FieldPlan pp spec attrs f ↔
      ∃ a, tryFromAttrs pp attrs = some a ∧ a.sanitizeAsField = true ∧ field a = f := by
  constructor
  · rintro ⟨as, hd, hf⟩
    have hfold := describes_foldl as hd.1.1
    obtain ⟨h1, h2⟩ := (checked_iff pp attrs _ .field).mpr ⟨as, hd, hfold⟩
    exact ⟨_, h1, h2, (ht as _ hd.1.1 hfold hd.2 f).mp hf⟩
  · rintro ⟨a, h1, h2, h3⟩
    obtain ⟨as, hd, hde⟩ := (checked_iff pp attrs a .field).mp ⟨h1, h2⟩
    exact ⟨as, hd, (ht as a hd.1.1 hde hd.2 f).mpr h3⟩

theorem fields_iff {field : Attribute Pa → F} {spec : List (Arg Pa) → F → Prop} (ht : Treats field spec)
    (pp : String → Option Pa) (fs : List (List SynAttr)) (ps : List F) : List.Forall₂ (FieldPlan pp spec) fs ps ↔
      ∃ l, fields pp fs = some l ∧ l.map field = ps := by
  induction fs generalizing ps with
  | nil =>
    simp only [List.forall₂_nil_left_iff, fields, Option.some.injEq]
    constructor
    · rintro rfl; exact ⟨[], rfl, rfl⟩
    · rintro ⟨l, rfl, rfl⟩; rfl
  | cons x fs ih =>
    rw [List.forall₂_cons_left_iff]
    constructor
    · rintro ⟨f, ps, h1, h2, rfl⟩
      obtain ⟨a, h3, h4, h5⟩ := (field_iff ht pp x f).mp h1
      obtain ⟨l, h6, h7⟩ := (ih ps).mp h2
      exact ⟨a :: l, by simp only [fields, h3, h4, h6, if_true], by rw [List.map_cons, h5, h7]⟩
    · rintro ⟨l, h1, rfl⟩
      rw [fields] at h1
      cases hx : tryFromAttrs pp x with
      | none => rw [hx] at h1; cases h1
      | some a =>
        rw [hx] at h1
        simp only [] at h1
        split at h1
        · rename_i hs
          cases hl : fields pp fs with
          | none => rw [hl] at h1; cases h1
          | some l' =>
            rw [hl] at h1
            cases h1
            exact ⟨field a, l'.map field, (field_iff ht pp x _).mpr ⟨a, hx, hs, rfl⟩, (ih _).mpr ⟨l', hl, rfl⟩, rfl⟩
        · cases h1

theorem variant_iff {field : Attribute Pa → F} {spec : List (Arg Pa) → F → Prop} (ht : Treats field spec)
    (pp : String → Option Pa) (v : List SynAttr × List (List SynAttr)) (r : Bytes × List F) : VariantPlan pp spec v r ↔
      ∃ a l, tryFromAttrs pp v.1 = some a ∧ a.sanitizeAsVariant = true ∧ fields pp v.2 = some l ∧
        r = (a.idSlice, l.map field) := by
  constructor
  · rintro ⟨as, c, p, n, hd, hi, h1, h2⟩
    have hfold := describes_foldl as hd.1.1
    obtain ⟨h3, h4⟩ := (checked_iff pp v.1 _ .variant).mpr ⟨as, hd, hfold⟩
    obtain ⟨l, h5, h6⟩ := (fields_iff ht pp v.2 r.2).mp h2
    refine ⟨_, l, h3, h4, h5, ?_⟩
    rw [idSlice_spec hfold (hasArgs_bounded hd.1) hi, h6, ← h1]
  · rintro ⟨a, l, h1, h2, h3, rfl⟩
    obtain ⟨as, hd, hde⟩ := (checked_iff pp v.1 a .variant).mp ⟨h1, h2⟩
    obtain ⟨c, p, n, hi⟩ := identOf_exists as
    exact ⟨as, c, p, n, hd, hi, idSlice_spec hde (hasArgs_bounded hd.1) hi, (fields_iff ht pp v.2 _).mpr ⟨l, h3, rfl⟩⟩

theorem variants_iff {field : Attribute Pa → F} {spec : List (Arg Pa) → F → Prop} (ht : Treats field spec)
    (pp : String → Option Pa) (vs : List (List SynAttr × List (List SynAttr))) (ps : List (Bytes × List F)) :
    List.Forall₂ (VariantPlan pp spec) vs ps ↔
      ∃ l, variants pp vs = some l ∧ l.map (fun v => (v.1.idSlice, v.2.map field)) = ps := by
  induction vs generalizing ps with
  | nil =>
    simp only [List.forall₂_nil_left_iff, variants, Option.some.injEq]
    constructor
    · rintro rfl; exact ⟨[], rfl, rfl⟩
    · rintro ⟨l, rfl, rfl⟩; rfl
  | cons x vs ih =>
    rw [List.forall₂_cons_left_iff]
    obtain ⟨v, fs⟩ := x
    constructor
    · rintro ⟨f, ps, h1, h2, rfl⟩
      obtain ⟨a, l, h3, h4, h5, rfl⟩ := (variant_iff ht pp _ f).mp h1
      obtain ⟨l', h6, rfl⟩ := (ih ps).mp h2
      simp only [] at h3 h5
      exact ⟨(a, l) :: l', by simp only [variants, h3, h4, h5, h6, if_true], rfl⟩
    · rintro ⟨l, h1, rfl⟩
      rw [variants] at h1
      cases hx : tryFromAttrs pp v with
      | none => rw [hx] at h1; cases h1
      | some a =>
        rw [hx] at h1
        simp only [] at h1
        split at h1
        · rename_i hs
          cases hf : fields pp fs with
          | none => rw [hf] at h1; cases h1
          | some lf =>
            rw [hf] at h1
            simp only [] at h1
            cases hl : variants pp vs with
            | none => rw [hl] at h1; cases h1
            | some l' =>
              rw [hl] at h1
              cases h1
              exact ⟨_, _, (variant_iff ht pp (v, fs) _).mpr ⟨a, lf, hx, hs, hf, rfl⟩, (ih _).mpr ⟨l', hl, rfl⟩, rfl⟩
        · cases h1

theorem filter_one {α : Type} (q : α → Bool) (l : List α) : (l.filter fun x => !q x).length = 1 ↔
    ∃ a x b, l = a ++ x :: b ∧ (∀ y ∈ a, q y = true) ∧ q x = false ∧ ∀ y ∈ b, q y = true := by
  constructor
  · intro h
    induction l with
    | nil => cases h
    | cons x l ih =>
      by_cases hx : q x = true
      · obtain ⟨a, y, b, rfl, h1, h2, h3⟩ := ih (by simpa [hx] using h)
        exact ⟨x :: a, y, b, rfl, by simpa [hx] using h1, h2, h3⟩
      · have hx : q x = false := by simpa using hx
        refine ⟨[], x, l, rfl, by simp, hx, ?_⟩
        simpa [hx] using h
  · rintro ⟨a, x, b, rfl, h1, h2, h3⟩
    have e1 : a.filter (fun y => !q y) = [] := by simpa using h1
    have e2 : b.filter (fun y => !q y) = [] := by simpa using h3
    simp [e1, e2, h2]

/-- The accessor of a conversion is the argument of the kind. -/
structure Conv (conv : Attribute Pa → Option Pa) (mk : Pa → Arg Pa) (k : ArgKind) : Prop where
  group : k.group = .conversion
  kind : ∀ p, (mk p).kind = k
  iff : ∀ as a, Describes as a → ∀ p, conv a = some p ↔ mk p ∈ as
  has : ∀ a, (conv a).isSome = a.has k

theorem conv_none {conv : Attribute Pa → Option Pa} {mk : Pa → Arg Pa} {k : ArgKind} (hc : Conv conv mk k) {as : List (Arg Pa)}
    {a : Attribute Pa} (hn : (as.map Arg.kind).Nodup) (h : Describes as a) : conv a = none ↔ ¬ kinds as k := by
  rw [← describes_has hn h, ← hc.has]
  cases conv a <;> simp

theorem structPlan_iff {field : Attribute Pa → F} {spec : List (Arg Pa) → F → Prop} (ht : Treats field spec)
    {skipped : Attribute Pa → Bool} {skips : F → Bool} (hs : ∀ a, skips (field a) = skipped a)
    {noConv : List (Arg Pa) → Prop} (pp : String → Option Pa)
    {attrs : List SynAttr} {as : List (Arg Pa)} {a : Attribute Pa} (hd : Documented pp .struct attrs as) (h : Describes as a)
    (hno : noConv as) (fs : List (List SynAttr)) (plan : Plan Pa F)
    (he : structPlan pp field skipped a fs = some plan) : DerivePlan pp spec skips noConv attrs (.struct fs) plan := by
  rw [structPlan] at he
  split at he
  · cases hf : fields pp fs with
    | none => rw [hf] at he; cases he
    | some l =>
      rw [hf] at he
      simp only [] at he
      have hk := describes_has hd.1.1 h .transparent
      split at he
      · rename_i htr
        split at he
        · rename_i hl
          cases he
          obtain ⟨x, y, z, rfl, h1, h2, h3⟩ := (filter_one skipped l).mp hl
          rw [List.map_append, List.map_cons]
          refine .transparent hd (hk.mp htr) ?_ ((hs y).trans h2) ?_ ((fields_iff ht pp fs _).mpr ⟨_, hf, ?_⟩)
          · intro w hw
            obtain ⟨w', hw', rfl⟩ := List.mem_map.mp hw
            exact (hs w').trans (h1 w' hw')
          · intro w hw
            obtain ⟨w', hw', rfl⟩ := List.mem_map.mp hw
            exact (hs w').trans (h3 w' hw')
          · rw [List.map_append, List.map_cons]
        · cases he
      · rename_i htr
        cases he
        obtain ⟨c, p, n, hi⟩ := identOf_exists as
        rw [idSlice_spec h (hasArgs_bounded hd.1) hi]
        exact .struct hd hno (fun hk' => htr (hk.mpr hk')) hi ((fields_iff ht pp fs _).mpr ⟨l, hf, rfl⟩)
  · cases he

theorem derive_iff {field : Attribute Pa → F} {spec : List (Arg Pa) → F → Prop} (ht : Treats field spec)
    {skipped : Attribute Pa → Bool} {skips : F → Bool} (hs : ∀ a, skips (field a) = skipped a)
    {conv1 conv2 : Attribute Pa → Option Pa} {mk1 mk2 : Pa → Arg Pa} {k1 k2 : ArgKind} (h1 : Conv conv1 mk1 k1)
    (h2 : Conv conv2 mk2 k2) (hx : ∀ s, Accepted .struct s → ¬ (s k1 ∧ s k2)) (pp : String → Option Pa)
    (attrs : List SynAttr) (data : Data) (plan : Plan Pa F) :
    derive pp conv1 conv2 field skipped attrs data = some plan ↔
      (∃ as p, Documented pp .struct attrs as ∧ mk1 p ∈ as ∧ plan = .conv1 p) ∨
      (∃ as p, Documented pp .struct attrs as ∧ mk2 p ∈ as ∧ plan = .conv2 p) ∨
      DerivePlan pp spec skips (fun as => ¬ kinds as k1 ∧ ¬ kinds as k2) attrs data plan := by
  constructor
  · intro he
    rw [derive] at he
    cases ha : tryFromAttrs pp attrs with
    | none => rw [ha] at he; cases he
    | some a =>
      rw [ha] at he
      simp only [] at he
      split at he
      · rename_i hc
        obtain ⟨as, hd, hde⟩ := (checked_iff pp attrs a .struct).mp ⟨ha, hc⟩
        cases e1 : conv1 a with
        | some p =>
          rw [e1] at he
          cases he
          exact .inl ⟨as, p, hd, (h1.iff as a hde p).mp e1, rfl⟩
        | none =>
          rw [e1] at he
          simp only [] at he
          cases e2 : conv2 a with
          | some p =>
            rw [e2] at he
            cases he
            exact .inr (.inl ⟨as, p, hd, (h2.iff as a hde p).mp e2, rfl⟩)
          | none =>
            rw [e2] at he
            simp only [] at he
            have hno : ¬ kinds as k1 ∧ ¬ kinds as k2 := ⟨(conv_none h1 hd.1.1 hde).mp e1, (conv_none h2 hd.1.1 hde).mp e2⟩
            right; right
            cases data with
            | struct fs => exact structPlan_iff ht hs pp hd hde hno fs plan he
            | enum vs =>
              simp only [enumPlan] at he
              split at he
              · rename_i hce
                cases hv : variants pp vs with
                | none => rw [hv] at he; cases he
                | some l =>
                  rw [hv] at he
                  cases he
                  obtain ⟨as', hd', hde'⟩ := (checked_iff pp attrs a .enum).mp ⟨ha, hce⟩
                  exact .enum hd' ⟨(conv_none h1 hd'.1.1 hde').mp e1, (conv_none h2 hd'.1.1 hde').mp e2⟩
                    ((variants_iff ht pp vs _).mpr ⟨l, hv, rfl⟩)
              · cases he
            | union => cases he
      · cases he
  · rintro (⟨as, p, hd, hm, rfl⟩ | ⟨as, p, hd, hm, rfl⟩ | h)
    · have hde := describes_foldl as hd.1.1
      obtain ⟨ha, hc⟩ := (checked_iff pp attrs _ .struct).mpr ⟨as, hd, hde⟩
      have e1 := (h1.iff as _ hde p).mpr hm
      rw [derive, ha]
      simp only [show (as.foldl set {}).sanitizeAsContainer = true from hc, if_true, e1]
    · have hde := describes_foldl as hd.1.1
      obtain ⟨ha, hc⟩ := (checked_iff pp attrs _ .struct).mpr ⟨as, hd, hde⟩
      have e2 := (h2.iff as _ hde p).mpr hm
      have e1 := (conv_none h1 hd.1.1 hde).mpr fun hk => hx _ hd.2 ⟨hk, ⟨_, hm, h2.kind p⟩⟩
      rw [derive, ha]
      simp only [show (as.foldl set {}).sanitizeAsContainer = true from hc, if_true, e1, e2]
    · cases h with
      | @struct as c p n fs ps hd hno hnt hi hf =>
        have hde := describes_foldl as hd.1.1
        obtain ⟨ha, hc⟩ := (checked_iff pp attrs _ .struct).mpr ⟨as, hd, hde⟩
        have e1 := (conv_none h1 hd.1.1 hde).mpr hno.1
        have e2 := (conv_none h2 hd.1.1 hde).mpr hno.2
        obtain ⟨l, hl, rfl⟩ := (fields_iff ht pp fs ps).mp hf
        have ht : ¬ (as.foldl set {}).transparent.isSome = true := fun hk => hnt ((describes_has hd.1.1 hde .transparent).mp hk)
        rw [derive, ha]
        simp only [show (as.foldl set {}).sanitizeAsContainer = true from hc, if_true, e1, e2, structPlan,
          show (as.foldl set {}).sanitizeAsStruct = true from hc, hl]
        rw [if_neg ht, idSlice_spec hde (hasArgs_bounded hd.1) hi]
      | @transparent as fs l r f hd htr hl hf hr hfs =>
        have hde := describes_foldl as hd.1.1
        obtain ⟨ha, hc⟩ := (checked_iff pp attrs _ .struct).mpr ⟨as, hd, hde⟩
        have hno : ∀ k, k.group = .conversion → ¬ kinds as k := fun k hk hk' => by
          have := hd.2.2.1 k .transparent hk' htr
          rw [hk] at this
          cases this
        have e1 := (conv_none h1 hd.1.1 hde).mpr (hno _ h1.group)
        have e2 := (conv_none h2 hd.1.1 hde).mpr (hno _ h2.group)
        obtain ⟨la, hla, hmap⟩ := (fields_iff ht pp fs _).mp hfs
        have ht : (as.foldl set {}).transparent.isSome = true := (describes_has hd.1.1 hde .transparent).mpr htr
        have hlen : (la.filter fun f => !skipped f).length = 1 := by
          have hq : ((l ++ f :: r).filter fun x => !skips x).length = 1 := (filter_one skips _).mpr ⟨l, f, r, rfl, hl, hf, hr⟩
          rw [← hmap, List.filter_map, List.length_map] at hq
          rw [← hq]
          congr 2
          funext x
          simp [hs]
        rw [derive, ha]
        simp only [show (as.foldl set {}).sanitizeAsContainer = true from hc, if_true, e1, e2, structPlan,
          show (as.foldl set {}).sanitizeAsStruct = true from hc, hla, ht, hlen, hmap]
      | @enum as vs ps hd hno hv =>
        have hde := describes_foldl as hd.1.1
        obtain ⟨ha, hc⟩ := (checked_iff pp attrs _ .enum).mpr ⟨as, hd, hde⟩
        have hc' : (as.foldl set {}).sanitizeAsEnum = true := hc
        have hcc : (as.foldl set {}).sanitizeAsContainer = true := by
          rw [sanitizeAsEnum, Bool.and_eq_true] at hc'
          exact hc'.2
        have e1 := (conv_none h1 hd.1.1 hde).mpr hno.1
        have e2 := (conv_none h2 hd.1.1 hde).mpr hno.2
        obtain ⟨l, hl, rfl⟩ := (variants_iff ht pp vs ps).mp hv
        rw [derive, ha]
        simp only [hcc, if_true, e1, e2, enumPlan, hc', hl]

theorem conv_into : Conv (Pa := Pa) Attribute.into Arg.into .into :=
  ⟨rfl, fun _ => rfl, fun _ _ h => h.into, fun _ => rfl⟩
theorem conv_to : Conv (Pa := Pa) Attribute.to Arg.to .to :=
  ⟨rfl, fun _ => rfl, fun _ _ h => h.to_, fun _ => rfl⟩
theorem conv_from : Conv (Pa := Pa) Attribute.from_ Arg.from_ .from_ :=
  ⟨rfl, fun _ => rfl, fun _ _ h => h.from_, fun _ => rfl⟩
theorem conv_tryFrom : Conv (Pa := Pa) Attribute.tryFrom Arg.tryFrom .tryFrom :=
  ⟨rfl, fun _ => rfl, fun _ _ h => h.tryFrom, fun _ => rfl⟩

theorem skips_ser (a : Attribute Pa) : serSkips a.serField = a.isSkipSerializing := by
  rw [serField]
  split
  · rename_i h; simp [h, serSkips]
  · rename_i h
    have : a.isSkipSerializing = false := by simpa using h
    rw [this]
    cases a.into <;> cases a.to <;> rfl

theorem skips_de (a : Attribute Pa) : deSkips a.deField = a.isSkipDeserializing := by
  rw [deField]
  split
  · rename_i h; simp [h, deSkips]
  · rename_i h
    have : a.isSkipDeserializing = false := by simpa using h
    rw [this]
    cases a.from_ <;> cases a.tryFrom <;> rfl

end Attribute
end Bsn1
