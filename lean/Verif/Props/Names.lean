import Verif.Spec.Names
import Verif.Lemmas.Monad
import Mathlib.Data.List.Nodup
/-!
# C86: the names in generated code
-/

namespace Bsn1

open Spec

theorem identNew_ok_iff {ic : IdentChars} {t : List Char} : identNew ic t = .ok t ↔ IsIdent ic t := by
  cases t with
  | nil => simp [identNew, IsIdent]
  | cons c r =>
    simp only [identNew, IsIdent]
    constructor
    · intro h
      split at h
      · rename_i h1; simp at h1; exact ⟨c, r, rfl, h1.1, h1.2⟩
      · cases h
    · rintro ⟨c', r', e, h1, h2⟩
      cases e
      rw [if_pos]
      simp; exact ⟨h1, h2⟩

theorem identNew_cases (ic : IdentChars) (t : List Char) :
    (IsIdent ic t ∧ identNew ic t = .ok t) ∨ (¬ IsIdent ic t ∧ identNew ic t = .panic) := by
  by_cases h : IsIdent ic t
  · exact .inl ⟨h, identNew_ok_iff.mpr h⟩
  · refine .inr ⟨h, ?_⟩
    cases t with
    | nil => rfl
    | cons c r =>
      simp only [identNew]
      rw [if_neg]
      intro h1
      simp at h1
      exact h ⟨c, r, rfl, h1.1, h1.2⟩

theorem varPrefix_eq : ∃ r, varPrefix = 'b' :: r ∧ ∀ c ∈ r, c.isAlpha = true ∨ c.isDigit = true ∨ c = '_' :=
  ⟨"sn1_macro_field_1701146321_".toList, by decide +kernel, by decide +kernel⟩

theorem formatIdent_prefix (ic : IdentChars) (t : List Char) :
    formatIdent ic (varPrefix ++ t) = identNew ic (varPrefix ++ t) := by
  obtain ⟨r, e, -⟩ := varPrefix_eq
  rw [e, List.cons_append, formatIdent]
  intro r' h; simp at h

theorem isIdent_prefix {ic : IdentChars} (hc : RustChars ic) (t : List Char) :
    IsIdent ic (varPrefix ++ t) ↔ ∀ d ∈ t, ic.cont d = true := by
  obtain ⟨r, e, hr⟩ := varPrefix_eq
  rw [e]
  constructor
  · rintro ⟨c, r', e', -, h⟩ d hd
    cases e'
    exact h d (List.mem_append_right _ hd)
  · intro h
    refine ⟨'b', r ++ t, rfl, .inl (hc.letter 'b' (by decide)), ?_⟩
    intro d hd
    rcases List.mem_append.mp hd with h1 | h1
    · rcases hr d h1 with h2 | h2 | h2
      · exact hc.sub d (hc.letter d h2)
      · exact hc.digit d h2
      · rw [h2]; exact hc.underscore
    · exact h d h1

theorem Spec.IsIdent.cont {ic : IdentChars} (hc : RustChars ic) {s : List Char} (h : IsIdent ic s) :
    ∀ d ∈ s, ic.cont d = true := by
  obtain ⟨c, r, rfl, h1, h2⟩ := h
  intro d hd
  rcases List.mem_cons.mp hd with rfl | h3
  · rcases h1 with h1 | rfl
    · exact hc.sub _ h1
    · exact hc.underscore
  · exact h2 d h3

theorem resMap_ok {α β : Type} {f : α → Res β} {g : α → β} :
    ∀ {l : List α}, (∀ a ∈ l, f a = .ok (g a)) → resMap f l = .ok (l.map g)
  | [], _ => rfl
  | a :: r, h => by
    rw [resMap, h a List.mem_cons_self, resMap_ok fun b hb => h b (List.mem_cons_of_mem _ hb)]
    rfl

theorem resMap_panic {α β : Type} {f : α → Res β} :
    ∀ {l : List α}, (∀ a ∈ l, (∃ b, f a = .ok b) ∨ f a = .panic) → (∃ a ∈ l, f a = .panic) → resMap f l = .panic
  | [], _, ⟨_, h, _⟩ => nomatch h
  | a :: r, h, ⟨x, hx, ex⟩ => by
    rw [resMap]
    rcases h a List.mem_cons_self with ⟨b, e⟩ | e
    · rw [e]
      have hr : ∃ y ∈ r, f y = .panic := by
        rcases List.mem_cons.mp hx with rfl | h1
        · rw [e] at ex; cases ex
        · exact ⟨x, h1, ex⟩
      show (resMap f r >>= _) = _
      rw [resMap_panic (fun y hy => h y (List.mem_cons_of_mem _ hy)) hr]
      rfl
    · rw [e]; rfl

/-- The variable of a field. -/
def fieldVar (n : FieldIdent) : List Char := varPrefix ++ n.text

theorem index_text_inj {i j : Nat} (h : (FieldIdent.index i).text = (FieldIdent.index j).text) : i = j := by
  have h1 := congrArg (fun l => Nat.ofDigitChars 10 l 0) h
  simpa only [FieldIdent.text, Nat.ofDigitChars_ten_toDigits] using h1

theorem fieldVars_ok {ic : IdentChars} (hc : RustChars ic) {f : FieldNames} (hd : Declared ic f) (hr : ¬ HasRaw f) :
    fieldVars ic f = .ok ((fieldIdents f).map fieldVar) ∧ (∀ n ∈ fieldIdents f, IsIdent ic (fieldVar n)) ∧
      ((fieldIdents f).map fieldVar).Nodup := by
  have key : ∀ n ∈ fieldIdents f, IsIdent ic (fieldVar n) := by
    intro n hn
    refine (isIdent_prefix hc _).mpr fun d hd' => ?_
    cases f with
    | named names =>
      obtain ⟨s, e | e, h⟩ := hd.2 n hn
      · subst e; exact h.cont hc d hd'
      · subst e; exact absurd ⟨s, hn⟩ hr
    | unnamed k =>
      simp only [fieldIdents, List.mem_map] at hn
      obtain ⟨i, -, rfl⟩ := hn
      exact hc.digit d (Nat.isDigit_of_mem_toDigits (by decide) (by decide) hd')
    | unit => nomatch hn
  refine ⟨?_, key, ?_⟩
  · refine resMap_ok fun n hn => ?_
    rw [formatIdent_prefix]
    exact identNew_ok_iff.mpr (key n hn)
  · cases f with
    | named names =>
      refine List.Nodup.map_on ?_ hd.1
      intro a ha b hb e
      have e' := List.append_cancel_left e
      obtain ⟨s, h1 | h1, -⟩ := hd.2 a ha
      · obtain ⟨t, h2 | h2, -⟩ := hd.2 b hb
        · subst h1 h2; exact congrArg _ e'
        · subst h2; exact absurd ⟨t, hb⟩ hr
      · subst h1; exact absurd ⟨s, ha⟩ hr
    | unnamed k =>
      simp only [fieldIdents, List.map_map]
      refine List.Nodup.map ?_ List.nodup_range
      intro i j e
      exact index_text_inj (List.append_cancel_left e)
    | unit => exact List.nodup_nil

/-- **C86.** For every variant whose fields have no raw name the generator gives an arm the compiler accepts, and
whatever value of the variant is matched, the variable the generated code uses for the `k`-th field (`field_vars`) has
the value of the `k`-th field (`field_idents`) and no other. -/
theorem C86_match_arm_partial {ic : IdentChars} (hc : RustChars ic) {f : FieldNames} (hd : Declared ic f)
    (hr : ¬ HasRaw f) :
    ∃ p vs, toMatchArm ic f = .ok p ∧ fieldVars ic f = .ok vs ∧ Accepts ic f p ∧
      vs.length = (fieldIdents f).length ∧
      ∀ {α : Type} (value : Value α), value.Of f → ∀ (k : Nat) (n : FieldIdent) (v : List Char),
        (fieldIdents f)[k]? = some n → vs[k]? = some v → ∀ a, Binds p value v a ↔ value.Has n a := by
  obtain ⟨e, hi, hn⟩ := fieldVars_ok hc hd hr
  cases f with
  | named names =>
    have e1 : toMatchArm ic (.named names) = .ok (.named (names.zip (names.map fieldVar))) := by
      unfold toMatchArm; rw [e]; rfl
    refine ⟨_, _, e1, e, ⟨?_, ?_, ?_⟩, by simp, ?_⟩
    · simpa [vars, fieldIdents, List.map_snd_zip] using hn
    · intro v hv
      simp only [vars, List.map_snd_zip (by simp : (names.map fieldVar).length ≤ names.length), List.mem_map] at hv
      obtain ⟨n, h1, rfl⟩ := hv
      exact hi n h1
    · show ((names.zip (names.map fieldVar)).map Prod.fst).Perm names
      rw [List.map_fst_zip (by simp)]
    · intro α value ho k n v h1 h2 a
      cases value with
      | named fields =>
        have hv : v = fieldVar n := by
          rw [List.getElem?_map, h1] at h2; exact (Option.some.inj h2).symm
        have hmem : n ∈ names := List.mem_of_getElem? h1
        have hz : ∀ m w, (m, w) ∈ names.zip (names.map fieldVar) ↔ m ∈ names ∧ w = fieldVar m := by
          intro m w
          rw [List.zip_map_right, List.mem_map]
          constructor
          · rintro ⟨⟨x, y⟩, h3, h4⟩
            have hxy : x = y := by
              obtain ⟨i, hlt, h5⟩ := List.mem_iff_getElem.mp h3
              simp at h5; exact h5.1.symm.trans h5.2
            cases h4; subst hxy
            exact ⟨(List.of_mem_zip h3).1, rfl⟩
          · rintro ⟨h3, rfl⟩
            obtain ⟨i, hlt, h5⟩ := List.mem_iff_getElem.mp h3
            refine ⟨(m, m), List.mem_iff_getElem.mpr ⟨i, by simpa using hlt, by simp [h5]⟩, rfl⟩
        constructor
        · rintro ⟨m, h3, h4⟩
          obtain ⟨h5, h6⟩ := (hz m v).mp h3
          have : m = n := by
            have := List.inj_on_of_nodup_map hn h5 hmem (h6.symm.trans hv)
            exact this
          subst this; exact h4
        · intro h3
          exact ⟨n, (hz n v).mpr ⟨hmem, hv⟩, h3⟩
      | unnamed _ => exact ho.elim
      | unit => exact ho.elim
  | unnamed c =>
    have e1 : toMatchArm ic (.unnamed c) = .ok (.unnamed ((fieldIdents (.unnamed c)).map fieldVar)) := by
      unfold toMatchArm; rw [e]; rfl
    refine ⟨_, _, e1, e, ⟨hn, ?_, ?_⟩, by simp, ?_⟩
    · intro v hv
      obtain ⟨n, h1, rfl⟩ := List.mem_map.mp hv
      exact hi n h1
    · show ((fieldIdents (.unnamed c)).map fieldVar).length = c
      simp [fieldIdents]
    · intro α value ho k n v h1 h2 a
      cases value with
      | unnamed fields =>
        have hk : n = .index k := by
          simp only [fieldIdents, List.getElem?_map] at h1
          rcases h : (List.range c)[k]? with _ | i
          · rw [h] at h1; cases h1
          · rw [h] at h1
            have := List.getElem?_eq_some_iff.mp h
            obtain ⟨_, h4⟩ := this
            simp at h4; subst h4
            exact (Option.some.inj h1).symm
        subst hk
        constructor
        · rintro ⟨i, h3, h4⟩
          have hlt : i < ((fieldIdents (.unnamed c)).map fieldVar).length := (List.getElem?_eq_some_iff.mp h3).1
          have : i = k := (List.getElem?_inj hlt hn).mp (h3.trans h2.symm)
          subst this; exact h4
        · intro h3; exact ⟨k, h2, h3⟩
      | named _ => exact ho.elim
      | unit => exact ho.elim
  | unit =>
    have e1 : toMatchArm ic .unit = .ok .unit := rfl
    refine ⟨_, _, e1, e, ⟨List.nodup_nil, (fun _ h => nomatch h), trivial⟩, rfl, ?_⟩
    intro α value ho k n v h1
    simp [fieldIdents] at h1

/-- No variable of a generated arm is a name the generated code or the caller uses, unless that name begins with the
prefix: nothing is shadowed. -/
theorem C86_no_shadowing {ic : IdentChars} {f : FieldNames} {vs : List (List Char)} (e : fieldVars ic f = .ok vs)
    {v : List Char} (hv : v ∈ vs) : varPrefix <+: v := by
  have aux : ∀ (l : List FieldIdent) (vs : List (List Char)),
      resMap (fun ident => formatIdent ic (varPrefix ++ ident.text)) l = .ok vs → ∀ v ∈ vs, varPrefix <+: v := by
    intro l
    induction l with
    | nil => intro vs h v hv; cases h; cases hv
    | cons n r ih =>
      intro vs h v hv
      rw [resMap, formatIdent_prefix] at h
      rcases identNew_cases ic (varPrefix ++ n.text) with ⟨-, h1⟩ | ⟨-, h1⟩
      · rw [h1] at h
        rcases h2 : resMap (fun ident => formatIdent ic (varPrefix ++ ident.text)) r with ws | _ | _ | _ <;>
          rw [h2] at h
        · cases h
          rcases List.mem_cons.mp hv with rfl | h3
          · exact List.prefix_append _ _
          · exact ih ws h2 v h3
        all_goals cases h
      · rw [h1] at h; cases h
  exact aux _ _ e v hv

/-- **C86, violated.** One field named `r#…` in a variant, skipped or not, makes the generator panic: the enum has no
`Serialize`, though the same fields in a struct are fine (`C86_struct_fields`). -/
theorem C86_raw_violated {ic : IdentChars} (hc : RustChars ic) {f : FieldNames} (hr : HasRaw f) :
    toMatchArm ic f = .panic := by
  have h : fieldVars ic f = .panic := by
    cases f with
    | named names =>
      obtain ⟨s, hs⟩ := hr
      refine resMap_panic (fun n _ => ?_) ⟨.raw s, hs, ?_⟩
      · rw [formatIdent_prefix]
        rcases identNew_cases ic (varPrefix ++ n.text) with h | h
        · exact .inl ⟨_, h.2⟩
        · exact .inr h.2
      · rw [formatIdent_prefix]
        rcases identNew_cases ic (varPrefix ++ (FieldIdent.raw s).text) with h | h
        · have := (isIdent_prefix hc _).mp h.1 '#' (by simp [FieldIdent.text])
          rw [hc.hash] at this; cases this
        · exact h.2
    | unnamed _ => exact hr.elim
    | unit => exact hr.elim
  unfold toMatchArm; rw [h]; rfl

/-- The derive of a variant goes through exactly when no field has a raw name. -/
theorem C86_match_arm_iff {ic : IdentChars} (hc : RustChars ic) {f : FieldNames} (hd : Declared ic f) :
    (∃ p, toMatchArm ic f = .ok p) ↔ ¬ HasRaw f := by
  constructor
  · rintro ⟨p, e⟩ hr
    rw [C86_raw_violated hc hr] at e; cases e
  · intro hr
    obtain ⟨p, _, e, _⟩ := C86_match_arm_partial hc hd hr
    exact ⟨p, e⟩

/-- In a struct the expressions name the declared fields themselves, raw or not. -/
theorem C86_struct_fields (names : List FieldIdent) (n : Nat) :
    fieldVarsStruct (.named names) = names ∧
      ∀ i (h : i < n), (fieldVarsStruct (.unnamed n))[i]? = some (.index i) := by
  refine ⟨rfl, fun i h => ?_⟩
  simp [fieldVarsStruct, fieldIdents, h]

/-- The tables restricted to ASCII. -/
def asciiChars : IdentChars := ⟨Char.isAlpha, fun c => c.isAlphanum || c == '_'⟩

theorem asciiChars_rust : RustChars asciiChars where
  letter c h := h
  sub c h := by
    have h' : c.isAlpha = true := h
    simp [asciiChars, Char.isAlphanum, h']
  digit c h := by simp [asciiChars, Char.isAlphanum, h]
  underscore := by decide
  hash := by decide

/-- A variant `{ id, r#type }` is declared and makes the generator panic. -/
example : Declared asciiChars (.named [.plain "id".toList, .raw "type".toList]) ∧
    toMatchArm asciiChars (.named [.plain "id".toList, .raw "type".toList]) = .panic := by
  refine ⟨⟨by decide, ?_⟩, C86_raw_violated asciiChars_rust ⟨_, List.mem_cons_of_mem _ List.mem_cons_self⟩⟩
  intro n hn
  simp only [List.mem_cons, List.not_mem_nil, or_false] at hn
  rcases hn with rfl | rfl
  · exact ⟨_, .inl rfl, ⟨'i', ['d'], by decide, .inl (by decide), by decide⟩⟩
  · exact ⟨_, .inr rfl, ⟨'t', "ype".toList, by decide, .inl (by decide), by decide⟩⟩

/-- Twelve fields of a tuple variant, where the names of the fields have one and two digits. -/
example : Declared asciiChars (.unnamed 12) ∧ ¬ HasRaw (.unnamed 12) := ⟨trivial, id⟩
example := C86_match_arm_partial asciiChars_rust (f := .unnamed 12) trivial id
example := C86_match_arm_iff asciiChars_rust (f := .unnamed 12) trivial
example : ∃ vs, fieldVars asciiChars (.unnamed 12) = .ok vs ∧ ∀ v ∈ vs, varPrefix <+: v :=
  (C86_match_arm_partial asciiChars_rust (f := .unnamed 12) trivial id).elim fun _ ⟨vs, _, h, _⟩ => ⟨vs, h, fun _ hv => C86_no_shadowing h hv⟩

/-- **C87.** The generated `impl` is for the declared type at all its arguments: it declares a parameter for each declared one, in
order, with its bounds and without its default, and the `k`-th argument of the type is the `k`-th parameter of the `impl`. -/
theorem C87_impl_header (params : List GenericParam) :
    List.Forall₂ StandsFor params (implHeader params).params ∧
      List.Forall₂ HasName (implHeader params).params (implHeader params).args := by
  cases params with
  | nil => exact ⟨.nil, .nil⟩
  | cons p r =>
    have h : ∀ l : List GenericParam,
        List.Forall₂ StandsFor l (l.map fun
          | .lifetime name bounds => .lifetime name bounds
          | .type name bounds _ => .type name bounds none
          | .const name ty _ => .const name ty none) ∧
        List.Forall₂ HasName (l.map fun
          | .lifetime name bounds => .lifetime name bounds
          | .type name bounds _ => .type name bounds none
          | .const name ty _ => .const name ty none) (l.map fun
          | .lifetime name _ => name
          | .type name _ _ => name
          | .const name _ _ => name) := by
      intro l
      induction l with
      | nil => exact ⟨.nil, .nil⟩
      | cons a l ih =>
        cases a with
        | lifetime => exact ⟨.cons (.lifetime ..) ih.1, .cons (.lifetime ..) ih.2⟩
        | type => exact ⟨.cons (.type ..) ih.1, .cons (.type ..) ih.2⟩
        | const => exact ⟨.cons (.const ..) ih.1, .cons (.const ..) ih.2⟩
    exact h (p :: r)

/-- `impl<'a, T: Ord, const N: usize> … for Name<'a, T, N>` from `Name<'a, T: Ord = u8, const N: usize = 3>`. -/
example : implHeader [.lifetime "'a" "", .type "T" "Ord" (some "u8"), .const "N" "usize" (some "3")] =
    ⟨[.lifetime "'a" "", .type "T" "Ord" none, .const "N" "usize" none], ["'a", "T", "N"]⟩ := rfl

end Bsn1
