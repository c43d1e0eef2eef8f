import Verif.Lemmas.DeSettled
/-!
# Lemmas on the generated code, for arbitrary implementations of the types of the fields
-/

namespace Bsn1
open Spec

variable {α β γ : Type}

/-- The octets `p` are a DER value from which the implementation decodes `x`. -/
def DerTakes {δ : Type} (d : De δ) (p : Bytes) (x : δ) : Prop :=
  ∃ id b, IsId id ∧ b.length < 2 ^ 64 ∧ p = tlv id b ∧ d.fromDer id b = .ok x

/-- The octets `p` are a BER value from which the implementation decodes `x`. -/
def BerTakes {δ : Type} (d : De δ) (p : Bytes) (x : δ) : Prop :=
  ∃ id indef raw, BerValue p id indef raw ∧ d.fromBer id (lenOf indef raw) raw = .ok x

/-- The contents are one value (in the sense of `T`) for each field that is not skipped, in order; a skipped field has its
default and a converted one is the result of the conversion. -/
def DeFields.Decodes (T : {δ : Type} → De δ → Bytes → δ → Prop) : {γ : Type} → DeFields γ → Bytes → γ → Prop
  | _, .nil, c, _ => c = []
  | _, .cons (.skip dflt) r, c, v => v.1 = dflt ∧ r.Decodes T c v.2
  | _, .cons (.plain d) r, c, v => ∃ p c', c = p ++ c' ∧ T d p v.1 ∧ r.Decodes T c' v.2
  | _, .cons (.from_ d f) r, c, v => ∃ p c' u, c = p ++ c' ∧ T d p u ∧ v.1 = f u ∧ r.Decodes T c' v.2
  | _, .cons (.tryFrom d f) r, c, v => ∃ p c' u, c = p ++ c' ∧ T d p u ∧ f u = .ok v.1 ∧ r.Decodes T c' v.2

/-- What is needed of `derTmpVal` and `berTmpVal` on at most `n` octets. -/
structure Stepper (n : Nat) (tmp : {δ : Type} → De δ → Bytes → Res (δ × Bytes))
    (T : {δ : Type} → De δ → Bytes → δ → Prop) : Prop where
  ok : ∀ {δ : Type} (d : De δ) bytes x rest, bytes.length ≤ n →
    (tmp d bytes = .ok (x, rest) ↔ ∃ p, T d p x ∧ bytes = p ++ rest)
  cut : ∀ {δ : Type} (d : De δ) p x c1 c2, T d p x → p = c1 ++ c2 → c2 ≠ [] → c1.length ≤ n → ∃ e, tmp d c1 = .err e

theorem derStepper (n : Nat) : Stepper n derTmpVal DerTakes where
  ok d bytes x rest _ := by
    rw [derTmpVal_iff]
    constructor
    · rintro ⟨id, b, h1, h2, h3, h4⟩; exact ⟨_, ⟨id, b, h1, h2, rfl, h3⟩, h4⟩
    · rintro ⟨_, ⟨id, b, h1, h2, rfl, h3⟩, h4⟩; exact ⟨id, b, h1, h2, h3, h4⟩
  cut d p x c1 c2 h e hc _ := by
    obtain ⟨id, b, h1, h2, rfl, h3⟩ := h
    rcases derParse_cases c1 with ⟨er, rest, hp⟩ | ⟨id', b', rest, h1', h2', hp, e'⟩
    · exact ⟨_, by rw [derTmpVal, hp]; rfl⟩
    · have hh : tlv id b ++ [] = tlv id' b' ++ (rest ++ c2) := by rw [List.append_nil, e, e', List.append_assoc]
      have := (tlv_prefix_free h1 h1' h2 h2' hh).2
      exact absurd (List.append_eq_nil_iff.mp this.symm).2 hc

theorem berStepper : Stepper isizeMax berTmpVal BerTakes where
  ok d bytes x rest hl := by
    rw [berTmpVal_iff d bytes hl]
    constructor
    · rintro ⟨p, id, indef, raw, h1, h2, h3⟩; exact ⟨p, ⟨id, indef, raw, h1, h2⟩, h3⟩
    · rintro ⟨p, ⟨id, indef, raw, h1, h2⟩, h3⟩; exact ⟨p, id, indef, raw, h1, h2, h3⟩
  cut d p x c1 c2 h e hc hl := by
    obtain ⟨id, indef, raw, h1, h2⟩ := h
    rcases berParse_cases c1 hl with ⟨er, rest, hp⟩ | ⟨p', id', d', raw', rest, hv, hp, e'⟩
    · exact ⟨_, by rw [berTmpVal, hp]; rfl⟩
    · have hh : p ++ [] = p' ++ (rest ++ c2) := by rw [List.append_nil, e, e', List.append_assoc]
      have := (isBer_prefix_free (berValue_isBer h1) (berValue_isBer hv) hh).2
      exact absurd (List.append_eq_nil_iff.mp this.symm).2 hc

variable {tmp : {δ : Type} → De δ → Bytes → Res (δ × Bytes)} {T : {δ : Type} → De δ → Bytes → δ → Prop} {n : Nat}

theorem deField_from (d : De α) (f : α → β) (bytes : Bytes) (v : β) (rest : Bytes) :
    deField tmp (.from_ d f) bytes = .ok (v, rest) ↔ ∃ u, tmp d bytes = .ok (u, rest) ∧ v = f u := by
  have := backField_de tmp d (.from_ f) bytes v rest
  simp only [backField, Back.apply, Except.ok.injEq] at this
  rw [this]
  simp only [eq_comm]

theorem deField_tryFrom (d : De α) (f : α → Except Chain β) (bytes : Bytes) (v : β) (rest : Bytes) :
    deField tmp (.tryFrom d f) bytes = .ok (v, rest) ↔ ∃ u, tmp d bytes = .ok (u, rest) ∧ f u = .ok v := by
  have := backField_de tmp d (.tryFrom f) bytes v rest
  simpa only [backField, Back.apply] using this

theorem deFields_iff (hs : Stepper n tmp T) : {γ : Type} → (fs : DeFields γ) → (bytes : Bytes) → (v : γ) → (rest : Bytes) →
    bytes.length ≤ n → (deFields tmp fs bytes = .ok (v, rest) ↔ ∃ c, bytes = c ++ rest ∧ fs.Decodes T c v)
  | _, .nil, bytes, v, rest, _ => by
    rw [deFields]
    change _ ↔ ∃ c, bytes = c ++ rest ∧ c = []
    simp
  | _, .cons (.skip dflt) r, bytes, v, rest, hl => by
    rw [deFields_cons]
    simp only [deField, DeFields.Decodes, Res.ok.injEq, Prod.mk.injEq]
    constructor
    · rintro ⟨mid, ⟨h1, rfl⟩, h2⟩
      obtain ⟨c, h3, h4⟩ := (deFields_iff hs r _ _ _ hl).mp h2
      exact ⟨c, h3, h1.symm, h4⟩
    · rintro ⟨c, h3, h1, h4⟩
      exact ⟨bytes, ⟨h1.symm, rfl⟩, (deFields_iff hs r _ _ _ hl).mpr ⟨c, h3, h4⟩⟩
  | _, .cons (.plain d) r, bytes, v, rest, hl => by
    rw [deFields_cons]
    simp only [deField, DeFields.Decodes]
    constructor
    · rintro ⟨mid, h1, h2⟩
      obtain ⟨p, h3, rfl⟩ := (hs.ok d _ _ _ hl).mp h1
      rw [List.length_append] at hl
      obtain ⟨c, rfl, h5⟩ := (deFields_iff hs r _ _ _ (by omega)).mp h2
      exact ⟨p ++ c, by simp, p, c, rfl, h3, h5⟩
    · rintro ⟨_, rfl, p, c, rfl, h3, h5⟩
      have hl' := hl
      rw [List.length_append, List.length_append] at hl'
      exact ⟨c ++ rest, (hs.ok d _ _ _ hl).mpr ⟨p, h3, by simp⟩, (deFields_iff hs r _ _ _
        (by rw [List.length_append]; omega)).mpr ⟨c, rfl, h5⟩⟩
  | _, .cons (.from_ d f) r, bytes, v, rest, hl => by
    rw [deFields_cons]
    simp only [deField_from, DeFields.Decodes]
    constructor
    · rintro ⟨mid, ⟨u, h1, h6⟩, h2⟩
      obtain ⟨p, h3, rfl⟩ := (hs.ok d _ _ _ hl).mp h1
      rw [List.length_append] at hl
      obtain ⟨c, rfl, h5⟩ := (deFields_iff hs r _ _ _ (by omega)).mp h2
      exact ⟨p ++ c, by simp, p, c, u, rfl, h3, h6, h5⟩
    · rintro ⟨_, rfl, p, c, u, rfl, h3, h6, h5⟩
      have hl' := hl
      rw [List.length_append, List.length_append] at hl'
      exact ⟨c ++ rest, ⟨u, (hs.ok d _ _ _ hl).mpr ⟨p, h3, by simp⟩, h6⟩, (deFields_iff hs r _ _ _
        (by rw [List.length_append]; omega)).mpr ⟨c, rfl, h5⟩⟩
  | _, .cons (.tryFrom d f) r, bytes, v, rest, hl => by
    rw [deFields_cons]
    simp only [deField_tryFrom, DeFields.Decodes]
    constructor
    · rintro ⟨mid, ⟨u, h1, h6⟩, h2⟩
      obtain ⟨p, h3, rfl⟩ := (hs.ok d _ _ _ hl).mp h1
      rw [List.length_append] at hl
      obtain ⟨c, rfl, h5⟩ := (deFields_iff hs r _ _ _ (by omega)).mp h2
      exact ⟨p ++ c, by simp, p, c, u, rfl, h3, h6, h5⟩
    · rintro ⟨_, rfl, p, c, u, rfl, h3, h6, h5⟩
      have hl' := hl
      rw [List.length_append, List.length_append] at hl'
      exact ⟨c ++ rest, ⟨u, (hs.ok d _ _ _ hl).mpr ⟨p, h3, by simp⟩, h6⟩, (deFields_iff hs r _ _ _
        (by rw [List.length_append]; omega)).mpr ⟨c, rfl, h5⟩⟩

theorem bind_err {x : Res α} {f : α → Res β} {e : Error} (h : x = .err e) : (x >>= f) = .err e := by rw [h]; rfl

/-- One value cut off: either the first value is complete and the rest is cut off, or the first value is. -/
theorem cut_cases {p c' c1 c2 : Bytes} (h : p ++ c' = c1 ++ c2) (h2 : c2 ≠ []) :
    (∃ c1', c1 = p ++ c1' ∧ c' = c1' ++ c2) ∨ ∃ q, q ≠ [] ∧ p = c1 ++ q := by
  rcases List.append_eq_append_iff.mp h with ⟨a, h3, h4⟩ | ⟨a, h3, h4⟩
  · exact .inl ⟨a, h3, h4⟩
  · by_cases ha : a = []
    · subst ha
      rw [List.append_nil] at h3
      exact .inl ⟨[], by rw [List.append_nil, h3], by simpa using h4.symm⟩
    · exact .inr ⟨a, ha, h3⟩

/-- Decoding the fields from contents that are cut off fails. -/
theorem deFields_cut (hs : Stepper n tmp T) : {γ : Type} → (fs : DeFields γ) → (c c1 c2 : Bytes) → (v : γ) →
    fs.Decodes T c v → c = c1 ++ c2 → c2 ≠ [] → c.length ≤ n → ∃ e, deFields tmp fs c1 = .err e
  | _, .nil, c, c1, c2, v, h, e, h2, _ => by
    have h : c = [] := h
    rw [h] at e
    exact absurd (List.append_eq_nil_iff.mp e.symm).2 h2
  | _, .cons (.skip dflt) r, c, c1, c2, v, h, e, h2, hl => by
    obtain ⟨e', he⟩ := deFields_cut hs r c c1 c2 v.2 h.2 e h2 hl
    exact ⟨e', by rw [deFields, deField, Res.bind_ok]; exact bind_err he⟩
  | _, .cons (.plain d) r, c, c1, c2, v, h, e, h2, hl => by
    obtain ⟨p, c', rfl, h3, h4⟩ := h
    have hl' := hl
    rw [e, List.length_append] at hl'
    rcases cut_cases e h2 with ⟨c1', rfl, rfl⟩ | ⟨q, hq, hp⟩
    · obtain ⟨e', he⟩ := deFields_cut hs r _ c1' c2 v.2 h4 rfl h2 (by rw [List.length_append] at hl; omega)
      refine ⟨e', ?_⟩
      rw [deFields, deField, (hs.ok d _ _ _ (by omega)).mpr ⟨p, h3, rfl⟩, Res.bind_ok]
      exact bind_err he
    · obtain ⟨e', he⟩ := hs.cut d p _ c1 q h3 hp hq (by omega)
      exact ⟨e', by rw [deFields, deField]; exact bind_err he⟩
  | _, .cons (.from_ d f) r, c, c1, c2, v, h, e, h2, hl => by
    obtain ⟨p, c', u, rfl, h3, h5, h4⟩ := h
    have hl' := hl
    rw [e, List.length_append] at hl'
    rcases cut_cases e h2 with ⟨c1', rfl, rfl⟩ | ⟨q, hq, hp⟩
    · obtain ⟨e', he⟩ := deFields_cut hs r _ c1' c2 v.2 h4 rfl h2 (by rw [List.length_append] at hl; omega)
      refine ⟨e', ?_⟩
      rw [deFields, (deField_from d f _ (f u) c1').mpr ⟨u, (hs.ok d _ _ _ (by omega)).mpr ⟨p, h3, rfl⟩, rfl⟩, Res.bind_ok]
      exact bind_err he
    · obtain ⟨e', he⟩ := hs.cut d p _ c1 q h3 hp hq (by omega)
      exact ⟨e', by rw [deFields, deField]; exact bind_err (bind_err he)⟩
  | _, .cons (.tryFrom d f) r, c, c1, c2, v, h, e, h2, hl => by
    obtain ⟨p, c', u, rfl, h3, h5, h4⟩ := h
    have hl' := hl
    rw [e, List.length_append] at hl'
    rcases cut_cases e h2 with ⟨c1', rfl, rfl⟩ | ⟨q, hq, hp⟩
    · obtain ⟨e', he⟩ := deFields_cut hs r _ c1' c2 v.2 h4 rfl h2 (by rw [List.length_append] at hl; omega)
      refine ⟨e', ?_⟩
      rw [deFields, (deField_tryFrom d f _ v.1 c1').mpr ⟨u, (hs.ok d _ _ _ (by omega)).mpr ⟨p, h3, rfl⟩, h5⟩, Res.bind_ok]
      exact bind_err he
    · obtain ⟨e', he⟩ := hs.cut d p _ c1 q h3 hp hq (by omega)
      exact ⟨e', by rw [deFields, deField]; exact bind_err (bind_err he)⟩

theorem finish_extra {v : γ} {rest : Bytes} (h : rest ≠ []) : finish (v, rest) = .err .extraContentsOctet := by
  rw [finish, if_neg (by simpa using h)]

end Bsn1
