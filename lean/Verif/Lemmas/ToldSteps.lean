import Verif.Spec.Told
import Std.Data.String.ToNat
/-!
# The messages can be read back
-/

namespace Bsn1
open Spec

variable {α β : Type}

/-! ### One message -/

/-- The number of the kind of message. -/
def Spec.Step.kind : Step → Fin 13
  | .noElement _ => 0
  | .inElement _ => 1
  | .noPair _ => 2
  | .noSequence _ => 3
  | .tooMuch _ => 4
  | .noKey _ => 5
  | .inKey _ => 6
  | .noValue _ => 7
  | .inValue _ => 8
  | .noField _ => 9
  | .inField _ => 10
  | .noConversion _ _ => 11
  | .noConversionFrom _ => 12

/-- The text before the number or name. -/
def stepPre (name : String) : Fin 13 → String
  | 0 => "Failed to parse " ++ name ++ " at index "
  | 1 => "Failed to deserialize " ++ name ++ " into element at index "
  | 2 => "Failed to parse " ++ name ++ " of the key-value pair at index "
  | 3 => "The id of key-value pair at index "
  | 4 => "The key-value pair at index "
  | 5 => "Failed to parse " ++ name ++ " of the " ++ "key" ++ " at index "
  | 6 => "Failed to deserialize " ++ name ++ " into the " ++ "key" ++ " at index "
  | 7 => "Failed to parse " ++ name ++ " of the " ++ "value" ++ " at index "
  | 8 => "Failed to deserialize " ++ name ++ " into the " ++ "value" ++ " at index "
  | 9 => "Failed to parse " ++ name ++ " for `"
  | 10 => "Failed to deserialize " ++ name ++ " into `"
  | 11 => "Failed to convert `"
  | 12 => "Failed to convert from `"

/-- The text from the number or name on. -/
def Spec.Step.post : Step → String
  | .noElement n | .inElement n | .noPair n | .noKey n | .inKey n | .noValue n | .inValue n => toString n
  | .noSequence n => toString n ++ " is not SEQUENCE"
  | .tooMuch n => toString n ++ " includes (an) extra octet(s)"
  | .noField s | .inField s | .noConversionFrom s => s ++ "`"
  | .noConversion s f => s ++ ("` into `" ++ (f ++ "`"))

theorem Spec.Step.text_eq (r : Rules) (s : Step) : s.text r = stepPre r.name s.kind ++ s.post := by
  cases s with
  | noElement n => rfl
  | inElement n => rfl
  | noPair n => rfl
  | noSequence n => exact String.append_assoc
  | tooMuch n => exact String.append_assoc
  | noKey n => rfl
  | inKey n => rfl
  | noValue n => rfl
  | inValue n => rfl
  | noField s => exact String.append_assoc
  | inField s => exact String.append_assoc
  | noConversion s f =>
    change "Failed to convert `" ++ s ++ "` into `" ++ f ++ "`" = "Failed to convert `" ++ (s ++ ("` into `" ++ (f ++ "`")))
    rw [String.append_assoc, String.append_assoc, String.append_assoc]
  | noConversionFrom s => exact String.append_assoc

theorem stepPre_free_der : ∀ i j : Fin 13, (stepPre "DER" i).toList <+: (stepPre "DER" j).toList → i = j := by decide +kernel

theorem stepPre_free_ber : ∀ i j : Fin 13, (stepPre "BER" i).toList <+: (stepPre "BER" j).toList → i = j := by decide +kernel

theorem Spec.Rules.stepPre_free (r : Rules) (i j : Fin 13) : (stepPre r.name i).toList <+: (stepPre r.name j).toList → i = j := by
  cases r with
  | der => exact stepPre_free_der i j
  | ber lax => exact stepPre_free_ber i j

theorem text_split (r : Rules) {s s' : Step} (h : s.text r = s'.text r) : s.kind = s'.kind ∧ s.post = s'.post := by
  rw [Spec.Step.text_eq, Spec.Step.text_eq] at h
  have hl := congrArg String.toList h
  rw [String.toList_append, String.toList_append] at hl
  have hk : s.kind = s'.kind := by
    rcases List.append_eq_append_iff.1 hl with ⟨as, h1, _⟩ | ⟨as, h1, _⟩
    · exact r.stepPre_free _ _ ⟨as, h1.symm⟩
    · exact (r.stepPre_free _ _ ⟨as, h1.symm⟩).symm
  rw [hk] at h
  exact ⟨hk, (String.append_right_inj _).1 h⟩

theorem split_at_tick {a b c d : List Char} (ha : '`' ∉ a) (hc : '`' ∉ c) (h : a ++ '`' :: b = c ++ '`' :: d) : a = c ∧ b = d := by
  rcases List.append_eq_append_iff.1 h with ⟨as, h1, h2⟩ | ⟨as, h1, h2⟩
  · cases as with
    | nil => simp at h1 h2; exact ⟨h1.symm, h2⟩
    | cons x as =>
      simp only [List.cons_append, List.cons.injEq] at h2
      refine absurd ?_ hc
      rw [h1, ← h2.1]; simp
  · cases as with
    | nil => simp at h1 h2; exact ⟨h1, h2.symm⟩
    | cons x as =>
      simp only [List.cons_append, List.cons.injEq] at h2
      refine absurd ?_ ha
      rw [h1, ← h2.1]; simp

theorem tickInto : ("` into `" : String).toList = '`' :: (" into `" : String).toList := by decide +kernel

theorem text_inj (r : Rules) {s s' : Step} (hs : s.Plain) (hs' : s'.Plain) (h : s.text r = s'.text r) : s = s' := by
  obtain ⟨hk, hp⟩ := text_split r h
  have num : ∀ {m n : Nat}, toString m = toString n → m = n := fun h => Nat.repr_inj.1 h
  cases s <;> cases s' <;> try (exfalso; simp [Spec.Step.kind] at hk; done)
  case noElement.noElement => exact congrArg _ (num hp)
  case inElement.inElement => exact congrArg _ (num hp)
  case noPair.noPair => exact congrArg _ (num hp)
  case noSequence.noSequence => exact congrArg _ (num ((String.append_left_inj _).1 hp))
  case tooMuch.tooMuch => exact congrArg _ (num ((String.append_left_inj _).1 hp))
  case noKey.noKey => exact congrArg _ (num hp)
  case inKey.inKey => exact congrArg _ (num hp)
  case noValue.noValue => exact congrArg _ (num hp)
  case inValue.inValue => exact congrArg _ (num hp)
  case noField.noField => exact congrArg _ ((String.append_left_inj _).1 hp)
  case inField.inField => exact congrArg _ ((String.append_left_inj _).1 hp)
  case noConversionFrom.noConversionFrom => exact congrArg _ ((String.append_left_inj _).1 hp)
  case noConversion.noConversion a b c d =>
    have hl := congrArg String.toList (show a ++ ("` into `" ++ (b ++ "`")) = c ++ ("` into `" ++ (d ++ "`")) from hp)
    rw [String.toList_append, String.toList_append, String.toList_append, String.toList_append, String.toList_append, String.toList_append,
      tickInto, List.cons_append, List.cons_append] at hl
    obtain ⟨h1, h2⟩ := split_at_tick hs.1 hs'.1 hl
    have h3 := List.append_cancel_right (List.append_cancel_left h2)
    rw [String.toList_inj.1 h1, String.toList_inj.1 h3]

/-! ### All messages -/

/-- The messages are such. -/
def Steps (r : Rules) (x : Told) : Prop := ∃ ss : List Step, x.messages = ss.map (Step.text r)

theorem steps_here (r : Rules) (e : Error) : Steps r (here e) := ⟨[], rfl⟩

theorem Steps.within {r : Rules} {x : Told} (h : Steps r x) (s : Step) : Steps r (within (s.text r) x) := by
  obtain ⟨ss, h⟩ := h
  exact ⟨s :: ss, by rw [Spec.within, h]; rfl⟩

theorem steps_hereIs {r : Rules} {P : Error → Prop} {x : Told} : hereIs P x → Steps r x := by
  rintro ⟨e, rfl, _⟩; exact steps_here r e

theorem steps_tag {r : Rules} {q : Prop} {P : Told → Prop} (h : ∀ x, P x → Steps r x) {x : Told} : tagTold q P x → Steps r x := by
  rintro (⟨_, rfl⟩ | ⟨_, hx⟩)
  · exact steps_here r _
  · exact h x hx

theorem steps_body {r : Rules} {indef : Bool} {raw : Bytes} {P : Bytes → Told → Prop} (h : ∀ c x, P c x → Steps r x) {x : Told} :
    bodyTold indef raw P x → Steps r x := by
  rintro (⟨_, rfl⟩ | ⟨c, _, hx⟩)
  · exact steps_here r _
  · exact h c x hx

theorem steps_elem {r : Rules} {R : Bytes → Bool → Bytes → α → Prop} {no : Nat → String} {F : Nat → Bytes → Bool → Bytes → Told → Prop}
    (hno : ∀ n, ∃ s : Step, no n = s.text r) (h : ∀ n id d raw x, F n id d raw x → Steps r x) {n : Nat} {c : Bytes} {x : Told}
    (hx : ElemTold r R no F n c x) : Steps r x := by
  induction hx with
  | octets n c e _ _ =>
    obtain ⟨s, hs⟩ := hno n
    rw [hs]
    exact (steps_here r e).within s
  | here n c id d raw rest x _ hF => exact h n id d raw x hF
  | later _ _ _ _ _ _ _ _ _ _ _ ih => exact ih

theorem steps_elems {r : Rules} {R : Bytes → Bool → Bytes → α → Prop} {F : Bytes → Bool → Bytes → Told → Prop}
    (h : ∀ id d raw x, F id d raw x → Steps r x) (c : Bytes) (x : Told) : elemsTold r R F c x → Steps r x :=
  steps_elem (fun n => ⟨.noElement n, rfl⟩) fun n _ _ _ _ ⟨_, e, hx⟩ => e ▸ (h _ _ _ _ hx).within (.inElement n)

theorem steps_pairs {r : Rules} {K : Bytes → Bool → Bytes → α → Prop} {V : Bytes → Bool → Bytes → β → Prop}
    {FK FV : Bytes → Bool → Bytes → Told → Prop} (hk : ∀ id d raw x, FK id d raw x → Steps r x)
    (hv : ∀ id d raw x, FV id d raw x → Steps r x) (c : Bytes) (x : Told) : pairsTold r K V FK FV c x → Steps r x := by
  refine steps_elem (fun n => ⟨.noPair n, rfl⟩) fun n id d raw x hx => ?_
  cases hx with
  | tag _ _ _ _ => exact (steps_here r _).within (.noSequence n)
  | noKey _ _ e _ => exact (steps_here r e).within (.noKey n)
  | noValue _ _ _ _ _ _ e _ _ => exact (steps_here r e).within (.noValue n)
  | extra => exact (steps_here r _).within (.tooMuch n)
  | key _ _ _ _ _ _ _ _ _ x _ _ h => exact (hk _ _ _ x h).within (.inKey n)
  | value _ _ _ _ _ _ _ _ _ _ x _ _ _ h => exact (hv _ _ _ x h).within (.inValue n)

theorem steps_first {r : Rules} {field : String} {F : Bytes → Bool → Bytes → Told → Prop} (h : ∀ id d raw x, F id d raw x → Steps r x)
    {c : Bytes} {x : Told} : firstTold r field F c x → Steps r x := by
  rintro (⟨e, rfl, _⟩ | ⟨_, _, _, _, _, x, rfl, hx⟩)
  · exact (steps_here r e).within (.noField field)
  · exact (h _ _ _ x hx).within (.inField field)

theorem steps_conv {r : Rules} {s : Step} {g : Back β α} {u : β} {x : Told} : convTold (s.text r) g u x → Steps r x := by
  rintro ⟨ch, _, rfl⟩; exact (steps_here r _).within s

mutual
/-- The messages of a fault are such. -/
theorem Spec.Ty.told_steps (r : Rules) (o : (α : Type) → List α → List α) : {α : Type} → (t : Ty α) → (l : Labels) → ∀ id d raw x,
    t.told r o l id d raw x → Steps r x
  | _, .bool, _, _, _, _, _ => steps_hereIs
  | _, .int _, _, _, _, _, _ => steps_hereIs
  | _, .string, _, _, _, _, _ => steps_hereIs
  | _, .octetString, _, _, _, _, _ => steps_hereIs
  | _, .vec t, l, _, _, _, _ => steps_tag fun _ => steps_body (steps_elems (Ty.told_steps r o t (l.part 0)))
  | _, .linkedList t, l, _, _, _, _ => steps_tag fun _ => steps_body (steps_elems (Ty.told_steps r o t (l.part 0)))
  | _, .vecDeque t, l, _, _, _, _ => steps_tag fun _ => steps_body (steps_elems (Ty.told_steps r o t (l.part 0)))
  | _, .btreeSet _ _ _ t, l, _, _, _, _ => steps_tag fun _ => steps_body (steps_elems (Ty.told_steps r o t (l.part 0)))
  | _, .btreeMap _ _ _ k t, l, _, _, _, _ => steps_tag fun _ => steps_body
      (steps_pairs (Ty.told_steps r o k (l.part 0)) (Ty.told_steps r o t (l.part 1)))
  | _, .hashSet _ t, l, _, _, _, _ => steps_tag fun _ => steps_body (steps_elems (Ty.told_steps r o t (l.part 0)))
  | _, .hashMap _ k t, l, _, _, _, _ => steps_tag fun _ => steps_body
      (steps_pairs (Ty.told_steps r o k (l.part 0)) (Ty.told_steps r o t (l.part 1)))
  | _, .struct _ fs, l, _, _, _, _ => steps_tag fun _ => steps_body (Fields.told_steps r o fs l 0)
  | _, .enum vs, l, id, d, raw, x => Variants.told_steps r o vs l 0 id d raw x
  | _, .transparent fs, l, id, d, raw, x => Fields.toldOne_steps r o fs l 0 id d raw x
  | _, .conv t _ g, l, id, d, raw, x => fun h => h.elim (Ty.told_steps r o t (l.part 0) id d raw x) fun ⟨_, _, hx⟩ =>
      steps_conv (s := .noConversionFrom (l.converted [])) hx
  | _, .named t _ _ _ _, l, id, d, raw, x => Ty.told_steps r o t l id d raw x
  | _, .hole, _, _, _, _, _ => fun h => h ▸ steps_here r _
/-- The same for fields. -/
theorem Spec.Fields.told_steps (r : Rules) (o : (α : Type) → List α → List α) : {γ : Type} → (fs : Fields γ) → (l : Labels) → (k : Nat) → ∀ c x,
    fs.told r o l k c x → Steps r x
  | _, .nil, _, _, _, _ => fun h => h.2 ▸ steps_here r _
  | _, .plain t fs, l, k, _, _ => fun h => h.elim (steps_first (Ty.told_steps r o t (l.part k))) fun ⟨_, _, _, rest, _, _, _, hx⟩ =>
      Fields.told_steps r o fs l (k + 1) rest _ hx
  | _, .skip _ fs, l, k, c, x => Fields.told_steps r o fs l (k + 1) c x
  | _, .skipSer t fs, l, k, _, _ => fun h => h.elim (steps_first (Ty.told_steps r o t (l.part k))) fun ⟨_, _, _, rest, _, _, _, hx⟩ =>
      Fields.told_steps r o fs l (k + 1) rest _ hx
  | _, .skipDe _ _ fs, l, k, c, x => Fields.told_steps r o fs l (k + 1) c x
  | _, .conv t _ g fs, l, k, _, _ => fun h => h.elim (steps_first (Ty.told_steps r o t (l.part k))) fun ⟨_, _, _, rest, _, _, _, hx⟩ =>
      hx.elim (steps_conv (s := .noConversion (l.source [k]) (l.field [k]))) fun ⟨_, hx⟩ => Fields.told_steps r o fs l (k + 1) rest _ hx
/-- The same for a transparent struct. -/
theorem Spec.Fields.toldOne_steps (r : Rules) (o : (α : Type) → List α → List α) : {γ : Type} → (fs : Fields γ) → (l : Labels) → (k : Nat) →
    ∀ id d raw x, fs.toldOne r o l k id d raw x → Steps r x
  | _, .nil, _, _, _, _, _, _ => False.elim
  | _, .plain t fs, l, k, id, d, raw, x => fun h => h.elim (fun ⟨_, e, hx⟩ => e ▸ (Ty.told_steps r o t (l.part k) _ _ _ _ hx).within (.inField _))
      fun ⟨_, hx⟩ => Fields.toldOne_steps r o fs l (k + 1) id d raw x hx
  | _, .skip _ fs, l, k, id, d, raw, x => Fields.toldOne_steps r o fs l (k + 1) id d raw x
  | _, .skipSer t fs, l, k, id, d, raw, x => fun h => h.elim (fun ⟨_, e, hx⟩ => e ▸ (Ty.told_steps r o t (l.part k) _ _ _ _ hx).within (.inField _))
      fun ⟨_, hx⟩ => Fields.toldOne_steps r o fs l (k + 1) id d raw x hx
  | _, .skipDe _ _ fs, l, k, id, d, raw, x => Fields.toldOne_steps r o fs l (k + 1) id d raw x
  | _, .conv t _ g fs, l, k, id, d, raw, x => fun h => h.elim
      (fun ⟨_, e, hx⟩ => e ▸ (Ty.told_steps r o t (l.part k) _ _ _ _ hx).within (.inField _)) fun ⟨_, _, hx⟩ =>
      hx.elim (steps_conv (s := .noConversion (l.source [k]) (l.field [k]))) fun ⟨_, hx⟩ => Fields.toldOne_steps r o fs l (k + 1) id d raw x hx
/-- The same for an enum. -/
theorem Spec.Variants.told_steps (r : Rules) (o : (α : Type) → List α → List α) : {ρ : Type} → (vs : Variants ρ) → (l : Labels) → (k : Nat) →
    ∀ id d raw x, vs.told r o l k id d raw x → Steps r x
  | _, .nil, _, _, _, _, _, _ => fun h => h ▸ steps_here r _
  | _, .cons _ fs vs, l, k, id, d, raw, x => fun h => h.elim (fun ⟨_, hx⟩ => steps_body (Fields.told_steps r o fs (l.part k) 0) hx)
      fun ⟨_, hx⟩ => Variants.told_steps r o vs l (k + 1) id d raw x hx
end

end Bsn1
