import Verif.Spec.Origin
/-!
# The parts of a decoded value that can be changed in the input

Another value in the place in the input where a part of a decoded value has come from.  The rules say which value is decoded then.
-/

namespace Bsn1.Spec

mutual
/-- `Ty.Alter u y p t v put`: the part `y` of the value `v` of the type `t`, with the type `u`, has come from the place `p`, and `put z` is the same value with `z`
instead.  (Elements of sets and keys of maps cannot be changed without a change of the others' places, nor can a value in a `HashMap`, whose order depends on all that is in it.) -/
inductive Ty.Alter {β : Type} (u : Ty β) (y : β) : Place → {α : Type} → Ty α → α → (β → α) → Prop
  | here : Ty.Alter u y [] u y (fun z => z)
  | vec {α : Type} {t : Ty α} {p : Place} {l : List α} {i : Nat} {x : α} {put : β → α} : l[i]? = some x → Ty.Alter u y p t x put →
      Ty.Alter u y (some i :: p) (.vec t) l (fun z => l.set i (put z))
  | linkedList {α : Type} {t : Ty α} {p : Place} {l : List α} {i : Nat} {x : α} {put : β → α} : l[i]? = some x → Ty.Alter u y p t x put →
      Ty.Alter u y (some i :: p) (.linkedList t) l (fun z => l.set i (put z))
  | vecDeque {α : Type} {t : Ty α} {p : Place} {l : List α} {i : Nat} {x : α} {put : β → α} : l[i]? = some x → Ty.Alter u y p t x put →
      Ty.Alter u y (some i :: p) (.vecDeque t) l (fun z => l.set i (put z))
  | btreeValue {α γ : Type} {cmp : α → α → Ordering} {h : Std.TransCmp cmp} {h' : Std.LawfulEqCmp cmp} {k : Ty α} {t : Ty γ} {p : Place} {l : List (α × γ)} {i : Nat}
      {x : α × γ} {put : β → γ} : t.notEoc → l[i]? = some x → Ty.Alter u y p t x.2 put →
      Ty.Alter u y (none :: some 1 :: p) (.btreeMap cmp h h' k t) l (fun z => l.set i (x.1, put z))
  | struct {γ : Type} {id : List UInt8} {fs : Fields γ} {i : Nat} {p : Place} {v : γ} {put : β → γ} : Fields.Alter u y i p fs v put →
      Ty.Alter u y (some i :: p) (.struct id fs) v put
  | enum {ρ : Type} {vs : Variants ρ} {i : Nat} {p : Place} {v : ρ} {put : β → ρ} : Variants.Alter u y i p vs v put → Ty.Alter u y (some i :: p) (.enum vs) v put
  | transparent {γ : Type} {fs : Fields γ} {p : Place} {v : γ} {put : β → γ} : Fields.AlterOne u y p fs v put → Ty.Alter u y p (.transparent fs) v put
  | named {α δ : Type} {t : Ty δ} {f : α → δ} {g : δ → α} {h : ∀ v, g (f v) = v} {h' : ∀ x, f (g x) = x} {p : Place} {v : α} {put : β → δ} :
      Ty.Alter u y p t (f v) put → Ty.Alter u y p (.named t f g h h') v (fun z => g (put z))
/-- The same for the fields: the index says which of the decoded ones. -/
inductive Fields.Alter {β : Type} (u : Ty β) (y : β) : Nat → Place → {γ : Type} → Fields γ → γ → (β → γ) → Prop
  | plain {δ γ : Type} {t : Ty δ} {r : Fields γ} {p : Place} {v : δ × γ} {put : β → δ} : Ty.Alter u y p t v.1 put →
      Fields.Alter u y 0 p (.plain t r) v (fun z => (put z, v.2))
  | skipSer {δ γ : Type} {t : Ty δ} {r : Fields γ} {p : Place} {v : δ × γ} {put : β → δ} : Ty.Alter u y p t v.1 put →
      Fields.Alter u y 0 p (.skipSer t r) v (fun z => (put z, v.2))
  | conv {δ ε γ : Type} {t : Ty ε} {f : δ → ε} {g : Back ε δ} {r : Fields γ} {p : Place} {v : δ × γ} {put : β → δ} : Ty.Alter u y p (.conv t f g) v.1 put →
      Fields.Alter u y 0 p (.conv t f g r) v (fun z => (put z, v.2))
  | afterPlain {δ γ : Type} {t : Ty δ} {r : Fields γ} {i : Nat} {p : Place} {v : δ × γ} {put : β → γ} : Fields.Alter u y i p r v.2 put →
      Fields.Alter u y (i + 1) p (.plain t r) v (fun z => (v.1, put z))
  | afterSkipSer {δ γ : Type} {t : Ty δ} {r : Fields γ} {i : Nat} {p : Place} {v : δ × γ} {put : β → γ} : Fields.Alter u y i p r v.2 put →
      Fields.Alter u y (i + 1) p (.skipSer t r) v (fun z => (v.1, put z))
  | afterConv {δ ε γ : Type} {t : Ty ε} {f : δ → ε} {g : Back ε δ} {r : Fields γ} {i : Nat} {p : Place} {v : δ × γ} {put : β → γ} : Fields.Alter u y i p r v.2 put →
      Fields.Alter u y (i + 1) p (.conv t f g r) v (fun z => (v.1, put z))
  | afterSkip {δ γ : Type} {d : δ} {r : Fields γ} {i : Nat} {p : Place} {v : δ × γ} {put : β → γ} : Fields.Alter u y i p r v.2 put →
      Fields.Alter u y i p (.skip d r) v (fun z => (v.1, put z))
  | afterSkipDe {δ γ : Type} {t : Ty δ} {d : δ} {r : Fields γ} {i : Nat} {p : Place} {v : δ × γ} {put : β → γ} : Fields.Alter u y i p r v.2 put →
      Fields.Alter u y i p (.skipDe t d r) v (fun z => (v.1, put z))
/-- The same for a transparent struct: the one field that is decoded stands for all. -/
inductive Fields.AlterOne {β : Type} (u : Ty β) (y : β) : Place → {γ : Type} → Fields γ → γ → (β → γ) → Prop
  | plain {δ γ : Type} {t : Ty δ} {r : Fields γ} {p : Place} {v : δ × γ} {put : β → δ} : r.deCount = 0 → Ty.Alter u y p t v.1 put →
      Fields.AlterOne u y p (.plain t r) v (fun z => (put z, v.2))
  | skipSer {δ γ : Type} {t : Ty δ} {r : Fields γ} {p : Place} {v : δ × γ} {put : β → δ} : r.deCount = 0 → Ty.Alter u y p t v.1 put →
      Fields.AlterOne u y p (.skipSer t r) v (fun z => (put z, v.2))
  | conv {δ ε γ : Type} {t : Ty ε} {f : δ → ε} {g : Back ε δ} {r : Fields γ} {p : Place} {v : δ × γ} {put : β → δ} : r.deCount = 0 →
      Ty.Alter u y p (.conv t f g) v.1 put → Fields.AlterOne u y p (.conv t f g r) v (fun z => (put z, v.2))
  | afterSkip {δ γ : Type} {d : δ} {r : Fields γ} {p : Place} {v : δ × γ} {put : β → γ} : Fields.AlterOne u y p r v.2 put →
      Fields.AlterOne u y p (.skip d r) v (fun z => (v.1, put z))
  | afterSkipDe {δ γ : Type} {t : Ty δ} {d : δ} {r : Fields γ} {p : Place} {v : δ × γ} {put : β → γ} : Fields.AlterOne u y p r v.2 put →
      Fields.AlterOne u y p (.skipDe t d r) v (fun z => (v.1, put z))
/-- The same for an enum: the fields of the variant the value is of. -/
inductive Variants.Alter {β : Type} (u : Ty β) (y : β) : Nat → Place → {ρ : Type} → Variants ρ → ρ → (β → ρ) → Prop
  | this {γ ρ : Type} {id : List UInt8} {fs : Fields γ} {r : Variants ρ} {i : Nat} {p : Place} {v : γ} {put : β → γ} : Fields.Alter u y i p fs v put →
      Variants.Alter u y i p (.cons id fs r) (.inl v) (fun z => .inl (put z))
  | other {γ ρ : Type} {id : List UInt8} {fs : Fields γ} {r : Variants ρ} {i : Nat} {p : Place} {v : ρ} {put : β → ρ} : Variants.Alter u y i p r v put →
      Variants.Alter u y i p (.cons id fs r) (.inr v) (fun z => .inr (put z))
end

end Bsn1.Spec
