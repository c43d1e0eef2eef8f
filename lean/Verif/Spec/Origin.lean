import Verif.Spec.Edits
import Verif.Spec.Decode
/-!
# The parts of a decoded value, by their place in the input

A value of a supported type has parts: the elements of a collection, keys and values of a map, the fields of a struct or variant, and their parts.  The rules say where
in the input a part has come from.  (`Verif.Spec.Part` has the places in what is written; fields may be skipped on one side only, and the elements of a set may
stand in the input in any order.)
-/

namespace Bsn1.Spec

/-- A place in the input; `none` stands for some index. -/
abbrev Place := List (Option Nat)

/-- The path is one of those the place stands for. -/
def Place.Has (p : Place) (path : List Nat) : Prop := List.Forall₂ (fun o i => ∀ j, o = some j → i = j) p path

/-- No value of the type is denoted by an end-of-contents. -/
def Ty.notEoc {α : Type} (t : Ty α) : Prop := ∀ lax o v, ¬ t.berVal lax o [0x00] false [] v

mutual
/-- `Ty.From u y p t v`: the part `y` of the value `v` of the type `t`, with the type `u`, has come from the place `p`.  A value that was converted is a part; what it was
converted from is not looked into. -/
inductive Ty.From {β : Type} (u : Ty β) (y : β) : Place → {α : Type} → Ty α → α → Prop
  | here : Ty.From u y [] u y
  | vec {α : Type} {t : Ty α} {p : Place} {l : List α} {i : Nat} {x : α} : l[i]? = some x → Ty.From u y p t x → Ty.From u y (some i :: p) (.vec t) l
  | linkedList {α : Type} {t : Ty α} {p : Place} {l : List α} {i : Nat} {x : α} : l[i]? = some x → Ty.From u y p t x → Ty.From u y (some i :: p) (.linkedList t) l
  | vecDeque {α : Type} {t : Ty α} {p : Place} {l : List α} {i : Nat} {x : α} : l[i]? = some x → Ty.From u y p t x → Ty.From u y (some i :: p) (.vecDeque t) l
  | btreeSet {α : Type} {cmp : α → α → Ordering} {h : Std.TransCmp cmp} {h' : Std.LawfulEqCmp cmp} {t : Ty α} {p : Place} {l : List α} {x : α} :
      x ∈ l → Ty.From u y p t x → Ty.From u y (none :: p) (.btreeSet cmp h h' t) l
  | hashSet {α : Type} {eq : DecidableEq α} {t : Ty α} {p : Place} {l : List α} {x : α} :
      x ∈ l → Ty.From u y p t x → Ty.From u y (none :: p) (.hashSet eq t) l
  | btreeKey {α γ : Type} {cmp : α → α → Ordering} {h : Std.TransCmp cmp} {h' : Std.LawfulEqCmp cmp} {k : Ty α} {t : Ty γ} {p : Place} {l : List (α × γ)} {x : α × γ} :
      t.notEoc → x ∈ l → Ty.From u y p k x.1 → Ty.From u y (none :: some 0 :: p) (.btreeMap cmp h h' k t) l
  | btreeValue {α γ : Type} {cmp : α → α → Ordering} {h : Std.TransCmp cmp} {h' : Std.LawfulEqCmp cmp} {k : Ty α} {t : Ty γ} {p : Place} {l : List (α × γ)} {x : α × γ} :
      t.notEoc → x ∈ l → Ty.From u y p t x.2 → Ty.From u y (none :: some 1 :: p) (.btreeMap cmp h h' k t) l
  | hashKey {α γ : Type} {eq : DecidableEq α} {k : Ty α} {t : Ty γ} {p : Place} {l : List (α × γ)} {x : α × γ} :
      t.notEoc → x ∈ l → Ty.From u y p k x.1 → Ty.From u y (none :: some 0 :: p) (.hashMap eq k t) l
  | hashValue {α γ : Type} {eq : DecidableEq α} {k : Ty α} {t : Ty γ} {p : Place} {l : List (α × γ)} {x : α × γ} :
      t.notEoc → x ∈ l → Ty.From u y p t x.2 → Ty.From u y (none :: some 1 :: p) (.hashMap eq k t) l
  | struct {γ : Type} {id : List UInt8} {fs : Fields γ} {i : Nat} {p : Place} {v : γ} : Fields.From u y i p fs v → Ty.From u y (some i :: p) (.struct id fs) v
  | enum {ρ : Type} {vs : Variants ρ} {i : Nat} {p : Place} {v : ρ} : Variants.From u y i p vs v → Ty.From u y (some i :: p) (.enum vs) v
  | transparent {γ : Type} {fs : Fields γ} {p : Place} {v : γ} : Fields.FromOne u y p fs v → Ty.From u y p (.transparent fs) v
  | named {α δ : Type} {t : Ty δ} {f : α → δ} {g : δ → α} {h : ∀ v, g (f v) = v} {h' : ∀ x, f (g x) = x} {p : Place} {v : α} :
      Ty.From u y p t (f v) → Ty.From u y p (.named t f g h h') v
/-- The same for the fields: the index says which of the decoded ones. -/
inductive Fields.From {β : Type} (u : Ty β) (y : β) : Nat → Place → {γ : Type} → Fields γ → γ → Prop
  | plain {δ γ : Type} {t : Ty δ} {r : Fields γ} {p : Place} {v : δ × γ} : Ty.From u y p t v.1 → Fields.From u y 0 p (.plain t r) v
  | skipSer {δ γ : Type} {t : Ty δ} {r : Fields γ} {p : Place} {v : δ × γ} : Ty.From u y p t v.1 → Fields.From u y 0 p (.skipSer t r) v
  | conv {δ ε γ : Type} {t : Ty ε} {f : δ → ε} {g : Back ε δ} {r : Fields γ} {p : Place} {v : δ × γ} : Ty.From u y p (.conv t f g) v.1 →
      Fields.From u y 0 p (.conv t f g r) v
  | afterPlain {δ γ : Type} {t : Ty δ} {r : Fields γ} {i : Nat} {p : Place} {v : δ × γ} : Fields.From u y i p r v.2 → Fields.From u y (i + 1) p (.plain t r) v
  | afterSkipSer {δ γ : Type} {t : Ty δ} {r : Fields γ} {i : Nat} {p : Place} {v : δ × γ} : Fields.From u y i p r v.2 → Fields.From u y (i + 1) p (.skipSer t r) v
  | afterConv {δ ε γ : Type} {t : Ty ε} {f : δ → ε} {g : Back ε δ} {r : Fields γ} {i : Nat} {p : Place} {v : δ × γ} : Fields.From u y i p r v.2 →
      Fields.From u y (i + 1) p (.conv t f g r) v
  | afterSkip {δ γ : Type} {d : δ} {r : Fields γ} {i : Nat} {p : Place} {v : δ × γ} : Fields.From u y i p r v.2 → Fields.From u y i p (.skip d r) v
  | afterSkipDe {δ γ : Type} {t : Ty δ} {d : δ} {r : Fields γ} {i : Nat} {p : Place} {v : δ × γ} : Fields.From u y i p r v.2 → Fields.From u y i p (.skipDe t d r) v
/-- The same for a transparent struct: the field that is decoded stands for all. -/
inductive Fields.FromOne {β : Type} (u : Ty β) (y : β) : Place → {γ : Type} → Fields γ → γ → Prop
  | plain {δ γ : Type} {t : Ty δ} {r : Fields γ} {p : Place} {v : δ × γ} : Ty.From u y p t v.1 → Fields.FromOne u y p (.plain t r) v
  | skipSer {δ γ : Type} {t : Ty δ} {r : Fields γ} {p : Place} {v : δ × γ} : Ty.From u y p t v.1 → Fields.FromOne u y p (.skipSer t r) v
  | conv {δ ε γ : Type} {t : Ty ε} {f : δ → ε} {g : Back ε δ} {r : Fields γ} {p : Place} {v : δ × γ} : Ty.From u y p (.conv t f g) v.1 →
      Fields.FromOne u y p (.conv t f g r) v
  | afterSkip {δ γ : Type} {d : δ} {r : Fields γ} {p : Place} {v : δ × γ} : Fields.FromOne u y p r v.2 → Fields.FromOne u y p (.skip d r) v
  | afterSkipDe {δ γ : Type} {t : Ty δ} {d : δ} {r : Fields γ} {p : Place} {v : δ × γ} : Fields.FromOne u y p r v.2 → Fields.FromOne u y p (.skipDe t d r) v
/-- The same for an enum: the fields of the variant the value is of. -/
inductive Variants.From {β : Type} (u : Ty β) (y : β) : Nat → Place → {ρ : Type} → Variants ρ → ρ → Prop
  | this {γ ρ : Type} {id : List UInt8} {fs : Fields γ} {r : Variants ρ} {i : Nat} {p : Place} {v : γ} : Fields.From u y i p fs v →
      Variants.From u y i p (.cons id fs r) (.inl v)
  | other {γ ρ : Type} {id : List UInt8} {fs : Fields γ} {r : Variants ρ} {i : Nat} {p : Place} {v : ρ} : Variants.From u y i p r v →
      Variants.From u y i p (.cons id fs r) (.inr v)
end

end Bsn1.Spec
