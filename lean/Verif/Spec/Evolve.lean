import Verif.Spec.Decode
/-!
# Changes of a declared type that keep old encodings readable

`Evolves t t' R`: the type `t` of an old program was changed to `t'` in a new one, where a value of `t'` means the same as a value of `t`
related to it by `R`.  The changes are those a user makes to a declaration: a new variant of an enum, a wider integer type, another kind of
sequence, a skipped field more or less, a transparent wrapper; at any depth of the type.
-/

namespace Bsn1.Spec

/-- The collections that are lists. -/
inductive SeqKind
  | vec
  | linkedList
  | vecDeque

/-- The list type of a kind. -/
def Ty.seq {α : Type} : SeqKind → Ty α → Ty (List α)
  | .vec, t => .vec t
  | .linkedList, t => .linkedList t
  | .vecDeque, t => .vecDeque t

/-- Pairs related in both places. -/
def Both {α α' β β' : Type} (R : α → α' → Prop) (S : β → β' → Prop) (x : α × β) (y : α' × β') : Prop := R x.1 y.1 ∧ S x.2 y.2

/-- Related variants have the same place; `S` relates the values of the others. -/
def Either {α α' β β' : Type} (R : α → α' → Prop) (S : β → β' → Prop) : α ⊕ β → α' ⊕ β' → Prop
  | .inl x, .inl y => R x y
  | .inr x, .inr y => S x y
  | _, _ => False

/-- The new value is not of the variant that was inserted. -/
def Later {α β γ : Type} (S : α → β → Prop) (x : α) : γ ⊕ β → Prop
  | .inl _ => False
  | .inr y => S x y

/-- The elements are related, in some order. -/
def UpToOrder {α β : Type} (R : α → β → Prop) (v : List α) (w : List β) : Prop := ∃ u, List.Forall₂ R v u ∧ w.Perm u

mutual
/-- See above. -/
inductive Evolves : {α β : Type} → Ty α → Ty β → (α → β → Prop) → Prop
  | refl {α : Type} (t : Ty α) : Evolves t t (fun v w => w = v)
  /-- a wider integer type -/
  | int (s t : IntTy) : (∀ v, s.InRange v → t.InRange v) → Evolves (.int s) (.int t) (fun v w => w = v)
  /-- lists of any kind -/
  | seq {α β : Type} {t : Ty α} {t' : Ty β} {R : α → β → Prop} (k k' : SeqKind) : Evolves t t' R →
      Evolves (t.seq k) (t'.seq k') (List.Forall₂ R)
  /-- the new elements are in the order of the old ones -/
  | btreeSet {α β : Type} {t : Ty α} {t' : Ty β} {R : α → β → Prop} (cmp : α → α → Ordering) (h : Std.TransCmp cmp) (h' : Std.LawfulEqCmp cmp)
      (cmp' : β → β → Ordering) (g : Std.TransCmp cmp') (g' : Std.LawfulEqCmp cmp') : Evolves t t' R →
      (∀ a b x y, R a x → R b y → cmp' x y = cmp a b) →
      Evolves (.btreeSet cmp h h' t) (.btreeSet cmp' g g' t') (List.Forall₂ R)
  | btreeMap {α β γ δ : Type} {k : Ty α} {k' : Ty β} {t : Ty γ} {t' : Ty δ} {R : α → β → Prop} {S : γ → δ → Prop}
      (cmp : α → α → Ordering) (h : Std.TransCmp cmp) (h' : Std.LawfulEqCmp cmp)
      (cmp' : β → β → Ordering) (g : Std.TransCmp cmp') (g' : Std.LawfulEqCmp cmp') : Evolves k k' R → Evolves t t' S →
      (∀ a b x y, R a x → R b y → cmp' x y = cmp a b) →
      Evolves (.btreeMap cmp h h' k t) (.btreeMap cmp' g g' k' t') (List.Forall₂ (Both R S))
  /-- the new elements are equal when the old ones are -/
  | hashSet {α β : Type} {t : Ty α} {t' : Ty β} {R : α → β → Prop} (eq : DecidableEq α) (eq' : DecidableEq β) : Evolves t t' R →
      (∀ a b x y, R a x → R b y → (x = y ↔ a = b)) →
      Evolves (.hashSet eq t) (.hashSet eq' t') (UpToOrder R)
  | hashMap {α β γ δ : Type} {k : Ty α} {k' : Ty β} {t : Ty γ} {t' : Ty δ} {R : α → β → Prop} {S : γ → δ → Prop}
      (eq : DecidableEq α) (eq' : DecidableEq β) : Evolves k k' R → Evolves t t' S →
      (∀ a b x y, R a x → R b y → (x = y ↔ a = b)) →
      Evolves (.hashMap eq k t) (.hashMap eq' k' t') (UpToOrder (Both R S))
  | struct {γ δ : Type} {fs : Fields γ} {fs' : Fields δ} {R : γ → δ → Prop} (id : List UInt8) : EvolvesFields fs fs' R →
      Evolves (.struct id fs) (.struct id fs') R
  | enum {γ δ : Type} {vs : Variants γ} {vs' : Variants δ} {R : γ → δ → Prop} : EvolvesVariants vs vs' R →
      Evolves (.enum vs) (.enum vs') R
  | transparent {γ δ : Type} {fs : Fields γ} {fs' : Fields δ} {R : γ → δ → Prop} : EvolvesFields fs fs' R →
      Evolves (.transparent fs) (.transparent fs') R
  /-- a transparent struct is put around the type -/
  | wrap {α β : Type} {t : Ty α} {t' : Ty β} {R : α → β → Prop} : Evolves t t' R →
      Evolves t (.transparent (.plain t' .nil)) (fun v w => R v w.1)
  /-- a transparent struct around the type is taken off -/
  | unwrap {α β : Type} {t : Ty α} {t' : Ty β} {R : α → β → Prop} : Evolves t t' R →
      Evolves (.transparent (.plain t .nil)) t' (fun v w => R v.1 w)
  /-- what is converted has changed, and the conversions with it -/
  | conv {α β γ δ : Type} {t : Ty γ} {t' : Ty δ} {R : γ → δ → Prop} (S : α → β → Prop) (f : α → γ) (g : Back γ α) (f' : β → δ) (g' : Back δ β) :
      Evolves t t' R → (∀ u u' v, R u u' → g.apply u = .ok v → ∃ w, g'.apply u' = .ok w ∧ S v w) →
      (∀ v u', R (f v) u' → ∃ w, S v w ∧ f' w = u') → (∀ v w, S v w → R (f v) (f' w)) →
      Evolves (.conv t f g) (.conv t' f' g') S
  /-- declared types -/
  | named {α β γ δ : Type} {t : Ty γ} {t' : Ty δ} {R : γ → δ → Prop} (f : α → γ) (g : γ → α) (h : ∀ v, g (f v) = v) (h' : ∀ u, f (g u) = u)
      (f' : β → δ) (g' : δ → β) (k : ∀ v, g' (f' v) = v) (k' : ∀ u, f' (g' u) = u) : Evolves t t' R →
      Evolves (.named t f g h h') (.named t' f' g' k k') (fun v w => R (f v) (f' w))
/-- Changes of the fields of a struct or variant. -/
inductive EvolvesFields : {γ δ : Type} → Fields γ → Fields δ → (γ → δ → Prop) → Prop
  | nil : EvolvesFields .nil .nil (fun _ _ => True)
  | plain {α β γ δ : Type} {t : Ty α} {t' : Ty β} {r : Fields γ} {r' : Fields δ} {R : α → β → Prop} {S : γ → δ → Prop} : Evolves t t' R →
      EvolvesFields r r' S → EvolvesFields (.plain t r) (.plain t' r') (Both R S)
  /-- a field that is skipped in both may change as it likes -/
  | skip {α β γ δ : Type} {r : Fields γ} {r' : Fields δ} {S : γ → δ → Prop} (d : α) (d' : β) (R : α → β → Prop) : R d d' → (∀ a, ∃ b, R a b) →
      EvolvesFields r r' S → EvolvesFields (.skip d r) (.skip d' r') (Both R S)
  /-- a new field that is skipped -/
  | addSkip {β γ δ : Type} {r : Fields γ} {r' : Fields δ} {S : γ → δ → Prop} (d : β) : EvolvesFields r r' S →
      EvolvesFields r (.skip d r') (fun v w => w.1 = d ∧ S v w.2)
  /-- a skipped field is removed -/
  | dropSkip {α γ δ : Type} {r : Fields γ} {r' : Fields δ} {S : γ → δ → Prop} (d : α) : EvolvesFields r r' S →
      EvolvesFields (.skip d r) r' (fun v w => S v.2 w)
  /-- what the field is converted to and from has changed -/
  | conv {α β γ δ γ' δ' : Type} {t : Ty γ'} {t' : Ty δ'} {r : Fields γ} {r' : Fields δ} {R : γ' → δ' → Prop} {S : γ → δ → Prop} (T : α → β → Prop)
      (f : α → γ') (g : Back γ' α) (f' : β → δ') (g' : Back δ' β) : Evolves t t' R →
      (∀ u u' v, R u u' → g.apply u = .ok v → ∃ w, g'.apply u' = .ok w ∧ T v w) → (∀ v u', R (f v) u' → ∃ w, T v w ∧ f' w = u') →
      (∀ v w, T v w → R (f v) (f' w)) → EvolvesFields r r' S → EvolvesFields (.conv t f g r) (.conv t' f' g' r') (Both T S)
/-- Changes of the variants of an enum. -/
inductive EvolvesVariants : {γ δ : Type} → Variants γ → Variants δ → (γ → δ → Prop) → Prop
  | nil : EvolvesVariants .nil .nil (fun _ _ => True)
  | cons {α β γ δ : Type} {fs : Fields α} {fs' : Fields β} {r : Variants γ} {r' : Variants δ} {R : α → β → Prop} {S : γ → δ → Prop}
      (id : List UInt8) : EvolvesFields fs fs' R → EvolvesVariants r r' S → EvolvesVariants (.cons id fs r) (.cons id fs' r') (Either R S)
  /-- a new variant, whose identifier none of the old variants after it has -/
  | insert {β γ δ : Type} {r : Variants γ} {r' : Variants δ} {S : γ → δ → Prop} (id : List UInt8) (fs : Fields β) : id ∉ r.ids →
      EvolvesVariants r r' S → EvolvesVariants r (.cons id fs r') (Later S)
end

end Bsn1.Spec
