import Verif.Spec.Decode
/-!
# Recursive types

A recursive type, such as `struct Tree { val: i32, children: Vec<Tree> }`, is approximated by the type expressions in which
the declaration is unfolded a number of times and what is below has no values (`Ty.hole`).
-/

namespace Bsn1.Spec

mutual
/-- `Upto k t t'`: `t'` is `t` with some holes filled, and each of these holes is inside of at least `k` values that are
constructed (elements of collections, fields of structs and variants that are not transparent). -/
inductive Ty.Upto : Nat → {α : Type} → Ty α → Ty α → Prop
  | hole {α : Type} (t : Ty α) : Ty.Upto 0 .hole t
  | refl {α : Type} (k : Nat) (t : Ty α) : Ty.Upto k t t
  | vec {α : Type} {j k : Nat} {t t' : Ty α} : j ≤ k + 1 → Ty.Upto k t t' → Ty.Upto j (.vec t) (.vec t')
  | linkedList {α : Type} {j k : Nat} {t t' : Ty α} : j ≤ k + 1 → Ty.Upto k t t' → Ty.Upto j (.linkedList t) (.linkedList t')
  | vecDeque {α : Type} {j k : Nat} {t t' : Ty α} : j ≤ k + 1 → Ty.Upto k t t' → Ty.Upto j (.vecDeque t) (.vecDeque t')
  | btreeSet {α : Type} {j k : Nat} {t t' : Ty α} (cmp : α → α → Ordering) (h : Std.TransCmp cmp)
      (h' : Std.LawfulEqCmp cmp) : j ≤ k + 1 → Ty.Upto k t t' → Ty.Upto j (.btreeSet cmp h h' t) (.btreeSet cmp h h' t')
  | btreeMap {α β : Type} {j k : Nat} {u u' : Ty α} {t t' : Ty β} (cmp : α → α → Ordering) (h : Std.TransCmp cmp)
      (h' : Std.LawfulEqCmp cmp) : j ≤ k + 1 → Ty.Upto k u u' → Ty.Upto k t t' →
      Ty.Upto j (.btreeMap cmp h h' u t) (.btreeMap cmp h h' u' t')
  | hashSet {α : Type} {j k : Nat} {t t' : Ty α} (eq : DecidableEq α) : j ≤ k + 1 → Ty.Upto k t t' →
      Ty.Upto j (.hashSet eq t) (.hashSet eq t')
  | hashMap {α β : Type} {j k : Nat} {u u' : Ty α} {t t' : Ty β} (eq : DecidableEq α) : j ≤ k + 1 → Ty.Upto k u u' →
      Ty.Upto k t t' → Ty.Upto j (.hashMap eq u t) (.hashMap eq u' t')
  | struct {γ : Type} {j k : Nat} {fs fs' : Fields γ} (id : List UInt8) : j ≤ k + 1 → Fields.Upto k fs fs' →
      Ty.Upto j (.struct id fs) (.struct id fs')
  | enum {ρ : Type} {j k : Nat} {vs vs' : Variants ρ} : j ≤ k + 1 → Variants.Upto k vs vs' → Ty.Upto j (.enum vs) (.enum vs')
  | transparent {γ : Type} {k : Nat} {fs fs' : Fields γ} : Fields.Upto k fs fs' →
      Ty.Upto k (.transparent fs) (.transparent fs')
  | conv {α β : Type} {k : Nat} {t t' : Ty β} (f : α → β) (g : Back β α) : Ty.Upto k t t' →
      Ty.Upto k (.conv t f g) (.conv t' f g)
  | named {α β : Type} {k : Nat} {t t' : Ty β} (f : α → β) (g : β → α) (h : ∀ v, g (f v) = v) (h' : ∀ u, f (g u) = u) :
      Ty.Upto k t t' → Ty.Upto k (.named t f g h h') (.named t' f g h h')
/-- The same for fields. -/
inductive Fields.Upto : Nat → {γ : Type} → Fields γ → Fields γ → Prop
  | nil (k : Nat) : Fields.Upto k .nil .nil
  | plain {β γ : Type} {k : Nat} {t t' : Ty β} {r r' : Fields γ} : Ty.Upto k t t' → Fields.Upto k r r' →
      Fields.Upto k (.plain t r) (.plain t' r')
  | skip {β γ : Type} {k : Nat} {r r' : Fields γ} (d : β) : Fields.Upto k r r' → Fields.Upto k (.skip d r) (.skip d r')
  | skipSer {β γ : Type} {k : Nat} {t t' : Ty β} {r r' : Fields γ} : Ty.Upto k t t' → Fields.Upto k r r' →
      Fields.Upto k (.skipSer t r) (.skipSer t' r')
  | skipDe {β γ : Type} {k : Nat} {t t' : Ty β} {r r' : Fields γ} (d : β) : Ty.Upto k t t' → Fields.Upto k r r' →
      Fields.Upto k (.skipDe t d r) (.skipDe t' d r')
  | conv {β δ γ : Type} {k : Nat} {t t' : Ty δ} {r r' : Fields γ} (f : β → δ) (g : Back δ β) : Ty.Upto k t t' →
      Fields.Upto k r r' → Fields.Upto k (.conv t f g r) (.conv t' f g r')
/-- The same for variants. -/
inductive Variants.Upto : Nat → {ρ : Type} → Variants ρ → Variants ρ → Prop
  | nil (k : Nat) : Variants.Upto k .nil .nil
  | cons {γ ρ : Type} {k : Nat} {fs fs' : Fields γ} {r r' : Variants ρ} (id : List UInt8) : Fields.Upto k fs fs' →
      Variants.Upto k r r' → Variants.Upto k (.cons id fs r) (.cons id fs' r')
end

/-- A recursive declaration: `body t` is the declaration with `t` where the type itself is mentioned, and it is mentioned
only in constructed values (otherwise the type would have infinite size, or no values).  -/
structure RecDecl (R : Type) where
  body : Ty R → Ty R
  guarded : ∀ k t t', Ty.Upto k t t' → Ty.Upto (k + 1) (body t) (body t')

/-- The declaration unfolded `n` times. -/
def RecDecl.unroll {R : Type} (d : RecDecl R) : Nat → Ty R
  | 0 => .hole
  | n + 1 => d.body (d.unroll n)

/-- The values of the recursive type: those of some unfolding. -/
def RecDecl.Value {R : Type} (d : RecDecl R) (v : R) : Prop := ∃ n, (d.unroll n).ok v

/-- Identifier and contents octets of a value of the recursive type. -/
def RecDecl.IsEnc {R : Type} (d : RecDecl R) (v : R) (id c : List UInt8) : Prop :=
  ∃ n, (d.unroll n).ok v ∧ (d.unroll n).enc v = (id, c)

end Bsn1.Spec
