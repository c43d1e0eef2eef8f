import Verif.Spec.Decode
import Verif.Model.Ber
/-!
# Octets behind the last element of a collection

What the octets of a collection denote when others are put behind them.
-/

namespace Bsn1.Spec

/-- Values are read from the octets one after the other, and nothing is left. -/
inductive ReadAll {α : Type} (parse : List UInt8 → Res α × List UInt8) : List UInt8 → List α → Prop
  | nil : ReadAll parse [] []
  | cons (b r : List UInt8) (x : α) (xs : List α) : parse b = (.ok x, r) → ReadAll parse r xs → ReadAll parse b (x :: xs)

/-- `Ty.Joins t T J`: the type `T` is a collection with elements of the type `t`, and `J v vs w` says that `w` is the collection `v` after the elements `vs` have been
put into it. -/
inductive Ty.Joins {β : Type} (t : Ty β) : {α : Type} → Ty α → (α → List β → α → Prop) → Prop
  | vec : Ty.Joins t (.vec t) (fun v vs w => w = v ++ vs)
  | linkedList : Ty.Joins t (.linkedList t) (fun v vs w => w = v ++ vs)
  | vecDeque : Ty.Joins t (.vecDeque t) (fun v vs w => w = v ++ vs)
  | btreeSet {cmp : β → β → Ordering} {h : Std.TransCmp cmp} {h' : Std.LawfulEqCmp cmp} :
      Ty.Joins t (.btreeSet cmp h h' t) (fun v vs w => w.Pairwise (fun x y => cmp x y = .lt) ∧ ∀ x, x ∈ w ↔ x ∈ v ∨ x ∈ vs)
  | hashSet {eq : DecidableEq β} : Ty.Joins t (.hashSet eq t) (fun v vs w => w.Nodup ∧ ∀ x, x ∈ w ↔ x ∈ v ∨ x ∈ vs)

/-- The same for maps: an entry is a SEQUENCE of the key and the value; the value of a key is the one that was put last. -/
inductive Ty.JoinsMap {β γ : Type} (k : Ty β) (t : Ty γ) : Ty (List (β × γ)) → (List (β × γ) → List (β × γ) → List (β × γ) → Prop) → Prop
  | btreeMap {cmp : β → β → Ordering} {h : Std.TransCmp cmp} {h' : Std.LawfulEqCmp cmp} :
      Ty.JoinsMap k t (.btreeMap cmp h h' k t) (fun v vs w => w.Pairwise (fun x y => cmp x.1 y.1 = .lt) ∧
        ∀ a b, (a, b) ∈ w ↔ LastEntry a b vs ∨ ((a, b) ∈ v ∧ ∀ e ∈ vs, e.1 ≠ a))
  | hashMap {eq : DecidableEq β} :
      Ty.JoinsMap k t (.hashMap eq k t) (fun v vs w => (w.map Prod.fst).Nodup ∧
        ∀ a b, (a, b) ∈ w ↔ LastEntry a b vs ∨ ((a, b) ∈ v ∧ ∀ e ∈ vs, e.1 ≠ a))

/-- Entries of a map are read from BER octets one after the other, by a user's program, and nothing is left: each is a value with the identifier of SEQUENCE, of which the contents
are a key and a value.  (The contents of a value of indefinite length are with the end-of-contents, so such an entry is none.) -/
inductive ReadEntries {β γ : Type} (key : List UInt8 → Res β × List UInt8) (val : List UInt8 → Res γ × List UInt8) : List UInt8 → List (β × γ) → Prop
  | nil : ReadEntries key val [] []
  | cons (b e r c c' : List UInt8) (x : β) (y : γ) (xs : List (β × γ)) : BerRef.parse b = (.ok e, r) → BerRef.id e = .ok [0x30] → BerRef.contents e = .ok c →
      key c = (.ok x, c') → val c' = (.ok y, []) → ReadEntries key val r xs → ReadEntries key val b ((x, y) :: xs)

/-- `L` is one of the lists with elements of the type `t`. -/
inductive Ty.ListOf {β : Type} (t : Ty β) : Ty (List β) → Prop
  | vec : Ty.ListOf t (.vec t)
  | linkedList : Ty.ListOf t (.linkedList t)
  | vecDeque : Ty.ListOf t (.vecDeque t)

/-- `L` is one of the lists or sets with elements of the type `t`. -/
inductive Ty.SeriesOf {β : Type} (t : Ty β) : Ty (List β) → Prop
  | list {L : Ty (List β)} : Ty.ListOf t L → Ty.SeriesOf t L
  | btreeSet {cmp : β → β → Ordering} {h : Std.TransCmp cmp} {h' : Std.LawfulEqCmp cmp} : Ty.SeriesOf t (.btreeSet cmp h h' t)
  | hashSet {eq : DecidableEq β} : Ty.SeriesOf t (.hashSet eq t)

end Bsn1.Spec
