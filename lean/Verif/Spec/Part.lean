import Verif.Spec.Tree
import Verif.Spec.Edits
/-!
# The parts of a value, by their place in the encoding

A value of a supported type has parts: the elements of a collection, keys and values of a map, the fields of a struct or variant, and their parts.  A path says which
of the values inside of the encoding belongs to the part, in the same way as in `Verif.Spec.Place`.
-/

namespace Bsn1.Spec

mutual
/-- `Ty.Part u y p key t v put`: the value `v` of the type `t` has at the path `p` the part `y` of the type `u`, and `put z` is the same value with `z` instead.  `key` says
whether the part belongs to an element of a set or a key of a map, which cannot be changed at will.  Fields that are not encoded have no place; a converted field is a part, which is not
looked into. -/
inductive Ty.Part {β : Type} (u : Ty β) (y : β) : List Nat → Bool → {α : Type} → Ty α → α → (β → α) → Prop
  | here : Ty.Part u y [] false u y (fun z => z)
  | vec {α : Type} {t : Ty α} {p : List Nat} {key : Bool} {l : List α} {i : Nat} {x : α} {put : β → α} : l[i]? = some x → Ty.Part u y p key t x put →
      Ty.Part u y (i :: p) key (.vec t) l (fun z => l.set i (put z))
  | linkedList {α : Type} {t : Ty α} {p : List Nat} {key : Bool} {l : List α} {i : Nat} {x : α} {put : β → α} : l[i]? = some x → Ty.Part u y p key t x put →
      Ty.Part u y (i :: p) key (.linkedList t) l (fun z => l.set i (put z))
  | vecDeque {α : Type} {t : Ty α} {p : List Nat} {key : Bool} {l : List α} {i : Nat} {x : α} {put : β → α} : l[i]? = some x → Ty.Part u y p key t x put →
      Ty.Part u y (i :: p) key (.vecDeque t) l (fun z => l.set i (put z))
  | btreeSet {α : Type} {cmp : α → α → Ordering} {h : Std.TransCmp cmp} {h' : Std.LawfulEqCmp cmp} {t : Ty α} {p : List Nat} {key : Bool} {l : List α} {i : Nat} {x : α}
      {put : β → α} : l[i]? = some x → Ty.Part u y p key t x put → Ty.Part u y (i :: p) true (.btreeSet cmp h h' t) l (fun z => l.set i (put z))
  | hashSet {α : Type} {eq : DecidableEq α} {t : Ty α} {p : List Nat} {key : Bool} {l : List α} {i : Nat} {x : α} {put : β → α} : l[i]? = some x →
      Ty.Part u y p key t x put → Ty.Part u y (i :: p) true (.hashSet eq t) l (fun z => l.set i (put z))
  | btreeKey {α γ : Type} {cmp : α → α → Ordering} {h : Std.TransCmp cmp} {h' : Std.LawfulEqCmp cmp} {k : Ty α} {t : Ty γ} {p : List Nat} {key : Bool} {l : List (α × γ)}
      {i : Nat} {x : α × γ} {put : β → α} : l[i]? = some x → Ty.Part u y p key k x.1 put →
      Ty.Part u y (i :: 0 :: p) true (.btreeMap cmp h h' k t) l (fun z => l.set i (put z, x.2))
  | btreeValue {α γ : Type} {cmp : α → α → Ordering} {h : Std.TransCmp cmp} {h' : Std.LawfulEqCmp cmp} {k : Ty α} {t : Ty γ} {p : List Nat} {key : Bool} {l : List (α × γ)}
      {i : Nat} {x : α × γ} {put : β → γ} : l[i]? = some x → Ty.Part u y p key t x.2 put →
      Ty.Part u y (i :: 1 :: p) key (.btreeMap cmp h h' k t) l (fun z => l.set i (x.1, put z))
  | hashKey {α γ : Type} {eq : DecidableEq α} {k : Ty α} {t : Ty γ} {p : List Nat} {key : Bool} {l : List (α × γ)}
      {i : Nat} {x : α × γ} {put : β → α} : l[i]? = some x → Ty.Part u y p key k x.1 put →
      Ty.Part u y (i :: 0 :: p) true (.hashMap eq k t) l (fun z => l.set i (put z, x.2))
  | hashValue {α γ : Type} {eq : DecidableEq α} {k : Ty α} {t : Ty γ} {p : List Nat} {key : Bool} {l : List (α × γ)}
      {i : Nat} {x : α × γ} {put : β → γ} : l[i]? = some x → Ty.Part u y p key t x.2 put →
      Ty.Part u y (i :: 1 :: p) key (.hashMap eq k t) l (fun z => l.set i (x.1, put z))
  | struct {γ : Type} {id : List UInt8} {fs : Fields γ} {p : List Nat} {key : Bool} {v : γ} {put : β → γ} : constructedBit id = true → Fields.Part u y p key fs v put →
      Ty.Part u y p key (.struct id fs) v put
  | enum {ρ : Type} {vs : Variants ρ} {p : List Nat} {key : Bool} {v : ρ} {put : β → ρ} : Variants.Part u y p key vs v put → Ty.Part u y p key (.enum vs) v put
  | transparent {γ : Type} {fs : Fields γ} {p : List Nat} {key : Bool} {v : γ} {put : β → γ} : Fields.PartOne u y p key fs v put →
      Ty.Part u y p key (.transparent fs) v put
  | named {α δ : Type} {t : Ty δ} {f : α → δ} {g : δ → α} {h : ∀ v, g (f v) = v} {h' : ∀ x, f (g x) = x} {p : List Nat} {key : Bool} {v : α} {put : β → δ} :
      Ty.Part u y p key t (f v) put → Ty.Part u y p key (.named t f g h h') v (fun z => g (put z))
/-- The same for the fields: the first index says which of the encoded ones. -/
inductive Fields.Part {β : Type} (u : Ty β) (y : β) : List Nat → Bool → {γ : Type} → Fields γ → γ → (β → γ) → Prop
  | plain {δ γ : Type} {t : Ty δ} {r : Fields γ} {p : List Nat} {key : Bool} {v : δ × γ} {put : β → δ} : Ty.Part u y p key t v.1 put →
      Fields.Part u y (0 :: p) key (.plain t r) v (fun z => (put z, v.2))
  | skipDe {δ γ : Type} {t : Ty δ} {d : δ} {r : Fields γ} {p : List Nat} {key : Bool} {v : δ × γ} {put : β → δ} : Ty.Part u y p key t v.1 put →
      Fields.Part u y (0 :: p) key (.skipDe t d r) v (fun z => (put z, v.2))
  | conv {δ ε γ : Type} {t : Ty ε} {f : δ → ε} {g : Back ε δ} {r : Fields γ} {p : List Nat} {key : Bool} {v : δ × γ} {put : β → δ} :
      Ty.Part u y p key (.conv t f g) v.1 put → Fields.Part u y (0 :: p) key (.conv t f g r) v (fun z => (put z, v.2))
  | afterPlain {δ γ : Type} {t : Ty δ} {r : Fields γ} {i : Nat} {p : List Nat} {key : Bool} {v : δ × γ} {put : β → γ} : Fields.Part u y (i :: p) key r v.2 put →
      Fields.Part u y ((i + 1) :: p) key (.plain t r) v (fun z => (v.1, put z))
  | afterSkipDe {δ γ : Type} {t : Ty δ} {d : δ} {r : Fields γ} {i : Nat} {p : List Nat} {key : Bool} {v : δ × γ} {put : β → γ} : Fields.Part u y (i :: p) key r v.2 put →
      Fields.Part u y ((i + 1) :: p) key (.skipDe t d r) v (fun z => (v.1, put z))
  | afterConv {δ ε γ : Type} {t : Ty ε} {f : δ → ε} {g : Back ε δ} {r : Fields γ} {i : Nat} {p : List Nat} {key : Bool} {v : δ × γ} {put : β → γ} :
      Fields.Part u y (i :: p) key r v.2 put → Fields.Part u y ((i + 1) :: p) key (.conv t f g r) v (fun z => (v.1, put z))
  | afterSkip {δ γ : Type} {d : δ} {r : Fields γ} {p : List Nat} {key : Bool} {v : δ × γ} {put : β → γ} : Fields.Part u y p key r v.2 put →
      Fields.Part u y p key (.skip d r) v (fun z => (v.1, put z))
  | afterSkipSer {δ γ : Type} {t : Ty δ} {r : Fields γ} {p : List Nat} {key : Bool} {v : δ × γ} {put : β → γ} : Fields.Part u y p key r v.2 put →
      Fields.Part u y p key (.skipSer t r) v (fun z => (v.1, put z))
/-- The same for a transparent struct: the one field that is encoded stands for all. -/
inductive Fields.PartOne {β : Type} (u : Ty β) (y : β) : List Nat → Bool → {γ : Type} → Fields γ → γ → (β → γ) → Prop
  | plain {δ γ : Type} {t : Ty δ} {r : Fields γ} {p : List Nat} {key : Bool} {v : δ × γ} {put : β → δ} : Ty.Part u y p key t v.1 put →
      Fields.PartOne u y p key (.plain t r) v (fun z => (put z, v.2))
  | skipDe {δ γ : Type} {t : Ty δ} {d : δ} {r : Fields γ} {p : List Nat} {key : Bool} {v : δ × γ} {put : β → δ} : Ty.Part u y p key t v.1 put →
      Fields.PartOne u y p key (.skipDe t d r) v (fun z => (put z, v.2))
  | conv {δ ε γ : Type} {t : Ty ε} {f : δ → ε} {g : Back ε δ} {r : Fields γ} {p : List Nat} {key : Bool} {v : δ × γ} {put : β → δ} :
      Ty.Part u y p key (.conv t f g) v.1 put → Fields.PartOne u y p key (.conv t f g r) v (fun z => (put z, v.2))
  | afterSkip {δ γ : Type} {d : δ} {r : Fields γ} {p : List Nat} {key : Bool} {v : δ × γ} {put : β → γ} : Fields.PartOne u y p key r v.2 put →
      Fields.PartOne u y p key (.skip d r) v (fun z => (v.1, put z))
  | afterSkipSer {δ γ : Type} {t : Ty δ} {r : Fields γ} {p : List Nat} {key : Bool} {v : δ × γ} {put : β → γ} : Fields.PartOne u y p key r v.2 put →
      Fields.PartOne u y p key (.skipSer t r) v (fun z => (v.1, put z))
/-- The same for an enum: the fields of the variant the value is of. -/
inductive Variants.Part {β : Type} (u : Ty β) (y : β) : List Nat → Bool → {ρ : Type} → Variants ρ → ρ → (β → ρ) → Prop
  | this {γ ρ : Type} {id : List UInt8} {fs : Fields γ} {r : Variants ρ} {p : List Nat} {key : Bool} {v : γ} {put : β → γ} : constructedBit id = true →
      Fields.Part u y p key fs v put → Variants.Part u y p key (.cons id fs r) (.inl v) (fun z => .inl (put z))
  | other {γ ρ : Type} {id : List UInt8} {fs : Fields γ} {r : Variants ρ} {p : List Nat} {key : Bool} {v : ρ} {put : β → ρ} : Variants.Part u y p key r v put →
      Variants.Part u y p key (.cons id fs r) (.inr v) (fun z => .inr (put z))
end

/-- A user's program: the contents of the value in `new` are copied, with `mut_contents().as_mut().copy_from_slice(..)`, over those of the value at the path in `bytes`. -/
def replaceDer (p : List Nat) (new bytes : List UInt8) : Res (List UInt8) := do
  let contents ← DerRef.contents new
  onDer (Touch.copy contents).der p bytes

/-- The same program with `BerRef`. -/
def replaceBer (p : List Nat) (new bytes : List UInt8) : Res (List UInt8) := do
  let contents ← BerRef.contents new
  onBer (Touch.copy contents).ber p bytes

end Bsn1.Spec
