import Verif.Spec.Place
/-!
# Several edits of documents, in place

What a list of edits makes of documents, as trees, and the programs which do the same with the octets.
-/

namespace Bsn1.Spec

/-- Identifier octets with another class: bits 8 and 7 of the first octet, X.690 8.1.2.2. -/
def classed (k : Nat) : List UInt8 → List UInt8
  | [] => []
  | b :: r => UInt8.ofNat (64 * k + b.toNat % 64) :: r

/-- What a change makes of a document; `none` if it is refused because of its size. -/
def Doc.touched : Touch → Doc → Option Doc
  | .setClass k, e => some (e.withIdent (classed (match k with | .universal => 0 | .application => 1 | .contextSpecific => 2 | .priv => 3) e.ident))
  | .setAt i b, .leaf id c => if i < c.length then some (.leaf id (c.set i b)) else none
  | .copy src, .leaf id c => if src.length = c.length then some (.leaf id src) else none
  | _, e => some e

/-- The changes considered: those which keep the tree.  The class of any value and the contents of a value which are not looked into. -/
def Touch.Keeps : Touch → Doc → Prop
  | .setClass _, _ => True
  | .setPc _, _ => False
  | .setAt _ _, .leaf _ _ => True
  | .copy _, .leaf _ _ => True
  | _, .node _ _ _ => False

/-- There is a value at the path, the change keeps the tree, and it does not make `00 00` inside of a value of indefinite length. -/
def Docs.May (ds : Docs) (p : List Nat) (t : Touch) : Prop :=
  ∃ e, ds.at p = some e ∧ t.Keeps e ∧ ∀ e', e.touched t = some e' → ¬ (ds.inIndefinite false p = true ∧ e' = .leaf [0x00] [])

/-- The documents after one edit. -/
def Docs.edited1 (ds : Docs) (p : List Nat) (t : Touch) : Option Docs := do
  let e ← ds.at p
  let e' ← e.touched t
  return Docs.put e' ds p

/-- The documents after all the edits. -/
def Docs.edited : List (List Nat × Touch) → Docs → Option Docs
  | [], ds => some ds
  | (p, t) :: r, ds => do Docs.edited r (← ds.edited1 p t)

/-- Each of the edits may be done when its turn comes. -/
def Docs.MayAll : List (List Nat × Touch) → Docs → Prop
  | [], _ => True
  | (p, t) :: r, ds => ds.May p t ∧ ∀ ds', ds.edited1 p t = some ds' → Docs.MayAll r ds'

/-- Neither value is inside of the other, nor are they the same. -/
def Apart (p q : List Nat) : Prop := ¬ p <+: q ∧ ¬ q <+: p

/-- A user's program: the edits are done one after another, each searched for from the beginning. -/
def editsBer : List (List Nat × Touch) → List UInt8 → Res (List UInt8)
  | [], bytes => .ok bytes
  | (p, t) :: r, bytes => do editsBer r (← onBer t.ber p bytes)

/-- The same program with `DerRef`. -/
def editsDer : List (List Nat × Touch) → List UInt8 → Res (List UInt8)
  | [], bytes => .ok bytes
  | (p, t) :: r, bytes => do editsDer r (← onDer t.der p bytes)

/-- A part of the next programs: `parse` is called `i` times, then once more, which gives the value. -/
def nth (parse : List UInt8 → Res (List UInt8) × List UInt8) : Nat → List UInt8 → Res (List UInt8)
  | i, bytes =>
    match parse bytes with
    | (.ok v, rest) =>
      match i with
      | 0 => .ok v
      | i + 1 => nth parse i rest
    | (.err e, _) => .err e
    | (.panic, _) => .panic
    | (.ub, _) => .ub

/-- A user's program: the value at the path, found with `BerRef::parse`, `length` and `contents`. -/
def getBer : List Nat → List UInt8 → Res (List UInt8)
  | [], bytes => .ok bytes
  | [i], bytes => nth BerRef.parse i bytes
  | i :: j :: p, bytes => do
    let v ← nth BerRef.parse i bytes
    let contents ← BerRef.contents v
    match ← BerRef.length v with
    | .indefinite => getBer (j :: p) (contents.take (contents.length - 2))
    | .definite _ => getBer (j :: p) contents

/-- The same program with `DerRef`. -/
def getDer : List Nat → List UInt8 → Res (List UInt8)
  | [], bytes => .ok bytes
  | [i], bytes => nth DerRef.parse i bytes
  | i :: j :: p, bytes => do
    let v ← nth DerRef.parse i bytes
    let contents ← DerRef.contents v
    getDer (j :: p) contents

end Bsn1.Spec
