import Verif.Spec.Basic
import Verif.Model.Ber
/-!
# Documents: values inside of values

Trees of values, their octets, and programs as a user writes them with the API to build such octets and to take them apart again, as in the examples of
`Ber::new_indefinite` (bsn1/src/ber.rs:110-139).
-/

namespace Bsn1.Spec

mutual
/-- A value whose contents are not looked into, or one with values inside. -/
inductive Doc where
  | leaf (id contents : List UInt8)
  | node (id : List UInt8) (indefinite : Bool) (children : Docs)
/-- Documents one after another. -/
inductive Docs where
  | nil
  | cons (d : Doc) (r : Docs)
end

deriving instance DecidableEq for Doc, Docs

/-- Documents as a list. -/
def Docs.toList : Docs → List Doc
  | .nil => []
  | .cons d r => d :: r.toList

mutual
/-- The octets by X.690 8.1. -/
def Doc.octets : Doc → List UInt8
  | .leaf id c => tlv id c
  | .node id false cs => tlv id cs.octets
  | .node id true cs => id ++ indefOctets ++ cs.octets ++ eoc
/-- The octets of documents one after another. -/
def Docs.octets : Docs → List UInt8
  | .nil => []
  | .cons d r => d.octets ++ r.octets
end

/-- The identifier says "primitive" (`p = 0`) or "constructed" (`p = 1`), X.690 8.1.2.5. -/
def HasForm (p : Nat) (id : List UInt8) : Prop := ∃ c n, c < 4 ∧ id = idOctets c p n

mutual
/-- Leaves have primitive identifiers, nodes constructed ones (not asked of indefinite ones, as `BerRef::parse` does not), and no child of an
indefinite node looks like end-of-contents. -/
def Doc.Ok : Doc → Prop
  | .leaf id _ => HasForm 0 id
  | .node id false cs => HasForm 1 id ∧ cs.Ok
  | .node id true cs => IsId id ∧ cs.Ok ∧ .leaf [0x00] [] ∉ cs.toList
/-- All of them are. -/
def Docs.Ok : Docs → Prop
  | .nil => True
  | .cons d r => d.Ok ∧ r.Ok
end

mutual
/-- No indefinite length anywhere. -/
def Doc.Definite : Doc → Prop
  | .leaf _ _ => True
  | .node _ indef cs => indef = false ∧ cs.Definite
/-- The same for all of them. -/
def Docs.Definite : Docs → Prop
  | .nil => True
  | .cons d r => d.Definite ∧ r.Definite
end

mutual
/-- Every value of indefinite length has a constructed identifier, as X.690 8.1.3.2 asks and `BerRef::parse` does not. -/
def Doc.Constructed : Doc → Prop
  | .leaf _ _ => True
  | .node id _ cs => HasForm 1 id ∧ cs.Constructed
/-- The same for all of them. -/
def Docs.Constructed : Docs → Prop
  | .nil => True
  | .cons d r => d.Constructed ∧ r.Constructed
end

mutual
/-- The same document with definite lengths only. -/
def Doc.definite : Doc → Doc
  | .leaf id c => .leaf id c
  | .node id _ cs => .node id false cs.definite
/-- The same for all of them. -/
def Docs.definite : Docs → Docs
  | .nil => .nil
  | .cons d r => .cons d.definite r.definite
end

mutual
/-- A user's program: `Ber::new` and `Ber::new_indefinite` from the inside to the outside. -/
def buildBer (m : Build) (junk : Nat → UInt8) : Doc → Res (List UInt8)
  | .leaf id c => Ber.new m junk id c
  | .node id false cs => do Ber.new m junk id (← buildBers m junk cs)
  | .node id true cs => do Ber.newIndefinite m junk id ((← buildBers m junk cs) ++ BerRef.eoc)
/-- The values appended to a `Vec<u8>`. -/
def buildBers (m : Build) (junk : Nat → UInt8) : Docs → Res (List UInt8)
  | .nil => .ok []
  | .cons d r => do
    let v ← buildBer m junk d
    let vs ← buildBers m junk r
    return v ++ vs
end

mutual
/-- A user's program: `Der::new` from the inside to the outside. -/
def buildDer (m : Build) (junk : Nat → UInt8) : Doc → Res (List UInt8)
  | .leaf id c => Der.new m junk id c
  | .node id _ cs => do Der.new m junk id (← buildDers m junk cs)
/-- The values appended to a `Vec<u8>`. -/
def buildDers (m : Build) (junk : Nat → UInt8) : Docs → Res (List UInt8)
  | .nil => .ok []
  | .cons d r => do
    let v ← buildDer m junk d
    let vs ← buildDers m junk r
    return v ++ vs
end

/-- A part of the next program: the value with the given identifier, length and contents, with `inner` for what is inside. -/
def readOne (inner : List UInt8 → Res Docs) (id : List UInt8) (length : Length) (contents : List UInt8) : Res Doc :=
  match length with
  | .indefinite => do
    let cs ← inner (contents.take (contents.length - BerRef.eoc.length))
    return .node id true cs
  | .definite _ => do
    let primitive ← IdRef.isPrimitive id
    if primitive then return .leaf id contents
    else
      let cs ← inner contents
      return .node id false cs

/-- A user's program: `while !bytes.is_empty() { BerRef::parse(&mut bytes)? … }`, and the same for the contents of each value that is constructed or of
indefinite length, there without the end-of-contents.  `fuel` bounds the nesting and the number of values. -/
def readBers : (fuel : Nat) → List UInt8 → Res Docs
  | 0, _ => .panic
  | fuel + 1, bytes =>
    if bytes.isEmpty then .ok .nil
    else
      match BerRef.parse bytes with
      | (.ok v, rest) => do
        let (id, length, contents) ← BerRef.disassemble v
        let d ← readOne (readBers fuel) id length contents
        let r ← readBers fuel rest
        return .cons d r
      | (.err e, _) => .err e
      | (.panic, _) => .panic
      | (.ub, _) => .ub

/-- The same program with `DerRef::parse`. -/
def readDers : (fuel : Nat) → List UInt8 → Res Docs
  | 0, _ => .panic
  | fuel + 1, bytes =>
    if bytes.isEmpty then .ok .nil
    else
      match DerRef.parse bytes with
      | (.ok v, rest) => do
        let (id, length, contents) ← DerRef.disassemble v
        let d ← readOne (readDers fuel) id length contents
        let r ← readDers fuel rest
        return .cons d r
      | (.err e, _) => .err e
      | (.panic, _) => .panic
      | (.ub, _) => .ub

end Bsn1.Spec
