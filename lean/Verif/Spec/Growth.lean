import Verif.Spec.Basic
/-!
# Independent specification: how often storage grows that is made just as large as needed

Nothing here refers to the model.
-/

namespace Bsn1.Spec

/-- How often storage for `cap` octets has to be replaced if it has to hold these numbers of octets one after the other, and is each time made just
as large as needed. -/
def grown : (cap : Nat) → List Nat → Nat
  | _, [] => 0
  | cap, n :: r => if n ≤ cap then grown cap r else 1 + grown n r

/-- The lengths reached from `pos` on by `n` octets that come one by one. -/
def ticks : (pos n : Nat) → List Nat
  | _, 0 => []
  | pos, n + 1 => (pos + 1) :: ticks (pos + 1) n

/-- The lengths reached from `pos` on by pieces that come one by one. -/
def sums : (pos : Nat) → List (List UInt8) → List Nat
  | _, [] => []
  | pos, c :: r => (pos + c.length) :: sums (pos + c.length) r

mutual
/-- The lengths reached from `pos` on when a BER value comes, the octets of its identifiers and lengths one by one, contents of definite length at
once. -/
inductive BerStops : Nat → List UInt8 → List Nat → Prop
  | definite (pos : Nat) (id c : List UInt8) : IsId id → c.length < 2 ^ 64 →
      BerStops pos (tlv id c) (ticks pos (id ++ lenOctets c.length).length ++ [pos + (tlv id c).length])
  | indefinite (pos : Nat) (id c : List UInt8) (st : List Nat) : IsId id → SeqStops (pos + (id ++ indefOctets).length) c st →
      BerStops pos (id ++ indefOctets ++ c ++ eoc)
        (ticks pos (id ++ indefOctets).length ++ st ++ ticks (pos + (id ++ indefOctets ++ c).length) 2)
/-- The same for values one after the other. -/
inductive SeqStops : Nat → List UInt8 → List Nat → Prop
  | nil (pos : Nat) : SeqStops pos [] []
  | cons (pos : Nat) (v r : List UInt8) (st st' : List Nat) : BerStops pos v st → v ≠ eoc → SeqStops (pos + v.length) r st' →
      SeqStops pos (v ++ r) (st ++ st')
end

/-- An edit of the contents of a value. -/
inductive Edit where
  /-- Octets are appended. -/
  | append (bytes : List UInt8)
  /-- Only so many octets are kept. -/
  | cut (n : Nat)

/-- The contents after an edit. -/
def Edit.run (c : List UInt8) : Edit → List UInt8
  | .append bytes => c ++ bytes
  | .cut n => c.take n

/-- The contents after each edit of a history. -/
def edited : (c : List UInt8) → List Edit → List (List UInt8)
  | _, [] => []
  | c, e :: r => e.run c :: edited (e.run c) r

/-- The contents in the end. -/
def editedAll (c : List UInt8) (es : List Edit) : List UInt8 := es.foldl Edit.run c

end Bsn1.Spec
