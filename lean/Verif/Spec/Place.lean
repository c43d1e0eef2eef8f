import Verif.Spec.Document
import Verif.Model.InPlace
/-!
# Values inside of documents, found and changed in place

A path says which value is meant: which of the values, counted from 0, then which of the values inside that one, and so on.
-/

namespace Bsn1.Spec

mutual
/-- The document at a path. -/
def Doc.at : Doc → List Nat → Option Doc
  | d, [] => some d
  | .leaf _ _, _ :: _ => none
  | .node _ _ cs, i :: p => cs.at (i :: p)
/-- The same in a list of documents; the empty path leads nowhere. -/
def Docs.at : Docs → List Nat → Option Doc
  | .nil, _ => none
  | .cons _ _, [] => none
  | .cons d _, 0 :: p => d.at p
  | .cons _ r, (i + 1) :: p => r.at (i :: p)
end

mutual
/-- Another document `e` in the place of the one at the path. -/
def Doc.put (e : Doc) : Doc → List Nat → Doc
  | _, [] => e
  | .leaf id c, _ :: _ => .leaf id c
  | .node id indef cs, i :: p => .node id indef (Docs.put e cs (i :: p))
/-- The same in a list of documents. -/
def Docs.put (e : Doc) : Docs → List Nat → Docs
  | .nil, _ => .nil
  | .cons d r, [] => .cons d r
  | .cons d r, 0 :: p => .cons (Doc.put e d p) r
  | .cons d r, (i + 1) :: p => .cons d (Docs.put e r (i :: p))
end

mutual
/-- The document at the path is directly inside a value of indefinite length (`b`: this one is). -/
def Doc.inIndefinite (b : Bool) : Doc → List Nat → Bool
  | _, [] => b
  | .leaf _ _, _ :: _ => false
  | .node _ indef cs, i :: p => cs.inIndefinite indef (i :: p)
/-- The same in a list of documents. -/
def Docs.inIndefinite (b : Bool) : Docs → List Nat → Bool
  | .nil, _ => false
  | .cons _ _, [] => false
  | .cons d _, 0 :: p => d.inIndefinite b p
  | .cons _ r, (i + 1) :: p => r.inIndefinite b (i :: p)
end

/-- The identifier octets. -/
def Doc.ident : Doc → List UInt8
  | .leaf id _ => id
  | .node id _ _ => id

/-- Other identifier octets, all else as before. -/
def Doc.withIdent (id : List UInt8) : Doc → Doc
  | .leaf _ c => .leaf id c
  | .node _ indef cs => .node id indef cs

/-- What a user can do with a `&mut BerRef` or `&mut DerRef`. -/
inductive Touch where
  /-- `mut_id().set_class(c)` -/
  | setClass (c : ClassTag)
  /-- `mut_id().set_pc(p)` -/
  | setPc (p : PCTag)
  /-- `mut_contents()[k] = b` -/
  | setAt (k : Nat) (b : UInt8)
  /-- `mut_contents().as_mut().copy_from_slice(src)` -/
  | copy (src : List UInt8)

/-- On a `&mut BerRef`. -/
def Touch.ber : Touch → List UInt8 → Res (List UInt8)
  | .setClass c, v => BerRef.setClass v c
  | .setPc p, v => BerRef.setPc v p
  | .setAt k b, v => BerRef.setContentsAt v k b
  | .copy src, v => BerRef.copyContents v src

/-- On a `&mut DerRef`. -/
def Touch.der : Touch → List UInt8 → Res (List UInt8)
  | .setClass c, v => DerRef.setClass v c
  | .setPc p, v => DerRef.setPc v p
  | .setAt k b, v => DerRef.setContentsAt v k b
  | .copy src, v => DerRef.copyContents v src

/-- A part of the next programs: `parse` is called `i` times, then once more, and `k` is done with the value.  `parse` is `parse_mut`, which takes
the value off a `&mut &mut [u8]`; what `k` makes of the value stands in its place afterwards. -/
def atIndex (parse : List UInt8 → Res (List UInt8) × List UInt8) (k : List UInt8 → Res (List UInt8)) : Nat → List UInt8 → Res (List UInt8)
  | 0, bytes =>
    match parse bytes with
    | (.ok v, rest) => do
      let v' ← k v
      return v' ++ rest
    | (.err e, _) => .err e
    | (.panic, _) => .panic
    | (.ub, _) => .ub
  | i + 1, bytes =>
    match parse bytes with
    | (.ok v, rest) => do
      let rest' ← atIndex parse k i rest
      return v ++ rest'
    | (.err e, _) => .err e
    | (.panic, _) => .panic
    | (.ub, _) => .ub

/-- A part of the next programs: `k` is done with `mut_contents()`, without the end-of-contents if the length is indefinite. -/
def inContents (disassemble : List UInt8 → Res (List UInt8 × Length × List UInt8)) (k : List UInt8 → Res (List UInt8)) (v : List UInt8) :
    Res (List UInt8) := do
  let (_, length, contents) ← disassemble v
  let n := match length with
    | .indefinite => contents.length - BerRef.eoc.length
    | .definite _ => contents.length
  let c ← k (contents.take n)
  return v.take (v.length - contents.length) ++ c ++ contents.drop n

/-- A user's program: the value at the path is searched for with `BerRef::parse_mut` and `mut_contents`, and `k` is done with it.  The result is what
the octets are afterwards. -/
def onBer (k : List UInt8 → Res (List UInt8)) : List Nat → List UInt8 → Res (List UInt8)
  | [], bytes => .ok bytes
  | [i], bytes => atIndex BerRef.parseMut k i bytes
  | i :: j :: p, bytes => atIndex BerRef.parseMut (inContents BerRef.disassemble (onBer k (j :: p))) i bytes

/-- The same program with `DerRef`. -/
def onDer (k : List UInt8 → Res (List UInt8)) : List Nat → List UInt8 → Res (List UInt8)
  | [], bytes => .ok bytes
  | [i], bytes => atIndex DerRef.parseMut k i bytes
  | i :: j :: p, bytes => atIndex DerRef.parseMut (inContents DerRef.disassemble (onDer k (j :: p))) i bytes

end Bsn1.Spec
