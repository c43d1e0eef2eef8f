import Verif.Model.Raw
import Verif.Spec.Buffer
import Verif.Spec.Basic
import Verif.Spec.Tags
import Verif.Spec.Serde
/-!
# Programs that use many values

What a program that builds, parses, changes, converts and drops values of `Der`, `Ber`, `Id` and `Contents` should have (plain lists
of octets), and what it really has (buffers in memory).
-/

namespace Bsn1.Spec
open Bsn1.Buf

/-- What a program has. -/
inductive TVal where
  /-- A `Der`, or a `Ber` of definite length. -/
  | der (id c : Bytes)
  /-- A `Ber` of indefinite length; the end-of-contents, if there, belongs to `c`. -/
  | indef (id c : Bytes)
  /-- An `Id`. -/
  | ident (cls : ClassTag) (pc : PCTag) (n : Nat)
  /-- A `Contents`. -/
  | contents (bs : Bytes)
  /-- A `Vec<u8>`. -/
  | vec (bs : Bytes)
  /-- Nothing: dropped, or never there as the parser returned `Err`. -/
  | gone

/-- The octets of a value. -/
def TVal.octets : TVal → Bytes
  | .der id c => tlv id c
  | .indef id c => id ++ indefOctets ++ c
  | .ident cls pc n => idOctets (classNum cls) (pcNum pc) n
  | .contents bs => bs
  | .vec bs => bs
  | .gone => []

/-- What a program may do.  Objects are numbered in the order of their creation. -/
inductive TOp where
  /-- `Der::new(id, contents)` -/
  | derNew (id c : Bytes)
  /-- `Der::from_id_iterator(id, parts)` -/
  | derFromParts (id : Bytes) (parts : List Bytes)
  /-- `Der::parse(&mut &bs[..])` -/
  | derParse (bs : Bytes)
  /-- `Ber::new_indefinite(id, contents)` -/
  | berNewIndefinite (id c : Bytes)
  /-- `Ber::from_id_iterator_indefinite(id, parts)` -/
  | berFromPartsIndefinite (id : Bytes) (parts : List Bytes)
  /-- `Ber::parse(&mut &bs[..])` -/
  | berParse (bs : Bytes)
  /-- `Id::new(cls, pc, n)` -/
  | idNew (cls : ClassTag) (pc : PCTag) (n : Nat)
  /-- `Id::parse(&mut &bs[..])` -/
  | idParse (bs : Bytes)
  /-- `Contents::from(v)` for an integer of type `t` -/
  | contentsInt (t : IntTy) (v : Int)
  /-- `Contents::from(&[u8])` -/
  | contentsBytes (bs : Bytes)
  /-- `Der::extend_from_slice(bytes)` -/
  | derExtend (i : Nat) (bytes : Bytes)
  /-- `Der::truncate(n)` -/
  | derTruncate (i n : Nat)
  /-- `Ber::extend_from_slice(bytes)` -/
  | berExtend (i : Nat) (bytes : Bytes)
  /-- `Ber::truncate(n)` -/
  | berTruncate (i n : Nat)
  /-- `Id::set_number(n)` -/
  | setNumber (i n : Nat)
  /-- `set_class(cls)` of an `Id`, or of `mut_id()` -/
  | setClass (i : Nat) (cls : ClassTag)
  /-- `set_pc(pc)` of an `Id`, or of `mut_id()` -/
  | setPc (i : Nat) (pc : PCTag)
  /-- `mut_contents().as_mut()[k] = v` -/
  | setContents (i k : Nat) (v : UInt8)
  /-- `Vec::with_capacity(bs.len() + spare)` and `extend_from_slice(bs)` -/
  | makeVec (bs : Bytes) (spare : Nat)
  /-- `from_bytes_unchecked(bs)` of `Der`, `Ber` or `Id` -/
  | fromBytes (bs : Bytes)
  /-- `from_vec_unchecked(..)` of `Der` or `Ber`, or `Contents::from(..)` -/
  | fromVec (i : Nat)
  /-- `Ber::from(..)` of a `Der` -/
  | berFromDer (i : Nat)
  /-- `to_owned()` of the reference to it; `From<&..>` -/
  | toOwned (i : Nat)
  /-- `id().to_owned()` -/
  | idToOwned (i : Nat)
  /-- `contents().to_owned()` -/
  | contentsToOwned (i : Nat)
  /-- `clone()` -/
  | clone (i : Nat)
  /-- `into_vec()` -/
  | intoVec (i : Nat)
  /-- `drop(..)` -/
  | drop (i : Nat)

/-- What a call that makes a value should make.  The conditions are the rules of the program: identifiers are those that the safe
functions make, and nothing has more than `isize::MAX` octets. -/
inductive Makes : TOp → TVal → Prop
  | derNew {id c} : IsId id → (tlv id c).length ≤ isizeMax → Makes (.derNew id c) (.der id c)
  | derFromParts {id parts} : IsId id → (tlv id parts.flatten).length ≤ isizeMax →
      Makes (.derFromParts id parts) (.der id parts.flatten)
  /-- The input starts with a value. -/
  | derParse {id c rest} : IsId id → (tlv id c ++ rest).length ≤ isizeMax → Makes (.derParse (tlv id c ++ rest)) (.der id c)
  /-- It does not; and it announces no length beyond the limit. -/
  | derParseErr {bs} : bs.length ≤ isizeMax → (∀ v rest, IsDer v → bs ≠ v ++ rest) →
      (∀ id n rest, IsId id → n < 2 ^ 64 → bs = id ++ lenOctets n ++ rest → (id ++ lenOctets n).length + n ≤ isizeMax) →
      Makes (.derParse bs) .gone
  | berNewIndefinite {id c} : IsId id → (id ++ indefOctets ++ c).length ≤ isizeMax → Makes (.berNewIndefinite id c) (.indef id c)
  | berFromPartsIndefinite {id parts} : IsId id → (id ++ indefOctets ++ parts.flatten).length ≤ isizeMax →
      Makes (.berFromPartsIndefinite id parts) (.indef id parts.flatten)
  | berParse {id c rest} : IsId id → (tlv id c ++ rest).length ≤ isizeMax → IsBer (tlv id c) →
      Makes (.berParse (tlv id c ++ rest)) (.der id c)
  | berParseIndef {id c rest} : IsId id → (id ++ indefOctets ++ c ++ rest).length ≤ isizeMax → IsBer (id ++ indefOctets ++ c) →
      Makes (.berParse (id ++ indefOctets ++ c ++ rest)) (.indef id c)
  | berParseErr {bs} : bs.length ≤ isizeMax → (∀ v rest, IsBer v → bs ≠ v ++ rest) →
      (∀ p id n q, IsId id → n < 2 ^ 64 → bs = p ++ id ++ lenOctets n ++ q → (p ++ id ++ lenOctets n).length + n ≤ isizeMax) →
      Makes (.berParse bs) .gone
  | idNew {cls pc n} : n < 2 ^ 128 → Makes (.idNew cls pc n) (.ident cls pc n)
  | idParse {cls pc n rest} : (idOctets (classNum cls) (pcNum pc) n ++ rest).length ≤ isizeMax →
      Makes (.idParse (idOctets (classNum cls) (pcNum pc) n ++ rest)) (.ident cls pc n)
  | idParseErr {bs} : bs.length ≤ isizeMax → (∀ v rest, IsId v → bs ≠ v ++ rest) → Makes (.idParse bs) .gone
  | contentsInt {t v} : t.InRange v → Makes (.contentsInt t v) (.contents (intOctets v))
  | contentsBytes {bs} : bs.length ≤ isizeMax → Makes (.contentsBytes bs) (.contents bs)
  | makeVec {bs spare} : bs.length + spare ≤ isizeMax → Makes (.makeVec bs spare) (.vec bs)
  /-- The caller knows that the octets are a value: the rule of the unsafe functions. -/
  | fromBytesDer {id c} : IsId id → (tlv id c).length ≤ isizeMax → Makes (.fromBytes (tlv id c)) (.der id c)
  | fromBytesIndef {id c} : IsId id → (id ++ indefOctets ++ c).length ≤ isizeMax →
      Makes (.fromBytes (id ++ indefOctets ++ c)) (.indef id c)
  | fromBytesId {cls pc n} : (idOctets (classNum cls) (pcNum pc) n).length ≤ isizeMax →
      Makes (.fromBytes (idOctets (classNum cls) (pcNum pc) n)) (.ident cls pc n)

/-- What a call on the `i`-th value should make of it. -/
inductive Changes (i : Nat) : TOp → TVal → TVal → Prop
  | derExtend {id c bytes} : (tlv id (c ++ bytes)).length ≤ isizeMax → Changes i (.derExtend i bytes) (.der id c) (.der id (c ++ bytes))
  | derTruncate {id c n} : Changes i (.derTruncate i n) (.der id c) (.der id (c.take n))
  | berExtend {id c bytes} : (tlv id (c ++ bytes)).length ≤ isizeMax → Changes i (.berExtend i bytes) (.der id c) (.der id (c ++ bytes))
  | berExtendIndef {id c bytes} : (id ++ indefOctets ++ (c ++ bytes)).length ≤ isizeMax →
      Changes i (.berExtend i bytes) (.indef id c) (.indef id (c ++ bytes))
  | berTruncate {id c n} : Changes i (.berTruncate i n) (.der id c) (.der id (c.take n))
  | berTruncateIndef {id c n} : Changes i (.berTruncate i n) (.indef id c) (.indef id (c.take n))
  | setNumber {cls pc n n'} : n' < 2 ^ 128 → Changes i (.setNumber i n') (.ident cls pc n) (.ident cls pc n')
  | setClass {cls cls' pc n} : Changes i (.setClass i cls') (.ident cls pc n) (.ident cls' pc n)
  | setClassDer {cls cls' pc n c} : Changes i (.setClass i cls') (.der (idOctets (classNum cls) (pcNum pc) n) c)
      (.der (idOctets (classNum cls') (pcNum pc) n) c)
  | setClassIndef {cls cls' pc n c} : Changes i (.setClass i cls') (.indef (idOctets (classNum cls) (pcNum pc) n) c)
      (.indef (idOctets (classNum cls') (pcNum pc) n) c)
  | setPc {cls pc pc' n} : Changes i (.setPc i pc') (.ident cls pc n) (.ident cls pc' n)
  | setPcDer {cls pc pc' n c} : Changes i (.setPc i pc') (.der (idOctets (classNum cls) (pcNum pc) n) c)
      (.der (idOctets (classNum cls) (pcNum pc') n) c)
  | setPcIndef {cls pc pc' n c} : Changes i (.setPc i pc') (.indef (idOctets (classNum cls) (pcNum pc) n) c)
      (.indef (idOctets (classNum cls) (pcNum pc') n) c)
  | setContents {id c k v} : k < c.length → Changes i (.setContents i k v) (.der id c) (.der id (c.set k v))
  | setContentsIndef {id c k v} : k < c.length → Changes i (.setContents i k v) (.indef id c) (.indef id (c.set k v))
  | fromVecDer {id c} : IsId id → Changes i (.fromVec i) (.vec (tlv id c)) (.der id c)
  | fromVecIndef {id c} : IsId id → Changes i (.fromVec i) (.vec (id ++ indefOctets ++ c)) (.indef id c)
  | fromVecContents {bs} : Changes i (.fromVec i) (.vec bs) (.contents bs)
  | berFromDer {id c} : Changes i (.berFromDer i) (.der id c) (.der id c)
  | intoVec {v} : v ≠ .gone → (∀ bs, v ≠ .vec bs) → Changes i (.intoVec i) v (.vec v.octets)
  | drop {v} : v ≠ .gone → Changes i (.drop i) v .gone

/-- What a call should do to all that the program has. -/
inductive Does (vals : List TVal) : TOp → List TVal → Prop
  | make {op v} : Makes op v → Does vals op (vals ++ [v])
  | change {i op v v'} : vals[i]? = some v → Changes i op v v' → Does vals op (vals.set i v')
  | clone {i v} : vals[i]? = some v → v ≠ .gone → (∀ bs, v ≠ .vec bs) → Does vals (.clone i) (vals ++ [v])
  | toOwned {i v} : vals[i]? = some v → v ≠ .gone → (∀ bs, v ≠ .vec bs) → Does vals (.toOwned i) (vals ++ [v])
  | idToOwned {i cls pc n c} : vals[i]? = some (.der (idOctets (classNum cls) (pcNum pc) n) c) →
      Does vals (.idToOwned i) (vals ++ [.ident cls pc n])
  | idToOwnedIndef {i cls pc n c} : vals[i]? = some (.indef (idOctets (classNum cls) (pcNum pc) n) c) →
      Does vals (.idToOwned i) (vals ++ [.ident cls pc n])
  | contentsToOwned {i id c} : vals[i]? = some (.der id c) → Does vals (.contentsToOwned i) (vals ++ [.contents c])
  | contentsToOwnedIndef {i id c} : vals[i]? = some (.indef id c) → Does vals (.contentsToOwned i) (vals ++ [.contents c])

variable {I : Impl}

/-- What a parser leaves. -/
def parsedObj {σ : Type} : Except Error I.B × σ → Obj I
  | (.ok b, _) => .buf b
  | (.error _, _) => .gone

/-- One more value, made from the `i`-th buffer. -/
def addFrom (objs : List (Obj I)) (i : Nat) (f : I.B → M I.B) : M (List (Obj I)) :=
  match objs[i]? with
  | some (.buf b) => do
    let c ← f b
    return objs ++ [.buf c]
  | _ => M.ub

/-- What a call really does. -/
def tstep (m : Build) (al : Allocator) (objs : List (Obj I)) : TOp → M (List (Obj I))
  | .derNew id c => do return objs ++ [.buf (← Raw.Der.new I m al id c)]
  | .derFromParts id parts => do return objs ++ [.buf (← Raw.Der.fromIdIterator I m al id parts)]
  | .derParse bs => do return objs ++ [parsedObj (← Raw.Der.parse I m al Raw.honestRead bs)]
  | .berNewIndefinite id c => do return objs ++ [.buf (← Raw.Ber.newIndefinite I m al id c)]
  | .berFromPartsIndefinite id parts => do return objs ++ [.buf (← Raw.Ber.fromIdIteratorIndefinite I m al id parts)]
  | .berParse bs => do return objs ++ [parsedObj (← Raw.Ber.parse I m al Raw.honestReadExact bs)]
  | .idNew cls pc n => do return objs ++ [.buf (← Raw.Id.new I m al cls pc n)]
  | .idParse bs => do return objs ++ [parsedObj (← Raw.Id.parse I m al bs)]
  | .contentsInt t v => do return objs ++ [.buf (← Raw.Contents.ofInt I m al t v)]
  | .contentsBytes bs => do return objs ++ [.buf (← I.fromSlice m al bs)]
  | .derExtend i bytes => onBuf objs i fun b => do return .buf (← Raw.Der.extendFromSlice I m al b bytes)
  | .derTruncate i n => onBuf objs i fun b => do return .buf (← Raw.Der.truncate I m b n)
  | .berExtend i bytes => onBuf objs i fun b => do return .buf (← Raw.Ber.extendFromSlice I m al b bytes)
  | .berTruncate i n => onBuf objs i fun b => do return .buf (← Raw.Ber.truncate I m b n)
  | .setNumber i n => onBuf objs i fun b => do return .buf (← Raw.Id.setNumber I m al b n)
  | .setClass i cls => onBuf objs i fun b => do return .buf (← Raw.Id.setClass I b cls)
  | .setPc i pc => onBuf objs i fun b => do return .buf (← Raw.Id.setPc I b pc)
  | .setContents i k v => onBuf objs i fun b => do return .buf (← Raw.setContents I b k v)
  | .makeVec bs spare => do return objs ++ [.vec (← mkVec al bs spare)]
  | .fromBytes bs => do return objs ++ [.buf (← Raw.fromBytesUnchecked I m al bs)]
  | .fromVec i => match objs[i]? with
    | some (.vec v) => return objs.set i (.buf (Raw.fromVecUnchecked I v))
    | _ => M.ub
  | .berFromDer i => onBuf objs i fun b => return .buf (Raw.Ber.fromDer I b)
  | .toOwned i => addFrom objs i (Raw.toOwned I m al)
  | .idToOwned i => addFrom objs i (Raw.idToOwned I m al)
  | .contentsToOwned i => addFrom objs i (Raw.contentsToOwned I m al)
  | .clone i => addFrom objs i (I.clone m al)
  | .intoVec i => onBuf objs i fun b => do return .vec (← Raw.intoVec I al b)
  | .drop i => match objs[i]? with
    | some (.buf b) => do
      I.drop b
      return objs.set i .gone
    | some (.vec v) => do
      dropVec v
      return objs.set i .gone
    | _ => M.ub

/-- What programs can get to, with what they should have. -/
inductive THistory (I : Impl) (m : Build) (al : Allocator) (h0 : Heap) : List (Obj I) → Heap → List TVal → Prop
  | start : THistory I m al h0 [] h0 []
  | step {objs h vals op vals' objs' h'} : THistory I m al h0 objs h vals → Does vals op vals' → tstep m al objs op h = .ok objs' h' →
      THistory I m al h0 objs' h' vals'

/-- The object has exactly these octets, all initialised; a vector is a vector, and nothing is nothing. -/
def HoldsVal (o : Obj I) (h : Heap) (v : TVal) : Prop :=
  match o, v with
  | .buf _, .vec _ => False
  | .buf _, .gone => False
  | .buf b, v => I.cells b h = .ok (v.octets.map some) h
  | .vec r, .vec bs => vecCells r h = .ok (bs.map some) h
  | .vec _, _ => False
  | .gone, .gone => True
  | .gone, _ => False

end Bsn1.Spec
