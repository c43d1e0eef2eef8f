import Verif.Model.Unwind
import Verif.Spec.Raw
/-!
# What a panic may leave behind

Nothing: the blocks of memory are those there were before, and what the caller owns has not changed.
-/

namespace Bsn1.Spec
open Bsn1.Buf Bsn1.Raw

variable {I : Impl} {α : Type}

/-- Dropping the value frees what making it allocated, and nothing else. -/
def Returns (I : Impl) (h : Heap) (b : I.B) (h' : Heap) : Prop := ∃ h'', I.drop b h' = .ok () h'' ∧ h''.blocks = h.blocks

/-- A function that makes a value, of which `x` is the model that stops at panics: it ends as `x` does, or panics because code of the caller did; if it
panics, for whatever reason, the blocks are as before. -/
def NoTrace (u : U I.B) (x : M I.B) (h : Heap) : Prop :=
  match u h with
  | .ok b h' => x h = .ok b h' ∧ Returns I h b h'
  | .unwind h' => h'.blocks = h.blocks
  | .abort => x h = .abort
  | .ub => x h = .ub

/-- The same for a parser; if it returns an error, the blocks are as before too. -/
def NoTraceParse {σ : Type} (u : U (Except Error I.B × σ)) (x : M (Except Error I.B × σ)) (h : Heap) : Prop :=
  match u h with
  | .ok (.ok b, s) h' => x h = .ok (.ok b, s) h' ∧ Returns I h b h'
  | .ok (.error e, s) h' => x h = .ok (.error e, s) h' ∧ h'.blocks = h.blocks
  | .unwind h' => h'.blocks = h.blocks
  | .abort => x h = .abort
  | .ub => x h = .ub

/-- The same for a serializer, whose model `x` has the panics of the caller's code. -/
def NoTraceSer (u : U (Except Error I.B)) (x : M (Except Error I.B)) (h : Heap) : Prop :=
  match u h with
  | .ok (.ok b) h' => x h = .ok (.ok b) h' ∧ Returns I h b h'
  | .ok (.error e) h' => x h = .ok (.error e) h' ∧ h'.blocks = h.blocks
  | .unwind h' => x h = .panic ∧ h'.blocks = h.blocks
  | .abort => x h = .abort
  | .ub => x h = .ub

/-- A method: it ends as `x` does, and if it panics the struct and the blocks are as before. -/
def NoTraceMut (u : Meth I.B Unit) (b : I.B) (x : M I.B) (h : Heap) : Prop :=
  match u b h with
  | .ok () b' h' => x h = .ok b' h'
  | .unwind b' h' => x h = .panic ∧ b' = b ∧ h'.blocks = h.blocks
  | .abort => x h = .abort
  | .ub => x h = .ub

/-- Calls that make a value, with code of the caller that may panic. -/
inductive Making (V : UImpl I) (m : Build) (al : Allocator) : {α : Type} → U α → Prop
  | derNew (id contents : Bytes) : Making V m al (Raw.Der.newU V m al id contents)
  | derWithIdLength (id : Bytes) (n : Nat) : Making V m al (Raw.Der.withIdLengthU V m al id n)
  | derFromIdIterator (id : Bytes) (counted parts : List Bytes × Bool) : Making V m al (Raw.Der.fromPassesU V m al id counted parts)
  | derParse {σ : Type} [Reader σ] (p : IoKind → Bool) (rd : Nat → σ → ReadEffect σ) (s : σ) : Making V m al (Raw.Der.parseU V m al p rd s)
  | berNewIndefinite (id contents : Bytes) : Making V m al (Raw.Ber.newIndefiniteU V m al id contents)
  | berWithIdLengthIndefinite (id : Bytes) (n : Nat) : Making V m al (Raw.Ber.withIdLengthIndefiniteU V m al id n)
  | berFromIdIteratorIndefinite (id : Bytes) (counted parts : List Bytes × Bool) :
      Making V m al (Raw.Ber.fromPassesIndefiniteU V m al id counted parts)
  | berParse {σ : Type} [Reader σ] (p : IoKind → Bool) (rd : Nat → σ → ReadEffect σ) (s : σ) : Making V m al (Raw.Ber.parseU V m al p rd s)
  | idParse {σ : Type} [Reader σ] (p : IoKind → Bool) (s : σ) : Making V m al (Raw.Id.parseU V m al p s)
  | toDer {α : Type} (s : Ser α) (value : α) : (∀ c ∈ (s.writeId value).chunks, c.length ≤ isizeMax) →
      (∀ c ∈ (s.writeDerContents value).chunks, c.length ≤ isizeMax) → (∀ n, s.derContentsLen value = .ok (some n) → n < 2 ^ 64) →
      Making V m al (Raw.toDerU V m al s value)

/-- Calls of methods of a value, and what `Model/Raw` has for them.  (No slice is longer than `isize::MAX`.) -/
inductive Editing (V : UImpl I) (m : Build) (al : Allocator) : TVal → Meth I.B Unit → (I.B → M I.B) → Prop
  | derExtend {id c : Bytes} (bytes : Bytes) : bytes.length ≤ isizeMax →
      Editing V m al (.der id c) (Raw.Der.extendFromSliceU V m al bytes) (Raw.Der.extendFromSlice I m al · bytes)
  | derTruncate {id c : Bytes} (n : Nat) : Editing V m al (.der id c) (Raw.Der.truncateU V m n) (Raw.Der.truncate I m · n)
  | berExtend {id c : Bytes} (bytes : Bytes) : bytes.length ≤ isizeMax →
      Editing V m al (.der id c) (Raw.Ber.extendFromSliceU V m al bytes) (Raw.Ber.extendFromSlice I m al · bytes)
  | berTruncate {id c : Bytes} (n : Nat) : Editing V m al (.der id c) (Raw.Ber.truncateU V m n) (Raw.Ber.truncate I m · n)
  | berExtendIndefinite {id c : Bytes} (bytes : Bytes) : bytes.length ≤ isizeMax →
      Editing V m al (.indef id c) (Raw.Ber.extendFromSliceU V m al bytes) (Raw.Ber.extendFromSlice I m al · bytes)
  | berTruncateIndefinite {id c : Bytes} (n : Nat) : Editing V m al (.indef id c) (Raw.Ber.truncateU V m n) (Raw.Ber.truncate I m · n)
  | setNumber {cls : ClassTag} {pc : PCTag} {old : Nat} (n : Nat) : n < 2 ^ 128 →
      Editing V m al (.ident cls pc old) (Raw.Id.setNumberU V m al n) (Raw.Id.setNumber I m al · n)

/-- What programs can get to that catch panics and go on. -/
inductive CHistory (V : UImpl I) (m : Build) (al : Allocator) (h0 : Heap) : List (Obj I) → Heap → List TVal → Prop
  | start : CHistory V m al h0 [] h0 []
  | step {objs h vals op vals' objs' h'} : CHistory V m al h0 objs h vals → Does vals op vals' → tstep m al objs op h = .ok objs' h' →
      CHistory V m al h0 objs' h' vals'
  | caught {objs h vals h'} {α : Type} {u : U α} : CHistory V m al h0 objs h vals → Making V m al u → u h = .unwind h' →
      CHistory V m al h0 objs h' vals
  | caughtMut {objs h vals i v b u x b' h'} : CHistory V m al h0 objs h vals → vals[i]? = some v → objs[i]? = some (.buf b) →
      Editing V m al v u x → u b h = .unwind b' h' → CHistory V m al h0 (objs.set i (.buf b')) h' vals

end Bsn1.Spec
