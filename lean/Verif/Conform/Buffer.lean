import Verif.Conform.Length
import Verif.Model.Buffer
import Verif.Model.Compare
/-!
# The tests of the crate, on the model: bsn1/src/buffer/tests.rs:25-145, length_buffer.rs:103-129

See `Verif/Conform/Length.lean`.  Both implementations of `Buffer` are run, in both builds, with an allocator that gives a new address at each call and
memory that is not initialised.  Of the loops some turns are taken.
-/

namespace Bsn1.Conform
open Buf

/-- A new address at each call -/
def fresh : Allocator := fun clock _ size => some (1000 * (clock + 1), List.replicate size none)

/-- No allocation yet -/
def noHeap : Heap := ⟨fun _ => none, 0⟩

/-- The check that the function makes holds when it is run. -/
def passes (f : M Bool) : Bool :=
  match f noHeap with
  | .ok b _ => b
  | _ => false

/-- A check of the two implementations in both builds, with their initial capacities -/
def both (f : (I : Impl) → (init : Nat) → Build → M Bool) : Bool :=
  [Build.debug, .release].all fun m => passes (f little LE.INIT_CAPACITY m) && passes (f universal UE.INIT_CAPACITY m)

/-- `as_slice()` is these octets and `capacity()` is this. -/
def holds (I : Impl) (b : I.B) (vals : Bytes) (cap : Nat) : M Bool := do
  let c ← I.cells b
  let k ← I.capacity b
  return decide (c = vals.map some) && I.len b == vals.length && k == cap

/-- `Vec::from_iter(0..n)` -/
def firstOctets (n : Nat) : Bytes := (List.range n).map UInt8.ofNat

/-- new -/
example : both (fun I init _ => holds I I.new [] init) = true := by decide +kernel
/-- with_capacity -/
example : [0, 1, 15, 16, 17, 22, 23, 24, 50, 99].all (fun i => both fun I init m => do
    let b ← I.withCapacity m fresh i
    holds I b [] (max init i)) = true := by decide +kernel
/-- reserve -/
example : [0, 1, 15, 16, 17, 22, 23, 24, 39].all (fun i => both fun I init m => do
    let b ← I.reserve m fresh I.new i
    holds I b [] (max init i)) = true := by decide +kernel
example : [0, 1, 14, 15, 16, 17, 21, 22, 23, 24, 39].all (fun i => both fun I init m => do
    let b ← I.fromSlice m fresh [1]
    let b ← I.reserve m fresh b i
    holds I b [1] (max init (i + 1))) = true := by decide +kernel
example : [0, 1, 39].all (fun i => both fun I init m => do
    let b ← I.fromSlice m fresh (firstOctets 200)
    let b ← I.reserve m fresh b i
    holds I b (firstOctets 200) (max init (i + 200))) = true := by decide +kernel

/-- `v.iter().for_each(|&c| unsafe { buffer.push(c) })` -/
def pushAll (I : Impl) (m : Build) : Bytes → I.B → M I.B
  | [], b => pure b
  | c :: r, b => do
    let b ← I.push m b c
    pushAll I m r b

/-- push -/
example : [0, 1, 2, 15].all (fun i => both fun I init m => do
    let b ← pushAll I m (firstOctets i) I.new
    holds I b (firstOctets i) init) = true := by decide +kernel
example : passes (do
    let b ← pushAll little .debug (firstOctets 22) LE.new
    holds little b (firstOctets 22) LE.INIT_CAPACITY) = true := by decide +kernel
example : [0, 1, 16, 17, 23, 24, 60].all (fun i => both fun I init m => do
    let b ← I.withCapacity m fresh i
    let b ← pushAll I m (firstOctets i) b
    holds I b (firstOctets i) (max init i)) = true := by decide +kernel

/-- `n` turns of: `reserve(10)`, append ten octets `i` -/
def tenEach (I : Impl) (m : Build) : Nat → M I.B
  | 0 => pure I.new
  | i + 1 => do
    let b ← tenEach I m i
    let b ← I.reserve m fresh b 10
    I.extend m b (List.replicate 10 (UInt8.ofNat i))

/-- extend_from_slice -/
example : [1, 2, 3, 8].all (fun n => both fun I _ m => do
    let b ← tenEach I m n
    let c ← I.cells b
    return decide (c = ((List.range n).flatMap fun i => List.replicate 10 (UInt8.ofNat i)).map some)) = true := by decide +kernel
/-- from_empty_vec -/
example : both (fun I init _ => do
    let v ← mkVec fresh [] 0
    holds I (I.fromVec v) [] init) = true := by decide +kernel
/-- from_capacity_vec -/
example : [1, 2, 16, 23, 24, 99].all (fun i => both fun I _ _ => do
    let v ← mkVec fresh [] i
    holds I (I.fromVec v) [] v.cap) = true := by decide +kernel
/-- from_filled_vec -/
example : [1, 2, 16, 23, 24, 255].all (fun i => both fun I _ _ => do
    let v ← mkVec fresh (firstOctets i) 0
    holds I (I.fromVec v) (firstOctets i) v.cap) = true := by decide +kernel
/-- into_vec -/
example : [1, 2, 15, 16, 17, 22, 23, 24, 255].all (fun i => both fun I _ m => do
    let b ← I.fromSlice m fresh (firstOctets i)
    let v ← I.intoVec fresh b
    let c ← load v.ptr 0 v.len
    return decide (c = (firstOctets i).map some)) = true := by decide +kernel

/-- length_buffer.rs: new -/
example : LengthBuffer.new.len = 0 := by decide +kernel

/-- `for i in 0..n { buffer.push(i) }`, with the checks after each turn -/
def pushLength (m : Build) : Nat → Option LengthBuffer
  | 0 => some LengthBuffer.new
  | i + 1 =>
    match pushLength m i with
    | some b =>
      if b.len = i then
        match b.push m (UInt8.ofNat i) with
        | .ok b => if b.deref = .ok (firstOctets (i + 1)) then some b else none
        | _ => none
      else none
    | none => none

/-- length_buffer.rs: push -/
example : [Build.debug, .release].all (fun m =>
    match pushLength m Length.bufferCapacity with
    | some b => b.capacity == b.len
    | none => false) = true := by decide +kernel

end Bsn1.Conform
