import Verif.Model.Buffer
/-!
# What buffers should do: ordinary vectors, and programs that use many of them
-/

namespace Bsn1.Spec

/-- An ordinary growable vector, with what is known of its storage from the beginning (`none`: unspecified).  The first `len` cells
are the elements. -/
structure AVec where
  mem : List (Option UInt8)
  len : Nat

namespace AVec

/-- The elements. -/
def contents (v : AVec) : List (Option UInt8) := v.mem.take v.len

/-- A vector with these octets. -/
def ofBytes (vals : Bytes) : AVec := ⟨vals.map some, vals.length⟩

/-- At least `n` cells, those not known being unspecified. -/
def pad (mem : List (Option UInt8)) (n : Nat) : List (Option UInt8) := mem ++ List.replicate (n - mem.length) none

/-- The octets from the offset on are replaced. -/
def overwrite (mem : List (Option UInt8)) (off : Nat) (vals : Bytes) : List (Option UInt8) :=
  (pad mem off).take off ++ vals.map some ++ mem.drop (off + vals.length)

/-- The octets are appended. -/
def append (v : AVec) (vals : Bytes) : AVec := ⟨overwrite v.mem v.len vals, v.len + vals.length⟩

/-- The length is changed. -/
def setLen (v : AVec) (n : Nat) : AVec := ⟨pad v.mem n, n⟩

/-- Only the elements survive. -/
def trim (v : AVec) : AVec := ⟨v.contents, v.len⟩

theorem pad_take (mem : List (Option UInt8)) (n : Nat) (h : n ≤ mem.length) : (pad mem n).take n = mem.take n := by
  rw [pad, Nat.sub_eq_zero_of_le h, List.replicate_zero, List.append_nil]

/-- On the elements, these are the usual operations on lists: appending, ... -/
theorem contents_append (v : AVec) (vals : Bytes) (h : v.len ≤ v.mem.length) :
    (v.append vals).contents = v.contents ++ vals.map some := by
  have hl : (v.mem.take v.len ++ vals.map some).length = v.len + vals.length := by simp; omega
  simp only [contents, append, overwrite]
  rw [pad_take _ _ h, List.take_append_of_le_length (by omega), List.take_of_length_le (by omega)]

/-- ... cutting off, ... -/
theorem contents_setLen (v : AVec) (n : Nat) (h : n ≤ v.len) (hl : v.len ≤ v.mem.length) :
    (v.setLen n).contents = v.contents.take n := by
  simp only [contents, setLen]
  rw [pad_take _ _ (by omega), List.take_take, Nat.min_eq_left h]

/-- ... and replacing an element. -/
theorem contents_overwrite (v : AVec) (k : Nat) (x : UInt8) (h : k < v.len) (hl : v.len ≤ v.mem.length) :
    (AVec.mk (overwrite v.mem k [x]) v.len).contents = v.contents.set k (some x) := by
  simp only [contents, overwrite]
  rw [pad_take _ _ (by omega)]
  apply List.ext_getElem?
  intro j
  have h1 : (v.mem.take k).length = k := by simp; omega
  simp only [List.map_cons, List.map_nil, List.length_singleton, List.getElem?_take, List.getElem?_set, List.append_assoc]
  by_cases hj : j < v.len
  · rw [if_pos hj, if_pos hj]
    rcases Nat.lt_trichotomy j k with hlt | rfl | hgt
    · rw [List.getElem?_append_left (by omega), List.getElem?_take, if_pos hlt, if_neg (by omega)]
    · rw [List.getElem?_append_right (by omega), h1, if_pos rfl, if_pos (by simp; omega)]
      simp
    · rw [List.getElem?_append_right (by omega), h1, if_neg (by omega), List.getElem?_append_right (by simp; omega),
        List.getElem?_drop]
      simp only [List.length_singleton]
      congr 1
      omega
  · rw [if_neg hj, if_neg hj, if_neg (by omega)]

end AVec

/-- What a program has. -/
inductive AObj where
  | buf (v : AVec)
  | vec (v : AVec)
  | gone

/-- What a program may do.  Objects are numbered in the order of their creation. -/
inductive BufOp where
  /-- `Buffer::new()` -/
  | new
  /-- `Buffer::with_capacity(n)` -/
  | withCapacity (n : Nat)
  /-- `Buffer::from(&[u8])` -/
  | fromSlice (vals : Bytes)
  /-- A new `Vec`. -/
  | makeVec (vals : Bytes) (spare : Nat)
  /-- `Buffer::from(Vec<u8>)` -/
  | fromVec (i : Nat)
  /-- `push(v)` -/
  | push (i : Nat) (v : UInt8)
  /-- `extend_from_slice(vals)` -/
  | extend (i : Nat) (vals : Bytes)
  /-- `Write::write(vals)` -/
  | write (i : Nat) (vals : Bytes)
  /-- `reserve(n)` -/
  | reserve (i : Nat) (n : Nat)
  /-- `set_len(n)` -/
  | setLen (i : Nat) (n : Nat)
  /-- Writing `vals` to `as_mut_ptr().add(off)`. -/
  | poke (i : Nat) (off : Nat) (vals : Bytes)
  /-- `buffer[k] = v` -/
  | setAt (i : Nat) (k : Nat) (v : UInt8)
  /-- `clone()` -/
  | clone (i : Nat)
  /-- `into_vec()` -/
  | intoVec (i : Nat)
  /-- `drop(..)` -/
  | drop (i : Nat)

/-- The same function on a buffer. -/
def AObj.map (f : AVec → AVec) : AObj → AObj
  | .buf v => .buf (f v)
  | .vec v => .vec v
  | .gone => .gone

/-- What a program does to ordinary vectors. -/
def absStep (abs : List AObj) : BufOp → List AObj
  | .new => abs ++ [.buf ⟨[], 0⟩]
  | .withCapacity _ => abs ++ [.buf ⟨[], 0⟩]
  | .fromSlice vals => abs ++ [.buf (.ofBytes vals)]
  | .makeVec vals _ => abs ++ [.vec (.ofBytes vals)]
  | .fromVec i => abs.modify i fun
    | .vec v => .buf v
    | o => o
  | .push i v => abs.modify i (.map (·.append [v]))
  | .extend i vals => abs.modify i (.map (·.append vals))
  | .write i vals => abs.modify i (.map (·.trim.append vals))
  | .reserve i _ => abs.modify i (.map (·.trim))
  | .setLen i n => abs.modify i (.map (·.setLen n))
  | .poke i off vals => abs.modify i (.map fun v => ⟨AVec.overwrite v.mem off vals, v.len⟩)
  | .setAt i k x => abs.modify i (.map fun v => ⟨AVec.overwrite v.mem k [x], v.len⟩)
  | .clone i => match abs[i]? with
    | some (.buf v) => abs ++ [.buf v.trim]
    | _ => abs
  | .intoVec i => abs.modify i fun
    | .buf v => .vec v.trim
    | o => o
  | .drop i => abs.modify i fun _ => .gone

open Bsn1.Buf

/-- What a program really has. -/
inductive Obj (I : Impl) where
  | buf (b : I.B)
  | vec (v : RVec)
  | gone

variable {I : Impl}

/-- A function of a buffer is called.  (There is no such buffer: such a program does not compile.) -/
def onBuf (objs : List (Obj I)) (i : Nat) (f : I.B → M (Obj I)) : M (List (Obj I)) :=
  match objs[i]? with
  | some (.buf b) => do
    let o ← f b
    return objs.set i o
  | _ => M.ub

/-- What a program really does. -/
def step (m : Build) (al : Allocator) (objs : List (Obj I)) : BufOp → M (List (Obj I))
  | .new => pure (objs ++ [.buf I.new])
  | .withCapacity n => do
    let b ← I.withCapacity m al n
    return objs ++ [.buf b]
  | .fromSlice vals => do
    let b ← I.fromSlice m al vals
    return objs ++ [.buf b]
  | .makeVec vals spare => do
    let v ← mkVec al vals spare
    return objs ++ [.vec v]
  | .fromVec i => match objs[i]? with
    | some (.vec v) => pure (objs.set i (.buf (I.fromVec v)))
    | _ => M.ub
  | .push i v => onBuf objs i fun b => do return .buf (← I.push m b v)
  | .extend i vals => onBuf objs i fun b => do return .buf (← I.extend m b vals)
  | .write i vals => onBuf objs i fun b => do return .buf (← I.write m al b vals)
  | .reserve i n => onBuf objs i fun b => do return .buf (← I.reserve m al b n)
  | .setLen i n => onBuf objs i fun b => do return .buf (← I.setLenChecked m b n)
  | .poke i off vals => onBuf objs i fun b => do return .buf (← I.poke b off vals)
  | .setAt i k v => onBuf objs i fun b => do return .buf (← I.setAt b k v)
  | .clone i => match objs[i]? with
    | some (.buf b) => do
      let c ← I.clone m al b
      return objs ++ [.buf c]
    | _ => M.ub
  | .intoVec i => onBuf objs i fun b => do return .vec (← I.intoVec al b)
  | .drop i => match objs[i]? with
    | some (.buf b) => do
      I.drop b
      return objs.set i .gone
    | some (.vec v) => do
      dropVec v
      return objs.set i .gone
    | _ => M.ub

/-- The buffer at `i`, and its capacity. -/
def HasCap (objs : List (Obj I)) (h : Heap) (i : Nat) (b : I.B) (cap : Nat) : Prop :=
  objs[i]? = some (.buf b) ∧ I.capacity b h = .ok cap h

/-- The rules of a program: it uses only what it has, keeps the rules of the `unsafe` functions, does not index out of bounds, does
not read what is not initialised, and does not ask for more than `isize::MAX` octets. -/
def Allowed (objs : List (Obj I)) (h : Heap) (abs : List AObj) : BufOp → Prop
  | .new => True
  | .withCapacity n => n ≤ isizeMax
  | .fromSlice vals => vals.length ≤ isizeMax
  | .makeVec vals spare => vals.length + spare ≤ isizeMax
  | .fromVec i => ∃ v, objs[i]? = some (.vec v)
  | .push i _ => ∃ b cap, HasCap objs h i b cap ∧ I.len b < cap
  | .extend i vals => ∃ b cap, HasCap objs h i b cap ∧ I.len b + vals.length ≤ cap
  | .write i vals => ∃ b, objs[i]? = some (.buf b) ∧ I.len b + vals.length ≤ isizeMax
  | .reserve i n => ∃ b, objs[i]? = some (.buf b) ∧ I.len b + n ≤ isizeMax
  | .setLen i n => ∃ b cap, HasCap objs h i b cap ∧ n ≤ cap
  | .poke i off vals => ∃ b cap, HasCap objs h i b cap ∧ off + vals.length ≤ cap
  | .setAt i k _ => ∃ b, objs[i]? = some (.buf b) ∧ k < I.len b
  | .clone i => ∃ b v, objs[i]? = some (.buf b) ∧ abs[i]? = some (.buf v) ∧ none ∉ v.contents
  | .intoVec i => ∃ b, objs[i]? = some (.buf b)
  | .drop i => ∃ o, objs[i]? = some o ∧ o ≠ .gone

/-- What programs that keep the rules can get to, with what they would have with ordinary vectors. -/
inductive History (I : Impl) (m : Build) (al : Allocator) (h0 : Heap) : List (Obj I) → Heap → List AObj → Prop
  | start : History I m al h0 [] h0 []
  | step {objs h abs op objs' h'} : History I m al h0 objs h abs → Allowed objs h abs op → step m al objs op h = .ok objs' h' →
      History I m al h0 objs' h' (absStep abs op)

/-- The block that a buffer of the little-endian layout owns. -/
def ownerLE (b : LE) : Option Nat := if b.isStack then none else some b.data_

/-- The block that a buffer of the other layout owns. -/
def ownerUE (b : UE) : Option Nat :=
  match b.buffer_ with
  | .stack _ => none
  | .heap p _ => some p

/-- The block that an object owns. -/
def Obj.owner (ow : I.B → Option Nat) : Obj I → Option Nat
  | .buf b => ow b
  | .vec v => if v.cap = 0 then none else some v.ptr
  | .gone => none

/-- The elements of a `Vec`. -/
def vecCells (v : RVec) : M (List Cell) := if v.cap = 0 then pure [] else load v.ptr 0 v.len

/-- As many cells, with the octets that are specified. -/
def Shows (spec cells : List (Option UInt8)) : Prop :=
  cells.length = spec.length ∧ ∀ (i : Nat) (v : UInt8), spec[i]? = some (some v) → cells[i]? = some (some v)

end Bsn1.Spec
