/-!
# Aliasing: what the language allows pointers to do

Rust does not only ask that accesses stay inside of allocated memory; a write has to go through a pointer that is allowed to write,
and references that are still used must not be invalidated.  There are two precise versions of these rules, Stacked Borrows
(Jung, Dang, Kang, Dreyer, POPL 2020) and Tree Borrows (Villani, Hostert, Dreyer, Jung, PLDI 2025).  Both are defined here, one octet
of memory at a time: what a sequence of events at that octet does to its state, `none` for undefined behaviour.  They are the
specification; nothing here knows the code.

Simplified: octets are not interior mutable (`u8` is not); a reference that is made and at once passed to a function is one event;
the access that Tree Borrows makes when a protector ends is left out.
-/

namespace Bsn1.Alias

/-- The name of a pointer: each time a reference is made it gets a new one. -/
abbrev Tag := Nat

/-- An octet: a block of memory (a variable or a heap block) and an offset. -/
structure Loc where
  alloc : Nat
  off : Nat
deriving DecidableEq

/-- Consecutive octets of a block. -/
structure Region where
  alloc : Nat
  start : Nat
  len : Nat
deriving DecidableEq

def Region.has (r : Region) (x : Loc) : Bool := r.alloc == x.alloc && decide (r.start ≤ x.off ∧ x.off < r.start + r.len)

/-- What is made from a pointer. -/
inductive Kind
  /-- `&mut` -/
  | excl
  /-- `&` -/
  | shared
  /-- `*mut` -/
  | raw
  /-- `*const` -/
  | rawConst
deriving DecidableEq

/-- What a program does with pointers. -/
inductive Ev
  /-- From `parent` a new pointer to `r` is made.  `prot`: it is an argument of a function. -/
  | retag (parent new : Tag) (k : Kind) (r : Region) (prot : Bool)
  | read (t : Tag) (r : Region)
  | write (t : Tag) (r : Region)
  /-- The function with argument `t` returns. -/
  | release (t : Tag)
  /-- Block `a` is allocated. -/
  | alloc (t : Tag) (a : Nat)
  /-- Block `a` is freed. -/
  | free (t : Tag) (a : Nat)
deriving DecidableEq

/-- The same at one octet. -/
inductive Act
  | retag (parent new : Tag) (k : Kind) (prot : Bool)
  /-- A pointer is made to other octets of the block. -/
  | beside (parent new : Tag) (k : Kind) (prot : Bool)
  | read (t : Tag)
  | write (t : Tag)
  | release (t : Tag)
  | alloc (t : Tag)
  | free (t : Tag)
deriving DecidableEq

def Ev.at (x : Loc) : Ev → List Act
  | .retag p n k r pr => if r.has x then [.retag p n k pr] else if r.alloc == x.alloc then [.beside p n k pr] else []
  | .read t r => if r.has x then [.read t] else []
  | .write t r => if r.has x then [.write t] else []
  | .release t => [.release t]
  | .alloc t a => if a == x.alloc then [.alloc t] else []
  | .free t a => if a == x.alloc then [.free t] else []

/-- All that happens at an octet. -/
def acts (x : Loc) (tr : List Ev) : List Act := tr.flatMap (Ev.at x)

/-! ### Stacked Borrows -/

inductive Perm
  | unique
  | sharedRW
  | sharedRO
  | disabled
deriving DecidableEq

structure Item where
  tag : Tag
  perm : Perm
  prot : Bool
deriving DecidableEq

/-- A read through `t`: the topmost item of `t` (the stack is listed from the top) grants it; unique items above are disabled, which
is not allowed while they are protected. -/
def sbRead (t : Tag) : List Item → Option (List Item)
  | [] => none
  | i :: r =>
    if i.tag = t ∧ i.perm ≠ .disabled then some (i :: r)
    else if i.perm = .unique then
      if i.prot then none else (sbRead t r).map ({ i with perm := .disabled } :: ·)
    else (sbRead t r).map (i :: ·)

/-- The topmost item that lets `t` write, with what is above and below. -/
def sbFind (t : Tag) : List Item → Option (List Item × Item × List Item)
  | [] => none
  | i :: r =>
    if i.tag = t ∧ (i.perm = .unique ∨ i.perm = .sharedRW) then some ([], i, r)
    else (sbFind t r).map fun (a, g, b) => (i :: a, g, b)

/-- What is above the item `g` that grants a write is cut: what goes, and what stays.  Above a shared item, shared items stay. -/
def sbCut (g : Item) (above : List Item) : List Item × List Item :=
  if g.perm = .sharedRW then
    let run := (above.reverse.takeWhile fun i => i.perm = .sharedRW).reverse
    (above.take (above.length - run.length), run)
  else (above, [])

/-- A write through `t`.  Protected items must not go. -/
def sbWrite (t : Tag) (st : List Item) : Option (List Item) :=
  match sbFind t st with
  | none => none
  | some (above, g, below) =>
    let (gone, run) := sbCut g above
    if gone.any (·.prot) then none else some (run ++ g :: below)

/-- One event.  A mutable reference is made like a write, a shared one like a read; a raw pointer without an access, its item is put
just above the one it is made from. -/
def sbStep (st : List Item) : Act → Option (List Item)
  | .retag p n .excl pr => (sbWrite p st).map (⟨n, .unique, pr⟩ :: ·)
  | .retag p n .shared pr => (sbRead p st).map (⟨n, .sharedRO, pr⟩ :: ·)
  | .retag p n .rawConst pr => (sbRead p st).map (⟨n, .sharedRO, pr⟩ :: ·)
  | .retag p n .raw pr =>
    match sbFind p st with
    | none => none
    | some (above, g, below) =>
      let (over, run) := sbCut g above
      some (over ++ ⟨n, .sharedRW, pr⟩ :: run ++ g :: below)
  | .beside .. => some st
  | .read t => sbRead t st
  | .write t => sbWrite t st
  | .release t => some (st.map fun i => if i.tag = t then { i with prot := false } else i)
  | .alloc t => some [⟨t, .unique, false⟩]
  | .free t => (sbWrite t st).map fun _ => []

/-! ### Tree Borrows -/

inductive TPerm
  /-- Made mutable, not written yet; `true`: somebody else has read meanwhile. -/
  | reserved (conflicted : Bool)
  | active
  | frozen
  | disabled
  /-- A raw pointer: it may do what the reference it was made from may do. -/
  | raw
deriving DecidableEq

structure Node where
  tag : Tag
  parent : Option Tag
  perm : TPerm
  prot : Bool
  /-- Has this octet been accessed through it? -/
  used : Bool
deriving DecidableEq

/-- The pointers `t` is made from, with `t`.  The tree is listed with the newest node first. -/
def tbPath (t : Option Tag) : List Node → List Tag
  | [] => []
  | n :: r => if some n.tag = t then n.tag :: tbPath n.parent r else tbPath t r

/-- An access through the pointer of the node or one made from it. -/
def tbChild (w : Bool) (n : Node) : Option Node :=
  match n.perm with
  | .raw => some n
  | .disabled => none
  | .frozen => if w then none else some { n with used := true }
  | .active => some { n with used := true }
  | .reserved c =>
    if w then (if c && n.prot then none else some { n with perm := .active, used := true })
    else some { n with used := true }

/-- An access through any other pointer. -/
def tbForeign (w : Bool) (n : Node) : Option Node :=
  match n.perm with
  | .raw => some n
  | .disabled => some n
  | .frozen => if w then (if n.prot && n.used then none else some { n with perm := .disabled }) else some n
  | .active => if w || n.prot then (if n.prot then none else some { n with perm := .disabled }) else some { n with perm := .frozen }
  | .reserved c =>
    if w then (if n.prot && n.used then none else some { n with perm := .disabled })
    else some { n with perm := .reserved (c || n.prot) }

/-- All nodes learn of an access. -/
def tbAll (w : Bool) (path : List Tag) : List Node → Option (List Node)
  | [] => some []
  | n :: r =>
    match (if n.tag ∈ path then tbChild w n else tbForeign w n), tbAll w path r with
    | some n', some r' => some (n' :: r')
    | _, _ => none

def tbAccess (w : Bool) (t : Tag) (st : List Node) : Option (List Node) :=
  match tbPath (some t) st with
  | [] => none
  | path => tbAll w path st

def tbPerm : Kind → TPerm
  | .excl => .reserved false
  | .shared => .frozen
  | .raw => .raw
  | .rawConst => .raw

/-- One event.  References are made like a read, raw pointers without an access. -/
def tbStep (st : List Node) : Act → Option (List Node)
  | .retag p n k pr =>
    if k = .raw ∨ k = .rawConst then
      if tbPath (some p) st = [] then none else some (⟨n, some p, .raw, false, false⟩ :: st)
    else (tbAccess false p st).map (⟨n, some p, tbPerm k, pr, true⟩ :: ·)
  | .beside p n k pr => some (⟨n, some p, tbPerm k, pr, false⟩ :: st)
  | .read t => tbAccess false t st
  | .write t => tbAccess true t st
  | .release t => some (st.map fun n => if n.tag = t then { n with prot := false } else n)
  | .alloc t => some [⟨t, none, .active, false, true⟩]
  | .free t => (tbAccess true t st).map fun _ => []

/-! ### Both -/

/-- A version of the rules. -/
structure Rules where
  State : Type
  /-- An octet that is not allocated. -/
  init : State
  step : State → Act → Option State

def stacked : Rules := ⟨List Item, [], sbStep⟩

def tree : Rules := ⟨List Node, [], tbStep⟩

/-- All events at an octet, in order. -/
def Rules.run (R : Rules) (st : R.State) : List Act → Option R.State
  | [] => some st
  | a :: r => (R.step st a).bind fun st' => R.run st' r

/-- The program starts with nothing allocated and has no undefined behaviour. -/
def Rules.Defined (R : Rules) (tr : List Ev) : Prop := ∀ x, ∃ st, R.run R.init (acts x tr) = some st

end Bsn1.Alias
