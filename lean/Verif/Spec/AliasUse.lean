import Verif.Model.Alias
/-!
# Which uses of a buffer have undefined behaviour

What there is to say about the functions, without pointers: whether the octets are on the heap, how many there are, and which functions are wrong then.
-/

namespace Bsn1.Alias

/-- A buffer as a user knows it. -/
structure Buf where
  onHeap : Bool
  len : Nat
  cap : Nat
deriving DecidableEq

/-- A new buffer: 23 octets fit in, or 16, before the heap is used. -/
def Buf.new (le : Bool) : Buf := ⟨false, 0, if le then 23 else 16⟩

/-- With room for `n` more. -/
def Buf.grown (b : Buf) (n : Nat) : Buf := if b.len + n ≤ b.cap then b else ⟨true, b.len, b.len + n⟩

/-- What the functions ask of their callers: indices are inside, the octets the functions append fit, the parts of a value are where they are. -/
def Op.fits (b : Buf) : Op → Prop
  | .push => b.len < b.cap
  | .extend n => b.len + n ≤ b.cap
  | .setAt i => i < b.len
  | .readAll => True
  | .reserve _ => True
  | .setLen n => n ≤ b.cap
  | .idSet => 0 < b.len
  | .mutId k l => 0 < k ∧ k + l ≤ b.len
  | .mutIdSet k l => 0 < k ∧ k + l ≤ b.len
  | .mutContentsSet k l i => k + l + i < b.len
  | .derExtend k l l' c _ => 0 < k ∧ 0 < l ∧ l ≤ l' ∧ b.len = k + l + c
  | .derTruncate k l l' c => 0 < k ∧ 0 < l' ∧ l' ≤ l ∧ k + l + c ≤ b.len
  | .berExtend k _ => 0 < k ∧ k + 1 ≤ b.len
  | .withIdLength k l c => 0 < k ∧ 0 < l ∧ k + l + c ≤ b.cap
  | .fromInteger n => 0 < n ∧ n ≤ b.cap

/-- The buffer afterwards. -/
def Op.next (b : Buf) : Op → Buf
  | .push => { b with len := b.len + 1 }
  | .extend n => { b with len := b.len + n }
  | .reserve n => b.grown n
  | .setLen n => { b with len := n }
  | .derExtend _ l l' _ n => { b.grown (n + l' - l) with len := b.len + (n + l' - l) }
  | .derTruncate k _ l' c => { b with len := k + l' + c }
  | .berExtend _ n => { b.grown n with len := b.len + n }
  | .withIdLength k l c => { b with len := k + l + c }
  | .fromInteger n => { b with len := n }
  | _ => b

/-- The functions that have undefined behaviour.  `le`: on a little-endian machine; `sb`: according to Stacked Borrows, otherwise Tree Borrows. -/
def Op.wrong (sb le : Bool) (b : Buf) : Op → Bool
  | .push => le && !b.onHeap
  | .extend n => le && !b.onHeap && n != 0
  | .setAt _ => le && !b.onHeap
  | .readAll => false
  | .reserve _ => false
  | .setLen _ => false
  | .idSet => le && !b.onHeap
  | .mutId .. => sb
  | .mutIdSet .. => true
  | .mutContentsSet .. => true
  | .derExtend _ l l' _ n => le && !(b.grown (n + l' - l)).onHeap
  | .derTruncate .. => le && !b.onHeap
  | .berExtend _ n => le && !(b.grown n).onHeap && n != 0
  | .withIdLength .. => le && !b.onHeap
  | .fromInteger _ => (sb || le) && !b.onHeap

/-- All of them are used as they ask. -/
def fits : Buf → List Op → Prop
  | _, [] => True
  | b, op :: r => op.fits b ∧ fits (op.next b) r

/-- One of them has undefined behaviour. -/
def wrong (sb le : Bool) : Buf → List Op → Bool
  | _, [] => false
  | b, op :: r => op.wrong sb le b || wrong sb le (op.next b) r

/-- An access of who calls `parse_mut` (through the first reference or the second, a write or a read, the octet) is one of the `k` octets of the first reference,
or of the others, of `n`. -/
def inside (n k : Nat) (u : Bool × Bool × Nat) : Prop := if u.1 then u.2.2 < k else k ≤ u.2.2 ∧ u.2.2 < n

/-- The version of the rules. -/
def rules (sb : Bool) : Rules := if sb then stacked else tree

end Bsn1.Alias
