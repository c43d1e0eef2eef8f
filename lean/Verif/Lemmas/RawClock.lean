import Verif.Lemmas.RawSer
import Verif.Spec.Growth
/-!
# How often the allocator is called
-/

namespace Bsn1.Raw
open Bsn1.Buf Bsn1.Spec

/-! ### Functions that do not call the allocator -/

/-- A call that returns made no request. -/
def Quiet {α : Type} (x : M α) : Prop := ∀ h a h', x h = .ok a h' → h'.clock = h.clock

namespace Quiet
variable {α β : Type} {x : M α} {f : α → M β}

theorem pure (a : α) : Quiet (Pure.pure a) := fun h a' h' e => by
  have : Out.ok a h = .ok a' h' := e
  cases this; rfl
theorem panic : Quiet (M.panic : M α) := fun _ _ _ e => nomatch e
theorem abort : Quiet (M.abort : M α) := fun _ _ _ e => nomatch e
theorem ub : Quiet (M.ub : M α) := fun _ _ _ e => nomatch e

theorem bind (hx : Quiet x) (hf : ∀ a, Quiet (f a)) : Quiet (x >>= f) := by
  intro h b h' e
  have e' : (match x h with | .ok a h => f a h | .panic => .panic | .abort => .abort | .ub => .ub : Out β) = .ok b h' := e
  rcases hxh : x h with ⟨a, h1⟩ | _ | _ | _
  · rw [hxh] at e'
    rw [hf a h1 b h' e', hx h a h1 hxh]
  all_goals rw [hxh] at e'; exact nomatch e'

theorem ite {c : Prop} [Decidable c] {x y : M α} (hx : Quiet x) (hy : Quiet y) : Quiet (if c then x else y) := by
  split
  · exact hx
  · exact hy

theorem load (p off n : Nat) : Quiet (Buf.load p off n) := by
  intro h a h' e
  unfold Buf.load at e
  split at e
  · exact nomatch e
  · split at e
    · cases e; rfl
    · exact nomatch e

theorem store (p off : Nat) (vals : List Cell) : Quiet (Buf.store p off vals) := by
  intro h a h' e
  unfold Buf.store at e
  split at e
  · exact nomatch e
  · split at e
    · cases e; rfl
    · exact nomatch e

theorem dealloc (p n : Nat) : Quiet (Buf.dealloc p n) := by
  intro h a h' e
  unfold Buf.dealloc at e
  split at e
  · exact nomatch e
  · split at e
    · cases e; rfl
    · exact nomatch e

theorem layoutArray (n : Nat) : Quiet (Buf.layoutArray n) := .ite (.pure _) .panic

theorem debugAssert (m : Build) (c : Prop) [Decidable c] : Quiet (Buf.debugAssert m c) := by
  cases m
  · exact .ite (.pure _) .panic
  · exact .pure _

theorem usizeAdd (m : Build) (a b : Nat) : Quiet (Buf.usizeAdd m a b) := by
  refine .ite (.pure _) ?_
  cases m
  · exact .panic
  · exact .pure _

theorem assumeInit (c : List Cell) : Quiet (Buf.assumeInit c) := .ite (.pure _) .ub

end Quiet

/-- What the functions of a layout with room for `init` octets inline request. -/
structure Ticks (I : Impl) (init : Nat) : Prop where
  extend : ∀ m b vals, Quiet (I.extend m b vals)
  capacity : ∀ b, Quiet (I.capacity b)
  setLen : ∀ m b n, Quiet (I.setLen m b n)
  cells : ∀ b, Quiet (I.cells b)
  poke : ∀ b off vals, Quiet (I.poke b off vals)
  copyWithin : ∀ b src dst n, Quiet (I.copyWithin b src dst n)
  setAt : ∀ b i v, Quiet (I.setAt b i v)
  push : ∀ m b v, Quiet (I.push m b v)
  drop : ∀ b, Quiet (I.drop b)
  reserve : ∀ m al b n h b' h' c, I.reserve m al b n h = .ok b' h' → I.len b + n < usizeSize → I.capacity b h = .ok c h →
    h'.clock = h.clock + if I.len b + n ≤ c then 0 else 1
  withCapacity : ∀ m al n h b h', I.withCapacity m al n h = .ok b h' → n < usizeSize → h'.clock = h.clock + if n ≤ init then 0 else 1

/-- A call that returns made one request. -/
def Once {α : Type} (x : M α) : Prop := ∀ h a h', x h = .ok a h' → h'.clock = h.clock + 1

namespace Once
variable {α β : Type} {x : M α} {f : α → M β}

theorem bind (hx : Once x) (hf : ∀ a, Quiet (f a)) : Once (x >>= f) := by
  intro h b h' e
  have e' : (match x h with | .ok a h => f a h | .panic => .panic | .abort => .abort | .ub => .ub : Out β) = .ok b h' := e
  rcases hxh : x h with ⟨a, h1⟩ | _ | _ | _
  · rw [hxh] at e'
    rw [hf a h1 b h' e', hx h a h1 hxh]
  all_goals rw [hxh] at e'; exact nomatch e'

theorem after (hx : Quiet x) (hf : ∀ a, Once (f a)) : Once (x >>= f) := by
  intro h b h' e
  have e' : (match x h with | .ok a h => f a h | .panic => .panic | .abort => .abort | .ub => .ub : Out β) = .ok b h' := e
  rcases hxh : x h with ⟨a, h1⟩ | _ | _ | _
  · rw [hxh] at e'
    rw [hf a h1 b h' e', hx h a h1 hxh]
  all_goals rw [hxh] at e'; exact nomatch e'

theorem alloc (al : Allocator) (n : Nat) : Once (Buf.alloc al n) := by
  intro h a h' e
  unfold Buf.alloc at e
  split at e
  · exact nomatch e
  · split at e <;> cases e <;> rfl

theorem realloc (al : Allocator) (p n k : Nat) : Once (Buf.realloc al p n k) := by
  intro h a h' e
  unfold Buf.realloc at e
  split at e
  · exact nomatch e
  · split at e
    · split at e <;> cases e <;> rfl
    · exact nomatch e

end Once

theorem le_ticks : Ticks little 23 := by
  have poke : ∀ (b : LE) off vals, Quiet (b.poke off vals) := fun b off vals => by
    unfold LE.poke
    exact .ite (.ite (.pure _) .ub) (.bind (.store _ _ _) fun _ => .pure _)
  have peek : ∀ (b : LE) n, Quiet (b.peek n) := fun b n => by
    unfold LE.peek
    exact .ite (.ite (.pure _) .ub) (.load _ _ _)
  have setAt : ∀ (b : LE) i v, Quiet (b.setAt i v) := fun b i v => by
    unfold LE.setAt
    exact .ite (poke _ _ _) .panic
  have reserve : ∀ m al (b : LE) n h b' h', b.reserve m al n h = .ok b' h' → b.len + n < usizeSize →
      h'.clock = h.clock + if b.len + n ≤ b.capacity then 0 else 1 := by
    intro m al b n h b' h' e hn
    rw [LE.reserve, bind_ok (usizeAdd_ok m hn h)] at e
    split at e
    · rw [if_pos ‹_›]; exact Quiet.pure b _ _ _ e
    · rw [if_neg ‹_›]
      split at e
      · refine Once.after (.layoutArray _) (fun _ => Once.bind (.alloc _ _) fun _ => ?_) h b' h' e
        exact .ite .abort (.bind (peek _ _) fun _ => .bind (.store _ _ _) fun _ => .pure _)
      · refine Once.after (.layoutArray _) (fun _ => Once.bind (.realloc _ _ _ _) fun _ => ?_) h b' h' e
        exact .ite (.bind (.layoutArray _) fun _ => .abort) (.pure _)
  exact {
    extend := fun m b vals => by
      show Quiet (LE.extend b vals)
      unfold LE.extend
      exact .bind (poke _ _ _) fun _ => .pure _
    capacity := fun b => .pure _
    setLen := fun m b n => .pure _
    cells := fun b => peek _ _
    poke := poke
    copyWithin := fun b src dst n => by
      show Quiet (LE.copyWithin b src dst n)
      unfold LE.copyWithin
      exact .ite (.ite (.pure _) .ub) (.bind (.load _ _ _) fun _ => .bind (.store _ _ _) fun _ => .pure _)
    setAt := setAt
    push := fun m b v => by
      show Quiet (LE.push m b v)
      unfold LE.push
      exact .bind (.debugAssert _ _) fun _ => setAt _ _ _
    drop := fun b => by
      show Quiet (LE.drop b)
      unfold LE.drop
      exact .ite (.pure _) (.dealloc _ _)
    reserve := fun m al b n h b' h' c e hn hc => by
      have hc' : Out.ok b.capacity h = .ok c h := hc
      cases hc'
      exact reserve m al b n h b' h' e hn
    withCapacity := fun m al n h b h' e hn => by
      have h0 : LE.new.len = 0 := by decide +kernel
      have h1 : LE.new.capacity = 23 := by decide +kernel
      have := reserve m al LE.new n h b h' e (by omega)
      rwa [h0, h1, Nat.zero_add] at this }

theorem ue_ticks : Ticks universal 16 := by
  have heapField : ∀ b : UE, Quiet b.heapField := fun b => by
    unfold UE.heapField
    split
    · exact .pure _
    · exact .ub
  have stackField : ∀ b : UE, Quiet b.stackField := fun b => by
    unfold UE.stackField
    split
    · exact .pure _
    · exact .ub
  have capacity : ∀ b : UE, Quiet b.capacity := fun b => by
    unfold UE.capacity
    exact .ite (.pure _) (.bind (heapField _) fun _ => .pure _)
  have poke : ∀ (b : UE) off vals, Quiet (b.poke off vals) := fun b off vals => by
    unfold UE.poke
    exact .ite (.bind (stackField _) fun _ => .ite (.pure _) .ub) (.bind (heapField _) fun _ => .bind (.store _ _ _) fun _ => .pure _)
  have peek : ∀ (b : UE) n, Quiet (b.peek n) := fun b n => by
    unfold UE.peek
    exact .ite (.bind (stackField _) fun _ => .ite (.pure _) .ub) (.bind (heapField _) fun _ => .load _ _ _)
  have setAt : ∀ (b : UE) i v, Quiet (b.setAt i v) := fun b i v => by
    unfold UE.setAt
    exact .ite (poke _ _ _) .panic
  have setLen : ∀ m (b : UE) n, Quiet (b.setLen m n) := fun m b n => by
    unfold UE.setLen
    exact .bind (capacity _) fun _ => .bind (.debugAssert _ _) fun _ => .pure _
  have heapNew : ∀ m al n, Once (UE.heapNew m al n) := fun m al n => by
    unfold UE.heapNew
    exact Once.after (.debugAssert _ _) fun _ => Once.after (.layoutArray _) fun _ => Once.bind (.alloc _ _) fun _ => .ite .abort (.pure _)
  exact {
    extend := fun m b vals => by
      show Quiet (UE.extend m b vals)
      unfold UE.extend
      exact .bind (poke _ _ _) fun _ => setLen _ _ _
    capacity := capacity
    setLen := setLen
    cells := fun b => peek _ _
    poke := poke
    copyWithin := fun b src dst n => by
      show Quiet (UE.copyWithin b src dst n)
      unfold UE.copyWithin
      exact .ite (.bind (stackField _) fun _ => .ite (.pure _) .ub)
        (.bind (heapField _) fun _ => .bind (.load _ _ _) fun _ => .bind (.store _ _ _) fun _ => .pure _)
    setAt := setAt
    push := fun m b v => by
      show Quiet (UE.push m b v)
      unfold UE.push
      exact .bind (capacity _) fun _ => .bind (.debugAssert _ _) fun _ => .bind (setLen _ _ _) fun _ => setAt _ _ _
    drop := fun b => by
      show Quiet (UE.drop b)
      unfold UE.drop
      exact .ite (.pure _) (.bind (heapField _) fun _ => .dealloc _ _)
    reserve := fun m al b n h b' h' c e hn hc => by
      have e : UE.reserve m al b n h = .ok b' h' := e
      have hc : UE.capacity b h = .ok c h := hc
      show _ = h.clock + if b.len + n ≤ c then 0 else 1
      have hn : b.len + n < usizeSize := hn
      unfold UE.reserve at e
      rw [bind_ok (usizeAdd_ok m hn h), bind_ok hc] at e
      split at e
      · rw [if_pos ‹_›]; exact Quiet.pure b _ _ _ e
      · rw [if_neg ‹_›]
        split at e
        · exact Once.bind (heapNew _ _ _) (fun _ => .bind (peek _ _) fun _ => .bind (.store _ _ _) fun _ => .pure _) h b' h' e
        · refine Once.after (heapField _) (fun _ => Once.bind (?_ : Once _) fun _ => .pure _) h b' h' e
          unfold UE.heapRealloc
          exact Once.after (.layoutArray _) fun _ => Once.bind (.realloc _ _ _ _) fun _ =>
            .ite (.bind (.layoutArray _) fun _ => .abort) (.pure _)
    withCapacity := fun m al n h b h' e hn => by
      have e : UE.withCapacity m al n h = .ok b h' := e
      unfold UE.withCapacity at e
      by_cases hi : n ≤ 16
      · rw [if_pos (show n ≤ UE.INIT_CAPACITY from hi)] at e
        rw [if_pos hi]; exact Quiet.pure UE.new _ _ _ e
      · rw [if_neg (show ¬ n ≤ UE.INIT_CAPACITY from hi)] at e
        rw [if_neg hi]
        exact Once.bind (heapNew _ _ _) (fun _ => .pure _) h b h' e }

end Bsn1.Raw
