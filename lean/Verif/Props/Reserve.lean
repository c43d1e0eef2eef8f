import Verif.Props.Buffer
import Verif.Lemmas.Der
/-!
# C37, C38: what `reserve` does beyond `isize::MAX`, exactly
-/

namespace Bsn1
open Buf Spec

namespace Buf

theorem LE.reserve_beyond (m : Build) (al : Allocator) {b : LE} {h : Heap} {s : List Cell} {l : Nat} {fp : Option Nat} (hr : LE.Rep b h s l fp)
    (n : Nat) (hn : n < usizeSize) (hT : isizeMax < l + n) :
    b.reserve m al n h = if usizeSize ≤ l + n then (if m = .debug then .panic else .ok b h) else if fp = none then .panic else .ub := by
  have hi := isizeMax_eq
  have hu := usizeSize_eq
  have hl := LE.rep_len hr
  have hc := LE.rep_capacity hr
  have hb := LE.correct.bound hr
  by_cases h1 : usizeSize ≤ l + n
  · rw [if_pos h1]
    cases m with
    | debug =>
      rw [if_pos rfl, LE.reserve, hl]
      refine bind_panic ?_
      rw [usizeAdd, if_neg (by omega)]
      rfl
    | release =>
      rw [if_neg (nomatch ·)]
      refine Buf.LE.reserve_wraps hl hc h1 ?_ h
      rw [Nat.mod_eq_sub_mod h1, Nat.mod_eq_of_lt (by omega)]
      omega
  · rw [if_neg h1]
    obtain ⟨v, hv, hh⟩ := hr
    cases hh with
    | inline h2 h3 =>
      rw [if_pos rfl, LE.reserve, hl, bind_ok (usizeAdd_ok m (by omega) h), hc, if_neg (by omega), LE.InlineAt.isStack hv, if_pos rfl]
      refine bind_panic ?_
      rw [layoutArray, if_neg (by omega)]
      rfl
    | heap h2 h3 h4 h5 h6 h7 =>
      rw [if_neg (nomatch ·)]
      exact Buf.LE.reserve_over hl (LE.HeapAt.isStack hv) hc hb.2 hT (by omega) h

theorem UE.reserve_beyond (m : Build) (al : Allocator) {b : UE} {h : Heap} {s : List Cell} {l : Nat} {fp : Option Nat} (hr : UE.Rep b h s l fp)
    (n : Nat) (hn : n < usizeSize) (hT : isizeMax < l + n) :
    b.reserve m al n h = if usizeSize ≤ l + n then (if m = .debug then .panic else .ok b h) else if fp = none then .panic else .ub := by
  have hi := isizeMax_eq
  have hu := usizeSize_eq
  have hl : b.len = l := UE.correct.len hr
  have hc : b.capacity h = .ok s.length h := UE.correct.capacity hr
  have hb := UE.correct.bound hr
  by_cases h1 : usizeSize ≤ l + n
  · rw [if_pos h1]
    cases m with
    | debug =>
      rw [if_pos rfl, UE.reserve, hl]
      refine bind_panic ?_
      rw [usizeAdd, if_neg (by omega)]
      rfl
    | release =>
      rw [if_neg (nomatch ·)]
      refine Buf.UE.reserve_wraps hl hc h1 ?_
      rw [Nat.mod_eq_sub_mod h1, Nat.mod_eq_of_lt (by omega)]
      omega
  · rw [if_neg h1]
    obtain ⟨v, hv, hh⟩ := hr
    cases hh with
    | inline h2 h3 =>
      rw [if_pos rfl, UE.reserve, hl, bind_ok (usizeAdd_ok m (by omega) h), bind_ok hc, if_neg (by omega)]
      rw [show b.isStack = true by rw [hv.1]; exact UE.inline_isStack hv.2, if_pos rfl]
      refine bind_panic ?_
      rw [UE.heapNew, bind_ok (debugAssert_ok m (by omega) h)]
      refine bind_panic ?_
      rw [layoutArray, if_neg (by omega)]
      rfl
    | heap h2 h3 h4 h5 h6 h7 =>
      rw [if_neg (nomatch ·)]
      exact Buf.UE.reserve_over hv.1 (UE.heap_len hv.2) (UE.heap_isStack hv.2) hb.2 hT (by omega) h

end Buf

/-- **C37 and C38, exactly, beyond `isize::MAX`.** In every state that a program can reach: when the sum of the length and `n` does not fit `usize`,
debug builds panic and release builds do nothing at all; when it fits, a buffer in stack mode panics and one in heap mode breaks the contract of
`realloc`. (Up to `isize::MAX` `C38_reserve_partial` says that `reserve` works.) -/
theorem C38_reserve_exact (m : Build) (al : Allocator) (hv : al.Valid) (h0 h : Heap) (abs : List AObj) (i n : Nat) (hn : n < usizeSize) :
    (∀ (objs : List (Obj little)) b, History little m al h0 objs h abs → objs[i]? = some (.buf b) → isizeMax < little.len b + n →
      little.reserve m al b n h = if usizeSize ≤ little.len b + n then (if m = .debug then .panic else .ok b h)
        else if ownerLE b = none then .panic else .ub) ∧
    (∀ (objs : List (Obj universal)) b, History universal m al h0 objs h abs → objs[i]? = some (.buf b) → isizeMax < universal.len b + n →
      universal.reserve m al b n h = if usizeSize ≤ universal.len b + n then (if m = .debug then .panic else .ok b h)
        else if ownerUE b = none then .panic else .ub) := by
  constructor
  · intro objs b hh e hT
    obtain ⟨fps, hi⟩ := History.inv LE.correct hv hh
    obtain ⟨v, f, s, ea, ef, h1, h2, h3⟩ := hi.buf e
    rw [LE.correct.len h1] at hT ⊢
    rw [ownerLE_eq h1]
    exact LE.reserve_beyond m al h1 n hn hT
  · intro objs b hh e hT
    obtain ⟨fps, hi⟩ := History.inv UE.correct hv hh
    obtain ⟨v, f, s, ea, ef, h1, h2, h3⟩ := hi.buf e
    rw [UE.correct.len h1] at hT ⊢
    rw [ownerUE_eq h1]
    exact UE.reserve_beyond m al h1 n hn hT

/-- **C37, exactly.** `reserve` is the only step that can break the rules of the memory, and it does exactly for a buffer in heap mode when the sum of
the length and `n` is above `isize::MAX` and fits `usize`. -/
theorem C37_reserve_ub_iff (m : Build) (al : Allocator) (hv : al.Valid) (h0 h : Heap) (abs : List AObj) (i n : Nat) (hn : n < usizeSize) :
    (∀ (objs : List (Obj little)) b, History little m al h0 objs h abs → objs[i]? = some (.buf b) →
      (little.reserve m al b n h = .ub ↔ ownerLE b ≠ none ∧ isizeMax < little.len b + n ∧ little.len b + n < usizeSize)) ∧
    (∀ (objs : List (Obj universal)) b, History universal m al h0 objs h abs → objs[i]? = some (.buf b) →
      (universal.reserve m al b n h = .ub ↔ ownerUE b ≠ none ∧ isizeMax < universal.len b + n ∧ universal.len b + n < usizeSize)) := by
  have key : ∀ (x : Prop) [Decidable x] {β : Type} (o : Out β) (T : Nat), o ≠ .ub →
      ((if usizeSize ≤ T then (if m = .debug then .panic else o) else if x then .panic else .ub : Out β) = .ub ↔ ¬ x ∧ T < usizeSize) := by
    intro x _ β o T ho
    by_cases h1 : usizeSize ≤ T
    · rw [if_pos h1]
      refine iff_of_false ?_ (by omega)
      split
      · exact (nomatch ·)
      · exact ho
    · rw [if_neg h1]
      by_cases h2 : x
      · rw [if_pos h2]; exact iff_of_false (nomatch ·) (fun h => h.1 h2)
      · rw [if_neg h2]; exact iff_of_true rfl ⟨h2, by omega⟩
  constructor
  · intro objs b hh e
    by_cases hT : isizeMax < little.len b + n
    · rw [(C38_reserve_exact m al hv h0 h abs i n hn).1 objs b hh e hT, key _ (Out.ok b h) _ (nomatch ·)]
      exact ⟨fun ⟨a, c⟩ => ⟨a, hT, c⟩, fun ⟨a, _, c⟩ => ⟨a, c⟩⟩
    · refine iff_of_false ?_ (fun h => hT h.2.1)
      rcases (C38_reserve_partial m al hv h0 h abs i n).1 objs b hh e (by omega) with h1 | ⟨_, _, h1, _⟩ <;> rw [h1] <;> exact (nomatch ·)
  · intro objs b hh e
    by_cases hT : isizeMax < universal.len b + n
    · rw [(C38_reserve_exact m al hv h0 h abs i n hn).2 objs b hh e hT, key _ (Out.ok b h) _ (nomatch ·)]
      exact ⟨fun ⟨a, c⟩ => ⟨a, hT, c⟩, fun ⟨a, _, c⟩ => ⟨a, c⟩⟩
    · refine iff_of_false ?_ (fun h => hT h.2.1)
      rcases (C38_reserve_partial m al hv h0 h abs i n).2 objs b hh e (by omega) with h1 | ⟨_, _, h1, _⟩ <;> rw [h1] <;> exact (nomatch ·)

/-- A buffer in stack mode: `reserve(isize::MAX)` panics where one in heap mode (`C37_reserve_violated`) breaks the contract. -/
example : ∃ objs h abs b, History little .release bump noHeap objs h abs ∧ objs[0]? = some (.buf b) ∧ little.len b = 2 ∧
    little.reserve .release bump b isizeMax h = .panic := by
  have s1 : History little .release bump noHeap _ _ _ := .step (op := .fromSlice [1, 2]) .start (by change _ ≤ _; decide) rfl
  have hi := isizeMax_eq
  have hu := usizeSize_eq
  refine ⟨_, _, _, _, s1, rfl, rfl, ?_⟩
  refine ((C38_reserve_exact .release bump bump_valid noHeap _ _ 0 isizeMax (by omega)).1 _ _ s1 rfl ?_).trans ?_
  · change isizeMax < 2 + isizeMax
    omega
  · refine (if_neg ?_).trans (if_pos rfl)
    change ¬ usizeSize ≤ 2 + isizeMax
    omega

end Bsn1
