import Verif.Lemmas.AliasPiece
/-!
# The functions that have undefined behaviour, checked
-/

namespace Bsn1.Alias

def bad2 (o : Tag) (as : List Act) : Bool := SB.bad o as && TB.bad o as

theorem CheckedBad.of {bad bad' : Tag → List Act → Bool} (hb : ∀ o as, bad o as = true → bad' o as = true) {v : Value} {tr : List Ev}
    (h : CheckedBad bad v tr) : CheckedBad bad' v tr := by
  obtain ⟨y, h | h⟩ := h
  · exact ⟨y, .inl ⟨h.1, hb _ _ h.2⟩⟩
  · exact ⟨y, .inr ⟨h.1, h.2.1, hb _ _ h.2.2⟩⟩

/-- In the struct. -/
theorem bad_inline {bad : Tag → List Act → Bool} {v : Value} {tr : List Ev} (y : Nat) (hy : y < 24) (h : bad 0 (acts ⟨0, y⟩ tr) = true) : CheckedBad bad v tr :=
  ⟨⟨0, y⟩, .inl ⟨by simp [has_mk, whole, inr, hy], h⟩⟩

/-- On the heap. -/
theorem bad_heap {bad : Tag → List Act → Bool} {blk len cap : Nat} {tr : List Ev} (y : Nat) (hb : blk ≠ 0) (h : bad 1 (acts ⟨blk, y⟩ tr) = true) :
    CheckedBad bad ⟨some 1, blk, len, cap⟩ tr :=
  ⟨⟨blk, y⟩, .inr ⟨by simp [has_mk, whole, inr, hb.symm], by simp [own, hb], h⟩⟩

theorem LE.writeTop_bad_inline {blk len cap : Nat} (h : len ≤ 23) (h1 : 1 ≤ len) : CheckedBad bad2 ⟨none, blk, len, cap⟩ (writeTop little ⟨none, blk, len, cap⟩ 0 2).2.2 := by
  evl
  refine bad_inline (len - 1) (by omega) ?_
  act <;> gen <;> decide +kernel

theorem LE.writeBehind_bad_inline {blk len cap n : Nat} (h : len + n ≤ 23) (h1 : 1 ≤ n) : CheckedBad bad2 ⟨none, blk, len, cap⟩ (writeBehind little n ⟨none, blk, len, cap⟩ 0 2).2.2 := by
  evl
  refine bad_inline (len) (by omega) ?_
  act <;> gen <;> decide +kernel

theorem LE.setAt_bad_inline {blk len cap i : Nat} (h : len ≤ 23) (h1 : i < len) : CheckedBad bad2 ⟨none, blk, len, cap⟩ (setAt little ⟨none, blk, len, cap⟩ i 0 2).2.2 := by
  evl
  refine bad_inline (i) (by omega) ?_
  act <;> gen <;> decide +kernel

theorem LE.idSet_bad_inline {blk len cap : Nat} (h : len ≤ 23) (h1 : 0 < len) : CheckedBad bad2 ⟨none, blk, len, cap⟩ (idSet little ⟨none, blk, len, cap⟩ 0 2).2.2 := by
  evl
  refine bad_inline (0) (by omega) ?_
  act <;> gen <;> decide +kernel

theorem LE.moveDown_bad_inline {blk len cap k l l' c : Nat} (h : k + l + c ≤ 23) (h1 : 1 ≤ l') (hl : l' ≤ l) : CheckedBad bad2 ⟨none, blk, len, cap⟩ (moveDown little k l l' c ⟨none, blk, len, cap⟩ 0 2).2.2 := by
  rcases Nat.lt_or_ge l' l with he | he
  all_goals (evl
             refine bad_inline (k) (by omega) ?_
             act <;> gen <;> decide +kernel)

theorem LE.writeTwo_bad_inline {blk len cap o n : Nat} (h1 : 1 ≤ o) : CheckedBad bad2 ⟨none, blk, len, cap⟩ (writeTwo little o n ⟨none, blk, len, cap⟩ 0 2).2.2 := by
  evl
  refine bad_inline (0) (by omega) ?_
  act <;> gen <;> decide +kernel

theorem LE.derEnd_bad_inline {blk len cap k l l' c n : Nat} (h : k + l' + c + n ≤ 23) (h1 : 1 ≤ l') (hl : l ≤ l') (dbg : Bool) : CheckedBad bad2 ⟨none, blk, len, cap⟩ (derEnd little dbg k l l' c n ⟨none, blk, len, cap⟩ 0 2).2.2 := by
  cases dbg <;> rcases Nat.decEq l' l with he | he
  · evl
    refine bad_inline (k) (by omega) ?_
    act <;> gen <;> decide +kernel
  · evl
    refine bad_inline (k) (by omega) ?_
    act <;> gen <;> decide +kernel
  · evl
    refine bad_inline (k) (by omega) ?_
    act <;> gen <;> decide +kernel
  · evl
    refine bad_inline (k) (by omega) ?_
    act <;> gen <;> decide +kernel

theorem LE.fromInteger_bad_inline {blk len cap n : Nat} (h : n ≤ 23) (h1 : 1 ≤ n) (dbg : Bool) : CheckedBad bad2 ⟨none, blk, len, cap⟩ (fromInteger little dbg ⟨none, blk, len, cap⟩ n 0 2).2.2 := by
  cases dbg
  · evl
    refine bad_inline (0) (by omega) ?_
    act <;> gen <;> decide +kernel
  · evl
    refine bad_inline (0) (by omega) ?_
    act <;> gen <;> decide +kernel

theorem UE.fromInteger_bad_inline {blk len cap n : Nat} (h : n ≤ 16) (h1 : 1 ≤ n) (dbg : Bool) : CheckedBad SB.bad ⟨none, blk, len, cap⟩ (fromInteger universal dbg ⟨none, blk, len, cap⟩ n 0 2).2.2 := by
  cases dbg
  · evl
    refine bad_inline (8 + 0) (by omega) ?_
    act <;> gen <;> decide +kernel
  · evl
    refine bad_inline (8 + 0) (by omega) ?_
    act <;> gen <;> decide +kernel

theorem UE.mutId_bad_inline {blk len cap k l : Nat} (h : len ≤ 16) (hl : k + l ≤ len) (h1 : 1 ≤ k) : CheckedBad SB.bad ⟨none, blk, len, cap⟩ (mutId universal ⟨none, blk, len, cap⟩ k l 0 2).2.2 := by
  evl
  refine bad_inline (8 + 0) (by omega) ?_
  act <;> gen <;> decide +kernel

theorem UE.mutIdSet_bad_inline {blk len cap k l : Nat} (h : len ≤ 16) (hl : k + l ≤ len) (h1 : 1 ≤ k) : CheckedBad bad2 ⟨none, blk, len, cap⟩ (mutIdSet universal ⟨none, blk, len, cap⟩ k l 0 2).2.2 := by
  evl
  refine bad_inline (8 + 0) (by omega) ?_
  act <;> gen <;> decide +kernel

theorem UE.mutContentsSet_bad_inline {blk len cap k l i : Nat} (h : len ≤ 16) (hl : k + l + i < len) : CheckedBad bad2 ⟨none, blk, len, cap⟩ (mutContentsSet universal ⟨none, blk, len, cap⟩ k l i 0 2).2.2 := by
  evl
  refine bad_inline (8 + (k + l + i)) (by omega) ?_
  act <;> gen <;> decide +kernel

theorem UE.mutId_bad_heap {blk len cap k l : Nat} (hb : blk ≠ 0) (hl : k + l ≤ len) (h1 : 1 ≤ k) : CheckedBad SB.bad ⟨some 1, blk, len, cap⟩ (mutId universal ⟨some 1, blk, len, cap⟩ k l 0 2).2.2 := by
  evl
  refine bad_heap (0) hb ?_
  act <;> gen <;> decide +kernel

theorem UE.mutIdSet_bad_heap {blk len cap k l : Nat} (hb : blk ≠ 0) (hl : k + l ≤ len) (h1 : 1 ≤ k) : CheckedBad bad2 ⟨some 1, blk, len, cap⟩ (mutIdSet universal ⟨some 1, blk, len, cap⟩ k l 0 2).2.2 := by
  evl
  refine bad_heap (0) hb ?_
  act <;> gen <;> decide +kernel

theorem UE.mutContentsSet_bad_heap {blk len cap k l i : Nat} (hb : blk ≠ 0) (hl : k + l + i < len) : CheckedBad bad2 ⟨some 1, blk, len, cap⟩ (mutContentsSet universal ⟨some 1, blk, len, cap⟩ k l i 0 2).2.2 := by
  evl
  refine bad_heap ((k + l + i)) hb ?_
  act <;> gen <;> decide +kernel

theorem LE.mutId_bad_inline {blk len cap k l : Nat} (h : len ≤ 23) (hl : k + l ≤ len) (h1 : 1 ≤ k) : CheckedBad SB.bad ⟨none, blk, len, cap⟩ (mutId little ⟨none, blk, len, cap⟩ k l 0 2).2.2 := by
  evl
  refine bad_inline (0) (by omega) ?_
  act <;> gen <;> decide +kernel

theorem LE.mutIdSet_bad_inline {blk len cap k l : Nat} (h : len ≤ 23) (hl : k + l ≤ len) (h1 : 1 ≤ k) : CheckedBad bad2 ⟨none, blk, len, cap⟩ (mutIdSet little ⟨none, blk, len, cap⟩ k l 0 2).2.2 := by
  evl
  refine bad_inline (0) (by omega) ?_
  act <;> gen <;> decide +kernel

theorem LE.mutContentsSet_bad_inline {blk len cap k l i : Nat} (h : len ≤ 23) (hl : k + l + i < len) : CheckedBad bad2 ⟨none, blk, len, cap⟩ (mutContentsSet little ⟨none, blk, len, cap⟩ k l i 0 2).2.2 := by
  evl
  refine bad_inline ((k + l + i)) (by omega) ?_
  act <;> gen <;> decide +kernel

theorem LE.mutId_bad_heap {blk len cap k l : Nat} (hb : blk ≠ 0) (hl : k + l ≤ len) (h1 : 1 ≤ k) : CheckedBad SB.bad ⟨some 1, blk, len, cap⟩ (mutId little ⟨some 1, blk, len, cap⟩ k l 0 2).2.2 := by
  evl
  refine bad_heap (0) hb ?_
  act <;> gen <;> decide +kernel

theorem LE.mutIdSet_bad_heap {blk len cap k l : Nat} (hb : blk ≠ 0) (hl : k + l ≤ len) (h1 : 1 ≤ k) : CheckedBad bad2 ⟨some 1, blk, len, cap⟩ (mutIdSet little ⟨some 1, blk, len, cap⟩ k l 0 2).2.2 := by
  evl
  refine bad_heap (0) hb ?_
  act <;> gen <;> decide +kernel

theorem LE.mutContentsSet_bad_heap {blk len cap k l i : Nat} (hb : blk ≠ 0) (hl : k + l + i < len) : CheckedBad bad2 ⟨some 1, blk, len, cap⟩ (mutContentsSet little ⟨some 1, blk, len, cap⟩ k l i 0 2).2.2 := by
  evl
  refine bad_heap ((k + l + i)) hb ?_
  act <;> gen <;> decide +kernel

end Bsn1.Alias
