import Verif.Lemmas.AliasPiece
/-!
# The functions that write, checked
-/

namespace Bsn1.Alias

set_option hygiene false in
/-- A function that moves the buffer. -/
macro "moved" : tactic => `(tactic| (
  refine checked_intro (by decide) (by simp) ?_ ?_ ?_
  · intro y hy
    (cut 8) <;> (act <;> gen <;> decide +kernel)
  · intro y hy
    act <;> decide +kernel
  · intro a y ha
    rcases Nat.decEq a blk with hb | hb
    · rcases Nat.decEq a (blk + 1) with hc | hc
      · act <;> decide +kernel
      · subst hc
        act <;> gen <;> decide +kernel
    · subst hb
      act <;> gen <;> decide +kernel))

theorem UE.reserve_stay_inline {blk len cap n : Nat} (hr : len + n ≤ cap) : Checked ok2 ⟨none, blk, len, cap⟩ (UE.reserve ⟨none, blk, len, cap⟩ n 0 2).1 (UE.reserve ⟨none, blk, len, cap⟩ n 0 2).2.1 (UE.reserve ⟨none, blk, len, cap⟩ n 0 2).2.2 := by
  evl
  inlined []

theorem UE.reserve_move_inline {blk len cap n : Nat} (h : len ≤ 16) (hr : cap < len + n) : Checked ok2 ⟨none, blk, len, cap⟩ (UE.reserve ⟨none, blk, len, cap⟩ n 0 2).1 (UE.reserve ⟨none, blk, len, cap⟩ n 0 2).2.1 (UE.reserve ⟨none, blk, len, cap⟩ n 0 2).2.2 := by
  evl
  moved

theorem UE.writeTop_inline {blk len cap : Nat} (h : len ≤ 16) (h1 : 1 ≤ len) : Checked ok2 ⟨none, blk, len, cap⟩ ⟨none, blk, len, cap⟩ (writeTop universal ⟨none, blk, len, cap⟩ 0 2).2.1 (writeTop universal ⟨none, blk, len, cap⟩ 0 2).2.2 := by
  evl
  inlined [8 + (len), 8 + (len - 1)]

theorem UE.writeBehind_inline {blk len cap n : Nat} (h : len + n ≤ 16) : Checked ok2 ⟨none, blk, len, cap⟩ ⟨none, blk, len, cap⟩ (writeBehind universal n ⟨none, blk, len, cap⟩ 0 2).2.1 (writeBehind universal n ⟨none, blk, len, cap⟩ 0 2).2.2 := by
  evl
  inlined []

theorem UE.writeTwo_inline {blk len cap o n : Nat} (h : o + n ≤ 16) : Checked ok2 ⟨none, blk, len, cap⟩ ⟨none, blk, len, cap⟩ (writeTwo universal o n ⟨none, blk, len, cap⟩ 0 2).2.1 (writeTwo universal o n ⟨none, blk, len, cap⟩ 0 2).2.2 := by
  evl
  inlined []

theorem UE.writeAt_inline {blk len cap o n : Nat} (h : o + n ≤ 16) : Checked ok2 ⟨none, blk, len, cap⟩ ⟨none, blk, len, cap⟩ (writeAt universal o n ⟨none, blk, len, cap⟩ 0 2).2.1 (writeAt universal o n ⟨none, blk, len, cap⟩ 0 2).2.2 := by
  evl
  inlined []

theorem UE.setAt_inline {blk len cap i : Nat} (h : len ≤ 16) (hi : i < len) : Checked ok2 ⟨none, blk, len, cap⟩ ⟨none, blk, len, cap⟩ (setAt universal ⟨none, blk, len, cap⟩ i 0 2).2.1 (setAt universal ⟨none, blk, len, cap⟩ i 0 2).2.2 := by
  evl
  inlined [8 + (len)]

theorem UE.idSet_inline {blk len cap : Nat} (h : len ≤ 16) (hi : 0 < len) : Checked ok2 ⟨none, blk, len, cap⟩ ⟨none, blk, len, cap⟩ (idSet universal ⟨none, blk, len, cap⟩ 0 2).2.1 (idSet universal ⟨none, blk, len, cap⟩ 0 2).2.2 := by
  evl
  inlined [8 + (len)]

theorem UE.moveUp_inline {blk len cap k l l' c n : Nat} (h : k + l' + c + n ≤ 16) (hl : l ≤ l') : Checked ok2 ⟨none, blk, len, cap⟩ ⟨none, blk, len, cap⟩ (moveUp universal k l l' c n ⟨none, blk, len, cap⟩ 0 2).2.1 (moveUp universal k l l' c n ⟨none, blk, len, cap⟩ 0 2).2.2 := by
  rcases Nat.decEq l' l with he | he
  · evl
    inlined []
  · evl
    inlined []

theorem UE.moveDown_inline {blk len cap k l l' c : Nat} (h : k + l + c ≤ 16) (hl : l' ≤ l) : Checked ok2 ⟨none, blk, len, cap⟩ ⟨none, blk, len, cap⟩ (moveDown universal k l l' c ⟨none, blk, len, cap⟩ 0 2).2.1 (moveDown universal k l l' c ⟨none, blk, len, cap⟩ 0 2).2.2 := by
  rcases Nat.lt_or_ge l' l with he | he
  · evl
    inlined []
  · evl
    inlined []

theorem UE.fromInteger_inline {blk len cap n : Nat} (h : n ≤ 16) (dbg : Bool) : Checked okT ⟨none, blk, len, cap⟩ ⟨none, blk, n, cap⟩
    (fromInteger universal dbg ⟨none, blk, len, cap⟩ n 0 2).2.1 (fromInteger universal dbg ⟨none, blk, len, cap⟩ n 0 2).2.2 := by
  cases dbg
  · evl
    inlined []
  · evl
    inlined []

theorem UE.reserve_stay_heap {blk len cap n : Nat} (hb : blk ≠ 0) (hr : len + n ≤ cap) : Checked ok2 ⟨some 1, blk, len, cap⟩ (UE.reserve ⟨some 1, blk, len, cap⟩ n 0 2).1 (UE.reserve ⟨some 1, blk, len, cap⟩ n 0 2).2.1 (UE.reserve ⟨some 1, blk, len, cap⟩ n 0 2).2.2 := by
  evl
  heaped []

theorem UE.reserve_move_heap {blk len cap n : Nat} (hb : blk ≠ 0) (hr : cap < len + n) : Checked ok2 ⟨some 1, blk, len, cap⟩ (UE.reserve ⟨some 1, blk, len, cap⟩ n 0 2).1 (UE.reserve ⟨some 1, blk, len, cap⟩ n 0 2).2.1 (UE.reserve ⟨some 1, blk, len, cap⟩ n 0 2).2.2 := by
  evl
  moved

theorem UE.writeTop_heap {blk len cap : Nat} (hb : blk ≠ 0) (h1 : 1 ≤ len) : Checked ok2 ⟨some 1, blk, len, cap⟩ ⟨some 1, blk, len, cap⟩ (writeTop universal ⟨some 1, blk, len, cap⟩ 0 2).2.1 (writeTop universal ⟨some 1, blk, len, cap⟩ 0 2).2.2 := by
  evl
  heaped [(len), (len - 1)]

theorem UE.writeBehind_heap {blk len cap n : Nat} (hb : blk ≠ 0) : Checked ok2 ⟨some 1, blk, len, cap⟩ ⟨some 1, blk, len, cap⟩ (writeBehind universal n ⟨some 1, blk, len, cap⟩ 0 2).2.1 (writeBehind universal n ⟨some 1, blk, len, cap⟩ 0 2).2.2 := by
  evl
  heaped []

theorem UE.writeTwo_heap {blk len cap o n : Nat} (hb : blk ≠ 0) : Checked ok2 ⟨some 1, blk, len, cap⟩ ⟨some 1, blk, len, cap⟩ (writeTwo universal o n ⟨some 1, blk, len, cap⟩ 0 2).2.1 (writeTwo universal o n ⟨some 1, blk, len, cap⟩ 0 2).2.2 := by
  evl
  heaped []

theorem UE.writeAt_heap {blk len cap o n : Nat} (hb : blk ≠ 0) : Checked ok2 ⟨some 1, blk, len, cap⟩ ⟨some 1, blk, len, cap⟩ (writeAt universal o n ⟨some 1, blk, len, cap⟩ 0 2).2.1 (writeAt universal o n ⟨some 1, blk, len, cap⟩ 0 2).2.2 := by
  evl
  heaped []

theorem UE.setAt_heap {blk len cap i : Nat} (hb : blk ≠ 0) (hi : i < len) : Checked ok2 ⟨some 1, blk, len, cap⟩ ⟨some 1, blk, len, cap⟩ (setAt universal ⟨some 1, blk, len, cap⟩ i 0 2).2.1 (setAt universal ⟨some 1, blk, len, cap⟩ i 0 2).2.2 := by
  evl
  heaped [(len)]

theorem UE.idSet_heap {blk len cap : Nat} (hb : blk ≠ 0) (hi : 0 < len) : Checked ok2 ⟨some 1, blk, len, cap⟩ ⟨some 1, blk, len, cap⟩ (idSet universal ⟨some 1, blk, len, cap⟩ 0 2).2.1 (idSet universal ⟨some 1, blk, len, cap⟩ 0 2).2.2 := by
  evl
  heaped [(len)]

theorem UE.moveUp_heap {blk len cap k l l' c n : Nat} (hb : blk ≠ 0) (hl : l ≤ l') : Checked ok2 ⟨some 1, blk, len, cap⟩ ⟨some 1, blk, len, cap⟩ (moveUp universal k l l' c n ⟨some 1, blk, len, cap⟩ 0 2).2.1 (moveUp universal k l l' c n ⟨some 1, blk, len, cap⟩ 0 2).2.2 := by
  rcases Nat.decEq l' l with he | he
  · evl
    heaped []
  · evl
    heaped []

theorem UE.moveDown_heap {blk len cap k l l' c : Nat} (hb : blk ≠ 0) (hl : l' ≤ l) : Checked ok2 ⟨some 1, blk, len, cap⟩ ⟨some 1, blk, len, cap⟩ (moveDown universal k l l' c ⟨some 1, blk, len, cap⟩ 0 2).2.1 (moveDown universal k l l' c ⟨some 1, blk, len, cap⟩ 0 2).2.2 := by
  rcases Nat.lt_or_ge l' l with he | he
  · evl
    heaped []
  · evl
    heaped []

theorem UE.fromInteger_heap {blk len cap n : Nat} (hb : blk ≠ 0) (dbg : Bool) : Checked ok2 ⟨some 1, blk, len, cap⟩ ⟨some 1, blk, n, cap⟩
    (fromInteger universal dbg ⟨some 1, blk, len, cap⟩ n 0 2).2.1 (fromInteger universal dbg ⟨some 1, blk, len, cap⟩ n 0 2).2.2 := by
  cases dbg
  · evl
    heaped []
  · evl
    heaped []

theorem LE.reserve_stay_inline {blk len cap n : Nat} (hr : len + n ≤ cap) : Checked ok2 ⟨none, blk, len, cap⟩ (LE.reserve ⟨none, blk, len, cap⟩ n 0 2).1 (LE.reserve ⟨none, blk, len, cap⟩ n 0 2).2.1 (LE.reserve ⟨none, blk, len, cap⟩ n 0 2).2.2 := by
  evl
  inlined []

theorem LE.reserve_move_inline {blk len cap n : Nat} (h : len ≤ 23) (hr : cap < len + n) : Checked ok2 ⟨none, blk, len, cap⟩ (LE.reserve ⟨none, blk, len, cap⟩ n 0 2).1 (LE.reserve ⟨none, blk, len, cap⟩ n 0 2).2.1 (LE.reserve ⟨none, blk, len, cap⟩ n 0 2).2.2 := by
  evl
  moved

theorem LE.writeBehind_inline {blk len cap : Nat} (h : len ≤ 23) : Checked ok2 ⟨none, blk, len, cap⟩ ⟨none, blk, len, cap⟩ (writeBehind little 0 ⟨none, blk, len, cap⟩ 0 2).2.1 (writeBehind little 0 ⟨none, blk, len, cap⟩ 0 2).2.2 := by
  evl
  inlined [(len)]

theorem LE.reserve_stay_heap {blk len cap n : Nat} (hb : blk ≠ 0) (hr : len + n ≤ cap) : Checked ok2 ⟨some 1, blk, len, cap⟩ (LE.reserve ⟨some 1, blk, len, cap⟩ n 0 2).1 (LE.reserve ⟨some 1, blk, len, cap⟩ n 0 2).2.1 (LE.reserve ⟨some 1, blk, len, cap⟩ n 0 2).2.2 := by
  evl
  heaped []

theorem LE.reserve_move_heap {blk len cap n : Nat} (hb : blk ≠ 0) (hr : cap < len + n) : Checked ok2 ⟨some 1, blk, len, cap⟩ (LE.reserve ⟨some 1, blk, len, cap⟩ n 0 2).1 (LE.reserve ⟨some 1, blk, len, cap⟩ n 0 2).2.1 (LE.reserve ⟨some 1, blk, len, cap⟩ n 0 2).2.2 := by
  evl
  moved

theorem LE.writeTop_heap {blk len cap : Nat} (hb : blk ≠ 0) (h1 : 1 ≤ len) : Checked ok2 ⟨some 1, blk, len, cap⟩ ⟨some 1, blk, len, cap⟩ (writeTop little ⟨some 1, blk, len, cap⟩ 0 2).2.1 (writeTop little ⟨some 1, blk, len, cap⟩ 0 2).2.2 := by
  evl
  heaped [(len), (len - 1)]

theorem LE.writeBehind_heap {blk len cap n : Nat} (hb : blk ≠ 0) : Checked ok2 ⟨some 1, blk, len, cap⟩ ⟨some 1, blk, len, cap⟩ (writeBehind little n ⟨some 1, blk, len, cap⟩ 0 2).2.1 (writeBehind little n ⟨some 1, blk, len, cap⟩ 0 2).2.2 := by
  evl
  heaped []

theorem LE.writeTwo_heap {blk len cap o n : Nat} (hb : blk ≠ 0) : Checked ok2 ⟨some 1, blk, len, cap⟩ ⟨some 1, blk, len, cap⟩ (writeTwo little o n ⟨some 1, blk, len, cap⟩ 0 2).2.1 (writeTwo little o n ⟨some 1, blk, len, cap⟩ 0 2).2.2 := by
  evl
  heaped []

theorem LE.writeAt_heap {blk len cap o n : Nat} (hb : blk ≠ 0) : Checked ok2 ⟨some 1, blk, len, cap⟩ ⟨some 1, blk, len, cap⟩ (writeAt little o n ⟨some 1, blk, len, cap⟩ 0 2).2.1 (writeAt little o n ⟨some 1, blk, len, cap⟩ 0 2).2.2 := by
  evl
  heaped []

theorem LE.setAt_heap {blk len cap i : Nat} (hb : blk ≠ 0) (hi : i < len) : Checked ok2 ⟨some 1, blk, len, cap⟩ ⟨some 1, blk, len, cap⟩ (setAt little ⟨some 1, blk, len, cap⟩ i 0 2).2.1 (setAt little ⟨some 1, blk, len, cap⟩ i 0 2).2.2 := by
  evl
  heaped [(len)]

theorem LE.idSet_heap {blk len cap : Nat} (hb : blk ≠ 0) (hi : 0 < len) : Checked ok2 ⟨some 1, blk, len, cap⟩ ⟨some 1, blk, len, cap⟩ (idSet little ⟨some 1, blk, len, cap⟩ 0 2).2.1 (idSet little ⟨some 1, blk, len, cap⟩ 0 2).2.2 := by
  evl
  heaped [(len)]

theorem LE.moveUp_heap {blk len cap k l l' c n : Nat} (hb : blk ≠ 0) (hl : l ≤ l') : Checked ok2 ⟨some 1, blk, len, cap⟩ ⟨some 1, blk, len, cap⟩ (moveUp little k l l' c n ⟨some 1, blk, len, cap⟩ 0 2).2.1 (moveUp little k l l' c n ⟨some 1, blk, len, cap⟩ 0 2).2.2 := by
  rcases Nat.decEq l' l with he | he
  · evl
    heaped []
  · evl
    heaped []

theorem LE.moveDown_heap {blk len cap k l l' c : Nat} (hb : blk ≠ 0) (hl : l' ≤ l) : Checked ok2 ⟨some 1, blk, len, cap⟩ ⟨some 1, blk, len, cap⟩ (moveDown little k l l' c ⟨some 1, blk, len, cap⟩ 0 2).2.1 (moveDown little k l l' c ⟨some 1, blk, len, cap⟩ 0 2).2.2 := by
  rcases Nat.lt_or_ge l' l with he | he
  · evl
    heaped []
  · evl
    heaped []

theorem LE.fromInteger_heap {blk len cap n : Nat} (hb : blk ≠ 0) (dbg : Bool) : Checked ok2 ⟨some 1, blk, len, cap⟩ ⟨some 1, blk, n, cap⟩
    (fromInteger little dbg ⟨some 1, blk, len, cap⟩ n 0 2).2.1 (fromInteger little dbg ⟨some 1, blk, len, cap⟩ n 0 2).2.2 := by
  cases dbg
  · evl
    heaped []
  · evl
    heaped []

theorem UE.mutId_inline {blk len cap k l : Nat} (h : len ≤ 16) (hl : k + l ≤ len) : Checked okT ⟨none, blk, len, cap⟩ ⟨none, blk, len, cap⟩ (mutId universal ⟨none, blk, len, cap⟩ k l 0 2).2.1 (mutId universal ⟨none, blk, len, cap⟩ k l 0 2).2.2 := by
  evl
  inlined [8 + (len), 8 + (k), 8 + (k + l)]

theorem UE.mutId_heap {blk len cap k l : Nat} (hb : blk ≠ 0) (hl : k + l ≤ len) : Checked okT ⟨some 1, blk, len, cap⟩ ⟨some 1, blk, len, cap⟩ (mutId universal ⟨some 1, blk, len, cap⟩ k l 0 2).2.1 (mutId universal ⟨some 1, blk, len, cap⟩ k l 0 2).2.2 := by
  evl
  heaped [(len), (k), (k + l)]

theorem LE.mutId_inline {blk len cap k l : Nat} (h : len ≤ 23) (hl : k + l ≤ len) : Checked okT ⟨none, blk, len, cap⟩ ⟨none, blk, len, cap⟩ (mutId little ⟨none, blk, len, cap⟩ k l 0 2).2.1 (mutId little ⟨none, blk, len, cap⟩ k l 0 2).2.2 := by
  evl
  inlined [(len), (k), (k + l)]

theorem LE.mutId_heap {blk len cap k l : Nat} (hb : blk ≠ 0) (hl : k + l ≤ len) : Checked okT ⟨some 1, blk, len, cap⟩ ⟨some 1, blk, len, cap⟩ (mutId little ⟨some 1, blk, len, cap⟩ k l 0 2).2.1 (mutId little ⟨some 1, blk, len, cap⟩ k l 0 2).2.2 := by
  evl
  heaped [(len), (k), (k + l)]

end Bsn1.Alias
