import Verif.Lemmas.Buffer
/-!
# The little-endian layout: what the words of the struct hold
-/

namespace Bsn1.Buf
namespace LE

theorem leNat_append (l : Bytes) (r : Bytes) : leNat (l ++ r) = leNat l + 256 ^ l.length * leNat r := by
  induction l with
  | nil => simp [leNat]
  | cons b l ih => simp only [List.cons_append, leNat, ih, List.length_cons, Nat.pow_succ]; ring

theorem leNat_lt (l : Bytes) : leNat l < 256 ^ l.length := by
  induction l with
  | nil => simp [leNat]
  | cons b l ih =>
    have := b.toNat_lt
    simp only [leNat, List.length_cons, Nat.pow_succ]
    omega

theorem leBytes_length (n w : Nat) : (leBytes n w).length = n := by
  induction n generalizing w with
  | zero => rfl
  | succ n ih => simp [leBytes, ih]

theorem leBytes_leNat (l : Bytes) : leBytes l.length (leNat l) = l := by
  induction l with
  | nil => rfl
  | cons b l ih =>
    have hb := b.toNat_lt
    have h1 : (b.toNat + 256 * leNat l) % 256 = b.toNat := by omega
    have h2 : (b.toNat + 256 * leNat l) / 256 = leNat l := by omega
    simp only [List.length_cons, leBytes, leNat, h1, h2, ih, UInt8.ofNat_toNat]

theorem leNat_leBytes (n w : Nat) (h : w < 256 ^ n) : leNat (leBytes n w) = w := by
  induction n generalizing w with
  | zero => simp at h; simp [leBytes, leNat, h]
  | succ n ih =>
    have h' : w / 256 < 256 ^ n := by rw [Nat.pow_succ] at h; omega
    simp only [leBytes, leNat, ih _ h', UInt8.toNat_ofNat']
    omega

theorem leBytes_unique (l : Bytes) (w : Nat) (h : leNat l = w) (n : Nat) (hn : l.length = n) : leBytes n w = l := by
  subst h hn
  exact leBytes_leNat l

theorem flag_eq : HEAP_FLAG = 2 ^ 63 := by decide
theorem mask_eq : LEN_MASK = 2 ^ 63 - 1 := by decide
theorem topMask_eq : ((2 ^ 64 - 1) ^^^ ((255 <<< (64 - 8)) % 2 ^ 64)) = 2 ^ 56 - 1 := by decide

theorem and_flag (w : Nat) (h : w < 2 ^ 63) : (w &&& HEAP_FLAG == 0) = true := by
  rw [flag_eq, beq_iff_eq]
  apply Nat.eq_of_testBit_eq
  intro i
  rw [Nat.testBit_and, Nat.testBit_two_pow, Nat.zero_testBit]
  by_cases e : 63 = i
  · subst e
    rw [Nat.testBit_lt_two_pow h]
    rfl
  · simp [e]

theorem and_flag_heap (n : Nat) (h : n < 2 ^ 63) : (2 ^ 63 + n &&& HEAP_FLAG) = 2 ^ 63 := by
  rw [flag_eq]
  apply Nat.eq_of_testBit_eq
  intro i
  rw [Nat.testBit_and, Nat.testBit_two_pow]
  by_cases e : 63 = i
  · subst e
    rw [Nat.testBit_two_pow_add_eq, Nat.testBit_lt_two_pow h]
    rfl
  · simp [e]

theorem and_flag_heap' (n : Nat) (h : n < 2 ^ 63) : (2 ^ 63 + n &&& HEAP_FLAG == 0) = false := by
  rw [and_flag_heap n h]
  decide

theorem and_mask (n : Nat) (h : n < 2 ^ 63) : (n &&& LEN_MASK) = n := by
  rw [mask_eq, Nat.and_two_pow_sub_one_eq_mod, Nat.mod_eq_of_lt h]

theorem and_mask_heap (n : Nat) (h : n < 2 ^ 63) : (2 ^ 63 + n &&& LEN_MASK) = n := by
  rw [mask_eq, Nat.and_two_pow_sub_one_eq_mod]
  omega

theorem or_flag (n : Nat) (h : n < 2 ^ 63) : (n ||| HEAP_FLAG) = 2 ^ 63 + n := by
  rw [Nat.or_comm, show HEAP_FLAG = 1 <<< 63 from rfl, ← Nat.shiftLeft_add_eq_or_of_lt h]
  rfl

theorem flag_or (n : Nat) (h : n < 2 ^ 63) : (HEAP_FLAG ||| n) = 2 ^ 63 + n := by
  rw [Nat.or_comm, or_flag n h]

/-- In inline mode: the last octet is the length, the other 23 are the data. -/
def InlineAt (b : LE) (data : Bytes) (len : Nat) : Prop := b.bytes = data ++ [UInt8.ofNat len] ∧ data.length = 23 ∧ len ≤ 23

/-- In heap mode: the three words. -/
def HeapAt (b : LE) (p cap len : Nat) : Prop :=
  b.bytes = leBytes 8 p ++ leBytes 8 cap ++ leBytes 8 (2 ^ 63 + len) ∧ p < usizeSize ∧ cap ≤ isizeMax ∧ len ≤ cap

theorem isizeMax_lt {n : Nat} (h : n ≤ isizeMax) : n < 2 ^ 63 := by
  have : isizeMax = 2 ^ 63 - 1 := by decide
  omega

theorem usize_pow : usizeSize = 256 ^ 8 := by decide

namespace InlineAt

variable {b : LE} {data : Bytes} {l : Nat} (h : InlineAt b data l)
include h

theorem len_eq : b.len_ = leNat (data.drop 16) + 2 ^ 56 * l := by
  obtain ⟨hb, hd, hl⟩ := h
  have e : (b.bytes.drop 16).take 8 = data.drop 16 ++ [UInt8.ofNat l] := by
    rw [hb, List.drop_append_of_le_length (by omega), List.take_of_length_le (by simp; omega)]
  have h7 : (data.drop 16).length = 7 := by simp [hd]
  rw [len_, word, e, leNat_append, h7]
  have : (256 : Nat) ^ 7 = 2 ^ 56 := by decide
  rw [this]
  simp only [leNat, UInt8.toNat_ofNat', Nat.mul_zero, Nat.add_zero]
  rw [Nat.mod_eq_of_lt (by omega)]

theorem low_lt : leNat (data.drop 16) < 2 ^ 56 := by
  have := leNat_lt (data.drop 16)
  have h7 : (data.drop 16).length = 7 := by simp [h.2.1]
  rw [h7] at this
  have e : (256 : Nat) ^ 7 = 2 ^ 56 := by decide
  omega

theorem isStack : b.isStack = true := by
  have := h.low_lt
  have := h.2.2
  rw [LE.isStack, h.len_eq]
  exact and_flag _ (by omega)

theorem len : b.len = l := by
  have := h.low_lt
  rw [LE.len, h.isStack, if_pos rfl, h.len_eq, Nat.shiftRight_eq_div_pow]
  omega

theorem capacity : b.capacity = 23 := by
  rw [LE.capacity, h.isStack, if_pos rfl]
  rfl

theorem setLen {n : Nat} (hn : n ≤ 23) : InlineAt (b.setLen n) data n := by
  have hlt := h.low_lt
  refine ⟨?_, h.2.1, hn⟩
  have hw : (b.len_ &&& ((2 ^ 64 - 1) ^^^ ((255 <<< (64 - 8)) % 2 ^ 64))) = leNat (data.drop 16) := by
    rw [topMask_eq, Nat.and_two_pow_sub_one_eq_mod, h.len_eq]
    omega
  have hs : (n <<< (64 - 8)) % 2 ^ 64 = n <<< 56 := by
    simp only [Nat.shiftLeft_eq, Nat.reduceSub]
    omega
  have ho : (leNat (data.drop 16) ||| n <<< 56) = leNat (data.drop 16 ++ [UInt8.ofNat n]) := by
    have h7 : (data.drop 16).length = 7 := by simp [h.2.1]
    rw [Nat.or_comm, ← Nat.shiftLeft_add_eq_or_of_lt hlt, leNat_append, h7, Nat.shiftLeft_eq]
    simp only [leNat, UInt8.toNat_ofNat', Nat.mul_zero, Nat.add_zero]
    rw [Nat.mod_eq_of_lt (by omega)]
    omega
  have hb := h.1
  rw [LE.setLen, h.isStack, if_pos rfl]
  simp only []
  rw [hw, hs, ho, setWord]
  simp only []
  rw [leBytes_unique (data.drop 16 ++ [UInt8.ofNat n]) _ rfl 8 (by simp [h.2.1]), hb]
  rw [List.take_append_of_le_length (by have := h.2.1; omega)]
  rw [List.drop_of_length_le (l := data ++ [UInt8.ofNat l]) (by have := h.2.1; simp; omega)]
  simp only [List.append_nil, ← List.append_assoc, List.take_append_drop]

theorem poke {off : Nat} {vals : Bytes} (ho : off + vals.length ≤ 23) (hp : Heap) :
    ∃ b', b.poke off vals hp = .ok b' hp ∧ InlineAt b' (patch data off vals) l := by
  have hd := h.2.1
  rw [LE.poke, h.isStack, if_pos rfl, if_pos (by exact ho), pure_run]
  refine ⟨_, rfl, ?_, ?_, h.2.2⟩
  · rw [h.1, List.take_append_of_le_length (by omega), List.drop_append_of_le_length (by omega), List.append_assoc]
    simp [patch]
  · simp [patch]; omega

theorem copyWithin {src dst n : Nat} (hs : src + n ≤ 23) (ho : dst + n ≤ 23) (hp : Heap) :
    ∃ b', b.copyWithin src dst n hp = .ok b' hp ∧ InlineAt b' (patch data dst ((data.drop src).take n)) l := by
  have hd := h.2.1
  have hn : ((data.drop src).take n).length = n := by simp; omega
  rw [LE.copyWithin, h.isStack, if_pos rfl, if_pos (by exact ⟨hs, ho⟩), pure_run]
  refine ⟨_, rfl, ?_, ?_, h.2.2⟩
  · rw [h.1, List.take_append_of_le_length (by omega), List.drop_append_of_le_length (by omega),
      List.drop_append_of_le_length (by omega), List.take_append_of_le_length (by simp; omega), List.append_assoc, patch, hn]
    simp
  · rw [patch_length _ _ _ (by omega), hd]

theorem peek {n : Nat} (hn : n ≤ 23) (hp : Heap) : b.peek n hp = .ok ((data.take n).map some) hp := by
  have hd := h.2.1
  rw [LE.peek, h.isStack, if_pos rfl, if_pos (by exact hn), pure_run, h.1, List.take_append_of_le_length (by omega)]

end InlineAt

theorem inlineAt_new : InlineAt new (List.replicate 23 0) 0 := ⟨by decide, rfl, by omega⟩

namespace HeapAt

variable {b : LE} {p cap l : Nat} (h : HeapAt b p cap l)
include h

theorem bounds : p < 256 ^ 8 ∧ cap < 2 ^ 63 ∧ l < 2 ^ 63 := by
  obtain ⟨_, h1, h2, h3⟩ := h
  rw [usize_pow] at h1
  exact ⟨h1, isizeMax_lt h2, isizeMax_lt (by omega)⟩

theorem data_ : b.data_ = p := by
  rw [LE.data_, word, h.1, List.drop_zero, List.append_assoc,
    List.take_append_of_le_length (by rw [leBytes_length]), List.take_of_length_le (by rw [leBytes_length]),
    leNat_leBytes _ _ h.bounds.1]

theorem cap_ : b.cap_ = cap := by
  have e : (256 : Nat) ^ 8 = 2 ^ 64 := by decide
  rw [LE.cap_, word, h.1, List.append_assoc, List.drop_append, leBytes_length, List.drop_of_length_le (by rw [leBytes_length]),
    List.nil_append, Nat.sub_self, List.drop_zero,
    List.take_append_of_le_length (by rw [leBytes_length]), List.take_of_length_le (by rw [leBytes_length]),
    leNat_leBytes _ _ (by have := h.bounds.2.1; omega)]

theorem len_eq : b.len_ = 2 ^ 63 + l := by
  have e : (256 : Nat) ^ 8 = 2 ^ 64 := by decide
  have hl : (leBytes 8 p ++ leBytes 8 cap).length = 16 := by simp [leBytes_length]
  rw [LE.len_, word, h.1, List.drop_append, hl, List.drop_of_length_le (by omega), List.nil_append, Nat.sub_self, List.drop_zero,
    List.take_of_length_le (by rw [leBytes_length]),
    leNat_leBytes _ _ (by have := h.bounds.2.2; omega)]

theorem isStack : b.isStack = false := by
  rw [LE.isStack, h.len_eq]
  exact and_flag_heap' _ h.bounds.2.2

theorem len : b.len = l := by
  rw [LE.len, h.isStack, h.len_eq]
  exact and_mask_heap _ h.bounds.2.2

theorem capacity : b.capacity = cap := by
  rw [LE.capacity, h.isStack]
  exact h.cap_

theorem setLen {n : Nat} (hn : n ≤ cap) : HeapAt (b.setLen n) p cap n := by
  have hl : (leBytes 8 p ++ leBytes 8 cap).length = 16 := by simp [leBytes_length]
  refine ⟨?_, h.2.1, h.2.2.1, hn⟩
  rw [LE.setLen, h.isStack, if_neg (by decide), setWord, h.1, or_flag _ (by have := h.bounds.2.1; omega)]
  simp only []
  rw [List.take_append_of_le_length (by omega), List.take_of_length_le (by omega),
    List.drop_of_length_le (by simp [leBytes_length]), List.append_nil]

theorem poke {off : Nat} {vals : Bytes} {hp : Heap} {cells : List Cell} (hb : hp.blocks p = some cells)
    (ho : off + vals.length ≤ cells.length) : b.poke off vals hp = .ok b
      ⟨hp.blocks.put p (some (patch cells off (vals.map some))), hp.clock⟩ := by
  rw [LE.poke, h.isStack, if_neg (by decide), h.data_]
  rw [bind_ok (store_spec p off (vals.map some) cells hp hb (by simpa using ho)), pure_run]

theorem copyWithin {src dst n : Nat} {hp : Heap} {cells : List Cell} (hb : hp.blocks p = some cells) (hs : src + n ≤ cells.length)
    (ho : dst + n ≤ cells.length) : b.copyWithin src dst n hp = .ok b
      ⟨hp.blocks.put p (some (patch cells dst ((cells.drop src).take n))), hp.clock⟩ := by
  rw [LE.copyWithin, h.isStack, if_neg (by decide), h.data_, bind_ok (load_at p src n cells hp hb hs)]
  rw [bind_ok (store_spec p dst _ cells hp hb (by simp; omega)), pure_run]

theorem peek {n : Nat} {hp : Heap} {cells : List Cell} (hb : hp.blocks p = some cells) (hn : n ≤ cells.length) :
    b.peek n hp = .ok (cells.take n) hp := by
  rw [LE.peek, h.isStack, if_neg (by decide), h.data_]
  exact load_spec p n cells hp hb hn

end HeapAt

/-- Assigning all three words. -/
theorem heapAt_set (b : LE) (hb : b.bytes.length = 24) {p cap len : Nat} (h1 : p < usizeSize) (h2 : cap ≤ isizeMax)
    (h3 : len ≤ cap) : HeapAt (((b.setWord 0 p).setWord 8 cap).setWord 16 (len ||| HEAP_FLAG)) p cap len := by
  refine ⟨?_, h1, h2, h3⟩
  have hl : len < 2 ^ 63 := isizeMax_lt (by omega)
  simp only [setWord, or_flag _ hl, List.take_zero, List.nil_append]
  have e1 : (leBytes 8 p ++ b.bytes.drop (0 + 8)).take 8 = leBytes 8 p := by
    rw [List.take_append_of_le_length (by rw [leBytes_length]), List.take_of_length_le (by rw [leBytes_length])]
  have e2 : (leBytes 8 p ++ b.bytes.drop (0 + 8)).drop (8 + 8) = b.bytes.drop 16 := by
    rw [List.drop_append, leBytes_length, List.drop_of_length_le (by rw [leBytes_length]; omega)]
    simp
  rw [e1, e2]
  have e3 : (leBytes 8 p ++ leBytes 8 cap ++ b.bytes.drop 16).take 16 = leBytes 8 p ++ leBytes 8 cap := by
    rw [List.take_append_of_le_length (by simp [leBytes_length]), List.take_of_length_le (by simp [leBytes_length])]
  have e4 : (leBytes 8 p ++ leBytes 8 cap ++ b.bytes.drop 16).drop (16 + 8) = [] :=
    List.drop_of_length_le (by simp [leBytes_length, hb])
  rw [e3, e4, List.append_nil]

/-- Assigning the first two words keeps the third. -/
theorem heapAt_move {b : LE} {p cap len p' cap' : Nat} (h : HeapAt b p cap len) (h1 : p' < usizeSize) (h2 : cap' ≤ isizeMax)
    (h3 : len ≤ cap') : HeapAt ((b.setWord 0 p').setWord 8 cap') p' cap' len := by
  refine ⟨?_, h1, h2, h3⟩
  simp only [setWord, List.take_zero, List.nil_append, h.1]
  have e0 : (leBytes 8 p ++ leBytes 8 cap ++ leBytes 8 (2 ^ 63 + len)).drop (0 + 8) = leBytes 8 cap ++ leBytes 8 (2 ^ 63 + len) := by
    rw [List.append_assoc, List.drop_append, leBytes_length, List.drop_of_length_le (by rw [leBytes_length])]
    simp
  rw [e0]
  have e1 : ∀ l, (leBytes 8 p' ++ l).take 8 = leBytes 8 p' := by
    intro l
    rw [List.take_append_of_le_length (by rw [leBytes_length]), List.take_of_length_le (by rw [leBytes_length])]
  rw [e1, ← List.append_assoc, List.drop_append, List.drop_of_length_le (by simp [leBytes_length])]
  simp [leBytes_length]

end LE
end Bsn1.Buf
