import Verif.Props.Raw
/-!
# Exactly which octets `with_id_length` leaves uninitialised
-/

namespace Bsn1

open Buf Raw Spec

/-- What `with_capacity` gives: the inline storage, which is zero, or the block just as the allocator handed it out. -/
structure Gives (I : Impl) (Rep : I.B → Heap → List Cell → Nat → Option Nat → Prop) (init : Nat) : Prop where
  new : ∀ h, Rep I.new h (List.replicate init (some 0)) 0 none
  small : ∀ m (al : Allocator) n h, n ≤ init → I.withCapacity m al n h = .ok I.new h
  refused : ∀ m (al : Allocator) n h, init < n → n ≤ isizeMax → al h.clock h.blocks n = none → I.withCapacity m al n h = .abort
  large : ∀ m {al : Allocator} n h a junk, al.Valid → init < n → n ≤ isizeMax → al h.clock h.blocks n = some (a, junk) →
    ∃ b h', I.withCapacity m al n h = .ok b h' ∧ Rep b h' junk 0 (some a)

theorem alloc_some {al : Allocator} {n : Nat} {h : Heap} {a : Nat} {junk : List Cell} (h0 : 0 < n) (hn : n ≤ isizeMax)
    (e : al h.clock h.blocks n = some (a, junk)) : alloc al n h = .ok a ⟨h.blocks.put a (some junk), h.clock + 1⟩ := by
  rw [alloc, if_neg (by omega), e]

theorem alloc_null {al : Allocator} {n : Nat} {h : Heap} (h0 : 0 < n) (hn : n ≤ isizeMax)
    (e : al h.clock h.blocks n = none) : alloc al n h = .ok 0 ⟨h.blocks, h.clock + 1⟩ := by
  rw [alloc, if_neg (by omega), e]

theorem le_len_setWord (b : LE) (p c : Nat) : ((b.setWord 0 p).setWord 8 c).len = b.len := by
  have e16 : (((b.setWord 0 p).setWord 8 c).bytes.drop 16) = b.bytes.drop 16 := by
    simp only [LE.setWord, List.take_zero, List.nil_append]
    rw [List.drop_append, List.drop_of_length_le (by simp [LE.leBytes_length]), List.drop_drop, List.drop_append,
      List.drop_of_length_le (by simp [LE.leBytes_length]), List.drop_drop]
    simp [LE.leBytes_length]
  have ew : ((b.setWord 0 p).setWord 8 c).len_ = b.len_ := by
    rw [LE.len_, LE.word, e16]; rfl
  rw [LE.len, LE.isStack, ew]
  rfl

theorem le_gives : Gives little LE.Rep 23 where
  new := LE.rep_new
  small m al n h hn := by
    have hl := LE.rep_len (LE.rep_new h)
    have hc := LE.rep_capacity (LE.rep_new h)
    have hu := usizeSize_eq
    change LE.withCapacity m al n h = _
    rw [LE.withCapacity, LE.reserve, hl, bind_ok (usizeAdd_ok m (by omega) h), hc, if_pos (by simpa using hn)]
    rfl
  refused m al n h h0 hn e := by
    have hl := LE.rep_len (LE.rep_new h)
    have hc := LE.rep_capacity (LE.rep_new h)
    have hu := isizeMax_lt
    change LE.withCapacity m al n h = _
    rw [LE.withCapacity, LE.reserve, hl, bind_ok (usizeAdd_ok m (by omega) h), hc, if_neg (by simp; omega), Nat.zero_add]
    have hs : LE.new.isStack = true := by decide
    rw [hs, if_pos rfl, bind_ok (layoutArray_ok hn h), bind_ok (alloc_null (by omega) hn e), if_pos rfl]
    rfl
  large m al n h a junk hv h0 hn e := by
    have hl := LE.rep_len (LE.rep_new h)
    have hc := LE.rep_capacity (LE.rep_new h)
    have hu := isizeMax_lt
    obtain ⟨a1, a2, a3, a4⟩ := hv _ _ _ _ _ e
    change ∃ b h', LE.withCapacity m al n h = _ ∧ _
    rw [LE.withCapacity, LE.reserve, hl, bind_ok (usizeAdd_ok m (by omega) h), hc, if_neg (by simp; omega), Nat.zero_add]
    have hs : LE.new.isStack = true := by decide
    rw [hs, if_pos rfl, bind_ok (layoutArray_ok hn h), bind_ok (alloc_some (by omega) hn e), if_neg (by omega)]
    have hp : LE.new.peek 0 ⟨h.blocks.put a (some junk), h.clock + 1⟩ = .ok [] ⟨h.blocks.put a (some junk), h.clock + 1⟩ := by
      rw [LE.peek, hs, if_pos rfl]; rfl
    rw [bind_ok hp, bind_ok (store_spec a 0 [] junk _ (put_self ..) (by simp)), pure_run, le_len_setWord, hl]
    have hh' := Holds.heap (init := 23) (h := ⟨(h.blocks.put a (some junk)).put a (some (patch junk 0 [])), h.clock + 1⟩) (p := a)
      (len := 0) (cells := junk) a1 a2 (by simp [patch, put_self]) (by omega) (by omega) (by omega)
    rw [a4] at hh'
    exact ⟨_, _, rfl, ⟨.heap a n 0, LE.heapAt_set LE.new (by decide) a2 hn (by omega), hh'⟩⟩

theorem ue_gives : Gives universal UE.Rep 16 where
  new := UE.rep_new
  small m al n h hn := by
    change UE.withCapacity m al n h = _
    rw [UE.withCapacity, if_pos (by simpa only [UE.INIT_CAPACITY] using hn)]
    rfl
  refused m al n h h0 hn e := by
    change UE.withCapacity m al n h = _
    rw [UE.withCapacity, if_neg (by simp only [UE.INIT_CAPACITY]; omega), UE.heapNew]
    refine bind_abort ?_
    rw [bind_ok (debugAssert_ok m (by omega) h), bind_ok (layoutArray_ok hn h), bind_ok (alloc_null (by omega) hn e), if_pos rfl]
    rfl
  large m al n h a junk hv h0 hn e := by
    obtain ⟨a1, a2, a3, a4⟩ := hv _ _ _ _ _ e
    change ∃ b h', UE.withCapacity m al n h = _ ∧ _
    have hh : UE.heapNew m al n h = .ok (a, n) ⟨h.blocks.put a (some junk), h.clock + 1⟩ := by
      rw [UE.heapNew, bind_ok (debugAssert_ok m (by omega) h), bind_ok (layoutArray_ok hn h), bind_ok (alloc_some (by omega) hn e),
        if_neg (by omega), pure_run]
    rw [UE.withCapacity, if_neg (by simp only [UE.INIT_CAPACITY]; omega), bind_ok hh, pure_run, LE.or_flag 0 (by decide)]
    have hh' := Holds.heap (init := 16) (h := ⟨h.blocks.put a (some junk), h.clock + 1⟩) (p := a) (len := 0) (cells := junk) a1 a2
      (put_self ..) (by omega) (by omega) (by omega)
    rw [a4] at hh'
    exact ⟨_, _, rfl, ⟨.heap a n 0, ⟨rfl, by decide⟩, hh'⟩⟩

/-- The octets that a value has whose header is written to new storage: the header; then, if all fits into the inline storage of `init`
octets, zeros; otherwise what the block had that the allocator handed out. -/
def ShowsBlock (I : Impl) (init : Nat) (al : Allocator) (h : Heap) (hdr : Bytes) (n : Nat) (x : M I.B) : Prop :=
  if hdr.length + n ≤ init then
    ∃ b h', x h = .ok b h' ∧ h'.blocks = h.blocks ∧ I.cells b h' = .ok (hdr.map some ++ List.replicate n (some 0)) h'
  else match al h.clock h.blocks (hdr.length + n) with
    | none => x h = .abort
    | some (_, block) => ∃ b h', x h = .ok b h' ∧ I.cells b h' = .ok (hdr.map some ++ block.drop hdr.length) h'

theorem showsBlock_step {I : Impl} {Rep : I.B → Heap → List Cell → Nat → Option Nat → Prop} (hc : Correct I Rep) {m : Build}
    {b : I.B} {h : Heap} {s : List Cell} {fp : Option Nat} {id len : Bytes} {n : Nat} (hr : Rep b h s 0 fp)
    (hs : id.length + len.length + n ≤ s.length) :
    ∃ b' h', (do
      let b ← I.poke b 0 id
      let b ← I.poke b id.length len
      I.setLenChecked m b (id.length + len.length + n) : M I.B) h = .ok b' h' ∧ Frame h h' fp fp ∧
      I.cells b' h' = .ok ((id ++ len).map some ++ (s.drop (id.length + len.length)).take n) h' := by
  obtain ⟨b1, h1, e1, hr1, f1⟩ := hc.poke 0 id hr (by omega)
  rw [patch_zero] at hr1
  obtain ⟨b2, h2, e2, hr2, f2⟩ := hc.poke id.length len hr1 (by simp; omega)
  have e := patch_append (id.map some) (s.drop (id.map some).length) (len.map some)
  rw [List.length_map] at e
  rw [List.length_map, e] at hr2
  obtain ⟨b3, e3, hr3⟩ := hc.setLen m (id.length + len.length + n) hr2 (by simp; omega)
  refine ⟨b3, h2, ?_, f1.trans f2, ?_⟩
  · rw [bind_ok e1, bind_ok e2, Impl.setLenChecked, bind_ok (hc.capacity hr2), bind_ok (debugAssert_ok m (by simp; omega) h2), e3]
  · rw [hc.cells hr3, ← List.map_append, List.take_append, List.take_of_length_le (by simp)]
    simp

theorem showsBlock {I : Impl} {Rep : I.B → Heap → List Cell → Nat → Option Nat → Prop} {init : Nat} (hc : Correct I Rep)
    (hg : Gives I Rep init) (m : Build) {al : Allocator} (hv : al.Valid) (h : Heap) (id len : Bytes) (n : Nat)
    (hn : id.length + len.length + n ≤ isizeMax) :
    ShowsBlock I init al h (id ++ len) n (Raw.Der.withHeader I m al id len n) := by
  have hm := isizeMax_lt
  have e : Raw.Der.withHeader I m al id len n h = (do
      let b ← I.withCapacity m al (id.length + len.length + n)
      let b ← I.poke b 0 id
      let b ← I.poke b id.length len
      I.setLenChecked m b (id.length + len.length + n) : M I.B) h := by
    rw [Raw.Der.withHeader, bind_ok (usizeAdd_ok m (by omega) h), bind_ok (usizeAdd_ok m (by omega) h)]
  unfold ShowsBlock
  rw [e, List.length_append]
  split
  · rename_i hle
    obtain ⟨b', h', e1, f, e2⟩ := showsBlock_step hc (m := m) (id := id) (len := len) (n := n) (hg.new h) (by simpa using hle)
    refine ⟨b', h', ?_, ?_, ?_⟩
    · rw [bind_ok (hg.small m al _ h hle)]
      exact e1
    · simpa [Frame, erase_none] using f.symm
    · rw [e2, List.drop_replicate, List.take_replicate, Nat.min_eq_left (by omega)]
  · rename_i hle
    split
    · rename_i ha
      exact bind_abort (hg.refused m al _ h (by omega) hn ha)
    · rename_i a block ha
      obtain ⟨b, h1, e0, hr⟩ := hg.large m _ h a block hv (by omega) hn ha
      have hl := (hv _ _ _ _ _ ha).2.2.2
      obtain ⟨b', h', e1, f, e2⟩ := showsBlock_step hc (m := m) (id := id) (len := len) (n := n) hr (by omega)
      refine ⟨b', h', ?_, ?_⟩
      · rw [bind_ok e0]
        exact e1
      · rw [e2, List.take_of_length_le (by simp; omega)]

/-- **C79.** Exactly which octets are shown by a value made by `Der::with_id_length` or `Ber::with_id_length_indefinite`, before the
contents are written: after the header they are zeros if the value fits into the inline storage (23 octets, or 16 in the other layout),
and otherwise what the allocator's block happened to have.  So octets are shown that are not initialised if and only if the value does
not fit and some octet of the block after the header is not initialised. -/
theorem C79_with_id_length_exact (m : Build) (al : Allocator) (hv : al.Valid) (h : Heap) (id : Bytes) (n : Nat) :
    (id.length + (lenOctets n).length + n ≤ isizeMax →
      ShowsBlock little 23 al h (id ++ lenOctets n) n (Raw.Der.withIdLength little m al id n) ∧
      ShowsBlock universal 16 al h (id ++ lenOctets n) n (Raw.Der.withIdLength universal m al id n)) ∧
    (id.length + 1 + n ≤ isizeMax →
      ShowsBlock little 23 al h (id ++ [0x80]) n (Raw.Ber.withIdLengthIndefinite little m al id n) ∧
      ShowsBlock universal 16 al h (id ++ [0x80]) n (Raw.Ber.withIdLengthIndefinite universal m al id n)) := by
  have hm := isizeMax_lt
  have hu := usizeSize_eq
  constructor
  · intro hn
    have e : ∀ I, Raw.Der.withIdLength I m al id n h = Raw.Der.withHeader I m al id (lenOctets n) n h := fun I => by
      rw [Raw.Der.withIdLength, bind_ok (Raw.liftRes_ok (toBytes_definite (by omega)))]
    unfold ShowsBlock
    rw [e, e]
    exact ⟨showsBlock LE.correct le_gives m hv h id (lenOctets n) n hn, showsBlock UE.correct ue_gives m hv h id (lenOctets n) n hn⟩
  · intro hn
    have e : ∀ I, Raw.Ber.withIdLengthIndefinite I m al id n h = Raw.Der.withHeader I m al id [0x80] n h := fun I => by
      rw [Raw.Ber.withIdLengthIndefinite, bind_ok (Raw.liftRes_ok toBytes_indefinite)]
      rfl
    unfold ShowsBlock
    rw [e, e]
    exact ⟨showsBlock LE.correct le_gives m hv h id [0x80] n hn, showsBlock UE.correct ue_gives m hv h id [0x80] n hn⟩

/-- A value of 20 octets is zeros in one layout and not initialised in the other: `bump` hands out blocks that are not initialised. -/
example (m : Build) : bump.Valid ∧
    (∃ b h', Raw.Der.withIdLength little m bump [0x04] 18 noHeap = .ok b h' ∧ h'.blocks = noHeap.blocks ∧
      little.cells b h' = .ok (([0x04, 18] : Bytes).map some ++ List.replicate 18 (some 0)) h') ∧
    (∃ b h', Raw.Der.withIdLength universal m bump [0x04] 18 noHeap = .ok b h' ∧
      universal.cells b h' = .ok (([0x04, 18] : Bytes).map some ++ List.replicate 18 none) h') := by
  have h := (C79_with_id_length_exact m bump bump_valid noHeap [0x04] 18).1 (by decide +kernel)
  exact ⟨bump_valid, h.1, h.2⟩

end Bsn1
