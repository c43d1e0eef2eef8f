import Verif.Lemmas.TargetMut
/-!
# C118: values that grow and shrink, on targets of other word sizes
-/

namespace Bsn1
open Spec

/-- C118.  With 8 octets, the functions with a word size are those of the rest of the model. -/
theorem C118_main_model (t : Target) (h : t.word = 8) (m : Build) (junk : Nat → UInt8) (d bs id c : Bytes) (b : UInt8) (n : Nat) (parts : List Bytes) :
    t.derPush m junk d b = Der.push m junk d b ∧ t.derExtend m junk d bs = Der.extendFromSlice m junk d bs ∧
    t.derTruncate d n = Der.truncate d n ∧ t.berPush m junk d b = Ber.push m junk d b ∧
    t.berExtend m junk d bs = Ber.extendFromSlice m junk d bs ∧ t.berTruncate m d n = Ber.truncate m d n ∧
    t.newIndefinite m junk id c = Ber.newIndefinite m junk id c ∧
    t.fromIter m false id parts = Der.fromIdIterator m id parts ∧ t.fromIter m true id parts = Ber.fromIdIteratorIndefinite m id parts := by
  obtain ⟨w⟩ := t
  subst h
  exact ⟨Target.w8_derExtend m junk d [b], Target.w8_derExtend m junk d bs, Target.w8_derTruncate d n, Target.w8_berExtend m junk d [b],
    Target.w8_berExtend m junk d bs, Target.w8_berTruncate m d n, Target.w8_newIndefinite m junk id c, (Target.w8_fromIter m id parts).1,
    (Target.w8_fromIter m id parts).2⟩

example (d : Bytes) : (Target.mk 8).derTruncate d 3 = Der.truncate d 3 :=
  (C118_main_model (Target.mk 8) rfl .debug (fun _ => 0) d [] [] [] 0 3 []).2.2.1

/-! ### One operation -/

/-- The operation on a `Der` of the target. -/
def ContentsOp.derOn (t : Target) (m : Build) (junk : Nat → UInt8) : ContentsOp → Bytes → Res Bytes
  | .push b, d => t.derPush m junk d b
  | .extend bs, d => t.derExtend m junk d bs
  | .truncate n, d => t.derTruncate d n

/-- The operation on a `Ber` of the target. -/
def ContentsOp.berOn (t : Target) (m : Build) (junk : Nat → UInt8) : ContentsOp → Bytes → Res Bytes
  | .push b, d => t.berPush m junk d b
  | .extend bs, d => t.berExtend m junk d bs
  | .truncate n, d => t.berTruncate m d n

/-- The octets that the operation is given leave the target room for a few more. -/
def ContentsOp.Room (t : Target) : ContentsOp → Prop
  | .extend bs => bs.length + t.word ≤ t.isizeMax
  | _ => True

theorem tlv_take_le (id c : Bytes) (n : Nat) : (tlv id (c.take n)).length ≤ (tlv id c).length := by
  have h : (c.take n).length ≤ c.length := by rw [List.length_take]; omega
  have := lenOctets_length_mono h
  rw [tlv_length, tlv_length]; omega

/-- C118.  `push`, `extend_from_slice` and `truncate` of a `Der` or a `Ber` of definite length, on any target: the contents change like a plain
vector and the length octets with them, whenever the new value is not longer than `isize::MAX` of the target; else they panic.  So in both builds. -/
theorem C118_definite_exact (t : Target) (ht : t.Real) (m : Build) (junk : Nat → UInt8) (id c : Bytes) (hid : IsId id)
    (h0 : (tlv id c).length ≤ t.isizeMax) (op : ContentsOp) (hop : op.Room t) :
    op.derOn t m junk (tlv id c) = (if (tlv id (op.vec c)).length ≤ t.isizeMax then .ok (tlv id (op.vec c)) else .panic) ∧
      op.berOn t m junk (tlv id c) = op.derOn t m junk (tlv id c) := by
  have hw := ht.le
  have hi := (Target.isizeMax_lt (t := t) (by omega)).1
  have h2 := Target.two_isizeMax (t := t) (by omega)
  have hc : c.length ≤ t.isizeMax := by rw [tlv_length] at h0; omega
  have hl := Target.length_tlv (t := t) hw.2 hid (c := c) (by omega)
  have hr : 1 + t.word ≤ t.isizeMax := by rcases ht with h | h | h <;> simp [Target.isizeMax, Target.usizeSize, h]
  constructor
  · cases op with
    | push b => exact Target.derExtend_tlv (by omega) hw.2 m junk hid c [b] h0 hr
    | extend bs => exact Target.derExtend_tlv (by omega) hw.2 m junk hid c bs h0 hop
    | truncate n =>
      have := tlv_take_le id c n
      rw [if_pos (by rw [ContentsOp.vec]; omega)]
      exact Target.derTruncate_tlv (by omega) hw.2 hid c hc n
  · cases op <;>
      simp only [ContentsOp.derOn, ContentsOp.berOn, Target.derPush, Target.berPush, Target.berExtend, Target.berTruncate, hl, Res.bind_ok]

/-- C118.  The same for a `Ber` of indefinite length: only the contents change. -/
theorem C118_indefinite_exact (t : Target) (ht : t.Real) (m : Build) (junk : Nat → UInt8) (id c : Bytes) (hid : IsId id)
    (h0 : (id ++ [0x80] ++ c).length ≤ t.isizeMax) (op : ContentsOp) (hop : op.Room t) :
    op.berOn t m junk (id ++ [0x80] ++ c) =
      if (id ++ [0x80] ++ op.vec c).length ≤ t.isizeMax then .ok (id ++ [0x80] ++ op.vec c) else .panic := by
  have hw := ht.le
  have hr : 1 + t.word ≤ t.isizeMax := by rcases ht with h | h | h <;> simp [Target.isizeMax, Target.usizeSize, h]
  cases op with
  | push b => exact Target.berExtend_indef (by omega) m junk hid c [b] h0 (by simp; omega)
  | extend bs =>
    have : bs.length + t.word ≤ t.isizeMax := hop
    exact Target.berExtend_indef (by omega) m junk hid c bs h0 (by omega)
  | truncate n =>
    have e := Target.berTruncate_indef (t := t) (by omega) m hid c h0 n
    rw [if_pos]
    · exact e
    · simp only [ContentsOp.vec, List.length_append, List.length_take] at h0 ⊢; omega

/-- A 127-octet value gets a second octet of length on 16 bits; a 32000-octet one does not get 1000 octets more. -/
example : (ContentsOp.push 7).derOn (Target.mk 2) .debug (fun _ => 0) (tlv [0x04] (List.replicate 127 1)) =
      .ok (tlv [0x04] (List.replicate 127 1 ++ [7])) ∧
    (ContentsOp.extend (List.replicate 1000 2)).derOn (Target.mk 2) .release (fun _ => 0) (tlv [0x04] (List.replicate 32000 1)) = .panic := by
  have hid : IsId [0x04] := ⟨0, 0, 4, by decide, by decide, by decide +kernel⟩
  have l1 : (lenOctets 32000).length = 3 := by decide +kernel
  have l2 : (lenOctets 33000).length = 3 := by decide +kernel
  have hm : (Target.mk 2).isizeMax = 32767 := by decide
  generalize hx : (List.replicate 32000 1 : Bytes) = x
  generalize hy : (List.replicate 1000 2 : Bytes) = y
  have hxl : x.length = 32000 := by rw [← hx, List.length_replicate]
  have hyl : y.length = 1000 := by rw [← hy, List.length_replicate]
  constructor
  · rw [(C118_definite_exact (Target.mk 2) (.inl rfl) .debug _ [0x04] _ hid (by decide +kernel) (.push 7) trivial).1, if_pos (by decide +kernel)]
    rfl
  · rw [(C118_definite_exact (Target.mk 2) (.inl rfl) .release _ [0x04] x hid (by rw [tlv_length, hxl, l1, hm]; decide) (.extend y)
      (by show y.length + 2 ≤ _; rw [hyl, hm]; decide)).1, if_neg]
    rw [ContentsOp.vec, tlv_length, List.length_append, hxl, hyl, l2, hm]
    decide

example : (ContentsOp.truncate 1).berOn (Target.mk 4) .debug (fun _ => 0) [0x30, 0x80, 1, 2, 3] = .ok [0x30, 0x80, 1] :=
  C118_indefinite_exact (Target.mk 4) (.inr (.inl rfl)) .debug _ [0x30] [1, 2, 3] ⟨0, 1, 16, by decide, by decide, by decide +kernel⟩ (by decide)
    (.truncate 1) trivial

/-- C118.  `Ber::new_indefinite` of parts that the target can hold: the three parts in a row if they fit together, else a panic. -/
theorem C118_new_indefinite_exact (t : Target) (ht : t.Real) (m : Build) (junk : Nat → UInt8) (id c : Bytes) (hid : IsId id)
    (h1 : id.length < t.isizeMax) (h2 : c.length ≤ t.isizeMax) :
    t.newIndefinite m junk id c = if (id ++ [0x80] ++ c).length ≤ t.isizeMax then .ok (id ++ [0x80] ++ c) else .panic :=
  Target.newIndefinite_value (by have := ht.le; omega) m junk hid c h1 h2

example : (Target.mk 2).newIndefinite .debug (fun _ => 9) [0x30] [1, 2, 3] = .ok [0x30, 0x80, 1, 2, 3] :=
  C118_new_indefinite_exact (Target.mk 2) (.inl rfl) .debug _ [0x30] [1, 2, 3] ⟨0, 1, 16, by decide, by decide, by decide +kernel⟩ (by decide) (by decide)

/-! ### Histories -/

/-- A history of operations on a `Der` of the target. -/
def runDerOn (t : Target) (m : Build) : List ((Nat → UInt8) × ContentsOp) → Bytes → Res Bytes
  | [], d => .ok d
  | (junk, op) :: r, d => (op.derOn t m junk d).bind (runDerOn t m r)

/-- A history of operations on a `Ber` of the target. -/
def runBerOn (t : Target) (m : Build) : List ((Nat → UInt8) × ContentsOp) → Bytes → Res Bytes
  | [], d => .ok d
  | (junk, op) :: r, d => (op.berOn t m junk d).bind (runBerOn t m r)

theorem run_exact (max : Nat) (f : Bytes → Bytes) (P : ContentsOp → Prop) (step : (Nat → UInt8) → ContentsOp → Bytes → Res Bytes)
    (run : List ((Nat → UInt8) × ContentsOp) → Bytes → Res Bytes) (r0 : ∀ d, run [] d = .ok d)
    (r1 : ∀ j o r d, run ((j, o) :: r) d = (step j o d).bind (run r))
    (hs : ∀ j o c, P o → (f c).length ≤ max → step j o (f c) = if (f (o.vec c)).length ≤ max then .ok (f (o.vec c)) else .panic) :
    ∀ (ops : List ((Nat → UInt8) × ContentsOp)) (c : Bytes), (f c).length ≤ max → (∀ x ∈ ops, P x.2) →
      ((∀ k, (f (runVec (ops.take k) c)).length ≤ max) → run ops (f c) = .ok (f (runVec ops c))) ∧
      ((∃ k, max < (f (runVec (ops.take k) c)).length) → run ops (f c) = .panic)
  | [], c, h0, _ => ⟨fun _ => r0 _, fun ⟨k, hk⟩ => by simp only [List.take_nil, runVec] at hk; omega⟩
  | (j, o) :: r, c, h0, hp => by
    have hstep := hs j o c (hp (j, o) (by simp)) h0
    have hp' : ∀ x ∈ r, P x.2 := fun x hx => hp x (by simp [hx])
    rw [r1, hstep]
    constructor
    · intro h
      have hf : (f (o.vec c)).length ≤ max := by simpa [runVec] using h 1
      rw [if_pos hf]
      exact (run_exact max f P step run r0 r1 hs r (o.vec c) hf hp').1 fun k => by simpa [runVec] using h (k + 1)
    · rintro ⟨k, hk⟩
      by_cases hf : (f (o.vec c)).length ≤ max
      · rw [if_pos hf]
        cases k with
        | zero => simp only [List.take_zero, runVec] at hk; omega
        | succ k => exact (run_exact max f P step run r0 r1 hs r (o.vec c) hf hp').2 ⟨k, by simpa [runVec] using hk⟩
      · rw [if_neg hf]; rfl

/-- C118.  A history of such operations ends, on any target and in both builds, with the value a plain vector would hold, if that value fits after each
operation; and with a panic, at the first operation after which it does not.  For a `Der` and for a `Ber` of either form. -/
theorem C118_history_exact (t : Target) (ht : t.Real) (m : Build) (id c : Bytes) (hid : IsId id) (ops : List ((Nat → UInt8) × ContentsOp))
    (hops : ∀ x ∈ ops, x.2.Room t) :
    ((tlv id c).length ≤ t.isizeMax →
      ((∀ k, (tlv id (runVec (ops.take k) c)).length ≤ t.isizeMax) →
        runDerOn t m ops (tlv id c) = .ok (tlv id (runVec ops c)) ∧ runBerOn t m ops (tlv id c) = .ok (tlv id (runVec ops c))) ∧
      ((∃ k, t.isizeMax < (tlv id (runVec (ops.take k) c)).length) →
        runDerOn t m ops (tlv id c) = .panic ∧ runBerOn t m ops (tlv id c) = .panic)) ∧
    ((id ++ [0x80] ++ c).length ≤ t.isizeMax →
      ((∀ k, (id ++ [0x80] ++ runVec (ops.take k) c).length ≤ t.isizeMax) →
        runBerOn t m ops (id ++ [0x80] ++ c) = .ok (id ++ [0x80] ++ runVec ops c)) ∧
      ((∃ k, t.isizeMax < (id ++ [0x80] ++ runVec (ops.take k) c).length) → runBerOn t m ops (id ++ [0x80] ++ c) = .panic)) := by
  refine ⟨fun h0 => ?_, fun h0 => ?_⟩
  · have hd := run_exact t.isizeMax (tlv id) (·.Room t) (fun j o d => o.derOn t m j d) (runDerOn t m) (fun _ => rfl) (fun _ _ _ _ => rfl)
      (fun j o c ho h => (C118_definite_exact t ht m j id c hid h o ho).1) ops c h0 hops
    have hb := run_exact t.isizeMax (tlv id) (·.Room t) (fun j o d => o.berOn t m j d) (runBerOn t m) (fun _ => rfl) (fun _ _ _ _ => rfl)
      (fun j o c ho h => by
        have := C118_definite_exact t ht m j id c hid h o ho
        show o.berOn t m j (tlv id c) = _
        rw [this.2, this.1]) ops c h0 hops
    exact ⟨fun h => ⟨hd.1 h, hb.1 h⟩, fun h => ⟨hd.2 h, hb.2 h⟩⟩
  · exact run_exact t.isizeMax (fun c => id ++ [0x80] ++ c) (·.Room t) (fun j o d => o.berOn t m j d) (runBerOn t m) (fun _ => rfl)
      (fun _ _ _ _ => rfl) (fun j o c ho h => C118_indefinite_exact t ht m j id c hid h o ho) ops c h0 hops

example : runDerOn (Target.mk 2) .debug [(fun _ => 1, .push 7), (fun _ => 2, .extend [8, 9]), (fun _ => 3, .truncate 3)] [0x04, 0x01, 0x05] =
      .ok [0x04, 0x03, 5, 7, 8] ∧
    runBerOn (Target.mk 4) .release [(fun _ => 1, .extend [0, 0]), (fun _ => 2, .truncate 1), (fun _ => 3, .push 6)] [0x30, 0x80, 0x05] =
      .ok [0x30, 0x80, 5, 6] := by
  decide +kernel

/-- C118.  What a history yields on one target it yields on every bigger one. -/
theorem C118_bigger_target (a b : Target) (ha : a.Real) (hb : b.Real) (hab : a.word ≤ b.word) (m m' : Build) (id c v : Bytes) (hid : IsId id)
    (h0 : (tlv id c).length ≤ a.isizeMax) (ops : List ((Nat → UInt8) × ContentsOp)) (hops : ∀ x ∈ ops, x.2.Room a)
    (h : runDerOn a m ops (tlv id c) = .ok v) : runDerOn b m' ops (tlv id c) = .ok v := by
  have hmax : a.isizeMax + b.word ≤ b.isizeMax + a.word := by
    rcases ha with h1 | h1 | h1 <;> rcases hb with h2 | h2 | h2 <;> simp [Target.isizeMax, Target.usizeSize, h1, h2] at hab ⊢
  have hops' : ∀ x ∈ ops, x.2.Room b := fun x hx => by
    have := hops x hx
    revert this
    cases x.2 with
    | extend bs => intro h; have : bs.length + a.word ≤ a.isizeMax := h; show bs.length + b.word ≤ b.isizeMax; omega
    | push => exact fun h => h
    | truncate => exact fun h => h
  have ea := ((C118_history_exact a ha m id c hid ops hops).1 h0)
  have eb := ((C118_history_exact b hb m' id c hid ops hops').1 (by omega))
  by_cases hk : ∀ k, (tlv id (runVec (ops.take k) c)).length ≤ a.isizeMax
  · rw [(eb.1 fun k => by have := hk k; omega).1, ← h, (ea.1 hk).1]
  · push Not at hk
    rw [(ea.2 hk).1] at h
    cases h

example : runDerOn (Target.mk 8) .release [(fun _ => 0, .push 7)] (tlv [0x04] [5]) = .ok [0x04, 0x02, 5, 7] :=
  C118_bigger_target (Target.mk 2) (Target.mk 8) (.inl rfl) (.inr (.inr rfl)) (by decide) .debug .release [0x04] [5] _
    ⟨0, 0, 4, by decide, by decide, by decide +kernel⟩ (by decide +kernel) _ (by simp [ContentsOp.Room]) (by decide +kernel)

/-! ### Iterators -/

/-- The octets that `from_id_iterator` and `from_id_iterator_indefinite` mean to write: the length octets are those of the sum as a `usize`. -/
def Spec.iterOctets (t : Target) (indef : Bool) (id : Bytes) (parts : List Bytes) : Bytes :=
  id ++ (if indef then [0x80] else lenOctets (parts.flatten.length % 256 ^ t.word)) ++ parts.flatten

/-- C118.  `Der::from_id_iterator` and `Ber::from_id_iterator_indefinite`, for all items: the value is built when it is not longer than `isize::MAX` of
the target, and what is longer, yet no longer than a `usize`, panics.  Beyond that, a build with overflow checks panics; one without goes by the length
that is left after wrapping around, and writes outside of its buffer whenever that much can be allocated. -/
theorem C118_iterator_exact (t : Target) (ht : t.Real) (m : Build) (indef : Bool) (id : Bytes) (parts : List Bytes) (hid : id.length ≤ t.isizeMax) :
    t.fromIter m indef id parts =
      if (iterOctets t indef id parts).length ≤ t.isizeMax then .ok (iterOctets t indef id parts)
      else if (iterOctets t indef id parts).length < 256 ^ t.word ∨ m = .debug then .panic
      else if (iterOctets t indef id parts).length % 256 ^ t.word ≤ t.isizeMax then .ub else .panic := by
  have hw := ht.le
  have h2 := Target.two_isizeMax (t := t) (by omega)
  have hU : t.usizeSize = 256 ^ t.word := rfl
  have hr : 3 * t.word + 2 ≤ t.isizeMax := by rcases ht with h | h | h <;> simp [Target.isizeMax, Target.usizeSize, h]
  have hpos : 0 < t.usizeSize := by omega
  have hsum := Target.sumLen_eq (t := t) m parts 0 hpos
  rw [Nat.zero_add] at hsum
  have hmod : parts.flatten.length % t.usizeSize < t.usizeSize := Nat.mod_lt _ hpos
  obtain ⟨hdr, hh, hb, hlen⟩ : ∃ hdr : Bytes, hdr = (if indef then [0x80] else lenOctets (parts.flatten.length % 256 ^ t.word)) ∧
      t.toBytes (if indef then .indefinite else .definite (parts.flatten.length % t.usizeSize)) = .ok hdr ∧ hdr.length ≤ t.word + 1 := by
    refine ⟨_, rfl, ?_, ?_⟩
    · cases indef
      · exact Target.toBytes_lenOctets (by omega) hw.2 hmod
      · rfl
    · cases indef
      · exact Target.lenOctets_length_word hmod
      · simp
  have hW : iterOctets t indef id parts = id ++ hdr ++ parts.flatten := by rw [iterOctets, hh]
  rw [hW, ← hU]
  have hWl : (id ++ hdr ++ parts.flatten).length = id.length + hdr.length + parts.flatten.length := by
    rw [List.length_append, List.length_append]
  have hW2 : [] ++ (id :: hdr :: parts).flatten = id ++ hdr ++ parts.flatten := by simp
  have hW3 : ([] : Bytes).length + (id :: hdr :: parts).flatten.length = id.length + hdr.length + parts.flatten.length := by
    rw [← hWl, ← hW2, List.nil_append, List.length_nil, Nat.zero_add]
  have hi : t.initCapacity = 3 * t.word - 1 := rfl
  by_cases hS : parts.flatten.length < t.usizeSize
  · rw [if_pos hS] at hsum
    rw [Nat.mod_eq_of_lt hS] at hb
    simp only [Target.fromIter, hsum, Res.bind_ok, hb]
    rw [Target.uadd_ok (by omega)]
    simp only [Res.bind_ok]
    by_cases hT : id.length + hdr.length + parts.flatten.length < t.usizeSize
    · rw [Target.uadd_ok hT]
      simp only [Res.bind_ok]
      by_cases hI : id.length + hdr.length + parts.flatten.length ≤ t.isizeMax
      · rw [Target.bufReserve_ok (by omega) (by omega), if_pos (by omega)]
        simp only [Res.bind_ok]
        rw [extendAll_ok _ _ _ (by rw [hW3]; omega), hW2]
      · rw [Target.bufReserve_over (by omega) (by omega), if_neg (by omega), if_pos (.inl (by omega))]
        rfl
    · rw [if_neg (by omega)]
      unfold Target.uadd
      rw [if_neg hT]
      cases m with
      | debug => rw [if_pos (.inr rfl)]; rfl
      | release =>
        rw [if_neg (by rintro (h | h) <;> [omega; cases h])]
        simp only [Res.bind_ok]
        have hlt : (id.length + hdr.length + parts.flatten.length) % t.usizeSize < t.usizeSize := Nat.mod_lt _ hpos
        rw [hWl]
        by_cases hI : (id.length + hdr.length + parts.flatten.length) % t.usizeSize ≤ t.isizeMax
        · rw [Target.bufReserve_ok (by omega) (by omega), if_pos hI]
          simp only [Res.bind_ok]
          exact Target.extendAll_over _ _ _ (Nat.zero_le _) (by rw [hW3]; omega)
        · rw [Target.bufReserve_over (by omega) (by omega), if_neg hI]
          rfl
  · rw [if_neg hS] at hsum
    rw [if_neg (by omega)]
    cases m with
    | debug =>
      rw [if_pos (.inr rfl), Target.fromIter, hsum]; rfl
    | release =>
      rw [if_neg (by rintro (h | h) <;> [omega; cases h])]
      simp only [Target.fromIter, hsum, Res.bind_ok, hb]
      rw [Target.uadd_ok (by omega)]
      simp only [Res.bind_ok]
      have hadd : t.uadd .release (id.length + hdr.length) (parts.flatten.length % t.usizeSize) =
          .ok ((id ++ hdr ++ parts.flatten).length % t.usizeSize) := by
        rw [hWl, Target.uadd]
        split
        · next h => rw [← Nat.add_mod_mod, Nat.mod_eq_of_lt h]
        · simp only [Nat.add_mod_mod]
      rw [hadd]
      simp only [Res.bind_ok]
      have hlt : (id ++ hdr ++ parts.flatten).length % t.usizeSize < t.usizeSize := Nat.mod_lt _ hpos
      generalize (id ++ hdr ++ parts.flatten).length % t.usizeSize = T at hlt
      by_cases hI : T ≤ t.isizeMax
      · rw [Target.bufReserve_ok (by omega) (by omega), if_pos hI]
        simp only [Res.bind_ok]
        exact Target.extendAll_over _ _ _ (Nat.zero_le _) (by rw [hW3]; omega)
      · rw [Target.bufReserve_over (by omega) (by omega), if_neg hI]
        rfl

example : (Target.mk 2).fromIter .debug false [0x04] [[1, 2], [], [3]] = .ok [0x04, 0x03, 1, 2, 3] ∧
    (Target.mk 4).fromIter .release true [0x30] [[5, 0], [0, 0]] = .ok [0x30, 0x80, 5, 0, 0, 0] := by
  decide +kernel

/-- C118, violated.  "`from_id_iterator` never touches memory that is not its own" is false on every target: in a build without overflow checks, four
references to one slice of a quarter of the address space, 16 KiB with 16 bits and 1 GiB with 32, make this safe function write the slice behind a
buffer of a few octets. -/
theorem C118_iterator_violated (t : Target) (ht : t.Real) (indef : Bool) :
    ∃ slice : Bytes, 4 * slice.length = 256 ^ t.word ∧ slice.length ≤ t.isizeMax ∧
      t.fromIter .release indef [0x04] [slice, slice, slice, slice] = .ub := by
  have hw := ht.le
  have h2 := Target.two_isizeMax (t := t) (by omega)
  have hr : 3 * t.word + 2 ≤ t.isizeMax := by rcases ht with h | h | h <;> simp [Target.isizeMax, Target.usizeSize, h]
  have hU : t.usizeSize = 256 ^ t.word := rfl
  have h4 : 4 * (t.usizeSize / 4) = t.usizeSize ∧ t.usizeSize / 4 ≤ t.isizeMax := by
    rcases ht with h | h | h <;> simp [Target.isizeMax, Target.usizeSize, h]
  obtain ⟨slice, hs⟩ : ∃ p : Bytes, p.length = t.usizeSize / 4 := ⟨List.replicate _ 0x00, List.length_replicate⟩
  refine ⟨slice, by rw [hs, ← hU]; exact h4.1, by rw [hs]; exact h4.2, ?_⟩
  have hf : [slice, slice, slice, slice].flatten.length = t.usizeSize := by simp [hs]; omega
  have hl : ∃ n, n ≤ 2 ∧ (iterOctets t indef [0x04] [slice, slice, slice, slice]).length = n + t.usizeSize := by
    rw [iterOctets, ← hU, hf, Nat.mod_self]
    refine ⟨2, le_refl _, ?_⟩
    rw [List.length_append, List.length_append, hf]
    cases indef
    · have : (lenOctets 0).length = 1 := by decide
      simp [this]
    · simp
  obtain ⟨n, hn, hl⟩ := hl
  have hm : (n + t.usizeSize) % t.usizeSize ≤ t.isizeMax := by
    rw [Nat.add_mod_right, Nat.mod_eq_of_lt (by omega)]; omega
  rw [C118_iterator_exact t ht .release indef [0x04] _ (by simp; omega), hl, ← hU, if_neg (by omega), if_neg (by simp), if_pos hm]

/-- The same four slices with overflow checks. -/
example (slice : Bytes) (h : slice.length = 16384) : (Target.mk 2).fromIter .debug false [0x04] [slice, slice, slice, slice] = .panic := by
  have hl : (iterOctets (Target.mk 2) false [0x04] [slice, slice, slice, slice]).length = 65538 := by
    have e : [slice, slice, slice, slice].flatten.length = 65536 := by simp [h]
    rw [iterOctets, List.length_append, List.length_append, e]
    decide +kernel
  rw [C118_iterator_exact _ (.inl rfl) .debug false [0x04] _ (by decide), hl, if_neg (by decide), if_pos (.inr rfl)]

end Bsn1
