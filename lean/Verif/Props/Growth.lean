import Verif.Lemmas.RawGrowthParse
import Verif.Lemmas.RawGrowthSer
import Verif.Spec.Growth
import Verif.Props.Work
/-!
# C96: how often values call the allocator while they are built, read, changed and serialized
-/

namespace Bsn1
open Buf Spec Raw

/-- The allocator refuses, or there is a buffer with these octets in the end, after exactly `k` calls of `alloc` and `realloc`. -/
def Builds (I : Impl) (x : M I.B) (h : Heap) (v : Bytes) (k : Nat) : Prop :=
  x h = .abort ∨ ∃ b h', x h = .ok b h' ∧ I.cells b h' = .ok (v.map some) h' ∧ h'.clock = h.clock + k

/-- The same for a parser, which leaves `q` of the slice. -/
def Reads (I : Impl) (x : M (Except Error I.B × Bytes)) (h : Heap) (v q : Bytes) (k : Nat) : Prop :=
  x h = .abort ∨ ∃ b h', x h = .ok (.ok b, q) h' ∧ I.cells b h' = .ok (v.map some) h' ∧ h'.clock = h.clock + k

/-- An edit of a `Der`: `extend_from_slice`, bsn1/src/der.rs:375-429, or `truncate`, 463-492. -/
def derEdit (I : Impl) (m : Build) (al : Allocator) (b : I.B) : Edit → M I.B
  | .append bytes => Raw.Der.extendFromSlice I m al b bytes
  | .cut n => Raw.Der.truncate I m b n

/-- An edit of a `Ber`: `extend_from_slice`, bsn1/src/ber.rs:601-623, or `truncate`, 668-684. -/
def berEdit (I : Impl) (m : Build) (al : Allocator) (b : I.B) : Edit → M I.B
  | .append bytes => Raw.Ber.extendFromSlice I m al b bytes
  | .cut n => Raw.Ber.truncate I m b n

/-- Several edits. -/
def editAll {I : Impl} (edit : I.B → Edit → M I.B) : List Edit → I.B → M I.B
  | [], b => pure b
  | e :: r, b => do
    let b ← edit b e
    editAll edit r b

namespace Raw

variable {I : Impl} {Rep : I.B → Heap → List Cell → Nat → Option Nat → Prop} {m : Build} {al : Allocator} {init : Nat}

theorem Cost.builds (hx : Exact I Rep init) {x : M I.B} {h : Heap} {k cap : Nat} {v : Bytes}
    (hc : Cost x h none k (fun b h fp => Room Rep b h v cap fp)) : Builds I x h v k := by
  rcases hc with e | ⟨b, h', fp, e, ⟨hb, ek⟩, _⟩
  · exact .inl e
  · exact .inr ⟨b, h', e, hb.has.cells hx.correct, ek⟩

theorem Cost.reads (hx : Exact I Rep init) {x : M (Except Error I.B × Bytes)} {h : Heap} {k cap : Nat} {v q : Bytes}
    (hc : Cost x h none k (fun a h fp => ∃ b, a = (.ok b, q) ∧ Room Rep b h v cap fp)) : Reads I x h v q k := by
  rcases hc with e | ⟨a, h', fp, e, ⟨⟨b, rfl, hb⟩, ek⟩, _⟩
  · exact .inl e
  · exact .inr ⟨b, h', e, hb.has.cells hx.correct, ek⟩

/-- A history of edits of contents `c` of a value whose octets are `oct c`. -/
theorem cost_edits {edit : I.B → Edit → M I.B} {oct : Bytes → Bytes}
    (he : ∀ e c b h fp cap, Room Rep b h (oct c) cap fp → (oct (Edit.run c e)).length ≤ isizeMax →
      Cost (edit b e) h fp (grown cap [(oct (Edit.run c e)).length]) (fun b h fp =>
        Room Rep b h (oct (Edit.run c e)) (max cap (oct (Edit.run c e)).length) fp)) :
    ∀ (es : List Edit) (c : Bytes) (b : I.B) (h : Heap) (fp : Option Nat) (cap : Nat), Room Rep b h (oct c) cap fp →
      (∀ c' ∈ edited c es, (oct c').length ≤ isizeMax) →
      Cost (editAll edit es b) h fp (grown cap ((edited c es).map fun c' => (oct c').length)) (fun b h fp =>
        ∃ cap, Room Rep b h (oct (editedAll c es)) cap fp)
  | [], c, b, h, fp, cap, hb, _ => .pure ⟨cap, hb⟩
  | e :: r, c, b, h, fp, cap, hb, hl => by
    rw [edited, List.map_cons, grown_cons]
    unfold editAll
    refine (he e c b h fp cap hb (hl _ (by simp [edited]))).bind ?_
    intro b h fp hb
    exact cost_edits he r _ b h fp _ hb fun c' hc' => hl c' (by simp [edited, hc'])

theorem Cost.builds' (hx : Exact I Rep init) {x : M I.B} {h : Heap} {k : Nat} {v : Bytes}
    (hc : Cost x h none k (fun b h fp => ∃ cap, Room Rep b h v cap fp)) : Builds I x h v k := by
  rcases hc with e | ⟨b, h', fp, e, ⟨⟨cap, hb⟩, ek⟩, _⟩
  · exact .inl e
  · exact .inr ⟨b, h', e, hb.has.cells hx.correct, ek⟩

theorem builds_der_edits (hx : Exact I Rep init) (hv : al.Valid) (h : Heap) {id c : Bytes} (hid : IsId id) (es : List Edit)
    (hn : ∀ c' ∈ c :: edited c es, (tlv id c').length ≤ isizeMax) :
    Builds I (Der.new I m al id c >>= editAll (derEdit I m al) es) h (tlv id (editedAll c es))
      (grown init ((c :: edited c es).map fun c' => (tlv id c').length)) := by
  refine Cost.builds' hx ?_
  rw [List.map_cons, grown_cons]
  refine (cost_Der_new hx hv hid (hn c (by simp))).bind ?_
  intro b h fp hb
  refine cost_edits (oct := tlv id) ?_ es c b h fp _ hb fun c' hc' => hn c' (by simp [hc'])
  intro e c b h fp cap hb hl
  cases e with
  | append bytes => exact cost_Der_extend hx hv hid hb hl
  | cut n =>
    have hle : (tlv id (c.take n)).length ≤ cap := by
      have h1 := hb.le
      have h2 := lenOctets_length_mono (show (c.take n).length ≤ c.length by simp)
      simp only [tlv_length, List.length_take] at h1 h2 ⊢
      omega
    have e1 : grown cap [(tlv id (Edit.run c (.cut n))).length] = 0 := by simp [grown, Edit.run, hle]
    have e2 : max cap (tlv id (Edit.run c (.cut n))).length = cap := Nat.max_eq_left hle
    rw [e1, e2]
    exact cost_Der_truncate hx hid hb

theorem builds_ber_edits (hx : Exact I Rep init) (hv : al.Valid) (h : Heap) {id c : Bytes} (hid : IsId id) (es : List Edit)
    (hn : ∀ c' ∈ c :: edited c es, (tlv id c').length ≤ isizeMax) :
    Builds I (Der.new I m al id c >>= editAll (berEdit I m al) es) h (tlv id (editedAll c es))
      (grown init ((c :: edited c es).map fun c' => (tlv id c').length)) := by
  refine Cost.builds' hx ?_
  rw [List.map_cons, grown_cons]
  refine (cost_Der_new hx hv hid (hn c (by simp))).bind ?_
  intro b h fp hb
  refine cost_edits (oct := tlv id) ?_ es c b h fp _ hb fun c' hc' => hn c' (by simp [hc'])
  intro e c b h fp cap hb hl
  cases e with
  | append bytes => exact cost_Ber_extend_definite hx hv hid hb hl
  | cut n =>
    have hle : (tlv id (c.take n)).length ≤ cap := by
      have h1 := hb.le
      have h2 := lenOctets_length_mono (show (c.take n).length ≤ c.length by simp)
      simp only [tlv_length, List.length_take] at h1 h2 ⊢
      omega
    have e1 : grown cap [(tlv id (Edit.run c (.cut n))).length] = 0 := by simp [grown, Edit.run, hle]
    have e2 : max cap (tlv id (Edit.run c (.cut n))).length = cap := Nat.max_eq_left hle
    rw [e1, e2]
    exact cost_Ber_truncate_definite hx hid hb

theorem builds_indef_edits (hx : Exact I Rep init) (hv : al.Valid) (h : Heap) {id c : Bytes} (hid : IsId id) (es : List Edit)
    (hn : ∀ c' ∈ c :: edited c es, (id ++ indefOctets ++ c').length ≤ isizeMax) :
    Builds I (Ber.newIndefinite I m al id c >>= editAll (berEdit I m al) es) h (id ++ indefOctets ++ editedAll c es)
      (grown init ((c :: edited c es).map fun c' => (id ++ indefOctets ++ c').length)) := by
  refine Cost.builds' hx ?_
  rw [List.map_cons, grown_cons]
  refine (cost_Ber_newIndefinite hx hv hid (hn c (by simp))).bind ?_
  intro b h fp hb
  refine cost_edits (oct := fun c => id ++ indefOctets ++ c) ?_ es c b h fp _ hb fun c' hc' => hn c' (by simp [hc'])
  intro e c b h fp cap hb hl
  cases e with
  | append bytes => exact cost_Ber_extend_indefinite hx hv hid hb hl
  | cut n =>
    have hle : (id ++ indefOctets ++ c.take n).length ≤ cap := by
      have h1 := hb.le
      simp only [List.length_append, List.length_take] at h1 ⊢
      omega
    have e1 : grown cap [(id ++ indefOctets ++ Edit.run c (.cut n)).length] = 0 := by
      rw [grown, Edit.run, if_pos hle, grown]
    have e2 : max cap (id ++ indefOctets ++ Edit.run c (.cut n)).length = cap := Nat.max_eq_left hle
    rw [e1, e2]
    exact cost_Ber_truncate_indefinite hx hid hb

end Raw

/-! ### Building and changing -/

/-- **C96, exactly.** A value is built by one call of the allocator, or by none if it fits in the buffer itself; every change of its contents makes
just the room that is needed.  So a history of changes calls the allocator as often as the value becomes longer than it ever was (and than 23
octets, 16 in the layout for big-endian targets); cutting never calls it.  For `Der`, for `Ber` of definite and of indefinite length. -/
theorem C96_edits_exact (m : Build) (al : Allocator) (hv : al.Valid) (h : Heap) (id c : Bytes) (hid : IsId id) (es : List Edit) :
    ((∀ c' ∈ c :: edited c es, (tlv id c').length ≤ isizeMax) →
      Builds little (Raw.Der.new little m al id c >>= editAll (derEdit little m al) es) h (tlv id (editedAll c es))
        (grown 23 ((c :: edited c es).map fun c' => (tlv id c').length)) ∧
      Builds universal (Raw.Der.new universal m al id c >>= editAll (derEdit universal m al) es) h (tlv id (editedAll c es))
        (grown 16 ((c :: edited c es).map fun c' => (tlv id c').length)) ∧
      Builds little (Raw.Der.new little m al id c >>= editAll (berEdit little m al) es) h (tlv id (editedAll c es))
        (grown 23 ((c :: edited c es).map fun c' => (tlv id c').length)) ∧
      Builds universal (Raw.Der.new universal m al id c >>= editAll (berEdit universal m al) es) h (tlv id (editedAll c es))
        (grown 16 ((c :: edited c es).map fun c' => (tlv id c').length))) ∧
    ((∀ c' ∈ c :: edited c es, (id ++ indefOctets ++ c').length ≤ isizeMax) →
      Builds little (Raw.Ber.newIndefinite little m al id c >>= editAll (berEdit little m al) es) h (id ++ indefOctets ++ editedAll c es)
        (grown 23 ((c :: edited c es).map fun c' => (id ++ indefOctets ++ c').length)) ∧
      Builds universal (Raw.Ber.newIndefinite universal m al id c >>= editAll (berEdit universal m al) es) h (id ++ indefOctets ++ editedAll c es)
        (grown 16 ((c :: edited c es).map fun c' => (id ++ indefOctets ++ c').length))) :=
  ⟨fun hn => ⟨builds_der_edits le_exact hv h hid es hn, builds_der_edits ue_exact hv h hid es hn,
      builds_ber_edits le_exact hv h hid es hn, builds_ber_edits ue_exact hv h hid es hn⟩,
    fun hn => ⟨builds_indef_edits le_exact hv h hid es hn, builds_indef_edits ue_exact hv h hid es hn⟩⟩

/-- Ten octets, thirty more, cut to one, twenty more (within the room), forty more: two calls. -/
example : grown 23 (((List.replicate 10 0) :: edited (List.replicate 10 0) [.append (List.replicate 30 1), .cut 1, .append (List.replicate 20 2),
    .append (List.replicate 40 3)]).map fun c' => (tlv [0x04] c').length) = 2 := by decide +kernel

/-- The calls of the allocator by a program that ends. -/
def clockAfter {α : Type} (x : M α) (h : Heap) : Option Nat :=
  match x h with
  | .ok _ h => some h.clock
  | _ => none

/-- The same history with an allocator that has memory. -/
example : clockAfter (Raw.Der.new little .debug bump [0x04] (List.replicate 10 0) >>= editAll (derEdit little .debug bump)
    [.append (List.replicate 30 1), .cut 1, .append (List.replicate 20 2), .append (List.replicate 40 3)]) ⟨fun _ => none, 0⟩ = some 2 := by
  decide +kernel

/-! ### Reading -/

/-- What is a BER value has a list of lengths it goes through when it is read, and nothing else has. -/
theorem C96_stops (v : Bytes) : IsBer v ↔ ∃ st, BerStops 0 v st := by
  constructor
  · intro hv
    refine IsBer.rec (motive_1 := fun v _ => ∀ pos, ∃ st, BerStops pos v st) (motive_2 := fun v _ => ∀ pos, ∃ st, SeqStops pos v st)
      ?_ ?_ ?_ ?_ hv 0
    · intro id c hid hc pos
      exact ⟨_, .definite pos id c hid hc⟩
    · intro id c hid _ ih pos
      obtain ⟨st, hs⟩ := ih (pos + (id ++ indefOctets).length)
      exact ⟨_, .indefinite pos id c st hid hs⟩
    · intro pos
      exact ⟨_, .nil pos⟩
    · intro v r _ hne _ ih1 ih2 pos
      obtain ⟨st, hs⟩ := ih1 pos
      obtain ⟨st', hs'⟩ := ih2 (pos + v.length)
      exact ⟨_, .cons pos v r st st' hs hne hs'⟩
  · rintro ⟨st, hs⟩
    refine BerStops.rec (motive_1 := fun _ v _ _ => IsBer v) (motive_2 := fun _ v _ _ => BerSeq v) ?_ ?_ ?_ ?_ hs
    · intro _ id c hid hc; exact .definite id c hid hc
    · intro _ id c _ hid _ ih; exact .indefinite id c hid ih
    · intro _; exact .nil
    · intro _ v r _ _ _ hne _ ih1 ih2; exact .cons v r ih1 hne ih2

example : ∃ st, BerStops 0 [0x04, 0x02, 0x07, 0x08] st := (C96_stops _).1 (.definite [0x04] [0x07, 0x08] ⟨0, 0, 4, by decide, by decide, by decide +kernel⟩ (by decide))

/-- **C96, exactly.** `Der::parse` and `Ber::parse` of a slice that begins with a value call the allocator as often as the value becomes longer than
the buffer when the octets of identifiers and lengths come one by one and contents of definite length at once. -/
theorem C96_parse_exact (m : Build) (al : Allocator) (hv : al.Valid) (h : Heap) (q : Bytes) :
    (∀ id c, IsId id → (tlv id c).length ≤ isizeMax →
      Reads little (Raw.Der.parse little m al honestRead (tlv id c ++ q)) h (tlv id c) q
        (grown 23 (ticks 0 (id ++ lenOctets c.length).length ++ [(tlv id c).length])) ∧
      Reads universal (Raw.Der.parse universal m al honestRead (tlv id c ++ q)) h (tlv id c) q
        (grown 16 (ticks 0 (id ++ lenOctets c.length).length ++ [(tlv id c).length]))) ∧
    (∀ v st, BerStops 0 v st → (v ++ q).length ≤ isizeMax →
      Reads little (Raw.Ber.parse little m al honestReadExact (v ++ q)) h v q (grown 23 st) ∧
      Reads universal (Raw.Ber.parse universal m al honestReadExact (v ++ q)) h v q (grown 16 st)) :=
  ⟨fun _ _ hid hn => ⟨(cost_Der_parse le_exact hv hid hn).reads le_exact, (cost_Der_parse ue_exact hv hid hn).reads ue_exact⟩,
    fun _ _ hs hn => ⟨(cost_Ber_parse le_exact hv hs hn).reads le_exact, (cost_Ber_parse ue_exact hv hs hn).reads ue_exact⟩⟩

/-- 300 octets of contents: one call. -/
example : grown 23 (ticks 0 ([0x04] ++ lenOctets 300).length ++ [(tlv [0x04] (List.replicate 300 0)).length]) = 1 := by decide +kernel

/-! ### Serializing -/

/-- **C96, exactly.** `to_der` of a value whose methods work: if the size of the contents is not known, they are first collected in a buffer of their
own, which grows with every slice that is written; then the buffer of the result is made as large as announced, if `id_len` gives anything, and
grows with every slice beyond that.  (Buffers of nested values not counted.) -/
theorem C96_to_der_exact (m : Build) (al : Allocator) (hv : al.Valid) (h : Heap) {α : Type} (s : Ser α) (value : α) (size idLen : Option Nat)
    (hlen : s.derContentsLen value = .ok size) (hid : s.idLen value = .ok idLen) (ic cc : List Bytes)
    (hic : s.writeId value = ⟨ic, .ok ()⟩) (hcc : s.writeDerContents value = ⟨cc, .ok ()⟩) (n : Nat) (hn : n = size.getD cc.flatten.length)
    (hil : ∀ k, idLen = some k → k + (lenOctets n).length + n ≤ isizeMax) (hn64 : n < 2 ^ 64)
    (hl : ic.flatten.length + 9 + cc.flatten.length ≤ isizeMax) :
    let calls := fun init => (if size = none then grown init (sums 0 cc) else 0) +
      grown init ((idLen.map (· + (lenOctets n).length + n)).toList ++ sums 0 (ic ++ [lenOctets n] ++ (if size = none then [cc.flatten] else cc)))
    (Raw.toDer little m al s value h = .abort ∨
      ∃ b h', Raw.toDer little m al s value h = .ok (.ok b) h' ∧ h'.clock = h.clock + calls 23) ∧
    (Raw.toDer universal m al s value h = .abort ∨
      ∃ b h', Raw.toDer universal m al s value h = .ok (.ok b) h' ∧ h'.clock = h.clock + calls 16) := by
  have key : ∀ {I : Impl} {Rep : I.B → Heap → List Cell → Nat → Option Nat → Prop} {init : Nat}, Exact I Rep init → Pays (Raw.toDer I m al s value) h
      ((if size = none then grown init (sums 0 cc) else 0) + grown init ((idLen.map (· + (lenOctets n).length + n)).toList ++
        sums 0 (ic ++ [lenOctets n] ++ (if size = none then [cc.flatten] else cc)))) := by
    intro I Rep init hx
    have := pays_toDer (m := m) hx hv s value h hlen hid (by rw [hic]) (by rw [hcc]) (n := n) (by rw [hcc]; exact hn) hil hn64 (by rw [hic, hcc]; exact hl)
    rw [hic, hcc] at this
    exact this
  exact ⟨key le_exact, key ue_exact⟩

/-- A list of three booleans, of which the size is known. -/
example (m : Build) (al : Allocator) (hv : al.Valid) (h : Heap) := C96_to_der_exact m al hv h (Ser.vec .debug Ser.bool) [true, false, true] (some 9) (some 1)
  (by decide +kernel) (by decide +kernel) _ _ (by rfl) (by rfl) 9 rfl (by intro k hk; cases hk; decide +kernel) (by decide) (by decide +kernel)

theorem grown_sums_le {cap pos : Nat} {cs : List Bytes} (h : pos + cs.flatten.length ≤ cap) : grown cap (sums pos cs) = 0 := by
  induction cs generalizing pos with
  | nil => rfl
  | cons c r ih =>
    simp only [List.flatten_cons, List.length_append] at h
    rw [sums, grown, if_pos (by omega), ih (by omega)]

/-- **C96.** If the sizes are given, and right, `to_der` calls the allocator at most once, and not at all if the result fits in the buffer itself,
however many slices are written. -/
theorem C96_to_der_hints (m : Build) (al : Allocator) (hv : al.Valid) (h : Heap) {α : Type} (s : Ser α) (value : α) (ic cc : List Bytes)
    (hlen : s.derContentsLen value = .ok (some cc.flatten.length)) (hid : s.idLen value = .ok (some ic.flatten.length))
    (hic : s.writeId value = ⟨ic, .ok ()⟩) (hcc : s.writeDerContents value = ⟨cc, .ok ()⟩)
    (hl : ic.flatten.length + 9 + cc.flatten.length ≤ isizeMax) :
    (Raw.toDer little m al s value h = .abort ∨ ∃ b h', Raw.toDer little m al s value h = .ok (.ok b) h' ∧
      h'.clock = h.clock + if (tlv ic.flatten cc.flatten).length ≤ 23 then 0 else 1) ∧
    (Raw.toDer universal m al s value h = .abort ∨ ∃ b h', Raw.toDer universal m al s value h = .ok (.ok b) h' ∧
      h'.clock = h.clock + if (tlv ic.flatten cc.flatten).length ≤ 16 then 0 else 1) := by
  have hm := isizeMax_lt
  have hu := usizeSize_eq
  have h9 := lenOctets_length_le (n := cc.flatten.length) (by omega)
  have key := C96_to_der_exact m al hv h s value _ _ hlen hid ic cc hic hcc _ rfl
    (by intro k hk; cases hk; simp only [Option.getD_some]; omega) (by simp only [Option.getD_some]; omega) hl
  have cnt : ∀ init, grown init ((Option.map (fun x => x + (lenOctets cc.flatten.length).length + cc.flatten.length) (some ic.flatten.length)).toList ++
      sums 0 (ic ++ [lenOctets cc.flatten.length] ++ cc)) = if (tlv ic.flatten cc.flatten).length ≤ init then 0 else 1 := by
    intro init
    rw [grown_append, grown_sums_le]
    · simp only [Option.map_some, Option.toList_some, grown, tlv_length]; simp
    · simp only [Option.map_some, Option.toList_some, roomAfter, List.foldl_cons, List.foldl_nil, List.flatten_append, List.length_append,
        List.flatten_cons, List.flatten_nil, List.append_nil]
      omega
  simp only [Option.getD_some, reduceCtorEq, if_false, Nat.zero_add] at key
  rw [cnt, cnt] at key
  exact key

/-- A list of three booleans: nine slices are written for the contents; the sizes are known and right. -/
example : Ser.derContentsLen (Ser.vec .debug Ser.bool) [true, false, true] = .ok (some 9) ∧
    Ser.idLen (Ser.vec .debug Ser.bool) [true, false, true] = .ok (some 1) ∧
    ((Ser.writeId (Ser.vec .debug Ser.bool) [true, false, true]).chunks.flatten.length,
      (Ser.writeDerContents (Ser.vec .debug Ser.bool) [true, false, true]).chunks.length,
      (Ser.writeDerContents (Ser.vec .debug Ser.bool) [true, false, true]).chunks.flatten.length) = (1, 9, 9) := by
  decide +kernel

/-! ### Bounds -/

/-- **C96.** Never more calls than calls of the methods, and never more than octets that do not fit in the buffer itself.  (Partial: see
`C96_amortised_violated`.) -/
theorem C96_bounds_partial (init : Nat) :
    (∀ id c es, grown init ((c :: edited c es).map fun c' => (tlv id c').length) ≤ 1 + es.length) ∧
    (∀ v st, BerStops 0 v st → init + grown init st ≤ max init v.length) ∧
    (∀ id c, (id ++ lenOctets c.length).length ≤ init →
      grown init (ticks 0 (id ++ lenOctets c.length).length ++ [(tlv id c).length]) ≤ 1) := by
  refine ⟨fun id c es => ?_, fun v st hs => ?_, fun id c hle => ?_⟩
  · have h1 := grown_le_length init ((c :: edited c es).map fun c' => (tlv id c').length)
    have h2 : ∀ (es : List Edit) (c : Bytes), (edited c es).length = es.length := by
      intro es
      induction es with
      | nil => intro c; rfl
      | cons e r ih => intro c; simp [edited, ih]
    rw [List.length_map, List.length_cons, h2] at h1
    omega
  · have := grown_le_room init st
    rw [roomAfter_berStops hs _ (Nat.zero_le _)] at this
    omega
  · rw [grown_append, grown_ticks _ _ _ (Nat.zero_le _)]
    have := grown_le_length (roomAfter init (ticks 0 (id ++ lenOctets c.length).length)) [(tlv id c).length]
    simp only [List.length_singleton] at this
    omega

example (es : List Edit) (h : es.length = 2) : grown 23 (([] :: edited [] es).map fun c' => (tlv [0x04] c').length) ≤ 3 := by
  have := (C96_bounds_partial 23).1 [0x04] [] es
  omega

theorem edited_singles (id : Bytes) (n : Nat) : ∀ (c : Bytes) (cap : Nat), cap ≤ (tlv id c).length →
    grown cap ((edited c (List.replicate n (.append [0]))).map fun c' => (tlv id c').length) = n := by
  induction n with
  | zero => intro c cap _; rfl
  | succ n ih =>
    intro c cap hle
    have h2 := lenOctets_length_mono (show c.length ≤ c.length + 1 by omega)
    have h3 : (tlv id c).length < (tlv id (c ++ [0])).length := by
      rw [tlv_length, tlv_length, List.length_append, List.length_singleton]; omega
    have e : Edit.run c (.append [0]) = c ++ [0] := rfl
    rw [List.replicate_succ, edited, List.map_cons, grown, e, if_neg (by omega), ih _ _ (Nat.le_refl _), Nat.add_comm]

theorem editedAll_singles (n : Nat) : ∀ c : Bytes, editedAll c (List.replicate n (.append [0])) = c ++ List.replicate n 0 := by
  induction n with
  | zero => intro c; simp [editedAll]
  | succ n ih =>
    intro c
    have := ih (c ++ [0])
    simp only [editedAll, List.replicate_succ, List.foldl_cons, Edit.run] at this ⊢
    rw [this]; simp

theorem edited_singles_le (n : Nat) : ∀ (c c' : Bytes), c' ∈ edited c (List.replicate n (.append [0])) → c'.length ≤ c.length + n := by
  induction n with
  | zero => intro c c' h; simp [edited] at h
  | succ n ih =>
    intro c c' h
    rw [List.replicate_succ, edited, List.mem_cons] at h
    rcases h with rfl | h
    · simp [Edit.run]
    · have := ih _ _ h
      simp only [Edit.run, List.length_append, List.length_singleton] at this
      omega

/-- Empty values one after the other. -/
def nulls (n : Nat) : Bytes := (List.replicate n [0x05, 0x00]).flatten

theorem isId_05 : IsId [0x05] := ⟨0, 0, 5, by decide, by decide, by decide +kernel⟩

theorem nulls_length (n : Nat) : (nulls n).length = 2 * n := by
  induction n with
  | zero => rfl
  | succ n ih => simp only [nulls, List.replicate_succ, List.flatten_cons, List.length_append] at ih ⊢; simp at ih ⊢; omega

theorem nulls_stops (n : Nat) : ∀ pos, ∃ st, SeqStops pos (nulls n) st ∧ ∀ cap, pos ≤ cap → grown cap st = pos + 2 * n - cap := by
  induction n with
  | zero => intro pos; exact ⟨[], .nil pos, fun cap h => by simp [grown]; omega⟩
  | succ n ih =>
    intro pos
    have e : nulls (n + 1) = tlv [0x05] [] ++ nulls n := by
      simp only [nulls, List.replicate_succ, List.flatten_cons]
      rfl
    have e2 : (tlv [0x05] []).length = 2 := by decide
    have e3 : ([0x05] ++ lenOctets ([] : Bytes).length : Bytes).length = 2 := by decide
    have hb := BerStops.definite pos [0x05] [] isId_05 (by decide)
    obtain ⟨st, hs, hg⟩ := ih (pos + 2)
    refine ⟨_, by rw [e]; exact .cons pos _ _ _ st hb (by decide) (by rw [e2]; exact hs), fun cap h => ?_⟩
    rw [grown_append, roomAfter_berStops hb _ h, e2, hg _ (by omega), e3, grown_append, roomAfter_ticks _ _ _ h, grown_ticks _ _ _ h]
    have : grown (max cap (pos + 2)) [pos + 2] = 0 := by rw [grown, if_pos (by omega), grown]
    omega

/-- **C96** is not amortised.  Appending `n` octets one by one calls the allocator `n` times: each call makes room for just one octet.  And
`Ber::parse` of a value of indefinite length that consists of `n` empty values calls the allocator once for nearly every octet, though the slice it
reads from is in memory as a whole. -/
theorem C96_amortised_violated (m : Build) (al : Allocator) (hv : al.Valid) (h : Heap) (n : Nat) (hn : 2 * n + 64 ≤ isizeMax) :
    (Builds little (Raw.Der.new little m al [0x04] (List.replicate 21 0) >>= editAll (derEdit little m al) (List.replicate n (.append [0]))) h
        (tlv [0x04] (List.replicate (21 + n) 0)) n ∧
      Builds universal (Raw.Der.new universal m al [0x04] (List.replicate 21 0) >>= editAll (derEdit universal m al) (List.replicate n (.append [0]))) h
        (tlv [0x04] (List.replicate (21 + n) 0)) (1 + n)) ∧
    (Reads little (Raw.Ber.parse little m al honestReadExact ([0x30, 0x80] ++ nulls n ++ [0x00, 0x00])) h
        ([0x30, 0x80] ++ nulls n ++ [0x00, 0x00]) [] (2 * n + 4 - 23) ∧
      Reads universal (Raw.Ber.parse universal m al honestReadExact ([0x30, 0x80] ++ nulls n ++ [0x00, 0x00])) h
        ([0x30, 0x80] ++ nulls n ++ [0x00, 0x00]) [] (2 * n + 4 - 16)) := by
  have hm := isizeMax_lt
  have hu := usizeSize_eq
  have hid : IsId [0x04] := ⟨0, 0, 4, by decide, by decide, by decide +kernel⟩
  constructor
  · have hb : ∀ c' ∈ List.replicate 21 0 :: edited (List.replicate 21 0) (List.replicate n (.append [0])), (tlv [0x04] c').length ≤ isizeMax := by
      intro c' hc'
      have hl : c'.length ≤ 21 + n := by
        rw [List.mem_cons] at hc'
        rcases hc' with rfl | hc'
        · simp
        · have := edited_singles_le n _ _ hc'
          simpa using this
      have h9 := lenOctets_length_le (n := c'.length) (by omega)
      rw [tlv_length, List.length_singleton]; omega
    obtain ⟨h1, h2, _⟩ := (C96_edits_exact m al hv h [0x04] (List.replicate 21 0) hid (List.replicate n (.append [0]))).1 hb
    have e1 : (tlv [0x04] (List.replicate 21 0)).length = 23 := by decide +kernel
    rw [editedAll_singles, List.replicate_append_replicate, List.map_cons, grown, e1] at h1 h2
    rw [if_pos (by omega), edited_singles _ _ _ _ (by omega)] at h1
    rw [if_neg (by omega), edited_singles _ _ _ _ (by omega)] at h2
    exact ⟨h1, h2⟩
  · obtain ⟨st, hs, hg⟩ := nulls_stops n 2
    have hb := BerStops.indefinite 0 [0x30] (nulls n) st isId_30 hs
    have ev : ([0x30] ++ indefOctets ++ nulls n ++ eoc : Bytes) = [0x30, 0x80] ++ nulls n ++ [0x00, 0x00] := rfl
    have hl := nulls_length n
    have e2 : ([0x30] ++ indefOctets : Bytes).length = 2 := rfl
    have e3 : ([0x30] ++ indefOctets ++ nulls n : Bytes).length = 2 + 2 * n := by rw [List.length_append, e2, hl]
    have cnt : ∀ init, 2 ≤ init → grown init (ticks 0 ([0x30] ++ indefOctets).length ++ st ++ ticks (0 + ([0x30] ++ indefOctets ++ nulls n).length) 2) =
        2 * n + 4 - init := by
      intro init hi
      rw [grown_append, grown_append, roomAfter_append, roomAfter_ticks _ _ _ (Nat.zero_le _), e2, e3, grown_ticks _ _ _ (Nat.zero_le _),
        hg _ (by omega), roomAfter_seqStops hs _ (by omega), hl, grown_ticks _ _ _ (by omega)]
      omega
    obtain ⟨h1, h2⟩ := (C96_parse_exact m al hv h []).2 _ _ hb (by rw [ev]; simp only [List.length_append, hl, List.length_cons, List.length_nil]; omega)
    rw [cnt _ (by omega), ev, List.append_nil] at h1 h2
    exact ⟨h1, h2⟩

end Bsn1
