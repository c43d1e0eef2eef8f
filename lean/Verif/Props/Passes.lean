import Verif.Props.Fresh
import Verif.Props.Loose
/-!
# C91: iterators that do not give the same octets as their clones
-/

namespace Bsn1
open Buf Spec Raw

/-- How a constructor ends that has made room for `total` octets, of which `init` would be inline, and then appends octets until it has `octets`: the
allocator refuses; or the octets go beyond the room that was made; or all is well, and dropping the value leaves nothing behind. -/
def Fills (I : Impl) (init total : Nat) (al : Allocator) (octets : Bytes) (x : M I.B) (h : Heap) : Prop :=
  if init < total ∧ al h.clock h.blocks total = none then x h = .abort
  else if max init total < octets.length then x h = .ub
  else ∃ b h', x h = .ok b h' ∧ I.cells b h' = .ok (octets.map some) h' ∧ ∃ h'', I.drop b h' = .ok () h'' ∧ h''.blocks = h.blocks

theorem le_extend_out {m : Build} {b : LE} {h : Heap} {s : List Cell} {l : Nat} {fp : Option Nat} (vals : Bytes) (hr : LE.Rep b h s l fp)
    (ho : s.length < l + vals.length) : little.extend m b vals h = .ub := by
  have e : LE.poke b b.len vals h = .ub := by
    rw [LE.rep_len hr]
    exact le_bounds.poke l vals hr ho
  exact bind_ub e

theorem ue_extend_out {m : Build} {b : UE} {h : Heap} {s : List Cell} {l : Nat} {fp : Option Nat} (vals : Bytes) (hr : UE.Rep b h s l fp)
    (ho : s.length < l + vals.length) : universal.extend m b vals h = .ub := by
  have e : UE.poke b b.len vals h = .ub := by
    rw [UE.rep_len hr]
    exact ue_bounds.poke l vals hr ho
  exact bind_ub e

section
variable {I : Impl} {Rep : I.B → Heap → List Cell → Nat → Option Nat → Prop} {m : Build} {al : Allocator} {init : Nat}

theorem extendAll_cases (hc : Correct I Rep)
    (hout : ∀ {b h s l fp} (vals : Bytes), Rep b h s l fp → s.length < l + vals.length → I.extend m b vals h = .ub) :
    ∀ (parts : List Bytes) (b : I.B) (h : Heap) (fp : Option Nat) (A : Bytes) (R : List Cell), Rep b h (A.map some ++ R) A.length fp →
    if R.length < parts.flatten.length then Raw.Der.extendAll I m parts b h = .ub
    else ∃ b' h', Raw.Der.extendAll I m parts b h = .ok b' h' ∧ Has Rep b' h' (A ++ parts.flatten) fp ∧ Frame h h' fp fp
  | [], b, h, fp, A, R, hr => by
    rw [if_neg (by simp)]
    exact ⟨b, h, rfl, ⟨R, by simpa using hr⟩, .refl _ _⟩
  | p :: r, b, h, fp, A, R, hr => by
    simp only [List.flatten_cons, List.length_append]
    by_cases hp : R.length < p.length
    · rw [if_pos (by omega)]
      unfold Raw.Der.extendAll
      exact bind_ub (hout p hr (by simp; omega))
    · obtain ⟨b1, h1, e1, hr1, f1⟩ := hc.extend m p hr (by simp; omega)
      have e := patch_append (A.map some) R (p.map some)
      rw [List.length_map] at e
      rw [e] at hr1
      have ih := extendAll_cases hc hout r b1 h1 fp (A ++ p) (R.drop (p.map some).length) (by simpa using hr1)
      unfold Raw.Der.extendAll
      rw [bind_ok e1]
      rw [List.length_drop, List.length_map] at ih
      by_cases h2 : R.length - p.length < r.flatten.length
      · rw [if_pos h2] at ih
        rw [if_pos (by omega)]
        exact ih
      · rw [if_neg h2] at ih
        obtain ⟨b', h', e', hb, f⟩ := ih
        rw [if_neg (by omega)]
        exact ⟨b', h', e', by simpa using hb, f1.trans f⟩

theorem fills_fromParts (hc : Correct I Rep) (hg : Gives I Rep init)
    (hout : ∀ {b h s l fp} (vals : Bytes), Rep b h s l fp → s.length < l + vals.length → I.extend m b vals h = .ub)
    (hv : al.Valid) (h : Heap) (id len : Bytes) (parts : List Bytes) (n : Nat) (hn : id.length + len.length + n ≤ isizeMax) :
    Fills I init (id.length + len.length + n) al (id ++ len ++ parts.flatten) (Raw.Der.fromParts I m al id len parts n) h := by
  have hm := isizeMax_lt
  have e : Raw.Der.fromParts I m al id len parts n h = (do
      let b ← I.withCapacity m al (id.length + len.length + n)
      Raw.Der.extendAll I m (id :: len :: parts) b : M I.B) h := by
    rw [Raw.Der.fromParts, bind_ok (usizeAdd_ok m (by omega) h), bind_ok (usizeAdd_ok m (by omega) h)]
  have key : ∀ b h1 fp s, I.withCapacity m al (id.length + len.length + n) h = .ok b h1 → Rep b h1 s 0 fp → Frame h h1 none fp →
      s.length = max init (id.length + len.length + n) →
      if max init (id.length + len.length + n) < (id ++ len ++ parts.flatten).length then Raw.Der.fromParts I m al id len parts n h = .ub
      else ∃ b h', Raw.Der.fromParts I m al id len parts n h = .ok b h' ∧
        I.cells b h' = .ok ((id ++ len ++ parts.flatten).map some) h' ∧ ∃ h'', I.drop b h' = .ok () h'' ∧ h''.blocks = h.blocks := by
    intro b h1 fp s e1 hr f hs
    have := extendAll_cases hc hout (id :: len :: parts) b h1 fp [] s (by simpa using hr)
    rw [e, bind_ok e1]
    simp only [List.flatten_cons, List.nil_append, ← List.append_assoc] at this
    rw [hs] at this
    split at this
    · rwa [if_pos ‹_›]
    · rw [if_neg ‹_›]
      obtain ⟨b', h', e', ⟨R, hb⟩, f'⟩ := this
      obtain ⟨h'', e2, f2⟩ := hc.drop hb
      refine ⟨b', h', e', ?_, h'', e2, ?_⟩
      · rw [hc.cells hb, take_of_append (by rw [List.length_map])]
      · have := (f.trans f').trans f2
        rw [Frame, erase_none, erase_none] at this
        exact this.symm
  unfold Fills
  by_cases hi : init < id.length + len.length + n
  · rcases ha : al h.clock h.blocks (id.length + len.length + n) with _ | ⟨a, junk⟩
    · rw [if_pos ⟨hi, rfl⟩, e]
      exact bind_abort (hg.refused m al _ h hi hn ha)
    · rw [if_neg (by simp)]
      obtain ⟨b, h1, e0, hr⟩ := hg.large m _ h a junk hv hi hn ha
      have hl := (hv _ _ _ _ _ ha).2.2.2
      rcases hc.withCapacity m (id.length + len.length + n) h hv hn with e3 | ⟨b3, h3, fp3, s3, e3, hr3, _, f3⟩
      · rw [e3] at e0; cases e0
      · rw [e3] at e0
        cases e0
        have c1 := hc.capacity hr
        rw [hc.capacity hr3] at c1
        injection c1 with c1 _
        exact key _ _ _ _ e3 hr3 f3 (by omega)
  · rw [if_neg (fun hh => hi hh.1)]
    exact key _ _ none _ (hg.small m al _ h (by omega)) (hg.new h) (.refl _ _) (by simp; omega)
end

/-- **C91, exactly.** `from_id_iterator` of `Der` and `Ber`, and `from_id_iterator_indefinite`, for any iterator, which gives `parts` while its clone, by
which the octets are counted, gives `counted`. Where there is memory, it writes outside of its buffer if and only if what is appended goes beyond the
inline storage and beyond what was counted. Otherwise the value has the appended octets behind a header that announces the counted ones. -/
theorem C91_from_id_iterator_exact (m : Build) (al : Allocator) (hv : al.Valid) (h : Heap) (id : Bytes) (counted parts : List Bytes) (n : Nat)
    (hc : n = (counted.map List.length).sum) :
    (id.length + (lenOctets n).length + n ≤ isizeMax →
      Fills little 23 (id.length + (lenOctets n).length + n) al (id ++ lenOctets n ++ parts.flatten)
        (Raw.Der.fromPasses little m al id counted parts) h ∧
      Fills universal 16 (id.length + (lenOctets n).length + n) al (id ++ lenOctets n ++ parts.flatten)
        (Raw.Der.fromPasses universal m al id counted parts) h ∧
      Fills little 23 (id.length + (lenOctets n).length + n) al (id ++ lenOctets n ++ parts.flatten)
        (Raw.Ber.fromPasses little m al id counted parts) h ∧
      Fills universal 16 (id.length + (lenOctets n).length + n) al (id ++ lenOctets n ++ parts.flatten)
        (Raw.Ber.fromPasses universal m al id counted parts) h) ∧
    (id.length + 1 + n ≤ isizeMax →
      Fills little 23 (id.length + 1 + n) al (id ++ [0x80] ++ parts.flatten) (Raw.Ber.fromPassesIndefinite little m al id counted parts) h ∧
      Fills universal 16 (id.length + 1 + n) al (id ++ [0x80] ++ parts.flatten) (Raw.Ber.fromPassesIndefinite universal m al id counted parts) h) := by
  have hm := isizeMax_lt
  have hu := usizeSize_eq
  have hl : counted.flatten.length = n := by rw [List.length_flatten, ← hc]
  constructor
  · intro hn
    have e : ∀ I, Raw.Der.fromPasses I m al id counted parts h = Raw.Der.fromParts I m al id (lenOctets n) parts n h := fun I => by
      rw [Raw.Der.fromPasses, bind_ok (Raw.liftRes_ok (sumLen_flatten counted 0 (by omega))), Nat.zero_add, hl,
        bind_ok (Raw.liftRes_ok (toBytes_definite (by omega)))]
    have e' : ∀ I, Raw.Ber.fromPasses I m al id counted parts h = Raw.Der.fromParts I m al id (lenOctets n) parts n h := e
    unfold Fills
    rw [e, e, e', e']
    have h1 := fills_fromParts (m := m) LE.correct le_gives le_extend_out hv h id (lenOctets n) parts n hn
    have h2 := fills_fromParts (m := m) UE.correct ue_gives ue_extend_out hv h id (lenOctets n) parts n hn
    exact ⟨h1, h2, h1, h2⟩
  · intro hn
    have e : ∀ I, Raw.Ber.fromPassesIndefinite I m al id counted parts h = Raw.Der.fromParts I m al id [0x80] parts n h := fun I => by
      rw [Raw.Ber.fromPassesIndefinite, bind_ok (Raw.liftRes_ok (sumLen_flatten counted 0 (by omega))), Nat.zero_add, hl,
        bind_ok (Raw.liftRes_ok toBytes_indefinite)]
      rfl
    unfold Fills
    rw [e, e]
    exact ⟨fills_fromParts (m := m) LE.correct le_gives le_extend_out hv h id [0x80] parts n hn,
      fills_fromParts (m := m) UE.correct ue_gives ue_extend_out hv h id [0x80] parts n hn⟩

/-- **C91.** The octets of the value are those of a DER value if and only if as many were appended as were counted. -/
theorem C91_well_formed_iff {id : Bytes} (hid : IsId id) {n : Nat} (hn : n < 2 ^ 64) (parts : List Bytes) :
    IsDer (id ++ lenOctets n ++ parts.flatten) ↔ (parts.map List.length).sum = n := by
  rw [← List.length_flatten]
  constructor
  · rintro ⟨id', c, h1, h2, e⟩
    have e1 := disassemble_hdr hid hn parts.flatten
    rw [e, disassemble_tlv h1 h2] at e1
    cases e1
    rfl
  · intro e
    exact ⟨id, parts.flatten, hid, by omega, by rw [tlv, e]⟩

example : ¬ IsDer ([0x04] ++ lenOctets 3 ++ ([[1], [2, 3], [4]] : List Bytes).flatten) := by
  rw [C91_well_formed_iff ⟨0, 0, 4, by decide, by decide, by decide +kernel⟩ (by decide)]
  decide

/-- **C91 (partial).** An iterator that gives no more octets than its clone did causes no undefined behaviour, whatever the builds, layouts and
allocator. (Beyond, see `C91_from_id_iterator_violated`.) -/
theorem C91_from_id_iterator_partial (m : Build) (al : Allocator) (hv : al.Valid) (h : Heap) (id : Bytes) (counted parts : List Bytes)
    (hle : (parts.map List.length).sum ≤ (counted.map List.length).sum)
    (hn : id.length + (lenOctets (counted.map List.length).sum).length + (counted.map List.length).sum ≤ isizeMax) :
    Raw.Der.fromPasses little m al id counted parts h ≠ .ub ∧ Raw.Der.fromPasses universal m al id counted parts h ≠ .ub := by
  obtain ⟨h1, h2, _⟩ := (C91_from_id_iterator_exact m al hv h id counted parts _ rfl).1 hn
  have go : ∀ {I : Impl} {init : Nat}, Fills I init (id.length + (lenOctets (counted.map List.length).sum).length + (counted.map List.length).sum) al
      (id ++ lenOctets (counted.map List.length).sum ++ parts.flatten) (Raw.Der.fromPasses I m al id counted parts) h →
      Raw.Der.fromPasses I m al id counted parts h ≠ .ub := by
    intro I init hf
    unfold Fills at hf
    split at hf
    · rw [hf]; nofun
    · rw [if_neg (by simp only [List.length_append, List.length_flatten]; omega)] at hf
      obtain ⟨b, h', e, _⟩ := hf
      rw [e]; nofun
  exact ⟨go h1, go h2⟩

example (m : Build) (h : Heap) : Raw.Der.fromPasses little m bump [0x04] [[1], [2, 3]] [[1]] h ≠ .ub :=
  (C91_from_id_iterator_partial m bump bump_valid h [0x04] [[1], [2, 3]] [[1]] (by decide) (by decide +kernel)).1

/-- **C91 is violated**: an iterator whose clone gives nothing but which itself gives 30 octets makes the safe `Der::from_id_iterator` and
`Ber::from_id_iterator` write outside of the buffer, in every build and both layouts. -/
theorem C91_from_id_iterator_violated (m : Build) :
    Raw.Der.fromPasses little m bump [0x04] [] [List.replicate 30 0] noHeap = .ub ∧
    Raw.Der.fromPasses universal m bump [0x04] [] [List.replicate 30 0] noHeap = .ub ∧
    Raw.Ber.fromPasses little m bump [0x04] [] [List.replicate 30 0] noHeap = .ub ∧
    Raw.Ber.fromPasses universal m bump [0x04] [] [List.replicate 30 0] noHeap = .ub := by
  refine ⟨isUb_eq ?_, isUb_eq ?_, isUb_eq ?_, isUb_eq ?_⟩ <;> cases m <;> decide +kernel

/-- `from_id_iterator`, then `push(0)`. -/
def passesThenPush (I : Impl) (m : Build) (counted parts : List Bytes) : M I.B := do
  let b ← Raw.Der.fromPasses I m bump [0x04] counted parts
  Raw.Der.extendFromSlice I m bump b [0]

/-- **C91 is violated**: an iterator that gives nothing but whose clone gives 30 octets makes a value whose header announces too much (no DER value, by
`C91_well_formed_iff`); `push` on it writes outside of the buffer. -/
theorem C91_push_violated (m : Build) :
    passesThenPush little m [List.replicate 30 0] [] noHeap = .ub ∧ passesThenPush universal m [List.replicate 30 0] [] noHeap = .ub := by
  refine ⟨isUb_eq ?_, isUb_eq ?_⟩ <;> cases m <;> decide +kernel

/-- `from_id_iterator`, then `truncate(k)`, then read the octets. -/
def passesThenTruncate (I : Impl) (m : Build) (counted parts : List Bytes) (k : Nat) : M Bytes := do
  let b ← Raw.Der.fromPasses I m bump [0x04] counted parts
  let b ← Raw.Der.truncate I m b k
  let cells ← I.cells b
  assumeInit cells

/-- **C91 is violated**: `truncate(25)` on that value makes it show octets that were never initialised. -/
theorem C91_truncate_violated (m : Build) :
    passesThenTruncate little m [List.replicate 30 0] [] 25 noHeap = .ub ∧
    passesThenTruncate universal m [List.replicate 30 0] [] 25 noHeap = .ub := by
  refine ⟨isUb_eq ?_, isUb_eq ?_⟩ <;> cases m <;> decide +kernel

/-! ### Cases that meet the hypotheses -/

/-- Three octets where two were counted, which stay inside the inline storage: no undefined behaviour, but no DER value. -/
example (m : Build) : ∃ b h', Raw.Der.fromPasses little m bump [0x04] [[1, 2]] [[1], [2, 3]] noHeap = .ok b h' ∧
    little.cells b h' = .ok (([0x04, 0x02, 1, 2, 3] : Bytes).map some) h' ∧ ¬ IsDer [0x04, 0x02, 1, 2, 3] := by
  have h := ((C91_from_id_iterator_exact m bump bump_valid noHeap [0x04] [[1, 2]] [[1], [2, 3]] 2 rfl).1 (by decide +kernel)).1
  unfold Fills at h
  rw [if_neg (by decide +kernel), if_neg (by decide +kernel)] at h
  obtain ⟨b, h', e1, e2, _⟩ := h
  refine ⟨b, h', e1, e2, fun hd => ?_⟩
  have := (C91_well_formed_iff (id := [0x04]) ⟨0, 0, 4, by decide, by decide, by decide +kernel⟩ (n := 2) (by decide) [[1], [2, 3]]).1 hd
  revert this; decide

/-- Fewer octets than counted. -/
example (m : Build) : Raw.Der.fromPasses universal m bump [0x04] [List.replicate 300 7] [[1]] noHeap ≠ .ub :=
  (C91_from_id_iterator_partial m bump bump_valid noHeap [0x04] [List.replicate 300 7] [[1]] (by decide +kernel) (by decide +kernel)).2

end Bsn1
