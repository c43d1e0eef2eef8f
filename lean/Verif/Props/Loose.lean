import Verif.Props.Raw
import Verif.Lemmas.RawSer
import Verif.Lemmas.RawLoose
/-!
# C90: what safe code can do with `Serialize`
-/

namespace Bsn1
open Buf Spec Raw

/-- The result of `to_der` on storage is that on octets; on storage there is nothing left behind, except when memory runs out, which
ends the process. -/
def SerializesTo {I : Impl} (x : M (Except Error I.B)) (h : Heap) (r : Res Bytes) : Prop :=
  x h = .abort ∨ match r with
    | .ok d => ∃ b h', x h = .ok (.ok b) h' ∧ I.cells b h' = .ok (d.map some) h' ∧ ∃ h'', I.drop b h' = .ok () h'' ∧ h''.blocks = h.blocks
    | .err e => ∃ h', x h = .ok (.error e) h' ∧ h'.blocks = h.blocks
    | .panic => x h = .panic
    | .ub => x h = .ub

theorem Raw.Renders.to {I : Impl} {Rep : I.B → Heap → List Cell → Nat → Option Nat → Prop} (hc : Correct I Rep) {x : M (Except Error I.B)}
    {h : Heap} {r : Res Bytes} (hx : Renders Rep h.blocks x h r) : SerializesTo x h r := by
  rcases hx with e | hx
  · exact .inl e
  · right
    cases r with
    | ok d =>
      obtain ⟨b, h', fp, e, ⟨R, hr⟩, hb⟩ := hx
      obtain ⟨h'', e2, fr⟩ := hc.drop hr
      refine ⟨b, h', e, ?_, h'', e2, ?_⟩
      · rw [hc.cells hr, take_of_append (by simp)]
      · rw [← hb]
        exact (fr.trans (.refl _ _)).symm ▸ (erase_none _).symm
    | err e => exact hx
    | panic => exact hx
    | ub => exact hx

/-- **C90 (partial).** Whatever an implementation of `Serialize` answers and writes, be it wrong, `to_der` itself goes well on real storage: it
gives the octets that were written with the length that was announced, hands on an error, or panics because of an announced size; it does not break
the rules of the memory and leaves nothing behind. (What was written must have room in memory; the announced sizes are `usize`s.) -/
theorem C90_to_der_partial {α : Type} (m : Build) (al : Allocator) (hv : al.Valid) (h : Heap) (s : Ser α) (value : α)
    (hn : ∀ n, s.derContentsLen value = .ok (some n) → n < 2 ^ 64)
    (hl : (s.writeId value).chunks.flatten.length + 9 + (s.writeDerContents value).chunks.flatten.length ≤ isizeMax) :
    SerializesTo (Raw.toDer little m al s value) h (toDer m s value) ∧ SerializesTo (Raw.toDer universal m al s value) h (toDer m s value) :=
  ⟨(renders_toDer LE.correct le_inline hv s value h hn hl).to LE.correct, (renders_toDer UE.correct ue_inline hv s value h hn hl).to UE.correct⟩

/-- **C90 (partial).** The accessors on any octets, as an implementation of `Serialize` may have written them: they read a header of the loose
shape if there is one, and panic otherwise. Never is memory outside of the octets read. -/
theorem C90_accessors_partial (d : Bytes) :
    (∃ id L c, LooseHeader d id L.definite? c ∧ DerRef.id d = .ok id ∧ DerRef.length d = .ok L ∧ DerRef.contents d = .ok c ∧
      DerRef.disassemble d = .ok (id, L, c) ∧ BerRef.id d = .ok id ∧ BerRef.length d = .ok L ∧ BerRef.contents d = .ok c ∧
      BerRef.disassemble d = .ok (id, L, c)) ∨
    ((∀ id n c, ¬ LooseHeader d id n c) ∧ DerRef.disassemble d = .panic ∧ DerRef.length d = .panic ∧ DerRef.contents d = .panic ∧
      BerRef.disassemble d = .panic ∧ BerRef.length d = .panic ∧ BerRef.contents d = .panic ∧
      ((∃ id rest, LooseId id ∧ d = id ++ rest ∧ DerRef.id d = .ok id ∧ BerRef.id d = .ok id) ∨ DerRef.id d = .panic ∧ BerRef.id d = .panic)) := by
  have eD : DerRef.disassemble d = disassembled d := rfl
  have eB : BerRef.disassemble d = disassembled d := rfl
  rcases disassembled_total d with ⟨id, n, c, hh⟩ | e
  · left
    obtain ⟨L, rfl, e⟩ := disassembled_loose hh
    have hh' := hh
    obtain ⟨l, h1, h2, rfl⟩ := hh'
    have ei := parseIdUnchecked_loose h1 (l ++ c)
    rw [← List.append_assoc] at ei
    refine ⟨_, L, c, hh, ?_, ?_, ?_, e, ?_, ?_, ?_, e⟩
    · rw [DerRef.id, ei]; rfl
    · rw [DerRef.length, eD, e]; rfl
    · rw [DerRef.contents, eD, e]; rfl
    · rw [BerRef.id, ei]; rfl
    · rw [BerRef.length, eB, e]; rfl
    · rw [BerRef.contents, eB, e]; rfl
  · right
    refine ⟨fun id n c hh => ?_, e, ?_, ?_, e, ?_, ?_, ?_⟩
    · obtain ⟨L, _, e'⟩ := disassembled_loose hh
      rw [e] at e'
      cases e'
    · rw [DerRef.length, eD, e]; rfl
    · rw [DerRef.contents, eD, e]; rfl
    · rw [BerRef.length, eB, e]; rfl
    · rw [BerRef.contents, eB, e]; rfl
    · rcases parseIdUnchecked_total d with ⟨id, rest, h1, rfl⟩ | ei
      · have ei := parseIdUnchecked_loose h1 rest
        refine .inl ⟨id, rest, h1, rfl, ?_, ?_⟩
        · rw [DerRef.id, ei]; rfl
        · rw [BerRef.id, ei]; rfl
      · refine .inr ⟨?_, ?_⟩
        · rw [DerRef.id, ei]; rfl
        · rw [BerRef.id, ei]; rfl

/-- Octets with a header that announces more than there is, and octets without a header. -/
example : DerRef.disassemble [0x04, 0x05, 0x07] = .ok ([0x04], .definite 5, [0x07]) ∧ DerRef.disassemble [0x04] = .panic := by decide +kernel

/-- A buffer that has these octets, in storage with room for `cap`. -/
def StoredLE (b : LE) (h : Heap) (octets : Bytes) (cap : Nat) : Prop :=
  ∃ R fp, LE.Rep b h (octets.map some ++ R) octets.length fp ∧ cap = octets.length + R.length

/-- A buffer of the other layout that has these octets, in storage with room for `cap`. -/
def StoredUE (b : UE) (h : Heap) (octets : Bytes) (cap : Nat) : Prop :=
  ∃ R fp, UE.Rep b h (octets.map some ++ R) octets.length fp ∧ cap = octets.length + R.length

/-- What `extend_from_slice` does to a value of which the header announces `old` octets, but `c` octets are there, in storage with room for
`cap`: `lenNew` is how many octets the new length takes. -/
def ExtendsLoose {β : Type} (m : Build) (idLen lenNew old c k cap : Nat) (o : Out β) : Prop :=
  o = .abort ∨
    if max cap (idLen + lenNew + c + k) < idLen + lenNew + old + k then o = .ub
    else if m = .debug ∧ old ≠ c then o = .panic
    else ∃ b h, o = .ok b h

/-- **C90, exactly, for `push` and `extend_from_slice`.** When a value was made by an implementation of `Serialize` whose announced length `old` is not
that of the contents `c` it wrote, appending octets writes outside of the storage if and only if the announced length is longer and the storage, after
it has been enlarged for the real octets, does not happen to have room for the announced ones. Otherwise it is a panic of a build with debug assertions,
and goes unnoticed without. -/
theorem C90_extend_exact (m : Build) (al : Allocator) (hv : al.Valid) (h : Heap) {id c bytes : Bytes} {old cap : Nat} (hid : LooseId id)
    (ho : old + bytes.length < 2 ^ 64)
    (hn : id.length + (lenOctets (old + bytes.length)).length + c.length + bytes.length ≤ isizeMax) :
    (∀ b, StoredLE b h (id ++ lenOctets old ++ c) cap →
      ExtendsLoose m id.length (lenOctets (old + bytes.length)).length old c.length bytes.length cap (Raw.Der.extendFromSlice little m al b bytes h)) ∧
    (∀ b, StoredUE b h (id ++ lenOctets old ++ c) cap →
      ExtendsLoose m id.length (lenOctets (old + bytes.length)).length old c.length bytes.length cap
        (Raw.Der.extendFromSlice universal m al b bytes h)) := by
  constructor
  · rintro b ⟨R, fp, hr, rfl⟩
    rcases extend_loose (m := m) LE.correct le_inline le_bounds hv hid hr ho hn with e | e
    · exact .inl e
    · right
      split
      · rwa [if_pos ‹_›] at e
      · rw [if_neg ‹_›] at e
        split
        · rwa [if_pos ‹_›] at e
        · rw [if_neg ‹_›] at e
          obtain ⟨b', h', _, _, e, _⟩ := e
          exact ⟨b', h', e⟩
  · rintro b ⟨R, fp, hr, rfl⟩
    rcases extend_loose (m := m) UE.correct ue_inline ue_bounds hv hid hr ho hn with e | e
    · exact .inl e
    · right
      split
      · rwa [if_pos ‹_›] at e
      · rw [if_neg ‹_›] at e
        split
        · rwa [if_pos ‹_›] at e
        · rw [if_neg ‹_›] at e
          obtain ⟨b', h', _, _, e, _⟩ := e
          exact ⟨b', h', e⟩

/-- **C90 (partial).** `truncate` of a value whose header announces more than there is goes well, and even repairs the header, as long as at least as
many octets are there as are to stay. (Beyond, see `C90_truncate_violated`.) -/
theorem C90_truncate_partial (m : Build) (h : Heap) {id c : Bytes} {old n cap : Nat} (hid : LooseId id) (hold : old < 2 ^ 64) (hn : n < old)
    (hc : n ≤ c.length) :
    (∀ b, StoredLE b h (id ++ lenOctets old ++ c) cap → Raw.Der.truncate little m b n h = .abort ∨ ∃ b' h',
      Raw.Der.truncate little m b n h = .ok b' h' ∧
      little.cells b' h' = .ok ((id ++ lenOctets n ++ c.take n).map some) h') ∧
    (∀ b, StoredUE b h (id ++ lenOctets old ++ c) cap → Raw.Der.truncate universal m b n h = .abort ∨ ∃ b' h',
      Raw.Der.truncate universal m b n h = .ok b' h' ∧
      universal.cells b' h' = .ok ((id ++ lenOctets n ++ c.take n).map some) h') := by
  constructor
  · rintro b ⟨R, fp, hr, rfl⟩
    rcases truncate_loose (m := m) LE.correct hid hold hr hn hc with e | ⟨b', h', _, e, hb, _⟩
    · exact .inl e
    · exact .inr ⟨b', h', e, hb.cells LE.correct⟩
  · rintro b ⟨R, fp, hr, rfl⟩
    rcases truncate_loose (m := m) UE.correct hid hold hr hn hc with e | ⟨b', h', _, e, hb, _⟩
    · exact .inl e
    · exact .inr ⟨b', h', e, hb.cells UE.correct⟩

/-- What `truncate` to `n` octets does to a value of which the header announces more, where `behind` is the storage behind the header, `hdr` the new
header and `shorter` says that it is shorter than the old one. -/
def CutsLoose {I : Impl} (m : Build) (hdr : Bytes) (shorter : Prop) [Decidable shorter] (n : Nat) (behind : List Cell) (o : Out I.B) : Prop :=
  if behind.length < n then
    if shorter then o = .ub
    else if m = .debug then o = .panic
    else ∃ b h, o = .ok b h
  else ∃ b h, o = .ok b h ∧ I.cells b h = .ok (hdr.map some ++ behind.take n) h

/-- **C90, exactly, for `truncate`.** The header announces `old` octets, `c` are there and the storage goes on with `R`. To `n < old`: if the
storage has room for `n` octets behind the header, the value shows them, be they of `c` or what the storage happens to have behind; otherwise octets
outside of the storage are moved if the header becomes shorter, and if not, `set_len` is called with more than the capacity, which is a panic with debug
assertions and breaks its contract without. -/
theorem C90_truncate_exact (m : Build) (h : Heap) {id c : Bytes} {R : List Cell} {fp : Option Nat} {old n : Nat} (hid : LooseId id)
    (hold : old < 2 ^ 64) (hn : n < old) :
    (∀ b, LE.Rep b h ((id ++ lenOctets old ++ c).map some ++ R) (id ++ lenOctets old ++ c).length fp →
      CutsLoose (I := little) m (id ++ lenOctets n) ((lenOctets n).length < (lenOctets old).length) n (c.map some ++ R)
        (Raw.Der.truncate little m b n h)) ∧
    (∀ b, UE.Rep b h ((id ++ lenOctets old ++ c).map some ++ R) (id ++ lenOctets old ++ c).length fp →
      CutsLoose (I := universal) m (id ++ lenOctets n) ((lenOctets n).length < (lenOctets old).length) n (c.map some ++ R)
        (Raw.Der.truncate universal m b n h)) := by
  have hT : (c.map some ++ R).length = c.length + R.length := by simp
  constructor
  · intro b hr
    have := truncate_loose_exact (m := m) LE.correct le_bounds le_setLen_release hid hold hr hn
    unfold CutsLoose
    rw [hT]
    split
    · rwa [if_pos ‹_›] at this
    · rw [if_neg ‹_›] at this
      obtain ⟨b', h', R', e, _, hr'⟩ := this
      exact ⟨b', h', e, by rw [LE.correct.cells hr', take_of_append (by simp; omega)]⟩
  · intro b hr
    have := truncate_loose_exact (m := m) UE.correct ue_bounds ue_setLen_release hid hold hr hn
    unfold CutsLoose
    rw [hT]
    split
    · rwa [if_pos ‹_›] at this
    · rw [if_neg ‹_›] at this
      obtain ⟨b', h', R', e, _, hr'⟩ := this
      exact ⟨b', h', e, by rw [UE.correct.cells hr', take_of_append (by simp; omega)]⟩

/-- An implementation of `Serialize` that announces `n` octets and writes none. -/
def liar (n : Nat) : Ser Unit where
  writeId _ := W.writeAll [0x04]
  writeDerContents _ := pure ()
  idLen _ := .ok none
  derContentsLen _ := .ok (some n)

/-- Serialize, then `push(0)`. -/
def thenPush (I : Impl) (m : Build) (n : Nat) : M I.B := do
  match ← Raw.toDer I m bump (liar n) () with
  | .ok b => Raw.Der.extendFromSlice I m bump b [0]
  | .error _ => M.panic

/-- Serialize, then `truncate(k)`, then look at the octets. -/
def thenTruncate (I : Impl) (m : Build) (n k : Nat) : M (List Cell) := do
  match ← Raw.toDer I m bump (liar n) () with
  | .ok b => do
    let b ← Raw.Der.truncate I m b k
    I.cells b
  | .error _ => M.panic

/-- **C90 is violated**: with an implementation of the safe trait `Serialize` that announces 100 octets and writes none, `push` on the value that `to_der`
returned writes outside of the storage, in every build and both layouts. -/
theorem C90_push_violated (m : Build) : thenPush little m 100 noHeap = .ub ∧ thenPush universal m 100 noHeap = .ub := by
  refine ⟨isUb_eq ?_, isUb_eq ?_⟩ <;> cases m <;> decide +kernel

/-- **C90 is violated**: without debug assertions, `truncate(50)` of that value makes it longer than its storage, and whoever reads it next reads outside. -/
theorem C90_truncate_violated : thenTruncate little .release 100 50 noHeap = .ub ∧ thenTruncate universal .release 100 50 noHeap = .ub := by
  refine ⟨isUb_eq ?_, isUb_eq ?_⟩ <;> decide +kernel

/-- **C90.** `Ber` does the same as `Der` to such values. -/
theorem C90_ber_same (m : Build) (al : Allocator) (h : Heap) {id c : Bytes} {old cap : Nat} (hid : LooseId id) (hold : old < 2 ^ 64) (bytes : Bytes)
    (n : Nat) :
    (∀ b, StoredLE b h (id ++ lenOctets old ++ c) cap →
      Raw.Ber.extendFromSlice little m al b bytes h = Raw.Der.extendFromSlice little m al b bytes h ∧
      Raw.Ber.truncate little m b n h = Raw.Der.truncate little m b n h) ∧
    (∀ b, StoredUE b h (id ++ lenOctets old ++ c) cap →
      Raw.Ber.extendFromSlice universal m al b bytes h = Raw.Der.extendFromSlice universal m al b bytes h ∧
      Raw.Ber.truncate universal m b n h = Raw.Der.truncate universal m b n h) := by
  constructor
  · rintro b ⟨R, fp, hr, rfl⟩
    have hr0 : LE.Rep b h ((id ++ lenOctets old).map some ++ (c.map some ++ R)) (id ++ lenOctets old ++ c).length fp := by
      simpa using hr
    have e := header_ok LE.correct hr0 (by simp) (disassemble_looseId hid hold)
    constructor
    · exact bind_ok e
    · exact bind_ok e
  · rintro b ⟨R, fp, hr, rfl⟩
    have hr0 : UE.Rep b h ((id ++ lenOctets old).map some ++ (c.map some ++ R)) (id ++ lenOctets old ++ c).length fp := by
      simpa using hr
    have e := header_ok UE.correct hr0 (by simp) (disassemble_looseId hid hold)
    constructor
    · exact bind_ok e
    · exact bind_ok e

/-! ### Cases that meet the hypotheses -/

/-- The liar's value is `04 64`, and it is given by `to_der` on storage. -/
example (m : Build) : bump.Valid ∧ toDer m (liar 100) () = .ok [0x04, 0x64] ∧
    SerializesTo (Raw.toDer little m bump (liar 100) ()) noHeap (.ok [0x04, 0x64]) := by
  have e : toDer m (liar 100) () = .ok [0x04, 0x64] := by cases m <;> decide +kernel
  refine ⟨bump_valid, e, ?_⟩
  have := (C90_to_der_partial m bump bump_valid noHeap (liar 100) () (fun n hn => by cases hn; decide) (by decide +kernel)).1
  rwa [e] at this

/-- A header without its contents, and octets that are no header. -/
example : LooseHeader [0x04, 0x64] [0x04] (some 100) [] ∧ DerRef.length [0x1f, 0x80] = .panic ∧ DerRef.id [0x1f, 0x80] = .panic :=
  ⟨⟨[0x64], .short _ (by decide), .short _ (by decide), rfl⟩, by decide +kernel, by decide +kernel⟩

/-- The value `04 64` in line, where one octet more is undefined; and `04 03`, where it is a panic or goes unnoticed. -/
example (m : Build) : ∃ b b' : LE, StoredLE b noHeap ([0x04] ++ lenOctets 100 ++ []) 23 ∧ StoredLE b' noHeap ([0x04] ++ lenOctets 3 ++ []) 23 ∧
    Raw.Der.extendFromSlice little m bump b [0] noHeap ∈ [.abort, .ub] ∧
    ExtendsLoose m 1 1 3 0 1 23 (Raw.Der.extendFromSlice little m bump b' [0] noHeap) := by
  have mk : ∀ v : Bytes, v.length = 2 → ∃ b : LE, StoredLE b noHeap v 23 := by
    intro v hv
    obtain ⟨b, h', e, hr, _⟩ := LE.correct.extend .debug (b := LE.new) (h := noHeap) v (LE.rep_new noHeap) (by simp [hv])
    have hh : h' = noHeap := by
      have : little.extend .debug LE.new v noHeap = .ok b h' := e
      have e2 : ∃ b, little.extend .debug LE.new v noHeap = .ok b noHeap := by
        match v, hv with
        | [x, y], _ => exact ⟨_, rfl⟩
      obtain ⟨b2, e2⟩ := e2
      rw [e2] at this
      cases this
      rfl
    subst hh
    refine ⟨b, List.replicate 21 (some 0), none, ?_, by simp [hv]⟩
    have : patch (List.replicate 23 (some (0 : UInt8))) 0 (v.map some) = v.map some ++ List.replicate 21 (some 0) := by
      rw [patch_zero, List.length_map, hv]
      rfl
    rw [List.map_replicate, this, Nat.zero_add] at hr
    exact hr
  have h1 : LooseId [0x04] := .short _ (by decide)
  obtain ⟨b, hb⟩ := mk ([0x04] ++ lenOctets 100 ++ []) (by decide +kernel)
  obtain ⟨b', hb'⟩ := mk ([0x04] ++ lenOctets 3 ++ []) (by decide +kernel)
  have e1 : (lenOctets (100 + ([0] : Bytes).length)).length = 1 := by decide +kernel
  have e2 : (lenOctets (3 + ([0] : Bytes).length)).length = 1 := by decide +kernel
  have j1 := (C90_extend_exact m bump bump_valid noHeap (bytes := [0]) (c := []) (old := 100) (cap := 23) h1 (by decide) (by rw [e1]; decide +kernel)).1 b hb
  have j2 := (C90_extend_exact m bump bump_valid noHeap (bytes := [0]) (c := []) (old := 3) (cap := 23) h1 (by decide) (by rw [e2]; decide +kernel)).1 b' hb'
  refine ⟨b, b', hb, hb', ?_, by rwa [e2] at j2⟩
  rcases j1 with e | e
  · rw [e]; exact .head _
  · rw [if_pos (by rw [e1]; decide)] at e
    rw [e]; exact .tail _ (.head _)

/-- `04 64 01` in line, truncated to 20 and 50 octets: zeros behind the one octet; a panic, or `set_len` with more than the capacity. -/
example (b : LE) (m : Build)
    (hr : LE.Rep b noHeap (([0x04] ++ lenOctets 100 ++ [1] : Bytes).map some ++ List.replicate 20 (some 0)) ([0x04] ++ lenOctets 100 ++ [1] : Bytes).length
      none) :
    (∃ b' h', Raw.Der.truncate little m b 20 noHeap = .ok b' h' ∧
      little.cells b' h' = .ok (([0x04] ++ lenOctets 20 ++ [1] : Bytes).map some ++ List.replicate 19 (some 0)) h') ∧
    (m = .debug → Raw.Der.truncate little m b 50 noHeap = .panic) := by
  have h1 : LooseId [0x04] := .short _ (by decide)
  have e20 := (C90_truncate_exact m noHeap h1 (n := 20) (by decide) (by decide)).1 b hr
  have e50 := (C90_truncate_exact m noHeap h1 (n := 50) (by decide) (by decide)).1 b hr
  unfold CutsLoose at e20 e50
  rw [if_neg (by decide)] at e20
  rw [if_pos (by decide), if_neg (by decide +kernel)] at e50
  refine ⟨?_, fun hm => by rwa [if_pos hm] at e50⟩
  obtain ⟨b', h', e1, e2⟩ := e20
  exact ⟨b', h', e1, e2⟩

/-- `04 64 01 02` truncated to one octet. -/
example : LooseId [0x04] ∧ 1 < 100 ∧ 1 ≤ ([1, 2] : Bytes).length ∧ ([0x04] ++ lenOctets 1 ++ ([1, 2] : Bytes).take 1 : Bytes) = [0x04, 0x01, 0x01] :=
  ⟨.short _ (by decide), by decide, by decide, by decide +kernel⟩

end Bsn1
