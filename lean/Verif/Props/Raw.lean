import Verif.Lemmas.RawHistory
import Verif.Props.Buffer
/-!
# C77 to C79: the unsafe code of `Der`, `Ber`, `Id` and `Contents` on real storage
-/

namespace Bsn1
open Buf Spec Raw

namespace Raw

variable {I : Impl} {Rep : I.B → Heap → List Cell → Nat → Option Nat → Prop} {h0 h : Heap} {objs : List (Obj I)}
  {vals vals' : List TVal} {m : Build} {al : Allocator}

theorem thistory_step (hc : Correct I Rep) (hv : al.Valid) (hh : THistory I m al h0 objs h vals) {op : TOp} (hd : Does vals op vals') :
    tstep m al objs op h = .abort ∨ ∃ objs' h', tstep m al objs op h = .ok objs' h' ∧ THistory I m al h0 objs' h' vals' := by
  obtain ⟨hg, fps, hi⟩ := THistory.inv hc hv hh
  rcases (does_inv (m := m) hc hv hi hg hd).2 with e | ⟨objs', h', _, e, _⟩
  · exact .inl e
  · exact .inr ⟨objs', h', e, hh.step hd e⟩

theorem holds_buf {b : I.B} {v : TVal} (hv : v ≠ .gone) (hv' : ∀ bs, v ≠ .vec bs) (e : I.cells b h = .ok (v.octets.map some) h) :
    HoldsVal (.buf b) h v := by
  cases v <;> first | exact e | exact absurd rfl hv | exact absurd rfl (hv' _)

theorem inv_values (hc : Correct I Rep) {fps : List (Option Nat)} (hi : Inv Rep h0 objs h (vals.map absOf) fps) :
    objs.length = vals.length ∧ ∀ (i : Nat) o v, objs[i]? = some o → vals[i]? = some v → HoldsVal o h v := by
  refine ⟨by simpa using hi.lenA.symm, fun i o v eo ev => ?_⟩
  obtain ⟨a, f, ea, ef, hr⟩ := hi.at eo
  rw [List.getElem?_map, ev] at ea
  cases ea
  by_cases h1 : v = .gone
  · subst h1
    cases o with
    | gone => trivial
    | buf b => exact hr.elim
    | vec r => exact hr.elim
  · by_cases h2 : ∃ bs, v = .vec bs
    · obtain ⟨bs, rfl⟩ := h2
      cases o with
      | gone => exact hr.elim
      | buf b => exact hr.elim
      | vec r =>
        obtain ⟨s, k1, k2, k3⟩ := hr
        obtain ⟨R, rfl⟩ := agree_append k2
        simp only [AVec.ofBytes] at k1
        change vecCells r h = _
        generalize hl : bs.length = l at k1
        generalize hs : bs.map some ++ R = s at k1
        have ht : bs.map some = s.take l := by rw [← hs, ← hl, take_of_append (by simp)]
        rw [ht]
        cases k1 with
        | empty => rfl
        | block a1 a2 a3 a4 a5 a6 =>
          rw [vecCells, if_neg (by simp only; omega)]
          exact load_spec _ _ _ h a3 a6
    · have h2' : ∀ bs, v ≠ .vec bs := fun bs e => h2 ⟨bs, e⟩
      obtain ⟨b, rfl, hb⟩ := obj_buf h1 h2' hr
      exact holds_buf h1 h2' (hb.cells hc)

theorem thistory_values (hc : Correct I Rep) (hv : al.Valid) (hh : THistory I m al h0 objs h vals) :
    objs.length = vals.length ∧ ∀ (i : Nat) o v, objs[i]? = some o → vals[i]? = some v → HoldsVal o h v := by
  obtain ⟨_, fps, hi⟩ := THistory.inv hc hv hh
  exact inv_values hc hi

theorem inv_owned_LE {objs : List (Obj little)} {fps : List (Option Nat)} (hi : Inv LE.Rep h0 objs h (vals.map absOf) fps) :
    BlocksOwned little ownerLE h0 objs h := by
  obtain ⟨h1, h2, h3⟩ := inv_blocks LE.correct ownerLE ownerLE_eq hi
  refine ⟨fun i o p e eo => ?_, h2, h3⟩
  obtain ⟨h4, cells, h5, h6⟩ := h1 i o p e eo
  exact ⟨h4, cells, h5, by cases o <;> exact h6⟩

theorem inv_owned_UE {objs : List (Obj universal)} {fps : List (Option Nat)} (hi : Inv UE.Rep h0 objs h (vals.map absOf) fps) :
    BlocksOwned universal ownerUE h0 objs h := by
  obtain ⟨h1, h2, h3⟩ := inv_blocks UE.correct ownerUE ownerUE_eq hi
  refine ⟨fun i o p e eo => ?_, h2, h3⟩
  obtain ⟨h4, cells, h5, h6⟩ := h1 i o p e eo
  exact ⟨h4, cells, h5, by cases o <;> exact h6⟩

end Raw

/-! ### C77: programs -/

/-- **C77.** Each call of a program does what it should, or the allocator refuses: no access outside of the storage, no use of
freed or uninitialised memory, no freeing twice, no panic. -/
theorem C77_calls (m : Build) (al : Allocator) (hv : al.Valid) (h0 h : Heap) (vals vals' : List TVal) (op : TOp)
    (hd : Does vals op vals') :
    (∀ objs, THistory little m al h0 objs h vals → tstep m al objs op h = .abort ∨
      ∃ objs' h', tstep m al objs op h = .ok objs' h' ∧ THistory little m al h0 objs' h' vals') ∧
    (∀ objs, THistory universal m al h0 objs h vals → tstep m al objs op h = .abort ∨
      ∃ objs' h', tstep m al objs op h = .ok objs' h' ∧ THistory universal m al h0 objs' h' vals') :=
  ⟨fun _ hh => thistory_step LE.correct hv hh hd, fun _ hh => thistory_step UE.correct hv hh hd⟩

/-- **C77.** Whatever a program did, each of its values has exactly the octets it should have. -/
theorem C77_values (m : Build) (al : Allocator) (hv : al.Valid) (h0 h : Heap) (vals : List TVal) :
    (∀ objs, THistory little m al h0 objs h vals → objs.length = vals.length ∧
      ∀ (i : Nat) o v, objs[i]? = some o → vals[i]? = some v → HoldsVal o h v) ∧
    (∀ objs, THistory universal m al h0 objs h vals → objs.length = vals.length ∧
      ∀ (i : Nat) o v, objs[i]? = some o → vals[i]? = some v → HoldsVal o h v) :=
  ⟨fun _ hh => thistory_values LE.correct hv hh, fun _ hh => thistory_values UE.correct hv hh⟩

/-- **C77.** Blocks and their owners (see `BlocksOwned`): in particular a parser that returns `Err` has freed what it allocated. -/
theorem C77_blocks (m : Build) (al : Allocator) (hv : al.Valid) (h0 h : Heap) (vals : List TVal) :
    (∀ objs, THistory little m al h0 objs h vals → BlocksOwned little ownerLE h0 objs h) ∧
    (∀ objs, THistory universal m al h0 objs h vals → BlocksOwned universal ownerUE h0 objs h) := by
  constructor
  · intro objs hh
    obtain ⟨_, fps, hi⟩ := THistory.inv LE.correct hv hh
    exact inv_owned_LE hi
  · intro objs hh
    obtain ⟨_, fps, hi⟩ := THistory.inv UE.correct hv hh
    exact inv_owned_UE hi

/-- **C77.** When everything was dropped (or never came to be), the heap is as at the beginning. -/
theorem C77_balanced (m : Build) (al : Allocator) (hv : al.Valid) (h0 h : Heap) (vals : List TVal) (hg : ∀ v ∈ vals, v = .gone) :
    (∀ objs, THistory little m al h0 objs h vals → h.blocks = h0.blocks) ∧
    (∀ objs, THistory universal m al h0 objs h vals → h.blocks = h0.blocks) := by
  have key : ∀ (I : Impl) (ow : I.B → Option Nat) (objs : List (Obj I)), objs.length = vals.length →
      (∀ (i : Nat) o v, objs[i]? = some o → vals[i]? = some v → HoldsVal o h v) → BlocksOwned I ow h0 objs h →
      h.blocks = h0.blocks := by
    intro I ow objs hl hh hb
    funext q
    refine hb.2.2 q fun i o e => ?_
    have hi : i < vals.length := by
      rw [← hl]
      rcases Nat.lt_or_ge i objs.length with hl | hl
      · exact hl
      · rw [List.getElem?_eq_none hl] at e; simp at e
    have ev := List.getElem?_eq_getElem hi
    have := hh i o _ e ev
    rw [hg _ (List.getElem_mem hi)] at this
    cases o with
    | gone => simp [Obj.owner]
    | buf b => exact this.elim
    | vec r => exact this.elim
  constructor
  · intro objs hh
    obtain ⟨h1, h2⟩ := (C77_values m al hv h0 h vals).1 objs hh
    exact key little ownerLE objs h1 h2 ((C77_blocks m al hv h0 h vals).1 objs hh)
  · intro objs hh
    obtain ⟨h1, h2⟩ := (C77_values m al hv h0 h vals).2 objs hh
    exact key universal ownerUE objs h1 h2 ((C77_blocks m al hv h0 h vals).2 objs hh)

/-- Several calls. -/
def trun {I : Impl} (m : Build) (al : Allocator) : List TOp → List (Obj I) → M (List (Obj I))
  | [], objs => pure objs
  | op :: r, objs => do
    let objs ← tstep m al objs op
    trun m al r objs

/-- What several calls should do. -/
inductive DoesAll : List TVal → List TOp → List TVal → Prop
  | nil {vals} : DoesAll vals [] vals
  | cons {vals op vals' r vals''} : Does vals op vals' → DoesAll vals' r vals'' → DoesAll vals (op :: r) vals''

theorem thistory_run {I : Impl} {m : Build} {al : Allocator} {h0 : Heap} {vals vals' : List TVal} {ops : List TOp}
    (hd : DoesAll vals ops vals') : ∀ {objs : List (Obj I)} {h : Heap}, THistory I m al h0 objs h vals → ∀ {objs' h'},
    trun m al ops objs h = .ok objs' h' → THistory I m al h0 objs' h' vals' := by
  induction hd with
  | nil =>
    intro objs h hh objs' h' e
    cases e
    exact hh
  | @cons vals op vals1 r vals2 h1 h2 ih =>
    intro objs h hh objs' h' e
    rw [trun] at e
    cases ht : tstep m al objs op h with
    | ok o1 hp =>
      rw [bind_ok ht] at e
      exact ih (hh.step h1 ht) e
    | panic => rw [bind_panic ht] at e; simp at e
    | abort => rw [bind_abort ht] at e; simp at e
    | ub => rw [bind_ub ht] at e; simp at e

/-- A value is made inline, grows onto the heap, is changed and cut; another is parsed and turned into a vector; parsing fails. -/
def someOps : List TOp := [.derNew [0x04] octets, .derExtend 0 [1, 2, 3], .derTruncate 0 25, .setClass 0 .contextSpecific,
  .berParse ([0x30] ++ indefOctets ++ [0x00, 0x00] ++ [0x07]), .intoVec 1, .idParse []]

theorem someOps_does : DoesAll [] someOps [.der (idOctets 2 0 4) (octets ++ [1, 2]), .vec [0x30, 0x80, 0x00, 0x00], .gone] := by
  have i4 : IsId (idOctets 0 0 4) := ⟨0, 0, 4, by decide, by decide, rfl⟩
  have e4 : idOctets 0 0 4 = [0x04] := by decide +kernel
  have i30 : IsId [0x30] := ⟨0, 1, 16, by decide, by decide, by decide +kernel⟩
  unfold someOps
  rw [← e4]
  refine .cons (.make (.derNew i4 (by decide +kernel))) ?_
  refine .cons (.change (i := 0) rfl (.derExtend (by decide +kernel))) ?_
  refine .cons (.change (i := 0) rfl .derTruncate) ?_
  refine .cons (.change (i := 0) rfl (.setClassDer (cls := .universal) (pc := .primitive) (n := 4))) ?_
  refine .cons (.make (.berParseIndef (c := [0x00, 0x00]) i30 (by decide +kernel) (.indefinite [0x30] [] i30 .nil))) ?_
  refine .cons (.change (i := 1) rfl (.intoVec (by simp) (by simp))) ?_
  refine .cons (.make (.idParseErr (by decide) ?_)) ?_
  · intro v rest hv e
    obtain ⟨rfl, _⟩ := List.append_eq_nil_iff.mp e.symm
    have := isId_length_pos hv
    simp at this
  · exact .nil

example : ∃ objs h, THistory little .debug bump noHeap objs h
    [.der (idOctets 2 0 4) (octets ++ [1, 2]), .vec [0x30, 0x80, 0x00, 0x00], .gone] ∧
    ∃ b : LE, objs[0]? = some (.buf b) ∧ b.isStack = false ∧ HoldsVal (I := little) (.buf b) h (.der (idOctets 2 0 4) (octets ++ [1, 2])) ∧
      BlocksOwned little ownerLE noHeap objs h := by
  have hb : (match trun (I := little) .debug bump someOps [] noHeap with
    | .ok (.buf b :: _) _ => b.isStack
    | _ => true) = false := by decide +kernel
  split at hb
  · rename_i b r h e
    have hh := thistory_run someOps_does .start e
    exact ⟨_, h, hh, b, rfl, hb, ((C77_values .debug bump bump_valid noHeap h _).1 _ hh).2 0 _ _ rfl rfl,
      (C77_blocks .debug bump bump_valid noHeap h _).1 _ hh⟩
  · simp at hb

example : ∃ objs h, THistory universal .release bump noHeap objs h
    [.der (idOctets 2 0 4) (octets ++ [1, 2]), .vec [0x30, 0x80, 0x00, 0x00], .gone] ∧
    ∃ b, objs[0]? = some (.buf b) ∧ b.isStack = false := by
  have hb : (match trun (I := universal) .release bump someOps [] noHeap with
    | .ok (.buf b :: _) _ => b.isStack
    | _ => true) = false := by decide +kernel
  split at hb
  · rename_i b r h e
    exact ⟨_, h, thistory_run someOps_does .start e, b, rfl, hb⟩
  · simp at hb

/-! ### C78: parsing untrusted input -/

/-- What a parser on real storage does when the list of octets or the error is as told: unless the allocator refuses, it returns a
buffer with exactly these octets, all other blocks being as before; or the error, all blocks being as before.  The reader is left
where it should. -/
def ParsesTo {I : Impl} {σ : Type} (x : M (Except Error I.B × σ)) (h : Heap) (r : Res Bytes) (s' : σ) : Prop :=
  x h = .abort ∨ match r with
  | .ok v => ∃ b h', x h = .ok (.ok b, s') h' ∧ I.cells b h' = .ok (v.map some) h' ∧
      ∀ q cells, h.blocks q = some cells → h'.blocks q = some cells
  | .err e => ∃ h', x h = .ok (.error e, s') h' ∧ h'.blocks = h.blocks
  | _ => False

theorem parsesTo {I : Impl} {Rep : I.B → Heap → List Cell → Nat → Option Nat → Prop} (hc : Correct I Rep) {σ : Type}
    {x : M (Except Error I.B × σ)} {h : Heap} {r : Res Bytes} {s' : σ} (h1 : r ≠ .panic) (h2 : r ≠ .ub)
    (hs : Step x h none (Parsed Rep r s')) : ParsesTo x h r s' := by
  rcases hs with e | ⟨⟨a, t⟩, h', fp, e, ⟨q1, q2⟩, fr⟩
  · exact .inl e
  · right
    cases q1
    cases r with
    | ok v =>
      obtain ⟨b, rfl, hb⟩ := q2
      exact ⟨b, h', e, hb.cells hc, fun q cells hq => fr.keeps hq⟩
    | err e' =>
      obtain ⟨rfl, rfl⟩ := q2
      refine ⟨h', e, ?_⟩
      have := fr
      rw [Frame, erase_none, erase_none] at this
      exact this.symm
    | panic => exact absurd rfl h1
    | ub => exact absurd rfl h2

/-- **C78.** `Der::parse`, `Ber::parse` and `Id::parse` on real storage, from any reader: they do to memory what the models on lists of
octets say, as long as those return (which C23 and C76 describe).  (Partial: announced lengths that do not fit, see
`C78_ber_parse_violated` and `C78_der_parse_violated`.) -/
theorem C78_parse_partial {σ : Type} [Reader σ] [LawfulReader σ] (m : Build) (al : Allocator) (hv : al.Valid) (h : Heap) (s s' : σ) (r : Res Bytes)
    (hs : Reader.size s ≤ isizeMax) (h1 : r ≠ .panic) (h2 : r ≠ .ub) :
    (Der.parse m s = (r, s') →
      ParsesTo (Raw.Der.parse little m al honestRead s) h r s' ∧ ParsesTo (Raw.Der.parse universal m al honestRead s) h r s') ∧
    (Ber.parse m s = (r, s') →
      ParsesTo (Raw.Ber.parse little m al honestReadExact s) h r s' ∧
      ParsesTo (Raw.Ber.parse universal m al honestReadExact s) h r s') ∧
    (Id.parse s = (r, s') →
      ParsesTo (Raw.Id.parse little m al s) h r s' ∧ ParsesTo (Raw.Id.parse universal m al s) h r s') :=
  ⟨fun hp => ⟨parsesTo LE.correct h1 h2 (step_Der_parse LE.correct hv hs hp h1 h2),
      parsesTo UE.correct h1 h2 (step_Der_parse UE.correct hv hs hp h1 h2)⟩,
    fun hp => ⟨parsesTo LE.correct h1 h2 (step_Ber_parse LE.correct hv hs hp h1 h2),
      parsesTo UE.correct h1 h2 (step_Ber_parse UE.correct hv hs hp h1 h2)⟩,
    fun hp => ⟨parsesTo LE.correct h1 h2 (step_Id_parse LE.correct hv hs hp h1 h2),
      parsesTo UE.correct h1 h2 (step_Id_parse UE.correct hv hs hp h1 h2)⟩⟩

/-- A reader that delivers the value in pieces and then fails: for `Ber::parse`. -/
example : Ber.parse .debug ([.chunk [0x04], .chunk [0x03, 0x01], .chunk [0x02, 0x03], .fail (.other 5)] : Script) =
    (.ok [0x04, 0x03, 0x01, 0x02, 0x03], [.fail (.other 5)]) := by
  decide +kernel

/-- Is it undefined behaviour? -/
def isUb {α : Type} : Out α → Bool
  | .ub => true
  | _ => false

theorem isUb_eq {α : Type} {x : Out α} (h : isUb x = true) : x = .ub := by
  cases x <;> first | rfl | simp [isUb] at h

/-- An indefinite value whose second element announces `isize::MAX` octets; the first has moved the buffer to the heap. -/
def hostileBer : Bytes := [0x30, 0x80, 0x04, 0x20] ++ List.replicate 32 0 ++ [0x04, 0x88, 0x7f, 0xff, 0xff, 0xff, 0xff, 0xff, 0xff, 0xff]

/-- **C78, violated.** These 46 octets make `Ber::parse` call `alloc::realloc` with a size above `isize::MAX`, which the contract
of `realloc` forbids. -/
theorem C78_ber_parse_violated (m : Build) :
    hostileBer.length = 46 ∧ bump.Valid ∧
    Raw.Ber.parse little m bump honestReadExact hostileBer noHeap = .ub ∧
    Raw.Ber.parse universal m bump honestReadExact hostileBer noHeap = .ub := by
  refine ⟨by decide +kernel, bump_valid, isUb_eq ?_, isUb_eq ?_⟩ <;> cases m <;> decide +kernel

/-- An identifier of 15 octets and a length of `isize::MAX`: 24 octets, more than what fits inline. -/
def hostileDer : Bytes := 0x1f :: (List.replicate 13 0x81 ++ [0x01, 0x88, 0x7f, 0xff, 0xff, 0xff, 0xff, 0xff, 0xff, 0xff])

/-- **C78, violated.** These 24 octets make `Der::parse` do the same. -/
theorem C78_der_parse_violated (m : Build) :
    hostileDer.length = 24 ∧ bump.Valid ∧
    Raw.Der.parse little m bump honestRead hostileDer noHeap = .ub ∧
    Raw.Der.parse universal m bump honestRead hostileDer noHeap = .ub := by
  refine ⟨by decide +kernel, bump_valid, isUb_eq ?_, isUb_eq ?_⟩ <;> cases m <;> decide +kernel

/-! ### C79: uninitialised memory -/

/-- What `C79_with_id_length_partial` says for one layout: the header is there, as are cells for the contents; and when contents of
this length have been copied to `mut_contents()`, all octets are what `Der::new` gives. -/
def HeaderThenContents (I : Impl) (m : Build) (al : Allocator) (h : Heap) (hdr : Bytes) (n : Nat) (x : M I.B) : Prop :=
  x h = .abort ∨ ∃ b h' cs, x h = .ok b h' ∧ I.len b = hdr.length + n ∧ I.cells b h' = .ok (hdr.map some ++ cs) h' ∧
    (∀ src : Bytes, src.length = n → ∃ b' h'', copyContents I b src h' = .ok b' h'' ∧
      I.cells b' h'' = .ok ((hdr ++ src).map some) h'') ∧
    ∀ src : Bytes, src.length ≠ n → copyContents I b src h' = .panic

theorem headerThenContents {I : Impl} {Rep : I.B → Heap → List Cell → Nat → Option Nat → Prop} (hc : Correct I Rep) {m : Build}
    {al : Allocator} {h : Heap} {id len : Bytes} {n : Nat} {L : Length} {x : M I.B}
    (hd : ∀ rest, DerRef.disassemble (id ++ len ++ rest) = .ok (id, L, rest))
    (hs : Step x h none (fun b h fp => ∃ R, Rep b h ((id ++ len).map some ++ R) (id.length + len.length + n) fp ∧ n ≤ R.length)) :
    HeaderThenContents I m al h (id ++ len) n x := by
  rcases hs with e | ⟨b, h', fp, e, ⟨R, hr, hR⟩, fr⟩
  · exact .inl e
  · have hh := header_ok hc hr (by simp) hd
    refine .inr ⟨b, h', R.take n, e, by rw [hc.len hr]; simp, ?_, ?_, ?_⟩
    · rw [hc.cells hr, List.take_append, List.take_of_length_le (by simp)]
      congr 3
      simp
    · intro src hsrc
      have hp := hc.poke (id ++ len).length src hr (by simp; omega)
      obtain ⟨b', h'', e', hr', _⟩ := hp
      refine ⟨b', h'', ?_, ?_⟩
      · rw [copyContents, bind_ok hh]
        simp only [hc.len hr]
        rw [if_pos (by simp; omega)]
        exact e'
      · rw [hc.cells hr']
        have e := patch_append ((id ++ len).map some) R (src.map some)
        rw [List.length_map] at e
        rw [e, ← List.map_append, take_of_append (by simp; omega)]
    · intro src hsrc
      rw [copyContents, bind_ok hh]
      simp only [hc.len hr]
      rw [if_neg (by simp; omega)]
      rfl

/-- **C79.** `Der::with_id_length` and `Ber::with_id_length_indefinite` as documented: the header is initialised, and the value is once
the contents are written.  (Partial: before, it is not; see `C79_with_id_length_violated` and `C79_lying_reader_violated`.) -/
theorem C79_with_id_length_partial (m : Build) (al : Allocator) (hv : al.Valid) (h : Heap) (id : Bytes) (n : Nat) (hid : IsId id) :
    (id.length + (lenOctets n).length + n ≤ isizeMax →
      HeaderThenContents little m al h (id ++ lenOctets n) n (Raw.Der.withIdLength little m al id n) ∧
      HeaderThenContents universal m al h (id ++ lenOctets n) n (Raw.Der.withIdLength universal m al id n)) ∧
    (id.length + 1 + n ≤ isizeMax →
      HeaderThenContents little m al h (id ++ [0x80]) n (Raw.Ber.withIdLengthIndefinite little m al id n) ∧
      HeaderThenContents universal m al h (id ++ [0x80]) n (Raw.Ber.withIdLengthIndefinite universal m al id n)) := by
  have hm := isizeMax_lt
  have hu := usizeSize_eq
  constructor
  · intro hn
    have h64 : n < 2 ^ 64 := by omega
    exact ⟨headerThenContents LE.correct (disassemble_hdr hid h64)
        (.same (liftRes_ok (toBytes_definite h64)) (step_withHeader LE.correct hv hn)),
      headerThenContents UE.correct (disassemble_hdr hid h64)
        (.same (liftRes_ok (toBytes_definite h64)) (step_withHeader UE.correct hv hn))⟩
  · intro hn
    have e : ([0x80] : Bytes) = indefOctets := rfl
    rw [e]
    exact ⟨headerThenContents LE.correct (disassemble_indef_hdr hid)
        (.same (liftRes_ok toBytes_indefinite) (step_withHeader LE.correct hv hn)),
      headerThenContents UE.correct (disassemble_indef_hdr hid)
        (.same (liftRes_ok toBytes_indefinite) (step_withHeader UE.correct hv hn))⟩

example : IsId [0x04] ∧ [(0x04 : UInt8)].length + (lenOctets 300).length + 300 ≤ isizeMax :=
  ⟨⟨0, 0, 4, by decide, by decide, by decide +kernel⟩, by decide +kernel⟩

/-- Are there cells that are not initialised? -/
def showsUninit {I : Impl} : Out I.B → Bool
  | .ok b h => match I.cells b h with
    | .ok cs _ => cs.contains none
    | _ => false
  | _ => false

theorem showsUninit_eq {I : Impl} {x : Out I.B} (h : showsUninit x = true) :
    ∃ b h' cs h'', x = .ok b h' ∧ I.cells b h' = .ok cs h'' ∧ none ∈ cs := by
  cases x with
  | ok b h' =>
    simp only [showsUninit] at h
    split at h
    · rename_i cs h'' e
      exact ⟨b, h', cs, h'', rfl, e, by simpa using h⟩
    · simp at h
  | panic => simp [showsUninit] at h
  | abort => simp [showsUninit] at h
  | ub => simp [showsUninit] at h

/-- **C79, violated.** `Der::with_id_length(IdRef::octet_string(), 30)` and `Ber::with_id_length_indefinite`, which are safe
functions, return values with octets that are not initialised; `as_ref()` shows them. -/
theorem C79_with_id_length_violated (m : Build) :
    bump.Valid ∧
    (∃ b h cs h', Raw.Der.withIdLength little m bump [0x04] 30 noHeap = .ok b h ∧ little.cells b h = .ok cs h' ∧ none ∈ cs) ∧
    (∃ b h cs h', Raw.Der.withIdLength universal m bump [0x04] 30 noHeap = .ok b h ∧ universal.cells b h = .ok cs h' ∧ none ∈ cs) ∧
    (∃ b h cs h', Raw.Ber.withIdLengthIndefinite little m bump [0x24] 30 noHeap = .ok b h ∧ little.cells b h = .ok cs h' ∧
      none ∈ cs) ∧
    (∃ b h cs h', Raw.Ber.withIdLengthIndefinite universal m bump [0x24] 30 noHeap = .ok b h ∧ universal.cells b h = .ok cs h' ∧
      none ∈ cs) := by
  refine ⟨bump_valid, showsUninit_eq ?_, showsUninit_eq ?_, showsUninit_eq ?_, showsUninit_eq ?_⟩ <;> cases m <;> decide +kernel

/-- **C79, violated.** Safe code that looks at the first octet of the contents of such a value (`der.contents()[0]`) reads what was never written. -/
theorem C79_index_violated (m : Build) :
    bump.Valid ∧
    (Raw.Der.withIdLength little m bump [0x04] 30 >>= fun b => getIdx little b 2) noHeap = .ub ∧
    (Raw.Der.withIdLength universal m bump [0x04] 30 >>= fun b => getIdx universal b 2) noHeap = .ub ∧
    (Raw.Ber.withIdLengthIndefinite little m bump [0x24] 30 >>= fun b => getIdx little b 2) noHeap = .ub ∧
    (Raw.Ber.withIdLengthIndefinite universal m bump [0x24] 30 >>= fun b => getIdx universal b 2) noHeap = .ub := by
  refine ⟨bump_valid, isUb_eq ?_, isUb_eq ?_, isUb_eq ?_, isUb_eq ?_⟩ <;> cases m <;> decide +kernel

/-- A reader (of a slice) whose `read` and `read_exact` say that they have filled the buffer although they have not: wrong, but safe
code. -/
def lyingRead (n : Nat) (s : Bytes) : ReadEffect Bytes := ⟨[], .ok n, s.drop n⟩

/-- What a parser returned. -/
def parsedOut {I : Impl} {σ : Type} : Out (Except Error I.B × σ) → Out I.B
  | .ok (.ok b, _) h => .ok b h
  | _ => .panic

theorem parsedOut_eq {I : Impl} {σ : Type} {x : Out (Except Error I.B × σ)} {b : I.B} {h : Heap} (e : parsedOut x = .ok b h) :
    ∃ s, x = .ok (.ok b, s) h := by
  unfold parsedOut at e
  split at e
  · cases e
    exact ⟨_, rfl⟩
  · simp at e

/-- **C79, violated.** With such a reader, `Der::parse` and `Ber::parse` of the octets `04 1e ...` return values with octets that are not
initialised. -/
theorem C79_lying_reader_violated (m : Build) :
    bump.Valid ∧
    (∃ b s h cs h', Raw.Der.parse little m bump lyingRead [0x04, 0x1e] noHeap = .ok (.ok b, s) h ∧ little.cells b h = .ok cs h' ∧
      none ∈ cs) ∧
    (∃ b s h cs h', Raw.Ber.parse little m bump lyingRead [0x04, 0x1e] noHeap = .ok (.ok b, s) h ∧ little.cells b h = .ok cs h' ∧
      none ∈ cs) ∧
    (∃ b s h cs h', Raw.Der.parse universal m bump lyingRead [0x04, 0x1e] noHeap = .ok (.ok b, s) h ∧
      universal.cells b h = .ok cs h' ∧ none ∈ cs) ∧
    (∃ b s h cs h', Raw.Ber.parse universal m bump lyingRead [0x04, 0x1e] noHeap = .ok (.ok b, s) h ∧
      universal.cells b h = .ok cs h' ∧ none ∈ cs) := by
  have key : ∀ {I : Impl} {x : Out (Except Error I.B × Bytes)}, showsUninit (parsedOut x) = true →
      ∃ b s h cs h', x = .ok (.ok b, s) h ∧ I.cells b h = .ok cs h' ∧ none ∈ cs := by
    intro I x hx
    obtain ⟨b, h, cs, h', e, h1, h2⟩ := showsUninit_eq hx
    obtain ⟨s, e⟩ := parsedOut_eq e
    exact ⟨b, s, h, cs, h', e, h1, h2⟩
  refine ⟨bump_valid, key ?_, key ?_, key ?_, key ?_⟩ <;> cases m <;> decide +kernel

end Bsn1
