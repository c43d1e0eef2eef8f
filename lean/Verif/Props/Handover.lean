import Verif.Lemmas.Handover
/-!
# C100: conversions hand the storage over
-/

namespace Bsn1
open Buf Spec Raw

/-- **C100.** A value on the heap (or a `Vec` with a block) is taken through any number of conversions `from_vec_unchecked`,
`Contents::from(Vec)`, `Ber::from(Der)`, `into_vec`: all succeed, memory is not touched at all (no call of the allocator, which could
refuse; nothing copied), and in the end the same block belongs to the result. -/
theorem C100_moves (m : Build) (al : Allocator) (hv : al.Valid) (h0 h : Heap) (vals vals' : List TVal) (i p : Nat) (ops : List TOp)
    (hm : ∀ op ∈ ops, Moves i op) (hd : DoesAll vals ops vals') :
    (∀ objs o, THistory little m al h0 objs h vals → objs[i]? = some o → o.owner ownerLE = some p →
      ∃ o', trun m al ops objs h = .ok (objs.set i o') h ∧ o'.owner ownerLE = some p) ∧
    (∀ objs o, THistory universal m al h0 objs h vals → objs[i]? = some o → o.owner ownerUE = some p →
      ∃ o', trun m al ops objs h = .ok (objs.set i o') h ∧ o'.owner ownerUE = some p) :=
  ⟨fun _ _ hh eo hp => moves_all_owned le_hands hv hd hm hh eo hp, fun _ _ hh eo hp => moves_all_owned ue_hands hv hd hm hh eo hp⟩

/-- A `Vec` with an encoding and ten spare octets, and a short value. -/
def madeOps : List TOp := [.makeVec (tlv [0x04] octets) 10, .derNew [0x04] [1, 2, 3]]

theorem isId4 : IsId [0x04] := ⟨0, 0, 4, by decide, by decide, by decide +kernel⟩

theorem madeOps_does : DoesAll [] madeOps [.vec (tlv [0x04] octets), .der [0x04] [1, 2, 3]] :=
  .cons (.make (.makeVec (by decide +kernel))) (.cons (.make (.derNew isId4 (by decide +kernel))) .nil)

/-- `Der::from_vec_unchecked`, `Ber::from`, `into_vec`, `Contents::from`. -/
def roundOps (i : Nat) : List TOp := [.fromVec i, .berFromDer i, .intoVec i, .fromVec i]

theorem roundOps_moves (i : Nat) : ∀ op ∈ roundOps i, Moves i op := by
  intro op h
  simp only [roundOps, List.mem_cons, List.not_mem_nil, or_false] at h
  rcases h with rfl | rfl | rfl | rfl
  · exact .inl rfl
  · exact .inr (.inl rfl)
  · exact .inr (.inr rfl)
  · exact .inl rfl

theorem roundOps_does : DoesAll [.vec (tlv [0x04] octets), .der [0x04] [1, 2, 3]] (roundOps 0)
    [.contents (tlv [0x04] octets), .der [0x04] [1, 2, 3]] :=
  .cons (.change (i := 0) rfl (.fromVecDer isId4)) (.cons (.change (i := 0) rfl .berFromDer)
    (.cons (.change (i := 0) rfl (.intoVec (by simp) (by simp))) (.cons (.change (i := 0) rfl .fromVecContents) .nil)))

example : ∃ objs h o p, THistory little .debug bump noHeap objs h [.vec (tlv [0x04] octets), .der [0x04] [1, 2, 3]] ∧
    objs[0]? = some o ∧ o.owner ownerLE = some p := by
  have hb : (match trun (I := little) .debug bump madeOps [] noHeap with
    | .ok (o :: _) _ => (o.owner ownerLE).isSome
    | _ => false) = true := by decide +kernel
  split at hb
  · rename_i o r h e
    obtain ⟨p, hp⟩ := Option.isSome_iff_exists.mp hb
    exact ⟨_, h, o, p, thistory_run madeOps_does .start e, rfl, hp⟩
  · simp at hb

example : ∃ objs h o p, THistory universal .release bump noHeap objs h [.vec (tlv [0x04] octets), .der [0x04] [1, 2, 3]] ∧
    objs[0]? = some o ∧ o.owner ownerUE = some p := by
  have hb : (match trun (I := universal) .release bump madeOps [] noHeap with
    | .ok (o :: _) _ => (o.owner ownerUE).isSome
    | _ => false) = true := by decide +kernel
  split at hb
  · rename_i o r h e
    obtain ⟨p, hp⟩ := Option.isSome_iff_exists.mp hb
    exact ⟨_, h, o, p, thistory_run madeOps_does .start e, rfl, hp⟩
  · simp at hb

/-- What `C100_moves_inline` says for one layout. -/
def MovesOnce (I : Impl) (ow : I.B → Option Nat) (i : Nat) (w : Bytes) (h : Heap) (objs : List (Obj I)) (ops : List TOp) (r : Out (List (Obj I))) : Prop :=
  (r = .abort ∧ .intoVec i ∈ ops) ∨
  (∃ o', r = .ok (objs.set i o') h ∧ o'.owner ow = none) ∨
  (∃ o' p, r = .ok (objs.set i o') ⟨h.blocks.put p (some (w.map some)), h.clock + 1⟩ ∧ h.blocks p = none ∧ o'.owner ow = some p ∧
    .intoVec i ∈ ops)

/-- **C100.** A value without a block (inline, or an empty `Vec`) likewise: unless there is an `into_vec`, memory is not touched; all
the conversions together call the allocator at most once, for exactly as many octets as the value has, and nothing is freed. -/
theorem C100_moves_inline (m : Build) (al : Allocator) (hv : al.Valid) (h0 h : Heap) (vals vals' : List TVal) (v : TVal) (i : Nat) (ops : List TOp)
    (hm : ∀ op ∈ ops, Moves i op) (hd : DoesAll vals ops vals') (ev : vals[i]? = some v) :
    (∀ objs o, THistory little m al h0 objs h vals → objs[i]? = some o → o.owner ownerLE = none →
      MovesOnce little ownerLE i v.octets h objs ops (trun m al ops objs h)) ∧
    (∀ objs o, THistory universal m al h0 objs h vals → objs[i]? = some o → o.owner ownerUE = none →
      MovesOnce universal ownerUE i v.octets h objs ops (trun m al ops objs h)) :=
  ⟨fun _ _ hh eo hp => moves_all_inline le_hands hv hd hm hh eo ev rfl hp,
    fun _ _ hh eo hp => moves_all_inline ue_hands hv hd hm hh eo ev rfl hp⟩

/-- `Ber::from`, `into_vec`, `Contents::from` of the short value. -/
def shortOps : List TOp := [.berFromDer 1, .intoVec 1, .fromVec 1]

example : ∀ op ∈ shortOps, Moves 1 op := by
  intro op h
  simp only [shortOps, List.mem_cons, List.not_mem_nil, or_false] at h
  rcases h with rfl | rfl | rfl
  · exact .inr (.inl rfl)
  · exact .inr (.inr rfl)
  · exact .inl rfl

example : DoesAll [.vec (tlv [0x04] octets), .der [0x04] [1, 2, 3]] shortOps [.vec (tlv [0x04] octets), .contents [0x04, 3, 1, 2, 3]] := by
  have e : tlv [0x04] [1, 2, 3] = [0x04, 3, 1, 2, 3] := by decide +kernel
  rw [← e]
  exact .cons (.change (i := 1) rfl .berFromDer) (.cons (.change (i := 1) rfl (.intoVec (by simp) (by simp)))
    (.cons (.change (i := 1) rfl .fromVecContents) .nil))

/-- The short value owns no block; after the calls it does, and the allocator was called once more. -/
example : (match trun (I := little) .debug bump madeOps [] noHeap with
    | .ok objs h => ((objs[1]?.map fun o => (o.owner ownerLE).isNone), match trun .debug bump shortOps objs h with
      | .ok objs' h' => (objs'[1]?.map fun o => (o.owner ownerLE).isSome, h'.clock - h.clock)
      | _ => (none, 0))
    | _ => (none, none, 0)) = (some true, some true, 1) := by decide +kernel

example : (match trun (I := universal) .release bump madeOps [] noHeap with
    | .ok objs h => ((objs[1]?.map fun o => (o.owner ownerUE).isNone), match trun .release bump shortOps objs h with
      | .ok objs' h' => (objs'[1]?.map fun o => (o.owner ownerUE).isSome, h'.clock - h.clock)
      | _ => (none, 0))
    | _ => (none, none, 0)) = (some true, some true, 1) := by decide +kernel

/-- **C100.** Conversions keep the octets. -/
theorem C100_octets (vals vals' : List TVal) (i : Nat) (ops : List TOp) (hm : ∀ op ∈ ops, Moves i op) (hd : DoesAll vals ops vals') (v : TVal)
    (ev : vals[i]? = some v) : ∃ v', vals' = vals.set i v' ∧ v'.octets = v.octets := by
  induction hd generalizing v with
  | nil => exact ⟨v, (set_same ev).symm, rfl⟩
  | cons h1 h2 ih =>
    obtain ⟨v0, v1, e0, rfl, ho, _⟩ := moves_does (hm _ (by simp)) h1
    rw [ev] at e0
    cases e0
    obtain ⟨v2, rfl, ho2⟩ := ih (fun op h => hm op (by simp [h])) v1 (getElem?_set_of ev)
    exact ⟨v2, by rw [List.set_set], ho2.trans ho⟩

example : ∃ v', [TVal.contents (tlv [0x04] octets), .der [0x04] [1, 2, 3]] = [TVal.vec (tlv [0x04] octets), .der [0x04] [1, 2, 3]].set 0 v' ∧
    v'.octets = tlv [0x04] octets := C100_octets _ _ 0 (roundOps 0) (roundOps_moves 0) roundOps_does _ rfl

/-- What `C100_copies` says for one layout with room for `init` octets inline: the others are left alone, and the new value has a
block of its own, just large enough, or none. -/
def CopiesOnce (I : Impl) (ow : I.B → Option Nat) (init n : Nat) (h : Heap) (objs : List (Obj I)) (r : Out (List (Obj I))) : Prop :=
  (r = .abort ∧ init < n) ∨ ∃ b h', r = .ok (objs ++ [.buf b]) h' ∧ I.capacity b h' = .ok (max init n) h' ∧
    h'.clock = h.clock + (if n ≤ init then 0 else 1) ∧
    if n ≤ init then ow b = none ∧ h'.blocks = h.blocks
    else ∃ p, ow b = some p ∧ h.blocks p = none ∧ ∀ q, q ≠ p → h'.blocks q = h.blocks q

theorem copiesOnce {I : Impl} {Rep : I.B → Heap → List Cell → Nat → Option Nat → Prop} {ow : I.B → Option Nat} {init : Nat} (hx : Tight I Rep init)
    (how : ∀ {b h s l fp}, Rep b h s l fp → ow b = fp) {m : Build} {al : Allocator} (hv : al.Valid) {h0 h : Heap} {objs : List (Obj I)}
    {vals vals' : List TVal} {i : Nat} {op : TOp} (hcp : Copies i op) (hd : Does vals op vals') (hh : THistory I m al h0 objs h vals) :
    ∃ w, vals' = vals ++ [w] ∧ CopiesOnce I ow init w.octets.length h objs (tstep m al objs op h) := by
  obtain ⟨hg, fps, hinv⟩ := THistory.inv hx.correct hv hh
  obtain ⟨w, hw, ⟨e, hlt⟩ | ⟨b, h', fp, e, hroom, hfp, hck, fr⟩⟩ := copies_cost (m := m) hx hv hg hinv hcp hd
  · exact ⟨w, hw, .inl ⟨e, hlt⟩⟩
  refine ⟨w, hw, .inr ⟨b, h', e, ?_, hck, ?_⟩⟩
  · obtain ⟨R, hr, hl⟩ := hroom
    rw [hx.correct.capacity hr]
    simp [← hl]
  · obtain ⟨R, hr, hl⟩ := hroom
    have ho := how hr
    rw [Frame, erase_none] at fr
    by_cases hle : w.octets.length ≤ init
    · rw [if_pos hle]
      rw [hfp.mpr hle] at ho fr
      exact ⟨ho, by rw [fr, erase_none]⟩
    · rw [if_neg hle]
      cases fp with
      | none => exact absurd (hfp.mp rfl) hle
      | some p =>
        refine ⟨p, ho, by rw [fr]; simp [erase], fun q hq => ?_⟩
        rw [fr]
        simp [erase, hq]

/-- **C100.** `clone`, `to_owned`, `id().to_owned()`, `contents().to_owned()`: the copy is inline if its octets fit in 23 (little-endian
layout) or 16 octets, and then the allocator is not called; a longer one gets, with one call, a block of its own of exactly its length.
No other block changes. -/
theorem C100_copies (m : Build) (al : Allocator) (hv : al.Valid) (h0 h : Heap) (vals vals' : List TVal) (i : Nat) (op : TOp)
    (hcp : Copies i op) (hd : Does vals op vals') :
    (∀ objs, THistory little m al h0 objs h vals →
      ∃ w, vals' = vals ++ [w] ∧ CopiesOnce little ownerLE 23 w.octets.length h objs (tstep m al objs op h)) ∧
    (∀ objs, THistory universal m al h0 objs h vals →
      ∃ w, vals' = vals ++ [w] ∧ CopiesOnce universal ownerUE 16 w.octets.length h objs (tstep m al objs op h)) :=
  ⟨fun _ hh => copiesOnce le_small le_hands.owner hv hcp hd hh, fun _ hh => copiesOnce ue_small ue_hands.owner hv hcp hd hh⟩

/-- A long and a short copy: contents and identifier of the long value. -/
example : (∃ vals', Does [.der [0x04] (octets ++ [6])] (.contentsToOwned 0) vals') ∧ ∃ vals', Does [.der [0x04] (octets ++ [6])] (.idToOwned 0) vals' := by
  have e4 : idOctets (classNum .universal) (pcNum .primitive) 4 = [0x04] := by decide +kernel
  exact ⟨⟨_, .contentsToOwned rfl⟩, ⟨_, by rw [← e4]; exact .idToOwned (cls := .universal) (pc := .primitive) (n := 4) (i := 0) rfl⟩⟩

example : (match trun (I := little) .debug bump [.derNew [0x04] (octets ++ [6])] [] noHeap with
    | .ok objs h => match trun .debug bump [.contentsToOwned 0, .idToOwned 0] objs h with
      | .ok objs' h' => (objs'.map (fun o => (o.owner ownerLE).isSome), h'.clock - h.clock)
      | _ => ([], 0)
    | _ => ([], 0)) = ([true, true, false], 1) := by decide +kernel

example : (match trun (I := universal) .debug bump [.derNew [0x04] (octets ++ [6])] [] noHeap with
    | .ok objs h => match trun .debug bump [.contentsToOwned 0, .idToOwned 0] objs h with
      | .ok objs' h' => (objs'.map (fun o => (o.owner ownerUE).isSome), h'.clock - h.clock)
      | _ => ([], 0)
    | _ => ([], 0)) = ([true, true, false], 1) := by decide +kernel

end Bsn1
