import Verif.Lemmas.Threads
/-!
# The code of a thread is safe; threads that share buffers
-/

namespace Bsn1.Buf
open Spec

variable {I : Impl} {P : PImpl I.B} {Rep : I.B → Heap → List Cell → Nat → Option Nat → Prop} {h0 : Heap} {β : Type}

/-! ### One step -/

theorem run_onBufP (al : Allocator) (objs : List (Obj I)) (i : Nat) (f : I.B → Prog (Obj I)) :
    (onBufP objs i f).run al = onBuf objs i fun b => (f b).run al := by
  unfold onBufP onBuf
  rcases objs[i]? with _ | (b | v | _)
  · rfl
  · simp only [Prog.run_bind, Prog.run_pure]
  · rfl
  · rfl

theorem run_stepP (he : Erases P) (m : Build) (al : Allocator) (objs : List (Obj I)) (op : BufOp) :
    (stepP P m objs op).run al = Spec.step m al objs op := by
  cases op with
  | new => simp only [stepP, Spec.step, Prog.run_pure, he.new]
  | withCapacity n => simp only [stepP, Spec.step, Prog.run_bind, Prog.run_pure, he.withCapacity]
  | fromSlice vals => simp only [stepP, Spec.step, Prog.run_bind, Prog.run_pure, he.fromSlice]
  | makeVec vals spare => simp only [stepP, Spec.step, Prog.run_bind, Prog.run_pure, Prog.run_mkVec]
  | fromVec i =>
    simp only [stepP, Spec.step]
    rcases objs[i]? with _ | (b | v | _)
    · rfl
    · rfl
    · simp only [Prog.run_pure, he.fromVec]
    · rfl
  | push i v => simp only [stepP, Spec.step, run_onBufP, Prog.run_bind, Prog.run_pure, he.push]
  | extend i vals => simp only [stepP, Spec.step, run_onBufP, Prog.run_bind, Prog.run_pure, he.extend]
  | write i vals => simp only [stepP, Spec.step, run_onBufP, Prog.run_bind, Prog.run_pure, he.write]
  | reserve i n => simp only [stepP, Spec.step, run_onBufP, Prog.run_bind, Prog.run_pure, he.reserve]
  | setLen i n => simp only [stepP, Spec.step, run_onBufP, Prog.run_bind, Prog.run_pure, he.setLenChecked]
  | poke i off vals => simp only [stepP, Spec.step, run_onBufP, Prog.run_bind, Prog.run_pure, he.poke]
  | setAt i k v => simp only [stepP, Spec.step, run_onBufP, Prog.run_bind, Prog.run_pure, he.setAt]
  | clone i =>
    simp only [stepP, Spec.step]
    rcases objs[i]? with _ | (b | v | _)
    · rfl
    · simp only [Prog.run_bind, Prog.run_pure, he.clone]
    · rfl
    · rfl
  | intoVec i => simp only [stepP, Spec.step, run_onBufP, Prog.run_bind, Prog.run_pure, he.intoVec]
  | drop i =>
    simp only [stepP, Spec.step]
    rcases objs[i]? with _ | (b | v | _)
    · rfl
    · simp only [Prog.run_bind, Prog.run_pure, he.drop]
    · simp only [Prog.run_bind, Prog.run_pure, Prog.run_dropVec]
    · rfl

theorem Inv.sameBlocks (hc : Correct I Rep) {objs : List (Obj I)} {h h' : Heap} {abs : List AObj} {fps : List (Option Nat)}
    (hi : Inv Rep h0 objs h abs fps) (e : h'.blocks = h.blocks) : Inv Rep h0 objs h' abs fps :=
  ⟨hi.lenA, hi.lenF, fun i o a f e1 e2 e3 => (hi.rep i o a f e1 e2 e3).near hc fun p _ => by rw [e], hi.one, hi.new,
    fun q hq => by rw [e]; exact hi.rest q hq⟩

/-- No memory at all. -/
def emptyHeap : Heap := ⟨noBlocks, 0⟩

/-- The objects of a thread are as specified, and the thread has no other blocks. -/
def Has (Rep : I.B → Heap → List Cell → Nat → Option Nat → Prop) (objs : List (Obj I)) (own : Blocks) (abs : List AObj) : Prop :=
  ∃ fps, Inv Rep emptyHeap objs ⟨own, 0⟩ abs fps

theorem safe_step (hc : Correct I Rep) (he : Erases P) (m : Build) {S : Blocks} {objs : List (Obj I)} {own : Blocks} {abs : List AObj}
    {op : BufOp} (hi : Has Rep objs own abs) (ha : Allowed objs ⟨own, 0⟩ abs op) :
    Safe S (fun objs' own' => Has Rep objs' own' (absStep abs op) ∧
      ∃ (al : Allocator) (h' : Heap), al.Valid ∧ Spec.step m al objs op ⟨own, 0⟩ = .ok objs' h' ∧ h'.blocks = own') (stepP P m objs op) own := by
  obtain ⟨fps, hi⟩ := hi
  refine (safe_of_run _ _ 0 fun al hv => ?_).anyShared
  rw [run_stepP he]
  rcases hi.step hc m hv ha with e | ⟨objs', h', fps', e, hi'⟩
  · exact .inl e
  · exact .inr ⟨objs', h', e, ⟨fps', hi'.sameBlocks hc rfl⟩, al, h', hv, e, rfl⟩

/-! ### Reading -/

/-- The functions that only read. -/
structure Reads (P : PImpl I.B) : Prop where
  cells : ∀ b, (∃ c, P.cells b = .ret c) ∨ P.cells b = .ub ∨ ∃ p n, P.cells b = .load p 0 n .ret
  clone : ∀ m b, P.clone m b = (P.withCapacity m (I.len b) >>= fun r => P.cells b >>= fun c => Prog.assumeInit c >>= fun v => P.extend m r v)

theorem little_reads : Reads (I := little) littleP where
  cells b := by
    change (∃ c, LE.cellsP b = .ret c) ∨ LE.cellsP b = .ub ∨ ∃ p n, LE.cellsP b = .load p 0 n .ret
    unfold LE.cellsP
    split
    · split
      · exact .inl ⟨_, rfl⟩
      · exact .inr (.inl rfl)
    · exact .inr (.inr ⟨_, _, rfl⟩)
  clone _ _ := rfl

theorem universal_reads : Reads (I := universal) universalP where
  cells b := by
    change (∃ c, UE.cellsP b = .ret c) ∨ UE.cellsP b = .ub ∨ ∃ p n, UE.cellsP b = .load p 0 n .ret
    unfold UE.cellsP UE.stackFieldP UE.heapFieldP
    cases b.buffer_ with
    | stack d =>
      split
      · simp only [bind, Prog.seq, pure]
        split
        · exact .inl ⟨_, rfl⟩
        · exact .inr (.inl rfl)
      · exact .inr (.inl rfl)
    | heap p c =>
      split
      · exact .inr (.inl rfl)
      · exact .inr (.inr ⟨_, _, rfl⟩)
  clone _ _ := rfl

theorem safe_cells (hc : Correct I Rep) (he : Erases P) (hr : Reads P) {S own : Blocks} {b : I.B} {h : Heap} {s : List Cell} {l : Nat}
    {fp : Option Nat} (hb : Rep b h s l fp) (hf : ∀ p, fp = some p → own p = h.blocks p ∨ S p = h.blocks p) :
    Safe S (fun c own' => c = s.take l ∧ own' = own) (P.cells b) own := by
  have hb' : Rep b ⟨fun q => if fp = some q then h.blocks q else none, 0⟩ s l fp := hc.near hb fun p e => by simp [e]
  have e := hc.cells hb'
  rw [← he.cells b (fun _ _ _ => none)] at e
  rcases hr.cells b with ⟨c, ec⟩ | ec | ⟨p, n, ec⟩
  · rw [ec] at e ⊢
    simp only [Prog.run, Out.ok.injEq] at e
    exact ⟨e.1, rfl⟩
  · rw [ec] at e
    simp [Prog.run, M.ub] at e
  · rw [ec] at e ⊢
    simp only [Prog.run, load] at e
    by_cases hp : fp = some p
    · rw [if_pos hp] at e
      cases eb : h.blocks p with
      | none => rw [eb] at e; simp at e
      | some cells =>
        rw [eb] at e
        dsimp only at e
        by_cases hl : 0 + n ≤ cells.length
        · rw [if_pos hl] at e
          simp only [Out.ok.injEq] at e
          refine ⟨cells, ?_, hl, e.1, rfl⟩
          rcases hf p hp with h1 | h1
          · exact .inl (h1.trans eb)
          · exact .inr (h1.trans eb)
        · rw [if_neg hl] at e; simp at e
    · rw [if_neg hp] at e; simp at e

theorem assumeInit_known (vals : Bytes) : Prog.assumeInit (vals.map some) = .ret vals := by
  unfold Prog.assumeInit
  rw [if_pos (by simp)]
  simp only [pure, Prog.ret.injEq, List.filterMap_map]
  rw [show ((fun x => x) ∘ some : UInt8 → Option UInt8) = some from rfl, List.filterMap_some]

theorem octetsAt_known {abs : List AObj} {i : Nat} {v : AVec} {vals : Bytes} (e : abs[i]? = some (.buf v)) (hv : v.contents = vals.map some) :
    octetsAt abs i = vals := by
  simp only [octetsAt, e, hv, List.filterMap_map]
  rw [show ((fun c => c) ∘ some : UInt8 → Option UInt8) = some from rfl, List.filterMap_some]

theorem safe_read (hc : Correct I Rep) (he : Erases P) (hr : Reads P) {S own : Blocks} {b : I.B} {h : Heap} {s : List Cell} {v : AVec}
    {fp : Option Nat} {vals : Bytes} (hb : Rep b h s v.len fp) (hs : s.take v.len = vals.map some)
    (hf : ∀ p, fp = some p → own p = h.blocks p ∨ S p = h.blocks p) :
    Safe S (fun c own' => c = vals ∧ own' = own) (P.read b) own := by
  unfold PImpl.read
  refine Safe.seq _ _ (Safe.mono (fun _ h => h) (fun _ _ h => h) ?_ _ _ (safe_cells hc he hr hb hf))
  rintro c own' ⟨rfl, rfl⟩
  rw [hs, assumeInit_known]
  exact ⟨rfl, rfl⟩

/-- The shared objects are as specified, and their blocks are in `S`. -/
def Shared (Rep : I.B → Heap → List Cell → Nat → Option Nat → Prop) (S : Blocks) (objs : List (Obj I)) (abs : List AObj) : Prop :=
  ∃ fps h0, Inv Rep h0 objs ⟨S, 0⟩ abs fps

/-- A clone of a shared buffer: as if made from its octets. -/
theorem safe_clone (hc : Correct I Rep) (he : Erases P) (hr : Reads P) (m : Build) {S : Blocks} {objs : List (Obj I)} {own : Blocks} {abs : List AObj}
    (hi : Has Rep objs own abs) {b : I.B} {h : Heap} {s : List Cell} {v : AVec} {fp : Option Nat} {vals : Bytes} (hb : Rep b h s v.len fp)
    (hs : s.take v.len = vals.map some) (hf : ∀ p, fp = some p → S p = h.blocks p) :
    Safe S (fun c own' => Has Rep (objs ++ [.buf c]) own' (absStep abs (.fromSlice vals)) ∧
      ∃ (al : Allocator) (h' : Heap), al.Valid ∧ Spec.step m al objs (.fromSlice vals) ⟨own, 0⟩ = .ok (objs ++ [.buf c]) h' ∧ h'.blocks = own')
      (P.clone m b) own := by
  have hl : vals.length = v.len := by
    have h1 := congrArg List.length hs
    have h2 := (hc.bound hb).1
    simp at h1
    omega
  have hm : vals.length ≤ isizeMax := by have := hc.bound hb; omega
  -- from the octets
  have key : Safe S (fun c own' => Has Rep (objs ++ [.buf c]) own' (absStep abs (.fromSlice vals)) ∧
      ∃ (al : Allocator) (h' : Heap), al.Valid ∧ Spec.step m al objs (.fromSlice vals) ⟨own, 0⟩ = .ok (objs ++ [.buf c]) h' ∧ h'.blocks = own')
      (P.fromSlice m vals) own := by
    obtain ⟨fps, hi⟩ := hi
    refine (safe_of_run _ _ 0 fun al hv => ?_).anyShared
    rw [he.fromSlice]
    rcases hi.step hc m hv (op := .fromSlice vals) hm with e | ⟨objs', h', fps', e, hi'⟩
    · refine .inl ?_
      simp only [Spec.step, bind] at e
      cases e' : I.fromSlice m al vals ⟨own, 0⟩ <;> rw [e'] at e <;> simp [pure] at e
    · refine .inr ?_
      simp only [Spec.step, bind] at e
      cases e' : I.fromSlice m al vals ⟨own, 0⟩ <;> rw [e'] at e <;> simp only [pure, Out.ok.injEq, reduceCtorEq] at e
      obtain ⟨rfl, rfl⟩ := e
      exact ⟨_, _, rfl, ⟨fps', hi'.sameBlocks hc rfl⟩, al, _, hv, by simp only [Spec.step, bind, e', pure], rfl⟩
  rw [hr.clone, hc.len hb, ← hl]
  refine Safe.seq _ _ (Safe.mono (fun _ h => h) (fun _ _ h => h) ?_ _ _ (Safe.split _ _ key))
  intro r own' hq
  refine Safe.seq _ _ (Safe.mono (fun _ h => h) (fun _ _ h => h) ?_ _ _ (safe_cells hc he hr hb fun p e => .inr (hf p e)))
  rintro c own'' ⟨rfl, rfl⟩
  rw [hs, assumeInit_known]
  exact hq

/-! ### The code -/

theorem Has.buf {objs : List (Obj I)} {own : Blocks} {abs : List AObj} (hi : Has Rep objs own abs) {i : Nat} {b : I.B} {v : AVec}
    (e : objs[i]? = some (.buf b)) (ea : abs[i]? = some (.buf v)) (hk : none ∉ v.contents) :
    ∃ s fp vals, Rep b ⟨own, 0⟩ s v.len fp ∧ s.take v.len = vals.map some ∧ octetsAt abs i = vals := by
  obtain ⟨fps, hi⟩ := hi
  obtain ⟨v', f, s, ea', ef, h1, h2, h3⟩ := hi.buf e
  rw [ea] at ea'
  cases ea'
  obtain ⟨vals, h4, h5⟩ := h2.known h3 hk
  exact ⟨s, f, vals, h1, h5, octetsAt_known ea h4⟩

theorem Shared.buf {S : Blocks} {objs : List (Obj I)} {abs : List AObj} (hi : Shared Rep S objs abs) {i : Nat} {b : I.B} {v : AVec}
    (e : objs[i]? = some (.buf b)) (ea : abs[i]? = some (.buf v)) (hk : none ∉ v.contents) :
    ∃ s fp vals, Rep b ⟨S, 0⟩ s v.len fp ∧ s.take v.len = vals.map some ∧ octetsAt abs i = vals := by
  obtain ⟨fps, h0, hi⟩ := hi
  obtain ⟨v', f, s, ea', ef, h1, h2, h3⟩ := hi.buf e
  rw [ea] at ea'
  cases ea'
  obtain ⟨vals, h4, h5⟩ := h2.known h3 hk
  exact ⟨s, f, vals, h1, h5, octetsAt_known ea h4⟩

/-- A thread that keeps the rules is safe, and does what it should. -/
theorem Code.safe (hc : Correct I Rep) (he : Erases P) (hr : Reads P) (m : Build) {S : Blocks} {shObjs : List (Obj I)} {shared : List AObj}
    (hsh : Shared Rep S shObjs shared) : ∀ (c : Code β) (objs : List (Obj I)) (own : Blocks) (abs : List AObj), Has Rep objs own abs →
    c.Rules m shObjs shared objs own abs →
    Safe S (fun r own' => r.1 = (c.ideal shared abs).1 ∧ Has Rep r.2 own' (c.ideal shared abs).2) (c.prog P m shObjs objs) own := by
  intro c
  induction c with
  | done b => exact fun objs own abs hi _ => ⟨rfl, hi⟩
  | op o k ih =>
    intro objs own abs hi hru
    refine Safe.seq _ _ (Safe.mono (fun _ h => h) (fun _ _ h => h) ?_ _ _ (safe_step hc he m hi (hru 0).1))
    rintro objs' own' ⟨hi', al, h', hv, e, rfl⟩
    exact ih objs' _ _ hi' ((hru 0).2 al objs' h' hv e)
  | read i k ih =>
    rintro objs own abs hi ⟨⟨b, v, e, ea, hk⟩, hru⟩
    obtain ⟨s, fp, vals, h1, h2, h3⟩ := hi.buf e ea hk
    simp only [Code.prog, readP, e, Code.ideal]
    rw [h3] at hru ⊢
    refine Safe.seq _ _ (Safe.mono (fun _ h => h) (fun _ _ h => h) ?_ _ _ (safe_read hc he hr h1 h2 fun p _ => .inl rfl))
    rintro c own' ⟨rfl, rfl⟩
    exact ih _ objs _ _ hi hru
  | readShared j k ih =>
    rintro objs own abs hi ⟨⟨b, v, e, ea, hk⟩, hru⟩
    obtain ⟨s, fp, vals, h1, h2, h3⟩ := hsh.buf e ea hk
    simp only [Code.prog, readP, e, Code.ideal]
    rw [h3] at hru ⊢
    refine Safe.seq _ _ (Safe.mono (fun _ h => h) (fun _ _ h => h) ?_ _ _ (safe_read hc he hr h1 h2 fun p _ => .inr rfl))
    rintro c own' ⟨rfl, rfl⟩
    exact ih _ objs _ _ hi hru
  | cloneShared j k ih =>
    rintro objs own abs hi ⟨⟨b, v, e, ea, hk⟩, hru⟩
    obtain ⟨s, fp, vals, h1, h2, h3⟩ := hsh.buf e ea hk
    simp only [Code.prog, readP, e, Code.ideal]
    rw [h3] at hru ⊢
    refine Safe.seq _ _ (Safe.mono (fun _ h => h) (fun _ _ h => h) ?_ _ _ (safe_clone hc he hr m hi h1 h2 fun p _ => rfl))
    rintro c own' ⟨hi', al, h', hv, e', rfl⟩
    exact ih _ _ _ hi' (hru 0 al _ h' hv e')

end Bsn1.Buf
