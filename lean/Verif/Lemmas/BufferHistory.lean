import Verif.Lemmas.BufferUniversal
import Verif.Spec.Buffer
/-!
# Programs that use buffers: the invariant
-/

namespace Bsn1.Buf
open Spec

/-- The storage has what is known. -/
def Agree (known s : List Cell) : Prop :=
  known.length ≤ s.length ∧ ∀ (i : Nat) (v : UInt8), known[i]? = some (some v) → s[i]? = some (some v)

theorem Agree.nil (s : List Cell) : Agree [] s := ⟨by simp, by simp⟩

theorem Agree.prefix {k s s' : List Cell} (h : Agree k s) (hp : s <+: s') : Agree k s' := by
  obtain ⟨t, rfl⟩ := hp
  refine ⟨by have := h.1; simp; omega, fun i v e => ?_⟩
  have := h.2 i v e
  rw [List.getElem?_append_left (by
    rcases Nat.lt_or_ge i s.length with hl | hl
    · exact hl
    · rw [List.getElem?_eq_none hl] at this; simp at this)]
  exact this

theorem Agree.take {k s s' : List Cell} {l : Nat} (h : Agree k s) (hk : l ≤ k.length) (hs : s'.take l = s.take l) :
    Agree (k.take l) s' := by
  have hsl : l ≤ s'.length := by
    have := congrArg List.length hs
    have := h.1
    simp at *
    omega
  refine ⟨by simp; omega, fun i v e => ?_⟩
  rw [List.getElem?_take] at e
  split at e
  · rename_i hi
    have h1 := h.2 i v e
    have h2 := congrArg (·[i]?) hs
    simp only [List.getElem?_take, hi, if_true] at h2
    rw [h2, h1]
  · simp at e

theorem Agree.pad {k s : List Cell} (n : Nat) (h : Agree k s) (hn : n ≤ s.length) : Agree (AVec.pad k n) s := by
  refine ⟨by have := h.1; simp [AVec.pad]; omega, fun i v e => ?_⟩
  rw [AVec.pad, List.getElem?_append] at e
  split at e
  · exact h.2 i v e
  · rw [List.getElem?_replicate] at e
    split at e <;> simp at e

theorem overwrite_eq (mem : List Cell) (off : Nat) (vals : Bytes) :
    AVec.overwrite mem off vals = patch (AVec.pad mem off) off (vals.map some) := by
  rw [AVec.overwrite, patch, AVec.pad, List.length_map]
  congr 1
  rw [List.drop_append]
  rw [List.drop_of_length_le (l := List.replicate _ _) (by simp; omega), List.append_nil]

theorem pad_length (mem : List Cell) (n : Nat) : (AVec.pad mem n).length = max mem.length n := by
  simp [AVec.pad]; omega

theorem Agree.overwrite {k s : List Cell} (off : Nat) (vals : Bytes) (h : Agree k s) (hn : off + vals.length ≤ s.length) :
    Agree (AVec.overwrite k off vals) (patch s off (vals.map some)) := by
  have hp := h.pad off (by omega)
  have hl := pad_length k off
  rw [overwrite_eq]
  constructor
  · rw [patch_length s _ _ (by simpa using hn)]
    have := hp.1
    simp [patch]
    omega
  · intro i v e
    rw [getElem?_patch _ _ _ _ (by omega)] at e
    rw [getElem?_patch _ _ _ _ (by omega)]
    by_cases h1 : i < off
    · rw [if_pos h1] at e ⊢
      exact hp.2 i v e
    · rw [if_neg h1] at e ⊢
      by_cases h2 : i < off + (vals.map some).length
      · rw [if_pos h2] at e ⊢
        exact e
      · rw [if_neg h2] at e ⊢
        exact hp.2 i v e

variable {I : Impl}

/-- An object is as specified and owns the block. -/
def ObjRep (Rep : I.B → Heap → List Cell → Nat → Option Nat → Prop) (o : Obj I) (h : Heap) (a : AObj) (fp : Option Nat) : Prop :=
  match o, a with
  | .buf b, .buf v => ∃ s, Rep b h s v.len fp ∧ Agree v.mem s ∧ v.len ≤ v.mem.length
  | .vec r, .vec v => ∃ s, VecRep r h s v.len fp ∧ Agree v.mem s ∧ v.len ≤ v.mem.length
  | .gone, .gone => fp = none
  | _, _ => False

/-- The invariant: each object is as specified, no block has two owners, and every other block is as at the beginning. -/
structure Inv (Rep : I.B → Heap → List Cell → Nat → Option Nat → Prop) (h0 : Heap) (objs : List (Obj I)) (h : Heap)
    (abs : List AObj) (fps : List (Option Nat)) : Prop where
  lenA : abs.length = objs.length
  lenF : fps.length = objs.length
  rep : ∀ (i : Nat) o a f, objs[i]? = some o → abs[i]? = some a → fps[i]? = some f → ObjRep Rep o h a f
  one : ∀ (i j : Nat) p, fps[i]? = some (some p) → fps[j]? = some (some p) → i = j
  new : ∀ (i : Nat) p, fps[i]? = some (some p) → h0.blocks p = none
  rest : ∀ q, (∀ i : Nat, fps[i]? ≠ some (some q)) → h.blocks q = h0.blocks q

variable {Rep : I.B → Heap → List Cell → Nat → Option Nat → Prop} {h0 h h' : Heap} {objs : List (Obj I)} {abs : List AObj}
  {fps : List (Option Nat)}

theorem VecRep.near {v : RVec} {s : List Cell} {l : Nat} {fp : Option Nat} (hr : VecRep v h s l fp)
    (e : ∀ p, fp = some p → h'.blocks p = h.blocks p) : VecRep v h' s l fp := by
  cases hr with
  | empty => exact .empty
  | block h1 h2 h3 h4 h5 h6 => exact .block h1 h2 ((e _ rfl).trans h3) h4 h5 h6

theorem VecRep.live {v : RVec} {s : List Cell} {l p : Nat} (hr : VecRep v h s l (some p)) : h.blocks p = some s := by
  cases hr with
  | block h1 h2 h3 h4 h5 h6 => exact h3

theorem ObjRep.near (hc : Correct I Rep) {o : Obj I} {a : AObj} {fp : Option Nat} (hr : ObjRep Rep o h a fp)
    (e : ∀ p, fp = some p → h'.blocks p = h.blocks p) : ObjRep Rep o h' a fp := by
  unfold ObjRep at hr ⊢
  split at hr
  · obtain ⟨s, h1, h2⟩ := hr
    exact ⟨s, hc.near h1 e, h2⟩
  · obtain ⟨s, h1, h2⟩ := hr
    exact ⟨s, h1.near e, h2⟩
  · exact hr
  · exact hr.elim

theorem ObjRep.live (hc : Correct I Rep) {o : Obj I} {a : AObj} {p : Nat} (hr : ObjRep Rep o h a (some p)) :
    ∃ cells, h.blocks p = some cells := by
  unfold ObjRep at hr
  split at hr
  · obtain ⟨s, h1, h2⟩ := hr
    exact ⟨_, hc.live h1⟩
  · obtain ⟨s, h1, h2⟩ := hr
    exact ⟨_, h1.live⟩
  · simp at hr
  · exact hr.elim

/-- Every owned block is live. -/
theorem Inv.live (hc : Correct I Rep) (hi : Inv Rep h0 objs h abs fps) {i p : Nat} (e : fps[i]? = some (some p)) :
    ∃ cells, h.blocks p = some cells := by
  have hl : i < fps.length := by
    rcases Nat.lt_or_ge i fps.length with hl | hl
    · exact hl
    · rw [List.getElem?_eq_none hl] at e; simp at e
  have h1 := hi.lenA
  have h2 := hi.lenF
  exact (hi.rep i objs[i] abs[i] (some p) (List.getElem?_eq_getElem _) (List.getElem?_eq_getElem _) e).live hc

theorem Frame.other {fp fp' : Option Nat} (hf : Frame h h' fp fp') {q : Nat} (h1 : fp ≠ some q) (h2 : fp' ≠ some q) :
    h'.blocks q = h.blocks q := by
  have := congrFun hf q
  simp only [erase] at this
  rw [if_neg (fun e => h1 e.symm), if_neg (fun e => h2 e.symm)] at this
  exact this.symm

theorem Frame.fresh {fp : Option Nat} {p : Nat} (hf : Frame h h' fp (some p)) (h1 : fp ≠ some p) : h.blocks p = none := by
  have := congrFun hf p
  simp only [erase, if_true] at this
  rw [if_neg (fun e => h1 e.symm)] at this
  exact this

theorem Frame.freed {fp' : Option Nat} {p : Nat} (hf : Frame h h' (some p) fp') (h1 : fp' ≠ some p) : h'.blocks p = none := by
  have := congrFun hf p
  simp only [erase, if_true] at this
  rw [if_neg (fun e => h1 e.symm)] at this
  exact this.symm

/-- One object changes. -/
theorem Inv.set (hc : Correct I Rep) (hi : Inv Rep h0 objs h abs fps) {i : Nat} {f : Option Nat} (hf : fps[i]? = some f) {o : Obj I}
    {a : AObj} {f' : Option Nat} (hr : ObjRep Rep o h' a f') (fr : Frame h h' f f') :
    Inv Rep h0 (objs.set i o) h' (abs.set i a) (fps.set i f') := by
  have hA := hi.lenA
  have hF := hi.lenF
  have hl : i < fps.length := by
    rcases Nat.lt_or_ge i fps.length with hl | hl
    · exact hl
    · rw [List.getElem?_eq_none hl] at hf; simp at hf
  -- another object's block stays
  have other : ∀ (j p : Nat), j ≠ i → fps[j]? = some (some p) → f ≠ some p ∧ f' ≠ some p := by
    intro j p hj hp
    have h1 : f ≠ some p := by
      rintro rfl
      exact hj (hi.one j i p hp hf)
    refine ⟨h1, ?_⟩
    rintro rfl
    obtain ⟨cells, hb⟩ := hi.live hc hp
    rw [fr.fresh h1] at hb
    simp at hb
  have get : ∀ {α : Type} (xs : List α) (x : α) (j : Nat), i < xs.length → (xs.set i x)[j]? = if i = j then some x else xs[j]? := by
    intro α xs x j hlt
    rw [List.getElem?_set]
    split
    · rename_i e; subst e; simp [hlt]
    · rfl
  refine ⟨by simp [hA], by simp [hF], ?_, ?_, ?_, ?_⟩
  · intro j o' a' f'' e1 e2 e3
    rw [get _ _ _ (by omega)] at e1 e2 e3
    by_cases hj : i = j
    · rw [if_pos hj] at e1 e2 e3
      simp only [Option.some.injEq] at e1 e2 e3
      subst e1 e2 e3
      exact hr
    · rw [if_neg hj] at e1 e2 e3
      refine (hi.rep j o' a' f'' e1 e2 e3).near hc fun p hp => ?_
      subst hp
      obtain ⟨n1, n2⟩ := other j p (fun e => hj e.symm) e3
      exact fr.other n1 n2
  · intro j k p e1 e2
    rw [get _ _ _ hl] at e1 e2
    by_cases hj : i = j
    · by_cases hk : i = k
      · omega
      · rw [if_pos hj] at e1
        rw [if_neg hk] at e2
        simp only [Option.some.injEq] at e1
        exact absurd e1 (other k p (fun e => hk e.symm) e2).2
    · by_cases hk : i = k
      · rw [if_neg hj] at e1
        rw [if_pos hk] at e2
        simp only [Option.some.injEq] at e2
        exact absurd e2 (other j p (fun e => hj e.symm) e1).2
      · rw [if_neg hj] at e1
        rw [if_neg hk] at e2
        exact hi.one j k p e1 e2
  · intro j p e
    rw [get _ _ _ hl] at e
    by_cases hj : i = j
    · rw [if_pos hj] at e
      simp only [Option.some.injEq] at e
      subst e
      by_cases hfp : f = some p
      · subst hfp
        exact hi.new i p hf
      · have hn := fr.fresh hfp
        rw [← hi.rest p, hn]
        intro k hk
        obtain ⟨cells, hb⟩ := hi.live hc hk
        rw [hn] at hb
        simp at hb
    · rw [if_neg hj] at e
      exact hi.new j p e
  · intro q hq
    have hfq : f' ≠ some q := by
      intro e
      apply hq i
      rw [get _ _ _ hl, if_pos rfl, e]
    by_cases hfp : f = some q
    · subst hfp
      rw [fr.freed hfq, hi.new i q hf]
    · rw [fr.other hfp hfq]
      apply hi.rest
      intro j hj
      by_cases e : i = j
      · subst e
        rw [hf] at hj
        simp only [Option.some.injEq] at hj
        exact hfp hj
      · apply hq j
        rw [get _ _ _ hl, if_neg e]
        exact hj

/-- A place for a new object. -/
theorem Inv.room (hi : Inv Rep h0 objs h abs fps) : Inv Rep h0 (objs ++ [.gone]) h (abs ++ [.gone]) (fps ++ [none]) := by
  have hA := hi.lenA
  have hF := hi.lenF
  have old : ∀ (i p : Nat), (fps ++ [none])[i]? = some (some p) → fps[i]? = some (some p) := by
    intro i p e
    rw [List.getElem?_append] at e
    split at e
    · exact e
    · rcases hk : i - fps.length with _ | k
      · rw [hk] at e; simp at e
      · rw [hk] at e; simp at e
  refine ⟨by simp [hA], by simp [hF], ?_, ?_, ?_, ?_⟩
  · intro i o a f e1 e2 e3
    rw [List.getElem?_append] at e1 e2 e3
    by_cases hl : i < objs.length
    · rw [if_pos (by omega)] at e1 e2 e3
      exact hi.rep i o a f e1 e2 e3
    · rw [if_neg (by omega)] at e1 e2 e3
      rcases hk : i - objs.length with _ | k
      · rw [hA, hk] at e2
        rw [hF, hk] at e3
        rw [hk] at e1
        simp only [List.getElem?_cons_zero, Option.some.injEq] at e1 e2 e3
        subst e1 e2 e3
        rfl
      · rw [hk] at e1; simp at e1
  · intro i j p e1 e2
    exact hi.one i j p (old i p e1) (old j p e2)
  · intro i p e
    exact hi.new i p (old i p e)
  · intro q hq
    apply hi.rest
    intro i e
    apply hq i
    rw [List.getElem?_append, if_pos, e]
    rcases Nat.lt_or_ge i fps.length with hl | hl
    · exact hl
    · rw [List.getElem?_eq_none hl] at e; simp at e

/-- A new object. -/
theorem Inv.add (hc : Correct I Rep) (hi : Inv Rep h0 objs h abs fps) {o : Obj I} {a : AObj} {f : Option Nat} (hr : ObjRep Rep o h' a f)
    (fr : Frame h h' none f) : Inv Rep h0 (objs ++ [o]) h' (abs ++ [a]) (fps ++ [f]) := by
  have hA := hi.lenA
  have hF := hi.lenF
  have := hi.room.set hc (i := objs.length) (f := none) (by rw [← hF]; simp) hr fr
  have e1 : (objs ++ [Obj.gone]).set objs.length o = objs ++ [o] := by simp
  have e2 : (abs ++ [AObj.gone]).set objs.length a = abs ++ [a] := by rw [← hA]; simp
  have e3 : (fps ++ [none]).set objs.length f = fps ++ [f] := by rw [← hF]; simp
  rwa [e1, e2, e3] at this

/-- The object at an index. -/
theorem Inv.at (hi : Inv Rep h0 objs h abs fps) {i : Nat} {o : Obj I} (e : objs[i]? = some o) :
    ∃ a f, abs[i]? = some a ∧ fps[i]? = some f ∧ ObjRep Rep o h a f := by
  have hA := hi.lenA
  have hF := hi.lenF
  have hl : i < objs.length := by
    rcases Nat.lt_or_ge i objs.length with hl | hl
    · exact hl
    · rw [List.getElem?_eq_none hl] at e; simp at e
  exact ⟨abs[i], fps[i], List.getElem?_eq_getElem _, List.getElem?_eq_getElem _,
    hi.rep i o _ _ e (List.getElem?_eq_getElem _) (List.getElem?_eq_getElem _)⟩

theorem Inv.buf (hi : Inv Rep h0 objs h abs fps) {i : Nat} {b : I.B} (e : objs[i]? = some (.buf b)) :
    ∃ v f s, abs[i]? = some (.buf v) ∧ fps[i]? = some f ∧ Rep b h s v.len f ∧ Agree v.mem s ∧ v.len ≤ v.mem.length := by
  obtain ⟨a, f, ha, hf, hr⟩ := hi.at e
  cases a with
  | buf v =>
    obtain ⟨s, hs⟩ := hr
    exact ⟨v, f, s, ha, hf, hs⟩
  | vec v => exact hr.elim
  | gone => exact hr.elim

theorem Inv.vec (hi : Inv Rep h0 objs h abs fps) {i : Nat} {r : RVec} (e : objs[i]? = some (.vec r)) :
    ∃ v f s, abs[i]? = some (.vec v) ∧ fps[i]? = some f ∧ VecRep r h s v.len f ∧ Agree v.mem s ∧ v.len ≤ v.mem.length := by
  obtain ⟨a, f, ha, hf, hr⟩ := hi.at e
  cases a with
  | buf v => exact hr.elim
  | vec v =>
    obtain ⟨s, hs⟩ := hr
    exact ⟨v, f, s, ha, hf, hs⟩
  | gone => exact hr.elim

theorem modify_at (abs : List AObj) (i : Nat) (a : AObj) (f : AObj → AObj) (e : abs[i]? = some a) : abs.modify i f = abs.set i (f a) := by
  apply List.ext_getElem?
  intro j
  rw [List.getElem?_modify, List.getElem?_set]
  by_cases hj : i = j
  · subst hj
    have hl : i < abs.length := by
      rcases Nat.lt_or_ge i abs.length with hl | hl
      · exact hl
      · rw [List.getElem?_eq_none hl] at e; simp at e
    rw [if_pos rfl, if_pos hl, e]
    simp
  · simp [hj]

theorem onBuf_eq {i : Nat} {b : I.B} (e : objs[i]? = some (.buf b)) (f : I.B → M (Obj I)) :
    onBuf objs i f = (do
      let o ← f b
      return objs.set i o) := by
  unfold onBuf
  rw [e]

/-- A call on a buffer that goes well. -/
theorem onBuf_ok {i : Nat} {b : I.B} {β : Type} {x : I.B → M β} {g : β → Obj I} {c : β} (e : objs[i]? = some (.buf b))
    (ex : x b h = .ok c h') : onBuf objs i (fun b => do return g (← x b)) h = .ok (objs.set i (g c)) h' := by
  rw [onBuf_eq e]
  have : (do return g (← x b) : M (Obj I)) h = .ok (g c) h' := by rw [bind_ok ex, pure_run]
  rw [bind_ok this, pure_run]

theorem onBuf_abort {i : Nat} {b : I.B} {β : Type} {x : I.B → M β} {g : β → Obj I} (e : objs[i]? = some (.buf b))
    (ex : x b h = .abort) : onBuf objs i (fun b => do return g (← x b)) h = .abort := by
  rw [onBuf_eq e]
  exact bind_abort (bind_abort ex)

theorem append_len (v : AVec) (vals : Bytes) (h : v.len ≤ v.mem.length) : (v.append vals).len ≤ (v.append vals).mem.length := by
  simp only [AVec.append, AVec.overwrite, AVec.pad]
  simp
  omega

theorem overwrite_len (mem : List Cell) (off : Nat) (vals : Bytes) : mem.length ≤ (AVec.overwrite mem off vals).length := by
  simp only [AVec.overwrite, AVec.pad]
  simp
  omega

theorem trim_len (v : AVec) (h : v.len ≤ v.mem.length) : v.trim.len ≤ v.trim.mem.length := by
  simp only [AVec.trim, AVec.contents]
  simp
  omega

theorem Agree.known {v : AVec} {s : List Cell} (h : Agree v.mem s) (hl : v.len ≤ v.mem.length) (hk : none ∉ v.contents) :
    ∃ vals : Bytes, v.contents = vals.map some ∧ s.take v.len = vals.map some := by
  obtain ⟨vals, hv⟩ := all_init (cs := v.contents) fun c hc e => hk (e ▸ hc)
  refine ⟨vals, hv, ?_⟩
  rw [← hv]
  apply List.ext_getElem?
  intro i
  rw [AVec.contents, List.getElem?_take, List.getElem?_take]
  split
  · rename_i hi
    have e : v.mem[i]? = (vals.map some)[i]? := by
      rw [← hv, AVec.contents, List.getElem?_take, if_pos hi]
    have hm : i < v.mem.length := by omega
    rw [List.getElem?_map] at e
    cases hx : vals[i]? with
    | none =>
      rw [hx, List.getElem?_eq_getElem hm] at e
      simp at e
    | some x =>
      rw [hx] at e
      rw [e]
      exact h.2 i x e
  · rfl

/-- Nothing goes wrong, and the invariant stays. -/
theorem Inv.step (hc : Correct I Rep) (m : Build) {al : Allocator} (hv : al.Valid) (hi : Inv Rep h0 objs h abs fps) {op : BufOp}
    (ha : Allowed objs h abs op) : Spec.step m al objs op h = .abort ∨
    ∃ objs' h' fps', Spec.step m al objs op h = .ok objs' h' ∧ Inv Rep h0 objs' h' (absStep abs op) fps' := by
  cases op with
  | new =>
    obtain ⟨s, hs, _⟩ := hc.new h
    exact .inr ⟨_, h, _, rfl, hi.add hc (o := .buf I.new) (a := .buf ⟨[], 0⟩) ⟨s, hs, .nil _, Nat.le_refl _⟩ (.refl _ _)⟩
  | withCapacity n =>
    rcases hc.withCapacity m n h hv ha with e | ⟨b, h', fp, s, e, h1, h2, h3⟩
    · exact .inl (bind_abort e)
    · refine .inr ⟨_, h', _, bind_ok (f := fun b => pure (objs ++ [Obj.buf b])) e, hi.add hc (o := .buf b) (a := .buf ⟨[], 0⟩) ⟨s, h1, .nil _, Nat.le_refl _⟩ h3⟩
  | fromSlice vals =>
    rcases hc.withCapacity m vals.length h hv ha with e | ⟨b, h', fp, s, e, h1, h2, h3⟩
    · exact .inl (bind_abort (bind_abort e))
    · obtain ⟨b', h'', e', h4, h5⟩ := hc.extend m vals h1 (by omega)
      have e2 : (do
          let b ← I.withCapacity m al vals.length
          I.extend m b vals : M I.B) h = .ok b' h'' := by rw [bind_ok e, e']
      refine .inr ⟨_, h'', _, bind_ok (f := fun b => pure (objs ++ [Obj.buf b])) e2, hi.add hc (o := .buf b') (a := .buf (.ofBytes vals))
        ⟨patch s 0 (vals.map some), ?_, ?_, ?_⟩ (h3.trans h5)⟩
      · rwa [Nat.zero_add] at h4
      · have := Agree.overwrite 0 vals (Agree.nil s) (by omega)
        simpa [AVec.overwrite, AVec.pad, AVec.ofBytes] using this
      · simp [AVec.ofBytes]
  | makeVec vals spare =>
    rcases mkVec_spec hv vals spare ha h with e | ⟨v, h', fp, junk, e, h1, h2, h3⟩
    · exact .inl (bind_abort e)
    · refine .inr ⟨_, h', _, bind_ok (f := fun v => pure (objs ++ [Obj.vec v])) e, hi.add hc (o := .vec v) (a := .vec (.ofBytes vals)) ⟨_, h1, ?_, ?_⟩ h3⟩
      · exact Agree.prefix ⟨Nat.le_refl _, fun _ _ e => e⟩ (List.prefix_append _ _)
      · simp [AVec.ofBytes]
  | fromVec i =>
    obtain ⟨r, er⟩ := ha
    obtain ⟨v, f, s, ea, ef, h1, h2, h3⟩ := hi.vec er
    obtain ⟨s', h4, h5⟩ := hc.fromVec h1
    refine .inr ⟨objs.set i (.buf (I.fromVec r)), h, fps.set i f, by simp only [Spec.step, er]; rfl, ?_⟩
    rw [absStep, modify_at _ _ _ _ ea]
    exact hi.set hc ef (o := .buf (I.fromVec r)) (a := .buf v) ⟨s', h4, h2.prefix h5, h3⟩ (.refl _ _)
  | push i x =>
    obtain ⟨b, cap, ⟨er, ec⟩, hlt⟩ := ha
    obtain ⟨v, f, s, ea, ef, h1, h2, h3⟩ := hi.buf er
    rw [hc.capacity h1] at ec
    cases ec
    rw [hc.len h1] at hlt
    obtain ⟨b', h', e, h4, h5⟩ := hc.push m x h1 hlt
    refine .inr ⟨_, h', fps.set i f, onBuf_ok er e, ?_⟩
    rw [absStep, modify_at _ _ _ _ ea]
    exact hi.set hc ef (o := .buf b') (a := .buf (v.append [x])) ⟨_, h4, h2.overwrite _ [x] (by simp; omega), append_len _ _ h3⟩ h5
  | extend i vals =>
    obtain ⟨b, cap, ⟨er, ec⟩, hlt⟩ := ha
    obtain ⟨v, f, s, ea, ef, h1, h2, h3⟩ := hi.buf er
    rw [hc.capacity h1] at ec
    cases ec
    rw [hc.len h1] at hlt
    obtain ⟨b', h', e, h4, h5⟩ := hc.extend m vals h1 hlt
    refine .inr ⟨_, h', fps.set i f, onBuf_ok er e, ?_⟩
    rw [absStep, modify_at _ _ _ _ ea]
    exact hi.set hc ef (o := .buf b') (a := .buf (v.append vals)) ⟨_, h4, h2.overwrite _ vals hlt, append_len _ _ h3⟩ h5
  | write i vals =>
    obtain ⟨b, er, hlt⟩ := ha
    obtain ⟨v, f, s, ea, ef, h1, h2, h3⟩ := hi.buf er
    rw [hc.len h1] at hlt
    rcases hc.reserve m vals.length hv h1 hlt with e | ⟨b', h', fp', s', e, h4, h5, h6, h7, h8⟩
    · exact .inl (onBuf_abort er (bind_abort e))
    · obtain ⟨b'', h'', e', h9, h10⟩ := hc.extend m vals h4 h5
      have e2 : I.write m al b vals h = .ok b'' h'' := by rw [Impl.write, bind_ok e, e']
      refine .inr ⟨_, h'', fps.set i fp', onBuf_ok er e2, ?_⟩
      rw [absStep, modify_at _ _ _ _ ea]
      exact hi.set hc ef (o := .buf b'') (a := .buf (v.trim.append vals))
        ⟨_, h9, Agree.overwrite _ vals (h2.take h3 h7) h5, append_len _ _ (trim_len _ h3)⟩ (h8.trans h10)
  | reserve i n =>
    obtain ⟨b, er, hlt⟩ := ha
    obtain ⟨v, f, s, ea, ef, h1, h2, h3⟩ := hi.buf er
    rw [hc.len h1] at hlt
    rcases hc.reserve m n hv h1 hlt with e | ⟨b', h', fp', s', e, h4, h5, h6, h7, h8⟩
    · exact .inl (onBuf_abort (x := fun b => I.reserve m al b n) er e)
    · refine .inr ⟨_, h', fps.set i fp', onBuf_ok (x := fun b => I.reserve m al b n) er e, ?_⟩
      rw [absStep, modify_at _ _ _ _ ea]
      exact hi.set hc ef (o := .buf b') (a := .buf v.trim) ⟨_, h4, h2.take h3 h7, trim_len _ h3⟩ h8
  | setLen i n =>
    obtain ⟨b, cap, ⟨er, ec⟩, hlt⟩ := ha
    obtain ⟨v, f, s, ea, ef, h1, h2, h3⟩ := hi.buf er
    have ec' := ec
    rw [hc.capacity h1] at ec'
    cases ec'
    obtain ⟨b', e, h4⟩ := hc.setLen m n h1 hlt
    have e2 : I.setLenChecked m b n h = .ok b' h := by
      rw [Impl.setLenChecked, bind_ok ec, bind_ok (debugAssert_ok m hlt h), e]
    refine .inr ⟨_, h, fps.set i f, onBuf_ok (x := fun b => I.setLenChecked m b n) er e2, ?_⟩
    rw [absStep, modify_at _ _ _ _ ea]
    exact hi.set hc ef (o := .buf b') (a := .buf (v.setLen n)) ⟨_, h4, h2.pad n hlt, by
      simp only [AVec.setLen]; rw [pad_length]; omega⟩ (.refl _ _)
  | poke i off vals =>
    obtain ⟨b, cap, ⟨er, ec⟩, hlt⟩ := ha
    obtain ⟨v, f, s, ea, ef, h1, h2, h3⟩ := hi.buf er
    rw [hc.capacity h1] at ec
    cases ec
    obtain ⟨b', h', e, h4, h5⟩ := hc.poke off vals h1 hlt
    refine .inr ⟨_, h', fps.set i f, onBuf_ok (x := fun b => I.poke b off vals) er e, ?_⟩
    rw [absStep, modify_at _ _ _ _ ea]
    exact hi.set hc ef (o := .buf b') (a := .buf ⟨AVec.overwrite v.mem off vals, v.len⟩) ⟨_, h4, h2.overwrite _ vals hlt,
      Nat.le_trans h3 (overwrite_len _ _ _)⟩ h5
  | setAt i k x =>
    obtain ⟨b, er, hlt⟩ := ha
    obtain ⟨v, f, s, ea, ef, h1, h2, h3⟩ := hi.buf er
    rw [hc.len h1] at hlt
    have hb := hc.bound h1
    obtain ⟨b', h', e, h4, h5⟩ := hc.setAt k x h1 hlt
    refine .inr ⟨_, h', fps.set i f, onBuf_ok (x := fun b => I.setAt b k x) er e, ?_⟩
    rw [absStep, modify_at _ _ _ _ ea]
    exact hi.set hc ef (o := .buf b') (a := .buf ⟨AVec.overwrite v.mem k [x], v.len⟩) ⟨_, h4,
      h2.overwrite _ [x] (by simp; omega), Nat.le_trans h3 (overwrite_len _ _ _)⟩ h5
  | clone i =>
    obtain ⟨b, v, er, ea, hk⟩ := ha
    obtain ⟨v', f, s, ea', ef, h1, h2, h3⟩ := hi.buf er
    rw [ea] at ea'
    cases ea'
    obtain ⟨vals, hv1, hv2⟩ := h2.known h3 hk
    simp only [Spec.step, er, absStep, ea]
    rcases hc.clone m vals hv h1 hv2 with e | ⟨b', h', fp', s', e, h4, h5, h6⟩
    · exact .inl (bind_abort e)
    · refine .inr ⟨_, h', _, by rw [bind_ok e, pure_run], hi.add hc (o := .buf b') (a := .buf v.trim) ⟨_, h4, ?_, trim_len _ h3⟩ h6⟩
      exact h2.take h3 (by rw [h5, hv2])
  | intoVec i =>
    obtain ⟨b, er⟩ := ha
    obtain ⟨v, f, s, ea, ef, h1, h2, h3⟩ := hi.buf er
    rcases hc.intoVec hv h1 with e | ⟨r, h', fp', s', e, h4, h5, h6⟩
    · exact .inl (onBuf_abort er e)
    · refine .inr ⟨_, h', fps.set i fp', onBuf_ok er e, ?_⟩
      rw [absStep, modify_at _ _ _ _ ea]
      exact hi.set hc ef (o := .vec r) (a := .vec v.trim) ⟨_, h4, h2.take h3 h5, trim_len _ h3⟩ h6
  | drop i =>
    obtain ⟨o, er, hg⟩ := ha
    cases o with
    | gone => exact absurd rfl hg
    | buf b =>
      obtain ⟨v, f, s, ea, ef, h1, h2, h3⟩ := hi.buf er
      obtain ⟨h', e, h4⟩ := hc.drop h1
      refine .inr ⟨objs.set i .gone, h', fps.set i none, by simp only [Spec.step, er]; rw [bind_ok e, pure_run], ?_⟩
      rw [absStep, modify_at _ _ _ _ ea]
      exact hi.set hc ef (o := .gone) (a := .gone) rfl h4
    | vec r =>
      obtain ⟨v, f, s, ea, ef, h1, h2, h3⟩ := hi.vec er
      obtain ⟨h', e, h4⟩ := dropVec_spec h1
      refine .inr ⟨objs.set i .gone, h', fps.set i none, by simp only [Spec.step, er]; rw [bind_ok e, pure_run], ?_⟩
      rw [absStep, modify_at _ _ _ _ ea]
      exact hi.set hc ef (o := .gone) (a := .gone) rfl h4

theorem Inv.start (h0 : Heap) : Inv Rep h0 [] h0 [] [] := ⟨rfl, rfl, by simp, by simp, by simp, fun _ _ => rfl⟩

/-- Whatever a program does, the invariant holds. -/
theorem History.inv (hc : Correct I Rep) {m : Build} {al : Allocator} (hv : al.Valid) (hh : History I m al h0 objs h abs) :
    ∃ fps, Inv Rep h0 objs h abs fps := by
  induction hh with
  | start => exact ⟨[], .start h0⟩
  | step hh ha he ih =>
    obtain ⟨fps, hi⟩ := ih
    rcases hi.step hc m hv ha with e | ⟨objs', h', fps', e, hi'⟩
    · rw [e] at he
      simp at he
    · rw [e] at he
      cases he
      exact ⟨fps', hi'⟩

end Bsn1.Buf
