import Verif.Lemmas.ThreadsJoin
/-!
# Rules that can be checked with ordinary vectors; a thread alone
-/

namespace Bsn1.Buf
open Spec

variable {I : Impl} {P : PImpl I.B} {Rep : I.B → Heap → List Cell → Nat → Option Nat → Prop} {h0 h : Heap} {β : Type}
  {objs : List (Obj I)} {abs : List AObj} {fps : List (Option Nat)}

theorem Inv.atA (hi : Inv Rep h0 objs h abs fps) {i : Nat} {a : AObj} (e : abs[i]? = some a) :
    ∃ o f, objs[i]? = some o ∧ fps[i]? = some f ∧ ObjRep Rep o h a f := by
  have lA := hi.lenA
  have lF := hi.lenF
  have hl : i < abs.length := by
    rcases Nat.lt_or_ge i abs.length with hl | hl
    · exact hl
    · rw [List.getElem?_eq_none hl] at e; simp at e
  have e1 : objs[i]? = some (objs[i]'(by omega)) := List.getElem?_eq_getElem _
  have e2 : fps[i]? = some (fps[i]'(by omega)) := List.getElem?_eq_getElem _
  exact ⟨_, _, e1, e2, hi.rep i _ a _ e1 e e2⟩

theorem Inv.bufA (hi : Inv Rep h0 objs h abs fps) {i : Nat} {v : AVec} (e : abs[i]? = some (.buf v)) :
    ∃ b f s, objs[i]? = some (.buf b) ∧ Rep b h s v.len f := by
  obtain ⟨o, f, e1, e2, hr⟩ := hi.atA e
  cases o with
  | buf b => obtain ⟨s, h1, _⟩ := hr; exact ⟨b, f, s, e1, h1⟩
  | vec r => exact hr.elim
  | gone => exact hr.elim

theorem easy_allowed (hc : Correct I Rep) (hi : Inv Rep h0 objs h abs fps) {op : BufOp} (he : Easy abs op) : Allowed objs h abs op := by
  cases op with
  | new => trivial
  | withCapacity n => exact he
  | fromSlice vals => exact he
  | makeVec vals spare => exact he
  | fromVec i =>
    obtain ⟨v, e⟩ := he
    obtain ⟨o, f, e1, e2, hr⟩ := hi.atA e
    cases o with
    | buf b => exact hr.elim
    | vec r => exact ⟨r, e1⟩
    | gone => exact hr.elim
  | push i v => exact he.elim
  | extend i vals => exact he.elim
  | write i vals =>
    obtain ⟨v, e, hl⟩ := he
    obtain ⟨b, f, s, e1, h1⟩ := hi.bufA e
    exact ⟨b, e1, by rw [hc.len h1]; exact hl⟩
  | reserve i n =>
    obtain ⟨v, e, hl⟩ := he
    obtain ⟨b, f, s, e1, h1⟩ := hi.bufA e
    exact ⟨b, e1, by rw [hc.len h1]; exact hl⟩
  | setLen i n =>
    obtain ⟨v, e, hl⟩ := he
    obtain ⟨b, f, s, e1, h1⟩ := hi.bufA e
    exact ⟨b, s.length, ⟨e1, hc.capacity h1⟩, by have := (hc.bound h1).1; omega⟩
  | poke i off vals =>
    obtain ⟨v, e, hl⟩ := he
    obtain ⟨b, f, s, e1, h1⟩ := hi.bufA e
    exact ⟨b, s.length, ⟨e1, hc.capacity h1⟩, by have := (hc.bound h1).1; omega⟩
  | setAt i k x =>
    obtain ⟨v, e, hl⟩ := he
    obtain ⟨b, f, s, e1, h1⟩ := hi.bufA e
    exact ⟨b, e1, by rw [hc.len h1]; exact hl⟩
  | clone i =>
    obtain ⟨v, e, hk⟩ := he
    obtain ⟨b, f, s, e1, h1⟩ := hi.bufA e
    exact ⟨b, v, e1, e, hk⟩
  | intoVec i =>
    obtain ⟨v, e⟩ := he
    obtain ⟨b, f, s, e1, h1⟩ := hi.bufA e
    exact ⟨b, e1⟩
  | drop i =>
    obtain ⟨a, e, hne⟩ := he
    obtain ⟨o, f, e1, e2, hr⟩ := hi.atA e
    refine ⟨o, e1, ?_⟩
    rintro rfl
    cases a with
    | buf v => exact hr.elim
    | vec v => exact hr.elim
    | gone => exact hne rfl

theorem Code.easy_rules (hc : Correct I Rep) (m : Build) {S : Blocks} {shObjs : List (Obj I)} {shared : List AObj}
    (hsh : Shared Rep S shObjs shared) : ∀ (c : Code β) (objs : List (Obj I)) (own : Blocks) (abs : List AObj), Has Rep objs own abs →
    c.Easy shared abs → c.Rules m shObjs shared objs own abs := by
  have sh : ∀ {j v}, shared[j]? = some (.buf v) → none ∉ v.contents → Readable shObjs shared j := by
    intro j v e hk
    obtain ⟨fps, h0, hi⟩ := hsh
    obtain ⟨b, f, s, e1, h1⟩ := hi.bufA e
    exact ⟨b, v, e1, e, hk⟩
  have next : ∀ {op : BufOp} {objs : List (Obj I)} {own : Blocks} {abs : List AObj} {al : Allocator} {objs' : List (Obj I)} {h' : Heap} {clock : Nat},
      Has Rep objs own abs → Allowed objs ⟨own, clock⟩ abs op → al.Valid → Spec.step m al objs op ⟨own, clock⟩ = .ok objs' h' →
      Has Rep objs' h'.blocks (absStep abs op) := by
    rintro op objs own abs al objs' h' clock ⟨fps, hi⟩ ha hv e
    have hi : Inv Rep emptyHeap objs ⟨own, clock⟩ abs fps := hi.sameBlocks hc rfl
    rcases hi.step hc m hv ha with e' | ⟨objs'', h'', fps', e', hi'⟩
    · rw [e'] at e; simp at e
    · rw [e'] at e
      cases e
      exact ⟨fps', hi'.sameBlocks hc rfl⟩
  intro c
  induction c with
  | done b => exact fun _ _ _ _ _ => trivial
  | op o k ih =>
    rintro objs own abs hi ⟨he, hk⟩ clock
    have ha : Allowed objs ⟨own, clock⟩ abs o := by
      obtain ⟨fps, hi⟩ := hi
      exact easy_allowed hc (hi.sameBlocks (h' := ⟨own, clock⟩) hc rfl) he
    exact ⟨ha, fun al objs' h' hv e => ih _ _ _ (next hi ha hv e) hk⟩
  | read i k ih =>
    rintro objs own abs hi ⟨⟨v, e, hk⟩, he⟩
    refine ⟨?_, ih _ _ _ _ hi he⟩
    obtain ⟨fps, hi⟩ := hi
    obtain ⟨b, f, s, e1, h1⟩ := hi.bufA e
    exact ⟨b, v, e1, e, hk⟩
  | readShared j k ih =>
    rintro objs own abs hi ⟨⟨v, e, hk⟩, he⟩
    exact ⟨sh e hk, ih _ _ _ _ hi he⟩
  | cloneShared j k ih =>
    rintro objs own abs hi ⟨⟨v, e, hk⟩, he⟩
    refine ⟨sh e hk, fun clock al objs' h' hv e' => ?_⟩
    refine ih _ _ _ (next hi ?_ hv e') he
    obtain ⟨fps, h0, hs⟩ := hsh
    obtain ⟨b, f, s, e1, h1⟩ := hs.bufA e
    have hb := hc.bound h1
    change (octetsAt shared j).length ≤ isizeMax
    simp only [octetsAt, e]
    have l1 := List.length_filterMap_le (fun c : Option UInt8 => c) v.contents
    have l2 : v.contents.length ≤ v.len := by simp [AVec.contents]
    omega

theorem easy_keepRules (hc : Correct I Rep) {ow : I.B → Option Nat} (how : ∀ {b h s l fp}, Rep b h s l fp → ow b = fp) (m : Build)
    (hi : Inv Rep h0 objs h abs fps) {who : Nat → Option Nat} {codes : List (Code β)} (h1 : ∀ i t, who i = some t → t < codes.length)
    (h2 : ∀ (t : Nat) (c : Code β), codes[t]? = some c → c.Easy (give who none .gone abs) (give who (some t) .gone abs)) :
    KeepRules ow m who codes objs h abs := by
  refine ⟨h1, fun t c e => ?_⟩
  refine Code.easy_rules hc m ⟨_, h0, others_inv hc hi who⟩ c _ _ _ ?_ (h2 t c e)
  exact ⟨_, hi.give hc who (some t) emptyHeap _ (fun i p w e => ⟨(blocksOf_give (Rep := Rep) how hi who t p).1 ⟨i, w, e⟩, rfl⟩)
    fun q hq => (blocksOf_give (Rep := Rep) how hi who t q).2 hq⟩

/-! ### A thread alone -/

theorem alone {α : Type} (al : Allocator) : ∀ (p : Prog α) (h : Heap) (a : α) (h' : Heap), p.run al h = .ok a h' →
    ∃ n, turns al (List.replicate n 0) ([p], h) = ([.ret a], h') := by
  have one : ∀ (p q : Prog α) (h h1 h' : Heap) (a : α), access al p h = (q, h1) →
      (∃ n, turns al (List.replicate n 0) ([q], h1) = ([.ret a], h')) → ∃ n, turns al (List.replicate n 0) ([p], h) = ([.ret a], h') := by
    rintro p q h h1 h' a e ⟨n, hn⟩
    refine ⟨n + 1, ?_⟩
    rw [List.replicate_succ]
    change turns al (List.replicate n 0) (turn al 0 ([p], h)) = _
    rw [show turn al 0 ([p], h) = ([q], h1) by simp [turn, e]]
    exact hn
  intro p
  induction p with
  | ret a =>
    intro h b h' e
    simp only [Prog.run, Out.ok.injEq] at e
    obtain ⟨rfl, rfl⟩ := e
    exact ⟨0, rfl⟩
  | panic => intro h b h' e; simp [Prog.run, M.panic] at e
  | abort => intro h b h' e; simp [Prog.run, M.abort] at e
  | ub => intro h b h' e; simp [Prog.run, M.ub] at e
  | alloc n k ih =>
    intro h b h' e
    simp only [Prog.run] at e
    rcases Prog.alloc_fails al n h with ⟨a, h1, e'⟩ | e' <;> rw [e'] at e
    · exact one _ _ _ _ _ _ (by simp only [access, e']) (ih a h1 b h' e)
    · simp at e
  | dealloc p n k ih =>
    intro h b h' e
    simp only [Prog.run] at e
    rcases Prog.dealloc_fails p n h with ⟨a, h1, e'⟩ | e' <;> rw [e'] at e
    · exact one _ _ _ _ _ _ (by simp only [access, e']) (ih h1 b h' e)
    · simp at e
  | realloc p n n' k ih =>
    intro h b h' e
    simp only [Prog.run] at e
    rcases Prog.realloc_fails al p n n' h with ⟨a, h1, e'⟩ | e' <;> rw [e'] at e
    · exact one _ _ _ _ _ _ (by simp only [access, e']) (ih a h1 b h' e)
    · simp at e
  | load p o n k ih =>
    intro h b h' e
    simp only [Prog.run] at e
    rcases Prog.load_fails p o n h with ⟨a, e'⟩ | e' <;> rw [e'] at e
    · exact one _ _ _ _ _ _ (by simp only [access, e']) (ih a h b h' e)
    · simp at e
  | store p o v k ih =>
    intro h b h' e
    simp only [Prog.run] at e
    rcases Prog.store_fails p o v h with ⟨a, h1, e'⟩ | e' <;> rw [e'] at e
    · exact one _ _ _ _ _ _ (by simp only [access, e']) (ih h1 b h' e)
    · simp at e

end Bsn1.Buf
