import Verif.Lemmas.ThreadsCode
/-!
# Fork and join
-/

namespace Bsn1.Buf
open Spec

variable {I : Impl} {P : PImpl I.B} {Rep : I.B → Heap → List Cell → Nat → Option Nat → Prop} {h0 h : Heap} {β : Type}
  {objs : List (Obj I)} {abs : List AObj} {fps : List (Option Nat)}

theorem give_at {α : Type} (who : Nat → Option Nat) (t : Option Nat) (gone : α) (xs : List α) (i : Nat) :
    (give who t gone xs)[i]? = xs[i]?.map fun o => if who i = t then o else gone := by
  unfold give
  rw [List.getElem?_mapIdx]

theorem give_some {α : Type} {who : Nat → Option Nat} {t : Option Nat} {gone : α} {xs : List α} {i : Nat} {x : α}
    (e : (give who t gone xs)[i]? = some x) : (who i = t ∧ xs[i]? = some x) ∨ (who i ≠ t ∧ x = gone ∧ i < xs.length) := by
  rw [give_at] at e
  cases h : xs[i]? with
  | none => rw [h] at e; simp at e
  | some y =>
    rw [h] at e
    have hl : i < xs.length := by
      rcases Nat.lt_or_ge i xs.length with hl | hl
      · exact hl
      · rw [List.getElem?_eq_none hl] at h; simp at h
    by_cases hw : who i = t
    · simp only [Option.map_some, if_pos hw, Option.some.injEq] at e
      exact .inl ⟨hw, by rw [e]⟩
    · simp only [Option.map_some, if_neg hw, Option.some.injEq] at e
      exact .inr ⟨hw, e.symm, hl⟩

/-- Those of the objects that are given to `t`. -/
theorem Inv.give (hc : Correct I Rep) (hi : Inv Rep h0 objs h abs fps) (who : Nat → Option Nat) (t : Option Nat) (base : Heap) (B : Blocks)
    (hB : ∀ (i : Nat) p, who i = t → fps[i]? = some (some p) → B p = h.blocks p ∧ base.blocks p = none)
    (hr : ∀ q, (∀ i : Nat, who i = t → fps[i]? ≠ some (some q)) → B q = base.blocks q) :
    Inv Rep base (give who t .gone objs) ⟨B, 0⟩ (give who t .gone abs) (give who t none fps) := by
  have mine : ∀ (i : Nat) p, (Spec.give who t none fps)[i]? = some (some p) → who i = t ∧ fps[i]? = some (some p) := by
    intro i p e
    rcases give_some e with h | ⟨_, h, _⟩
    · exact h
    · simp at h
  refine ⟨by simp [Spec.give, hi.lenA], by simp [Spec.give, hi.lenF], ?_, ?_, ?_, ?_⟩
  · intro i o a f e1 e2 e3
    rcases give_some e1 with ⟨w, e1⟩ | ⟨w, rfl, _⟩
    · rcases give_some e2 with ⟨_, e2⟩ | ⟨w', _⟩
      · rcases give_some e3 with ⟨_, e3⟩ | ⟨w', _⟩
        · refine (hi.rep i o a f e1 e2 e3).near hc fun p ep => ?_
          subst ep
          exact (hB i p w e3).1
        · exact absurd w w'
      · exact absurd w w'
    · rcases give_some e2 with ⟨w', _⟩ | ⟨_, rfl, _⟩
      · exact absurd w' w
      · rcases give_some e3 with ⟨w', _⟩ | ⟨_, rfl, _⟩
        · exact absurd w' w
        · rfl
  · intro i j p e1 e2
    exact hi.one i j p (mine i p e1).2 (mine j p e2).2
  · intro i p e
    obtain ⟨w, e⟩ := mine i p e
    exact (hB i p w e).2
  · intro q hq
    refine hr q fun i w e => hq i ?_
    rw [give_at, e]
    simp [w]

/-- What one has and what another has, together. -/
theorem Inv.merge (hc : Correct I Rep) {G O G' : Blocks} (hi : Inv Rep h0 objs ⟨G, 0⟩ abs fps) {objs' : List (Obj I)} {abs' : List AObj}
    {fps' : List (Option Nat)} (hi' : Inv Rep emptyHeap objs' ⟨O, 0⟩ abs' fps') (ha : ∀ q, O q ≠ none → G q = none)
    (h1 : ∀ q, O q ≠ none → G' q = O q) (h2 : ∀ q, O q = none → G' q = G q) :
    Inv Rep h0 (objs ++ objs') ⟨G', 0⟩ (abs ++ abs') (fps ++ fps') := by
  have lA := hi.lenA
  have lF := hi.lenF
  have live : ∀ (i : Nat) p, fps[i]? = some (some p) → G p ≠ none := by
    intro i p e
    obtain ⟨c, hc⟩ := hi.live hc e
    simp only at hc
    simp [hc]
  have live' : ∀ (i : Nat) p, fps'[i]? = some (some p) → O p ≠ none := by
    intro i p e
    obtain ⟨c, hc⟩ := hi'.live hc e
    simp only at hc
    simp [hc]
  have keep : ∀ q, G q ≠ none → G' q = G q := by
    intro q hq
    refine h2 q ?_
    cases e : O q with
    | none => rfl
    | some c => exact absurd (ha q (by simp [e])) hq
  have new' : ∀ p, O p ≠ none → h0.blocks p = none := by
    intro p hp
    rw [← hi.rest p fun i e => live i p e (ha p hp)]
    exact ha p hp
  refine ⟨by simp [lA, hi'.lenA], by simp [lF, hi'.lenF], ?_, ?_, ?_, ?_⟩
  · intro i o a f e1 e2 e3
    by_cases hl : i < objs.length
    · rw [List.getElem?_append_left (by omega)] at e1 e2 e3
      refine (hi.rep i o a f e1 e2 e3).near hc fun p ep => ?_
      subst ep
      exact keep p (live i p e3)
    · rw [List.getElem?_append_right (by omega)] at e1 e2 e3
      rw [lA] at e2
      rw [lF] at e3
      refine (hi'.rep _ o a f e1 e2 e3).near hc fun p ep => ?_
      subst ep
      exact h1 p (live' _ p e3)
  · intro i j p e1 e2
    rw [List.getElem?_append] at e1 e2
    split at e1 <;> split at e2
    · exact hi.one i j p e1 e2
    · exact absurd (ha p (live' _ p e2)) (live _ p e1)
    · exact absurd (ha p (live' _ p e1)) (live _ p e2)
    · have := hi'.one _ _ p e1 e2
      omega
  · intro i p e
    rw [List.getElem?_append] at e
    split at e
    · exact hi.new i p e
    · exact new' p (live' _ p e)
  · intro q hq
    have hO : O q = none := by
      refine hi'.rest q fun i e => hq (fps.length + i) ?_
      rw [List.getElem?_append_right (by omega), Nat.add_sub_cancel_left]
      exact e
    simp only
    rw [h2 q hO]
    refine hi.rest q fun i e => hq i ?_
    rw [List.getElem?_append_left]
    · exact e
    · rcases Nat.lt_or_ge i fps.length with hl | hl
      · exact hl
      · rw [List.getElem?_eq_none hl] at e; simp at e

/-! ### Fork -/

theorem owner_eq {ow : I.B → Option Nat} (how : ∀ {b h s l fp}, Rep b h s l fp → ow b = fp) {o : Obj I} {a : AObj} {f : Option Nat}
    (hr : ObjRep Rep o h a f) : o.owner ow = f := by
  cases o with
  | buf b =>
    cases a with
    | buf v => obtain ⟨s, h1, _⟩ := hr; exact how h1
    | vec v => exact hr.elim
    | gone => exact hr.elim
  | vec r =>
    cases a with
    | buf v => exact hr.elim
    | vec v =>
      obtain ⟨s, h1, _⟩ := hr
      generalize v.len = l at *
      cases h1 with
      | empty => rfl
      | block h1 h2 h3 h4 h5 h6 =>
        simp only [Obj.owner]
        rw [if_neg (by omega)]
    | gone => exact hr.elim
  | gone =>
    cases a with
    | buf v => exact hr.elim
    | vec v => exact hr.elim
    | gone => rw [show f = none from hr]; rfl

theorem blocksOf_give {ow : I.B → Option Nat} (how : ∀ {b h s l fp}, Rep b h s l fp → ow b = fp) (hi : Inv Rep h0 objs h abs fps)
    (who : Nat → Option Nat) (t : Nat) (q : Nat) :
    ((∃ i : Nat, who i = some t ∧ fps[i]? = some (some q)) → blocksOf ow (give who (some t) .gone objs) h q = h.blocks q) ∧
    ((∀ i : Nat, who i = some t → fps[i]? ≠ some (some q)) → blocksOf ow (give who (some t) .gone objs) h q = none) := by
  have lA := hi.lenA
  have lF := hi.lenF
  constructor
  · rintro ⟨i, w, e⟩
    have hl : i < objs.length := by
      rcases Nat.lt_or_ge i fps.length with hl | hl
      · omega
      · rw [List.getElem?_eq_none hl] at e; simp at e
    have ho := owner_eq (Rep := Rep) how (hi.rep i objs[i] abs[i] (some q) (List.getElem?_eq_getElem _) (List.getElem?_eq_getElem _) e)
    unfold blocksOf
    rw [if_pos]
    rw [List.any_eq_true]
    refine ⟨objs[i], ?_, by simp [ho]⟩
    apply List.mem_of_getElem? (i := i)
    rw [give_at, List.getElem?_eq_getElem hl]
    simp [w]
  · intro hn
    unfold blocksOf
    rw [if_neg]
    rw [List.any_eq_true]
    rintro ⟨o, ho, eo⟩
    obtain ⟨i, hil, e⟩ := List.getElem_of_mem ho
    have e' : (give who (some t) Obj.gone objs)[i]? = some o := by rw [List.getElem?_eq_getElem hil, e]
    simp only [beq_iff_eq] at eo
    rcases give_some e' with ⟨w, e1⟩ | ⟨_, rfl, _⟩
    · have hl : i < objs.length := by
        rcases Nat.lt_or_ge i objs.length with hl | hl
        · exact hl
        · rw [List.getElem?_eq_none hl] at e1; simp at e1
      have := owner_eq (Rep := Rep) how (hi.rep i o abs[i] fps[i] e1 (List.getElem?_eq_getElem _) (List.getElem?_eq_getElem _))
      refine hn i w ?_
      rw [List.getElem?_eq_getElem (by omega), ← this, eo]
    · simp [Obj.owner] at eo

open Classical in
/-- The blocks that no thread has. -/
noncomputable def others (who : Nat → Option Nat) (fps : List (Option Nat)) (h : Heap) : Blocks := fun q =>
  if ∃ (i t : Nat), who i = some t ∧ fps[i]? = some (some q) then none else h.blocks q

/-- What a thread should get to. -/
def Goal (Rep : I.B → Heap → List Cell → Nat → Option Nat → Prop) (who : Nat → Option Nat) (codes : List (Code β)) (abs : List AObj) (t : Nat)
    (r : β × List (Obj I)) (own : Blocks) : Prop :=
  ∀ c, codes[t]? = some c → r.1 = (idealOf who abs t c).1 ∧ Has Rep r.2 own (idealOf who abs t c).2

theorem others_inv (hc : Correct I Rep) (hi : Inv Rep h0 objs h abs fps) (who : Nat → Option Nat) :
    Inv Rep h0 (give who none .gone objs) ⟨others who fps h, 0⟩ (give who none .gone abs) (give who none none fps) := by
  refine hi.give hc who none h0 _ (fun i p w e => ⟨?_, hi.new i p e⟩) fun q hq => ?_
  · unfold others
    rw [if_neg]
    rintro ⟨j, t, w', e'⟩
    have := hi.one i j p e e'
    subst this
    rw [w] at w'
    simp at w'
  · unfold others
    split
    · rename_i hx
      obtain ⟨i, t, w, e⟩ := hx
      rw [hi.new i q e]
    · rename_i hx
      refine hi.rest q fun i e => ?_
      cases w : who i with
      | none => exact hq i w e
      | some t => exact hx ⟨i, t, w, e⟩

theorem fork_world (hc : Correct I Rep) (he : Erases P) (hr : Reads P) {ow : I.B → Option Nat}
    (how : ∀ {b h s l fp}, Rep b h s l fp → ow b = fp) (m : Build) (hi : Inv Rep h0 objs h abs fps) {who : Nat → Option Nat}
    {codes : List (Code β)} (hk : KeepRules ow m who codes objs h abs) :
    World (others who fps h) (Goal Rep who codes abs) (fork P m who codes objs) h := by
  have yes := fun t q => (blocksOf_give (Rep := Rep) how hi who t q).1
  have no := fun t q => (blocksOf_give (Rep := Rep) how hi who t q).2
  have inv : ∀ {t q}, blocksOf ow (give who (some t) .gone objs) h q ≠ none → ∃ i : Nat, who i = some t ∧ fps[i]? = some (some q) := by
    intro t q hq
    by_contra hx
    exact hq (no t q fun i w e => hx ⟨i, w, e⟩)
  refine ⟨fun t => blocksOf ow (give who (some t) .gone objs) h, ⟨?_, ?_, ?_, ?_⟩, ?_, ?_⟩
  · intro t q c e
    obtain hx := inv (t := t) (q := q) (by simp [e])
    rw [← yes t q hx, e]
  · intro q hq
    unfold others
    rw [if_neg]
    rintro ⟨i, t, w, e⟩
    have := hq t
    rw [yes t q ⟨i, w, e⟩] at this
    obtain ⟨c, hc⟩ := hi.live hc e
    rw [hc] at this
    simp at this
  · intro t q hq
    obtain ⟨i, w, e⟩ := inv hq
    unfold others
    rw [if_pos ⟨i, t, w, e⟩]
  · intro t u q ht hu
    obtain ⟨i, w, e⟩ := inv ht
    obtain ⟨j, w', e'⟩ := inv hu
    have := hi.one i j q e e'
    subst this
    rw [w] at w'
    exact Option.some.inj w'
  · intro t p e
    unfold fork at e
    rw [List.getElem?_mapIdx] at e
    cases ec : codes[t]? with
    | none => rw [ec] at e; simp at e
    | some c =>
      rw [ec] at e
      simp only [Option.map_some, Option.some.injEq] at e
      subst e
      have has : Has Rep (give who (some t) .gone objs) (blocksOf ow (give who (some t) .gone objs) h) (give who (some t) .gone abs) := by
        refine ⟨_, hi.give hc who (some t) emptyHeap _ (fun i p w e => ⟨yes t p ⟨i, w, e⟩, rfl⟩) fun q hq => ?_⟩
        exact no t q hq
      refine Safe.mono (fun _ h => h) (fun _ _ h => h) ?_ _ _
        (Code.safe hc he hr m ⟨_, h0, others_inv hc hi who⟩ c _ _ _ has (hk.2 t c ec))
      intro r own hq c' ec'
      rw [ec] at ec'
      cases ec'
      exact hq
  · intro t ht
    funext q
    refine no t q fun i w _ => ?_
    have := hk.1 i t w
    simp only [fork, List.length_mapIdx] at ht
    omega

/-! ### Join -/

open Classical in
/-- The memory after the first threads have been joined. -/
noncomputable def joined (S : Blocks) (owns : Nat → Blocks) : Nat → Blocks
  | 0 => S
  | k + 1 => fun q => if owns k q ≠ none then owns k q else joined S owns k q

theorem joined_mine {S : Blocks} {owns : Nat → Blocks} {q t : Nat} (ht : owns t q ≠ none) (one : ∀ u, owns u q ≠ none → u = t) :
    ∀ k, t < k → joined S owns k q = owns t q
  | k + 1, h => by
    simp only [joined]
    by_cases e : k = t
    · rw [e, if_pos ht]
    · rw [if_neg (fun hk => e (one k hk))]
      exact joined_mine ht one k (by omega)

theorem joined_none {S : Blocks} {owns : Nat → Blocks} {q : Nat} : ∀ k, (∀ u, u < k → owns u q = none) → joined S owns k q = S q
  | 0, _ => rfl
  | k + 1, h => by
    simp only [joined]
    rw [if_neg (by simp [h k (by omega)])]
    exact joined_none k fun u hu => h u (by omega)

/-- When all threads have finished, what they have and what was shared is as it should be. -/
theorem World.join (hc : Correct I Rep) {g : Heap} {S : Blocks} {who : Nat → Option Nat} {codes : List (Code β)}
    {results : List (β × List (Obj I))} (hl : results.length = codes.length) (hw : World S (Goal Rep who codes abs) (results.map .ret) g)
    {shObjs : List (Obj I)} {shAbs : List AObj} (hsh : Inv Rep h0 shObjs ⟨S, 0⟩ shAbs fps) :
    ∃ fps', Inv Rep h0 (shObjs ++ (results.map (·.2)).flatten) g
      (shAbs ++ (codes.mapIdx fun t c => (idealOf who abs t c).2).flatten) fps' := by
  obtain ⟨owns, hp, hs, hn⟩ := hw
  have part : ∀ k, k ≤ codes.length → ∃ fps', Inv Rep h0 (shObjs ++ ((results.map (·.2)).take k).flatten) ⟨joined S owns k, 0⟩
      (shAbs ++ ((codes.mapIdx fun t c => (idealOf who abs t c).2).take k).flatten) fps' := by
    intro k
    induction k with
    | zero => intro _; exact ⟨fps, by simpa [joined] using hsh⟩
    | succ k ih =>
      intro hk
      obtain ⟨fps1, h1⟩ := ih (by omega)
      have er : results[k]? = some (results[k]'(by omega)) := List.getElem?_eq_getElem (by omega)
      have ec : codes[k]? = some (codes[k]'(by omega)) := List.getElem?_eq_getElem (by omega)
      have := hs k (.ret (results[k]'(by omega))) (by rw [List.getElem?_map, er]; rfl)
      obtain ⟨fps2, h2⟩ := (this _ ec).2
      have apart : ∀ q, owns k q ≠ none → joined S owns k q = none := by
        intro q hq
        rw [joined_none k fun u hu => ?_]
        · exact hp.apart k q hq
        · cases e : owns u q with
          | none => rfl
          | some c =>
            have := hp.one u k q (by simp [e]) hq
            omega
      refine ⟨fps1 ++ fps2, ?_⟩
      have hm := h1.merge hc h2 (G' := joined S owns (k + 1)) apart (fun q hq => by simp only [joined]; rw [if_pos hq])
        (fun q hq => by simp only [joined]; rw [if_neg (by simp [hq])])
      rw [List.take_add_one, List.take_add_one, List.flatten_append, List.flatten_append, ← List.append_assoc, ← List.append_assoc]
      simpa [er, ec] using hm
  obtain ⟨fps', h1⟩ := part codes.length (Nat.le_refl _)
  refine ⟨fps', ?_⟩
  rw [List.take_of_length_le (by simp [hl]), List.take_of_length_le (by simp)] at h1
  refine h1.sameBlocks hc ?_
  funext q
  change g.blocks q = joined S owns codes.length q
  by_cases hx : ∃ t, owns t q ≠ none
  · obtain ⟨t, ht⟩ := hx
    have htl : t < codes.length := by
      rcases Nat.lt_or_ge t codes.length with h | h
      · exact h
      · rw [hn t (by simpa [hl] using h)] at ht
        simp [noBlocks] at ht
    rw [joined_mine ht (fun u hu => hp.one u t q hu ht) _ htl]
    cases e : owns t q with
    | none => exact absurd e ht
    | some c => exact hp.mine t q c e
  · rw [joined_none _ fun u _ => by_contra fun hu => hx ⟨u, hu⟩]
    exact hp.rest q fun u => by_contra fun hu => hx ⟨u, hu⟩

theorem turns_length {α : Type} (al : Allocator) (schedule : List Nat) : ∀ s : List (Prog α) × Heap, (turns al schedule s).1.length = s.1.length := by
  induction schedule with
  | nil => exact fun _ => rfl
  | cons t ts ih =>
    intro s
    refine (ih (turn al t s)).trans ?_
    unfold turn
    split <;> simp

/-- Whatever such a program does, the invariant holds. -/
theorem Forked.inv (hc : Correct I Rep) (he : Erases P) (hr : Reads P) {ow : I.B → Option Nat}
    (how : ∀ {b h s l fp}, Rep b h s l fp → ow b = fp) {m : Build} {al : Allocator} (hv : al.Valid)
    (hh : Forked I P ow m al h0 objs h abs) : ∃ fps, Inv Rep h0 objs h abs fps := by
  induction hh with
  | start => exact ⟨[], .start h0⟩
  | step hh ha he ih =>
    obtain ⟨fps, hi⟩ := ih
    rcases hi.step hc m hv ha with e | ⟨objs', h', fps', e, hi'⟩
    · rw [e] at he
      simp at he
    · rw [e] at he
      cases he
      exact ⟨fps', hi'⟩
  | @join objs h abs h' β codes who schedule results hh hk e ih =>
    obtain ⟨fps, hi⟩ := ih
    have hw := (fork_world hc he hr how m hi hk).turns (s := (fork P m who codes objs, h)) hv schedule
    have hl := turns_length al schedule (fork P m who codes objs, h)
    rw [e] at hw hl
    simp only [List.length_map, fork, List.length_mapIdx] at hl
    exact hw.join hc hl (others_inv hc hi who)

/-! ### Every thread finishes -/

/-- The thread that has the turn at each time. -/
def stateAt {α : Type} (al : Allocator) (σ : Nat → Nat) (s : List (Prog α) × Heap) (n : Nat) : List (Prog α) × Heap :=
  turns al ((List.range n).map σ) s

theorem stateAt_succ {α : Type} (al : Allocator) (σ : Nat → Nat) (s : List (Prog α) × Heap) (n : Nat) :
    stateAt al σ s (n + 1) = turn al (σ n) (stateAt al σ s n) := by
  unfold stateAt turns
  rw [List.range_succ, List.map_append, List.foldl_append]
  rfl

/-- The thread has ended, in one way or another. -/
def Ended {α : Type} : Prog α → Prop
  | .ret _ => True
  | .panic => True
  | .abort => True
  | .ub => True
  | _ => False

theorem turn_other {α : Type} (al : Allocator) {t u : Nat} (h : u ≠ t) (s : List (Prog α) × Heap) : (turn al u s).1[t]? = s.1[t]? := by
  unfold turn
  split
  · rfl
  · rw [List.getElem?_set_ne h]

theorem turn_self {α : Type} (al : Allocator) {t : Nat} (s : List (Prog α) × Heap) {p : Prog α} (e : s.1[t]? = some p) :
    (turn al t s).1[t]? = some (access al p s.2).1 := by
  have hl : t < s.1.length := by
    rcases Nat.lt_or_ge t s.1.length with hl | hl
    · exact hl
    · rw [List.getElem?_eq_none hl] at e; simp at e
  unfold turn
  rw [e]
  simp [hl]

theorem finishes {α : Type} (al : Allocator) (σ : Nat → Nat) (s : List (Prog α) × Heap) (t : Nat) (fair : ∀ n, ∃ k, n ≤ k ∧ σ k = t) :
    ∀ (p : Prog α) n, (stateAt al σ s n).1[t]? = some p → ∃ k p', (stateAt al σ s k).1[t]? = some p' ∧ Ended p' := by
  -- until its next turn, nothing happens to the thread
  have wait : ∀ (p : Prog α) n, (stateAt al σ s n).1[t]? = some p →
      ∃ k, (stateAt al σ s k).1[t]? = some p ∧ σ k = t := by
    intro p n e
    obtain ⟨k, hk, et⟩ := fair n
    have : ∀ d n, n + d = k → (stateAt al σ s n).1[t]? = some p → ∃ k, (stateAt al σ s k).1[t]? = some p ∧ σ k = t := by
      intro d
      induction d with
      | zero => intro n hn e; exact ⟨n, e, by rw [show n = k by omega]; exact et⟩
      | succ d ih =>
        intro n hn e
        by_cases hσ : σ n = t
        · exact ⟨n, e, hσ⟩
        · refine ih (n + 1) (by omega) ?_
          rw [stateAt_succ, turn_other al hσ]
          exact e
    exact this (k - n) n (by omega) e
  have next : ∀ (p : Prog α) n, (stateAt al σ s n).1[t]? = some p →
      ∃ k h, (stateAt al σ s k).1[t]? = some (access al p h).1 := by
    intro p n e
    obtain ⟨k, e, et⟩ := wait p n e
    refine ⟨k + 1, (stateAt al σ s k).2, ?_⟩
    rw [stateAt_succ, et]
    exact turn_self al _ e
  intro p
  induction p with
  | ret a => exact fun n e => ⟨n, _, e, trivial⟩
  | panic => exact fun n e => ⟨n, _, e, trivial⟩
  | abort => exact fun n e => ⟨n, _, e, trivial⟩
  | ub => exact fun n e => ⟨n, _, e, trivial⟩
  | alloc n k ih =>
    intro n e
    obtain ⟨n', h, e'⟩ := next _ n e
    simp only [access] at e'
    split at e'
    · exact ih _ n' e'
    · exact ⟨n', _, e', trivial⟩
  | dealloc p n k ih =>
    intro n e
    obtain ⟨n', h, e'⟩ := next _ n e
    simp only [access] at e'
    split at e'
    · exact ih n' e'
    · exact ⟨n', _, e', trivial⟩
  | realloc p n n' k ih =>
    intro n e
    obtain ⟨n', h, e'⟩ := next _ n e
    simp only [access] at e'
    split at e'
    · exact ih _ n' e'
    · exact ⟨n', _, e', trivial⟩
  | load p o n k ih =>
    intro n e
    obtain ⟨n', h, e'⟩ := next _ n e
    simp only [access] at e'
    split at e'
    · exact ih _ n' e'
    · exact ⟨n', _, e', trivial⟩
  | store p o v k ih =>
    intro n e
    obtain ⟨n', h, e'⟩ := next _ n e
    simp only [access] at e'
    split at e'
    · exact ih n' e'
    · exact ⟨n', _, e', trivial⟩

end Bsn1.Buf
