import Verif.Lemmas.ThreadsEasy
import Verif.Props.Buffer
/-!
# C98: buffers in several threads
-/

namespace Bsn1
open Buf Spec

/-- What the theorems below say of objects: each buffer has the length of the ordinary vector, and `as_slice` shows its elements
(exactly, when all of them are specified); the same for vectors; and what was dropped is gone. -/
def AsSpecified (I : Impl) (objs : List (Obj I)) (h : Heap) (abs : List AObj) : Prop :=
  objs.length = abs.length ∧
  (∀ (i : Nat) b, objs[i]? = some (.buf b) → ∃ v, abs[i]? = some (.buf v) ∧ I.len b = v.len ∧
    ∃ cs, I.cells b h = .ok cs h ∧ Shows v.contents cs ∧ (none ∉ v.contents → cs = v.contents)) ∧
  (∀ (i : Nat) r, objs[i]? = some (.vec r) → ∃ v, abs[i]? = some (.vec v) ∧ r.len = v.len ∧
    ∃ cs, vecCells r h = .ok cs h ∧ Shows v.contents cs ∧ (none ∉ v.contents → cs = v.contents)) ∧
  (∀ i : Nat, objs[i]? = some .gone → abs[i]? = some .gone)

namespace Buf

variable {I : Impl} {P : PImpl I.B} {Rep : I.B → Heap → List Cell → Nat → Option Nat → Prop} {h0 h : Heap} {β : Type}
  {objs : List (Obj I)} {abs : List AObj} {fps : List (Option Nat)} {m : Build} {al : Allocator} {ow : I.B → Option Nat}

theorem inv_specified (hc : Correct I Rep) (hi : Inv Rep h0 objs h abs fps) : AsSpecified I objs h abs := by
  refine ⟨hi.lenA.symm, fun i b e => ?_, fun i r e => ?_, fun i e => ?_⟩
  · obtain ⟨v, f, s, ea, ef, h1, h2, h3⟩ := hi.buf e
    exact ⟨v, ea, hc.len h1, _, hc.cells h1, h2.shows h3, shows_known (h2.shows h3)⟩
  · obtain ⟨v, f, s, ea, ef, h1, h2, h3⟩ := hi.vec e
    have hl : r.len = v.len := by generalize v.len = l at *; cases h1 <;> rfl
    have hcs : vecCells r h = .ok (s.take v.len) h := by
      generalize v.len = l at *
      cases h1 with
      | empty => rfl
      | block a1 a2 a3 a4 a5 a6 =>
        rw [vecCells, if_neg (by simp only; omega)]
        exact load_spec _ _ _ h a3 a6
    exact ⟨v, ea, hl, _, hcs, h2.shows h3, shows_known (h2.shows h3)⟩
  · obtain ⟨a, f, ea, ef, hr⟩ := hi.at e
    cases a with
    | buf v => exact hr.elim
    | vec v => exact hr.elim
    | gone => exact ea

theorem Has.inWorld (hc : Correct I Rep) {own : Blocks} (hi : Has Rep objs own abs) (hm : ∀ q c, own q = some c → h.blocks q = some c) :
    AsSpecified I objs h abs := by
  obtain ⟨fps, hi⟩ := hi
  have lA := hi.lenA
  have lF := hi.lenF
  -- the same objects in the whole memory; what else is there belongs to the environment
  refine inv_specified (h0 := ⟨fun q => if own q = none then h.blocks q else none, 0⟩) (fps := fps) hc
    ⟨lA, lF, fun i o a f e1 e2 e3 => (hi.rep i o a f e1 e2 e3).near hc fun p ep => ?_, hi.one, fun i p e => ?_, fun q hq => ?_⟩
  · subst ep
    obtain ⟨c, hc⟩ := hi.live hc e3
    rw [hm p c hc]
    exact hc.symm
  · obtain ⟨c, hc⟩ := hi.live hc e
    simp only at hc
    simp [hc]
  · have : own q = none := hi.rest q hq
    simp [this]

theorem threads_world (hc : Correct I Rep) (he : Erases P) (hr : Reads P) (how : ∀ {b h s l fp}, Rep b h s l fp → ow b = fp) (hv : al.Valid)
    (hh : Forked I P ow m al h0 objs h abs) {who : Nat → Option Nat} {codes : List (Code β)} (hk : KeepRules ow m who codes objs h abs)
    (schedule : List Nat) :
    ∃ S, World S (Goal Rep who codes abs) (turns al schedule (fork P m who codes objs, h)).1 (turns al schedule (fork P m who codes objs, h)).2 := by
  obtain ⟨fps, hi⟩ := Forked.inv hc he hr how hv hh
  exact ⟨_, (fork_world hc he hr how m hi hk).turns (s := (fork P m who codes objs, h)) hv schedule⟩

theorem World.result (hc : Correct I Rep) {S : Blocks} {who : Nat → Option Nat} {codes : List (Code β)} {ps : List (Prog (β × List (Obj I)))} {g : Heap}
    (hw : World S (Goal Rep who codes abs) ps g) {t : Nat} {r : β × List (Obj I)} (e : ps[t]? = some (.ret r)) {c : Code β}
    (ec : codes[t]? = some c) : r.1 = (idealOf who abs t c).1 ∧ AsSpecified I r.2 g (idealOf who abs t c).2 := by
  obtain ⟨owns, hp, hs, _⟩ := hw
  obtain ⟨h1, h2⟩ := hs t _ e c ec
  exact ⟨h1, h2.inWorld hc (hp.mine t)⟩

theorem threads_finish (hc : Correct I Rep) (he : Erases P) (hr : Reads P) (how : ∀ {b h s l fp}, Rep b h s l fp → ow b = fp) (hv : al.Valid)
    (hh : Forked I P ow m al h0 objs h abs) {who : Nat → Option Nat} {codes : List (Code β)} (hk : KeepRules ow m who codes objs h abs)
    {t : Nat} (ht : t < codes.length) {σ : Nat → Nat} (fair : ∀ n, ∃ k, n ≤ k ∧ σ k = t) :
    ∃ n, (∃ r, (turns al ((List.range n).map σ) (fork P m who codes objs, h)).1[t]? = some (.ret r)) ∨
      (turns al ((List.range n).map σ) (fork P m who codes objs, h)).1[t]? = some .abort := by
  have h0 : (fork P m who codes objs)[t]? = some ((fork P m who codes objs)[t]'(by simpa [fork] using ht)) := List.getElem?_eq_getElem _
  obtain ⟨n, p, e, hp⟩ := finishes al σ (fork P m who codes objs, h) t fair _ 0 h0
  obtain ⟨S, hw⟩ := threads_world hc he hr how hv hh hk ((List.range n).map σ)
  have hub := hw.no_ub t
  unfold stateAt at e
  refine ⟨n, ?_⟩
  cases p with
  | ret r => exact .inl ⟨r, e⟩
  | abort => exact .inr e
  | panic => exact absurd e hub.2
  | ub => exact absurd e hub.1
  | _ => exact hp.elim

end Buf

/-! ### The accesses -/

/-- **C98.** Broken down into single accesses to memory, the functions of `Buffer` are still those of C35 to C38: a lone thread that
makes them one after the other gets to the same result and to the same memory. -/
theorem C98_accesses (m : Build) (al : Allocator) (op : BufOp) (h h' : Heap) :
    (∀ objs objs' : List (Obj little), Spec.step m al objs op h = .ok objs' h' →
      ∃ n, turns al (List.replicate n 0) ([stepP (I := little) littleP m objs op], h) = ([.ret objs'], h')) ∧
    (∀ objs objs' : List (Obj universal), Spec.step m al objs op h = .ok objs' h' →
      ∃ n, turns al (List.replicate n 0) ([stepP (I := universal) universalP m objs op], h) = ([.ret objs'], h')) :=
  ⟨fun objs objs' e => alone al _ h objs' h' (by rw [run_stepP little_erases]; exact e),
    fun objs objs' e => alone al _ h objs' h' (by rw [run_stepP universal_erases]; exact e)⟩

/-- 30 octets: a buffer with them is on the heap. -/
def thirty : Bytes := List.replicate 30 7

example : ∃ n objs' h', turns bump (List.replicate n 0) ([stepP (I := little) littleP .debug [] (.fromSlice thirty)], noHeap) =
    ([.ret objs'], h') ∧ objs'.length = 1 ∧ h'.blocks 1 = some (thirty.map some) := by
  obtain ⟨n, hn⟩ := (C98_accesses .debug bump (.fromSlice thirty) noHeap _).1 [] _ rfl
  exact ⟨n, _, _, hn, rfl, by decide +kernel⟩

/-! ### A case: a shared buffer and one that is given to a thread -/

/-- Thread 0 appends to its buffer what it reads from the shared one, and returns the new octets; thread 1 clones the shared buffer and
changes the clone. -/
def twoThreads : List (Code Bytes) :=
  [.readShared 0 fun v => .op (.write 1 v) (.read 1 fun w => .done w),
    .cloneShared 0 (.op (.setAt 2 0 9) (.op (.write 2 [1]) (.read 2 fun w => .op (.drop 2) (.done w))))]

/-- Object 0 is shared, object 1 is of thread 0. -/
def twoOwners : Nat → Option Nat
  | 1 => some 0
  | _ => none

/-- What the two should have at the beginning: the 30 octets, and one octet. -/
def twoObjects : List AObj := [.buf (.ofBytes thirty), .buf (.ofBytes [5])]

theorem two_start : ∃ objs h, Forked little littleP ownerLE .debug bump noHeap objs h twoObjects := by
  have s1 : Forked little littleP ownerLE .debug bump noHeap _ _ _ := .step (op := .fromSlice thirty) .start (by change _ ≤ _; decide) rfl
  exact ⟨_, _, .step (op := .fromSlice [5]) s1 (by change _ ≤ _; decide) rfl⟩

theorem two_start_universal : ∃ objs h, Forked universal universalP ownerUE .debug bump noHeap objs h twoObjects := by
  have s1 : Forked universal universalP ownerUE .debug bump noHeap _ _ _ := .step (op := .fromSlice thirty) .start (by change _ ≤ _; decide) rfl
  exact ⟨_, _, .step (op := .fromSlice [5]) s1 (by change _ ≤ _; decide) rfl⟩

theorem two_given : ∀ i t, twoOwners i = some t → t < twoThreads.length := by
  intro i t e
  unfold twoOwners at e
  split at e
  · cases e; decide
  · simp at e

theorem two_easy : ∀ (t : Nat) (c : Code Bytes), twoThreads[t]? = some c →
    c.Easy (give twoOwners none .gone twoObjects) (give twoOwners (some t) .gone twoObjects) := by
  intro t c e
  match t, e with
  | 0, e =>
    simp only [twoThreads, List.getElem?_cons_zero, Option.some.injEq] at e
    subst e
    exact ⟨⟨_, rfl, by decide⟩, ⟨_, rfl, by decide⟩, ⟨_, rfl, by decide⟩, trivial⟩
  | 1, e =>
    simp only [twoThreads, List.getElem?_cons_zero, List.getElem?_cons_succ, Option.some.injEq] at e
    subst e
    exact ⟨⟨_, rfl, by decide⟩, ⟨_, rfl, by decide⟩, ⟨_, rfl, by decide⟩, ⟨_, rfl, by decide⟩, ⟨_, rfl, by simp [AObj.map]⟩, trivial⟩
  | t + 2, e => simp [twoThreads] at e

/-! ### The rules -/

/-- **C98.** That threads keep the rules can be checked with ordinary vectors, when they do not rely on capacities: it is enough that each
thread uses only what it has, does not index out of bounds and reads only what is initialised. -/
theorem C98_rules {β : Type} (m : Build) (al : Allocator) (hv : al.Valid) (h0 h : Heap) (abs : List AObj) (who : Nat → Option Nat)
    (codes : List (Code β)) (h1 : ∀ i t, who i = some t → t < codes.length)
    (h2 : ∀ (t : Nat) (c : Code β), codes[t]? = some c → c.Easy (give who none .gone abs) (give who (some t) .gone abs)) :
    (∀ objs, Forked little littleP ownerLE m al h0 objs h abs → KeepRules ownerLE m who codes objs h abs) ∧
    (∀ objs, Forked universal universalP ownerUE m al h0 objs h abs → KeepRules ownerUE m who codes objs h abs) := by
  constructor
  · intro objs hh
    obtain ⟨fps, hi⟩ := Forked.inv LE.correct little_erases little_reads ownerLE_eq hv hh
    exact easy_keepRules LE.correct ownerLE_eq m hi h1 h2
  · intro objs hh
    obtain ⟨fps, hi⟩ := Forked.inv UE.correct universal_erases universal_reads ownerUE_eq hv hh
    exact easy_keepRules UE.correct ownerUE_eq m hi h1 h2

example : ∃ objs h, Forked little littleP ownerLE .debug bump noHeap objs h twoObjects ∧
    KeepRules ownerLE .debug twoOwners twoThreads objs h twoObjects := by
  obtain ⟨objs, h, hh⟩ := two_start
  exact ⟨objs, h, hh, (C98_rules .debug bump bump_valid noHeap h _ _ _ two_given two_easy).1 objs hh⟩

/-! ### Threads -/

/-- **C98.** Some buffers are shared between threads, the others are given to one of them each; each thread keeps the rules.  Then, in
whatever order the threads make their accesses and whatever the allocator answers: there is no data race, no thread does anything
undefined (in particular none touches a block that is freed or not its own), and none panics. -/
theorem C98_no_race {β : Type} (m : Build) (al : Allocator) (hv : al.Valid) (h0 h : Heap) (abs : List AObj) (who : Nat → Option Nat)
    (codes : List (Code β)) (schedule : List Nat) :
    (∀ objs, Forked little littleP ownerLE m al h0 objs h abs → KeepRules ownerLE m who codes objs h abs →
      ¬ Race (turns al schedule (fork littleP m who codes objs, h)).1 ∧
      ∀ t : Nat, (turns al schedule (fork littleP m who codes objs, h)).1[t]? ≠ some .ub ∧
        (turns al schedule (fork littleP m who codes objs, h)).1[t]? ≠ some .panic) ∧
    (∀ objs, Forked universal universalP ownerUE m al h0 objs h abs → KeepRules ownerUE m who codes objs h abs →
      ¬ Race (turns al schedule (fork universalP m who codes objs, h)).1 ∧
      ∀ t : Nat, (turns al schedule (fork universalP m who codes objs, h)).1[t]? ≠ some .ub ∧
        (turns al schedule (fork universalP m who codes objs, h)).1[t]? ≠ some .panic) := by
  constructor
  · intro objs hh hk
    obtain ⟨S, hw⟩ := threads_world LE.correct little_erases little_reads ownerLE_eq hv hh hk schedule
    exact ⟨hw.no_race, hw.no_ub⟩
  · intro objs hh hk
    obtain ⟨S, hw⟩ := threads_world UE.correct universal_erases universal_reads ownerUE_eq hv hh hk schedule
    exact ⟨hw.no_race, hw.no_ub⟩

example : ∃ objs h, objs.length = 2 ∧ ∀ schedule, ¬ Race (turns bump schedule (fork (I := little) littleP .debug twoOwners twoThreads objs, h)).1 := by
  obtain ⟨objs, h, hh⟩ := two_start
  have hk := (C98_rules .debug bump bump_valid noHeap h _ _ _ two_given two_easy).1 objs hh
  obtain ⟨fps, hi⟩ := Forked.inv LE.correct little_erases little_reads ownerLE_eq bump_valid hh
  exact ⟨objs, h, hi.lenA.symm, fun schedule => ((C98_no_race .debug bump bump_valid noHeap h _ twoOwners twoThreads schedule).1 objs hh hk).1⟩

/-- A race: one thread reads a block that another writes.  (So `C98_no_race` is not for want of races.) -/
example : Race [(Prog.load 1 0 1 fun _ => .ret () : Prog Unit), .store 1 0 [some 0] (.ret ())] :=
  ⟨0, 1, _, _, 1, false, true, by decide, rfl, rfl, rfl, rfl, .inr rfl⟩

/-- **C98.** What a thread returns, and what its buffers hold when it has finished, is what it would have got alone with ordinary vectors:
it depends neither on the order of accesses nor on the allocator nor on what the other threads do. -/
theorem C98_result {β : Type} (m : Build) (al : Allocator) (hv : al.Valid) (h0 h : Heap) (abs : List AObj) (who : Nat → Option Nat)
    (codes : List (Code β)) (schedule : List Nat) (t : Nat) (c : Code β) (ec : codes[t]? = some c) :
    (∀ objs r, Forked little littleP ownerLE m al h0 objs h abs → KeepRules ownerLE m who codes objs h abs →
      (turns al schedule (fork littleP m who codes objs, h)).1[t]? = some (.ret r) →
      r.1 = (idealOf who abs t c).1 ∧
      AsSpecified little r.2 (turns al schedule (fork littleP m who codes objs, h)).2 (idealOf who abs t c).2) ∧
    (∀ objs r, Forked universal universalP ownerUE m al h0 objs h abs → KeepRules ownerUE m who codes objs h abs →
      (turns al schedule (fork universalP m who codes objs, h)).1[t]? = some (.ret r) →
      r.1 = (idealOf who abs t c).1 ∧
      AsSpecified universal r.2 (turns al schedule (fork universalP m who codes objs, h)).2 (idealOf who abs t c).2) := by
  constructor
  · intro objs r hh hk e
    obtain ⟨S, hw⟩ := threads_world LE.correct little_erases little_reads ownerLE_eq hv hh hk schedule
    exact hw.result LE.correct e ec
  · intro objs r hh hk e
    obtain ⟨S, hw⟩ := threads_world UE.correct universal_erases universal_reads ownerUE_eq hv hh hk schedule
    exact hw.result UE.correct e ec

/-- What the two threads return. -/
example : (twoThreads.mapIdx fun t c => (idealOf twoOwners twoObjects t c).1) = [5 :: thirty, 9 :: (thirty.drop 1 ++ [1])] := by decide +kernel

/-- **C98.** Every thread that gets its turn again and again finishes (or the process is aborted since the memory is exhausted). -/
theorem C98_finishes {β : Type} (m : Build) (al : Allocator) (hv : al.Valid) (h0 h : Heap) (abs : List AObj) (who : Nat → Option Nat)
    (codes : List (Code β)) (t : Nat) (ht : t < codes.length) (σ : Nat → Nat) (fair : ∀ n, ∃ k, n ≤ k ∧ σ k = t) :
    (∀ objs, Forked little littleP ownerLE m al h0 objs h abs → KeepRules ownerLE m who codes objs h abs →
      ∃ n, (∃ r, (turns al ((List.range n).map σ) (fork littleP m who codes objs, h)).1[t]? = some (.ret r)) ∨
        (turns al ((List.range n).map σ) (fork littleP m who codes objs, h)).1[t]? = some .abort) ∧
    (∀ objs, Forked universal universalP ownerUE m al h0 objs h abs → KeepRules ownerUE m who codes objs h abs →
      ∃ n, (∃ r, (turns al ((List.range n).map σ) (fork universalP m who codes objs, h)).1[t]? = some (.ret r)) ∨
        (turns al ((List.range n).map σ) (fork universalP m who codes objs, h)).1[t]? = some .abort) :=
  ⟨fun _ hh hk => threads_finish LE.correct little_erases little_reads ownerLE_eq hv hh hk ht fair,
    fun _ hh hk => threads_finish UE.correct universal_erases universal_reads ownerUE_eq hv hh hk ht fair⟩

/-- Turn by turn, and what is then returned. -/
example : ∃ objs h, Forked universal universalP ownerUE .debug bump noHeap objs h twoObjects ∧
    ∃ n, (∃ r, (turns bump ((List.range n).map (· % 2)) (fork (I := universal) universalP .debug twoOwners twoThreads objs, h)).1[1]? = some (.ret r) ∧
      r.1 = 9 :: (thirty.drop 1 ++ [1])) ∨
      (turns bump ((List.range n).map (· % 2)) (fork (I := universal) universalP .debug twoOwners twoThreads objs, h)).1[1]? = some .abort := by
  obtain ⟨objs, h, hh⟩ := two_start_universal
  have hk := (C98_rules .debug bump bump_valid noHeap h _ _ _ two_given two_easy).2 objs hh
  refine ⟨objs, h, hh, ?_⟩
  obtain ⟨n, ⟨r, e⟩ | e⟩ := (C98_finishes .debug bump bump_valid noHeap h _ twoOwners twoThreads 1 (by decide) (· % 2)
    (fun n => ⟨2 * n + 1, by omega, by omega⟩)).2 objs hh hk
  · refine ⟨n, .inl ⟨r, e, ?_⟩⟩
    rw [((C98_result .debug bump bump_valid noHeap h _ twoOwners twoThreads _ 1 _ rfl).2 objs r hh hk e).1]
    decide +kernel
  · exact ⟨n, .inr e⟩

/-- **C98.** When all threads have finished and given back what they have, then everything is as the ordinary vectors are, as after any other
history (C35, C36): the program can go on, and start threads again. -/
theorem C98_join (m : Build) (al : Allocator) (hv : al.Valid) (h0 h : Heap) (abs : List AObj) :
    (∀ objs, Forked little littleP ownerLE m al h0 objs h abs → AsSpecified little objs h abs) ∧
    (∀ objs, Forked universal universalP ownerUE m al h0 objs h abs → AsSpecified universal objs h abs) := by
  constructor
  · intro objs hh
    obtain ⟨fps, hi⟩ := Forked.inv LE.correct little_erases little_reads ownerLE_eq hv hh
    exact inv_specified LE.correct hi
  · intro objs hh
    obtain ⟨fps, hi⟩ := Forked.inv UE.correct universal_erases universal_reads ownerUE_eq hv hh
    exact inv_specified UE.correct hi

/-- **C98.** And no memory is lost or freed twice: after joining, the live blocks are those of the objects, each with one owner, and those
that were there before the program started. -/
theorem C98_blocks (m : Build) (al : Allocator) (hv : al.Valid) (h0 h : Heap) (abs : List AObj) :
    (∀ objs, Forked little littleP ownerLE m al h0 objs h abs → BlocksOwned little ownerLE h0 objs h) ∧
    (∀ objs, Forked universal universalP ownerUE m al h0 objs h abs → BlocksOwned universal ownerUE h0 objs h) := by
  constructor
  · intro objs hh
    obtain ⟨fps, hi⟩ := Forked.inv LE.correct little_erases little_reads ownerLE_eq hv hh
    obtain ⟨h1, h2, h3⟩ := inv_blocks LE.correct ownerLE ownerLE_eq hi
    refine ⟨fun i o p e eo => ?_, h2, h3⟩
    obtain ⟨h4, cells, h5, h6⟩ := h1 i o p e eo
    exact ⟨h4, cells, h5, by cases o <;> exact h6⟩
  · intro objs hh
    obtain ⟨fps, hi⟩ := Forked.inv UE.correct universal_erases universal_reads ownerUE_eq hv hh
    obtain ⟨h1, h2, h3⟩ := inv_blocks UE.correct ownerUE ownerUE_eq hi
    refine ⟨fun i o p e eo => ?_, h2, h3⟩
    obtain ⟨h4, cells, h5, h6⟩ := h1 i o p e eo
    exact ⟨h4, cells, h5, by cases o <;> exact h6⟩

/-- The results, when all have finished. -/
def ends {α : Type} : List (Prog α) → Option (List α)
  | [] => some []
  | .ret a :: ps => (ends ps).map (a :: ·)
  | _ => none

theorem ends_eq {α : Type} : ∀ (ps : List (Prog α)) (rs : List α), ends ps = some rs → ps = rs.map .ret
  | [], rs, e => by simp only [ends, Option.some.injEq] at e; subst e; rfl
  | .ret a :: ps, rs, e => by
    simp only [ends, Option.map_eq_some_iff] at e
    obtain ⟨rs', e', rfl⟩ := e
    rw [ends_eq ps rs' e']
    rfl
  | .panic :: ps, rs, e => by simp [ends] at e
  | .abort :: ps, rs, e => by simp [ends] at e
  | .ub :: ps, rs, e => by simp [ends] at e
  | .alloc _ _ :: ps, rs, e => by simp [ends] at e
  | .dealloc _ _ _ :: ps, rs, e => by simp [ends] at e
  | .realloc _ _ _ _ :: ps, rs, e => by simp [ends] at e
  | .load _ _ _ _ :: ps, rs, e => by simp [ends] at e
  | .store _ _ _ _ :: ps, rs, e => by simp [ends] at e

theorem ends_all {α : Type} {s : List (Prog α) × Heap} {rs : List α} (e : ends s.1 = some rs) : s = (rs.map .ret, s.2) := by
  rw [← ends_eq _ _ e]

/-- One operation, when it succeeds. -/
def outOf (o : Out (List (Obj little))) : List (Obj little) × Heap :=
  match o with
  | .ok objs h => (objs, h)
  | _ => ([], noHeap)

theorem outOf_step {objs : List (Obj little)} {h : Heap} {abs : List AObj} {op : BufOp} (hh : Forked little littleP ownerLE .debug bump noHeap objs h abs)
    (ha : Allowed objs h abs op) (hok : (match Spec.step .debug bump objs op h with | .ok _ _ => true | _ => false) = true) :
    Forked little littleP ownerLE .debug bump noHeap (outOf (Spec.step .debug bump objs op h)).1 (outOf (Spec.step .debug bump objs op h)).2
      (absStep abs op) := by
  cases e : Spec.step .debug bump objs op h <;> rw [e] at hok
  · exact .step hh ha e
  all_goals simp at hok

/-- The two objects. -/
def twoReal : List (Obj little) × Heap :=
  let s := outOf (Spec.step .debug bump [] (.fromSlice thirty) noHeap)
  outOf (Spec.step .debug bump s.1 (.fromSlice [5]) s.2)

theorem two_ends : ∃ objs h, Forked little littleP ownerLE .debug bump noHeap objs h twoObjects ∧
    (ends (turns bump ((List.range 40).map (· % 2)) (fork (I := little) littleP .debug twoOwners twoThreads objs, h)).1).isSome = true :=
  ⟨twoReal.1, twoReal.2, outOf_step (outOf_step .start (by change _ ≤ _; decide) (by decide +kernel)) (by change _ ≤ _; decide) (by decide +kernel),
    by decide +kernel⟩

/-- The two threads, turn by turn for 40 turns, and then joined: what is there, and whose the blocks are. -/
example : ∃ objs h, Forked little littleP ownerLE .debug bump noHeap objs h
      (give twoOwners none .gone twoObjects ++ (twoThreads.mapIdx fun t c => (idealOf twoOwners twoObjects t c).2).flatten) ∧
    AsSpecified little objs h
      (give twoOwners none .gone twoObjects ++ (twoThreads.mapIdx fun t c => (idealOf twoOwners twoObjects t c).2).flatten) ∧
    BlocksOwned little ownerLE noHeap objs h := by
  obtain ⟨objs, h, s2, hok⟩ := two_ends
  have hk := (C98_rules .debug bump bump_valid noHeap _ _ twoOwners twoThreads two_given two_easy).1 _ s2
  obtain ⟨rs, e⟩ := Option.isSome_iff_exists.mp hok
  have s3 := Forked.join s2 hk (ends_all e)
  exact ⟨_, _, s3, (C98_join .debug bump bump_valid noHeap _ _).1 _ s3, (C98_blocks .debug bump bump_valid noHeap _ _).1 _ s3⟩

end Bsn1
