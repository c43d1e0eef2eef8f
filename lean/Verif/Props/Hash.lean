import Verif.Model.Hash
import Verif.Props.Buffer
import Verif.Props.Compare
/-!
# C85: equality, order and hash do not depend on how a value is stored
-/

namespace Bsn1
open Buf Spec

/-- In the program, the object `i` is the buffer `b`; with ordinary vectors it would be one with the octets `a`. -/
def HoldsOctets {I : Impl} (objs : List (Obj I)) (abs : List AObj) (i : Nat) (b : I.B) (a : Bytes) : Prop :=
  objs[i]? = some (.buf b) ∧ ∃ v, abs[i]? = some (.buf v) ∧ v.contents = a.map some

namespace Buf

variable {I : Impl} {Rep : I.B → Heap → List Cell → Nat → Option Nat → Prop} {h0 h : Heap} {objs : List (Obj I)}
  {abs : List AObj} {m : Build} {al : Allocator}

theorem asSlice_of_history (hc : Correct I Rep) (hv : al.Valid) (hh : History I m al h0 objs h abs) {i : Nat} {b : I.B} {a : Bytes}
    (e : HoldsOctets objs abs i b a) : I.asSlice b h = .ok a h := by
  obtain ⟨e, v, ea, hva⟩ := e
  obtain ⟨v', ea', -, cs, h1, -, h2⟩ := history_buf hc hv hh e
  rw [ea] at ea'
  cases ea'
  have hcs := h2 (by rw [hva]; simp)
  rw [Impl.asSlice, bind_ok h1, hcs, hva]
  exact assumeInit_ok a h

theorem hash_of (b : I.B) (a : Bytes) (e : I.asSlice b h = .ok a h) : I.hash b h = .ok (sliceHash a) h := by
  rw [Impl.hash, bind_ok e]; rfl

theorem eqSlice_of (b : I.B) (a q : Bytes) (e : I.asSlice b h = .ok a h) : I.eqSlice b q h = .ok (decide (a = q)) h := by
  rw [Impl.eqSlice, bind_ok e]
  show Out.ok (a == q) h = _
  rw [Bool.beq_eq_decide_eq]

theorem eq_of (b b' : I.B) (a a' : Bytes) (e : I.asSlice b h = .ok a h) (e' : I.asSlice b' h = .ok a' h) :
    I.eq b b' h = .ok (decide (a = a')) h := by
  rw [Impl.eq, bind_ok e']
  exact eqSlice_of b a a' e

theorem partialCmpSlice_of (b : I.B) (a q : Bytes) (e : I.asSlice b h = .ok a h) :
    I.partialCmpSlice b q h = .ok (some (sliceCmp a q)) h := by
  rw [Impl.partialCmpSlice, bind_ok e]; rfl

theorem cmp_of (b b' : I.B) (a a' : Bytes) (e : I.asSlice b h = .ok a h) (e' : I.asSlice b' h = .ok a' h) :
    I.cmp b b' h = .ok (sliceCmp a a') h := by
  rw [Impl.cmp, bind_ok e, bind_ok e']; rfl

end Buf

/-- What `Hash`, `PartialEq`, `PartialOrd` and `Ord` of owned values should do, from the octets alone: hash as the borrowed form of
the octets does, compare as Lean's lexicographic order of lists. -/
structure AgreesWithOctets (I : Impl) (h : Heap) (b b' : I.B) (a a' q : Bytes) : Prop where
  /-- The same calls as for the borrowed form. -/
  hash : I.hash b h = .ok (sliceHash a) h
  eq : I.eq b b' h = .ok (decide (a = a')) h
  eqRef : I.eqSlice b q h = .ok (decide (a = q)) h
  cmp : ∃ o, I.cmp b b' h = .ok o h ∧ (o = .lt ↔ a < a') ∧ (o = .eq ↔ a = a') ∧ (o = .gt ↔ a' < a)
  partialCmp : ∃ o, I.partialCmpSlice b q h = .ok (some o) h ∧ (o = .lt ↔ a < q) ∧ (o = .eq ↔ a = q) ∧ (o = .gt ↔ q < a)

theorem sliceCmp_lt_iff : ∀ a b : Bytes, sliceCmp a b = .lt ↔ a < b
  | [], [] => by simp [sliceCmp]
  | [], b :: y => by simp [sliceCmp]
  | a :: x, [] => by simp [sliceCmp]
  | a :: x, b :: y => by
    rw [sliceCmp, List.cons_lt_cons_iff]
    rcases Nat.lt_trichotomy a.toNat b.toNat with h | h | h
    · rw [Nat.compare_eq_lt.2 h]
      simp only [true_iff]
      exact .inl (UInt8.lt_iff_toNat_lt.2 h)
    · rw [Nat.compare_eq_eq.2 h]
      simp only
      rw [sliceCmp_lt_iff x y, UInt8.lt_iff_toNat_lt, UInt8.toNat_inj.1 h]
      simp
    · rw [Nat.compare_eq_gt.2 h, UInt8.lt_iff_toNat_lt]
      simp only [reduceCtorEq, false_iff, not_or, Nat.not_lt, not_and]
      refine ⟨Nat.le_of_lt h, fun e => ?_⟩
      rw [e] at h
      exact absurd h (Nat.lt_irrefl _)

theorem sliceCmp_gt_iff (a b : Bytes) : sliceCmp a b = .gt ↔ b < a := by
  rw [← sliceCmp_lt_iff b a, sliceCmp_swap a b]
  cases sliceCmp a b <;> simp [Ordering.swap]

theorem agreesWithOctets {I : Impl} {h : Heap} {b b' : I.B} {a a' : Bytes} (q : Bytes)
    (e : I.asSlice b h = .ok a h) (e' : I.asSlice b' h = .ok a' h) : AgreesWithOctets I h b b' a a' q where
  hash := hash_of b a e
  eq := eq_of b b' a a' e e'
  eqRef := eqSlice_of b a q e
  cmp := ⟨_, cmp_of b b' a a' e e', sliceCmp_lt_iff a a', sliceCmp_eq_iff a a', sliceCmp_gt_iff a a'⟩
  partialCmp := ⟨_, partialCmpSlice_of b a q e, sliceCmp_lt_iff a q, sliceCmp_eq_iff a q, sliceCmp_gt_iff a q⟩

/-- **C85.** However two values got to what they hold, inline or on the heap, with any capacity: they are equal iff their octets are, are
ordered as their octets, and hash as the borrowed form of the same octets. -/
theorem C85_little (m : Build) (al : Allocator) (hv : al.Valid) (h0 : Heap) (objs : List (Obj little)) (h : Heap) (abs : List AObj)
    (hh : History little m al h0 objs h abs) (i j : Nat) (b b' : LE) (a a' q : Bytes) (hi : HoldsOctets objs abs i b a)
    (hj : HoldsOctets objs abs j b' a') : AgreesWithOctets little h b b' a a' q :=
  agreesWithOctets q (asSlice_of_history LE.correct hv hh hi) (asSlice_of_history LE.correct hv hh hj)

/-- **C85.** The same for the other layout. -/
theorem C85_universal (m : Build) (al : Allocator) (hv : al.Valid) (h0 : Heap) (objs : List (Obj universal)) (h : Heap) (abs : List AObj)
    (hh : History universal m al h0 objs h abs) (i j : Nat) (b b' : UE) (a a' q : Bytes) (hi : HoldsOctets objs abs i b a)
    (hj : HoldsOctets objs abs j b' a') : AgreesWithOctets universal h b b' a a' q :=
  agreesWithOctets q (asSlice_of_history UE.correct hv hh hi) (asSlice_of_history UE.correct hv hh hj)

/-- A buffer on the heap, cut to two octets, and an inline buffer with the same octets. -/
example : ∃ objs h abs, History little .debug bump noHeap objs h abs ∧
    ∃ b b', HoldsOctets objs abs 0 b [5, 5] ∧ HoldsOctets objs abs 1 b' [5, 5] ∧ b.isStack = false ∧ b'.isStack = true ∧
      ∀ q, AgreesWithOctets little h b b' [5, 5] [5, 5] q := by
  have s1 : History little .debug bump noHeap _ _ _ := .step (op := .fromSlice octets) .start (by change _ ≤ _; decide) rfl
  have s2 := History.step (op := .write 0 [6]) s1 ⟨_, rfl, by decide⟩ rfl
  have s3 := History.step (op := .setLen 0 2) s2 ⟨_, _, ⟨rfl, rfl⟩, by decide⟩ rfl
  have s4 := History.step (op := .fromSlice [5, 5]) s3 (by change _ ≤ _; decide) rfl
  exact ⟨_, _, _, s4, _, _, ⟨rfl, _, rfl, rfl⟩, ⟨rfl, _, rfl, rfl⟩, rfl, rfl, fun q =>
    C85_little .debug bump bump_valid noHeap _ _ _ s4 0 1 _ _ _ _ q ⟨rfl, _, rfl, rfl⟩ ⟨rfl, _, rfl, rfl⟩⟩

/-- **C85.** Values that are equal hash alike, and octet strings that differ give different calls; so a hasher is never the reason that two
different values collide for sure, nor that two equal ones are told apart. -/
theorem C85_hash_iff (a a' : Bytes) : sliceHash a = sliceHash a' ↔ a = a' := by
  constructor
  · intro h
    simp only [sliceHash, List.cons.injEq, HashCall.write.injEq] at h
    exact h.2.1
  · rintro rfl; rfl

example : sliceHash [1, 2] ≠ sliceHash [1, 2, 0] := fun h => by simpa using (C85_hash_iff _ _).1 h

/-- **C85.** Lengths that are equal hash alike, as `Hash` demands. -/
theorem C85_length_hash (l l' : Length) (h : l.eq l' = true) : l.hash = l'.hash := by
  cases l <;> cases l' <;> simp_all [Length.eq, Length.isDefinite, Length.definite?, Length.hash]

example : (Length.definite 300).eq (.definite 300) = true := rfl

/-- **C85.** Different lengths feed the hasher differently. -/
theorem C85_length_hash_iff (l l' : Length) : l.hash = l'.hash ↔ l = l' := by
  cases l <;> cases l' <;> simp [Length.hash]

example : (Length.definite 300).hash ≠ (Length.definite 301).hash := by decide

/-! ### Hash maps -/

/-- `HashMap::get` of the standard library for a map with these entries, searched with a borrowed key: the first entry whose hash agrees
and whose key is equal.  `hasher` is any function from calls to hashes. -/
def mapGet {I : Impl} {β : Type} (hasher : List HashCall → Nat) (q : Bytes) : List (I.B × β) → M (Option β)
  | [] => pure none
  | (k, v) :: r => do
    let c ← I.hash k
    if hasher c = hasher (sliceHash q) then do
      let e ← I.eqSlice k q
      if e then return some v
      else mapGet hasher q r
    else mapGet hasher q r

theorem mapGet_of {I : Impl} {β : Type} (hasher : List HashCall → Nat) (q : Bytes) (h : Heap) :
    ∀ es : List (I.B × β × Bytes), (∀ e ∈ es, I.asSlice e.1 h = .ok e.2.2 h) →
      mapGet hasher q (es.map fun e => (e.1, e.2.1)) h = .ok ((es.find? fun e => e.2.2 = q).map fun e => e.2.1) h
  | [], _ => rfl
  | (k, v, a) :: r, he => by
    have h1 := he (k, v, a) (by simp)
    have h2 := mapGet_of hasher q h r (fun e hm => he e (by simp [hm]))
    rw [List.map_cons, mapGet, bind_ok (hash_of k a h1)]
    by_cases ha : a = q
    · subst ha
      rw [if_pos rfl, bind_ok (eqSlice_of k a a h1)]
      simp [pure_run]
    · have hf : (List.find? (fun e : I.B × β × Bytes => decide (e.2.2 = q)) ((k, v, a) :: r)) = r.find? fun e => e.2.2 = q := by
        rw [List.find?_cons_of_neg (by simpa using ha)]
      rw [hf, ← h2]
      split
      · rw [bind_ok (eqSlice_of k a q h1)]
        simp [ha]
      · rfl

/-- **C85.** So a `HashMap` with owned keys can be searched with borrowed ones, whatever the hasher: it gives the entry of the key with
these octets, and none if there is no such key. -/
theorem C85_map_get {β : Type} (hasher : List HashCall → Nat) (m : Build) (al : Allocator) (hv : al.Valid) (h0 : Heap)
    (objs : List (Obj little)) (h : Heap) (abs : List AObj) (hh : History little m al h0 objs h abs)
    (es : List (LE × β × Bytes)) (he : ∀ e ∈ es, ∃ i, HoldsOctets objs abs i e.1 e.2.2) (q : Bytes) :
    mapGet (I := little) hasher q (es.map fun e => (e.1, e.2.1)) h = .ok ((es.find? fun e => e.2.2 = q).map fun e => e.2.1) h :=
  mapGet_of (I := little) hasher q h es fun e hm => (he e hm).elim fun _ hi => asSlice_of_history LE.correct hv hh hi

/-- **C85.** The same for the other layout. -/
theorem C85_map_get_universal {β : Type} (hasher : List HashCall → Nat) (m : Build) (al : Allocator) (hv : al.Valid) (h0 : Heap)
    (objs : List (Obj universal)) (h : Heap) (abs : List AObj) (hh : History universal m al h0 objs h abs)
    (es : List (UE × β × Bytes)) (he : ∀ e ∈ es, ∃ i, HoldsOctets objs abs i e.1 e.2.2) (q : Bytes) :
    mapGet (I := universal) hasher q (es.map fun e => (e.1, e.2.1)) h = .ok ((es.find? fun e => e.2.2 = q).map fun e => e.2.1) h :=
  mapGet_of (I := universal) hasher q h es fun e hm => (he e hm).elim fun _ hi => asSlice_of_history UE.correct hv hh hi

/-- A map with two keys, a hasher under which all keys collide, and a key on the heap that is found by an octet string. -/
example : ∃ objs h abs, History little .debug bump noHeap objs h abs ∧
    ∃ b b', HoldsOctets objs abs 0 b [1] ∧ HoldsOctets objs abs 1 b' octets ∧
      mapGet (I := little) (fun _ => 0) octets [(b, "one"), (b', "many")] h = .ok (some "many") h := by
  have s1 : History little .debug bump noHeap _ _ _ := .step (op := .fromSlice [1]) .start (by change _ ≤ _; decide) rfl
  have s2 := History.step (op := .fromSlice octets) s1 (by change _ ≤ _; decide) rfl
  refine ⟨_, _, _, s2, _, _, ⟨rfl, _, rfl, rfl⟩, ⟨rfl, _, rfl, rfl⟩, ?_⟩
  refine C85_map_get (fun _ => 0) .debug bump bump_valid noHeap _ _ _ s2 [(_, "one", [1]), (_, "many", octets)] (fun e he => ?_) octets
  rcases List.mem_cons.mp he with rfl | he
  · exact ⟨0, rfl, _, rfl, rfl⟩
  · cases List.mem_singleton.mp he
    exact ⟨1, rfl, _, rfl, rfl⟩

end Bsn1
