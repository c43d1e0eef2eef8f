import Verif.Props.Decode
import Verif.Lemmas.Same
/-!
# C58, C59, C63: collections
-/

namespace Bsn1
open Spec

variable {α β γ : Type}

/-! ### C63 -/

/-- The values that an implementation gives for DER values. -/
def DerDec (d : De α) (id b : Bytes) (x : α) : Prop := d.fromDer id b = .ok x

/-- The values that an implementation gives for BER values. -/
def BerDec (d : De α) (id : Bytes) (indef : Bool) (raw : Bytes) (x : α) : Prop :=
  d.fromBer id (lenOf indef raw) raw = .ok x

/-- C63, DER: for all implementations of the element types.  The contents are a concatenation of values, each of which
decodes; the result has exactly these elements. -/
theorem C63_der_collections (m : Build) (d : De α) (dv : De β) (cmp : α → α → Ordering) [Std.TransCmp cmp]
    [Std.LawfulEqCmp cmp] [DecidableEq α] (os : List α → List α) (om : List (α × β) → List (α × β)) (id c : Bytes) :
    (∀ v, (De.vec m d).fromDer id c = .ok v ↔ id = [0x30] ∧ DerElems (DerDec d) c v) ∧
    (∀ v, (De.linkedList m d).fromDer id c = .ok v ↔ id = [0x30] ∧ DerElems (DerDec d) c v) ∧
    (∀ v, (De.vecDeque m d).fromDer id c = .ok v ↔ id = [0x30] ∧ DerElems (DerDec d) c v) ∧
    (∀ v, (De.btreeSet m cmp d).fromDer id c = .ok v ↔ id = [0x30] ∧ ∃ l, DerElems (DerDec d) c l ∧ SetOf cmp l v) ∧
    (∀ v, (De.btreeMap m cmp d dv).fromDer id c = .ok v ↔
      id = [0x30] ∧ ∃ l, DerElems (DerPair (DerDec d) (DerDec dv)) c l ∧ MapOf cmp l v) ∧
    (∀ v, (De.hashSet m os d).fromDer id c = .ok v ↔ id = [0x31] ∧ ∃ l, DerElems (DerDec d) c l ∧ v = os (firsts l)) ∧
    (∀ v, (De.hashMap m om d dv).fromDer id c = .ok v ↔
      id = [0x31] ∧ ∃ l u, DerElems (DerPair (DerDec d) (DerDec dv)) c l ∧ HashMapOf l u ∧ v = om u) := by
  refine ⟨fun v => ?_, fun v => ?_, fun v => ?_, fun v => ?_, fun v => ?_, fun v => ?_, fun v => ?_⟩
  · rw [De.vec, guard_ok, not_not, fromDer_list]; rfl
  · rw [De.linkedList, guard_ok, not_not, fromDer_list]; rfl
  · rw [De.vecDeque, guard_ok, not_not, fromDer_list]; rfl
  · rw [De.btreeSet, guard_ok, not_not, fromDer_fold]; simp only [setOf_iff]; rfl
  · rw [De.btreeMap, guard_ok, not_not, fromDer_foldPairs]; simp only [mapOf_iff]; rfl
  · simp only [De.hashSet]
    rw [guard_ok, not_not, map_ok]
    simp only [fromDer_fold, foldl_hashInsert]
    refine and_congr Iff.rfl ⟨?_, ?_⟩
    · rintro ⟨_, ⟨l, h, rfl⟩, h'⟩; exact ⟨l, h, h'⟩
    · rintro ⟨l, h, h'⟩; exact ⟨_, ⟨l, h, rfl⟩, h'⟩
  · simp only [De.hashMap]
    rw [guard_ok, not_not, map_ok]
    simp only [fromDer_foldPairs, hashMapOf_iff]
    refine and_congr Iff.rfl ⟨?_, ?_⟩
    · rintro ⟨u, ⟨l, h, k⟩, h'⟩; exact ⟨l, u, h, k, h'⟩
    · rintro ⟨l, u, h, k, h'⟩; exact ⟨_, ⟨l, h, k⟩, h'⟩

example (m : Build) : (De.vec m (De.int m .u8)).fromDer [0x30] [0x02, 0x01, 0x05, 0x02, 0x01, 0x07] = .ok [5, 7] :=
  have hid : IsId [0x02] := ⟨0, 0, 2, by decide, by decide, by decide +kernel⟩
  ((C63_der_collections m (De.int m .u8) (De.bool m) compare (fun l => l) (fun l => l) [0x30] _).1 [5, 7]).mpr
    ⟨rfl, .cons [0x02] [0x05] _ _ _ hid (by decide) (by unfold DerDec; cases m <;> decide +kernel)
      (.cons [0x02] [0x07] [] _ _ hid (by decide) (by unfold DerDec; cases m <;> decide +kernel) .nil)⟩

/-- C63, BER, for values of either form that fit in memory. -/
theorem C63_ber_collections (m : Build) (d : De α) (dv : De β) (cmp : α → α → Ordering) [Std.TransCmp cmp]
    [Std.LawfulEqCmp cmp] [DecidableEq α] (os : List α → List α) (om : List (α × β) → List (α × β)) (id : Bytes)
    (indef : Bool) (raw c : Bytes) (hb : IsBody indef raw c) (hl : raw.length ≤ isizeMax) :
    (∀ v, (De.vec m d).fromBer id (lenOf indef raw) raw = .ok v ↔ id = [0x30] ∧ BerElems (BerDec d) c v) ∧
    (∀ v, (De.linkedList m d).fromBer id (lenOf indef raw) raw = .ok v ↔ id = [0x30] ∧ BerElems (BerDec d) c v) ∧
    (∀ v, (De.vecDeque m d).fromBer id (lenOf indef raw) raw = .ok v ↔ id = [0x30] ∧ BerElems (BerDec d) c v) ∧
    (∀ v, (De.btreeSet m cmp d).fromBer id (lenOf indef raw) raw = .ok v ↔
      id = [0x30] ∧ ∃ l, BerElems (BerDec d) c l ∧ SetOf cmp l v) ∧
    (∀ v, (De.btreeMap m cmp d dv).fromBer id (lenOf indef raw) raw = .ok v ↔
      id = [0x30] ∧ ∃ l, BerElems (BerPair (BerDec d) (BerDec dv)) c l ∧ MapOf cmp l v) ∧
    (∀ v, (De.hashSet m os d).fromBer id (lenOf indef raw) raw = .ok v ↔
      id = [0x31] ∧ ∃ l, BerElems (BerDec d) c l ∧ v = os (firsts l)) ∧
    (∀ v, (De.hashMap m om d dv).fromBer id (lenOf indef raw) raw = .ok v ↔
      id = [0x31] ∧ ∃ l u, BerElems (BerPair (BerDec d) (BerDec dv)) c l ∧ HashMapOf l u ∧ v = om u) := by
  have hc := Nat.le_trans (isBody_length hb) hl
  have e := (excludeEoc_iff m indef raw c).mpr hb
  refine ⟨fun v => ?_, fun v => ?_, fun v => ?_, fun v => ?_, fun v => ?_, fun v => ?_, fun v => ?_⟩
  · simp only [De.vec, e, Res.bind_ok]; rw [guard_ok, not_not, fromBer_list d c hc]; rfl
  · simp only [De.linkedList, e, Res.bind_ok]; rw [guard_ok, not_not, fromBer_list d c hc]; rfl
  · simp only [De.vecDeque, e, Res.bind_ok]; rw [guard_ok, not_not, fromBer_list d c hc]; rfl
  · simp only [De.btreeSet, e, Res.bind_ok]; rw [guard_ok, not_not, fromBer_fold d _ c hc]; simp only [setOf_iff]; rfl
  · simp only [De.btreeMap, e, Res.bind_ok]; rw [guard_ok, not_not, fromBer_foldPairs d dv _ c hc]; simp only [mapOf_iff]; rfl
  · simp only [De.hashSet, e, Res.bind_ok]
    rw [guard_ok, not_not, map_ok]
    simp only [fromBer_fold d _ c hc, foldl_hashInsert]
    refine and_congr Iff.rfl ⟨?_, ?_⟩
    · rintro ⟨_, ⟨l, h, rfl⟩, h'⟩; exact ⟨l, h, h'⟩
    · rintro ⟨l, h, h'⟩; exact ⟨_, ⟨l, h, rfl⟩, h'⟩
  · simp only [De.hashMap, e, Res.bind_ok]
    rw [guard_ok, not_not, map_ok]
    simp only [fromBer_foldPairs d dv _ c hc, hashMapOf_iff]
    refine and_congr Iff.rfl ⟨?_, ?_⟩
    · rintro ⟨u, ⟨l, h, k⟩, h'⟩; exact ⟨l, u, h, k, h'⟩
    · rintro ⟨l, u, h, k, h'⟩; exact ⟨_, ⟨l, h, k⟩, h'⟩

example (m : Build) : (De.vec m (De.bool m)).fromBer [0x30] .indefinite [0x01, 0x01, 0x07, 0x00, 0x00] = .ok [true] :=
  have hid : IsId [0x01] := ⟨0, 0, 1, by decide, by decide, by decide +kernel⟩
  ((C63_ber_collections m (De.bool m) (De.bool m) compare (fun l => l) (fun l => l) [0x30] true [0x01, 0x01, 0x07, 0x00, 0x00]
    [0x01, 0x01, 0x07] rfl (by decide)).1
    [true]).mpr ⟨rfl, .cons [0x01, 0x01, 0x07] [0x01] false [0x07] [] _ _ ⟨hid, by decide, by decide +kernel⟩
      (by unfold BerDec; cases m <;> decide +kernel) .nil⟩

/-- If the loop gets to contents on which `next` fails, it fails with this error. -/
theorem collect_err {next : Bytes → Res (Option (α × Bytes))} {n : Nat} (hn : Consumes n next) (insert : γ → α → γ)
    {e : Error} {c2 : Bytes} (he : next c2 = .err e) {R : Bytes → Bytes → α → Prop} :
    ∀ {c1 : Bytes} {l : List α}, DerElems R c1 l →
      (∀ id b c x, IsId id → b.length < 2 ^ 64 → R id b x → next (tlv id b ++ c) = .ok (some (x, c))) →
      ∀ (f : Nat) (ret : γ), (c1 ++ c2).length ≤ n → (c1 ++ c2).length < f →
        collectLoop next insert f (c1 ++ c2) ret = .err e := by
  intro c1 l h hstep
  induction h with
  | nil =>
    intro f ret _ hf
    cases f with
    | zero => omega
    | succ f => rw [collectLoop, List.nil_append, he]; rfl
  | cons id b c x xs h1 h2 h3 _ ih =>
    intro f ret hl hf
    cases f with
    | zero => omega
    | succ f =>
      have hs := hstep id b (c ++ c2) x h1 h2 h3
      have hlt := hn _ _ _ (by rw [← List.append_assoc]; exact hl) hs
      rw [List.append_assoc] at hl hf ⊢
      rw [collectLoop, hs, Res.bind_ok]
      exact ih f _ (by omega) (by omega)

/-- C63, errors: the first element that does not decode determines the error, whatever follows; so does the first
octets that are not a DER value. -/
theorem C63_first_error (m : Build) (d : De α) (cmp : α → α → Ordering) [DecidableEq α] (os : List α → List α)
    (c1 c2 : Bytes) (l : List α) (h1 : DerElems (DerDec d) c1 l) (e : Error)
    (h2 : (∃ id b rest, IsId id ∧ b.length < 2 ^ 64 ∧ c2 = tlv id b ++ rest ∧ d.fromDer id b = .err e) ∨
      c2 ≠ [] ∧ (DerRef.parse c2).1 = .err e) :
    (De.vec m d).fromDer [0x30] (c1 ++ c2) = .err e.context ∧
    (De.linkedList m d).fromDer [0x30] (c1 ++ c2) = .err e.context ∧
    (De.vecDeque m d).fromDer [0x30] (c1 ++ c2) = .err e.context ∧
    (De.btreeSet m cmp d).fromDer [0x30] (c1 ++ c2) = .err e.context ∧
    (De.hashSet m os d).fromDer [0x31] (c1 ++ c2) = .err e.context := by
  have he : derToVal d c2 = .err e.context := by
    rcases h2 with ⟨id, b, rest, k1, k2, rfl, k3⟩ | ⟨k1, k2⟩
    · rw [derToVal, tlv_nonempty k1, if_neg (by simp), DerRef_parse_tlv k1 k2]
      simp only [mapErrContext, Res.bind_ok]
      rw [show DerRef.disassemble (tlv id b) = _ from disassemble_tlv k1 k2, Res.bind_ok]
      simp only [k3, mapErrContext]
      rfl
    · rw [derToVal, if_neg (by simpa using k1)]
      rcases hx : DerRef.parse c2 with ⟨r, s⟩
      rw [hx] at k2
      cases k2
      rfl
  have hstep : ∀ id b c x, IsId id → b.length < 2 ^ 64 → DerDec d id b x → derToVal d (tlv id b ++ c) = .ok (some (x, c)) :=
    fun id b c x k1 k2 k3 => (derToVal_some d _ x c).mpr ⟨id, b, k1, k2, k3, rfl⟩
  have key : ∀ {γ : Type} (insert : γ → α → γ) (ret : γ), collect (derToVal d) insert (c1 ++ c2) ret = .err e.context :=
    fun insert ret => collect_err (derToVal_consumes (c1 ++ c2).length d) insert he h1 hstep _ _ (Nat.le_refl _) (by omega)
  refine ⟨?_, ?_, ?_, ?_, ?_⟩
  · simp only [De.vec, key]; rfl
  · simp only [De.linkedList, key]; rfl
  · simp only [De.vecDeque, key]; rfl
  · simp only [De.btreeSet, key]; rfl
  · simp only [De.hashSet, key]; rfl

/-- Two integers in one sequence; with a third that is cut off decoding fails. -/
example (m : Build) : (De.vec m (De.int m .u8)).fromDer [0x30] [0x02, 0x01, 0x05, 0x02, 0x01, 0x07] = .ok [5, 7] ∧
    (De.vec m (De.int m .u8)).fromDer [0x30] [0x02, 0x01, 0x05, 0x02, 0x01, 0x07, 0x02] = .err Error.unterminatedBytes.context := by
  cases m <;> decide +kernel

/-! ### C59 -/

/-- C59.  `from_der` and `from_ber` of a `BTreeSet` give the ascending list of the decoded elements without duplicates;
of a `BTreeMap` for each key the last value. -/
theorem C59_btree_decode (m : Build) (d : De α) (dv : De β) (cmp : α → α → Ordering) [Std.TransCmp cmp]
    [Std.LawfulEqCmp cmp] (id c : Bytes) :
    (∀ l, DerElems (DerDec d) c l → ∃ v, (De.btreeSet m cmp d).fromDer [0x30] c = .ok v ∧
      v.Pairwise (fun x y => cmp x y = .lt) ∧ ∀ x, x ∈ v ↔ x ∈ l) ∧
    (∀ l, DerElems (DerPair (DerDec d) (DerDec dv)) c l → ∃ v, (De.btreeMap m cmp d dv).fromDer [0x30] c = .ok v ∧
      v.Pairwise (fun x y => cmp x.1 y.1 = .lt) ∧ ∀ k y, (k, y) ∈ v ↔ LastEntry k y l) ∧
    (∀ v, (De.btreeSet m cmp d).fromDer id c = .ok v → v.Pairwise (fun x y => cmp x y = .lt)) ∧
    (∀ v, (De.btreeMap m cmp d dv).fromDer id c = .ok v → v.Pairwise (fun x y => cmp x.1 y.1 = .lt)) := by
  refine ⟨fun l h => ?_, fun l h => ?_, fun v h => ?_, fun v h => ?_⟩
  · refine ⟨l.foldl (fun ret t => btreeInsert cmp t ret) [], ?_, ((setOf_iff l _).mp rfl).1, ((setOf_iff l _).mp rfl).2⟩
    rw [De.btreeSet, guard_ok, not_not, fromDer_fold]
    exact ⟨rfl, l, h, rfl⟩
  · refine ⟨l.foldl (fun ret kv => btreeMapInsert cmp kv.1 kv.2 ret) [], ?_, (foldl_btreeMapInsert l).1,
      (foldl_btreeMapInsert l).2⟩
    rw [De.btreeMap, guard_ok, not_not, fromDer_foldPairs]
    exact ⟨rfl, l, h, rfl⟩
  · rw [De.btreeSet, guard_ok, fromDer_fold] at h
    obtain ⟨_, l, _, rfl⟩ := h
    exact ((setOf_iff l _).mp rfl).1
  · rw [De.btreeMap, guard_ok, fromDer_foldPairs] at h
    obtain ⟨_, l, _, rfl⟩ := h
    exact (foldl_btreeMapInsert l).1

example (m : Build) : ∃ v, (De.btreeSet m compare (De.int m .u8)).fromDer [0x30] [0x02, 0x01, 0x07, 0x02, 0x01, 0x05] = .ok v ∧
    v.Pairwise (fun x y => compare x y = .lt) ∧ ∀ x, x ∈ v ↔ x ∈ [7, 5] :=
  have hid : IsId [0x02] := ⟨0, 0, 2, by decide, by decide, by decide +kernel⟩
  (C59_btree_decode m (De.int m .u8) (De.bool m) compare [0x30] _).1 [7, 5]
    (.cons [0x02] [0x07] _ _ _ hid (by decide) (by unfold DerDec; cases m <;> decide +kernel)
      (.cons [0x02] [0x05] [] _ _ hid (by decide) (by unfold DerDec; cases m <;> decide +kernel) .nil))

/-- C59, BER. -/
theorem C59_btree_decode_ber (m : Build) (d : De α) (dv : De β) (cmp : α → α → Ordering) [Std.TransCmp cmp]
    [Std.LawfulEqCmp cmp] (id : Bytes) (indef : Bool) (raw : Bytes) (hl : raw.length ≤ isizeMax) :
    (∀ v, (De.btreeSet m cmp d).fromBer id (lenOf indef raw) raw = .ok v →
      ∃ c l, IsBody indef raw c ∧ BerElems (BerDec d) c l ∧ SetOf cmp l v) ∧
    (∀ v, (De.btreeMap m cmp d dv).fromBer id (lenOf indef raw) raw = .ok v →
      ∃ c l, IsBody indef raw c ∧ BerElems (BerPair (BerDec d) (BerDec dv)) c l ∧ MapOf cmp l v) := by
  constructor
  · intro v h
    rw [De.btreeSet, guard_ok, body_bind] at h
    obtain ⟨_, c, hb, h⟩ := h
    rw [fromBer_fold d _ c (Nat.le_trans (isBody_length hb) hl)] at h
    obtain ⟨l, h1, rfl⟩ := h
    exact ⟨c, l, hb, h1, (setOf_iff l _).mp rfl⟩
  · intro v h
    rw [De.btreeMap, guard_ok, body_bind] at h
    obtain ⟨_, c, hb, h⟩ := h
    rw [fromBer_foldPairs d dv _ c (Nat.le_trans (isBody_length hb) hl)] at h
    obtain ⟨l, h1, rfl⟩ := h
    exact ⟨c, l, hb, h1, foldl_btreeMapInsert l⟩

example (m : Build) : ∃ c l, IsBody true [0x02, 0x01, 0x07, 0x02, 0x01, 0x05, 0x00, 0x00] c ∧ BerElems (BerDec (De.int m .u8)) c l ∧
    SetOf compare l [5, 7] :=
  (C59_btree_decode_ber m (De.int m .u8) (De.bool m) compare [0x30] true _ (by decide)).1 [5, 7] (by cases m <;> decide +kernel)

/-- C59, stability, for any type that is restored exactly (in particular `BTreeSet` and `BTreeMap` of such types):
decoding, encoding and decoding gives the value decoded first. -/
theorem C59_reencode_stable (m m' m'' : Build) (o o' : HashOrder) (t : Ty α) (hs : t.serializable) (hd : t.deserializable)
    (hr : t.restorable) (he : t.exact) (hw : t.wellTyped) (p : Bytes) (hp : IsBer p) (hl : p.length ≤ isizeMax) (v : α)
    (h : fromDer (Ty.de m o t) p = .ok v ∧ IsDer p ∨ fromBer (Ty.de m o t) p = .ok v) (hc : t.convertible v)
    (hfit : (t.der v).length ≤ isizeMax) :
    (toDer m' (Ty.ser m' t) v >>= fun p => fromDer (Ty.de m'' o' t) p) = .ok v := by
  refine C43_der_round_trip_exact m' m'' o' t hs hd hr he v ?_ hc hfit
  rcases h with ⟨h, hp'⟩ | h
  · obtain ⟨id, b, h1, h2, rfl⟩ := hp'
    rw [fromDer_tlv _ h1 h2, Ty.fromDer_iff m o t hd] at h
    exact Ty.berVal_ok true o t hw id false b v (Ty.derVal_berVal true _ t id b v h)
  · obtain ⟨id, indef, raw, hb⟩ := isBer_berValue hp
    have := berValue_length hb
    rw [fromBer_value _ hb, Ty.fromBer_iff m o t hd _ _ _ _ (by omega)] at h
    exact Ty.berVal_ok _ o t hw id indef raw v h

/-- Elements out of order and twice, a key twice. -/
example (m : Build) (o : HashOrder) :
    fromDer (Ty.de m o (.btreeSet compare inferInstance inferInstance (.int .u8)))
      [0x30, 0x09, 0x02, 0x01, 0x07, 0x02, 0x01, 0x05, 0x02, 0x01, 0x07] = .ok [5, 7] ∧
    fromDer (Ty.de m o (.btreeMap compare inferInstance inferInstance (.int .u8) .bool))
      [0x30, 0x10, 0x30, 0x06, 0x02, 0x01, 0x07, 0x01, 0x01, 0x00, 0x30, 0x06, 0x02, 0x01, 0x07, 0x01, 0x01, 0xff] =
        .ok [(7, true)] := by
  constructor
  · change fromDer (De.btreeSet m compare (De.int m .u8)) _ = _
    cases m <;> decide +kernel
  · change fromDer (De.btreeMap m compare (De.int m .u8) (De.bool m)) _ = _
    cases m <;> decide +kernel

example : (Ty.btreeMap compare inferInstance inferInstance (.int .u8) (.btreeSet compare inferInstance inferInstance (.int .i32))).exact ∧
    (Ty.btreeMap compare inferInstance inferInstance (.int .u8) (.btreeSet compare inferInstance inferInstance (.int .i32))).restorable ∧
    (Ty.btreeMap compare inferInstance inferInstance (.int .u8) (.btreeSet compare inferInstance inferInstance (.int .i32))).wellTyped :=
  ⟨⟨trivial, trivial⟩, ⟨trivial, ⟨trivial, fun _ _ _ h => h⟩, fun _ _ _ h => h⟩, trivial, trivial⟩

/-! ### C58 -/

/-- C58, the part that holds (missing: hashed collections, see `C58_hash_order_violated`): values that are the same to the
user have the same DER octets, in all builds.  Sets and maps are the same if they have the same elements. -/
theorem C58_same_encoding_partial (m m' : Build) (t : Ty α) (hs : t.serializable) (ht : t.hashFree) (v w : α) (hv : t.ok v)
    (hw : t.ok w) (hsame : t.same v w) (hfit : (t.der v).length ≤ isizeMax) :
    toDer m (Ty.ser m t) v = toDer m' (Ty.ser m' t) w := by
  have e : t.der v = t.der w := congrArg tlvOf (Ty.same_enc t ht v w hv hw hsame)
  rw [(C41_to_der m t hs v hv hfit).1, (C41_to_der m' t hs w hw (e ▸ hfit)).1, e]

example (m m' : Build) : toDer m (Ty.ser m (.struct [0x30] (.plain (.int .u8) (.skip (0 : Nat) .nil)))) (5, 1, ()) =
    toDer m' (Ty.ser m' (.struct [0x30] (.plain (.int .u8) (.skip (0 : Nat) .nil)))) (5, 2, ()) :=
  C58_same_encoding_partial m m' (.struct [0x30] (.plain (.int .u8) (.skip (0 : Nat) .nil)))
    (by simp [Ty.serializable, Fields.serializable, isId_sequence]) (by simp [Ty.hashFree, Fields.hashFree]) _ _
    (by simp [Ty.ok, Fields.ok, IntTy.InRange, IntTy.minVal, IntTy.maxVal, IntTy.signed, IntTy.size])
    (by simp [Ty.ok, Fields.ok, IntTy.InRange, IntTy.minVal, IntTy.maxVal, IntTy.signed, IntTy.size]) (by simp [Ty.same, Fields.same]) (by decide +kernel)

/-- C58 for ordered collections: however two sets were built, if they have the same elements they have the same
encoding.  `ins` and `ins'` are the elements in order of insertion. -/
theorem C58_btree_insertion_order (m : Build) (cmp : α → α → Ordering) (h1 : Std.TransCmp cmp) (h2 : Std.LawfulEqCmp cmp)
    (t : Ty α) (ins ins' : List α) (h : ∀ x, x ∈ ins ↔ x ∈ ins') :
    toDer m (Ty.ser m (.btreeSet cmp h1 h2 t)) (ins.foldl (fun s x => btreeInsert cmp x s) []) =
      toDer m (Ty.ser m (.btreeSet cmp h1 h2 t)) (ins'.foldl (fun s x => btreeInsert cmp x s) []) := by
  have k := (setOf_iff (cmp := cmp) ins _).mp rfl
  have k' := (setOf_iff (cmp := cmp) ins' _).mp rfl
  congr 1
  exact sorted_unique (cmp := cmp) (fun x => x) k.1 k'.1 fun x => by rw [k.2, k'.2, h]

example (m : Build) : toDer m (Ty.ser m (.btreeSet compare inferInstance inferInstance (.int .u8)))
      (([7, 5, 7] : List Int).foldl (fun s x => btreeInsert compare x s) []) =
    toDer m (Ty.ser m (.btreeSet compare inferInstance inferInstance (.int .u8)))
      (([5, 7] : List Int).foldl (fun s x => btreeInsert compare x s) []) :=
  C58_btree_insertion_order m compare inferInstance inferInstance (.int .u8) [7, 5, 7] [5, 7] (by simp; try omega)

/-- C58, negation: a `HashSet` is written in the order of iteration, so equal sets may have different DER octets. -/
theorem C58_hash_order_violated (m : Build) :
    (Ty.hashSet inferInstance (.int .u8)).ok [1, 2] ∧ (Ty.hashSet inferInstance (.int .u8)).ok [2, 1] ∧
    (Ty.hashSet inferInstance (.int .u8)).same [1, 2] [2, 1] ∧
    toDer m (Ty.ser m (.hashSet inferInstance (.int .u8))) [1, 2] = .ok [0x31, 0x06, 0x02, 0x01, 0x01, 0x02, 0x01, 0x02] ∧
    toDer m (Ty.ser m (.hashSet inferInstance (.int .u8))) [2, 1] = .ok [0x31, 0x06, 0x02, 0x01, 0x02, 0x02, 0x01, 0x01] := by
  have ok : ∀ l : List Int, l.Nodup → (∀ x ∈ l, IntTy.u8.InRange x) → (Ty.hashSet inferInstance (.int .u8)).ok l :=
    fun l h1 h2 => ⟨h1, h2⟩
  have hs : (Ty.hashSet (α := Int) inferInstance (.int .u8)).serializable := trivial
  have o1 := ok [1, 2] (by decide) (by decide)
  have o2 := ok [2, 1] (by decide) (by decide)
  have d1 : (Ty.hashSet inferInstance (.int .u8)).der [1, 2] = [0x31, 0x06, 0x02, 0x01, 0x01, 0x02, 0x01, 0x02] := by
    change tlv [0x31] ([1, 2].flatMap fun x => tlv [0x02] (intOctets x)) = _
    decide +kernel
  have d2 : (Ty.hashSet inferInstance (.int .u8)).der [2, 1] = [0x31, 0x06, 0x02, 0x01, 0x02, 0x02, 0x01, 0x01] := by
    change tlv [0x31] ([2, 1].flatMap fun x => tlv [0x02] (intOctets x)) = _
    decide +kernel
  refine ⟨o1, o2, fun x => by simp [or_comm], ?_, ?_⟩
  · rw [← d1]; exact (C41_to_der m _ hs _ o1 (by rw [d1]; decide)).1
  · rw [← d2]; exact (C41_to_der m _ hs _ o2 (by rw [d2]; decide)).1

/-- Values that differ in a skipped field. -/
example : (Ty.struct [0x30] (.plain (.int .u8) (.skip (0 : Nat) .nil))).same (5, 1, ()) (5, 2, ()) ∧
    (Ty.struct [0x30] (.plain (.int .u8) (.skip (0 : Nat) .nil))).hashFree :=
  ⟨⟨rfl, trivial⟩, trivial, trivial⟩

end Bsn1
