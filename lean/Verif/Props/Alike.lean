import Verif.Lemmas.Alike
import Verif.Props.Alter
/-!
# C127: collections of one kind decode what those of another do

The octets are decoded to one kind of collection or to another, with any implementation of `Deserialize` for the elements, also one that fails or panics as it likes.
-/

namespace Bsn1
open Spec

variable {α β γ : Type}

/-- **C127.** `Vec`, `LinkedList` and `VecDeque` decode the same octets to the same elements in the same order, and fail the same way. -/
theorem C127_lists (m : Build) (d : De α) (id : Bytes) (length : Length) (c : Bytes) :
    EndsAlike (· = ·) ((De.vec m d).fromDer id c) ((De.linkedList m d).fromDer id c) ∧ EndsAlike (· = ·) ((De.vec m d).fromDer id c) ((De.vecDeque m d).fromDer id c) ∧
      EndsAlike (· = ·) ((De.vec m d).fromBer id length c) ((De.linkedList m d).fromBer id length c) ∧
      EndsAlike (· = ·) ((De.vec m d).fromBer id length c) ((De.vecDeque m d).fromBer id length c) := by
  have h : ∀ r : Res (List α), EndsAlike (· = ·) r r := fun r => by
    cases r with
    | ok x => exact .ok _ _ rfl
    | err e => exact .err e
    | panic => exact .panic
    | ub => exact .ub
  exact ⟨h _, h _, h _, h _⟩

/-- **C127.** A `BTreeSet` is decoded where a `Vec` is: it has the elements of the `Vec`, in ascending order and each once; no octets are rejected for their order or a repetition. -/
theorem C127_btree_set (m : Build) (cmp : α → α → Ordering) [Std.TransCmp cmp] [Std.LawfulEqCmp cmp] (d : De α) (id : Bytes) (length : Length) (c : Bytes) :
    EndsAlike (SetOf cmp) ((De.vec m d).fromDer id c) ((De.btreeSet m cmp d).fromDer id c) ∧
      EndsAlike (SetOf cmp) ((De.vec m d).fromBer id length c) ((De.btreeSet m cmp d).fromBer id length c) :=
  ⟨ends_ite Iff.rfl (collect_set _ _), ends_ite Iff.rfl (ends_bind _ fun _ => collect_set _ _)⟩

/-- **C127.** A `HashSet` is decoded from the identifier of SET where a `Vec` is from that of SEQUENCE with the same contents: it has the same elements, each once. -/
theorem C127_hash_set [DecidableEq α] (m : Build) (order : List α → List α) (ho : ∀ l, (order l).Perm l) (d : De α) (length : Length) (c : Bytes) :
    EndsAlike Distinct ((De.vec m d).fromDer [0x30] c) ((De.hashSet m order d).fromDer [0x31] c) ∧
      EndsAlike Distinct ((De.vec m d).fromBer [0x30] length c) ((De.hashSet m order d).fromBer [0x31] length c) :=
  ⟨ends_ite (e := .unmatchedId) (p := ([0x30] : Bytes) ≠ IdRef.sequence) (q := ([0x31] : Bytes) ≠ IdRef.set) (by decide) (collect_hash order ho _ _), ends_ite (e := .unmatchedId) (p := ([0x30] : Bytes) ≠ IdRef.sequence) (q := ([0x31] : Bytes) ≠ IdRef.set) (by decide) (ends_bind _ fun _ => collect_hash order ho _ _)⟩

/-- **C127.** A `HashMap` is decoded from the identifier of SET where a `BTreeMap` is from that of SEQUENCE with the same contents, and they have the same entries. -/
theorem C127_maps [DecidableEq α] (m : Build) (cmp : α → α → Ordering) [Std.TransCmp cmp] [Std.LawfulEqCmp cmp] (order : List (α × β) → List (α × β))
    (ho : ∀ l, (order l).Perm l) (dk : De α) (dv : De β) (length : Length) (c : Bytes) :
    EndsAlike SameEntries ((De.btreeMap m cmp dk dv).fromDer [0x30] c) ((De.hashMap m order dk dv).fromDer [0x31] c) ∧
      EndsAlike SameEntries ((De.btreeMap m cmp dk dv).fromBer [0x30] length c) ((De.hashMap m order dk dv).fromBer [0x31] length c) :=
  ⟨ends_ite (e := .unmatchedId) (p := ([0x30] : Bytes) ≠ IdRef.sequence) (q := ([0x31] : Bytes) ≠ IdRef.set) (by decide) (collect_maps order ho _ _), ends_ite (e := .unmatchedId) (p := ([0x30] : Bytes) ≠ IdRef.sequence) (q := ([0x31] : Bytes) ≠ IdRef.set) (by decide) (ends_bind _ fun _ => collect_maps order ho _ _)⟩

/-- **C127.** Any two implementations of `Deserialize` that end alike for the same identifier, length and contents do so in each of the functions of the crate, which leave the same
octets behind and the reader in the same state. -/
theorem C127_calls (m : Build) {σ : Type} [Reader σ] (R : α → β → Prop) (d : De α) (d' : De β) (hd : ∀ id c, EndsAlike R (d.fromDer id c) (d'.fromDer id c))
    (hb : ∀ id length c, EndsAlike R (d.fromBer id length c) (d'.fromBer id length c)) (buffer : Bytes) (s : σ) :
    (EndsAlike R (parseDer d buffer).1 (parseDer d' buffer).1 ∧ (parseDer d buffer).2 = (parseDer d' buffer).2) ∧
      (EndsAlike R (parseBer d buffer).1 (parseBer d' buffer).1 ∧ (parseBer d buffer).2 = (parseBer d' buffer).2) ∧
      (EndsAlike R (readDer m d s).1 (readDer m d' s).1 ∧ (readDer m d s).2 = (readDer m d' s).2) ∧
      EndsAlike R (readBer m d s).1 (readBer m d' s).1 ∧ (readBer m d s).2 = (readBer m d' s).2 := by
  have h1 : ∀ b, EndsAlike R (fromDer d b) (fromDer d' b) := fun b => ends_bind _ fun ⟨_, _, _⟩ => hd _ _
  have h2 : ∀ b, EndsAlike R (fromBer d b) (fromBer d' b) := fun b => ends_bind _ fun ⟨_, _, _⟩ => hb _ _ _
  refine ⟨?_, ?_, ?_, ?_⟩
  · rw [parseDer, parseDer]
    rcases DerRef.parse buffer with ⟨_ | _ | _ | _, _⟩
    exacts [⟨h1 _, rfl⟩, ⟨.err _, rfl⟩, ⟨.panic, rfl⟩, ⟨.ub, rfl⟩]
  · rw [parseBer, parseBer]
    rcases BerRef.parse buffer with ⟨_ | _ | _ | _, _⟩
    exacts [⟨h2 _, rfl⟩, ⟨.err _, rfl⟩, ⟨.panic, rfl⟩, ⟨.ub, rfl⟩]
  · rw [readDer, readDer]
    rcases Der.parse m s with ⟨_ | _ | _ | _, _⟩
    exacts [⟨h1 _, rfl⟩, ⟨.err _, rfl⟩, ⟨.panic, rfl⟩, ⟨.ub, rfl⟩]
  · rw [readBer, readBer]
    rcases Ber.parse m s with ⟨_ | _ | _ | _, _⟩
    exacts [⟨h2 _, rfl⟩, ⟨.err _, rfl⟩, ⟨.panic, rfl⟩, ⟨.ub, rfl⟩]

/-- **C127.** What holds of collections holds of collections of collections: if two implementations of `Deserialize` end alike, so do those of a `Vec` and of a `BTreeMap` with these
values, and the values in them are related one by one. -/
theorem C127_inside (m : Build) (R : α → β → Prop) (d : De α) (d' : De β) (hd : ∀ id c, EndsAlike R (d.fromDer id c) (d'.fromDer id c))
    (hb : ∀ id length c, EndsAlike R (d.fromBer id length c) (d'.fromBer id length c)) (cmp : γ → γ → Ordering) (dk : De γ) (id : Bytes) (length : Length) (c : Bytes) :
    EndsAlike (List.Forall₂ R) ((De.vec m d).fromDer id c) ((De.vec m d').fromDer id c) ∧
      EndsAlike (List.Forall₂ R) ((De.vec m d).fromBer id length c) ((De.vec m d').fromBer id length c) ∧
      EndsAlike (List.Forall₂ (EntryRel R)) ((De.btreeMap m cmp dk d).fromDer id c) ((De.btreeMap m cmp dk d').fromDer id c) ∧
      EndsAlike (List.Forall₂ (EntryRel R)) ((De.btreeMap m cmp dk d).fromBer id length c) ((De.btreeMap m cmp dk d').fromBer id length c) := by
  have hi : ∀ (r : List (γ × α)) (r' : List (γ × β)) x y, List.Forall₂ (EntryRel R) r r' → EntryRel R x y →
      List.Forall₂ (EntryRel R) (btreeMapInsert cmp x.1 x.2 r) (btreeMapInsert cmp y.1 y.2 r') := fun r r' x y h hxy => by
    rw [← hxy.1]
    exact forall₂_btreeMapInsert cmp h x.1 hxy.2
  exact ⟨ends_ite Iff.rfl (ends_collectLoop (ends_derToVal hd) (fun _ _ _ _ h hxy => forall₂_snoc h hxy) _ _ _ _ .nil),
    ends_ite Iff.rfl (ends_bind _ fun _ => ends_collectLoop (ends_berToVal hb) (fun _ _ _ _ h hxy => forall₂_snoc h hxy) _ _ _ _ .nil),
    ends_ite Iff.rfl (ends_collectLoop (ends_derToKeyVal dk hd) hi _ _ _ _ .nil),
    ends_ite Iff.rfl (ends_bind _ fun _ => ends_collectLoop (ends_berToKeyVal dk hb) hi _ _ _ _ .nil)⟩

theorem ends_ok_right {R : α → β → Prop} {r : Res α} {r' : Res β} (h : EndsAlike R r r') {y : β} (hr : r' = .ok y) : ∃ x, r = .ok x ∧ R x y := by
  subst hr
  cases h with
  | ok x _ h => exact ⟨x, rfl, h⟩

theorem setOf_of_alike {cmp : α → α → Ordering} [Std.TransCmp cmp] [Std.LawfulEqCmp cmp] {r r' : Res (List α)} (h : EndsAlike (SetOf cmp) r r') (w : List α) :
    r' = .ok w ↔ ∃ l, r = .ok l ∧ SetOf cmp l w := by
  constructor
  · exact ends_ok_right h
  · rintro ⟨l, rfl, hw⟩
    cases h with
    | ok _ y hy => rw [(setOf_iff l y).2 hy, (setOf_iff l w).2 hw]

/-- **C127.** If `parse_der` gives a `BTreeSet`, then the octets are those of a list with its elements, and if a part of an element of that list is changed in place to another value,
then `parse_der` gives the set of the elements of the list with that part replaced: an element may move to another place, or fall together with another one.  (C125 does not say this
of sets.) -/
theorem C127_change_der (m : Build) (o : HashOrder) (cmp : α → α → Ordering) (ht : Std.TransCmp cmp) (hc : Std.LawfulEqCmp cmp) (t : Ty α) (hd : t.deserializable)
    (buffer rest : Bytes) (v : List α) (h : parseDer (Ty.de m o (.btreeSet cmp ht hc t)) buffer = (.ok v, rest)) :
    ∃ l, SetOf cmp l v ∧ ∀ (u : Ty β) (y : β) (p : Place) (put : β → List α), Ty.Alter u y p (.vec t) l put →
      ∃ path b, p.Has path ∧ getDer (0 :: path) buffer = .ok b ∧ fromDer (Ty.de m o u) b = .ok y ∧
        ∀ k b', k b = .ok b' → b'.length = b.length → DerRef.parse b' = (.ok b', []) →
          ∃ buffer' r, onDer k (0 :: path) buffer = .ok buffer' ∧ buffer'.length = buffer.length ∧
            parseDer (Ty.de m o (.btreeSet cmp ht hc t)) buffer' = (r, rest) ∧ ∀ w, r = .ok w ↔ ∃ z, fromDer (Ty.de m o u) b' = .ok z ∧ SetOf cmp (put z) w := by
  have hA := fun buffer => (C127_calls m (SetOf cmp) (De.vec m (Ty.de m o t)) (De.btreeSet m cmp (Ty.de m o t)) (fun id c => (C127_btree_set m cmp _ id .indefinite c).1)
    (fun id len c => (C127_btree_set m cmp _ id len c).2) buffer ([] : Bytes)).1
  obtain ⟨l, hl, hlv⟩ := ends_ok_right (hA buffer).1 (y := v) (congrArg Prod.fst h)
  have hr : (parseDer (De.vec m (Ty.de m o t)) buffer).2 = rest := (hA buffer).2.trans (congrArg Prod.snd h)
  refine ⟨l, hlv, fun u y p put hp => ?_⟩
  obtain ⟨path, b, h1, h2, h3, h4⟩ := C125_der m o (.vec t) hd buffer rest l (Prod.ext hl hr) u y p put hp
  refine ⟨path, b, h1, h2, h3, fun k b' hk hlen hb' => ?_⟩
  obtain ⟨buffer', r, e1, e2, e3, e4⟩ := h4 k b' hk hlen hb'
  have e5 : (parseDer (De.vec m (Ty.de m o t)) buffer').2 = rest := congrArg Prod.snd e3
  refine ⟨buffer', _, e1, e2, Prod.ext rfl ((hA buffer').2.symm.trans e5), fun w => ?_⟩
  rw [show (parseDer (Ty.de m o (.btreeSet cmp ht hc t)) buffer').1 = .ok w ↔ _ from setOf_of_alike (hA buffer').1 w]
  rw [show (parseDer (De.vec m (Ty.de m o t)) buffer').1 = r from congrArg Prod.fst e3]
  constructor
  · rintro ⟨l', hl', hw⟩
    obtain ⟨z, hz, rfl⟩ := (e4 l').1 hl'
    exact ⟨z, hz, hw⟩
  · rintro ⟨z, hz, hw⟩
    exact ⟨put z, (e4 _).2 ⟨z, hz, rfl⟩, hw⟩

/-- **C127.** The same for BER, if the changed value does not become an end-of-contents. -/
theorem C127_change_ber (m : Build) (o : HashOrder) (cmp : α → α → Ordering) (ht : Std.TransCmp cmp) (hc : Std.LawfulEqCmp cmp) (t : Ty α) (hd : t.deserializable)
    (buffer rest : Bytes) (hlen : buffer.length ≤ isizeMax) (v : List α) (h : parseBer (Ty.de m o (.btreeSet cmp ht hc t)) buffer = (.ok v, rest)) :
    ∃ l, SetOf cmp l v ∧ ∀ (u : Ty β) (y : β) (p : Place) (put : β → List α), Ty.Alter u y p (.vec t) l put →
      ∃ path b, p.Has path ∧ getBer (0 :: path) buffer = .ok b ∧ fromBer (Ty.de m o u) b = .ok y ∧
        ∀ k b', k b = .ok b' → b'.length = b.length → BerRef.parse b' = (.ok b', []) → (b' = [0x00, 0x00] → b = [0x00, 0x00]) →
          ∃ buffer' r, onBer k (0 :: path) buffer = .ok buffer' ∧ buffer'.length = buffer.length ∧
            parseBer (Ty.de m o (.btreeSet cmp ht hc t)) buffer' = (r, rest) ∧ ∀ w, r = .ok w ↔ ∃ z, fromBer (Ty.de m o u) b' = .ok z ∧ SetOf cmp (put z) w := by
  have hA := fun buffer => (C127_calls m (SetOf cmp) (De.vec m (Ty.de m o t)) (De.btreeSet m cmp (Ty.de m o t)) (fun id c => (C127_btree_set m cmp _ id .indefinite c).1)
    (fun id len c => (C127_btree_set m cmp _ id len c).2) buffer ([] : Bytes)).2.1
  obtain ⟨l, hl, hlv⟩ := ends_ok_right (hA buffer).1 (y := v) (congrArg Prod.fst h)
  have hr : (parseBer (De.vec m (Ty.de m o t)) buffer).2 = rest := (hA buffer).2.trans (congrArg Prod.snd h)
  refine ⟨l, hlv, fun u y p put hp => ?_⟩
  obtain ⟨path, b, h1, h2, h3, h4⟩ := C125_ber m o (.vec t) hd buffer rest hlen l (Prod.ext hl hr) u y p put hp
  refine ⟨path, b, h1, h2, h3, fun k b' hk hlen' hb' he => ?_⟩
  obtain ⟨buffer', r, e1, e2, e3, e4⟩ := h4 k b' hk hlen' hb' he
  have e5 : (parseBer (De.vec m (Ty.de m o t)) buffer').2 = rest := congrArg Prod.snd e3
  refine ⟨buffer', _, e1, e2, Prod.ext rfl ((hA buffer').2.symm.trans e5), fun w => ?_⟩
  rw [show (parseBer (Ty.de m o (.btreeSet cmp ht hc t)) buffer').1 = .ok w ↔ _ from setOf_of_alike (hA buffer').1 w]
  rw [show (parseBer (De.vec m (Ty.de m o t)) buffer').1 = r from congrArg Prod.fst e3]
  constructor
  · rintro ⟨l', hl', hw⟩
    obtain ⟨z, hz, rfl⟩ := (e4 l').1 hl'
    exact ⟨z, hz, hw⟩
  · rintro ⟨z, hz, hw⟩
    exact ⟨put z, (e4 _).2 ⟨z, hz, rfl⟩, hw⟩

/-- **C127.** A program sends a `Vec`; one that receives it as a `BTreeSet` gets the set of its elements, one that receives it as a `VecDeque` the elements as they were, in DER and BER. -/
theorem C127_sent (m m' : Build) (o : HashOrder) (cmp : α → α → Ordering) (ht : Std.TransCmp cmp) (hc : Std.LawfulEqCmp cmp) (t : Ty α) (hs : t.serializable)
    (hd : t.deserializable) (hr : (Ty.vec t).restorable) (he : (Ty.vec t).exact) (l : List α) (hok : (Ty.vec t).ok l) (hv : (Ty.vec t).convertible l)
    (hfit : ((Ty.vec t).der l).length ≤ isizeMax) :
    ∃ d w, toDer m (Ty.ser m (.vec t)) l = .ok d ∧ toBer m (Ty.ser m (.vec t)) l = .ok d ∧ SetOf cmp l w ∧ fromDer (Ty.de m' o (.btreeSet cmp ht hc t)) d = .ok w ∧
      fromBer (Ty.de m' o (.btreeSet cmp ht hc t)) d = .ok w ∧ fromDer (Ty.de m' o (.vecDeque t)) d = .ok l ∧ fromBer (Ty.de m' o (.vecDeque t)) d = .ok l := by
  obtain ⟨h1, h2, -⟩ := C41_to_der m (.vec t) hs l hok hfit
  have h3 := C43_der_round_trip_exact m m' o (.vec t) hs hd hr he l hok hv hfit
  have h4 := C44_ber_round_trip_exact m m' o (.vec t) hs hd hr he l hok hv hfit
  rw [h1, Res.bind_ok] at h3
  rw [h2, Res.bind_ok] at h4
  have h5 : EndsAlike (SetOf cmp) (fromDer (Ty.de m' o (.vec t)) ((Ty.vec t).der l)) (fromDer (Ty.de m' o (.btreeSet cmp ht hc t)) ((Ty.vec t).der l)) :=
    ends_bind _ fun ⟨_, _, _⟩ => (C127_btree_set m' cmp (Ty.de m' o t) _ .indefinite _).1
  have h6 : EndsAlike (SetOf cmp) (fromBer (Ty.de m' o (.vec t)) ((Ty.vec t).der l)) (fromBer (Ty.de m' o (.btreeSet cmp ht hc t)) ((Ty.vec t).der l)) :=
    ends_bind _ fun ⟨_, _, _⟩ => (C127_btree_set m' cmp (Ty.de m' o t) _ _ _).2
  have hw : SetOf cmp l _ := (setOf_iff (cmp := cmp) l _).1 rfl
  exact ⟨_, _, h1, h2, hw, (setOf_of_alike h5 _).2 ⟨l, h3, hw⟩, (setOf_of_alike h6 _).2 ⟨l, h4, hw⟩, h3, h4⟩

/-- **C127.** `Der::new(IdRef::set(), contents)` with the contents of an encoded `Vec` is an encoded `HashSet` of its elements, with those of an encoded `BTreeMap` an encoded `HashMap` with
the same entries; what cannot be decoded before cannot be after, with the same error. -/
theorem C127_renamed {α β δ : Type} [DecidableEq α] [DecidableEq β] (m m' : Build) (junk : Nat → UInt8) (d : De α) (order : List α → List α) (ho : ∀ l, (order l).Perm l)
    (cmp : β → β → Ordering) [Std.TransCmp cmp] [Std.LawfulEqCmp cmp] (dk : De β) (dv : De δ) (order' : List (β × δ) → List (β × δ)) (ho' : ∀ l, (order' l).Perm l)
    (b c : Bytes) (hb : DerRef.parse b = (.ok b, [])) (hl : b.length ≤ isizeMax) (hid : DerRef.id b = .ok [0x30]) (hc : DerRef.contents b = .ok c) :
    ∃ b', Der.new m junk [0x31] c = .ok b' ∧ DerRef.parse b' = (.ok b', []) ∧ EndsAlike Distinct (fromDer (De.vec m' d) b) (fromDer (De.hashSet m' order d) b') ∧
      EndsAlike SameEntries (fromDer (De.btreeMap m' cmp dk dv) b) (fromDer (De.hashMap m' order' dk dv) b') := by
  obtain ⟨id, c', hid', hc', rfl⟩ := parse_der_self.1 hb
  rw [DerRef_id_tlv hid'] at hid
  rw [DerRef_contents_tlv hid' hc'] at hc
  cases hid
  cases hc
  have hi : IsId [0x31] := ⟨0, 1, 17, by decide, by decide, by decide +kernel⟩
  have hfit : (tlv [0x31] c).length ≤ isizeMax := by
    rw [tlv_length] at hl ⊢
    exact hl
  refine ⟨_, Der_new_ok m junk hi c hfit, parse_der_self.2 ⟨_, _, hi, hc', rfl⟩, ?_, ?_⟩
  · rw [fromDer_tlv _ hid' hc', fromDer_tlv _ hi hc']
    exact (C127_hash_set m' order ho d .indefinite c).1
  · rw [fromDer_tlv _ hid' hc', fromDer_tlv _ hi hc']
    exact (C127_maps m' cmp order' ho' dk dv .indefinite c).1

/-! ### Concrete cases -/

/-- The octets of the elements 3, 1, 3: a `Vec` has them all, the sets have 1 and 3. -/
example : (De.vec .debug (De.int .debug .i16)).fromDer [0x30] [0x02, 0x01, 0x03, 0x02, 0x01, 0x01, 0x02, 0x01, 0x03] = .ok [3, 1, 3] ∧
    (De.vecDeque .debug (De.int .debug .i16)).fromDer [0x30] [0x02, 0x01, 0x03, 0x02, 0x01, 0x01, 0x02, 0x01, 0x03] = .ok [3, 1, 3] ∧
    (De.btreeSet .debug compare (De.int .debug .i16)).fromDer [0x30] [0x02, 0x01, 0x03, 0x02, 0x01, 0x01, 0x02, 0x01, 0x03] = .ok [1, 3] ∧
    (De.hashSet .debug List.reverse (De.int .debug .i16)).fromDer [0x31] [0x02, 0x01, 0x03, 0x02, 0x01, 0x01, 0x02, 0x01, 0x03] = .ok [1, 3] := by
  decide +kernel

example := C127_lists .debug (De.int .debug .i16) [0x30] .indefinite [0x02, 0x01, 0x03, 0x02, 0x01, 0x01, 0x00, 0x00]
example := C127_btree_set .debug compare (De.int .debug .i16) [0x30] (.definite 9) [0x02, 0x01, 0x03, 0x02, 0x01, 0x01, 0x02, 0x01, 0x03]
example := C127_hash_set .debug List.reverse (fun l => l.reverse_perm) (De.int .debug .i16) (.definite 9) [0x02, 0x01, 0x03, 0x02, 0x01, 0x01, 0x02, 0x01, 0x03]

/-- The entries 2 ↦ true, 1 ↦ true, 2 ↦ false: the last one counts in both maps. -/
example :
    (De.btreeMap .debug compare (De.int .debug .u8) (De.bool .debug)).fromDer [0x30]
      [0x30, 0x06, 0x02, 0x01, 0x02, 0x01, 0x01, 0xff, 0x30, 0x06, 0x02, 0x01, 0x01, 0x01, 0x01, 0xff, 0x30, 0x06, 0x02, 0x01, 0x02, 0x01, 0x01, 0x00] =
        .ok [(1, true), (2, false)] ∧
    (De.hashMap .debug id (De.int .debug .u8) (De.bool .debug)).fromDer [0x31]
      [0x30, 0x06, 0x02, 0x01, 0x02, 0x01, 0x01, 0xff, 0x30, 0x06, 0x02, 0x01, 0x01, 0x01, 0x01, 0xff, 0x30, 0x06, 0x02, 0x01, 0x02, 0x01, 0x01, 0x00] =
        .ok [(2, false), (1, true)] := by
  constructor <;> rfl

example := C127_maps .debug compare id (fun l => .refl l) (De.int .debug .u8) (De.bool .debug) (.definite 16)
  [0x30, 0x06, 0x02, 0x01, 0x02, 0x01, 0x01, 0xff, 0x30, 0x06, 0x02, 0x01, 0x02, 0x01, 0x01, 0x00]

example := C127_calls .debug (SetOf compare) (De.vec .debug (De.int .debug .i16)) (De.btreeSet .debug compare (De.int .debug .i16))
  (fun id c => (C127_btree_set .debug compare _ id .indefinite c).1) (fun id len c => (C127_btree_set .debug compare _ id len c).2)
  [0x30, 0x06, 0x02, 0x01, 0x03, 0x02, 0x01, 0x01, 0xff] ([0x30, 0x03, 0x02, 0x01, 0x03, 0xff] : Bytes)

/-- A `Vec` of `BTreeSet`s beside a `Vec` of `Vec`s: the elements 2, 1 of the one inside are 1, 2. -/
example := C127_inside .debug (SetOf compare) (De.vec .debug (De.int .debug .i16)) (De.btreeSet .debug compare (De.int .debug .i16))
  (fun id c => (C127_btree_set .debug compare _ id .indefinite c).1) (fun id len c => (C127_btree_set .debug compare _ id len c).2) compare (De.int .debug .u8)
  [0x30] (.definite 8) [0x30, 0x06, 0x02, 0x01, 0x02, 0x02, 0x01, 0x01]
example : (De.vec .debug (De.btreeSet .debug compare (De.int .debug .i16))).fromDer [0x30] [0x30, 0x06, 0x02, 0x01, 0x02, 0x02, 0x01, 0x01] = .ok [[1, 2]] ∧
    (De.vec .debug (De.vec .debug (De.int .debug .i16))).fromDer [0x30] [0x30, 0x06, 0x02, 0x01, 0x02, 0x02, 0x01, 0x01] = .ok [[2, 1]] := by
  decide +kernel

/-- The `Vec` of 2 and 2; it is no map, and neither is what comes of it. -/
example := C127_renamed .debug .release (fun _ => 0) (De.int .release .i16) List.reverse (fun l => l.reverse_perm) compare (De.int .release .u8) (De.bool .release) id (fun l => .refl l)
  [0x30, 0x06, 0x02, 0x01, 0x02, 0x02, 0x01, 0x02] [0x02, 0x01, 0x02, 0x02, 0x01, 0x02] (by decide +kernel) (by decide +kernel) (by decide +kernel) (by decide +kernel)

/-- The set of 3, 1 and 2 in this order in the input. -/
example := C127_change_der (β := Int) .debug ⟨fun _ l => l, fun _ l => .refl l⟩ compare inferInstance inferInstance (.int .i16) trivial
  [0x30, 0x09, 0x02, 0x01, 0x03, 0x02, 0x01, 0x01, 0x02, 0x01, 0x02, 0xff] [0xff] [1, 2, 3] (by rfl)
example := C127_change_ber (β := Int) .debug ⟨fun _ l => l, fun _ l => .refl l⟩ compare inferInstance inferInstance (.int .i16) trivial
  [0x30, 0x80, 0x02, 0x01, 0x03, 0x02, 0x01, 0x01, 0x00, 0x00, 0xff] [0xff] (by decide +kernel) [1, 3] (by decide +kernel)

example := C127_sent .debug .release ⟨fun _ l => l, fun _ l => .refl l⟩ compare inferInstance inferInstance (.int .i16) trivial trivial trivial trivial [300, -2, 300]
  (by simp [Ty.ok, IntTy.InRange, IntTy.minVal, IntTy.maxVal, IntTy.signed, IntTy.size]) (by intro x hx; trivial) (by decide +kernel)

/-- In the input of that set the 3 is changed to 2: the elements fall together. -/
example : onDer (Touch.copy [0x02]).der [0, 0] [0x30, 0x09, 0x02, 0x01, 0x03, 0x02, 0x01, 0x01, 0x02, 0x01, 0x02, 0xff] =
      .ok [0x30, 0x09, 0x02, 0x01, 0x02, 0x02, 0x01, 0x01, 0x02, 0x01, 0x02, 0xff] ∧
    parseDer (De.btreeSet .debug compare (De.int .debug .i16)) [0x30, 0x09, 0x02, 0x01, 0x02, 0x02, 0x01, 0x01, 0x02, 0x01, 0x02, 0xff] = (.ok [1, 2], [0xff]) := by
  decide +kernel

end Bsn1
