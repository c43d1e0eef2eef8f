import Verif.Props.De
/-!
# C47–C51, C66–C70: deserialization, continued
-/

namespace Bsn1
open Spec

variable {α β γ : Type}

/-! ### C47 -/

theorem excludeEoc_forms (m : Build) (c : Bytes) :
    excludeEoc m .indefinite (c ++ eoc) = .ok c ∧ excludeEoc m (.definite c.length) c = .ok c :=
  ⟨(excludeEoc_iff m true (c ++ eoc) c).mpr rfl, (excludeEoc_iff m false c c).mpr rfl⟩

/-- What C47 says of one implementation: contents `c` are treated alike in both forms, including errors and panics. -/
def BothForms (d : De α) : Prop :=
  ∀ id c, d.fromBer id .indefinite (c ++ eoc) = d.fromBer id (.definite c.length) c

/-- C47, outermost length: for all collections with elements of any type, and derived structs and enums. -/
theorem C47_outer_form (m : Build) (d : De α) (dk : De α) (dv : De β) (cmp : α → α → Ordering) [DecidableEq α]
    (os : List α → List α) (om : List (α × β) → List (α × β)) (i : Bytes) (fs : DeFields γ) {ρ : Type} (vs : DeVariants ρ) :
    BothForms (De.vec m d) ∧ BothForms (De.linkedList m d) ∧ BothForms (De.vecDeque m d) ∧
    BothForms (De.btreeSet m cmp d) ∧ BothForms (De.btreeMap m cmp dk dv) ∧ BothForms (De.hashSet m os d) ∧
    BothForms (De.hashMap m om dk dv) ∧ BothForms (De.struct m i fs) ∧ BothForms (De.enum m vs) := by
  have key : ∀ (c : Bytes), excludeEoc m .indefinite (c ++ eoc) = excludeEoc m (.definite c.length) c := fun c => by
    rw [(excludeEoc_forms m c).1, (excludeEoc_forms m c).2]
  have keyS : ∀ {δ : Type} (gs : DeFields δ) (c : Bytes),
      fromBerContents m gs .indefinite (c ++ eoc) = fromBerContents m gs (.definite c.length) c := fun gs c => by
    rw [fromBerContents, fromBerContents, structContents_eq, structContents_eq, key]
  refine ⟨fun id c => ?_, fun id c => ?_, fun id c => ?_, fun id c => ?_, fun id c => ?_, fun id c => ?_, fun id c => ?_,
    fun id c => ?_, fun id c => ?_⟩
  · simp only [De.vec, key]
  · simp only [De.linkedList, key]
  · simp only [De.vecDeque, key]
  · simp only [De.btreeSet, key]
  · simp only [De.btreeMap, key]
  · simp only [De.hashSet, key]
  · simp only [De.hashMap, key]
  · simp only [De.struct, keyS]
  · change vs.pick id _ = vs.pick id _
    congr 1
    funext δ gs
    exact keyS gs c

example [DecidableEq α] (m : Build) (d : De α) : BothForms (De.vec m d) := (C47_outer_form (β := α) (γ := Unit) m d d d (fun _ _ => .eq) id id [0x30] .nil (ρ := Empty) .nil).1

/-- C47 at the interface: from the octets of the two encodings. -/
theorem C47_outer_form_octets (d : De α) (hd : BothForms d) (id c : Bytes) (hid : IsId id) (hc : c.length < 2 ^ 64) :
    fromBer d (id ++ indefOctets ++ c ++ eoc) = fromBer d (tlv id c) := by
  have e1 : BerRef.disassemble (id ++ indefOctets ++ (c ++ eoc)) = .ok (id, .indefinite, c ++ eoc) :=
    berDisassemble_indef hid _
  rw [List.append_assoc _ c eoc, fromBer, e1, Res.bind_ok, fromBer, show BerRef.disassemble (tlv id c) = _ from
    disassemble_tlv hid hc, Res.bind_ok]
  exact hd id c

example [DecidableEq α] (m : Build) (d : De α) (c : Bytes) (hc : c.length < 2 ^ 64) :
    fromBer (De.vec m d) ([0x30] ++ indefOctets ++ c ++ eoc) = fromBer (De.vec m d) (tlv [0x30] c) :=
  C47_outer_form_octets _ (C47_outer_form (β := α) (γ := Unit) m d d d (fun _ _ => .eq) id id [0x30] .nil (ρ := Empty) .nil).1 _ c
    isId_sequence hc

/-- C47, nested lengths, the part that holds (missing: maps, see `C47_indefinite_pair_violated`): if two BER values differ
only in the forms of the lengths of constructed values, at any depth, a type without maps decodes both to the same value,
or neither. -/
theorem C47_nested_forms_partial (m : Build) (o : HashOrder) (t : Ty α) (hd : t.deserializable) (ht : t.mapFree)
    (p p' : Bytes) (hp : IsBer p) (hp' : IsBer p') (hl : p.length ≤ isizeMax) (hl' : p'.length ≤ isizeMax)
    (hs : SameSeq p p') (v : α) :
    fromBer (Ty.de m o t) p = .ok v ↔ fromBer (Ty.de m o t) p' = .ok v := by
  have key : ∀ {p p' : Bytes}, IsBer p → IsBer p' → p.length ≤ isizeMax → p'.length ≤ isizeMax → SameSeq p p' →
      fromBer (Ty.de m o t) p = .ok v → fromBer (Ty.de m o t) p' = .ok v := by
    intro p p' hp hp' hl hl' hs h
    obtain ⟨q, c', e, _, hq⟩ := SameSeq.uncons (c := []) hp (by rwa [List.append_nil])
    have hqb : IsBer q := by
      rcases hq with rfl | ⟨_, _, _, _, _, _, _, _, k2, _⟩
      · exact hp
      · exact berValue_isBer k2
    obtain ⟨e1, _⟩ := isBer_prefix_free hp' hqb (rest := []) (by rw [List.append_nil]; exact e)
    subst e1
    rcases hq with rfl | ⟨id, d, d', raw, raw', b, b', k1, k2, k3, k4, k5, k6⟩
    · exact h
    · have := berValue_length k1
      have := berValue_length k2
      rw [fromBer_value _ k1, Ty.fromBer_iff m o t hd _ _ _ _ (by omega)] at h
      rw [fromBer_value _ k2, Ty.fromBer_iff m o t hd _ _ _ _ (by omega)]
      exact Ty.formFree _ _ t ht id d d' raw raw' b b' v k3 k4 k5 k6 h
  exact ⟨key hp hp' hl hl' hs, key hp' hp hl' hl (Bsn1.SameSeq.symm hs)⟩

/-- A list of definite and of indefinite length. -/
example (m : Build) (o : HashOrder) (v : List Int) : fromBer (Ty.de m o (.vec (.int .u8))) [0x30, 0x03, 0x02, 0x01, 0x05] = .ok v ↔
    fromBer (Ty.de m o (.vec (.int .u8))) [0x30, 0x80, 0x02, 0x01, 0x05, 0x00, 0x00] = .ok v := by
  have h5 : IsBer [0x02, 0x01, 0x05] := .definite [0x02] [0x05] ⟨0, 0, 2, by decide, by decide, by decide +kernel⟩ (by decide)
  have v1 : BerValue [0x30, 0x03, 0x02, 0x01, 0x05] [0x30] false [0x02, 0x01, 0x05] := ⟨isId_sequence, by decide, by decide +kernel⟩
  have v2 : BerValue [0x30, 0x80, 0x02, 0x01, 0x05, 0x00, 0x00] [0x30] true [0x02, 0x01, 0x05, 0x00, 0x00] :=
    ⟨isId_sequence, [0x02, 0x01, 0x05], .cons _ [] h5 (by decide) .nil, rfl, rfl⟩
  exact C47_nested_forms_partial m o (.vec (.int .u8)) trivial trivial _ _ (berValue_isBer v1) (berValue_isBer v2) (by decide) (by decide)
    (.form _ _ [0x30] false true _ _ [0x02, 0x01, 0x05] [0x02, 0x01, 0x05] [] [] v1 v2 (by decide) rfl rfl (.same _ [] [] h5 .nil) .nil) v

/-- C47, negation: no map accepts a key-value pair of indefinite length.  Whatever the types of key and value are, and
whatever the key and the value, decoding the pair fails with `InvalidKeyValuePair`. -/
theorem C47_indefinite_pair_violated (dk : De α) (dv : De β) (k v rest : Bytes) (hk : IsBer k) (hv : IsBer v)
    (hk0 : k ≠ eoc) (hv0 : v ≠ eoc) (hl : ([0x30] ++ indefOctets ++ (k ++ (v ++ eoc)) ++ rest).length ≤ isizeMax) :
    berToKeyVal dk dv ([0x30] ++ indefOctets ++ (k ++ (v ++ eoc)) ++ rest) = .err (Error.invalidKeyValuePair.context) := by
  have hb : BerValue ([0x30] ++ indefOctets ++ (k ++ (v ++ eoc))) [0x30] true (k ++ (v ++ eoc)) :=
    ⟨isId_sequence, k ++ (v ++ []), .cons k _ hk hk0 (.cons v _ hv hv0 .nil), by simp, rfl⟩
  have hll := hl
  simp only [List.length_append] at hll
  rw [berToKeyVal, ber_nonempty hb, if_neg (by simp), BerRef_parse_ok (berValue_isBer hb) hl]
  simp only [mapErrContext, Res.bind_ok]
  rw [berValue_id hb, Res.bind_ok, if_neg (by simp [IdRef.sequence]), berValue_contents hb, Res.bind_ok,
    BerRef_parse_ok hk (by simp only [List.length_append]; omega)]
  simp only [mapErrContext, Res.bind_ok]
  rw [BerRef_parse_ok hv (by simp only [List.length_append]; omega)]
  rfl

/-- C47, negation, a concrete case: `{1: 2}` with a definite and an indefinite pair. -/
theorem C47_map_violated (m : Build) (o : HashOrder) :
    fromBer (Ty.de m o (.btreeMap compare inferInstance inferInstance (.int .u8) (.int .u8)))
      [0x30, 0x08, 0x30, 0x06, 0x02, 0x01, 0x01, 0x02, 0x01, 0x02] = .ok [(1, 2)] ∧
    fromBer (Ty.de m o (.btreeMap compare inferInstance inferInstance (.int .u8) (.int .u8)))
      [0x30, 0x0a, 0x30, 0x80, 0x02, 0x01, 0x01, 0x02, 0x01, 0x02, 0x00, 0x00] =
        .err (Error.invalidKeyValuePair.context) := by
  constructor
  · change fromBer (De.btreeMap m compare (De.int m .u8) (De.int m .u8)) _ = _
    cases m <;> decide +kernel
  · change fromBer (De.btreeMap m compare (De.int m .u8) (De.int m .u8)) _ = _
    cases m <;> decide +kernel

/-- Two encodings of `[[5]]`, one with both lengths indefinite. -/
example : SameSeq [0x30, 0x05, 0x30, 0x03, 0x02, 0x01, 0x05] [0x30, 0x80, 0x30, 0x80, 0x02, 0x01, 0x05, 0x00, 0x00, 0x00, 0x00] := by
  have hid : IsId [0x02] := ⟨0, 0, 2, by decide, by decide, by decide +kernel⟩
  have h5 : IsBer [0x02, 0x01, 0x05] := .definite [0x02] [0x05] hid (by decide)
  have s0 : SameSeq [0x02, 0x01, 0x05] [0x02, 0x01, 0x05] := .same _ [] [] h5 .nil
  have s1 : SameSeq [0x30, 0x03, 0x02, 0x01, 0x05] [0x30, 0x80, 0x02, 0x01, 0x05, 0x00, 0x00] :=
    .form [0x30, 0x03, 0x02, 0x01, 0x05] [0x30, 0x80, 0x02, 0x01, 0x05, 0x00, 0x00] [0x30] false true
      [0x02, 0x01, 0x05] [0x02, 0x01, 0x05, 0x00, 0x00] [0x02, 0x01, 0x05] [0x02, 0x01, 0x05] [] []
      ⟨isId_sequence, by decide, by decide +kernel⟩
      ⟨isId_sequence, [0x02, 0x01, 0x05], .cons _ [] h5 (by decide) .nil, rfl, rfl⟩ (by decide) rfl rfl s0 .nil
  exact .form [0x30, 0x05, 0x30, 0x03, 0x02, 0x01, 0x05]
    [0x30, 0x80, 0x30, 0x80, 0x02, 0x01, 0x05, 0x00, 0x00, 0x00, 0x00] [0x30] false true
    [0x30, 0x03, 0x02, 0x01, 0x05] [0x30, 0x80, 0x02, 0x01, 0x05, 0x00, 0x00, 0x00, 0x00]
    [0x30, 0x03, 0x02, 0x01, 0x05] [0x30, 0x80, 0x02, 0x01, 0x05, 0x00, 0x00] [] []
    ⟨isId_sequence, by decide, by decide +kernel⟩
    ⟨isId_sequence, [0x30, 0x80, 0x02, 0x01, 0x05, 0x00, 0x00],
      .cons _ [] (.indefinite [0x30] [0x02, 0x01, 0x05] isId_sequence (.cons _ [] h5 (by decide) .nil)) (by decide) .nil,
      rfl, rfl⟩ (by decide) rfl rfl s1 .nil

/-! ### C48 -/

/-- C48.  For types whose values have only one encoding (no sets, maps, conversions, one-sided skips): if `from_der`
succeeds on the octets of a parsed DER value then `to_der` of the result gives the same octets. -/
theorem C48_der_canonical (m m' : Build) (o : HashOrder) (t : Ty α) (hs : t.serializable) (hd : t.deserializable)
    (ht : t.canonical) (bs p rest : Bytes) (hl : p.length ≤ isizeMax) (hp : DerRef.parse bs = (.ok p, rest)) (v : α)
    (h : fromDer (Ty.de m o t) p = .ok v) : toDer m' (Ty.ser m' t) v = .ok p := by
  obtain ⟨id, b, h1, h2, rfl, _⟩ := DerRef_parse_ok hp
  rw [fromDer_tlv _ h1 h2, Ty.fromDer_iff m o t hd] at h
  have e := Ty.canonical_enc _ t ht id b v h
  have hok := Ty.berVal_ok true o t (Ty.canonical_wellTyped t ht) id false b v (Ty.derVal_berVal true _ t id b v h)
  have ed : t.der v = tlv id b := by rw [Ty.der, e, tlvOf]
  rw [← ed]
  exact (C41_to_der m' t hs v hok (by rw [ed]; exact hl)).1

example (o : HashOrder) : toDer .release (Ty.ser .release (.vec (.int .u8))) [255, 5] =
    .ok [0x30, 0x07, 0x02, 0x02, 0x00, 0xff, 0x02, 0x01, 0x05] :=
  C48_der_canonical .debug .release o (.vec (.int .u8)) trivial trivial trivial
    [0x30, 0x07, 0x02, 0x02, 0x00, 0xff, 0x02, 0x01, 0x05, 0x99] _ [0x99] (by decide +kernel) (by decide +kernel) _
    (by change fromDer (De.vec .debug (De.int .debug .u8)) _ = _; decide +kernel)

/-- C48, consequence: on such types `from_der` is injective. -/
theorem C48_from_der_injective (m m' : Build) (o o' : HashOrder) (t : Ty α) (hs : t.serializable) (hd : t.deserializable)
    (ht : t.canonical) (p p' : Bytes) (hp : IsDer p) (hp' : IsDer p') (hl : p.length ≤ isizeMax)
    (hl' : p'.length ≤ isizeMax) (v : α) (h : fromDer (Ty.de m o t) p = .ok v) (h' : fromDer (Ty.de m' o' t) p' = .ok v) :
    p = p' := by
  have e := C48_der_canonical m .debug o t hs hd ht p p [] hl ((C19_der_parse_iff p p []).mpr ⟨hp, by simp⟩) v h
  have e' := C48_der_canonical m' .debug o' t hs hd ht p' p' [] hl' ((C19_der_parse_iff p' p' []).mpr ⟨hp', by simp⟩) v h'
  rw [e] at e'
  exact Res.ok.inj e'

/-- An enum of structs is such a type. -/
example : (Ty.enum (.cons [0x80] (.plain (.vec (.int .u8)) (.skip "x" .nil)) (.cons [0x81] (.plain .bool .nil) .nil))).canonical :=
  ⟨⟨trivial, trivial⟩, ⟨trivial, trivial⟩, trivial⟩

example (o : HashOrder) :
    fromDer (Ty.de .debug o (.vec (.int .u8))) [0x30, 0x07, 0x02, 0x02, 0x00, 0xff, 0x02, 0x01, 0x05] = .ok [255, 5] := by
  change fromDer (De.vec .debug (De.int .debug .u8)) _ = _
  decide +kernel

/-! ### C49 -/

/-- The identifiers of the variants of an enum. -/
def DeVariants.idList : {ρ : Type} → DeVariants ρ → List Bytes
  | _, .nil => []
  | _, .cons i _ r => i :: r.idList

/-- C49.  `from_der` of every built-in type, with elements of any type, for all identifiers but its own. -/
theorem C49_der_unmatched (m : Build) (o : HashOrder) (it : IntTy) (d : De α) (dk : De α) (dv : De β) (cmp : α → α → Ordering)
    [DecidableEq α] (os : List α → List α) (om : List (α × β) → List (α × β)) (id c : Bytes) :
    (id ≠ [0x01] → (Ty.de m o .bool).fromDer id c = .err .unmatchedId) ∧
    (id ≠ [0x02] → (Ty.de m o (.int it)).fromDer id c = .err .unmatchedId) ∧
    (id ≠ [0x0c] → (Ty.de m o .string).fromDer id c = .err .unmatchedId) ∧
    (id ≠ [0x04] → (Ty.de m o .octetString).fromDer id c = .err .unmatchedId) ∧
    (id ≠ [0x30] → (De.vec m d).fromDer id c = .err .unmatchedId ∧ (De.linkedList m d).fromDer id c = .err .unmatchedId ∧
      (De.vecDeque m d).fromDer id c = .err .unmatchedId ∧ (De.btreeSet m cmp d).fromDer id c = .err .unmatchedId ∧
      (De.btreeMap m cmp dk dv).fromDer id c = .err .unmatchedId) ∧
    (id ≠ [0x31] → (De.hashSet m os d).fromDer id c = .err .unmatchedId ∧
      (De.hashMap m om dk dv).fromDer id c = .err .unmatchedId) :=
  ⟨fun h => if_pos h, fun h => if_pos h, fun h => if_pos h, fun h => if_pos h,
    fun h => ⟨if_pos h, if_pos h, if_pos h, if_pos h, if_pos h⟩, fun h => ⟨if_pos h, if_pos h⟩⟩

example (m : Build) (o : HashOrder) : (Ty.de m o (.int .u8)).fromDer [0x01] [0xff] = .err .unmatchedId := by cases m <;> rfl

/-- C49.  `from_ber` of every built-in type but the integers, whatever length and contents are. -/
theorem C49_ber_unmatched (m : Build) (o : HashOrder) (d : De α) (dk : De α) (dv : De β) (cmp : α → α → Ordering)
    [DecidableEq α] (os : List α → List α) (om : List (α × β) → List (α × β)) (id : Bytes) (l : Length) (c : Bytes) :
    (id ≠ [0x01] → (Ty.de m o .bool).fromBer id l c = .err .unmatchedId) ∧
    (id ∉ [[0x0c], [0x2c]] → (Ty.de m o .string).fromBer id l c = .err .unmatchedId) ∧
    (id ∉ [[0x04], [0x24]] → (Ty.de m o .octetString).fromBer id l c = .err .unmatchedId) ∧
    (id ≠ [0x30] → (De.vec m d).fromBer id l c = .err .unmatchedId ∧ (De.linkedList m d).fromBer id l c = .err .unmatchedId ∧
      (De.vecDeque m d).fromBer id l c = .err .unmatchedId ∧ (De.btreeSet m cmp d).fromBer id l c = .err .unmatchedId ∧
      (De.btreeMap m cmp dk dv).fromBer id l c = .err .unmatchedId) ∧
    (id ≠ [0x31] → (De.hashSet m os d).fromBer id l c = .err .unmatchedId ∧
      (De.hashMap m om dk dv).fromBer id l c = .err .unmatchedId) :=
  ⟨fun h => if_pos h, fun h => if_pos (by simpa [IdRef.utf8String, IdRef.utf8StringConstructed] using h),
    fun h => if_pos (by simpa [IdRef.octetString, IdRef.octetStringConstructed] using h),
    fun h => ⟨if_pos h, if_pos h, if_pos h, if_pos h, if_pos h⟩, fun h => ⟨if_pos h, if_pos h⟩⟩

example (m : Build) (o : HashOrder) : (Ty.de m o .bool).fromBer [0x81] .indefinite [0xff, 0x00, 0x00] = .err .unmatchedId :=
  (C49_ber_unmatched m o (De.bool m) (De.bool m) (De.bool m) (fun _ _ => .eq) (fun l => l) (fun l => l) [0x81] .indefinite _).1
    (by decide)

/-- C49.  Derived structs and enums: any identifier that is not that of the struct, or of no variant. -/
theorem C49_derived_unmatched (m : Build) (i : Bytes) (fs : DeFields γ) {ρ : Type} (vs : DeVariants ρ) (id : Bytes) (l : Length)
    (c : Bytes) :
    (id ≠ i → (De.struct m i fs).fromDer id c = .err .unmatchedId ∧ (De.struct m i fs).fromBer id l c = .err .unmatchedId) ∧
    (id ∉ vs.idList → (De.enum m vs).fromDer id c = .err .unmatchedId ∧ (De.enum m vs).fromBer id l c = .err .unmatchedId) := by
  have key : ∀ {ρ : Type} (vs : DeVariants ρ) (k : {γ : Type} → DeFields γ → Res γ), id ∉ vs.idList →
      vs.pick id k = .err .unmatchedId := by
    intro ρ vs k h
    induction vs with
    | nil => rfl
    | cons j gs r ih =>
      simp only [DeVariants.idList, List.mem_cons, not_or] at h
      rw [DeVariants.pick, if_neg h.1, ih h.2]
      rfl
  exact ⟨fun h => ⟨if_pos h, if_pos h⟩, fun h => ⟨key vs _ h, key vs _ h⟩⟩

example (m : Build) : (De.enum m (.cons [0x80] (.cons (.plain (De.bool m)) .nil) .nil)).fromDer [0x81] [0x01, 0x01, 0xff] = .err .unmatchedId :=
  ((C49_derived_unmatched (γ := Unit) m [0x30] .nil (.cons [0x80] (.cons (.plain (De.bool m)) .nil) .nil) [0x81] .indefinite _).2
    (by simp [DeVariants.idList])).1

/-- C49, integers, the part that holds (missing: indefinite length in debug builds): `from_ber` of any BER value of
definite length, and in release builds of any BER value. -/
theorem C49_ber_integer_partial (m : Build) (o : HashOrder) (it : IntTy) (p id raw : Bytes) (indef : Bool)
    (h : BerValue p id indef raw) (hid : id ≠ [0x02]) (hm : indef = false ∨ m = .release) :
    fromBer (Ty.de m o (.int it)) p = .err .unmatchedId := by
  rw [fromBer_value _ h]
  change (De.int m it).fromBer id (lenOf indef raw) raw = _
  have hg : De.intFromDer it id raw = .err .unmatchedId := if_pos hid
  have he : (lenOf indef raw).eq .indefinite = false := not_eq_indefinite _
  have ha : debugAssert m ((lenOf indef raw).definite? == some raw.length) = .ok () := by
    rcases hm with rfl | rfl
    · cases m <;> simp [debugAssert, lenOf, Length.definite?]
    · rfl
  simp only [De.int, he, Bool.false_eq_true, if_false, ha, Res.bind_ok, hg]

example (o : HashOrder) : fromBer (Ty.de .release o (.int .i64)) [0x30, 0x80, 0x00, 0x00] = .err .unmatchedId :=
  C49_ber_integer_partial .release o .i64 _ [0x30] [0x00, 0x00] true ⟨isId_sequence, [], .nil, rfl, rfl⟩ (by decide) (.inr rfl)

/-- C49, negation: in debug builds, `from_ber` of an integer panics on every other value of indefinite length. -/
theorem C49_ber_integer_violated (o : HashOrder) (it : IntTy) (p id raw : Bytes) (h : BerValue p id true raw) :
    fromBer (Ty.de .debug o (.int it)) p = .panic := by
  rw [fromBer_value _ h]
  change (De.int .debug it).fromBer id .indefinite raw = _
  have he : Length.indefinite.eq .indefinite = false := not_eq_indefinite _
  simp only [De.int, he, Bool.false_eq_true, if_false]
  rfl

example (o : HashOrder) : fromBer (Ty.de .debug o (.int .i64)) [0x30, 0x80, 0x00, 0x00] = .panic :=
  C49_ber_integer_violated o .i64 _ [0x30] [0x00, 0x00] ⟨isId_sequence, [], .nil, rfl, rfl⟩

example : BerValue [0x30, 0x80, 0x00, 0x00] [0x30] true [0x00, 0x00] :=
  ⟨isId_sequence, [], .nil, rfl, rfl⟩

/-! ### C50 -/

/-- C50.  Whatever the implementation of `Deserialize` does, with an error or not, `parse_der` gives its result and
advances to the end of the value. -/
theorem C50_parse_der_advances (d : De α) (id c rest : Bytes) (hid : IsId id) (hc : c.length < 2 ^ 64) :
    parseDer d (tlv id c ++ rest) = (d.fromDer id c, rest) := by
  rw [parseDer, DerRef_parse_tlv hid hc rest]
  simp only [fromDer_tlv d hid hc]

example (m : Build) : parseDer (De.bool m) (tlv [0x01] [0x07] ++ [0x99]) = ((De.bool m).fromDer [0x01] [0x07], [0x99]) :=
  C50_parse_der_advances _ _ _ _ ⟨0, 0, 1, by decide, by decide, by decide +kernel⟩ (by decide)

/-- C50.  The same for `parse_ber`. -/
theorem C50_parse_ber_advances (d : De α) (p id raw rest : Bytes) (indef : Bool) (h : BerValue p id indef raw)
    (hl : (p ++ rest).length ≤ isizeMax) : parseBer d (p ++ rest) = (d.fromBer id (lenOf indef raw) raw, rest) := by
  rw [parseBer, BerRef_parse_ok (berValue_isBer h) hl]
  simp only [fromBer_value d h]

example (d : De α) : parseBer d [0x30, 0x80, 0x00, 0x00, 0x99] = (d.fromBer [0x30] .indefinite [0x00, 0x00], [0x99]) :=
  C50_parse_ber_advances d [0x30, 0x80, 0x00, 0x00] [0x30] [0x00, 0x00] [0x99] true ⟨isId_sequence, [], .nil, rfl, rfl⟩
    (by decide +kernel)

/-- C50.  If the octets are not a value, the error is that of `DerRef::parse`, `BerRef::parse`, and no implementation is
called. -/
theorem C50_parse_error (d : De α) (bs rest : Bytes) (e : Error) :
    (DerRef.parse bs = (.err e, rest) → parseDer d bs = (.err e, rest)) ∧
    (BerRef.parse bs = (.err e, rest) → parseBer d bs = (.err e, rest)) :=
  ⟨fun h => by rw [parseDer, h], fun h => by rw [parseBer, h]⟩

/-- A failing type: the boolean `07` is not DER, the slice is advanced. -/
example (o : HashOrder) : parseDer (Ty.de .debug o .bool) [0x01, 0x01, 0x07, 0x99] =
    (.err .invalidDerBooleanContents, [0x99]) := by
  change parseDer (De.bool .debug) _ = _
  decide +kernel

/-! ### C51 -/

/-- C51.  On a slice `read_der` gives the result of `parse_der`, value or error, for every implementation of
`Deserialize` (unless the header announces more octets than memory can hold, see C23). -/
theorem C51_read_der_slice (m : Build) (d : De α) (bs : Bytes)
    (hfit : ∀ id n rest, IsId id → n < 2 ^ 64 → bs = id ++ lenOctets n ++ rest →
      id.length + (lenOctets n).length + n ≤ isizeMax) :
    (readDer m d bs).1 = (parseDer d bs).1 := by
  obtain ⟨h1, _⟩ := C24_der_parse_slice m bs hfit
  rw [readDer, parseDer]
  rcases hx : Der.parse m bs with ⟨r, s⟩
  rcases hy : DerRef.parse bs with ⟨r', s'⟩
  rw [hx, hy] at h1
  cases h1
  cases r <;> rfl

/-- An input that ends too early. -/
example (m : Build) (d : De α) : (readDer m d ([0x04, 0x02, 0x07] : Bytes)).1 = (parseDer d [0x04, 0x02, 0x07]).1 := by
  refine C51_read_der_slice m d _ fun id n rest hid hn h => ?_
  have k : DerRef.disassemble (id ++ lenOctets n ++ rest) = .ok (id, .definite n, rest) := by
    simp only [DerRef.disassemble, List.append_assoc, parseIdUnchecked_shape ((isId_iff_shape _).mp hid), Res.bind_ok, parseLengthUnchecked_lenOctets hn]
    rfl
  rw [← h, show DerRef.disassemble [0x04, 0x02, 0x07] = .ok ([0x04], .definite 2, [0x07]) by decide +kernel] at k
  cases k
  decide +kernel

/-- C51.  `read_der` on a slice also consumes the same octets when the value parses, even if decoding fails. -/
theorem C51_read_der_position (m : Build) (d : De α) (id c rest : Bytes) (hid : IsId id)
    (hl : (tlv id c ++ rest).length ≤ isizeMax) :
    readDer m d (tlv id c ++ rest) = parseDer d (tlv id c ++ rest) := by
  have hi := isizeMax_eq
  have hc : c.length < 2 ^ 64 := by rw [List.length_append, tlv_length] at hl; omega
  have h := DerRef_parse_tlv hid hc rest
  rw [readDer, parseDer, h, C24_der_parse_slice_ok m _ _ _ hl h]

example (m : Build) : readDer m (De.bool m) (tlv [0x01] [0x07] ++ [0x99]) = parseDer (De.bool m) (tlv [0x01] [0x07] ++ [0x99]) :=
  C51_read_der_position m _ _ _ _ ⟨0, 0, 1, by decide, by decide, by decide +kernel⟩ (by decide +kernel)

/-- C51, the part that holds for `read_ber` (missing: the kind of the error): for every reader that delivers `bs` in
non-empty pieces and every implementation of `Deserialize`, if `bs` starts with a BER value `read_ber` gives the result of `parse_ber`,
value or error, and the reader is left where the slice is; otherwise neither gives a value. -/
theorem C51_read_ber_partial {σ : Type} [Reader σ] (R : σ → Bytes → Prop) (hd : Delivers R) (m : Build) (d : De α)
    (s : σ) (bs : Bytes) (hs : R s bs) (hlen : bs.length ≤ isizeMax) :
    (∀ p rest, IsBer p → bs = p ++ rest →
      (readBer m d s).1 = (parseBer d bs).1 ∧ R (readBer m d s).2 (parseBer d bs).2) ∧
    ((∀ p rest, IsBer p → bs ≠ p ++ rest) → ∀ v, (readBer m d s).1 ≠ .ok v ∧ (parseBer d bs).1 ≠ .ok v) := by
  constructor
  · rintro p rest hp rfl
    have h := BerRef_parse_ok hp hlen
    obtain ⟨s', h1, h2⟩ := C31_ber_parse_position R hd m s _ p rest hs hlen h
    rw [readBer, h1, parseBer, h]
    exact ⟨rfl, h2⟩
  · intro hno v
    have hc := C31_ber_parse_chunking R hd m s bs
    constructor
    · intro h
      rw [readBer] at h
      rcases hx : Ber.parse m s with ⟨r, s'⟩
      rw [hx] at h
      cases r with
      | ok p =>
        obtain ⟨rest, hr⟩ := (hc p hs hlen).mp (by rw [hx])
        obtain ⟨k1, k2⟩ := BerRef_parse_sound hlen hr
        exact hno p rest k1 k2
      | err e => cases h
      | panic => cases h
      | ub => cases h
    · intro h
      rw [parseBer] at h
      rcases hx : BerRef.parse bs with ⟨r, s'⟩
      rw [hx] at h
      cases r with
      | ok p =>
        obtain ⟨k1, k2⟩ := BerRef_parse_sound hlen hx
        exact hno p s' k1 k2
      | err e => cases h
      | panic => cases h
      | ub => cases h

example (m : Build) (d : De α) (s : Script) (hs : Chunks s [0x30, 0x80, 0x00, 0x00, 0x99]) :
    (readBer m d s).1 = (parseBer d [0x30, 0x80, 0x00, 0x00, 0x99]).1 :=
  ((C51_read_ber_partial Chunks delivers_chunks m d s _ hs (by decide +kernel)).1 [0x30, 0x80, 0x00, 0x00] [0x99]
    (.indefinite [0x30] [] isId_sequence .nil) rfl).1

/-- C51, negation: on truncated contents `read_ber` fails with an I/O error, `parse_ber` with `UnterminatedBytes`; and
`read_der` fails on a reader that delivers the contents in two pieces, where `parse_der` succeeds on the octets. -/
theorem C51_read_parse_violated (m : Build) (o : HashOrder) :
    (readBer m (Ty.de m o (.int .u8)) ([0x02, 0x02, 0x01] : Bytes)).1 = .err (.io .unexpectedEof) ∧
    (parseBer (Ty.de m o (.int .u8)) [0x02, 0x02, 0x01]).1 = .err .unterminatedBytes ∧
    (readDer m (Ty.de m o .octetString) ([.chunk [0x04, 0x02, 0x01], .chunk [0x02]] : Script)).1 = .err .unterminatedBytes ∧
    (parseDer (Ty.de m o .octetString) [0x04, 0x02, 0x01, 0x02]).1 = .ok [0x01, 0x02] := by
  refine ⟨?_, ?_, ?_, ?_⟩
  · change (readBer m (De.int m .u8) _).1 = _; cases m <;> decide +kernel
  · change (parseBer (De.int m .u8) _).1 = _; cases m <;> decide +kernel
  · change (readDer m De.octetString _).1 = _; cases m <;> decide +kernel
  · change (parseDer De.octetString _).1 = _; decide +kernel

/-! ### C66 -/

/-- C66.  For types that are restored exactly, different values have different encodings, whatever the builds. -/
theorem C66_to_der_injective (m m' : Build) (t : Ty α) (hs : t.serializable) (hd : t.deserializable) (hr : t.restorable)
    (he : t.exact) (v w : α) (hv : t.ok v) (hw : t.ok w) (cv : t.convertible v) (cw : t.convertible w)
    (fv : (t.der v).length ≤ isizeMax) (fw : (t.der w).length ≤ isizeMax)
    (h : toDer m (Ty.ser m t) v = toDer m' (Ty.ser m' t) w) : v = w := by
  have o : HashOrder := ⟨fun _ l => l, fun _ _ => .refl _⟩
  have e1 := C43_der_round_trip_exact m .debug o t hs hd hr he v hv cv fv
  have e2 := C43_der_round_trip_exact m' .debug o t hs hd hr he w hw cw fw
  rw [h, e2] at e1
  exact (Res.ok.inj e1).symm

example (m m' : Build) (v w : List Bool) (fv : ((Ty.vec .bool).der v).length ≤ isizeMax) (fw : ((Ty.vec .bool).der w).length ≤ isizeMax)
    (h : toDer m (Ty.ser m (.vec .bool)) v = toDer m' (Ty.ser m' (.vec .bool)) w) : v = w :=
  C66_to_der_injective m m' (.vec .bool) trivial trivial trivial trivial v w (fun _ _ => trivial) (fun _ _ => trivial)
    (fun _ _ => trivial) (fun _ _ => trivial) fv fw h

/-- C66, prefixes: the encoding of one value is never the beginning of the encoding of another, so encodings can be
concatenated and parsed again. -/
theorem C66_prefix_free (t : Ty α) (u : Ty β) (ht : t.serializable) (hu : u.serializable) (v : α) (w : β)
    (fv : (t.der v).length ≤ isizeMax) (fw : (u.der w).length ≤ isizeMax) (a b : Bytes) (h : t.der v ++ a = u.der w ++ b) :
    t.der v = u.der w ∧ a = b := by
  obtain ⟨h1, _, h2⟩ := der_enc_fits ht fv
  obtain ⟨h3, _, h4⟩ := der_enc_fits hu fw
  rw [Ty.der, Ty.der, tlvOf, tlvOf] at h ⊢
  exact tlv_prefix_free h2 h4 h1 h3 h

example : (Ty.struct [0x30] (.plain (.int .u8) (.plain (.vec .string) .nil))).exact ∧
    (Ty.struct [0x30] (.plain (.int .u8) (.plain (.vec .string) .nil))).restorable :=
  ⟨⟨trivial, trivial, trivial⟩, trivial, trivial, trivial⟩

/-! ### C67 -/

/-- C67.  What `from_der` accepts, `from_ber` accepts with the same value. -/
theorem C67_ber_extends_der (m m' : Build) (o : HashOrder) (t : Ty α) (hd : t.deserializable) (p : Bytes) (hp : IsDer p)
    (hl : p.length ≤ isizeMax) (v : α) (h : fromDer (Ty.de m o t) p = .ok v) : fromBer (Ty.de m' o t) p = .ok v := by
  obtain ⟨id, b, h1, h2, rfl⟩ := hp
  rw [fromDer_tlv _ h1 h2, Ty.fromDer_iff m o t hd] at h
  rw [tlv_length] at hl
  rw [fromBer_value (indef := false) _ ⟨h1, h2, rfl⟩, Ty.fromBer_iff m' o t hd _ _ _ _ (by omega)]
  exact Ty.derVal_berVal _ _ t id b v h

/-- C67, the converse does not hold: the boolean `07` is BER only. -/
example (m : Build) (o : HashOrder) : fromBer (Ty.de m o .bool) [0x01, 0x01, 0x07] = .ok true ∧
    fromDer (Ty.de m o .bool) [0x01, 0x01, 0x07] = .err .invalidDerBooleanContents ∧
    fromDer (Ty.de m o .bool) [0x01, 0x01, 0xff] = .ok true := by
  refine ⟨?_, ?_, ?_⟩
  · change fromBer (De.bool m) _ = _; cases m <;> decide +kernel
  · change fromDer (De.bool m) _ = _; cases m <;> decide +kernel
  · change fromDer (De.bool m) _ = _; cases m <;> decide +kernel

/-! ### C68 -/

/-- C68.  Decoding gives only values of the type: integers are in range, ordered collections ascending, sets without
duplicates, and so on at any depth. -/
theorem C68_decoded_valid (m : Build) (o : HashOrder) (t : Ty α) (hd : t.deserializable) (hw : t.wellTyped) (p : Bytes)
    (hl : p.length ≤ isizeMax) (v : α) :
    (IsDer p → fromDer (Ty.de m o t) p = .ok v → t.ok v) ∧ (IsBer p → fromBer (Ty.de m o t) p = .ok v → t.ok v) := by
  constructor
  · rintro ⟨id, b, h1, h2, rfl⟩ h
    rw [fromDer_tlv _ h1 h2, Ty.fromDer_iff m o t hd] at h
    exact Ty.berVal_ok true o t hw id false b v (Ty.derVal_berVal true _ t id b v h)
  · intro hp h
    obtain ⟨id, indef, raw, hb⟩ := isBer_berValue hp
    have := berValue_length hb
    rw [fromBer_value _ hb, Ty.fromBer_iff m o t hd _ _ _ _ (by omega)] at h
    exact Ty.berVal_ok _ o t hw id indef raw v h

example (m : Build) (o : HashOrder) : (Ty.vec (.int .i8)).ok [-1, 127] ∧
    fromDer (Ty.de m o (.vec (.int .i8))) [0x30, 0x06, 0x02, 0x01, 0xff, 0x02, 0x01, 0x7f] = .ok [-1, 127] ∧
    fromDer (Ty.de m o (.vec (.int .i8))) [0x30, 0x04, 0x02, 0x02, 0x00, 0x80] = .err Error.overFlow.context := by
  refine ⟨?_, ?_, ?_⟩
  · change ∀ x ∈ ([-1, 127] : List Int), IntTy.i8.InRange x; decide
  · change fromDer (De.vec m (De.int m .i8)) _ = _; cases m <;> decide +kernel
  · change fromDer (De.vec m (De.int m .i8)) _ = _; cases m <;> decide +kernel

/-! ### C69 -/

/-- C69.  `parse_der` returns a value or an error on all octets. -/
theorem C69_parse_der_settled (m : Build) (o : HashOrder) (t : Ty α) (hd : t.deserializable) (bs : Bytes) :
    (parseDer (Ty.de m o t) bs).1.Settled := by
  rcases derParse_cases bs with ⟨e, rest, h⟩ | ⟨id, b, rest, h1, h2, h, e⟩
  · rw [(C50_parse_error _ bs rest e).1 h]; exact .inr ⟨e, rfl⟩
  · rw [e, C50_parse_der_advances _ id b rest h1 h2]
    exact Ty.settlesDer m o t hd id b

example (m : Build) (o : HashOrder) (bs : Bytes) : (parseDer (Ty.de m o sampleTy) bs).1.Settled := C69_parse_der_settled m o sampleTy sample_deserializable bs

/-- C69, the part that holds for BER (missing: debug builds): `parse_ber` returns a value or an error on all octets. -/
theorem C69_parse_ber_settled_partial (o : HashOrder) (t : Ty α) (hd : t.deserializable) (bs : Bytes)
    (hl : bs.length ≤ isizeMax) : (parseBer (Ty.de .release o t) bs).1.Settled := by
  rcases berParse_cases bs hl with ⟨e, rest, h⟩ | ⟨p, id, indef, raw, rest, hv, h, e⟩
  · rw [(C50_parse_error _ bs rest e).2 h]; exact .inr ⟨e, rfl⟩
  · have := berValue_length hv
    subst e
    rw [C50_parse_ber_advances _ p id raw rest indef hv hl]
    rw [List.length_append] at hl
    exact Ty.settlesBer o t hd id indef raw (by omega)

example (o : HashOrder) : (parseBer (Ty.de .release o sampleTy) [0x30, 0x80, 0x02, 0x01]).1.Settled :=
  C69_parse_ber_settled_partial o sampleTy sample_deserializable _ (by decide +kernel)

/-- C69, negation: debug builds panic on a string or integer of indefinite length, also inside other values. -/
theorem C69_parse_ber_panic_violated (o : HashOrder) :
    (parseBer (Ty.de .debug o (.vec .string)) [0x30, 0x04, 0x0c, 0x80, 0x00, 0x00]).1 = .panic ∧
    (parseBer (Ty.de .debug o (.int .i32)) [0x02, 0x80, 0x00, 0x00]).1 = .panic := by
  constructor
  · change (parseBer (De.vec .debug (De.string .debug)) _).1 = _; decide +kernel
  · change (parseBer (De.int .debug .i32) _).1 = _; decide +kernel

example : sampleTy.deserializable := sample_deserializable

/-! ### C70 -/

/-- C70, negation: a constructed string is not the concatenation of its segments (X.690, 8.7.3): the octets of the
segments, headers included, are taken for the string. -/
theorem C70_constructed_string_violated (m : Build) (o : HashOrder) :
    BerRef.parse [0x24, 0x08, 0x04, 0x02, 0x61, 0x62, 0x04, 0x02, 0x63, 0x64] =
      (.ok [0x24, 0x08, 0x04, 0x02, 0x61, 0x62, 0x04, 0x02, 0x63, 0x64], []) ∧
    fromBer (Ty.de m o .octetString) [0x24, 0x08, 0x04, 0x02, 0x61, 0x62, 0x04, 0x02, 0x63, 0x64] =
      .ok [0x04, 0x02, 0x61, 0x62, 0x04, 0x02, 0x63, 0x64] ∧
    fromBer (Ty.de m o .string) [0x2c, 0x03, 0x0c, 0x01, 0x61] = .ok "\x0c\x01a" := by
  refine ⟨by decide +kernel, ?_, ?_⟩
  · change fromBer De.octetString _ = _; decide +kernel
  · change fromBer (De.string m) _ = _; cases m <;> decide +kernel

/-- C70, the part that holds (missing: constructed strings): a primitive string, in definite form, is its contents. -/
theorem C70_primitive_string_partial (m : Build) (o : HashOrder) (c : Bytes) (hc : c.length < 2 ^ 64) :
    fromBer (Ty.de m o .octetString) (tlv [0x04] c) = .ok c ∧
    ∀ s : String, s.toByteArray.data.toList = c → fromBer (Ty.de m o .string) (tlv [0x0c] c) = .ok s := by
  constructor
  · have hid : IsId [0x04] := Ty.enc_isId .octetString trivial []
    rw [fromBer_value (indef := false) _ ⟨hid, hc, rfl⟩]
    rfl
  · rintro s rfl
    have hid : IsId [0x0c] := Ty.enc_isId .string trivial ""
    rw [fromBer_value (indef := false) _ ⟨hid, hc, rfl⟩]
    change (De.string m).fromBer [0x0c] (.definite _) _ = _
    have he : (Length.definite s.toByteArray.data.toList.length).eq .indefinite = false := not_eq_indefinite _
    have ha : debugAssert m ((Length.definite s.toByteArray.data.toList.length).definite? ==
        some s.toByteArray.data.toList.length) = .ok () := by
      cases m <;> simp [debugAssert, Length.definite?]
    simp only [De.string, he, ha, Bool.false_eq_true, if_false, Res.bind_ok]
    rw [if_neg (by simp [IdRef.utf8String])]
    exact (strFromUtf8_iff _ _).mpr rfl

example (m : Build) (o : HashOrder) : fromBer (Ty.de m o .octetString) (tlv [0x04] [1, 2, 3]) = .ok [1, 2, 3] :=
  (C70_primitive_string_partial m o [1, 2, 3] (by decide)).1

end Bsn1
