import Verif.Lemmas.Append
/-!
# C126: elements are added to a collection, and cut off a list, in its octets

`extend_from_slice` and `truncate` on the octets of a collection, without decoding it; then it is decoded.
-/

namespace Bsn1
open Spec

variable {α β γ : Type}

/-- **C126.** Octets are put behind a DER value that `from_der` decodes to a collection.  The result is decoded if and only if the octets are values that `parse_der` decodes
one after the other, and then to the collection with these put into it. -/
theorem C126_append_der (m m' : Build) (o : HashOrder) (junk : Nat → UInt8) (t : Ty β) (T : Ty α) (J : α → List β → α → Prop) (hj : Ty.Joins t T J) (hd : T.deserializable)
    (d bytes : Bytes) (v : α) (hp : DerRef.parse d = (.ok d, [])) (h : fromDer (Ty.de m o T) d = .ok v) (hfit : d.length + bytes.length + 8 ≤ isizeMax) :
    ∃ d', Der.extendFromSlice m' junk d bytes = .ok d' ∧ DerRef.parse d' = (.ok d', []) ∧
      (∀ w, fromDer (Ty.de m o T) d' = .ok w → ∃ vs, ReadAll (parseDer (Ty.de m o t)) bytes vs ∧ J v vs w) ∧
      ∀ vs, ReadAll (parseDer (Ty.de m o t)) bytes vs → ∃ w, fromDer (Ty.de m o T) d' = .ok w ∧ J v vs w := by
  obtain ⟨i, F, h1, -, h2, h3, h4⟩ := joins_form o hj
  have ht := h4.1 hd
  obtain ⟨id, c, hid, hc, rfl⟩ := parse_der_self.1 hp
  have hi := isizeMax_eq
  have hfit' := extend_fits hfit
  have hc' : (c ++ bytes).length < 2 ^ 64 := by rw [tlv_length] at hfit'; omega
  rw [fromDer_tlv _ hid hc, Ty.fromDer_iff m o T hd, h1] at h
  obtain ⟨rfl, l, h5, h6⟩ := h
  refine ⟨_, (extend_tlv m' junk hid hfit).1, parse_der_self.2 ⟨_, _, hid, hc', rfl⟩, fun w hw => ?_, fun vs hvs => ?_⟩
  · rw [fromDer_tlv _ hid hc', Ty.fromDer_iff m o T hd, h1] at hw
    obtain ⟨-, l', h7, h8⟩ := hw
    obtain ⟨vs, rfl, h9⟩ := (derElems_append (ty_oneD o ht) h5 bytes l').1 h7
    exact ⟨vs, (readAll_der ht _ _).2 h9, h2 _ _ _ _ h6 h8⟩
  · obtain ⟨w, h7⟩ := h3 (l ++ vs)
    refine ⟨w, ?_, h2 _ _ _ _ h6 h7⟩
    rw [fromDer_tlv _ hid hc', Ty.fromDer_iff m o T hd, h1]
    exact ⟨rfl, _, (derElems_append (ty_oneD o ht) h5 bytes _).2 ⟨vs, rfl, (readAll_der ht _ _).1 hvs⟩, h7⟩

/-- The octets of 1 and 3, then those of 2 and 3 behind: a list has four elements, a set three. -/
example (m m' : Build) (o : HashOrder) (junk : Nat → UInt8) :
    ∃ d', Der.extendFromSlice m' junk [0x30, 0x06, 0x02, 0x01, 0x01, 0x02, 0x01, 0x03] [0x02, 0x01, 0x02, 0x02, 0x01, 0x03] = .ok d' ∧
      fromDer (Ty.de m o (.vec (.int .u8))) d' = .ok [1, 3, 2, 3] := by
  obtain ⟨d', h1, -, -, h2⟩ := C126_append_der m m' o junk (.int .u8) (.vec (.int .u8)) _ .vec trivial [0x30, 0x06, 0x02, 0x01, 0x01, 0x02, 0x01, 0x03]
    [0x02, 0x01, 0x02, 0x02, 0x01, 0x03] [1, 3] (by decide +kernel) (by rfl) (by decide +kernel)
  obtain ⟨w, h3, rfl⟩ := h2 [2, 3] (.cons _ [0x02, 0x01, 0x03] _ _ (by rfl) (.cons _ [] _ _ (by rfl) .nil))
  exact ⟨d', h1, h3⟩

example (m m' : Build) (o : HashOrder) (junk : Nat → UInt8) :
    ∃ d' w, Der.extendFromSlice m' junk [0x30, 0x06, 0x02, 0x01, 0x01, 0x02, 0x01, 0x03] [0x02, 0x01, 0x02, 0x02, 0x01, 0x03] = .ok d' ∧
      fromDer (Ty.de m o (.btreeSet compare inferInstance inferInstance (.int .u8))) d' = .ok w ∧ ∀ x, x ∈ w ↔ x = 1 ∨ x = 2 ∨ x = 3 := by
  obtain ⟨d', h1, -, -, h2⟩ := C126_append_der m m' o junk (.int .u8) (.btreeSet compare inferInstance inferInstance (.int .u8)) _ .btreeSet (by simp [Ty.deserializable])
    [0x30, 0x06, 0x02, 0x01, 0x01, 0x02, 0x01, 0x03] [0x02, 0x01, 0x02, 0x02, 0x01, 0x03] [1, 3] (by decide +kernel) (by rfl) (by decide +kernel)
  obtain ⟨w, h3, h4⟩ := h2 [2, 3] (.cons _ [0x02, 0x01, 0x03] _ _ (by rfl) (.cons _ [] _ _ (by rfl) .nil))
  refine ⟨d', w, h1, h3, fun x => ?_⟩
  rw [h4.2]
  simp
  tauto

/-- Octets that are no values: the result is not decoded. -/
example (m m' : Build) (o : HashOrder) (junk : Nat → UInt8) (w : List Int) :
    ∃ d', Der.extendFromSlice m' junk [0x30, 0x03, 0x02, 0x01, 0x01] [0x02, 0x01] = .ok d' ∧ fromDer (Ty.de m o (.vec (.int .u8))) d' ≠ .ok w := by
  obtain ⟨d', h1, -, h2, -⟩ := C126_append_der m m' o junk (.int .u8) (.vec (.int .u8)) _ .vec trivial [0x30, 0x03, 0x02, 0x01, 0x01]
    [0x02, 0x01] [1] (by decide +kernel) (by rfl) (by decide +kernel)
  refine ⟨d', h1, fun h => ?_⟩
  obtain ⟨vs, h3, -⟩ := h2 w h
  cases h3 with
  | cons b r x xs h4 => exact nomatch (show _ = Res.ok x from congrArg Prod.fst h4)

/-- **C126.** The same for maps: the octets behind are entries, each a SEQUENCE of a key and a value, and the value of a key is then the one that comes last. -/
theorem C126_append_map (m m' : Build) (o : HashOrder) (junk : Nat → UInt8) (k : Ty β) (t : Ty γ) (T : Ty (List (β × γ)))
    (J : List (β × γ) → List (β × γ) → List (β × γ) → Prop) (hj : Ty.JoinsMap k t T J) (hd : T.deserializable) (d bytes : Bytes) (v : List (β × γ))
    (hp : DerRef.parse d = (.ok d, [])) (h : fromDer (Ty.de m o T) d = .ok v) (hfit : d.length + bytes.length + 8 ≤ isizeMax) :
    ∃ d', Der.extendFromSlice m' junk d bytes = .ok d' ∧ DerRef.parse d' = (.ok d', []) ∧
      (∀ w, fromDer (Ty.de m o T) d' = .ok w →
        ∃ vs : List (β × γ), ReadAll (parseDer (Ty.de m o (.struct [0x30] (.plain k (.plain t .nil))))) bytes (vs.map fun x => (x.1, x.2, ())) ∧ J v vs w) ∧
      ∀ vs : List (β × γ), ReadAll (parseDer (Ty.de m o (.struct [0x30] (.plain k (.plain t .nil))))) bytes (vs.map fun x => (x.1, x.2, ())) →
        ∃ w, fromDer (Ty.de m o T) d' = .ok w ∧ J v vs w := by
  obtain ⟨i, F, h1, -, h2, h3, h4⟩ := joinsMap_form o hj
  have ht := h4.1 hd
  have he : (Ty.struct [0x30] (.plain k (.plain t .nil))).deserializable := ⟨ht.1, ht.2, trivial⟩
  have hone := derPair_one (ty_oneD o ht.1) (ty_oneD o ht.2)
  obtain ⟨id, c, hid, hc, rfl⟩ := parse_der_self.1 hp
  have hi := isizeMax_eq
  have hfit' := extend_fits hfit
  have hc' : (c ++ bytes).length < 2 ^ 64 := by rw [tlv_length] at hfit'; omega
  rw [fromDer_tlv _ hid hc, Ty.fromDer_iff m o T hd, h1] at h
  obtain ⟨rfl, l, h5, h6⟩ := h
  refine ⟨_, (extend_tlv m' junk hid hfit).1, parse_der_self.2 ⟨_, _, hid, hc', rfl⟩, fun w hw => ?_, fun vs hvs => ?_⟩
  · rw [fromDer_tlv _ hid hc', Ty.fromDer_iff m o T hd, h1] at hw
    obtain ⟨-, l', h7, h8⟩ := hw
    obtain ⟨vs, rfl, h9⟩ := (derElems_append hone h5 bytes l').1 h7
    exact ⟨vs, (readAll_der he _ _).2 (derElems_entries.1 h9), h2 _ _ _ _ h6 h8⟩
  · obtain ⟨w, h7⟩ := h3 (l ++ vs)
    refine ⟨w, ?_, h2 _ _ _ _ h6 h7⟩
    rw [fromDer_tlv _ hid hc', Ty.fromDer_iff m o T hd, h1]
    exact ⟨rfl, _, (derElems_append hone h5 bytes _).2 ⟨vs, rfl, derElems_entries.2 ((readAll_der he _ _).1 hvs)⟩, h7⟩

/-- The map `{1: true}`; an entry for 1 behind takes the place of the first one. -/
example (m m' : Build) (o : HashOrder) (junk : Nat → UInt8) :
    ∃ d' w, Der.extendFromSlice m' junk [0x31, 0x08, 0x30, 0x06, 0x02, 0x01, 0x01, 0x01, 0x01, 0xff] [0x30, 0x06, 0x02, 0x01, 0x01, 0x01, 0x01, 0x00] = .ok d' ∧
      fromDer (Ty.de m o (.hashMap inferInstance (.int .u8) .bool)) d' = .ok w ∧ (1, false) ∈ w ∧ (1, true) ∉ w := by
  obtain ⟨v, hv⟩ : ∃ v, fromDer (Ty.de m o (.hashMap inferInstance (.int .u8) .bool)) [0x31, 0x08, 0x30, 0x06, 0x02, 0x01, 0x01, 0x01, 0x01, 0xff] = .ok v := ⟨_, by rfl⟩
  obtain ⟨d', h1, -, -, h2⟩ := C126_append_map m m' o junk (.int .u8) .bool (.hashMap inferInstance (.int .u8) .bool) _ .hashMap ⟨trivial, trivial⟩
    [0x31, 0x08, 0x30, 0x06, 0x02, 0x01, 0x01, 0x01, 0x01, 0xff] [0x30, 0x06, 0x02, 0x01, 0x01, 0x01, 0x01, 0x00] v (by decide +kernel) hv (by decide +kernel)
  obtain ⟨w, h3, h4⟩ := h2 [(1, false)] (.cons _ [] _ _ (by rfl) .nil)
  refine ⟨d', w, h1, h3, (h4.2 1 false).2 (.inl ⟨[], [], rfl, by simp⟩), fun h => ?_⟩
  rcases (h4.2 1 true).1 h with h5 | ⟨-, h5⟩
  · exact nomatch lastEntry_unique h5 (⟨[], [], rfl, by simp⟩ : LastEntry (1 : Int) false [(1, false)])
  · exact h5 (1, false) (by simp) rfl

/-- **C126.** The same in BER, for a value of definite length; the elements, before and behind, may have indefinite length. -/
theorem C126_append_ber (m m' : Build) (o : HashOrder) (junk : Nat → UInt8) (t : Ty β) (T : Ty α) (J : α → List β → α → Prop) (hj : Ty.Joins t T J) (hd : T.deserializable)
    (d bytes : Bytes) (v : α) (hp : BerRef.parse d = (.ok d, [])) (n : Nat) (hn : BerRef.length d = .ok (.definite n)) (h : fromBer (Ty.de m o T) d = .ok v)
    (hfit : d.length + bytes.length + 8 ≤ isizeMax) :
    ∃ d', Ber.extendFromSlice m' junk d bytes = .ok d' ∧ BerRef.parse d' = (.ok d', []) ∧
      (∀ w, fromBer (Ty.de m o T) d' = .ok w → ∃ vs, ReadAll (parseBer (Ty.de m o t)) bytes vs ∧ J v vs w) ∧
      ∀ vs, ReadAll (parseBer (Ty.de m o t)) bytes vs → ∃ w, fromBer (Ty.de m o T) d' = .ok w ∧ J v vs w := by
  obtain ⟨i, F, -, h1, h2, h3, h4⟩ := joins_form o hj
  have ht := h4.1 hd
  have hi := isizeMax_eq
  obtain ⟨id, b, c, hv⟩ := isBer_berValue ((parse_ber_self (by omega)).1 hp)
  cases b with
  | true =>
    obtain ⟨hid, c', -, rfl, rfl⟩ := hv
    rw [berLength_indef hid] at hn
    exact nomatch hn
  | false =>
    obtain ⟨hid, hc, rfl⟩ := hv
    have hfit' := extend_fits hfit
    have hc0 : c.length ≤ isizeMax := by rw [tlv_length] at hfit; omega
    have hcl' : (c ++ bytes).length ≤ isizeMax := by rw [tlv_length] at hfit'; omega
    have hc' : (c ++ bytes).length < 2 ^ 64 := by omega
    have hv : BerValue (tlv id c) id false c := ⟨hid, hc, rfl⟩
    have hv' : BerValue (tlv id (c ++ bytes)) id false (c ++ bytes) := ⟨hid, hc', rfl⟩
    rw [fromBer_value _ hv, Ty.fromBer_iff m o T hd _ _ _ _ (by omega), h1] at h
    obtain ⟨rfl, c1, l, rfl, h5, h6⟩ := h
    refine ⟨_, (extend_tlv m' junk hid hfit).2, (parse_ber_self hfit').2 (berValue_isBer hv'), fun w hw => ?_, fun vs hvs => ?_⟩
    · rw [fromBer_value _ hv', Ty.fromBer_iff m o T hd _ _ _ _ (by omega), h1] at hw
      obtain ⟨-, c2, l', rfl, h7, h8⟩ := hw
      obtain ⟨vs, rfl, h9⟩ := (berElems_append (ty_oneB m o ht) h5 hc0 bytes l').1 h7
      exact ⟨vs, (readAll_ber ht _ (by omega) _).2 h9, h2 _ _ _ _ h6 h8⟩
    · obtain ⟨w, h7⟩ := h3 (l ++ vs)
      refine ⟨w, ?_, h2 _ _ _ _ h6 h7⟩
      rw [fromBer_value _ hv', Ty.fromBer_iff m o T hd _ _ _ _ (by omega), h1]
      exact ⟨rfl, _, _, rfl, (berElems_append (ty_oneB m o ht) h5 hc0 bytes _).2 ⟨vs, rfl, (readAll_ber ht _ (by omega) _).1 hvs⟩, h7⟩

/-- A list of lists; the one behind has indefinite length. -/
example (m m' : Build) (o : HashOrder) (junk : Nat → UInt8) :
    ∃ d', Ber.extendFromSlice m' junk [0x30, 0x02, 0x30, 0x00] [0x30, 0x80, 0x02, 0x01, 0x05, 0x00, 0x00] = .ok d' ∧
      fromBer (Ty.de m o (.vec (.vec (.int .u8)))) d' = .ok [[], [5]] := by
  obtain ⟨d', h1, -, -, h2⟩ := C126_append_ber m m' o junk (.vec (.int .u8)) (.vec (.vec (.int .u8))) _ .vec trivial [0x30, 0x02, 0x30, 0x00]
    [0x30, 0x80, 0x02, 0x01, 0x05, 0x00, 0x00] [[]] (by decide +kernel) 2 (by rfl) (by cases m <;> rfl) (by decide +kernel)
  obtain ⟨w, h3, rfl⟩ := h2 [[5]] (.cons _ [] _ _ (by cases m <;> rfl) .nil)
  exact ⟨d', h1, h3⟩

/-- **C126.** The same for maps in BER; keys and values, before and behind, may have indefinite length. -/
theorem C126_append_map_ber (m m' : Build) (o : HashOrder) (junk : Nat → UInt8) (k : Ty β) (t : Ty γ) (T : Ty (List (β × γ)))
    (J : List (β × γ) → List (β × γ) → List (β × γ) → Prop) (hj : Ty.JoinsMap k t T J) (hd : T.deserializable) (d bytes : Bytes) (v : List (β × γ))
    (hp : BerRef.parse d = (.ok d, [])) (n : Nat) (hn : BerRef.length d = .ok (.definite n)) (h : fromBer (Ty.de m o T) d = .ok v)
    (hfit : d.length + bytes.length + 8 ≤ isizeMax) :
    ∃ d', Ber.extendFromSlice m' junk d bytes = .ok d' ∧ BerRef.parse d' = (.ok d', []) ∧
      (∀ w, fromBer (Ty.de m o T) d' = .ok w → ∃ vs, ReadEntries (parseBer (Ty.de m o k)) (parseBer (Ty.de m o t)) bytes vs ∧ J v vs w) ∧
      ∀ vs, ReadEntries (parseBer (Ty.de m o k)) (parseBer (Ty.de m o t)) bytes vs → ∃ w, fromBer (Ty.de m o T) d' = .ok w ∧ J v vs w := by
  obtain ⟨i, F, -, h1, h2, h3, h4⟩ := joinsMap_form o hj
  have ht := h4.1 hd
  have hone := berPair_one (ty_oneB m o ht.1) (ty_oneB m o ht.2)
  have hi := isizeMax_eq
  obtain ⟨id, b, c, hv⟩ := isBer_berValue ((parse_ber_self (by omega)).1 hp)
  cases b with
  | true =>
    obtain ⟨hid, c', -, rfl, rfl⟩ := hv
    rw [berLength_indef hid] at hn
    exact nomatch hn
  | false =>
    obtain ⟨hid, hc, rfl⟩ := hv
    have hfit' := extend_fits hfit
    have hc0 : c.length ≤ isizeMax := by rw [tlv_length] at hfit; omega
    have hcl' : (c ++ bytes).length ≤ isizeMax := by rw [tlv_length] at hfit'; omega
    have hc' : (c ++ bytes).length < 2 ^ 64 := by omega
    have hv : BerValue (tlv id c) id false c := ⟨hid, hc, rfl⟩
    have hv' : BerValue (tlv id (c ++ bytes)) id false (c ++ bytes) := ⟨hid, hc', rfl⟩
    rw [fromBer_value _ hv, Ty.fromBer_iff m o T hd _ _ _ _ (by omega), h1] at h
    obtain ⟨rfl, c1, l, rfl, h5, h6⟩ := h
    refine ⟨_, (extend_tlv m' junk hid hfit).2, (parse_ber_self hfit').2 (berValue_isBer hv'), fun w hw => ?_, fun vs hvs => ?_⟩
    · rw [fromBer_value _ hv', Ty.fromBer_iff m o T hd _ _ _ _ (by omega), h1] at hw
      obtain ⟨-, c2, l', rfl, h7, h8⟩ := hw
      obtain ⟨vs, rfl, h9⟩ := (berElems_append hone h5 hc0 bytes l').1 h7
      exact ⟨vs, (readEntries_ber ht.1 ht.2 _ (by omega) _).2 h9, h2 _ _ _ _ h6 h8⟩
    · obtain ⟨w, h7⟩ := h3 (l ++ vs)
      refine ⟨w, ?_, h2 _ _ _ _ h6 h7⟩
      rw [fromBer_value _ hv', Ty.fromBer_iff m o T hd _ _ _ _ (by omega), h1]
      exact ⟨rfl, _, _, rfl, (berElems_append hone h5 hc0 bytes _).2 ⟨vs, rfl, (readEntries_ber ht.1 ht.2 _ (by omega) _).1 hvs⟩, h7⟩

/-- The map `{1: []}`; an entry behind, with a list of indefinite length, takes the place of the first one. -/
example (m m' : Build) (o : HashOrder) (junk : Nat → UInt8) :
    ∃ d' w, Ber.extendFromSlice m' junk [0x31, 0x07, 0x30, 0x05, 0x02, 0x01, 0x01, 0x30, 0x00]
        [0x30, 0x0a, 0x02, 0x01, 0x01, 0x30, 0x80, 0x02, 0x01, 0x05, 0x00, 0x00] = .ok d' ∧
      fromBer (Ty.de m o (.hashMap inferInstance (.int .u8) (.vec (.int .u8)))) d' = .ok w ∧ (1, [5]) ∈ w ∧ (1, []) ∉ w := by
  obtain ⟨v, hv⟩ : ∃ v, fromBer (Ty.de m o (.hashMap inferInstance (.int .u8) (.vec (.int .u8)))) [0x31, 0x07, 0x30, 0x05, 0x02, 0x01, 0x01, 0x30, 0x00] = .ok v := by
    cases m <;> exact ⟨_, by rfl⟩
  obtain ⟨d', h1, -, -, h2⟩ := C126_append_map_ber m m' o junk (.int .u8) (.vec (.int .u8)) (.hashMap inferInstance (.int .u8) (.vec (.int .u8))) _ .hashMap ⟨trivial, trivial⟩
    [0x31, 0x07, 0x30, 0x05, 0x02, 0x01, 0x01, 0x30, 0x00] [0x30, 0x0a, 0x02, 0x01, 0x01, 0x30, 0x80, 0x02, 0x01, 0x05, 0x00, 0x00] v (by decide +kernel) 7 (by rfl) hv
    (by decide +kernel)
  obtain ⟨w, h3, h4⟩ := h2 [(1, [5])] (.cons _ [0x30, 0x0a, 0x02, 0x01, 0x01, 0x30, 0x80, 0x02, 0x01, 0x05, 0x00, 0x00] [] _ [0x30, 0x80, 0x02, 0x01, 0x05, 0x00, 0x00] 1 [5] []
    (by decide +kernel) (by rfl) (by rfl) (by cases m <;> rfl) (by cases m <;> rfl) .nil)
  refine ⟨d', w, h1, h3, (h4.2 1 [5]).2 (.inl ⟨[], [], rfl, by simp⟩), fun h => ?_⟩
  rcases (h4.2 1 []).1 h with h5 | ⟨-, h5⟩
  · exact nomatch lastEntry_unique h5 (⟨[], [], rfl, by simp⟩ : LastEntry (1 : Int) [(5 : Int)] [(1, [5])])
  · exact h5 (1, [5]) (by simp) rfl

/-- **C126.** A value of indefinite length is not extended so: what is put behind comes after the end-of-contents, and `parse_ber` gives the value as it was and the octets as
the rest. -/
theorem C126_indefinite (m m' : Build) (o : HashOrder) (junk : Nat → UInt8) (T : Ty α) (d bytes : Bytes) (v : α) (hp : BerRef.parse d = (.ok d, []))
    (hn : BerRef.length d = .ok .indefinite) (h : fromBer (Ty.de m o T) d = .ok v) (hfit : d.length + bytes.length ≤ isizeMax) :
    Ber.extendFromSlice m' junk d bytes = .ok (d ++ bytes) ∧ parseBer (Ty.de m o T) (d ++ bytes) = (.ok v, bytes) := by
  have hb := (parse_ber_self (by omega)).1 hp
  have h2 : parseBer (Ty.de m o T) (d ++ bytes) = (.ok v, bytes) := (parseBer_ok_iff (by rw [List.length_append]; omega)).2 ⟨d, hb, rfl, h⟩
  refine ⟨?_, h2⟩
  obtain ⟨id, b, c, hv⟩ := isBer_berValue hb
  cases b with
  | false =>
    obtain ⟨hid, hc, rfl⟩ := hv
    rw [berLength_tlv hid hc] at hn
    exact nomatch hn
  | true =>
    obtain ⟨hid, c', -, rfl, rfl⟩ := hv
    have hl : (id ++ indefOctets ++ (c' ++ Spec.eoc)).length = id.length + 1 + (c' ++ Spec.eoc).length := by
      rw [List.length_append, List.length_append]; rfl
    have := ContentsOp.ber_indef m' junk hid (c' ++ Spec.eoc) (.extend bytes) (by omega) (by
      show id.length + 1 + (c' ++ Spec.eoc ++ bytes).length ≤ isizeMax
      rw [List.length_append]; omega)
    rw [List.append_assoc _ _ bytes]
    exact this

example (m m' : Build) (o : HashOrder) (junk : Nat → UInt8) :
    Ber.extendFromSlice m' junk [0x30, 0x80, 0x02, 0x01, 0x05, 0x00, 0x00] [0x02, 0x01, 0x06] = .ok [0x30, 0x80, 0x02, 0x01, 0x05, 0x00, 0x00, 0x02, 0x01, 0x06] ∧
      parseBer (Ty.de m o (.vec (.int .u8))) [0x30, 0x80, 0x02, 0x01, 0x05, 0x00, 0x00, 0x02, 0x01, 0x06] = (.ok [5], [0x02, 0x01, 0x06]) :=
  C126_indefinite m m' o junk (.vec (.int .u8)) [0x30, 0x80, 0x02, 0x01, 0x05, 0x00, 0x00] [0x02, 0x01, 0x06] [5] (by decide +kernel) (by rfl) (by cases m <;> rfl)
    (by decide +kernel)

/-! ### Cut off -/

theorem derElems_split {m : Build} {o : HashOrder} {t : Ty β} (hd : t.deserializable) {c : Bytes} {l : List β} (h : DerElems (t.derVal o.order) c l) :
    ∃ ps : List Bytes, c = ps.flatten ∧ List.Forall₂ (fun p x => DerRef.parse p = (.ok p, []) ∧ fromDer (Ty.de m o t) p = .ok x) ps l := by
  induction h with
  | nil => exact ⟨[], rfl, .nil⟩
  | cons id b c x xs h1 h2 h3 _ ih =>
    obtain ⟨ps, rfl, h4⟩ := ih
    have hx : IsDer (tlv id b) := ⟨id, b, h1, h2, rfl⟩
    exact ⟨tlv id b :: ps, rfl, .cons ⟨parse_der_self.2 hx, (fromDer_den hd hx x).2 ((derDen_tlv h1 h2).2 h3)⟩ h4⟩

theorem derElems_take {m : Build} {o : HashOrder} {t : Ty β} (hd : t.deserializable) {ps : List Bytes} {l : List β}
    (h : List.Forall₂ (fun p x => DerRef.parse p = (.ok p, []) ∧ fromDer (Ty.de m o t) p = .ok x) ps l) :
    ∀ (n : Nat) (w : List β), DerElems (t.derVal o.order) (ps.flatten.take n) w ↔ ∃ k, ps.flatten.take n = (ps.take k).flatten ∧ w = l.take k := by
  have whole : ∀ {ps l}, List.Forall₂ (fun p x => DerRef.parse p = (.ok p, []) ∧ fromDer (Ty.de m o t) p = .ok x) ps l → ∀ k,
      DerElems (t.derVal o.order) (ps.take k).flatten (l.take k) := by
    intro ps l h
    induction h with
    | nil => intro k; simp; exact .nil
    | @cons p x ps l h1 _ ih =>
      intro k
      cases k with
      | zero => simp; exact .nil
      | succ k =>
        have hx := parse_der_self.1 h1.1
        exact (derElems_cons_iff hx).2 ⟨x, l.take k, rfl, (fromDer_den hd hx x).1 h1.2, ih k⟩
  intro n w
  constructor
  · induction h generalizing n w with
    | nil =>
      intro hw
      rw [List.flatten_nil, List.take_nil] at hw
      exact ⟨0, by simp, derElems_one (ty_oneD o hd) .nil hw⟩
    | @cons p x ps l h1 h2 ih =>
      intro hw
      have hx := parse_der_self.1 h1.1
      rw [List.flatten_cons] at hw ⊢
      by_cases hn : p.length ≤ n
      · rw [List.take_append, List.take_of_length_le hn] at hw ⊢
        obtain ⟨v, vs, rfl, h3, h4⟩ := (derElems_cons_iff hx).1 hw
        obtain ⟨k, h5, rfl⟩ := ih _ _ h4
        refine ⟨k + 1, by rw [h5]; rfl, ?_⟩
        have := ((fromDer_den (m := m) hd hx v).2 h3).symm.trans h1.2
        rw [Res.ok.inj this]
        rfl
      · rw [List.take_append_of_le_length (by omega)] at hw ⊢
        generalize e : p.take n = q at hw
        cases hw with
        | nil => exact ⟨0, rfl, rfl⟩
        | cons id b c y ys g1 g2 g3 g4 =>
          have e' : tlv id b ++ (c ++ p.drop n) = p ++ [] := by rw [← List.append_assoc, ← e, List.take_append_drop, List.append_nil]
          obtain ⟨rfl, -⟩ := der_prefix_free g1 g2 hx e'
          have := congrArg List.length e
          rw [List.length_take, List.length_append] at this
          omega
  · rintro ⟨k, h1, rfl⟩
    rw [h1]
    exact whole h k

theorem listOf_der (o : HashOrder) {t : Ty β} {L : Ty (List β)} (h : Ty.ListOf t L) :
    (∀ id c v, L.derVal o.order id c v ↔ id = [0x30] ∧ DerElems (t.derVal o.order) c v) ∧ (L.deserializable ↔ t.deserializable) := by
  cases h <;> exact ⟨fun _ _ _ => Iff.rfl, Iff.rfl⟩

/-- **C126.** A DER value that `from_der` decodes to a list is cut with `truncate`.  It is decoded then if and only if the cut is between two elements, and then to the elements
before the cut. -/
theorem C126_truncate (m : Build) (o : HashOrder) (t : Ty β) (L : Ty (List β)) (hL : Ty.ListOf t L) (hd : L.deserializable) (d : Bytes) (v : List β)
    (hp : DerRef.parse d = (.ok d, [])) (h : fromDer (Ty.de m o L) d = .ok v) :
    ∃ ps : List Bytes, DerRef.contents d = .ok ps.flatten ∧ List.Forall₂ (fun p x => DerRef.parse p = (.ok p, []) ∧ fromDer (Ty.de m o t) p = .ok x) ps v ∧
      ∀ n, ∃ d', Der.truncate d n = .ok d' ∧ DerRef.parse d' = (.ok d', []) ∧
        ∀ w, fromDer (Ty.de m o L) d' = .ok w ↔ ∃ k, min n ps.flatten.length = (ps.take k).flatten.length ∧ w = v.take k := by
  obtain ⟨h1, h2⟩ := listOf_der o hL
  have ht := h2.1 hd
  obtain ⟨id, c, hid, hc, rfl⟩ := parse_der_self.1 hp
  rw [fromDer_tlv _ hid hc, Ty.fromDer_iff m o L hd, h1] at h
  obtain ⟨rfl, h3⟩ := h
  obtain ⟨ps, rfl, h4⟩ := derElems_split (m := m) ht h3
  refine ⟨ps, DerRef_contents_tlv hid hc, h4, fun n => ?_⟩
  have hc' : (ps.flatten.take n).length < 2 ^ 64 := by rw [List.length_take]; omega
  refine ⟨_, truncate_tlv hid _ hc n, parse_der_self.2 ⟨_, _, hid, hc', rfl⟩, fun w => ?_⟩
  rw [fromDer_tlv _ hid hc', Ty.fromDer_iff m o L hd, h1, derElems_take ht h4]
  have key : ∀ k, ps.flatten.take n = (ps.take k).flatten ↔ min n ps.flatten.length = (ps.take k).flatten.length := by
    intro k
    constructor
    · intro e
      rw [← e, List.length_take]
    · intro e
      have e2 : ps.flatten = (ps.take k).flatten ++ (ps.drop k).flatten := by rw [← List.flatten_append, List.take_append_drop]
      rw [List.take_eq_take_min, e]
      conv_lhs => rw [e2]
      simp
  constructor
  · rintro ⟨-, k, h5, rfl⟩
    exact ⟨k, (key k).1 h5, rfl⟩
  · rintro ⟨k, h5, rfl⟩
    exact ⟨rfl, k, (key k).2 h5, rfl⟩

/-- The list `[1, 300, 3]`: a cut after 7 octets leaves `[1, 300]`. -/
example (m : Build) (o : HashOrder) : ∃ ps : List Bytes, DerRef.contents [0x30, 0x0a, 0x02, 0x01, 0x01, 0x02, 0x02, 0x01, 0x2c, 0x02, 0x01, 0x03] = .ok ps.flatten ∧
    ∃ d', Der.truncate [0x30, 0x0a, 0x02, 0x01, 0x01, 0x02, 0x02, 0x01, 0x2c, 0x02, 0x01, 0x03] 7 = .ok d' ∧
      ∀ w, fromDer (Ty.de m o (.vecDeque (.int .i16))) d' = .ok w ↔ ∃ k, min 7 ps.flatten.length = (ps.take k).flatten.length ∧ w = ([1, 300, 3] : List Int).take k := by
  obtain ⟨ps, h1, -, h2⟩ := C126_truncate m o (.int .i16) (.vecDeque (.int .i16)) .vecDeque trivial
    [0x30, 0x0a, 0x02, 0x01, 0x01, 0x02, 0x02, 0x01, 0x2c, 0x02, 0x01, 0x03] [1, 300, 3] (by decide +kernel) (by rfl)
  obtain ⟨d', h3, -, h4⟩ := h2 7
  exact ⟨ps, h1, d', h3, h4⟩

example (m : Build) (o : HashOrder) : ∃ d', Der.truncate [0x30, 0x0a, 0x02, 0x01, 0x01, 0x02, 0x02, 0x01, 0x2c, 0x02, 0x01, 0x03] 7 = .ok d' ∧
    fromDer (Ty.de m o (.vecDeque (.int .i16))) d' = .ok [1, 300] := ⟨_, by rfl, by rfl⟩

/-! ### Serialized lists -/

theorem seriesOf_enc {t : Ty β} {L : Ty (List β)} (h : Ty.SeriesOf t L) : ∃ i, IsId [i] ∧
    (∀ v, L.enc v = ([i], v.flatMap t.der)) ∧ (∀ v, L.ok v → ∀ x ∈ v, t.ok x) ∧ (∀ v vs, L.ok (v ++ vs) → L.ok v) ∧ (L.serializable ↔ t.serializable) := by
  have h30 : IsId [0x30] := ⟨0, 1, 16, by decide, by decide, by decide +kernel⟩
  have h31 : IsId [0x31] := ⟨0, 1, 17, by decide, by decide, by decide +kernel⟩
  cases h with
  | list h => cases h <;> exact ⟨0x30, h30, fun _ => rfl, fun _ h => h, fun v vs h x hx => h x (by simp [hx]), Iff.rfl⟩
  | btreeSet =>
    exact ⟨0x30, h30, fun _ => rfl, fun _ h => h.2, fun v vs h => ⟨(List.pairwise_append.1 h.1).1, fun x hx => h.2 x (by simp [hx])⟩, Iff.rfl⟩
  | hashSet =>
    exact ⟨0x31, h31, fun _ => rfl, fun _ h => h.2, fun v vs h => ⟨(List.nodup_append.1 h.1).1, fun x hx => h.2 x (by simp [hx])⟩, Iff.rfl⟩

theorem toDer_each {m : Build} {t : Ty β} (hs : t.serializable) {vs : List β} {bs : List Bytes} (hok : ∀ x ∈ vs, t.ok x) (hfit : (vs.flatMap t.der).length ≤ isizeMax)
    (h : List.Forall₂ (fun x b => toDer m (Ty.ser m t) x = .ok b) vs bs) : bs.flatten = vs.flatMap t.der := by
  induction h with
  | nil => rfl
  | @cons x b vs bs h1 _ ih =>
    rw [List.flatMap_cons, List.length_append] at hfit
    rw [(C41_to_der m t hs x (hok x (by simp)) (by omega)).1] at h1
    rw [List.flatten_cons, ← Res.ok.inj h1, ih (fun y hy => hok y (by simp [hy])) (by omega), List.flatMap_cons]

/-- **C126.** A serialized list is extended with the serialized elements: the octets are those of the longer list.  Cut off after the first elements, they are those of the
shorter one.  Likewise a set, where the elements behind are further ones, and in a `BTreeSet` greater ones (`hok`). -/
theorem C126_serialized (m : Build) (junk : Nat → UInt8) (t : Ty β) (L : Ty (List β)) (hL : Ty.SeriesOf t L) (hs : L.serializable) (v vs : List β) (hok : L.ok (v ++ vs))
    (hfit : (L.der (v ++ vs)).length ≤ isizeMax) (as bs : List Bytes) (ha : List.Forall₂ (fun x b => toDer m (Ty.ser m t) x = .ok b) v as)
    (hb : List.Forall₂ (fun x b => toDer m (Ty.ser m t) x = .ok b) vs bs) :
    (toDer m (Ty.ser m L) v).bind (fun d => Der.extendFromSlice m junk d bs.flatten) = toDer m (Ty.ser m L) (v ++ vs) ∧
    (toBer m (Ty.ser m L) v).bind (fun d => Ber.extendFromSlice m junk d bs.flatten) = toBer m (Ty.ser m L) (v ++ vs) ∧
    (toDer m (Ty.ser m L) (v ++ vs)).bind (fun d => Der.truncate d as.flatten.length) = toDer m (Ty.ser m L) v ∧
    (toBer m (Ty.ser m L) (v ++ vs)).bind (fun d => Ber.truncate m d as.flatten.length) = toBer m (Ty.ser m L) v := by
  obtain ⟨i, hid, h1, h2, h4, h3⟩ := seriesOf_enc hL
  have ht := h3.1 hs
  have hi := isizeMax_eq
  have hu := usizeSize_eq
  have e : ∀ v, L.der v = tlv [i] (v.flatMap t.der) := fun v => by rw [Ty.der, h1]; rfl
  have hall := h2 _ hok
  have hlen := hfit
  rw [e, tlv_length, List.flatMap_append, List.length_append] at hlen
  have hfv : (L.der v).length ≤ isizeMax := by
    rw [e, tlv_length]
    have := lenOctets_length_mono (Nat.le_add_right (v.flatMap t.der).length (vs.flatMap t.der).length)
    omega
  have hov : L.ok v := h4 v vs hok
  have ea := toDer_each ht (fun x hx => hall x (by simp [hx])) (by omega) ha
  have eb := toDer_each ht (fun x hx => hall x (by simp [hx])) (by omega) hb
  have hv := C41_to_der m L hs v hov hfv
  have hw := C41_to_der m L hs (v ++ vs) hok hfit
  have e2 : L.der (v ++ vs) = tlv [i] (v.flatMap t.der ++ vs.flatMap t.der) := by rw [e, List.flatMap_append]
  have hx : Der.extendFromSlice m junk (L.der v) bs.flatten = .ok (L.der (v ++ vs)) := by
    have hl9 : (lenOctets (v.flatMap t.der).length).length ≤ 9 := lenOctets_length_le (by omega)
    rw [eb, e v, extendFromSlice_tlv m junk hid _ _ (by rw [← e]; exact hfv) (by rw [tlv_length]; simp only [List.length_cons, List.length_nil] at *; omega), ← e2,
      if_pos hfit]
  have hy : Der.truncate (L.der (v ++ vs)) as.flatten.length = .ok (L.der v) := by
    rw [ea, e2, truncate_tlv hid _ (by rw [List.length_append]; omega), List.take_left, e]
  refine ⟨?_, ?_, ?_, ?_⟩
  · rw [hv.1, hw.1]; exact hx
  · rw [hv.2.1, hw.2.1]
    refine Eq.trans ?_ hx
    simp only [Res.bind, Ber.extendFromSlice]
    rw [e v, berLength_tlv hid (by omega)]
    rfl
  · rw [hv.1, hw.1]; exact hy
  · rw [hv.2.1, hw.2.1]
    refine Eq.trans ?_ hy
    simp only [Res.bind, Ber.truncate]
    rw [e2, berLength_tlv hid (by rw [List.length_append]; omega)]
    rfl

/-- A list of strings and one more behind. -/
example (m : Build) (junk : Nat → UInt8) :
    (toDer m (Ty.ser m (.vec .string)) ["a", ""]).bind (fun d => Der.extendFromSlice m junk d [0x0c, 0x02, 0x62, 0x63]) = toDer m (Ty.ser m (.vec .string)) ["a", "", "bc"] :=
  (C126_serialized m junk .string (.vec .string) (.list .vec) trivial ["a", ""] ["bc"] (fun _ _ => trivial) (by decide +kernel) [[0x0c, 0x01, 0x61], [0x0c, 0x00]]
    [[0x0c, 0x02, 0x62, 0x63]] (.cons (by cases m <;> decide +kernel) (.cons (by cases m <;> decide +kernel) .nil)) (.cons (by cases m <;> decide +kernel) .nil)).1

/-- A set of numbers and a greater one behind. -/
example (m : Build) (junk : Nat → UInt8) :
    (toBer m (Ty.ser m (.btreeSet compare inferInstance inferInstance (.int .i16))) [-1, 7]).bind (fun d => Ber.extendFromSlice m junk d [0x02, 0x02, 0x01, 0x2c]) =
      toBer m (Ty.ser m (.btreeSet compare inferInstance inferInstance (.int .i16))) [-1, 7, 300] :=
  (C126_serialized m junk (.int .i16) (.btreeSet compare inferInstance inferInstance (.int .i16)) .btreeSet (by simp [Ty.serializable]) [-1, 7] [300]
    ⟨by decide, by simp only [List.cons_append, List.nil_append, Ty.ok]; decide +kernel⟩ (by decide +kernel) [[0x02, 0x01, 0xff], [0x02, 0x01, 0x07]]
    [[0x02, 0x02, 0x01, 0x2c]] (.cons (by cases m <;> decide +kernel) (.cons (by cases m <;> decide +kernel) .nil)) (.cons (by cases m <;> decide +kernel) .nil)).2.1

end Bsn1
