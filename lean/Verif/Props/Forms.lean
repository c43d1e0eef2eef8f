import Verif.Lemmas.Pairs
import Verif.Props.Decode
/-!
# C47, continued: for all types, maps included, the forms of lengths never change the value
-/

namespace Bsn1
open Spec

variable {α : Type}

/-- C47, for every type, maps included: if two BER values differ only in the forms of the lengths of constructed values, at
any depth, and both are accepted, they are decoded to the same value.  What goes wrong with maps is that one of the two can be
refused, never that another value comes out. -/
theorem C47_nested_value (m : Build) (o : HashOrder) (t : Ty α) (hd : t.deserializable)
    (p p' : Bytes) (hp : IsBer p) (hp' : IsBer p') (hl : p.length ≤ isizeMax) (hl' : p'.length ≤ isizeMax)
    (hs : SameSeq p p') (v v' : α) (h : fromBer (Ty.de m o t) p = .ok v) (h' : fromBer (Ty.de m o t) p' = .ok v') : v = v' := by
  obtain ⟨id, d, raw, k1⟩ := isBer_berValue hp
  obtain ⟨id', d', raw', k2⟩ := isBer_berValue hp'
  have := berValue_length k1
  have := berValue_length k2
  obtain ⟨rfl, ha, _⟩ := SeqAlike.uncons (c := []) (c' := []) (.inr (by rwa [List.append_nil, List.append_nil])) k1 k2
  rw [fromBer_value _ k1, Ty.fromBer_iff m o t hd _ _ _ _ (by omega)] at h
  rw [fromBer_value _ k2, Ty.fromBer_iff m o t hd _ _ _ _ (by omega)] at h'
  exact Ty.stable _ _ t _ _ _ _ _ _ _ ha h h'

/-- Two encodings of the map `{1: 2}`, the outer length definite and indefinite: both are accepted. -/
example (m : Build) (o : HashOrder) : IsBer [0x30, 0x08, 0x30, 0x06, 0x02, 0x01, 0x01, 0x02, 0x01, 0x02] ∧
    IsBer [0x30, 0x80, 0x30, 0x06, 0x02, 0x01, 0x01, 0x02, 0x01, 0x02, 0x00, 0x00] ∧
    SameSeq [0x30, 0x08, 0x30, 0x06, 0x02, 0x01, 0x01, 0x02, 0x01, 0x02]
      [0x30, 0x80, 0x30, 0x06, 0x02, 0x01, 0x01, 0x02, 0x01, 0x02, 0x00, 0x00] ∧
    fromBer (Ty.de m o (.btreeMap compare inferInstance inferInstance (.int .u8) (.int .u8)))
      [0x30, 0x08, 0x30, 0x06, 0x02, 0x01, 0x01, 0x02, 0x01, 0x02] = .ok [(1, 2)] ∧
    fromBer (Ty.de m o (.btreeMap compare inferInstance inferInstance (.int .u8) (.int .u8)))
      [0x30, 0x80, 0x30, 0x06, 0x02, 0x01, 0x01, 0x02, 0x01, 0x02, 0x00, 0x00] = .ok [(1, 2)] := by
  have hb : IsBer [0x30, 0x06, 0x02, 0x01, 0x01, 0x02, 0x01, 0x02] :=
    .definite [0x30] [0x02, 0x01, 0x01, 0x02, 0x01, 0x02] isId_sequence (by decide)
  have h1 : BerValue [0x30, 0x08, 0x30, 0x06, 0x02, 0x01, 0x01, 0x02, 0x01, 0x02] [0x30] false
      [0x30, 0x06, 0x02, 0x01, 0x01, 0x02, 0x01, 0x02] := ⟨isId_sequence, by decide, by decide +kernel⟩
  have h2 : BerValue [0x30, 0x80, 0x30, 0x06, 0x02, 0x01, 0x01, 0x02, 0x01, 0x02, 0x00, 0x00] [0x30] true
      [0x30, 0x06, 0x02, 0x01, 0x01, 0x02, 0x01, 0x02, 0x00, 0x00] :=
    ⟨isId_sequence, [0x30, 0x06, 0x02, 0x01, 0x01, 0x02, 0x01, 0x02], .cons _ [] hb (by decide) .nil, rfl, rfl⟩
  refine ⟨berValue_isBer h1, berValue_isBer h2, ?_, ?_, ?_⟩
  · exact .form _ _ [0x30] false true _ _ [0x30, 0x06, 0x02, 0x01, 0x01, 0x02, 0x01, 0x02]
      [0x30, 0x06, 0x02, 0x01, 0x01, 0x02, 0x01, 0x02] [] [] h1 h2 (by decide) rfl rfl
      (.same _ [] [] hb .nil) .nil
  · change fromBer (De.btreeMap m compare (De.int m .u8) (De.int m .u8)) _ = _
    cases m <;> decide +kernel
  · change fromBer (De.btreeMap m compare (De.int m .u8) (De.int m .u8)) _ = _
    cases m <;> decide +kernel

/-- **C47, exactly, for every type.** If a BER value is accepted, a value that differs from it only in the forms of the lengths of constructed
values, at any depth, is accepted if and only if its key-value pairs have no end-of-contents behind the value; and then it is decoded
to the same value. -/
theorem C47_forms_iff (m : Build) (o : HashOrder) (t : Ty α) (hd : t.deserializable)
    (p p' : Bytes) (hp : IsBer p) (hl : p.length ≤ isizeMax) (hl' : p'.length ≤ isizeMax)
    (hs : SameSeq p p') (v : α) (h : fromBer (Ty.de m o t) p = .ok v) (id raw : Bytes) (d : Bool) (hp' : BerValue p' id d raw) :
    (fromBer (Ty.de m o t) p' = .ok v ↔ t.barePairs id d raw) ∧
    (¬ t.barePairs id d raw → ∀ v', fromBer (Ty.de m o t) p' ≠ .ok v') := by
  obtain ⟨id1, d1, raw1, k1⟩ := isBer_berValue hp
  have := berValue_length k1
  have := berValue_length hp'
  obtain ⟨rfl, ha, _⟩ := SeqAlike.uncons (c := []) (c' := []) (.inr (by rwa [List.append_nil, List.append_nil])) k1 hp'
  rw [fromBer_value _ k1, Ty.fromBer_iff m o t hd _ _ _ _ (by omega)] at h
  have hc := Ty.carries (decide (m = .release)) o.order t
  rw [fromBer_value _ hp']
  refine ⟨?_, fun hn v' h' => hn ?_⟩
  · rw [Ty.fromBer_iff m o t hd _ _ _ _ (by omega)]
    exact ⟨hc.1 _ _ _ _, hc.2 _ _ _ _ _ _ ha h⟩
  · rw [Ty.fromBer_iff m o t hd _ _ _ _ (by omega)] at h'
    exact hc.1 _ _ _ _ h'

/-- The pairs of `{1: 2}` in definite and in indefinite form. -/
example : (Ty.btreeMap compare inferInstance inferInstance (.int .u8) (.int .u8)).barePairs [0x30] true
      [0x30, 0x06, 0x02, 0x01, 0x01, 0x02, 0x01, 0x02, 0x00, 0x00] ∧
    ¬ (Ty.btreeMap compare inferInstance inferInstance (.int .u8) (.int .u8)).barePairs [0x30] false
      [0x30, 0x80, 0x02, 0x01, 0x01, 0x02, 0x01, 0x02, 0x00, 0x00] := by
  have hid : IsId [0x02] := ⟨0, 0, 2, by decide, by decide, by decide +kernel⟩
  have h1 : BerValue [0x02, 0x01, 0x01] [0x02] false [0x01] := ⟨hid, by decide, by decide +kernel⟩
  have h2 : BerValue [0x02, 0x01, 0x02] [0x02] false [0x02] := ⟨hid, by decide, by decide +kernel⟩
  constructor
  · refine ⟨[0x30, 0x06, 0x02, 0x01, 0x01, 0x02, 0x01, 0x02], rfl, ?_⟩
    exact .cons [0x30, 0x06, 0x02, 0x01, 0x01, 0x02, 0x01, 0x02] [0x30] false [0x02, 0x01, 0x01, 0x02, 0x01, 0x02] []
      ⟨isId_sequence, by decide, by decide +kernel⟩
      ⟨_, _, _, _, _, _, _, _, h1, trivial, h2, trivial, rfl⟩ .nil
  · rintro ⟨c, hc, h⟩
    cases hc
    generalize hx : ([0x30, 0x80, 0x02, 0x01, 0x01, 0x02, 0x01, 0x02, 0x00, 0x00] : List UInt8) = x at h
    have hb : BerValue [0x30, 0x80, 0x02, 0x01, 0x01, 0x02, 0x01, 0x02, 0x00, 0x00] [0x30] true
        [0x02, 0x01, 0x01, 0x02, 0x01, 0x02, 0x00, 0x00] :=
      ⟨isId_sequence, [0x02, 0x01, 0x01, 0x02, 0x01, 0x02],
        .cons _ _ (berValue_isBer h1) (by decide) (.cons _ [] (berValue_isBer h2) (by decide) .nil), rfl, rfl⟩
    cases h with
    | nil => cases hx
    | cons p id d raw c hv hx' _ =>
      rw [← List.append_nil [0x30, 0x80, 0x02, 0x01, 0x01, 0x02, 0x01, 0x02, 0x00, 0x00]] at hx
      obtain ⟨rfl, rfl⟩ := isBer_prefix_free (berValue_isBer hb) (berValue_isBer hv) hx
      obtain ⟨_, _, rfl⟩ := berValue_unique hb hv
      obtain ⟨pk, _, _, _, pv, _, _, _, k1, _, k2, _, e⟩ := hx'
      obtain ⟨_, e2⟩ := isBer_prefix_free (berValue_isBer h1) (berValue_isBer k1) (show [0x02, 0x01, 0x01] ++ [0x02, 0x01, 0x02, 0x00, 0x00] = _ from e)
      rw [← List.append_nil pv] at e2
      obtain ⟨_, e⟩ := isBer_prefix_free (berValue_isBer h2) (berValue_isBer k2) (show [0x02, 0x01, 0x02] ++ [0x00, 0x00] = _ from e2)
      cases e

/-- An oddity that `barePairs` allows for: where the values have the identifier of end-of-contents, the end-of-contents of an indefinite pair is
taken for the value. -/
example (m : Build) (o : HashOrder) :
    fromBer (Ty.de m o (.btreeMap compare inferInstance inferInstance (.int .u8) (.struct [0x00] .nil)))
      [0x30, 0x07, 0x30, 0x80, 0x02, 0x01, 0x01, 0x00, 0x00] = .ok [(1, ())] := by
  change fromBer (De.btreeMap m compare (De.int m .u8) (De.struct m [0x00] .nil)) _ = _
  cases m <;> decide +kernel

end Bsn1
