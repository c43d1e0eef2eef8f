import Verif.Lemmas.Part
import Verif.Props.Tree
import Verif.Props.Edits
/-!
# C123: the parts of a value are found in its encoding, and changed there

A value is serialized; a program that does not deserialize it looks for a part of it by its place, or puts another in its place.
-/

namespace Bsn1
open Spec

variable {α β : Type} {u : Ty β} {y : β}

theorem part_facts {p : List Nat} {key : Bool} {t : Ty α} {v : α} {put : β → α} (hp : Ty.Part u y p key t v put) (hs : t.serializable) :
    (Docs.cons (t.doc v) .nil).Ok ∧ (Docs.cons (t.doc v) .nil).Definite ∧ (Docs.cons (t.doc v) .nil).octets = t.der v ∧
    (Docs.cons (t.doc v) .nil).at (0 :: p) = some (u.doc y) ∧ ∀ z, Docs.put (u.doc z) (.cons (t.doc v) .nil) (0 :: p) = .cons (t.doc (put z)) .nil := by
  obtain ⟨h1, h2⟩ := Ty.doc_ok t hs v
  obtain ⟨h3, h4⟩ := hp.inTree
  exact ⟨⟨h1, trivial⟩, ⟨h2, trivial⟩, by simp [Docs.octets, Ty.doc_octets], h3, fun z => by simp [Docs.put, h4 z]⟩

/-- **C123.** In what `to_der` gives, a program that knows only the place finds exactly the encoding of the part there, and deserializes it to the part. -/
theorem C123_lookup (m m' : Build) (o : HashOrder) (t : Ty α) (hs : t.serializable) (v : α) (hok : t.ok v) (hfit : (t.der v).length ≤ isizeMax)
    (u : Ty β) (y : β) (p : List Nat) (key : Bool) (put : β → α) (hp : Ty.Part u y p key t v put) :
    (toDer m (Ty.ser m t) v).bind (getDer (0 :: p)) = toDer m (Ty.ser m u) y ∧ (toDer m (Ty.ser m t) v).bind (getBer (0 :: p)) = toDer m (Ty.ser m u) y ∧
    (u.deserializable → u.restorable → u.convertible y →
      ∃ w, ((toDer m (Ty.ser m t) v).bind (getDer (0 :: p))).bind (fromDer (Ty.de m' o u)) = .ok w ∧ u.restores y w) := by
  obtain ⟨h1, h2, h3, h4, -⟩ := part_facts hp hs
  have hx := at_length h4
  rw [h3, Ty.doc_octets] at hx
  have hy : (u.der y).length ≤ isizeMax := by omega
  have hoy := (hp.okay hok).1
  have hsu := hp.ser hs
  obtain ⟨h5, h6⟩ := C116_get _ _ _ h1 (by rw [h3]; exact hfit) h4
  rw [h3, Ty.doc_octets] at h5 h6
  rw [(C41_to_der m t hs v hok hfit).1, (C41_to_der m u hsu y hoy hy).1]
  refine ⟨h6 h2, h5, fun hd hr hc => ?_⟩
  obtain ⟨q, w, h7, h8, h9⟩ := C43_der_round_trip m m' o u hsu hd hr y hoy hc hy
  rw [(C41_to_der m u hsu y hoy hy).1] at h7
  cases h7
  refine ⟨w, ?_, h9⟩
  simp only [Res.bind]
  rw [h6 h2]
  exact h8

/-- The part at `fields[2]["a"][1]` of the sample: the map is the third encoded field, as the second one is skipped. -/
def samplePut (z : Int) : Unit ⊕ ((Int × Bool × Int × List (String × List Int) × Unit) ⊕ Empty) :=
  .inr (.inl (200, false, 1, [("a", [1, z]), ("b", [])], ()))

theorem sample_part : Ty.Part (.int .i16) (-2) [2, 0, 1, 1] false sampleTy sampleVal samplePut := by
  have h1 : Ty.Part (.int .i16) (-2) [1] false (.vec (.int .i16)) [1, -2] (fun z => [1, z]) := .vec (i := 1) (l := [1, -2]) rfl .here
  have h2 : Ty.Part (.int .i16) (-2) [0, 1, 1] false (.btreeMap compare inferInstance inferInstance .string (.vec (.int .i16))) [("a", [1, -2]), ("b", [])]
      (fun z => [("a", [1, z]), ("b", [])]) := .btreeValue (i := 0) (l := [("a", [1, -2]), ("b", [])]) rfl h1
  exact .enum (.other (.this rfl (.afterPlain (.afterSkip (.afterConv (.plain (v := ([("a", [1, -2]), ("b", [])], ())) h2))))))

/-- The key `"b"`. -/
theorem sample_key : Ty.Part .string "b" [2, 1, 0] true sampleTy sampleVal
    (fun z => .inr (.inl (200, false, 1, [("a", [1, -2]), (z, [])], ()))) :=
  .enum (.other (.this rfl (.afterPlain (.afterSkip (.afterConv (.plain (v := ([("a", [1, -2]), ("b", [])], ()))
    (.btreeKey (i := 1) (l := [("a", [1, -2]), ("b", [])]) rfl .here)))))))

/-- The converted field. -/
theorem sample_conv : Ty.Part (.conv .octetString (fun v : Int => if v = 0 then [] else [7]) (.from_ fun b => if b = [] then 0 else 1)) 1 [1] false sampleTy sampleVal
    (fun z => .inr (.inl (200, false, z, [("a", [1, -2]), ("b", [])], ()))) :=
  .enum (.other (.this rfl (.afterPlain (.afterSkip (.conv (v := (1, [("a", [1, -2]), ("b", [])], ())) .here)))))

example (m m' : Build) (o : HashOrder) := C123_lookup m m' o sampleTy sample_serializable sampleVal sample_ok (by rw [sample_der]; decide) _ _ _ _ _ sample_part
example (m m' : Build) (o : HashOrder) := C123_lookup m m' o sampleTy sample_serializable sampleVal sample_ok (by rw [sample_der]; decide) _ _ _ _ _ sample_conv
example : (toDer .release (Ty.ser .release sampleTy) sampleVal).bind (getDer [0, 2, 0, 1, 1]) = .ok [0x02, 0x01, 0xfe] := by decide +kernel

theorem tlv_length_inj {id c c' : Bytes} : (tlv id c).length = (tlv id c').length ↔ c.length = c'.length := by
  rw [tlv_length, tlv_length]
  constructor
  · intro h
    rcases Nat.lt_trichotomy c.length c'.length with h1 | h1 | h1
    · have := lenOctets_length_mono h1.le; omega
    · exact h1
    · have := lenOctets_length_mono h1.le; omega
  · intro h; rw [h]

/-- **C123.** Another value of the part's type, with the same identifier, is put in its place in the encoding: the octets are then what `to_der` gives for the value with this
part replaced, if the encodings of both are of the same length, and otherwise there is a panic. -/
theorem C123_replace (m : Build) (t : Ty α) (hs : t.serializable) (v : α) (hok : t.ok v) (hfit : (t.der v).length ≤ isizeMax)
    (u : Ty β) (y : β) (p : List Nat) (key : Bool) (put : β → α) (hp : Ty.Part u y p key t v put) (z : β) (hz : u.ok z) (hzf : (u.der z).length ≤ isizeMax)
    (hid : (u.enc z).1 = (u.enc y).1) (hk : key = false ∨ t.ok (put z)) :
    (toDer m (Ty.ser m t) v).bind (fun bytes => (toDer m (Ty.ser m u) z).bind fun new => replaceDer (0 :: p) new bytes) =
      (if (u.der z).length = (u.der y).length then toDer m (Ty.ser m t) (put z) else .panic) ∧
    (toDer m (Ty.ser m t) v).bind (fun bytes => (toDer m (Ty.ser m u) z).bind fun new => replaceBer (0 :: p) new bytes) =
      (if (u.der z).length = (u.der y).length then toDer m (Ty.ser m t) (put z) else .panic) := by
  obtain ⟨h1, h2, h3, h4, h5⟩ := part_facts hp hs
  have hl : (Docs.cons (t.doc v) .nil).octets.length ≤ isizeMax := by rw [h3]; exact hfit
  have hx := at_length h4
  rw [h3, Ty.doc_octets] at hx
  have hy : (u.der y).length ≤ isizeMax := by omega
  have hoy := (hp.okay hok).1
  have hsu := hp.ser hs
  have hput : t.ok (put z) := hk.elim (fun h => (hp.okay hok).2 h z hz) id
  have hidy : IsId (u.enc y).1 := Ty.enc_isId u hsu y
  have hcl : (u.enc z).2.length ≤ isizeMax := fits_contents hzf
  have hdis : DerRef.disassemble (u.der z) = _ := disassemble_tlv (Ty.enc_isId u hsu z) (fits_lt hcl)
  have hcd : DerRef.contents (u.der z) = .ok (u.enc z).2 := by rw [DerRef.contents, hdis]; rfl
  have hcb : BerRef.contents (u.der z) = .ok (u.enc z).2 := hcd
  obtain ⟨-, ht⟩ := touch_contents hidy (u.enc y).2 hy
  obtain ⟨htb, htd⟩ := ht (u.enc z).2
  have hlen : (u.der z).length = (u.der y).length ↔ (u.enc z).2.length = (u.enc y).2.length := by
    rw [Ty.der, Ty.der, tlvOf, tlvOf, hid]; exact tlv_length_inj
  have key : ∀ (k : Bytes → Res Bytes), k (tlv (u.enc y).1 (u.enc y).2) =
        (if (u.enc z).2.length = (u.enc y).2.length then .ok (tlv (u.enc y).1 (u.enc z).2) else .panic) →
      ((k (u.doc y).octets).bind fun q => .ok (Docs.filled q (.cons (t.doc v) .nil) (0 :: p))) =
        (if (u.der z).length = (u.der y).length then toDer m (Ty.ser m t) (put z) else .panic) := by
    intro k hk
    have hk' : k (u.doc y).octets = _ := (congrArg k (Ty.doc_octets u y)).trans hk
    rw [hk']
    by_cases h : (u.enc z).2.length = (u.enc y).2.length
    · rw [if_pos h, if_pos (hlen.2 h)]
      have h6 := docs_put_octets (e := u.doc y) (f := u.doc z) (by rw [Ty.doc_octets, Ty.doc_octets]; exact hlen.2 h) _ _ h4
      rw [h5 z, Ty.doc_octets, show u.der z = tlv (u.enc y).1 (u.enc z).2 by rw [Ty.der, tlvOf, hid]] at h6
      have h7 : t.der (put z) = Docs.filled (tlv (u.enc y).1 (u.enc z).2) (.cons (t.doc v) .nil) (0 :: p) := by
        rw [← h6]; simp [Docs.octets, Ty.doc_octets]
      have h8 : (t.der (put z)).length ≤ isizeMax := by
        rw [h7, docs_filled_length h4 (by rw [Ty.doc_octets]; exact tlv_length_inj.2 h)]; exact hl
      rw [(C41_to_der m t hs (put z) hput h8).1, h7]
      rfl
    · rw [if_neg h, if_neg (fun hx => h (hlen.1 hx))]
      rfl
  rw [(C41_to_der m t hs v hok hfit).1, (C41_to_der m u hsu z hz hzf).1]
  simp only [Res.bind]
  constructor
  · rw [replaceDer, hcd, Res.bind_ok, ← h3, onDer_filled _ _ _ _ h1 h2 hl h4]
    exact key _ htd
  · rw [replaceBer, hcb, Res.bind_ok, ← h3, onBer_filled _ _ _ _ h1 hl h4]
    exact key _ htb

example (m : Build) (z : Int) (hz : IntTy.i16.InRange z) (hf : ((Ty.int .i16).der z).length ≤ isizeMax) :=
  C123_replace m sampleTy sample_serializable sampleVal sample_ok (by rw [sample_der]; decide) _ _ _ _ _ sample_part z hz hf rfl (.inl rfl)
example : (toDer .release (Ty.ser .release sampleTy) sampleVal).bind (replaceDer [0, 2, 0, 1, 1] [0x02, 0x01, 0x7f]) =
      toDer .release (Ty.ser .release sampleTy) (samplePut 127) ∧
    (toDer .release (Ty.ser .release sampleTy) sampleVal).bind (replaceDer [0, 2, 0, 1, 1] [0x02, 0x02, 0x00, 0x80]) = .panic := by
  exact ⟨by decide +kernel, by decide +kernel⟩

theorem replaced {m : Build} {t : Ty α} (hs : t.serializable) {v : α} (hok : t.ok v) (hfit : (t.der v).length ≤ isizeMax)
    {p : List Nat} {key : Bool} {put : β → α} (hp : Ty.Part u y p key t v put) {z : β} (hz : u.ok z)
    (hid : (u.enc z).1 = (u.enc y).1) (hlen : (u.der z).length = (u.der y).length) (hk : key = false ∨ t.ok (put z)) :
    t.ok (put z) ∧ (t.der (put z)).length = (t.der v).length ∧
    (toDer m (Ty.ser m t) v).bind (fun bytes => (toDer m (Ty.ser m u) z).bind fun new => replaceDer (0 :: p) new bytes) = toDer m (Ty.ser m t) (put z) := by
  obtain ⟨-, -, h3, h4, h5⟩ := part_facts hp hs
  have hx := at_length h4
  rw [h3, Ty.doc_octets] at hx
  refine ⟨hk.elim (fun h => (hp.okay hok).2 h z hz) id, ?_, ?_⟩
  · have h6 := docs_put_octets (e := u.doc y) (f := u.doc z) (by rw [Ty.doc_octets, Ty.doc_octets]; exact hlen) _ _ h4
    rw [h5 z] at h6
    have h7 : t.der (put z) = Docs.filled (u.doc z).octets (.cons (t.doc v) .nil) (0 :: p) := by
      rw [← h6]; simp [Docs.octets, Ty.doc_octets]
    rw [h7, docs_filled_length h4 (by rw [Ty.doc_octets, Ty.doc_octets]; exact hlen), h3]
  · rw [(C123_replace m t hs v hok hfit u y p key put hp z hz (by omega) hid hk).1, if_pos hlen]

/-- **C123.** What was changed in the encoding is read back as the value with the part replaced: by `from_der` and `from_ber` of the whole type. -/
theorem C123_decoded (m m' : Build) (o : HashOrder) (t : Ty α) (hs : t.serializable) (hd : t.deserializable) (hr : t.restorable) (v : α) (hok : t.ok v)
    (hc : t.convertible v) (hfit : (t.der v).length ≤ isizeMax) (u : Ty β) (y : β) (p : List Nat) (key : Bool) (put : β → α) (hp : Ty.Part u y p key t v put)
    (z : β) (hz : u.ok z) (hcz : u.convertible z) (hid : (u.enc z).1 = (u.enc y).1) (hlen : (u.der z).length = (u.der y).length) (hk : key = false ∨ t.ok (put z)) :
    ∃ bytes w, (toDer m (Ty.ser m t) v).bind (fun bytes => (toDer m (Ty.ser m u) z).bind fun new => replaceDer (0 :: p) new bytes) = .ok bytes ∧
      fromDer (Ty.de m' o t) bytes = .ok w ∧ fromBer (Ty.de m' o t) bytes = .ok w ∧ t.restores (put z) w ∧ (t.exact → w = put z) := by
  obtain ⟨h1, h2, h3⟩ := replaced (m := m) hs hok hfit hp hz hid hlen hk
  have hf : (t.der (put z)).length ≤ isizeMax := by omega
  obtain ⟨w, h5, h6⟩ := Ty.derVal_enc o t hs hr (put z) h1 (hp.convs hc z hcz) hf
  obtain ⟨hl, hl', hid'⟩ := der_enc_fits hs hf
  refine ⟨t.der (put z), w, h3.trans (C41_to_der m t hs (put z) h1 hf).1, ?_, ?_, h6, fun he => (Ty.exact_faithful t he _ _ h6)⟩
  · rw [Ty.der, tlvOf, fromDer_tlv _ hid' hl]
    exact (Ty.fromDer_iff m' o t hd _ _ _).mpr h5
  · rw [Ty.der, tlvOf, fromBer_value (indef := false) _ ⟨hid', hl, rfl⟩]
    exact (Ty.fromBer_iff m' o t hd _ false _ _ hl').mpr (Ty.derVal_berVal _ _ t _ _ _ h5)

example (m m' : Build) (o : HashOrder) := C123_decoded m m' o sampleTy sample_serializable sample_deserializable sample_restorable sampleVal sample_ok
  sample_convertible (by rw [sample_der]; decide) _ _ _ _ _ sample_part 127 (by change IntTy.i16.InRange 127; decide) trivial rfl (by decide +kernel) (.inl rfl)
example (m m' : Build) (o : HashOrder) := C123_decoded m m' o sampleTy sample_serializable sample_deserializable sample_restorable sampleVal sample_ok
  sample_convertible (by rw [sample_der]; decide) _ _ _ _ _ sample_key "c" trivial trivial rfl (by decide +kernel) (.inr (by
    refine ⟨by change IntTy.u8.InRange 200; decide, trivial, ⟨by decide +kernel, ?_⟩, trivial⟩
    intro x hx
    simp only [List.mem_cons, List.not_mem_nil, or_false] at hx
    rcases hx with rfl | rfl
    · refine ⟨trivial, fun y hy => ?_⟩
      change IntTy.i16.InRange y
      simp only [List.mem_cons, List.not_mem_nil, or_false] at hy
      rcases hy with rfl | rfl <;> decide
    · exact ⟨trivial, by intro y hy; cases hy⟩))

/-- **C123.** After the change the new part is found at the place, and each other part that is neither inside of it nor around it is found as it was. -/
theorem C123_others {δ : Type} (m : Build) (t : Ty α) (hs : t.serializable) (v : α) (hok : t.ok v) (hfit : (t.der v).length ≤ isizeMax)
    (u : Ty β) (y : β) (p : List Nat) (key : Bool) (put : β → α) (hp : Ty.Part u y p key t v put)
    (z : β) (hz : u.ok z) (hid : (u.enc z).1 = (u.enc y).1) (hlen : (u.der z).length = (u.der y).length) (hk : key = false ∨ t.ok (put z))
    (r : Ty δ) (x : δ) (q : List Nat) (key' : Bool) (put' : δ → α) (hq : Ty.Part r x q key' t v put') (ha : Apart p q) :
    ∃ bytes, (toDer m (Ty.ser m t) v).bind (fun bytes => (toDer m (Ty.ser m u) z).bind fun new => replaceDer (0 :: p) new bytes) = .ok bytes ∧
      getDer (0 :: p) bytes = toDer m (Ty.ser m u) z ∧ getDer (0 :: q) bytes = toDer m (Ty.ser m r) x := by
  obtain ⟨h1, h2, h3⟩ := replaced (m := m) hs hok hfit hp hz hid hlen hk
  obtain ⟨-, -, a3, a4, a5⟩ := part_facts hp hs
  obtain ⟨-, -, -, b4, -⟩ := part_facts hq hs
  have hf : (t.der (put z)).length ≤ isizeMax := by omega
  obtain ⟨d1, d2⟩ := Ty.doc_ok t hs (put z)
  have hoct : (Docs.cons (t.doc (put z)) .nil).octets = t.der (put z) := by simp [Docs.octets, Ty.doc_octets]
  have e1 : (Docs.cons (t.doc (put z)) .nil).at (0 :: p) = some (u.doc z) := by rw [← a5 z]; exact docs_at_put _ _ a4
  have e2 : (Docs.cons (t.doc (put z)) .nil).at (0 :: q) = some (r.doc x) := by
    rw [← a5 z, docs_put_at_apart _ _ _ _ (by simpa [Apart, List.cons_prefix_cons] using ha)]; exact b4
  have g : ∀ {ε : Type} (s : Ty ε) (k : ε) (n : List Nat), s.serializable → s.ok k → (Docs.cons (t.doc (put z)) .nil).at (0 :: n) = some (s.doc k) →
      getDer (0 :: n) (t.der (put z)) = toDer m (Ty.ser m s) k := by
    intro ε s k n hss hsk h
    have hx := at_length h
    rw [hoct, Ty.doc_octets] at hx
    have := (C116_get _ _ _ (show (Docs.cons (t.doc (put z)) .nil).Ok from ⟨d1, trivial⟩) (by rw [hoct]; exact hf) h).2 ⟨d2, trivial⟩
    rw [hoct, Ty.doc_octets] at this
    rw [this, (C41_to_der m s hss k hsk (by omega)).1]
  exact ⟨t.der (put z), h3.trans (C41_to_der m t hs (put z) h1 hf).1, g u z p (hp.ser hs) hz e1, g r x q (hq.ser hs) (hq.okay hok).1 e2⟩

example (m : Build) := C123_others m sampleTy sample_serializable sampleVal sample_ok (by rw [sample_der]; decide) _ _ _ _ _ sample_part 127
  (by change IntTy.i16.InRange 127; decide) rfl (by decide +kernel) (.inl rfl) _ _ _ _ _ sample_key ⟨by decide, by decide⟩

end Bsn1
