import Verif.Spec.Tree
import Verif.Props.Document
import Verif.Props.NormalForm
/-!
# C108: what is serialized is a document to the innermost level
-/

namespace Bsn1
open Spec

variable {α β : Type}

theorem around_octets (id : Bytes) (cs : Docs) : (Doc.around id cs).octets = tlv id cs.octets := by
  unfold Doc.around; split <;> rfl

theorem ofList_octets : ∀ (l : List Doc), (Docs.ofList l).octets = l.flatMap Doc.octets
  | [] => rfl
  | d :: r => by simp [Docs.ofList, Docs.octets, ofList_octets r]

theorem pair_octets (k v : Doc) : (Doc.pair k v).octets = pairOctets k.octets v.octets := by
  simp [Doc.pair, Doc.octets, Docs.octets, pairOctets]

mutual
theorem Ty.doc_octets : {α : Type} → (t : Ty α) → (v : α) → (t.doc v).octets = t.der v
  | _, .bool, _ => rfl
  | _, .int _, _ => rfl
  | _, .string, _ => rfl
  | _, .octetString, _ => rfl
  | _, .vec t, v | _, .linkedList t, v | _, .vecDeque t, v | _, .btreeSet _ _ _ t, v | _, .hashSet _ t, v => by
    have h := Ty.doc_octets t
    simp only [Ty.doc, Ty.der, Ty.enc, tlvOf, Doc.octets, ofList_octets, List.flatMap_map, h]
  | _, .btreeMap _ _ _ k t, v | _, .hashMap _ k t, v => by
    have h := Ty.doc_octets t
    have h' := Ty.doc_octets k
    simp only [Ty.doc, Ty.der, Ty.enc, tlvOf, Doc.octets, ofList_octets, List.flatMap_map, pair_octets, h, h']
  | _, .struct id fs, v => by simp only [Ty.doc, around_octets, Fields.docs_octets fs v, Ty.der, Ty.enc, tlvOf]
  | _, .enum vs, v => by simp only [Ty.doc, Variants.doc_octets vs v, Ty.der, Ty.enc]
  | _, .transparent fs, v => by simp only [Ty.doc, Fields.docOne_octets fs v, Ty.der, Ty.enc]
  | _, .conv t f _, v => Ty.doc_octets t (f v)
  | _, .named t f _ _ _, v => Ty.doc_octets t (f v)
  | _, .hole, _ => rfl
theorem Fields.docs_octets : {γ : Type} → (fs : Fields γ) → (v : γ) → (fs.docs v).octets = fs.enc v
  | _, .nil, _ => rfl
  | _, .plain t r, v => by simp only [Fields.docs, Docs.octets, Ty.doc_octets t v.1, Fields.docs_octets r v.2, Ty.der, Fields.enc]
  | _, .skip _ r, v => Fields.docs_octets r v.2
  | _, .skipSer _ r, v => Fields.docs_octets r v.2
  | _, .skipDe t _ r, v => by simp only [Fields.docs, Docs.octets, Ty.doc_octets t v.1, Fields.docs_octets r v.2, Ty.der, Fields.enc]
  | _, .conv t f _ r, v => by simp only [Fields.docs, Docs.octets, Ty.doc_octets t (f v.1), Fields.docs_octets r v.2, Ty.der, Fields.enc]
theorem Fields.docOne_octets : {γ : Type} → (fs : Fields γ) → (v : γ) → (fs.docOne v).octets = tlvOf (fs.encOne v)
  | _, .nil, _ => rfl
  | _, .plain t _, v => Ty.doc_octets t v.1
  | _, .skip _ r, v => Fields.docOne_octets r v.2
  | _, .skipSer _ r, v => Fields.docOne_octets r v.2
  | _, .skipDe t _ _, v => Ty.doc_octets t v.1
  | _, .conv t f _ _, v => Ty.doc_octets t (f v.1)
theorem Variants.doc_octets : {ρ : Type} → (vs : Variants ρ) → (v : ρ) → (vs.doc v).octets = tlvOf (vs.enc v)
  | _, .cons id fs _, .inl v => by simp only [Variants.doc, around_octets, Fields.docs_octets fs v, Variants.enc, tlvOf]
  | _, .cons _ _ r, .inr v => Variants.doc_octets r v
end

theorem ofList_ok : ∀ {l : List Doc}, (∀ d ∈ l, d.Ok ∧ d.Definite) → (Docs.ofList l).Ok ∧ (Docs.ofList l).Definite
  | [], _ => ⟨trivial, trivial⟩
  | d :: r, h =>
    have h1 := h d (by simp)
    have h2 := ofList_ok fun x hx => h x (List.mem_cons_of_mem d hx)
    ⟨⟨h1.1, h2.1⟩, h1.2, h2.2⟩

theorem sequence_form : HasForm 1 ([0x30] : Bytes) := ⟨0, 16, by decide, by decide +kernel⟩
theorem set_form : HasForm 1 ([0x31] : Bytes) := ⟨0, 17, by decide, by decide +kernel⟩

theorem pair_ok {k v : Doc} (hk : k.Ok ∧ k.Definite) (hv : v.Ok ∧ v.Definite) : (Doc.pair k v).Ok ∧ (Doc.pair k v).Definite :=
  ⟨⟨sequence_form, hk.1, hv.1, trivial⟩, rfl, hk.2, hv.2, trivial⟩

theorem constructedBit_form {p : Nat} (hp : p < 2) {id : Bytes} (h : HasForm p id) : constructedBit id = (p == 1) := by
  obtain ⟨c, n, hc, rfl⟩ := h
  obtain ⟨r, hr⟩ := idOctets_cons c p n
  have hn : (if n < 31 then n else 31) < 32 := by split <;> omega
  have e : (64 * c + 32 * p + if n < 31 then n else 31) / 32 % 2 = p := by omega
  rw [hr, constructedBit, UInt8.toNat_ofNat', Nat.mod_eq_of_lt (a := 64 * c + 32 * p + if n < 31 then n else 31) (b := 2 ^ 8) (by omega), e]

theorem around_ok {id : Bytes} {cs : Docs} (hid : IsId id) (h : cs.Ok ∧ cs.Definite) : (Doc.around id cs).Ok ∧ (Doc.around id cs).Definite := by
  rcases isId_hasForm hid with hf | hf
  · rw [Doc.around, constructedBit_form (by omega) hf]
    exact ⟨hf, trivial⟩
  · rw [Doc.around, constructedBit_form (by omega) hf]
    exact ⟨⟨hf, h.1⟩, rfl, h.2⟩

mutual
theorem Ty.doc_ok : {α : Type} → (t : Ty α) → t.serializable → (v : α) → (t.doc v).Ok ∧ (t.doc v).Definite
  | _, .bool, _, _ => ⟨⟨0, 1, by decide, by decide +kernel⟩, trivial⟩
  | _, .int _, _, _ => ⟨⟨0, 2, by decide, by decide +kernel⟩, trivial⟩
  | _, .string, _, _ => ⟨⟨0, 12, by decide, by decide +kernel⟩, trivial⟩
  | _, .octetString, _, _ => ⟨⟨0, 4, by decide, by decide +kernel⟩, trivial⟩
  | _, .vec t, h, v | _, .linkedList t, h, v | _, .vecDeque t, h, v | _, .btreeSet _ _ _ t, h, v => by
    have h' : ∀ d ∈ v.map fun x => t.doc x, d.Ok ∧ d.Definite := by
      intro d hd
      obtain ⟨x, -, rfl⟩ := List.mem_map.1 hd
      exact Ty.doc_ok t h x
    exact ⟨⟨sequence_form, (ofList_ok h').1⟩, rfl, (ofList_ok h').2⟩
  | _, .hashSet _ t, h, v => by
    have h' : ∀ d ∈ v.map fun x => t.doc x, d.Ok ∧ d.Definite := by
      intro d hd
      obtain ⟨x, -, rfl⟩ := List.mem_map.1 hd
      exact Ty.doc_ok t h x
    exact ⟨⟨set_form, (ofList_ok h').1⟩, rfl, (ofList_ok h').2⟩
  | _, .btreeMap _ _ _ k t, h, v => by
    have h' : ∀ d ∈ v.map fun x => Doc.pair (k.doc x.1) (t.doc x.2), d.Ok ∧ d.Definite := by
      intro d hd
      obtain ⟨x, -, rfl⟩ := List.mem_map.1 hd
      exact pair_ok (Ty.doc_ok k h.1 x.1) (Ty.doc_ok t h.2 x.2)
    exact ⟨⟨sequence_form, (ofList_ok h').1⟩, rfl, (ofList_ok h').2⟩
  | _, .hashMap _ k t, h, v => by
    have h' : ∀ d ∈ v.map fun x => Doc.pair (k.doc x.1) (t.doc x.2), d.Ok ∧ d.Definite := by
      intro d hd
      obtain ⟨x, -, rfl⟩ := List.mem_map.1 hd
      exact pair_ok (Ty.doc_ok k h.1 x.1) (Ty.doc_ok t h.2.1 x.2)
    exact ⟨⟨set_form, (ofList_ok h').1⟩, rfl, (ofList_ok h').2⟩
  | _, .struct _ fs, h, v => around_ok h.1 (Fields.docs_ok fs h.2 v)
  | _, .enum vs, h, v => Variants.doc_ok vs h v
  | _, .transparent fs, h, v => Fields.docOne_ok fs h.2 (by rw [h.1]; omega) v
  | _, .conv t f _, h, v => Ty.doc_ok t h (f v)
  | _, .named t f _ _ _, h, v => Ty.doc_ok t h (f v)
  | _, .hole, _, _ => ⟨⟨0, 5, by decide, by decide +kernel⟩, trivial⟩
theorem Fields.docs_ok : {γ : Type} → (fs : Fields γ) → fs.serializable → (v : γ) → (fs.docs v).Ok ∧ (fs.docs v).Definite
  | _, .nil, _, _ => ⟨trivial, trivial⟩
  | _, .plain t r, h, v =>
    have h1 := Ty.doc_ok t h.1 v.1
    have h2 := Fields.docs_ok r h.2 v.2
    ⟨⟨h1.1, h2.1⟩, h1.2, h2.2⟩
  | _, .skip _ r, h, v => Fields.docs_ok r h v.2
  | _, .skipSer _ r, h, v => Fields.docs_ok r h v.2
  | _, .skipDe t _ r, h, v =>
    have h1 := Ty.doc_ok t h.1 v.1
    have h2 := Fields.docs_ok r h.2 v.2
    ⟨⟨h1.1, h2.1⟩, h1.2, h2.2⟩
  | _, .conv t f _ r, h, v =>
    have h1 := Ty.doc_ok t h.1 (f v.1)
    have h2 := Fields.docs_ok r h.2 v.2
    ⟨⟨h1.1, h2.1⟩, h1.2, h2.2⟩
theorem Fields.docOne_ok : {γ : Type} → (fs : Fields γ) → fs.serializable → 0 < fs.serCount → (v : γ) → (fs.docOne v).Ok ∧ (fs.docOne v).Definite
  | _, .nil, _, h, _ => absurd h (by simp [Fields.serCount])
  | _, .plain t _, h, _, v => Ty.doc_ok t h.1 v.1
  | _, .skip _ r, h, hc, v => Fields.docOne_ok r h hc v.2
  | _, .skipSer _ r, h, hc, v => Fields.docOne_ok r h hc v.2
  | _, .skipDe t _ _, h, _, v => Ty.doc_ok t h.1 v.1
  | _, .conv t f _ _, h, _, v => Ty.doc_ok t h.1 (f v.1)
theorem Variants.doc_ok : {ρ : Type} → (vs : Variants ρ) → vs.serializable → (v : ρ) → (vs.doc v).Ok ∧ (vs.doc v).Definite
  | _, .cons _ fs _, h, .inl v => around_ok h.1 (Fields.docs_ok fs h.2.1 v)
  | _, .cons _ _ r, h, .inr v => Variants.doc_ok r h.2.2 v
end

/-- **C108.** Whoever takes the octets of `to_der` apart at every level, with `DerRef::parse` or with `BerRef::parse`, meets no error and sees the tree of the value. -/
theorem C108_to_der_document (m : Build) (t : Ty α) (hs : t.serializable) (v : α) (hok : t.ok v) (hfit : (t.der v).length ≤ isizeMax) (fuel : Nat)
    (hf : (t.der v).length < fuel) :
    (toDer m (Ty.ser m t) v).bind (readDers fuel) = .ok (.cons (t.doc v) .nil) ∧
    (toDer m (Ty.ser m t) v).bind (readBers fuel) = .ok (.cons (t.doc v) .nil) := by
  have hi := isizeMax_eq
  have h := Ty.doc_ok t hs v
  have e : t.der v = (Docs.cons (t.doc v) .nil).octets := by simp [Docs.octets, Ty.doc_octets]
  rw [(C41_to_der m t hs v hok hfit).1]
  exact ⟨(C107_read_der_iff fuel _ _ hf (by omega)).2 ⟨⟨h.1, trivial⟩, ⟨h.2, trivial⟩, e⟩, (C107_read_ber_iff fuel _ _ hf hfit).2 ⟨⟨h.1, trivial⟩, e⟩⟩

example (m : Build) := C108_to_der_document m sampleTy sample_serializable sampleVal sample_ok (by rw [sample_der]; decide) 100 (by rw [sample_der]; decide)

/-- The tree of that value, a variant `[APPLICATION 5]` with an integer, an octet string and a map from strings to lists of integers; and of a struct with a primitive identifier,
into which nobody can look. -/
example : sampleTy.doc sampleVal = .node [0x65] false (.cons (.leaf [0x02] [0x00, 0xc8]) (.cons (.leaf [0x04] [0x07]) (.cons (.node [0x30] false
      (.cons (.node [0x30] false (.cons (.leaf [0x0c] [0x61]) (.cons (.node [0x30] false (.cons (.leaf [0x02] [0x01]) (.cons (.leaf [0x02] [0xfe]) .nil))) .nil)))
        (.cons (.node [0x30] false (.cons (.leaf [0x0c] [0x62]) (.cons (.node [0x30] false .nil) .nil))) .nil))) .nil))) ∧
    (Ty.struct [0x81] (.plain .bool (.plain (.int .u8) .nil))).doc (true, 5, ()) = .leaf [0x81] [0x01, 0x01, 0xff, 0x02, 0x01, 0x05] := by
  decide +kernel

/-- **C108.** Data of one type is read as another type exactly when the trees agree: `from_der` of `u` on what `to_der` of `t` wrote gives `w` if and only if `w` is a value of `u`
with the same tree. -/
theorem C108_interchange_iff (m m' : Build) (o : HashOrder) (t : Ty α) (u : Ty β) (ht : t.serializable) (v : α) (hok : t.ok v)
    (hfit : (t.der v).length ≤ isizeMax) (hs : u.serializable) (hd : u.deserializable) (hr : u.restorable) (he : u.exact) (hc : u.canonical) (w : β) :
    (toDer m (Ty.ser m t) v >>= fun p => fromDer (Ty.de m' o u) p) = .ok w ↔ u.ok w ∧ u.doc w = t.doc v := by
  rw [(C41_to_der m t ht v hok hfit).1, Res.bind_ok]
  have hp := DerRef_parse_tlv (Ty.enc_isId t ht v) (fits_lt (fits_contents hfit)) []
  rw [List.append_nil] at hp
  constructor
  · intro h
    have hi : IsDer (t.der v) := ((C19_der_parse_iff _ _ _).1 hp).1
    have hw : u.ok w := (C68_decoded_valid m' o u hd (Ty.canonical_wellTyped u hc) (t.der v) hfit w).1 hi h
    have h' := h
    rw [Ty.der, tlvOf, fromDer_tlv _ (Ty.enc_isId t ht v) (fits_lt (fits_contents hfit)), Ty.fromDer_iff m' o u hd] at h'
    have e : u.der w = t.der v := by rw [Ty.der, Ty.canonical_enc _ u hc _ _ w h', Ty.der]
    have e' : (Docs.cons (u.doc w) .nil).octets = (Docs.cons (t.doc v) .nil).octets := by simp [Docs.octets, Ty.doc_octets, e]
    have := (C107_injective (.cons (u.doc w) .nil) (.cons (t.doc v) .nil) ⟨(Ty.doc_ok u hs w).1, trivial⟩ ⟨(Ty.doc_ok t ht v).1, trivial⟩
      (by simpa [Docs.octets, Ty.doc_octets, e] using hfit)).1 e'
    exact ⟨hw, (Docs.cons.inj this).1⟩
  · rintro ⟨hw, e⟩
    have e' : u.der w = t.der v := by rw [← Ty.doc_octets, ← Ty.doc_octets, e]
    have := C43_der_round_trip_exact m m' o u hs hd hr he w hw (Ty.canonical_convertible u hc w) (by rw [e']; exact hfit)
    rwa [(C41_to_der m u hs w hw (by rw [e']; exact hfit)).1, Res.bind_ok, e'] at this

/-- A list of two `u8` is read as a struct of an `i16` and a `u64`; a list of three is not, nor is one with a number out of range. -/
example : (Ty.struct [0x30] (.plain (.int .i16) (.plain (.int .u64) .nil))).doc (1, 200, ()) = (Ty.vec (.int .u8)).doc [1, 200] ∧
    (Ty.struct [0x30] (.plain (.int .i16) (.plain (.int .u64) .nil))).ok (1, 200, ()) ∧
    (Ty.struct [0x30] (.plain (.int .i16) (.plain (.int .u64) .nil))).canonical ∧ (Ty.struct [0x30] (.plain (.int .i16) (.plain (.int .u64) .nil))).exact ∧
    ∀ w, (Ty.struct [0x30] (.plain (.int .i16) (.plain (.int .u64) .nil))).doc w ≠ (Ty.vec (.int .u8)).doc [1, 2, 3] := by
  refine ⟨by decide +kernel, by simp [Ty.ok, Fields.ok, IntTy.InRange, IntTy.minVal, IntTy.maxVal, IntTy.signed, IntTy.size], ⟨trivial, trivial, trivial⟩, ⟨trivial, trivial, trivial⟩, ?_⟩
  rintro ⟨a, b, c⟩ h
  simp [Ty.doc, Doc.around, constructedBit, Fields.docs, Docs.ofList] at h

end Bsn1
