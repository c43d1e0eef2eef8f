import Verif.Spec.Conform
import Verif.Spec.Same
import Verif.Props.Tree
import Verif.Lemmas.Utf8
/-!
# C109: the octets of `to_der` obey the rules of DER at every level
-/

namespace Bsn1
open Spec

variable {α β : Type}

theorem ofList_toList : ∀ l : List Doc, (Docs.ofList l).toList = l
  | [] => rfl
  | d :: r => by simp [Docs.ofList, Docs.toList, ofList_toList r]

theorem ofList_conforms : ∀ l : List Doc, (Docs.ofList l).Conforms ↔ ∀ d ∈ l, d.Conforms
  | [] => by simp [Docs.ofList, Docs.Conforms]
  | d :: r => by simp [Docs.ofList, Docs.Conforms, ofList_conforms r]

theorem sequence_conforms (cs : Docs) : (Doc.node [0x30] false cs).Conforms ↔ cs.Conforms := by
  simp [Doc.Conforms, NodeRule]

theorem set_conforms (cs : Docs) : (Doc.node [0x31] false cs).Conforms ↔ (cs.toList.map Doc.octets).Pairwise (fun a b => octetsLe a b = true) ∧ cs.Conforms := by
  simp [Doc.Conforms, NodeRule]

theorem pair_conforms (k v : Doc) : (Doc.pair k v).Conforms ↔ k.Conforms ∧ v.Conforms := by
  simp [Doc.pair, sequence_conforms, Docs.Conforms]

theorem around_conforms {id : Bytes} {cs : Docs} (h : id = [0x30] ∨ ¬ UniversalClass id) : (Doc.around id cs).Conforms ↔ (constructedBit id = true → cs.Conforms) := by
  rcases h with rfl | h
  · simp [Doc.around, constructedBit, sequence_conforms]
  · have hne : ∀ b : UInt8, b.toNat < 64 → id ≠ [b] := by rintro b hb rfl; exact h hb
    rw [Doc.around]
    split
    · rename_i hc
      simp [Doc.Conforms, NodeRule, h, hc, hne 0x31 (by decide)]
    · rename_i hc
      simp [Doc.Conforms, LeafRule, hc, hne 0x01 (by decide), hne 0x02 (by decide), hne 0x05 (by decide), hne 0x0c (by decide), hne 0x10 (by decide), hne 0x11 (by decide)]

theorem list_conforms {t : Ty α} (v : List α) (h : ∀ x : α, (t.doc x).Conforms ↔ t.inOrder x) :
    (Docs.ofList (v.map fun x => t.doc x)).Conforms ↔ ∀ x ∈ v, t.inOrder x := by
  simp [ofList_conforms, h]

theorem pairs_conforms {k : Ty α} {t : Ty β} (v : List (α × β)) (h : ∀ x : α, (k.doc x).Conforms ↔ k.inOrder x) (h' : ∀ x : β, (t.doc x).Conforms ↔ t.inOrder x) :
    (Docs.ofList (v.map fun x => Doc.pair (k.doc x.1) (t.doc x.2))).Conforms ↔ ∀ x ∈ v, k.inOrder x.1 ∧ t.inOrder x.2 := by
  rw [ofList_conforms]
  refine ⟨fun hx x hv => ?_, fun hx d hd => ?_⟩
  · have := (pair_conforms _ _).1 (hx _ (List.mem_map.2 ⟨x, hv, rfl⟩))
    exact ⟨(h _).1 this.1, (h' _).1 this.2⟩
  · obtain ⟨x, hv, rfl⟩ := List.mem_map.1 hd
    exact (pair_conforms _ _).2 ⟨(h _).2 (hx x hv).1, (h' _).2 (hx x hv).2⟩

mutual
theorem Ty.conforms_iff : {α : Type} → (t : Ty α) → t.plainIds → (v : α) → ((t.doc v).Conforms ↔ t.inOrder v)
  | _, .bool, _, v => by cases v <;> simp [Ty.doc, Ty.inOrder, Doc.Conforms, LeafRule]
  | _, .int _, _, v => by simp [Ty.doc, Ty.inOrder, Doc.Conforms, LeafRule, (intOctets_spec v).1]
  | _, .string, _, v => by
    simp only [Ty.doc, Ty.inOrder, Doc.Conforms, LeafRule, iff_true]
    exact ⟨by simp, by simp, by simp, fun _ => ⟨_, (utf8_iff _ v).1 rfl⟩, by simp, by simp⟩
  | _, .octetString, _, v => by simp [Ty.doc, Ty.inOrder, Doc.Conforms, LeafRule]
  | _, .vec t, h, v | _, .linkedList t, h, v | _, .vecDeque t, h, v | _, .btreeSet _ _ _ t, h, v => by
    rw [Ty.doc, sequence_conforms, list_conforms v (Ty.conforms_iff t h), Ty.inOrder]
  | _, .btreeMap _ _ _ k t, h, v => by
    rw [Ty.doc, sequence_conforms, pairs_conforms v (Ty.conforms_iff k h.1) (Ty.conforms_iff t h.2), Ty.inOrder]
  | _, .hashSet _ t, h, v => by
    rw [Ty.doc, set_conforms, list_conforms v (Ty.conforms_iff t h), Ty.inOrder, ofList_toList, List.map_map, List.pairwise_map]
    simp only [Function.comp, Ty.doc_octets]
  | _, .hashMap _ k t, h, v => by
    rw [Ty.doc, set_conforms, pairs_conforms v (Ty.conforms_iff k h.1) (Ty.conforms_iff t h.2), Ty.inOrder, ofList_toList, List.map_map, List.pairwise_map]
    simp only [Function.comp, pair_octets, Ty.doc_octets]
  | _, .struct _ fs, h, v => by rw [Ty.doc, around_conforms h.1, Fields.conforms_iff fs h.2 v, Ty.inOrder]
  | _, .enum vs, h, v => by rw [Ty.doc, Ty.inOrder, Variants.conforms_iff vs h v]
  | _, .transparent fs, h, v => by rw [Ty.doc, Ty.inOrder, Fields.conformsOne_iff fs h v]
  | _, .conv t f _, h, v => Ty.conforms_iff t h (f v)
  | _, .named t f _ _ _, h, v => Ty.conforms_iff t h (f v)
  | _, .hole, _, _ => by simp [Ty.doc, Ty.inOrder, Doc.Conforms, LeafRule]
theorem Fields.conforms_iff : {γ : Type} → (fs : Fields γ) → fs.plainIds → (v : γ) → ((fs.docs v).Conforms ↔ fs.inOrder v)
  | _, .nil, _, _ => Iff.rfl
  | _, .plain t r, h, v => and_congr (Ty.conforms_iff t h.1 v.1) (Fields.conforms_iff r h.2 v.2)
  | _, .skip _ r, h, v => Fields.conforms_iff r h v.2
  | _, .skipSer _ r, h, v => Fields.conforms_iff r h v.2
  | _, .skipDe t _ r, h, v => and_congr (Ty.conforms_iff t h.1 v.1) (Fields.conforms_iff r h.2 v.2)
  | _, .conv t f _ r, h, v => and_congr (Ty.conforms_iff t h.1 (f v.1)) (Fields.conforms_iff r h.2 v.2)
theorem Fields.conformsOne_iff : {γ : Type} → (fs : Fields γ) → fs.plainIds → (v : γ) → ((fs.docOne v).Conforms ↔ fs.inOrderOne v)
  | _, .nil, _, _ => by simp [Fields.docOne, Fields.inOrderOne, Doc.Conforms, LeafRule]
  | _, .plain t _, h, v => Ty.conforms_iff t h.1 v.1
  | _, .skip _ r, h, v => Fields.conformsOne_iff r h v.2
  | _, .skipSer _ r, h, v => Fields.conformsOne_iff r h v.2
  | _, .skipDe t _ _, h, v => Ty.conforms_iff t h.1 v.1
  | _, .conv t f _ _, h, v => Ty.conforms_iff t h.1 (f v.1)
theorem Variants.conforms_iff : {ρ : Type} → (vs : Variants ρ) → vs.plainIds → (v : ρ) → ((vs.doc v).Conforms ↔ vs.inOrder v)
  | _, .cons _ fs _, h, .inl v => by rw [Variants.doc, around_conforms h.1, Fields.conforms_iff fs h.2.1 v, Variants.inOrder]
  | _, .cons _ _ r, h, .inr v => Variants.conforms_iff r h.2.2 v
end

/-- **C109.** What `to_der` writes obeys the rules of X.690 for DER at every level exactly if each `HashSet` and `HashMap` in the value happens to be iterated in the order of
the encodings. -/
theorem C109_conforms_iff (m : Build) (t : Ty α) (hs : t.serializable) (hp : t.plainIds) (v : α) (hok : t.ok v) (hfit : (t.der v).length ≤ isizeMax) (fuel : Nat)
    (hf : (t.der v).length < fuel) :
    ∃ d, (toDer m (Ty.ser m t) v).bind (readDers fuel) = .ok (.cons d .nil) ∧ (d.Conforms ↔ t.inOrder v) :=
  ⟨t.doc v, (C108_to_der_document m t hs v hok hfit fuel hf).1, Ty.conforms_iff t hp v⟩

/-- A set of `u8`, here one that is iterated in the order of the encodings. -/
example (m : Build) := C109_conforms_iff m (.hashSet (α := Int) inferInstance (.int .u8)) trivial trivial [3, 200]
  ⟨by decide, (by decide : ∀ x ∈ ([3, 200] : List Int), IntTy.u8.InRange x)⟩ (by decide +kernel) 100 (by decide +kernel)

mutual
theorem Ty.hashFree_inOrder : {α : Type} → (t : Ty α) → t.hashFree → (v : α) → t.inOrder v
  | _, .bool, _, _ => trivial
  | _, .int _, _, _ => trivial
  | _, .string, _, _ => trivial
  | _, .octetString, _, _ => trivial
  | _, .vec t, h, _ | _, .linkedList t, h, _ | _, .vecDeque t, h, _ | _, .btreeSet _ _ _ t, h, _ => fun x _ => Ty.hashFree_inOrder t h x
  | _, .btreeMap _ _ _ k t, h, _ => fun x _ => ⟨Ty.hashFree_inOrder k h.1 x.1, Ty.hashFree_inOrder t h.2 x.2⟩
  | _, .hashSet _ _, h, _ => h.elim
  | _, .hashMap _ _ _, h, _ => h.elim
  | _, .struct _ fs, h, v => fun _ => Fields.hashFree_inOrder fs h v
  | _, .enum vs, h, v => Variants.hashFree_inOrder vs h v
  | _, .transparent fs, h, v => Fields.hashFree_inOrderOne fs h v
  | _, .conv t f _, h, v => Ty.hashFree_inOrder t h (f v)
  | _, .named t f _ _ _, h, v => Ty.hashFree_inOrder t h (f v)
  | _, .hole, _, _ => trivial
theorem Fields.hashFree_inOrder : {γ : Type} → (fs : Fields γ) → fs.hashFree → (v : γ) → fs.inOrder v
  | _, .nil, _, _ => trivial
  | _, .plain t r, h, v => ⟨Ty.hashFree_inOrder t h.1 v.1, Fields.hashFree_inOrder r h.2 v.2⟩
  | _, .skip _ r, h, v => Fields.hashFree_inOrder r h v.2
  | _, .skipSer _ r, h, v => Fields.hashFree_inOrder r h v.2
  | _, .skipDe t _ r, h, v => ⟨Ty.hashFree_inOrder t h.1 v.1, Fields.hashFree_inOrder r h.2 v.2⟩
  | _, .conv t f _ r, h, v => ⟨Ty.hashFree_inOrder t h.1 (f v.1), Fields.hashFree_inOrder r h.2 v.2⟩
theorem Fields.hashFree_inOrderOne : {γ : Type} → (fs : Fields γ) → fs.hashFree → (v : γ) → fs.inOrderOne v
  | _, .nil, _, _ => trivial
  | _, .plain t _, h, v => Ty.hashFree_inOrder t h.1 v.1
  | _, .skip _ r, h, v => Fields.hashFree_inOrderOne r h v.2
  | _, .skipSer _ r, h, v => Fields.hashFree_inOrderOne r h v.2
  | _, .skipDe t _ _, h, v => Ty.hashFree_inOrder t h.1 v.1
  | _, .conv t f _ _, h, v => Ty.hashFree_inOrder t h.1 (f v.1)
theorem Variants.hashFree_inOrder : {ρ : Type} → (vs : Variants ρ) → vs.hashFree → (v : ρ) → vs.inOrder v
  | _, .cons _ fs _, h, .inl v => fun _ => Fields.hashFree_inOrder fs h.1 v
  | _, .cons _ _ r, h, .inr v => Variants.hashFree_inOrder r h.2 v
end

/-- **C109**, the part that holds: without hashed collections all rules are obeyed. -/
theorem C109_conforms_partial (m : Build) (t : Ty α) (hs : t.serializable) (hp : t.plainIds) (hh : t.hashFree) (v : α) (hok : t.ok v)
    (hfit : (t.der v).length ≤ isizeMax) (fuel : Nat) (hf : (t.der v).length < fuel) :
    ∃ d, (toDer m (Ty.ser m t) v).bind (readDers fuel) = .ok (.cons d .nil) ∧ d.Conforms := by
  obtain ⟨d, h1, h2⟩ := C109_conforms_iff m t hs hp v hok hfit fuel hf
  exact ⟨d, h1, h2.2 (Ty.hashFree_inOrder t hh v)⟩

theorem sample_plainIds : sampleTy.plainIds :=
  ⟨.inr (by simp [UniversalClass]), trivial, .inr (by simp [UniversalClass]), ⟨trivial, trivial, ⟨trivial, trivial⟩, trivial⟩, trivial⟩

/-- A variant with an integer, an octet string and a map. -/
example (m : Build) := C109_conforms_partial m sampleTy sample_serializable sample_plainIds ⟨trivial, ⟨trivial, trivial, ⟨trivial, trivial⟩, trivial⟩, trivial⟩ sampleVal sample_ok
  (by rw [sample_der]; decide) 100 (by rw [sample_der]; decide)

/-- A set of `u8` that is iterated in order, and one that is not: 200 has the encoding `02 02 00 c8`, after that of 3, `02 01 03`. -/
example : (Ty.hashSet inferInstance (.int .u8)).inOrder [3, 200] ∧ ¬ (Ty.hashSet inferInstance (.int .u8)).inOrder [200, 3] := by
  constructor
  · exact ⟨by decide +kernel, fun _ _ => trivial⟩
  · rintro ⟨h, -⟩
    revert h
    decide +kernel

/-- **C109 is violated** by `HashSet` and `HashMap`: what `to_der` writes for the set of 1 and 2 is not DER if 2 comes first, since X.690 11.6 wants the elements of a SET OF in
ascending order. -/
theorem C109_set_order_violated (m : Build) :
    (Ty.hashSet inferInstance (.int .u8)).ok [2, 1] ∧
    ∃ d, (toDer m (Ty.ser m (.hashSet inferInstance (.int .u8))) [2, 1]).bind (readDers 9) = .ok (.cons d .nil) ∧ ¬ d.Conforms := by
  have hok : (Ty.hashSet inferInstance (.int .u8)).ok [2, 1] := ⟨by decide, (by decide : ∀ x ∈ ([2, 1] : List Int), IntTy.u8.InRange x)⟩
  obtain ⟨d, h1, h2⟩ := C109_conforms_iff m (Ty.hashSet (α := Int) inferInstance (.int .u8)) trivial trivial [2, 1] hok (by decide +kernel) 9 (by decide +kernel)
  refine ⟨hok, d, h1, fun hc => ?_⟩
  have := (h2.1 hc).1
  revert this
  decide +kernel

/-- **C109 is violated** by a struct with `id = Set`: the fields are written in the order of the declaration, X.690 10.3 wants them in that of their tags. -/
theorem C109_set_struct_violated (m : Build) :
    ∃ d, (toDer m (Ty.ser m (.struct [0x31] (.plain .string (.plain .bool .nil)))) ("a", true, ())).bind (readDers 9) = .ok (.cons d .nil) ∧
      d = .node [0x31] false (.cons (.leaf [0x0c] [0x61]) (.cons (.leaf [0x01] [0xff]) .nil)) ∧ ¬ d.Conforms := by
  refine ⟨_, (C108_to_der_document m (.struct [0x31] (.plain .string (.plain .bool .nil))) ⟨⟨0, 1, 17, by decide, by decide, by decide +kernel⟩, trivial, trivial, trivial⟩
    ("a", true, ()) ⟨trivial, trivial, trivial⟩ (by decide +kernel) 9 (by decide +kernel)).1, by decide +kernel, ?_⟩
  rintro ⟨-, ⟨-, h⟩, -⟩
  have := h rfl
  revert this
  decide +kernel

end Bsn1
