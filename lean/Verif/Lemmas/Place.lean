import Verif.Spec.Place
import Verif.Props.Document
import Verif.Props.InPlace
/-!
# Values inside of documents, found and changed in place
-/

namespace Bsn1
open Spec

mutual
/-- The octets with `q` in the place of those of the document at the path. -/
def Doc.filled (q : Bytes) : Doc → List Nat → Bytes
  | _, [] => q
  | .leaf id c, _ :: _ => tlv id c
  | .node id false cs, i :: p => id ++ lenOctets cs.octets.length ++ Docs.filled q cs (i :: p)
  | .node id true cs, i :: p => id ++ indefOctets ++ Docs.filled q cs (i :: p) ++ eoc
/-- The same for documents one after another. -/
def Docs.filled (q : Bytes) : Docs → List Nat → Bytes
  | .nil, _ => []
  | .cons d r, [] => d.octets ++ r.octets
  | .cons d r, 0 :: p => Doc.filled q d p ++ r.octets
  | .cons d r, (i + 1) :: p => d.octets ++ Docs.filled q r (i :: p)
end

mutual
theorem doc_filled : ∀ (d e : Doc) (p : List Nat), d.at p = some e →
    ∃ a b, d.octets = a ++ e.octets ++ b ∧ ∀ q, Doc.filled q d p = a ++ q ++ b
  | d, e, [], h => by
    simp only [Doc.at, Option.some.injEq] at h
    subst h
    exact ⟨[], [], by simp, fun q => by simp [Doc.filled]⟩
  | .leaf _ _, _, _ :: _, h => by simp [Doc.at] at h
  | .node id false cs, e, i :: p, h => by
    obtain ⟨a, b, h1, h2⟩ := docs_filled cs e (i :: p) h
    exact ⟨id ++ lenOctets cs.octets.length ++ a, b, by rw [Doc.octets, tlv, h1]; simp, fun q => by simp [Doc.filled, h2]⟩
  | .node id true cs, e, i :: p, h => by
    obtain ⟨a, b, h1, h2⟩ := docs_filled cs e (i :: p) h
    exact ⟨id ++ indefOctets ++ a, b ++ eoc, by rw [Doc.octets, h1]; simp, fun q => by simp [Doc.filled, h2]⟩
theorem docs_filled : ∀ (ds : Docs) (e : Doc) (p : List Nat), ds.at p = some e →
    ∃ a b, ds.octets = a ++ e.octets ++ b ∧ ∀ q, Docs.filled q ds p = a ++ q ++ b
  | .nil, _, _, h => by simp [Docs.at] at h
  | .cons _ _, _, [], h => by simp [Docs.at] at h
  | .cons d r, e, 0 :: p, h => by
    obtain ⟨a, b, h1, h2⟩ := doc_filled d e p h
    exact ⟨a, b ++ r.octets, by rw [Docs.octets, h1]; simp, fun q => by simp [Docs.filled, h2]⟩
  | .cons d r, e, (i + 1) :: p, h => by
    obtain ⟨a, b, h1, h2⟩ := docs_filled r e (i :: p) h
    exact ⟨d.octets ++ a, b, by rw [Docs.octets, h1]; simp, fun q => by simp [Docs.filled, h2]⟩
end

theorem docs_filled_length {ds : Docs} {e : Doc} {p : List Nat} (h : ds.at p = some e) {q : Bytes} (hq : q.length = e.octets.length) :
    (Docs.filled q ds p).length = ds.octets.length := by
  obtain ⟨a, b, h1, h2⟩ := docs_filled ds e p h
  rw [h1, h2]; simp [hq]

theorem doc_filled_length {d e : Doc} {p : List Nat} (h : d.at p = some e) {q : Bytes} (hq : q.length = e.octets.length) :
    (Doc.filled q d p).length = d.octets.length := by
  obtain ⟨a, b, h1, h2⟩ := doc_filled d e p h
  rw [h1, h2]; simp [hq]

/-! ### The programs -/

theorem onBer_filled (k : Bytes → Res Bytes) (e : Doc) : ∀ (p : List Nat) (ds : Docs), ds.Ok → ds.octets.length ≤ isizeMax → ds.at p = some e →
    onBer k p ds.octets = (k e.octets).bind fun q => .ok (Docs.filled q ds p)
  | [], ds, _, _, h => by cases ds <;> simp [Docs.at] at h
  | [i], ds, hok, hl, h => by
    rw [onBer]
    induction i generalizing ds with
    | zero =>
      cases ds with
      | nil => simp [Docs.at] at h
      | cons d r =>
        simp only [Docs.at, Doc.at, Option.some.injEq] at h
        subst h
        have hi := isizeMax_eq
        have hx := (C29_ber_parse_mut_iff (Docs.cons d r).octets d.octets r.octets hl).2
          ⟨doc_isBer d hok.1 (by simp only [Docs.octets, List.length_append] at hl; omega), rfl⟩
        simp only [atIndex, hx]
        cases k d.octets <;> simp [Docs.filled, Doc.filled] <;> rfl
    | succ i ih =>
      cases ds with
      | nil => simp [Docs.at] at h
      | cons d r =>
        have hi := isizeMax_eq
        have hx := (C29_ber_parse_mut_iff (Docs.cons d r).octets d.octets r.octets hl).2
          ⟨doc_isBer d hok.1 (by simp only [Docs.octets, List.length_append] at hl; omega), rfl⟩
        have := ih r hok.2 (by simp only [Docs.octets, List.length_append] at hl; omega) h
        simp only [atIndex, hx, this]
        cases k e.octets <;> simp [Docs.filled] <;> rfl
  | i :: j :: p, ds, hok, hl, h => by
    rw [onBer]
    induction i generalizing ds with
    | zero =>
      cases ds with
      | nil => simp [Docs.at] at h
      | cons d r =>
        have hi := isizeMax_eq
        have hl1 : d.octets.length ≤ isizeMax := by simp only [Docs.octets, List.length_append] at hl; omega
        have hx := (C29_ber_parse_mut_iff (Docs.cons d r).octets d.octets r.octets hl).2 ⟨doc_isBer d hok.1 (by omega), rfl⟩
        have key : inContents BerRef.disassemble (onBer k (j :: p)) d.octets = (k e.octets).bind fun q => .ok (Doc.filled q d (j :: p)) := by
          match d, hok.1, h, hl1 with
          | .leaf _ _, _, h, _ => simp [Docs.at, Doc.at] at h
          | .node id false cs, hd, h, hl1 =>
            have hid := hasForm_isId (by omega) hd.1
            simp only [Doc.octets] at hl1 ⊢
            have hl2 := hl1
            rw [tlv_length] at hl2
            have hdis : BerRef.disassemble (tlv id cs.octets) = _ := disassemble_tlv hid (by omega)
            have := onBer_filled k e (j :: p) cs hd.2 (by omega) h
            simp only [inContents, hdis, Res.bind_ok, List.take_length, this, List.drop_length, List.append_nil]
            have ht : (tlv id cs.octets).take ((tlv id cs.octets).length - cs.octets.length) = id ++ lenOctets cs.octets.length := by
              rw [tlv, List.length_append, Nat.add_sub_cancel, List.take_left' rfl]
            rw [ht]
            cases k e.octets <;> simp [Doc.filled] <;> rfl
          | .node id true cs, hd, h, hl1 =>
            simp only [Doc.octets] at hl1 ⊢
            have hdis : BerRef.disassemble (id ++ indefOctets ++ (cs.octets ++ eoc)) = _ := berDisassemble_indef hd.1 _
            have hl2 := hl1
            simp only [List.length_append] at hl2
            have := onBer_filled k e (j :: p) cs hd.2.1 (by omega) h
            have hn : (cs.octets ++ eoc).length - BerRef.eoc.length = cs.octets.length := by simp [eoc, BerRef.eoc]
            rw [List.append_assoc (id ++ indefOctets)]
            simp only [inContents, hdis, Res.bind_ok, hn, List.take_left' rfl, List.drop_left' rfl, this]
            have ht : (id ++ indefOctets ++ (cs.octets ++ eoc)).take ((id ++ indefOctets ++ (cs.octets ++ eoc)).length - (cs.octets ++ eoc).length) =
                id ++ indefOctets := by
              rw [List.length_append, Nat.add_sub_cancel, List.take_left' rfl]
            rw [ht]
            cases k e.octets <;> simp [Doc.filled] <;> rfl
        simp only [atIndex, hx, key]
        cases k e.octets <;> simp [Docs.filled] <;> rfl
    | succ i ih =>
      cases ds with
      | nil => simp [Docs.at] at h
      | cons d r =>
        have hi := isizeMax_eq
        have hx := (C29_ber_parse_mut_iff (Docs.cons d r).octets d.octets r.octets hl).2
          ⟨doc_isBer d hok.1 (by simp only [Docs.octets, List.length_append] at hl; omega), rfl⟩
        have := ih r hok.2 (by simp only [Docs.octets, List.length_append] at hl; omega) h
        simp only [atIndex, hx, this]
        cases k e.octets <;> simp [Docs.filled] <;> rfl

theorem doc_isDer : ∀ (d : Doc), d.Ok → d.Definite → d.octets.length < 2 ^ 64 → IsDer d.octets
  | .leaf id c, h, _, hl => by
    refine ⟨id, c, hasForm_isId (by omega) h, ?_, rfl⟩
    simp [Doc.octets, tlv] at hl; omega
  | .node id false cs, h, _, hl => by
    refine ⟨id, cs.octets, hasForm_isId (by omega) h.1, ?_, rfl⟩
    simp [Doc.octets, tlv] at hl; omega
  | .node id true cs, _, hd, _ => by simp [Doc.Definite] at hd

theorem onDer_filled (k : Bytes → Res Bytes) (e : Doc) : ∀ (p : List Nat) (ds : Docs), ds.Ok → ds.Definite → ds.octets.length ≤ isizeMax → ds.at p = some e →
    onDer k p ds.octets = (k e.octets).bind fun q => .ok (Docs.filled q ds p)
  | [], ds, _, _, _, h => by cases ds <;> simp [Docs.at] at h
  | [i], ds, hok, hdf, hl, h => by
    rw [onDer]
    induction i generalizing ds with
    | zero =>
      cases ds with
      | nil => simp [Docs.at] at h
      | cons d r =>
        simp only [Docs.at, Doc.at, Option.some.injEq] at h
        subst h
        have hi := isizeMax_eq
        have hx := (C19_der_parse_mut_iff (Docs.cons d r).octets d.octets r.octets).2
          ⟨doc_isDer d hok.1 hdf.1 (by simp only [Docs.octets, List.length_append] at hl; omega), rfl⟩
        simp only [atIndex, hx]
        cases k d.octets <;> simp [Docs.filled, Doc.filled] <;> rfl
    | succ i ih =>
      cases ds with
      | nil => simp [Docs.at] at h
      | cons d r =>
        have hi := isizeMax_eq
        have hx := (C19_der_parse_mut_iff (Docs.cons d r).octets d.octets r.octets).2
          ⟨doc_isDer d hok.1 hdf.1 (by simp only [Docs.octets, List.length_append] at hl; omega), rfl⟩
        have := ih r hok.2 hdf.2 (by simp only [Docs.octets, List.length_append] at hl; omega) h
        simp only [atIndex, hx, this]
        cases k e.octets <;> simp [Docs.filled] <;> rfl
  | i :: j :: p, ds, hok, hdf, hl, h => by
    rw [onDer]
    induction i generalizing ds with
    | zero =>
      cases ds with
      | nil => simp [Docs.at] at h
      | cons d r =>
        have hi := isizeMax_eq
        have hl1 : d.octets.length ≤ isizeMax := by simp only [Docs.octets, List.length_append] at hl; omega
        have hx := (C19_der_parse_mut_iff (Docs.cons d r).octets d.octets r.octets).2 ⟨doc_isDer d hok.1 hdf.1 (by omega), rfl⟩
        have key : inContents DerRef.disassemble (onDer k (j :: p)) d.octets = (k e.octets).bind fun q => .ok (Doc.filled q d (j :: p)) := by
          match d, hok.1, hdf.1, h, hl1 with
          | .leaf _ _, _, _, h, _ => simp [Docs.at, Doc.at] at h
          | .node id false cs, hd, hx, h, hl1 =>
            have hid := hasForm_isId (by omega) hd.1
            simp only [Doc.octets] at hl1 ⊢
            have hl2 := hl1
            rw [tlv_length] at hl2
            have hdis : DerRef.disassemble (tlv id cs.octets) = _ := disassemble_tlv hid (by omega)
            have := onDer_filled k e (j :: p) cs hd.2 hx.2 (by omega) h
            simp only [inContents, hdis, Res.bind_ok, List.take_length, this, List.drop_length, List.append_nil]
            have ht : (tlv id cs.octets).take ((tlv id cs.octets).length - cs.octets.length) = id ++ lenOctets cs.octets.length := by
              rw [tlv, List.length_append, Nat.add_sub_cancel, List.take_left' rfl]
            rw [ht]
            cases k e.octets <;> simp [Doc.filled] <;> rfl
          | .node id true cs, _, hx, _, _ => simp [Doc.Definite] at hx
        simp only [atIndex, hx, key]
        cases k e.octets <;> simp [Docs.filled] <;> rfl
    | succ i ih =>
      cases ds with
      | nil => simp [Docs.at] at h
      | cons d r =>
        have hi := isizeMax_eq
        have hx := (C19_der_parse_mut_iff (Docs.cons d r).octets d.octets r.octets).2
          ⟨doc_isDer d hok.1 hdf.1 (by simp only [Docs.octets, List.length_append] at hl; omega), rfl⟩
        have := ih r hok.2 hdf.2 (by simp only [Docs.octets, List.length_append] at hl; omega) h
        simp only [atIndex, hx, this]
        cases k e.octets <;> simp [Docs.filled] <;> rfl

/-! ### Still values -/

theorem doc_at_node {d e : Doc} {i : Nat} {p : List Nat} (h : d.at (i :: p) = some e) : ∃ id b cs, d = .node id b cs ∧ cs.at (i :: p) = some e := by
  cases d with
  | leaf _ _ => simp [Doc.at] at h
  | node id b cs => exact ⟨id, b, cs, rfl, h⟩

mutual
theorem doc_at_ok : ∀ (d e : Doc) (p : List Nat), d.Ok → d.at p = some e → e.Ok
  | d, e, [], h, ha => by
    simp only [Doc.at, Option.some.injEq] at ha
    exact ha ▸ h
  | .leaf _ _, _, _ :: _, _, h => by simp [Doc.at] at h
  | .node _ false cs, e, i :: p, h, ha => docs_at_ok cs e (i :: p) h.2 ha
  | .node _ true cs, e, i :: p, h, ha => docs_at_ok cs e (i :: p) h.2.1 ha
theorem docs_at_ok : ∀ (ds : Docs) (e : Doc) (p : List Nat), ds.Ok → ds.at p = some e → e.Ok
  | .nil, _, _, _, h => by simp [Docs.at] at h
  | .cons _ _, _, [], _, h => by simp [Docs.at] at h
  | .cons d _, e, 0 :: p, h, ha => doc_at_ok d e p h.1 ha
  | .cons _ r, e, (i + 1) :: p, h, ha => docs_at_ok r e (i :: p) h.2 ha
end

mutual
theorem doc_filled_isBer {q : Bytes} {e : Doc} (hq : IsBer q) (hqe : q.length = e.octets.length) : ∀ (d : Doc) (p : List Nat) (b : Bool), d.Ok →
    d.octets.length < 2 ^ 64 → d.at p = some e → (d.inIndefinite b p = true → q ≠ eoc) → IsBer (Doc.filled q d p)
  | _, [], _, _, _, _, _ => by simpa [Doc.filled] using hq
  | .leaf _ _, _ :: _, _, _, _, h, _ => by simp [Doc.at] at h
  | .node id false cs, i :: p, b, hok, hl, h, _ => by
    have hf := docs_filled_length (ds := cs) h hqe
    rw [Doc.filled, ← hf]
    refine IsBer.definite id _ (hasForm_isId (by omega) hok.1) ?_
    rw [hf]
    simp only [Doc.octets, tlv_length] at hl; omega
  | .node id true cs, i :: p, b, hok, hl, h, he => by
    rw [Doc.filled]
    refine IsBer.indefinite id _ hok.1 (docs_filled_berSeq hq hqe cs (i :: p) hok.2.1 hok.2.2 ?_ h he)
    simp only [Doc.octets, List.length_append] at hl; omega
theorem docs_filled_berSeq {q : Bytes} {e : Doc} (hq : IsBer q) (hqe : q.length = e.octets.length) : ∀ (ds : Docs) (p : List Nat), ds.Ok →
    .leaf [0x00] [] ∉ ds.toList → ds.octets.length < 2 ^ 64 → ds.at p = some e → (ds.inIndefinite true p = true → q ≠ eoc) →
    BerSeq (Docs.filled q ds p)
  | .nil, _, _, _, _, h, _ => by simp [Docs.at] at h
  | .cons _ _, [], _, _, _, h, _ => by simp [Docs.at] at h
  | .cons d r, 0 :: p, hok, hn, hl, h, he => by
    simp only [Docs.toList, List.mem_cons, not_or] at hn
    simp only [Docs.octets, List.length_append] at hl
    rw [Docs.filled]
    refine .cons _ _ (doc_filled_isBer hq hqe d p true hok.1 (by omega) h he) ?_ (docs_berSeq r hok.2 hn.2 (by omega))
    cases p with
    | nil => rw [Doc.filled]; exact he (by simp [Docs.inIndefinite, Doc.inIndefinite])
    | cons j p =>
      intro hx
      have hlen := doc_filled_length (d := d) h hqe
      obtain ⟨id, b, cs, rfl, hc⟩ := doc_at_node (d := d) h
      obtain ⟨a, a', h1, _⟩ := docs_filled cs e (j :: p) hc
      rw [hx] at hlen
      have hcs : 0 < cs.octets.length := by
        have := List.length_pos_of_ne_nil (doc_ne_nil (docs_at_ok cs e _ (by cases b <;> simp_all [Doc.Ok, Docs.Ok]) hc))
        rw [h1]; simp; omega
      cases b with
      | false =>
        have := List.length_pos_of_ne_nil (isId_ne_nil (hasForm_isId (by omega) hok.1.1))
        have := List.length_pos_of_ne_nil (lenOctets_ne_nil cs.octets.length)
        simp [Doc.octets, tlv_length, eoc] at hlen
        omega
      | true =>
        have := List.length_pos_of_ne_nil (isId_ne_nil hok.1.1)
        simp [Doc.octets, eoc] at hlen
        omega
  | .cons d r, (i + 1) :: p, hok, hn, hl, h, he => by
    simp only [Docs.toList, List.mem_cons, not_or] at hn
    simp only [Docs.octets, List.length_append] at hl
    rw [Docs.filled]
    exact .cons _ _ (doc_isBer d hok.1 (by omega)) (fun e => hn.1 ((doc_eq_eoc hok.1).1 e).symm)
      (docs_filled_berSeq hq hqe r (i :: p) hok.2 hn.2 (by omega) h he)
end

/-! ### Another document in the place -/

mutual
theorem doc_put_octets {e f : Doc} (hf : f.octets.length = e.octets.length) : ∀ (d : Doc) (p : List Nat), d.at p = some e →
    (Doc.put f d p).octets = Doc.filled f.octets d p
  | _, [], _ => by simp [Doc.put, Doc.filled]
  | .leaf _ _, _ :: _, h => by simp [Doc.at] at h
  | .node id false cs, i :: p, h => by
    rw [Doc.put, Doc.octets, docs_put_octets hf cs (i :: p) h, Doc.filled, tlv, docs_filled_length (ds := cs) h hf]
  | .node id true cs, i :: p, h => by
    rw [Doc.put, Doc.octets, docs_put_octets hf cs (i :: p) h, Doc.filled]
theorem docs_put_octets {e f : Doc} (hf : f.octets.length = e.octets.length) : ∀ (ds : Docs) (p : List Nat), ds.at p = some e →
    (Docs.put f ds p).octets = Docs.filled f.octets ds p
  | .nil, _, h => by simp [Docs.at] at h
  | .cons _ _, [], h => by simp [Docs.at] at h
  | .cons d r, 0 :: p, h => by rw [Docs.put, Docs.octets, doc_put_octets hf d p h, Docs.filled]
  | .cons d r, (i + 1) :: p, h => by rw [Docs.put, Docs.octets, docs_put_octets hf r (i :: p) h, Docs.filled]
end

mutual
theorem doc_put_ok {e f : Doc} (hf : f.Ok) : ∀ (d : Doc) (p : List Nat) (b : Bool), d.Ok → d.at p = some e →
    (d.inIndefinite b p = true → f ≠ .leaf [0x00] []) → (Doc.put f d p).Ok
  | _, [], _, _, _, _ => by simpa [Doc.put] using hf
  | .leaf _ _, _ :: _, _, _, h, _ => by simp [Doc.at] at h
  | .node id false cs, i :: p, b, hok, h, he => ⟨hok.1, docs_put_ok hf cs (i :: p) false hok.2 h he⟩
  | .node id true cs, i :: p, b, hok, h, he =>
    ⟨hok.1, docs_put_ok hf cs (i :: p) true hok.2.1 h he, docs_put_noEoc cs (i :: p) hok.2.2 h he⟩
theorem docs_put_ok {e f : Doc} (hf : f.Ok) : ∀ (ds : Docs) (p : List Nat) (b : Bool), ds.Ok → ds.at p = some e →
    (ds.inIndefinite b p = true → f ≠ .leaf [0x00] []) → (Docs.put f ds p).Ok
  | .nil, _, _, _, h, _ => by simp [Docs.at] at h
  | .cons _ _, [], _, _, h, _ => by simp [Docs.at] at h
  | .cons d r, 0 :: p, b, hok, h, he => ⟨doc_put_ok hf d p b hok.1 h he, hok.2⟩
  | .cons d r, (i + 1) :: p, b, hok, h, he => ⟨hok.1, docs_put_ok hf r (i :: p) b hok.2 h he⟩
theorem docs_put_noEoc {e f : Doc} : ∀ (ds : Docs) (p : List Nat), .leaf [0x00] [] ∉ ds.toList → ds.at p = some e →
    (ds.inIndefinite true p = true → f ≠ .leaf [0x00] []) → .leaf [0x00] [] ∉ (Docs.put f ds p).toList
  | .nil, _, _, h, _ => by simp [Docs.at] at h
  | .cons _ _, [], _, h, _ => by simp [Docs.at] at h
  | .cons d r, 0 :: p, hn, h, he => by
    simp only [Docs.put, Docs.toList, List.mem_cons, not_or] at hn ⊢
    refine ⟨?_, hn.2⟩
    cases p with
    | nil => exact fun hx => he (by simp [Docs.inIndefinite, Doc.inIndefinite]) (by simpa [Doc.put] using hx.symm)
    | cons j p =>
      obtain ⟨id, b, cs, rfl, hc⟩ := doc_at_node (d := d) h
      simp [Doc.put]
  | .cons d r, (i + 1) :: p, hn, h, he => by
    simp only [Docs.put, Docs.toList, List.mem_cons, not_or] at hn ⊢
    exact ⟨hn.1, docs_put_noEoc r (i :: p) hn.2 h he⟩
end

/-! ### Nothing else can be read -/

theorem docs_isBer_head {d : Doc} (h : d.Ok) (hl : d.octets.length ≤ isizeMax) : IsBer d.octets :=
  doc_isBer d h (by have := isizeMax_eq; omega)

mutual
theorem doc_reads {q : Bytes} {e : Doc} (hq : IsBer q) (hqe : q.length = e.octets.length) : ∀ (d d' : Doc) (p : List Nat) (b : Bool), d.Ok →
    d.octets.length ≤ isizeMax → d.at p = some e → (d.inIndefinite b p = true → q ≠ eoc) → d'.Ok → d'.octets = Doc.filled q d p →
    ∃ f, f.Ok ∧ f.octets = q ∧ d' = Doc.put f d p
  | _, d', [], _, _, _, _, _, hok', h' => ⟨d', hok', by simpa [Doc.filled] using h', by simp [Doc.put]⟩
  | .leaf _ _, _, _ :: _, _, _, _, h, _, _, _ => by simp [Doc.at] at h
  | .node id false cs, d', i :: p, b, hok, hl, h, he, hok', h' => by
    have hi := isizeMax_eq
    have hf := docs_filled_length (ds := cs) h hqe
    simp only [Doc.octets, tlv_length] at hl
    have hid := hasForm_isId (by omega) hok.1
    have hv : BerValue d'.octets id false (Docs.filled q cs (i :: p)) := ⟨hid, by omega, by rw [h', Doc.filled, tlv, hf]⟩
    have hl' : d'.octets.length = (tlv id (Docs.filled q cs (i :: p))).length := by rw [hv.2.2]
    rw [tlv_length, hf] at hl'
    match d', hok', hv, hl' with
    | .leaf id' c', hok', hv, hl' =>
      simp only [Doc.octets, tlv_length] at hl'
      obtain ⟨rfl, _, _⟩ := berValue_unique hv (show BerValue _ id' false c' from ⟨hasForm_isId (by omega) hok', by omega, rfl⟩)
      have := (isPrimitive_hasForm (by omega) hok').symm.trans (isPrimitive_hasForm (by omega) hok.1)
      simp at this
    | .node id' false cs', hok', hv, hl' =>
      simp only [Doc.octets, tlv_length] at hl'
      obtain ⟨rfl, _, e1⟩ := berValue_unique hv (show BerValue _ id' false cs'.octets from ⟨hasForm_isId (by omega) hok'.1, by omega, rfl⟩)
      obtain ⟨f, h1, h2, h3⟩ := docs_reads hq hqe cs cs' (i :: p) false hok.2 (by omega) h he hok'.2 e1.symm
      exact ⟨f, h1, h2, by rw [h3, Doc.put]⟩
    | .node id' true cs', hok', hv, hl' =>
      simp only [Doc.octets, List.length_append] at hl'
      obtain ⟨_, e1, _⟩ := berValue_unique hv (show BerValue _ id' true (cs'.octets ++ eoc) from
        ⟨hok'.1, cs'.octets, docs_berSeq cs' hok'.2.1 hok'.2.2 (by omega), rfl, by simp [Doc.octets]⟩)
      cases e1
  | .node id true cs, d', i :: p, b, hok, hl, h, he, hok', h' => by
    have hi := isizeMax_eq
    have hf := docs_filled_length (ds := cs) h hqe
    simp only [Doc.octets, List.length_append] at hl
    have hv : BerValue d'.octets id true (Docs.filled q cs (i :: p) ++ eoc) :=
      ⟨hok.1, _, docs_filled_berSeq hq hqe cs (i :: p) hok.2.1 hok.2.2 (by omega) h he, rfl, by rw [h', Doc.filled]; simp⟩
    have hl' : d'.octets.length = (id ++ indefOctets ++ Docs.filled q cs (i :: p) ++ eoc).length := by rw [h', Doc.filled]
    simp only [List.length_append] at hl'
    match d', hok', hv, hl' with
    | .leaf id' c', hok', hv, hl' =>
      simp only [Doc.octets, tlv_length] at hl'
      obtain ⟨_, e1, _⟩ := berValue_unique hv (show BerValue _ id' false c' from ⟨hasForm_isId (by omega) hok', by omega, rfl⟩)
      cases e1
    | .node id' false cs', hok', hv, hl' =>
      simp only [Doc.octets, tlv_length] at hl'
      obtain ⟨_, e1, _⟩ := berValue_unique hv (show BerValue _ id' false cs'.octets from ⟨hasForm_isId (by omega) hok'.1, by omega, rfl⟩)
      cases e1
    | .node id' true cs', hok', hv, hl' =>
      simp only [Doc.octets, List.length_append] at hl'
      obtain ⟨rfl, _, e1⟩ := berValue_unique hv (show BerValue _ id' true (cs'.octets ++ eoc) from
        ⟨hok'.1, cs'.octets, docs_berSeq cs' hok'.2.1 hok'.2.2 (by omega), rfl, by simp [Doc.octets]⟩)
      obtain ⟨f, h1, h2, h3⟩ := docs_reads hq hqe cs cs' (i :: p) true hok.2.1 (by omega) h he hok'.2.1 (List.append_cancel_right e1).symm
      exact ⟨f, h1, h2, by rw [h3, Doc.put]⟩
theorem docs_reads {q : Bytes} {e : Doc} (hq : IsBer q) (hqe : q.length = e.octets.length) : ∀ (ds ds' : Docs) (p : List Nat) (b : Bool), ds.Ok →
    ds.octets.length ≤ isizeMax → ds.at p = some e → (ds.inIndefinite b p = true → q ≠ eoc) → ds'.Ok → ds'.octets = Docs.filled q ds p →
    ∃ f, f.Ok ∧ f.octets = q ∧ ds' = Docs.put f ds p
  | .nil, _, _, _, _, _, h, _, _, _ => by simp [Docs.at] at h
  | .cons _ _, _, [], _, _, _, h, _, _, _ => by simp [Docs.at] at h
  | .cons d r, ds', 0 :: p, b, hok, hl, h, he, hok', h' => by
    have hi := isizeMax_eq
    have hlen := docs_filled_length (ds := .cons d r) (p := 0 :: p) h hqe
    rw [← h'] at hlen
    simp only [Docs.octets, List.length_append] at hl
    rw [Docs.filled] at h'
    have hb := doc_filled_isBer hq hqe d p b hok.1 (by omega) h he
    cases ds' with
    | nil =>
      obtain ⟨_, _, _, hv⟩ := isBer_berValue hb
      have := ber_nonempty hv r.octets
      rw [← h'] at this
      simp [Docs.octets] at this
    | cons d' r' =>
      simp only [Docs.octets, List.length_append] at hlen h'
      obtain ⟨h1, h2⟩ := isBer_prefix_free (doc_isBer d' hok'.1 (by omega)) hb h'
      obtain ⟨f, h3, h4, h5⟩ := doc_reads hq hqe d d' p b hok.1 (by omega) h he hok'.1 h1
      have h6 := (C107_injective r' r hok'.2 hok.2 (by omega)).1 h2
      exact ⟨f, h3, h4, by rw [h5, h6, Docs.put]⟩
  | .cons d r, ds', (i + 1) :: p, b, hok, hl, h, he, hok', h' => by
    have hi := isizeMax_eq
    have hlen := docs_filled_length (ds := .cons d r) (p := (i + 1) :: p) h hqe
    rw [← h'] at hlen
    simp only [Docs.octets, List.length_append] at hl
    rw [Docs.filled] at h'
    have hb := doc_isBer d hok.1 (by omega)
    cases ds' with
    | nil => simp [Docs.octets, doc_ne_nil hok.1] at h'
    | cons d' r' =>
      simp only [Docs.octets, List.length_append] at hlen h'
      obtain ⟨h1, h2⟩ := isBer_prefix_free (doc_isBer d' hok'.1 (by omega)) hb h'
      obtain ⟨f, h3, h4, h5⟩ := docs_reads hq hqe r r' (i :: p) b hok.2 (by omega) h he hok'.2 h2
      have h6 := (C107_injective (.cons d' .nil) (.cons d .nil) ⟨hok'.1, trivial⟩ ⟨hok.1, trivial⟩ (by simp [Docs.octets]; omega)).1 (by simp [Docs.octets, h1])
      simp only [Docs.cons.injEq, and_true] at h6
      exact ⟨f, h3, h4, by rw [h5, h6, Docs.put]⟩
end

/-! ### An end-of-contents put inside of a value of indefinite length -/

mutual
theorem doc_put_bad {e : Doc} : ∀ (d : Doc) (p : List Nat) (b : Bool), d.at p = some e → d.inIndefinite b p = true →
    ¬ (Doc.put (.leaf [0x00] []) d p).Ok ∨ (b = true ∧ Doc.put (.leaf [0x00] []) d p = .leaf [0x00] [])
  | _, [], b, _, h => .inr ⟨by simpa [Doc.inIndefinite] using h, by simp [Doc.put]⟩
  | .leaf _ _, _ :: _, _, h, _ => by simp [Doc.at] at h
  | .node id false cs, i :: p, b, ha, h => by
    rcases docs_put_bad cs (i :: p) false ha h with h1 | ⟨h1, _⟩
    · exact .inl fun hx => h1 hx.2
    · simp at h1
  | .node id true cs, i :: p, b, ha, h => by
    rcases docs_put_bad cs (i :: p) true ha h with h1 | ⟨_, h1⟩
    · exact .inl fun hx => h1 hx.2.1
    · exact .inl fun hx => hx.2.2 h1
theorem docs_put_bad {e : Doc} : ∀ (ds : Docs) (p : List Nat) (b : Bool), ds.at p = some e → ds.inIndefinite b p = true →
    ¬ (Docs.put (.leaf [0x00] []) ds p).Ok ∨ (b = true ∧ .leaf [0x00] [] ∈ (Docs.put (.leaf [0x00] []) ds p).toList)
  | .nil, _, _, h, _ => by simp [Docs.at] at h
  | .cons _ _, [], _, h, _ => by simp [Docs.at] at h
  | .cons d r, 0 :: p, b, ha, h => by
    rcases doc_put_bad d p b ha h with h1 | ⟨h1, h2⟩
    · exact .inl fun hx => h1 hx.1
    · exact .inr ⟨h1, by simp [Docs.put, Docs.toList, h2]⟩
  | .cons d r, (i + 1) :: p, b, ha, h => by
    rcases docs_put_bad r (i :: p) b ha h with h1 | ⟨h1, h2⟩
    · exact .inl fun hx => h1 hx.2
    · exact .inr ⟨h1, by simp [Docs.put, Docs.toList, h2]⟩
end

mutual
theorem doc_put_definite {e f : Doc} (hf : f.Definite) : ∀ (d : Doc) (p : List Nat), d.Definite → d.at p = some e → (Doc.put f d p).Definite
  | _, [], _, _ => by simpa [Doc.put] using hf
  | .leaf _ _, _ :: _, _, h => by simp [Doc.at] at h
  | .node id b cs, i :: p, hd, h => ⟨hd.1, docs_put_definite hf cs (i :: p) hd.2 h⟩
theorem docs_put_definite {e f : Doc} (hf : f.Definite) : ∀ (ds : Docs) (p : List Nat), ds.Definite → ds.at p = some e → (Docs.put f ds p).Definite
  | .nil, _, _, h => by simp [Docs.at] at h
  | .cons _ _, [], _, h => by simp [Docs.at] at h
  | .cons d r, 0 :: p, hd, h => ⟨doc_put_definite hf d p hd.1 h, hd.2⟩
  | .cons d r, (i + 1) :: p, hd, h => ⟨hd.1, docs_put_definite hf r (i :: p) hd.2 h⟩
end

mutual
theorem doc_at_definite : ∀ (d e : Doc) (p : List Nat), d.Definite → d.at p = some e → e.Definite ∧ d.inIndefinite false p = false
  | d, e, [], h, ha => by
    simp only [Doc.at, Option.some.injEq] at ha
    exact ⟨ha ▸ h, by simp [Doc.inIndefinite]⟩
  | .leaf _ _, _, _ :: _, _, h => by simp [Doc.at] at h
  | .node _ b cs, e, i :: p, h, ha => by
    obtain ⟨rfl, h⟩ := h
    exact docs_at_definite cs e (i :: p) h ha
theorem docs_at_definite : ∀ (ds : Docs) (e : Doc) (p : List Nat), ds.Definite → ds.at p = some e → e.Definite ∧ ds.inIndefinite false p = false
  | .nil, _, _, _, h => by simp [Docs.at] at h
  | .cons _ _, _, [], _, h => by simp [Docs.at] at h
  | .cons d _, e, 0 :: p, h, ha => doc_at_definite d e p h.1 ha
  | .cons _ r, e, (i + 1) :: p, h, ha => docs_at_definite r e (i :: p) h.2 ha
end

mutual
theorem doc_put_self {e : Doc} : ∀ (d : Doc) (p : List Nat), d.at p = some e → Doc.put e d p = d
  | d, [], h => by
    simp only [Doc.at, Option.some.injEq] at h
    simp [Doc.put, h]
  | .leaf _ _, _ :: _, h => by simp [Doc.at] at h
  | .node id b cs, i :: p, h => by rw [Doc.put, docs_put_self cs (i :: p) h]
theorem docs_put_self {e : Doc} : ∀ (ds : Docs) (p : List Nat), ds.at p = some e → Docs.put e ds p = ds
  | .nil, _, h => by simp [Docs.at] at h
  | .cons _ _, [], h => by simp [Docs.at] at h
  | .cons d r, 0 :: p, h => by rw [Docs.put, doc_put_self d p h]
  | .cons d r, (i + 1) :: p, h => by rw [Docs.put, docs_put_self r (i :: p) h]
end

end Bsn1
