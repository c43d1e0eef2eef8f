import Verif.Spec.Document
import Verif.Props.Ber
import Verif.Lemmas.De
import Verif.Lemmas.DeSettled
/-!
# C107: documents are built and taken apart without loss

A program that builds values inside of values with `new` and `new_indefinite`, and one that takes octets apart with `parse` at every level, are inverse to each other, and the second
accepts exactly the documents.
-/

namespace Bsn1
open Spec

theorem hasForm_isId {p : Nat} (hp : p < 2) {id : Bytes} (h : HasForm p id) : IsId id := by
  obtain ⟨c, n, hc, rfl⟩ := h
  exact ⟨c, p, n, hc, hp, rfl⟩

theorem isId_hasForm {id : Bytes} (h : IsId id) : HasForm 0 id ∨ HasForm 1 id := by
  obtain ⟨c, p, n, hc, hp, rfl⟩ := h
  rcases (show p = 0 ∨ p = 1 by omega) with rfl | rfl
  · exact .inl ⟨c, n, hc, rfl⟩
  · exact .inr ⟨c, n, hc, rfl⟩

theorem isPrimitive_hasForm {p : Nat} (hp : p < 2) {id : Bytes} (h : HasForm p id) : IdRef.isPrimitive id = .ok (decide (p = 0)) := by
  obtain ⟨c, n, hc, rfl⟩ := h
  obtain ⟨r, hr⟩ := idOctets_cons c p n
  obtain ⟨q, h1, h2, -⟩ := C12_pc_partition (idOctets c p n) (idOctets_ne_nil c p n)
  rw [h2]
  rw [hr, pc_cons, toNat_ofNat_of_lt (by split <;> omega)] at h1
  have e : (64 * c + 32 * p + if n < 31 then n else 31) / 32 % 2 = p := by split <;> omega
  rw [e] at h1
  rw [← Res.ok.inj h1]
  rcases (show p = 0 ∨ p = 1 by omega) with rfl | rfl <;> simp

theorem isId_ne_nil {id : Bytes} (h : IsId id) : id ≠ [] := by
  obtain ⟨c, p, n, _, _, rfl⟩ := h
  exact idOctets_ne_nil c p n

theorem doc_isId : ∀ {d : Doc}, d.Ok → ∃ id r, IsId id ∧ d.octets = id ++ r
  | .leaf id c, h => ⟨id, lenOctets c.length ++ c, hasForm_isId (by omega) h, by simp [Doc.octets, tlv]⟩
  | .node id false cs, h => ⟨id, lenOctets cs.octets.length ++ cs.octets, hasForm_isId (by omega) h.1, by simp [Doc.octets, tlv]⟩
  | .node id true cs, h => ⟨id, indefOctets ++ cs.octets ++ eoc, h.1, by simp [Doc.octets]⟩

theorem doc_ne_nil {d : Doc} (h : d.Ok) : d.octets ≠ [] := by
  obtain ⟨id, r, h1, h2⟩ := doc_isId h
  rw [h2]
  simp [isId_ne_nil h1]

theorem doc_eq_eoc : ∀ {d : Doc}, d.Ok → (d.octets = eoc ↔ d = .leaf [0x00] [])
  | .leaf id c, h => by
    have hne := isId_ne_nil (hasForm_isId (by omega) h)
    constructor
    · intro e
      simp only [Doc.octets, tlv, eoc] at e
      have hl := List.length_pos_of_ne_nil (lenOctets_ne_nil c.length)
      obtain ⟨a, id', rfl⟩ := List.exists_cons_of_ne_nil hne
      obtain ⟨b, l', hb⟩ := List.exists_cons_of_length_pos hl
      rw [hb] at e
      simp only [List.cons_append, List.cons.injEq] at e
      obtain ⟨rfl, e⟩ := e
      cases id' with
      | nil => simp only [List.nil_append, List.cons_append, List.cons.injEq, List.append_eq_nil_iff] at e; rw [e.2.2]
      | cons x y => simp at e
    · intro e
      cases e
      decide +kernel
  | .node id false cs, h => by
    refine iff_of_false (fun e => ?_) (by simp)
    obtain ⟨⟨c, n, hc, rfl⟩, -⟩ := h
    obtain ⟨r, hr⟩ := idOctets_cons c 1 n
    simp only [Doc.octets, tlv, hr, eoc, List.cons_append, List.cons.injEq] at e
    have := congrArg UInt8.toNat e.1
    rw [toNat_ofNat_of_lt (by split <;> omega)] at this
    simp at this
  | .node id true cs, h => by
    refine iff_of_false (fun e => ?_) (by simp)
    have hl := congrArg List.length e
    simp [Doc.octets, eoc, indefOctets] at hl
    omega

mutual
theorem doc_isBer : ∀ (d : Doc), d.Ok → d.octets.length < 2 ^ 64 → IsBer d.octets
  | .leaf id c, h, hl => by
    refine .definite id c (hasForm_isId (by omega) h) ?_
    simp [Doc.octets, tlv] at hl; omega
  | .node id false cs, h, hl => by
    refine .definite id cs.octets (hasForm_isId (by omega) h.1) ?_
    simp [Doc.octets, tlv] at hl; omega
  | .node id true cs, h, hl => by
    refine .indefinite id cs.octets h.1 (docs_berSeq cs h.2.1 h.2.2 ?_)
    simp [Doc.octets] at hl; omega
theorem docs_berSeq : ∀ (ds : Docs), ds.Ok → .leaf [0x00] [] ∉ ds.toList → ds.octets.length < 2 ^ 64 → BerSeq ds.octets
  | .nil, _, _, _ => .nil
  | .cons d r, h, hn, hl => by
    simp only [Docs.toList, List.mem_cons, not_or] at hn
    simp only [Docs.octets, List.length_append] at hl ⊢
    exact .cons _ _ (doc_isBer d h.1 (by omega)) (fun e => hn.1 ((doc_eq_eoc h.1).1 e).symm) (docs_berSeq r h.2 hn.2 (by omega))
end

theorem berSeq_noEoc : ∀ (ds : Docs), ds.Ok → ds.octets.length < 2 ^ 64 → BerSeq ds.octets → .leaf [0x00] [] ∉ ds.toList
  | .nil, _, _, _ => by simp [Docs.toList]
  | .cons d r, h, hl, hs => by
    simp only [Docs.octets, List.length_append] at hl hs
    generalize hb : d.octets ++ r.octets = b at hs
    cases hs with
    | nil => simp [doc_ne_nil h.1] at hb
    | cons v r' h1 h2 h3 =>
      obtain ⟨e1, e2⟩ := isBer_prefix_free (doc_isBer d h.1 (by omega)) h1 hb
      subst e1; subst e2
      simp only [Docs.toList, List.mem_cons, not_or]
      exact ⟨fun e => h2 ((doc_eq_eoc h.1).2 e.symm), berSeq_noEoc r h.2 (by omega) h3⟩

/-! ## Taking apart -/

theorem readOne_definite {inner : Bytes → Res Docs} {id c : Bytes} {n : Nat} {d : Doc} (hid : IsId id) :
    readOne inner id (.definite n) c = .ok d ↔
      (HasForm 0 id ∧ d = .leaf id c) ∨ (HasForm 1 id ∧ ∃ cs, inner c = .ok cs ∧ d = .node id false cs) := by
  have hx : ¬ (HasForm 0 id ∧ HasForm 1 id) := by
    rintro ⟨h0, h1⟩
    have := (isPrimitive_hasForm (by omega) h0).symm.trans (isPrimitive_hasForm (by omega) h1)
    simp at this
  rcases isId_hasForm hid with h | h
  · have h1 : ¬ HasForm 1 id := fun h' => hx ⟨h, h'⟩
    simp [readOne, isPrimitive_hasForm (by omega) h, h, h1, eq_comm]
  · have h1 : ¬ HasForm 0 id := fun h' => hx ⟨h', h⟩
    simp only [readOne, isPrimitive_hasForm (by omega) h, h, h1, Res.bind_ok, false_and, false_or, true_and]
    simp only [one_ne_zero, decide_false, Bool.false_eq_true, if_false, Res.bind_eq_ok]
    simp only [Res.pure_eq, Res.ok.injEq, eq_comm]

theorem readOne_indefinite {inner : Bytes → Res Docs} {id c : Bytes} {d : Doc} :
    readOne inner id .indefinite (c ++ eoc) = .ok d ↔ ∃ cs, inner c = .ok cs ∧ d = .node id true cs := by
  have e : (c ++ eoc).take ((c ++ eoc).length - BerRef.eoc.length) = c := by
    have : (c ++ eoc).length - BerRef.eoc.length = c.length := by simp [eoc, BerRef.eoc]
    rw [this, List.take_left' rfl]
  simp only [readOne, e, Res.bind_eq_ok]
  simp [eq_comm]

theorem readBers_cons {fuel : Nat} {bs : Bytes} {ds : Docs} (hl : bs.length ≤ isizeMax) (hne : bs ≠ []) :
    readBers (fuel + 1) bs = .ok ds ↔ ∃ p id indef raw rest d r, BerValue p id indef raw ∧ bs = p ++ rest ∧
      readOne (readBers fuel) id (lenOf indef raw) raw = .ok d ∧ readBers fuel rest = .ok r ∧ ds = .cons d r := by
  have hb : bs.isEmpty = false := by simpa using hne
  simp only [readBers, hb, Bool.false_eq_true, if_false]
  constructor
  · intro h
    rcases hp : BerRef.parse bs with ⟨v | e | _ | _, rest⟩
    · rw [hp] at h
      obtain ⟨hv, e⟩ := BerRef_parse_sound hl hp
      obtain ⟨id, indef, raw, hbv⟩ := isBer_berValue hv
      simp only [berValue_disassemble hbv, Res.bind_ok] at h
      obtain ⟨d, h1, h⟩ := Res.bind_eq_ok.1 h
      obtain ⟨r, h2, h⟩ := Res.bind_eq_ok.1 h
      exact ⟨v, id, indef, raw, rest, d, r, hbv, e, h1, h2, (Res.ok.inj h).symm⟩
    all_goals (rw [hp] at h; simp at h)
  · rintro ⟨p, id, indef, raw, rest, d, r, hbv, rfl, h1, h2, rfl⟩
    rw [BerRef_parse_ok (berValue_isBer hbv) hl]
    simp only [berValue_disassemble hbv, Res.bind_ok, h1, h2]
    rfl

theorem readBers_sound : ∀ (fuel : Nat) (bs : Bytes) (ds : Docs), bs.length ≤ isizeMax → readBers fuel bs = .ok ds → ds.Ok ∧ bs = ds.octets
  | 0, bs, ds, _, h => by simp [readBers] at h
  | fuel + 1, bs, ds, hl, h => by
    have hi := isizeMax_eq
    by_cases hne : bs = []
    · subst hne
      simp [readBers] at h
      subst h
      exact ⟨trivial, rfl⟩
    obtain ⟨p, id, indef, raw, rest, d, r, hbv, rfl, h1, h2, rfl⟩ := (readBers_cons hl hne).1 h
    rw [List.length_append] at hl
    obtain ⟨h3, rfl⟩ := readBers_sound fuel rest r (by omega) h2
    obtain ⟨hid, hv⟩ := hbv
    cases indef with
    | false =>
      obtain ⟨hr, rfl⟩ := hv
      rw [lenOf, readOne_definite hid] at h1
      rcases h1 with ⟨hf, rfl⟩ | ⟨hf, cs, h1, rfl⟩
      · exact ⟨⟨hf, h3⟩, rfl⟩
      · obtain ⟨h4, rfl⟩ := readBers_sound fuel raw cs (by simp [tlv] at hl; omega) h1
        exact ⟨⟨⟨hf, h4⟩, h3⟩, rfl⟩
    | true =>
      obtain ⟨c, hs, rfl, rfl⟩ := hv
      rw [lenOf, readOne_indefinite] at h1
      obtain ⟨cs, h1, rfl⟩ := h1
      have hc : c.length ≤ isizeMax := by simp at hl; omega
      obtain ⟨h4, rfl⟩ := readBers_sound fuel c cs hc h1
      exact ⟨⟨⟨hid, h4, berSeq_noEoc cs h4 (by omega) hs⟩, h3⟩, by simp [Docs.octets, Doc.octets]⟩

theorem readBers_complete : ∀ (fuel : Nat) (ds : Docs), ds.octets.length < fuel → ds.octets.length ≤ isizeMax → ds.Ok →
    readBers fuel ds.octets = .ok ds
  | 0, _, h, _, _ => by omega
  | fuel + 1, .nil, _, _, _ => by simp [readBers, Docs.octets]
  | fuel + 1, .cons d r, hf, hl, h => by
    have hi := isizeMax_eq
    simp only [Docs.octets] at hf hl ⊢
    have hne := doc_ne_nil h.1
    refine (readBers_cons hl (by simp [hne])).2 ?_
    have hpos := List.length_pos_of_ne_nil hne
    rw [List.length_append] at hf hl
    have hr := readBers_complete fuel r (by omega) (by omega) h.2
    match d, h.1 with
    | .leaf id c, h1 =>
      have hid := hasForm_isId (by omega) h1
      exact ⟨_, id, false, c, _, _, r, ⟨hid, by simp [Doc.octets, tlv] at hl; omega, rfl⟩, rfl, (readOne_definite hid).2 (.inl ⟨h1, rfl⟩), hr, rfl⟩
    | .node id false cs, h1 =>
      have hid := hasForm_isId (by omega) h1.1
      have hp := List.length_pos_of_ne_nil (isId_ne_nil hid)
      simp only [Doc.octets, tlv, List.length_append] at hl hf
      have hc := readBers_complete fuel cs (by omega) (by omega) h1.2
      exact ⟨_, id, false, cs.octets, _, _, r, ⟨hid, by omega, rfl⟩, rfl, (readOne_definite hid).2 (.inr ⟨h1.1, cs, hc, rfl⟩), hr, rfl⟩
    | .node id true cs, h1 =>
      have hp := List.length_pos_of_ne_nil (isId_ne_nil h1.1)
      simp only [Doc.octets, List.length_append] at hl hf
      have hc := readBers_complete fuel cs (by omega) (by omega) h1.2.1
      exact ⟨_, id, true, cs.octets ++ eoc, _, _, r, ⟨h1.1, cs.octets, docs_berSeq cs h1.2.1 h1.2.2 (by omega), rfl, rfl⟩,
        by simp [Doc.octets], readOne_indefinite.2 ⟨cs, hc, rfl⟩, hr, rfl⟩

/-- **C107.** Taking octets apart with `BerRef::parse` at every level gives documents exactly if the octets are those of the documents. -/
theorem C107_read_ber_iff (fuel : Nat) (bs : Bytes) (ds : Docs) (hf : bs.length < fuel) (hl : bs.length ≤ isizeMax) :
    readBers fuel bs = .ok ds ↔ ds.Ok ∧ bs = ds.octets := by
  constructor
  · exact readBers_sound fuel bs ds hl
  · rintro ⟨h, rfl⟩
    exact readBers_complete fuel ds hf hl h

/-- A SEQUENCE of indefinite length with an INTEGER and a SEQUENCE of definite length with a NULL and a BOOLEAN; behind it an OCTET STRING. -/
example : readBers 18 [0x30, 0x80, 0x02, 0x01, 0x05, 0x30, 0x05, 0x05, 0x00, 0x01, 0x01, 0xff, 0x00, 0x00, 0x04, 0x01, 0x07] =
    .ok (.cons (.node [0x30] true (.cons (.leaf [0x02] [0x05]) (.cons (.node [0x30] false (.cons (.leaf [0x05] []) (.cons (.leaf [0x01] [0xff]) .nil))) .nil)))
      (.cons (.leaf [0x04] [0x07]) .nil)) := by decide +kernel

theorem readDers_cons {fuel : Nat} {bs : Bytes} {ds : Docs} (hne : bs ≠ []) :
    readDers (fuel + 1) bs = .ok ds ↔ ∃ id c rest d r, IsId id ∧ c.length < 2 ^ 64 ∧ bs = tlv id c ++ rest ∧
      readOne (readDers fuel) id (.definite c.length) c = .ok d ∧ readDers fuel rest = .ok r ∧ ds = .cons d r := by
  have hb : bs.isEmpty = false := by simpa using hne
  simp only [readDers, hb, Bool.false_eq_true, if_false]
  constructor
  · intro h
    rcases hp : DerRef.parse bs with ⟨v | e | _ | _, rest⟩
    · rw [hp] at h
      obtain ⟨id, c, h1, h2, rfl, e⟩ := DerRef_parse_ok hp
      simp only [disassemble_tlv h1 h2, Res.bind_ok] at h
      obtain ⟨d, h3, h⟩ := Res.bind_eq_ok.1 h
      obtain ⟨r, h4, h⟩ := Res.bind_eq_ok.1 h
      exact ⟨id, c, rest, d, r, h1, h2, e, h3, h4, (Res.ok.inj h).symm⟩
    all_goals (rw [hp] at h; simp at h)
  · rintro ⟨id, c, rest, d, r, h1, h2, rfl, h3, h4, rfl⟩
    rw [DerRef_parse_tlv h1 h2]
    simp only [disassemble_tlv h1 h2, Res.bind_ok, h3, h4]
    rfl

theorem readDers_sound : ∀ (fuel : Nat) (bs : Bytes) (ds : Docs), readDers fuel bs = .ok ds → ds.Ok ∧ ds.Definite ∧ bs = ds.octets
  | 0, bs, ds, h => by simp [readDers] at h
  | fuel + 1, bs, ds, h => by
    by_cases hne : bs = []
    · subst hne
      simp [readDers] at h
      subst h
      exact ⟨trivial, trivial, rfl⟩
    obtain ⟨id, c, rest, d, r, hid, hc, rfl, h1, h2, rfl⟩ := (readDers_cons hne).1 h
    obtain ⟨h3, h3', rfl⟩ := readDers_sound fuel rest r h2
    rw [readOne_definite hid] at h1
    rcases h1 with ⟨hf, rfl⟩ | ⟨hf, cs, h1, rfl⟩
    · exact ⟨⟨hf, h3⟩, ⟨trivial, h3'⟩, rfl⟩
    · obtain ⟨h4, h4', rfl⟩ := readDers_sound fuel c cs h1
      exact ⟨⟨⟨hf, h4⟩, h3⟩, ⟨⟨rfl, h4'⟩, h3'⟩, rfl⟩

theorem readDers_complete : ∀ (fuel : Nat) (ds : Docs), ds.octets.length < fuel → ds.octets.length < 2 ^ 64 → ds.Ok → ds.Definite →
    readDers fuel ds.octets = .ok ds
  | 0, _, h, _, _, _ => by omega
  | fuel + 1, .nil, _, _, _, _ => by simp [readDers, Docs.octets]
  | fuel + 1, .cons d r, hf, hl, h, hd => by
    simp only [Docs.octets] at hf hl ⊢
    have hne := doc_ne_nil h.1
    refine (readDers_cons (by simp [hne])).2 ?_
    have hpos := List.length_pos_of_ne_nil hne
    rw [List.length_append] at hf hl
    have hr := readDers_complete fuel r (by omega) (by omega) h.2 hd.2
    match d, h.1, hd.1 with
    | .leaf id c, h1, _ =>
      have hid := hasForm_isId (by omega) h1
      exact ⟨id, c, _, _, r, hid, by simp [Doc.octets, tlv] at hl; omega, rfl, (readOne_definite hid).2 (.inl ⟨h1, rfl⟩), hr, rfl⟩
    | .node id false cs, h1, hd1 =>
      have hid := hasForm_isId (by omega) h1.1
      have hp := List.length_pos_of_ne_nil (isId_ne_nil hid)
      simp only [Doc.octets, tlv, List.length_append] at hl hf
      have hc := readDers_complete fuel cs (by omega) (by omega) h1.2 hd1.2
      exact ⟨id, cs.octets, _, _, r, hid, by omega, rfl, (readOne_definite hid).2 (.inr ⟨h1.1, cs, hc, rfl⟩), hr, rfl⟩
    | .node id true cs, h1, hd1 => exact absurd hd1.1 (by simp)

/-- **C107.** The same with `DerRef::parse`, for documents without indefinite lengths. -/
theorem C107_read_der_iff (fuel : Nat) (bs : Bytes) (ds : Docs) (hf : bs.length < fuel) (hl : bs.length < 2 ^ 64) :
    readDers fuel bs = .ok ds ↔ ds.Ok ∧ ds.Definite ∧ bs = ds.octets := by
  constructor
  · exact readDers_sound fuel bs ds
  · rintro ⟨h, hd, rfl⟩
    exact readDers_complete fuel ds hf hl h hd

example : readDers 12 [0x30, 0x05, 0x05, 0x00, 0x01, 0x01, 0xff, 0x04, 0x02, 0x30, 0x80] =
    .ok (.cons (.node [0x30] false (.cons (.leaf [0x05] []) (.cons (.leaf [0x01] [0xff]) .nil))) (.cons (.leaf [0x04] [0x30, 0x80]) .nil)) := by
  decide +kernel

/-! ## Building -/

mutual
theorem buildBer_octets (m : Build) (junk : Nat → UInt8) : ∀ (d : Doc), d.Ok → d.octets.length ≤ isizeMax → buildBer m junk d = .ok d.octets
  | .leaf id c, h, hl => Der_new_ok m junk (hasForm_isId (by omega) h) c hl
  | .node id false cs, h, hl => by
    have hc := hl
    simp only [Doc.octets, tlv, List.length_append] at hc
    rw [buildBer, buildBers_octets m junk cs h.2 (by omega), Res.bind_ok]
    exact Der_new_ok m junk (hasForm_isId (by omega) h.1) cs.octets hl
  | .node id true cs, h, hl => by
    have hc := hl
    simp only [Doc.octets, List.length_append] at hc
    rw [buildBer, buildBers_octets m junk cs h.2.1 (by omega), Res.bind_ok]
    have he : (BerRef.eoc : Bytes) = eoc := by decide
    rw [he, newIndefinite_ok m junk h.1 _ (by simp [indefOctets] at hc ⊢; omega)]
    simp [Doc.octets]
theorem buildBers_octets (m : Build) (junk : Nat → UInt8) : ∀ (ds : Docs), ds.Ok → ds.octets.length ≤ isizeMax → buildBers m junk ds = .ok ds.octets
  | .nil, _, _ => rfl
  | .cons d r, h, hl => by
    simp only [Docs.octets, List.length_append] at hl
    simp only [buildBers, buildBer_octets m junk d h.1 (by omega), buildBers_octets m junk r h.2 (by omega), Res.bind_ok]
    rfl
end

mutual
theorem buildDer_octets (m : Build) (junk : Nat → UInt8) : ∀ (d : Doc), d.definite.Ok → d.definite.octets.length ≤ isizeMax →
    buildDer m junk d = .ok d.definite.octets
  | .leaf id c, h, hl => Der_new_ok m junk (hasForm_isId (by omega) h) c hl
  | .node id b cs, h, hl => by
    have hc := hl
    simp only [Doc.definite, Doc.octets, tlv, List.length_append] at hc
    rw [buildDer, buildDers_octets m junk cs h.2 (by omega), Res.bind_ok]
    exact Der_new_ok m junk (hasForm_isId (by omega) h.1) cs.definite.octets hl
theorem buildDers_octets (m : Build) (junk : Nat → UInt8) : ∀ (ds : Docs), ds.definite.Ok → ds.definite.octets.length ≤ isizeMax →
    buildDers m junk ds = .ok ds.definite.octets
  | .nil, _, _ => rfl
  | .cons d r, h, hl => by
    simp only [Docs.definite, Docs.octets, List.length_append] at hl
    simp only [buildDers, buildDer_octets m junk d h.1 (by omega), buildDers_octets m junk r h.2 (by omega), Res.bind_ok]
    rfl
end

mutual
theorem doc_definite : ∀ (d : Doc), d.definite.Definite
  | .leaf _ _ => trivial
  | .node _ _ cs => ⟨rfl, docs_definite cs⟩
theorem docs_definite : ∀ (ds : Docs), ds.definite.Definite
  | .nil => trivial
  | .cons d r => ⟨doc_definite d, docs_definite r⟩
end

/-- **C107.** What is built from the inside to the outside, with definite and indefinite lengths as one likes, has the octets of X.690 and is taken apart again to the same documents; in
every build, and whatever the memory held before. -/
theorem C107_ber_round_trip (m : Build) (junk : Nat → UInt8) (ds : Docs) (h : ds.Ok) (hl : ds.octets.length ≤ isizeMax) (fuel : Nat)
    (hf : ds.octets.length < fuel) :
    buildBers m junk ds = .ok ds.octets ∧ (buildBers m junk ds).bind (readBers fuel) = .ok ds := by
  have e := buildBers_octets m junk ds h hl
  exact ⟨e, by rw [e]; exact (C107_read_ber_iff fuel _ ds hf hl).2 ⟨h, rfl⟩⟩

example : (buildBers .debug (fun _ => 0xaa) (.cons (.node [0x30] true (.cons (.leaf [0x02] [0x05]) .nil)) .nil)).bind (readBers 8) =
    .ok (.cons (.node [0x30] true (.cons (.leaf [0x02] [0x05]) .nil)) .nil) := by decide +kernel

mutual
theorem doc_definite_ok : ∀ (d : Doc), d.Ok → d.Constructed → d.definite.Ok
  | .leaf _ _, h, _ => h
  | .node _ false cs, h, hc => ⟨hc.1, docs_definite_ok cs h.2 hc.2⟩
  | .node _ true cs, h, hc => ⟨hc.1, docs_definite_ok cs h.2.1 hc.2⟩
theorem docs_definite_ok : ∀ (ds : Docs), ds.Ok → ds.Constructed → ds.definite.Ok
  | .nil, _, _ => trivial
  | .cons d r, h, hc => ⟨doc_definite_ok d h.1 hc.1, docs_definite_ok r h.2 hc.2⟩
end

theorem lenOctets_triple (n : Nat) : (lenOctets (3 * n)).length ≤ (lenOctets n).length + 2 := by
  have h1 : n < 256 ^ (natOctets n).length := by
    have := natVal_lt (natOctets n)
    rwa [natOctets_natVal] at this
  have h2 : (natOctets (3 * n)).length ≤ (natOctets n).length + 1 := natOctets_length_le (by rw [Nat.pow_succ]; omega)
  by_cases hn : n < 128
  · have h3 : (natOctets (3 * n)).length ≤ 2 := natOctets_length_le (by norm_num; omega)
    simp only [lenOctets, if_pos hn]
    split <;> simp; omega
  · simp only [lenOctets, if_neg hn, if_neg (show ¬ 3 * n < 128 by omega), List.length_cons]
    omega

mutual
theorem doc_definite_length : ∀ (d : Doc), d.Ok → 3 * d.octets.length < 2 ^ 64 → d.definite.octets.length ≤ 3 * d.octets.length
  | .leaf id c, _, _ => by simp only [Doc.definite]; omega
  | .node id false cs, h, hl => by
    have hp := List.length_pos_of_ne_nil (isId_ne_nil (hasForm_isId (by omega) h.1))
    simp only [Doc.definite, Doc.octets, tlv_length] at hl ⊢
    have h1 := docs_definite_length cs h.2 (by omega)
    have h2 := lenOctets_length_mono h1
    have h3 := lenOctets_triple cs.octets.length
    omega
  | .node id true cs, h, hl => by
    have hp := List.length_pos_of_ne_nil (isId_ne_nil h.1)
    have he : (eoc : Bytes).length = 2 := by decide
    have hi : (indefOctets : Bytes).length = 1 := by decide
    simp only [Doc.definite, Doc.octets, tlv_length, List.length_append, he, hi] at hl ⊢
    have h1 := docs_definite_length cs h.2.1 (by omega)
    have h2 := lenOctets_length_le (n := cs.definite.octets.length) (by omega)
    omega
theorem docs_definite_length : ∀ (ds : Docs), ds.Ok → 3 * ds.octets.length < 2 ^ 64 → ds.definite.octets.length ≤ 3 * ds.octets.length
  | .nil, _, _ => by simp [Docs.definite, Docs.octets]
  | .cons d r, h, hl => by
    simp only [Docs.definite, Docs.octets, List.length_append] at hl ⊢
    have h1 := doc_definite_length d h.1 (by omega)
    have h2 := docs_definite_length r h.2 (by omega)
    omega
end

/-- **C107.** BER that was taken apart and built again with `Der::new` is DER of at most three times the length, which both parsers take apart to the same documents, now with
definite lengths. -/
theorem C107_ber_to_der (m : Build) (junk : Nat → UInt8) (bs : Bytes) (ds : Docs) (fuel : Nat) (hr : readBers fuel bs = .ok ds)
    (hc : ds.Constructed) (hl : 3 * bs.length ≤ isizeMax) (fuel' : Nat) (hf : 3 * bs.length < fuel') :
    ∃ d, buildDers m junk ds = .ok d ∧ d.length ≤ 3 * bs.length ∧ readDers fuel' d = .ok ds.definite ∧ readBers fuel' d = .ok ds.definite := by
  have hi := isizeMax_eq
  obtain ⟨hok, rfl⟩ := readBers_sound fuel bs ds (by omega) hr
  have h := docs_definite_ok ds hok hc
  have hlen := docs_definite_length ds hok (by omega)
  exact ⟨_, buildDers_octets m junk ds h (by omega), hlen, (C107_read_der_iff _ _ _ (by omega) (by omega)).2 ⟨h, docs_definite ds, rfl⟩,
    (C107_read_ber_iff _ _ _ (by omega) (by omega)).2 ⟨h, rfl⟩⟩

example : readBers 12 [0x30, 0x80, 0x31, 0x80, 0x02, 0x01, 0x05, 0x00, 0x00, 0x00, 0x00] =
      .ok (.cons (.node [0x30] true (.cons (.node [0x31] true (.cons (.leaf [0x02] [0x05]) .nil)) .nil)) .nil) ∧
    (Docs.cons (.node [0x30] true (.cons (.node [0x31] true (.cons (.leaf [0x02] [0x05]) .nil)) .nil)) .nil).Constructed :=
  ⟨by decide +kernel, ⟨⟨0, 16, by omega, by decide⟩, ⟨⟨0, 17, by omega, by decide⟩, trivial, trivial⟩, trivial⟩, trivial⟩

example : ∃ d, buildDers .release (fun _ => 0) (.cons (.node [0x30] true (.cons (.node [0x31] true (.cons (.leaf [0x02] [0x05]) .nil)) .nil)) .nil) = .ok d ∧
    d = [0x30, 0x05, 0x31, 0x03, 0x02, 0x01, 0x05] := ⟨_, by decide +kernel, rfl⟩

/-- **C107.** Different documents have different octets. -/
theorem C107_injective (ds ds' : Docs) (h : ds.Ok) (h' : ds'.Ok) (hl : ds.octets.length ≤ isizeMax) : ds.octets = ds'.octets ↔ ds = ds' := by
  refine ⟨fun e => ?_, fun e => by rw [e]⟩
  have h1 := (C107_read_ber_iff (ds.octets.length + 1) ds.octets ds (by omega) hl).2 ⟨h, rfl⟩
  have h2 := (C107_read_ber_iff (ds.octets.length + 1) ds.octets ds' (by omega) hl).2 ⟨h', e⟩
  exact Res.ok.inj (h1.symm.trans h2)

example : (Docs.cons (.node [0x30] true .nil) .nil).octets ≠ (Docs.cons (.node [0x30] false .nil) .nil).octets := by decide +kernel

theorem readOne_settled {inner : Bytes → Res Docs} {id c : Bytes} (l : Length) (hid : IsId id) (h : ∀ x : Bytes, x.length ≤ c.length → (inner x).Settled) :
    (readOne inner id l c).Settled := by
  cases l with
  | indefinite => exact (h _ (by simp)).bind fun a _ => Res.settled_ok _
  | definite n =>
    rcases isId_hasForm hid with hf | hf
    · simp only [readOne, isPrimitive_hasForm (by omega) hf, Res.bind_ok]
      exact Res.settled_ok _
    · simp only [readOne, isPrimitive_hasForm (by omega) hf, Res.bind_ok]
      simp only [one_ne_zero, decide_false, Bool.false_eq_true, if_false]
      exact (h _ (by omega)).bind fun a _ => Res.settled_ok _

theorem readBers_settled : ∀ (fuel : Nat) (bs : Bytes), bs.length < fuel → bs.length ≤ isizeMax → (readBers fuel bs).Settled
  | 0, _, h, _ => by omega
  | fuel + 1, bs, hf, hl => by
    by_cases hne : bs = []
    · subst hne; exact Res.settled_ok _
    have hb : bs.isEmpty = false := by simpa using hne
    simp only [readBers, hb, Bool.false_eq_true, if_false]
    have hset := (C22_ber_parse_settled bs hl).1
    rcases hp : BerRef.parse bs with ⟨v | e | _ | _, rest⟩
    · obtain ⟨hv, e⟩ := BerRef_parse_sound hl hp
      obtain ⟨id, indef, raw, hbv⟩ := isBer_berValue hv
      simp only [berValue_disassemble hbv, Res.bind_ok]
      have hid := hbv.1
      have hpos := List.length_pos_of_ne_nil (isId_ne_nil hid)
      have hlen : id.length + raw.length ≤ v.length := by
        cases indef with
        | false => obtain ⟨-, -, rfl⟩ := hbv; simp [tlv]
        | true => obtain ⟨-, c, -, rfl, rfl⟩ := hbv; simp
      have he := congrArg List.length e
      rw [List.length_append] at he
      refine (readOne_settled _ hid fun x hx => readBers_settled fuel x (by omega) (by omega)).bind fun d _ => ?_
      exact (readBers_settled fuel rest (by omega) (by omega)).bind fun r _ => Res.settled_ok _
    · exact Res.settled_err e
    all_goals (rw [hp] at hset; rcases hset with ⟨_, h⟩ | ⟨_, h⟩ <;> simp at h)

theorem readDers_settled : ∀ (fuel : Nat) (bs : Bytes), bs.length < fuel → (readDers fuel bs).Settled
  | 0, _, h => by omega
  | fuel + 1, bs, hf => by
    by_cases hne : bs = []
    · subst hne; exact Res.settled_ok _
    have hb : bs.isEmpty = false := by simpa using hne
    simp only [readDers, hb, Bool.false_eq_true, if_false]
    have hset := (C22_der_parse_settled bs).1
    rcases hp : DerRef.parse bs with ⟨v | e | _ | _, rest⟩
    · obtain ⟨id, c, h1, h2, rfl, e⟩ := DerRef_parse_ok hp
      simp only [disassemble_tlv h1 h2, Res.bind_ok]
      have hpos := List.length_pos_of_ne_nil (isId_ne_nil h1)
      have he := congrArg List.length e
      simp only [tlv, List.length_append] at he
      refine (readOne_settled _ h1 fun x hx => readDers_settled fuel x (by omega)).bind fun d _ => ?_
      exact (readDers_settled fuel rest (by omega)).bind fun r _ => Res.settled_ok _
    · exact Res.settled_err e
    all_goals (rw [hp] at hset; rcases hset with ⟨_, h⟩ | ⟨_, h⟩ <;> simp at h)

/-- **C107.** Whatever the octets, taking them apart to the innermost value ends with documents or with an error, never with a panic; and the depth and the number of values are at
most the number of octets, so that the programs end. -/
theorem C107_settled (bs : Bytes) (hl : bs.length ≤ isizeMax) (fuel : Nat) (hf : bs.length < fuel) :
    (readBers fuel bs).Settled ∧ (readDers fuel bs).Settled :=
  ⟨readBers_settled fuel bs hf hl, readDers_settled fuel bs hf⟩

/-- The inner length goes past the end of the outer value; and a NULL inside of a SEQUENCE with one octet missing. -/
example : readBers 7 [0x30, 0x04, 0x30, 0x03, 0x05, 0x00] = .err .unterminatedBytes ∧ readDers 4 [0x30, 0x01, 0x05] = .err .unterminatedBytes := by decide +kernel

end Bsn1
