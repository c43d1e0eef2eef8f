import Verif.Lemmas.Place
/-!
# C113: a value inside a document is found and changed in place, and nothing else changes

The programs search with `parse_mut` and `mut_contents` for the value at a path, change it there, and the octets are read again.
-/

namespace Bsn1
open Spec

theorem withIdent_shape (e : Doc) : ∃ indef c, ∀ k f n, (e.withIdent (idOctets (classNum k) (pcNum f) n)).octets = (Parts.mk k f n c).octets indef := by
  match e with
  | .leaf id c => exact ⟨false, c, fun _ _ _ => rfl⟩
  | .node id false cs => exact ⟨false, cs.octets, fun _ _ _ => rfl⟩
  | .node id true cs => exact ⟨true, cs.octets ++ eoc, fun _ _ _ => by simp [Doc.withIdent, Doc.octets, Parts.octets, Parts.id]⟩

theorem withIdent_self (e : Doc) : e.withIdent e.ident = e := by cases e <;> rfl

theorem withIdent_length (e : Doc) (k k' : ClassTag) (f f' : PCTag) (n : Nat) :
    (e.withIdent (idOctets (classNum k) (pcNum f) n)).octets.length = (e.withIdent (idOctets (classNum k') (pcNum f') n)).octets.length := by
  have := idOctets_length_indep (classNum k) (classNum k') (pcNum f) (pcNum f') n
  match e with
  | .leaf id c => simp [Doc.withIdent, Doc.octets, tlv, this]
  | .node id false cs => simp [Doc.withIdent, Doc.octets, tlv, this]
  | .node id true cs => simp [Doc.withIdent, Doc.octets, this]

theorem touch_setClass {e : Doc} {k : ClassTag} {f : PCTag} {n : Nat} (h : e.ident = idOctets (classNum k) (pcNum f) n) (hl : e.octets.length ≤ isizeMax)
    (k' : ClassTag) :
    (Touch.setClass k').ber e.octets = .ok (e.withIdent (idOctets (classNum k') (pcNum f) n)).octets ∧
    (Touch.setClass k').der e.octets = .ok (e.withIdent (idOctets (classNum k') (pcNum f) n)).octets := by
  obtain ⟨i, c, hs⟩ := withIdent_shape e
  have he : e.octets = (Parts.mk k f n c).octets i := by rw [← hs, ← h, withIdent_self]
  have := edit_inplace .release (fun _ => 0) i (.setClass k') (by simp) ⟨k, f, n, c⟩ (he ▸ hl)
  rw [← he] at this
  rw [hs]
  exact ⟨this.2, this.1⟩

theorem touch_setPc {e : Doc} {k : ClassTag} {f : PCTag} {n : Nat} (h : e.ident = idOctets (classNum k) (pcNum f) n) (hl : e.octets.length ≤ isizeMax)
    (f' : PCTag) :
    (Touch.setPc f').ber e.octets = .ok (e.withIdent (idOctets (classNum k) (pcNum f') n)).octets ∧
    (Touch.setPc f').der e.octets = .ok (e.withIdent (idOctets (classNum k) (pcNum f') n)).octets := by
  obtain ⟨i, c, hs⟩ := withIdent_shape e
  have he : e.octets = (Parts.mk k f n c).octets i := by rw [← hs, ← h, withIdent_self]
  have := edit_inplace .release (fun _ => 0) i (.setPc f') (by simp) ⟨k, f, n, c⟩ (he ▸ hl)
  rw [← he] at this
  rw [hs]
  exact ⟨this.2, this.1⟩

theorem isId_class {id : Bytes} (h : IsId id) : ∃ k f n, id = idOctets (classNum k) (pcNum f) n := by
  obtain ⟨c, p, n, hc, hp, rfl⟩ := h
  have h1 : ∃ k, classNum k = c := by
    rcases (show c = 0 ∨ c = 1 ∨ c = 2 ∨ c = 3 by omega) with rfl | rfl | rfl | rfl
    exacts [⟨.universal, rfl⟩, ⟨.application, rfl⟩, ⟨.contextSpecific, rfl⟩, ⟨.priv, rfl⟩]
  have h2 : ∃ f, pcNum f = p := by
    rcases (show p = 0 ∨ p = 1 by omega) with rfl | rfl
    exacts [⟨.primitive, rfl⟩, ⟨.constructed, rfl⟩]
  obtain ⟨k, rfl⟩ := h1
  obtain ⟨f, rfl⟩ := h2
  exact ⟨k, f, n, rfl⟩

theorem touch_contents {id : Bytes} (hid : IsId id) (c : Bytes) (hl : (tlv id c).length ≤ isizeMax) :
    (∀ k b, (Touch.setAt k b).ber (tlv id c) = (if k < c.length then .ok (tlv id (c.set k b)) else .panic) ∧
      (Touch.setAt k b).der (tlv id c) = if k < c.length then .ok (tlv id (c.set k b)) else .panic) ∧
    (∀ src, (Touch.copy src).ber (tlv id c) = (if src.length = c.length then .ok (tlv id src) else .panic) ∧
      (Touch.copy src).der (tlv id c) = if src.length = c.length then .ok (tlv id src) else .panic) := by
  obtain ⟨k, f, n, rfl⟩ := isId_class hid
  refine ⟨fun i b => ?_, fun src => ?_⟩
  · have := edit_inplace .release (fun _ => 0) false (.setAt i b) (by simp) ⟨k, f, n, c⟩ hl
    have e : outcome false ((EditOp.setAt i b).step ⟨k, f, n, c⟩) =
        if i < c.length then .ok (tlv (idOctets (classNum k) (pcNum f) n) (c.set i b)) else .panic := by
      simp only [EditOp.step]
      split <;> rfl
    rw [e] at this
    exact ⟨this.2, this.1⟩
  · have := edit_inplace .release (fun _ => 0) false (.copy src) (by simp) ⟨k, f, n, c⟩ hl
    have e : outcome false ((EditOp.copy src).step ⟨k, f, n, c⟩) =
        if src.length = c.length then .ok (tlv (idOctets (classNum k) (pcNum f) n) src) else .panic := by
      simp only [EditOp.step]
      split <;> rfl
    rw [e] at this
    exact ⟨this.2, this.1⟩

theorem at_length {ds : Docs} {e : Doc} {p : List Nat} (h : ds.at p = some e) : e.octets.length ≤ ds.octets.length := by
  obtain ⟨a, b, h1, _⟩ := docs_filled ds e p h
  rw [h1]; simp; omega

/-- **C113.** The program finds the value at the path, whatever it does with it: the octets before and behind are as they were, and it panics or fails exactly if what is done
with the value does. -/
theorem C113_finds (ds : Docs) (e : Doc) (p : List Nat) (hok : ds.Ok) (hl : ds.octets.length ≤ isizeMax) (h : ds.at p = some e) :
    ∃ before after, ds.octets = before ++ e.octets ++ after ∧
      (∀ k, onBer k p ds.octets = (k e.octets).bind fun q => .ok (before ++ q ++ after)) ∧
      (ds.Definite → ∀ k, onDer k p ds.octets = (k e.octets).bind fun q => .ok (before ++ q ++ after)) := by
  obtain ⟨a, b, h1, h2⟩ := docs_filled ds e p h
  refine ⟨a, b, h1, fun k => ?_, fun hd k => ?_⟩
  · rw [onBer_filled k e p ds hok hl h]
    simp only [h2]
  · rw [onDer_filled k e p ds hok hd hl h]
    simp only [h2]

/-- The second value in a SEQUENCE of indefinite length in a SEQUENCE of definite length, behind a NULL. -/
example : onBer (fun v => if v = [0x02, 0x01, 0x05] then .ok [0x41, 0x01, 0x06] else .panic) [1, 0, 1]
    [0x05, 0x00, 0x30, 0x0b, 0x30, 0x80, 0x05, 0x00, 0x02, 0x01, 0x05, 0x00, 0x00, 0x05, 0x00] =
    .ok [0x05, 0x00, 0x30, 0x0b, 0x30, 0x80, 0x05, 0x00, 0x41, 0x01, 0x06, 0x00, 0x00, 0x05, 0x00] := by decide +kernel

/-- **C113.** If what stands in the place afterwards is still a value, of the same length, then the octets are read again to the same documents with what that value is read to in
the place.  Only an end-of-contents inside of a value of indefinite length is excepted. -/
theorem C113_reads (ds : Docs) (e : Doc) (p : List Nat) (hok : ds.Ok) (hl : ds.octets.length ≤ isizeMax) (h : ds.at p = some e)
    (k : Bytes → Res Bytes) (q : Bytes) (hk : k e.octets = .ok q) (hq : IsBer q) (hqe : q.length = e.octets.length)
    (he : ds.inIndefinite false p = true → q ≠ eoc) (fuel : Nat) (hf : ds.octets.length < fuel) (ds' : Docs) :
    (onBer k p ds.octets).bind (readBers fuel) = .ok ds' ↔ ∃ f, readBers fuel q = .ok (.cons f .nil) ∧ ds' = Docs.put f ds p := by
  have hlen := docs_filled_length h hqe
  have hx := at_length h
  rw [onBer_filled k e p ds hok hl h, hk]
  simp only [Res.bind]
  rw [C107_read_ber_iff fuel _ ds' (by omega) (by omega)]
  constructor
  · rintro ⟨h1, h2⟩
    obtain ⟨f, h3, h4, h5⟩ := docs_reads hq hqe ds ds' p false hok hl h he h1 h2.symm
    exact ⟨f, (C107_read_ber_iff fuel q _ (by omega) (by omega)).2 ⟨⟨h3, trivial⟩, by simp [Docs.octets, h4]⟩, h5⟩
  · rintro ⟨f, h1, rfl⟩
    obtain ⟨⟨h2, -⟩, h3⟩ := (C107_read_ber_iff fuel q _ (by omega) (by omega)).1 h1
    simp only [Docs.octets, List.append_nil] at h3
    subst h3
    exact ⟨docs_put_ok h2 ds p false hok h fun hi hx => he hi ((doc_eq_eoc h2).2 hx), (docs_put_octets hqe ds p h).symm⟩

example : (onBer (fun _ => .ok [0x30, 0x02, 0x05, 0x00]) [0, 0] [0x30, 0x80, 0x04, 0x02, 0x07, 0x08, 0x00, 0x00]).bind (readBers 9) =
    .ok (.cons (.node [0x30] true (.cons (.node [0x30] false (.cons (.leaf [0x05] []) .nil)) .nil)) .nil) := by decide +kernel

theorem put_reads {ds : Docs} {e f : Doc} {p : List Nat} (hok : ds.Ok) (hl : ds.octets.length ≤ isizeMax) (h : ds.at p = some e) (hf : f.Ok)
    (hfe : f.octets.length = e.octets.length) {fuel : Nat} (hfu : ds.octets.length < fuel) :
    readBers fuel (Docs.put f ds p).octets = .ok (Docs.put f ds p) ↔ ¬ (ds.inIndefinite false p = true ∧ f = .leaf [0x00] []) := by
  have hlen := docs_filled_length h hfe
  rw [C107_read_ber_iff fuel _ _ (by rw [docs_put_octets hfe ds p h]; omega) (by rw [docs_put_octets hfe ds p h]; omega)]
  constructor
  · rintro ⟨h1, _⟩ ⟨h2, rfl⟩
    rcases docs_put_bad ds p false h h2 with h3 | ⟨h3, _⟩
    · exact h3 h1
    · simp at h3
  · intro hx
    exact ⟨docs_put_ok hf ds p false hok h fun h1 h2 => hx ⟨h1, h2⟩, rfl⟩

theorem withIdent_ok {e : Doc} {k k' : ClassTag} {f : PCTag} {n : Nat} (h : e.ident = idOctets (classNum k) (pcNum f) n) (hok : e.Ok) :
    (e.withIdent (idOctets (classNum k') (pcNum f) n)).Ok := by
  have key : ∀ p, p < 2 → HasForm p (idOctets (classNum k) (pcNum f) n) → HasForm p (idOctets (classNum k') (pcNum f) n) := by
    intro p hp hx
    have h1 := isPrimitive_hasForm hp hx
    have h2 := isPrimitive_hasForm (pcNum_lt f) ⟨classNum k, n, classNum_lt k, rfl⟩
    have h3 := (Res.ok.inj (h1.symm.trans h2))
    have : p = pcNum f := by
      have := pcNum_lt f
      by_cases hp0 : p = 0 <;> by_cases hf0 : pcNum f = 0 <;> simp_all
      omega
    exact ⟨classNum k', n, classNum_lt k', by rw [this]⟩
  match e with
  | .leaf id c => simp only [Doc.ident] at h; subst h; exact key 0 (by omega) hok
  | .node id false cs => simp only [Doc.ident] at h; subst h; exact ⟨key 1 (by omega) hok.1, hok.2⟩
  | .node id true cs => exact ⟨⟨_, _, _, classNum_lt k', pcNum_lt f, rfl⟩, hok.2⟩

/-- **C113.** `mut_id().set_class(k')` on the value at the path changes the class of that value and nothing else: the octets are those of the documents with this change, and they are
read again as such, exactly unless the value is `00 00` now and inside of a value of indefinite length. -/
theorem C113_set_class_partial (ds : Docs) (e : Doc) (p : List Nat) (hok : ds.Ok) (hl : ds.octets.length ≤ isizeMax) (h : ds.at p = some e)
    (k k' : ClassTag) (f : PCTag) (n : Nat) (hid : e.ident = idOctets (classNum k) (pcNum f) n) (fuel : Nat) (hf : ds.octets.length < fuel) :
    let e' := e.withIdent (idOctets (classNum k') (pcNum f) n)
    onBer (Touch.setClass k').ber p ds.octets = .ok (Docs.put e' ds p).octets ∧
      (readBers fuel (Docs.put e' ds p).octets = .ok (Docs.put e' ds p) ↔ ¬ (ds.inIndefinite false p = true ∧ e' = .leaf [0x00] [])) := by
  intro e'
  have hx := at_length h
  have hle : e'.octets.length = e.octets.length := by
    rw [← withIdent_self e, hid]
    have : e'.octets.length = (e.withIdent (idOctets (classNum k) (pcNum f) n)).octets.length := withIdent_length e k' k f f n
    exact this
  refine ⟨?_, put_reads hok hl h (withIdent_ok hid (docs_at_ok ds e p hok h)) hle hf⟩
  rw [onBer_filled _ e p ds hok hl h, (touch_setClass hid (by omega) k').1, docs_put_octets hle ds p h]
  rfl

example : (onBer (Touch.setClass .priv).ber [0, 0, 0] [0x30, 0x80, 0xbf, 0x87, 0x68, 0x03, 0x02, 0x01, 0x05, 0x00, 0x00]).bind (readBers 12) =
    .ok (.cons (.node [0x30] true (.cons (.node [0xbf, 0x87, 0x68] false (.cons (.leaf [0xc2] [0x05]) .nil)) .nil)) .nil) := by decide +kernel

/-- **C113 is violated.** Inside of a value of indefinite length, a safe call of `set_class` on an inner value `80 00`, an empty primitive value with context-specific number 0, makes
it an end-of-contents: the outer value ends there now, and the rest stands beside it. -/
theorem C113_violated : (onBer (Touch.setClass .universal).ber [0, 0] [0x30, 0x80, 0x80, 0x00, 0x02, 0x01, 0x05, 0x00, 0x00]).bind (readBers 10) =
    .ok (.cons (.node [0x30] true .nil) (.cons (.leaf [0x02] [0x05]) (.cons (.leaf [0x00] []) .nil))) ∧
    readBers 10 [0x30, 0x80, 0x80, 0x00, 0x02, 0x01, 0x05, 0x00, 0x00] =
    .ok (.cons (.node [0x30] true (.cons (.leaf [0x80] []) (.cons (.leaf [0x02] [0x05]) .nil))) .nil) := by decide +kernel

/-- **C113.** `mut_id().set_pc(Primitive)` on a value with others inside makes their octets the contents, which are not looked into any more; with the same exception. -/
theorem C113_set_primitive_partial (ds : Docs) (cs : Docs) (p : List Nat) (hok : ds.Ok) (hl : ds.octets.length ≤ isizeMax) (k : ClassTag) (n : Nat)
    (h : ds.at p = some (.node (idOctets (classNum k) 1 n) false cs)) (fuel : Nat) (hf : ds.octets.length < fuel) :
    let e' := Doc.leaf (idOctets (classNum k) 0 n) cs.octets
    onBer (Touch.setPc .primitive).ber p ds.octets = .ok (Docs.put e' ds p).octets ∧
      (readBers fuel (Docs.put e' ds p).octets = .ok (Docs.put e' ds p) ↔ ¬ (ds.inIndefinite false p = true ∧ e' = .leaf [0x00] [])) := by
  intro e'
  have hx := at_length h
  have hle : e'.octets.length = (Doc.node (idOctets (classNum k) 1 n) false cs).octets.length := by
    simp [e', Doc.octets, tlv, idOctets_length_indep (classNum k) (classNum k) 0 1 n]
  refine ⟨?_, put_reads hok hl h (show e'.Ok from ⟨_, _, classNum_lt k, rfl⟩) hle hf⟩
  rw [onBer_filled _ _ p ds hok hl h, (touch_setPc (k := k) (f := .constructed) (n := n) rfl (by omega) .primitive).1, docs_put_octets hle ds p h]
  rfl

example : (onBer (Touch.setPc .primitive).ber [0, 0] [0x30, 0x05, 0xa2, 0x03, 0x02, 0x01, 0x05]).bind (readBers 12) =
    .ok (.cons (.node [0x30] false (.cons (.leaf [0x82] [0x02, 0x01, 0x05]) .nil)) .nil) := by decide +kernel

theorem tlv_reads {id c : Bytes} (hid : HasForm 1 id) (hl : (tlv id c).length ≤ isizeMax) {fuel : Nat} (hf : (tlv id c).length < fuel) (f : Doc) :
    readBers fuel (tlv id c) = .ok (.cons f .nil) ↔ ∃ cs, readBers fuel c = .ok cs ∧ f = .node id false cs := by
  have hi := isizeMax_eq
  have hc := tlv_length id c
  rw [C107_read_ber_iff fuel _ _ hf hl]
  constructor
  · rintro ⟨⟨h1, -⟩, h2⟩
    simp only [Docs.octets, List.append_nil] at h2
    have hb : BerValue (tlv id c) id false c := ⟨hasForm_isId (by omega) hid, by omega, rfl⟩
    match f, h1, h2 with
    | .leaf id' c', h1, h2 =>
      have hv : BerValue (tlv id c) id' false c' := by
        rw [h2]
        have := congrArg List.length h2
        rw [Doc.octets, tlv_length, tlv_length] at this
        exact ⟨hasForm_isId (by omega) h1, by omega, rfl⟩
      obtain ⟨rfl, _, _⟩ := berValue_unique hb hv
      have := (isPrimitive_hasForm (by omega) h1).symm.trans (isPrimitive_hasForm (by omega) hid)
      simp at this
    | .node id' false cs, h1, h2 =>
      have hl2 := congrArg List.length h2
      rw [Doc.octets, tlv_length, tlv_length] at hl2
      have hv : BerValue (tlv id c) id' false cs.octets := by
        rw [h2]
        exact ⟨hasForm_isId (by omega) h1.1, by omega, rfl⟩
      obtain ⟨rfl, _, e⟩ := berValue_unique hb hv
      exact ⟨cs, (C107_read_ber_iff fuel _ _ (by omega) (by omega)).2 ⟨h1.2, e⟩, rfl⟩
    | .node id' true cs, h1, h2 =>
      have hl2 := congrArg List.length h2
      rw [Doc.octets, tlv_length] at hl2
      simp only [List.length_append] at hl2
      have hv : BerValue (tlv id c) id' true (cs.octets ++ eoc) := by
        rw [h2]
        exact ⟨h1.1, _, docs_berSeq cs h1.2.1 h1.2.2 (by omega), rfl, by simp [Doc.octets]⟩
      obtain ⟨_, e, _⟩ := berValue_unique hb hv
      cases e
  · rintro ⟨cs, h1, rfl⟩
    obtain ⟨h2, rfl⟩ := (C107_read_ber_iff fuel c cs (by omega) (by omega)).1 h1
    exact ⟨⟨⟨hid, h2⟩, trivial⟩, by simp [Docs.octets, Doc.octets]⟩

theorem hasForm_ne_eoc {id c : Bytes} (hid : HasForm 1 id) : tlv id c ≠ eoc := by
  obtain ⟨k, n, hk, rfl⟩ := hid
  obtain ⟨r, hr⟩ := idOctets_cons k 1 n
  intro e
  simp only [tlv, hr, eoc, List.cons_append, List.cons.injEq] at e
  have := congrArg UInt8.toNat e.1
  rw [toNat_ofNat_of_lt (by split <;> omega)] at this
  simp at this

/-- **C113.** `mut_id().set_pc(Constructed)` on a value without others inside: the octets are read again exactly if the contents are read to values, which are inside of it then. -/
theorem C113_set_constructed_iff (ds : Docs) (c : Bytes) (p : List Nat) (hok : ds.Ok) (hl : ds.octets.length ≤ isizeMax) (k : ClassTag) (n : Nat)
    (h : ds.at p = some (.leaf (idOctets (classNum k) 0 n) c)) (fuel : Nat) (hf : ds.octets.length < fuel) (ds' : Docs) :
    (onBer (Touch.setPc .constructed).ber p ds.octets).bind (readBers fuel) = .ok ds' ↔
      ∃ cs, readBers fuel c = .ok cs ∧ ds' = Docs.put (.node (idOctets (classNum k) 1 n) false cs) ds p := by
  have hi := isizeMax_eq
  have hx := at_length h
  have hid : HasForm 1 (idOctets (classNum k) 1 n) := ⟨_, _, classNum_lt k, rfl⟩
  have hle : (tlv (idOctets (classNum k) 1 n) c).length = (Doc.leaf (idOctets (classNum k) 0 n) c).octets.length := by
    simp [Doc.octets, tlv, idOctets_length_indep (classNum k) (classNum k) 0 1 n]
  have hc := tlv_length (idOctets (classNum k) 1 n) c
  rw [C113_reads ds _ p hok hl h _ (tlv (idOctets (classNum k) 1 n) c) (touch_setPc (k := k) (f := .primitive) (n := n) rfl (by omega) .constructed).1
    (.definite _ _ (hasForm_isId (by omega) hid) (by omega)) hle (fun _ => hasForm_ne_eoc hid) fuel hf]
  simp only [tlv_reads hid (show (tlv (idOctets (classNum k) 1 n) c).length ≤ isizeMax by omega) (show _ < fuel by omega)]
  constructor
  · rintro ⟨_, ⟨cs, h1, rfl⟩, h2⟩; exact ⟨cs, h1, h2⟩
  · rintro ⟨cs, h1, h2⟩; exact ⟨_, ⟨cs, h1, rfl⟩, h2⟩

example : (onBer (Touch.setPc .constructed).ber [0, 0] [0x30, 0x05, 0x82, 0x03, 0x02, 0x01, 0x05]).bind (readBers 12) =
    .ok (.cons (.node [0x30] false (.cons (.node [0xa2] false (.cons (.leaf [0x02] [0x05]) .nil)) .nil)) .nil) := by decide +kernel

/-- **C113.** `mut_id().set_pc(_)` on a value of indefinite length changes that bit, and the octets are read again to the same documents with this change. -/
theorem C113_set_pc_indefinite (ds : Docs) (cs : Docs) (p : List Nat) (hok : ds.Ok) (hl : ds.octets.length ≤ isizeMax) (k : ClassTag) (f f' : PCTag) (n : Nat)
    (h : ds.at p = some (.node (idOctets (classNum k) (pcNum f) n) true cs)) (fuel : Nat) (hf : ds.octets.length < fuel) :
    (onBer (Touch.setPc f').ber p ds.octets).bind (readBers fuel) = .ok (Docs.put (.node (idOctets (classNum k) (pcNum f') n) true cs) ds p) := by
  have hx := at_length h
  have hle : (Doc.node (idOctets (classNum k) (pcNum f') n) true cs).octets.length = (Doc.node (idOctets (classNum k) (pcNum f) n) true cs).octets.length := by
    simp [Doc.octets, idOctets_length_indep (classNum k) (classNum k) (pcNum f') (pcNum f) n]
  have he := docs_at_ok ds _ p hok h
  rw [onBer_filled _ _ p ds hok hl h, (touch_setPc (k := k) (f := f) (n := n) rfl (by omega) f').1]
  simp only [Res.bind]
  have h1 := docs_put_octets hle ds p h
  simp only [Doc.withIdent]
  rw [← h1]
  exact (put_reads hok hl h (f := .node (idOctets (classNum k) (pcNum f') n) true cs) ⟨⟨_, _, _, classNum_lt k, pcNum_lt f', rfl⟩, he.2⟩ hle hf).2 (by simp)

example : (onBer (Touch.setPc .primitive).ber [0, 0] [0x30, 0x07, 0xa2, 0x80, 0x02, 0x01, 0x05, 0x00, 0x00]).bind (readBers 12) =
    .ok (.cons (.node [0x30] false (.cons (.node [0x82] true (.cons (.leaf [0x02] [0x05]) .nil)) .nil)) .nil) := by decide +kernel

/-- **C113.** The contents of a value without others inside, changed through `mut_contents()`: a panic exactly if the index is out of range or the slice is of another length, and
otherwise the octets are read again to the same documents with the new contents in the place. -/
theorem C113_leaf_contents (ds : Docs) (id c : Bytes) (p : List Nat) (hok : ds.Ok) (hl : ds.octets.length ≤ isizeMax) (h : ds.at p = some (.leaf id c))
    (fuel : Nat) (hf : ds.octets.length < fuel) :
    (∀ i b, (onBer (Touch.setAt i b).ber p ds.octets).bind (readBers fuel) =
      if i < c.length then .ok (Docs.put (.leaf id (c.set i b)) ds p) else .panic) ∧
    (∀ src, (onBer (Touch.copy src).ber p ds.octets).bind (readBers fuel) =
      if src.length = c.length then .ok (Docs.put (.leaf id src) ds p) else .panic) := by
  have hx := at_length h
  have he := docs_at_ok ds _ p hok h
  obtain ⟨t1, t2⟩ := touch_contents (hasForm_isId (by omega) he) c (show (tlv id c).length ≤ isizeMax from le_trans hx hl)
  have key : ∀ c' : Bytes, c'.length = c.length → (c = [] → c' = []) →
      readBers fuel (Docs.filled (tlv id c') ds p) = .ok (Docs.put (.leaf id c') ds p) := by
    intro c' hc hn
    have hle : (Doc.leaf id c').octets.length = (Doc.leaf id c).octets.length := by simp [Doc.octets, tlv, hc]
    have h1 : (Docs.put (.leaf id c') ds p).octets = Docs.filled (tlv id c') ds p := docs_put_octets (f := .leaf id c') hle ds p h
    rw [← h1]
    refine (put_reads hok hl h (f := .leaf id c') he hle hf).2 ?_
    rintro ⟨h2, h3⟩
    simp only [Doc.leaf.injEq] at h3
    obtain ⟨rfl, rfl⟩ := h3
    have hc0 : c = [] := List.length_eq_zero_iff.1 hc.symm
    subst hc0
    have h4 := (put_reads hok hl h he rfl hf).1 (by
      have h5 := (C107_read_ber_iff fuel _ ds hf hl).2 ⟨hok, rfl⟩
      rwa [docs_put_self ds p h])
    exact h4 ⟨h2, rfl⟩
  constructor
  · intro i b
    rw [onBer_filled _ _ p ds hok hl h]
    simp only [Doc.octets, (t1 i b).1]
    split
    · rename_i hlt
      exact key _ (by simp) (by rintro rfl; simp)
    · rfl
  · intro src
    rw [onBer_filled _ _ p ds hok hl h]
    simp only [Doc.octets, (t2 src).1]
    split
    · rename_i hlt
      exact key _ hlt (by rintro rfl; simpa using hlt)
    · rfl

example : (onBer (Touch.setAt 1 0x09).ber [1, 0] [0x05, 0x00, 0x30, 0x80, 0x04, 0x02, 0x07, 0x08, 0x00, 0x00]).bind (readBers 12) =
    .ok (.cons (.leaf [0x05] []) (.cons (.node [0x30] true (.cons (.leaf [0x04] [0x07, 0x09]) .nil)) .nil)) := by decide +kernel

/-- **C113.** The contents of a value of definite length with others inside: the octets are read again exactly if the new contents are read to values, which are inside then. -/
theorem C113_node_contents_iff (ds cs : Docs) (id : Bytes) (p : List Nat) (hok : ds.Ok) (hl : ds.octets.length ≤ isizeMax)
    (h : ds.at p = some (.node id false cs)) (fuel : Nat) (hf : ds.octets.length < fuel) :
    (∀ i b, cs.octets.length ≤ i → onBer (Touch.setAt i b).ber p ds.octets = .panic) ∧
    (∀ src, src.length ≠ cs.octets.length → onBer (Touch.copy src).ber p ds.octets = .panic) ∧
    (∀ i b ds', i < cs.octets.length → ((onBer (Touch.setAt i b).ber p ds.octets).bind (readBers fuel) = .ok ds' ↔
      ∃ cs', readBers fuel (cs.octets.set i b) = .ok cs' ∧ ds' = Docs.put (.node id false cs') ds p)) ∧
    (∀ src ds', src.length = cs.octets.length → ((onBer (Touch.copy src).ber p ds.octets).bind (readBers fuel) = .ok ds' ↔
      ∃ cs', readBers fuel src = .ok cs' ∧ ds' = Docs.put (.node id false cs') ds p)) := by
  have hi := isizeMax_eq
  have hx := at_length h
  have he := docs_at_ok ds _ p hok h
  have hlt : (tlv id cs.octets).length ≤ isizeMax := le_trans hx hl
  obtain ⟨t1, t2⟩ := touch_contents (hasForm_isId (by omega) he.1) cs.octets hlt
  have key : ∀ (t : Touch) (src : Bytes), src.length = cs.octets.length → t.ber (tlv id cs.octets) = .ok (tlv id src) → ∀ ds',
      ((onBer t.ber p ds.octets).bind (readBers fuel) = .ok ds' ↔ ∃ cs', readBers fuel src = .ok cs' ∧ ds' = Docs.put (.node id false cs') ds p) := by
    intro t src hs ht ds'
    have hle : (tlv id src).length = (Doc.node id false cs).octets.length := by simp [Doc.octets, tlv, hs]
    rw [tlv_length] at hlt
    rw [C113_reads ds _ p hok hl h _ (tlv id src) ht (.definite _ _ (hasForm_isId (by omega) he.1) (by omega)) hle (fun _ => hasForm_ne_eoc he.1) fuel hf]
    simp only [tlv_reads he.1 (show (tlv id src).length ≤ isizeMax by omega) (show _ < fuel by omega)]
    constructor
    · rintro ⟨_, ⟨cs, h1, rfl⟩, h2⟩; exact ⟨cs, h1, h2⟩
    · rintro ⟨cs, h1, h2⟩; exact ⟨_, ⟨cs, h1, rfl⟩, h2⟩
  refine ⟨fun i b hib => ?_, fun src hs => ?_, fun i b ds' hib => ?_, fun src ds' hs => ?_⟩
  · rw [onBer_filled _ _ p ds hok hl h]
    simp only [Doc.octets, (t1 i b).1, if_neg (Nat.not_lt.2 hib)]
    rfl
  · rw [onBer_filled _ _ p ds hok hl h]
    simp only [Doc.octets, (t2 src).1, if_neg hs]
    rfl
  · exact key _ _ (by simp) (by rw [(t1 i b).1, if_pos hib]) ds'
  · exact key _ _ hs (by rw [(t2 src).1, if_pos hs]) ds'

example : (onBer (Touch.copy [0x05, 0x00, 0x05, 0x00]).ber [0, 0] [0x30, 0x80, 0x30, 0x04, 0x04, 0x02, 0x07, 0x08, 0x00, 0x00]).bind (readBers 12) =
    .ok (.cons (.node [0x30] true (.cons (.node [0x30] false (.cons (.leaf [0x05] []) (.cons (.leaf [0x05] []) .nil))) .nil)) .nil) := by decide +kernel

mutual
theorem doc_at_put {e f : Doc} : ∀ (d : Doc) (p : List Nat), d.at p = some e → (Doc.put f d p).at p = some f
  | _, [], _ => by simp [Doc.put, Doc.at]
  | .leaf _ _, _ :: _, h => by simp [Doc.at] at h
  | .node id b cs, i :: p, h => by
    have := docs_at_put (f := f) cs (i :: p) h
    simpa [Doc.put, Doc.at] using this
theorem docs_at_put {e f : Doc} : ∀ (ds : Docs) (p : List Nat), ds.at p = some e → (Docs.put f ds p).at p = some f
  | .nil, _, h => by simp [Docs.at] at h
  | .cons _ _, [], h => by simp [Docs.at] at h
  | .cons d r, 0 :: p, h => by
    have := doc_at_put (f := f) d p h
    simpa [Docs.put, Docs.at] using this
  | .cons d r, (i + 1) :: p, h => by
    have := docs_at_put (f := f) r (i :: p) h
    simpa [Docs.put, Docs.at] using this
end

theorem touch_contents_indef {id : Bytes} (hid : IsId id) (c : Bytes) (hl : (id ++ indefOctets ++ (c ++ eoc)).length ≤ isizeMax) :
    (∀ k b, (Touch.setAt k b).ber (id ++ indefOctets ++ (c ++ eoc)) =
      if k < c.length + 2 then .ok (id ++ indefOctets ++ (c ++ eoc).set k b) else .panic) ∧
    (∀ src, (Touch.copy src).ber (id ++ indefOctets ++ (c ++ eoc)) =
      if src.length = c.length + 2 then .ok (id ++ indefOctets ++ src) else .panic) := by
  obtain ⟨k, f, n, rfl⟩ := isId_class hid
  have hn : (c ++ eoc).length = c.length + 2 := by simp [eoc]
  refine ⟨fun i b => ?_, fun src => ?_⟩
  · have := (edit_inplace .release (fun _ => 0) true (.setAt i b) (by simp) ⟨k, f, n, c ++ eoc⟩ hl).2
    have e : outcome true ((EditOp.setAt i b).step ⟨k, f, n, c ++ eoc⟩) =
        if i < c.length + 2 then .ok (idOctets (classNum k) (pcNum f) n ++ indefOctets ++ (c ++ eoc).set i b) else .panic := by
      simp only [EditOp.step, hn]
      split <;> rfl
    rw [e] at this
    exact this
  · have := (edit_inplace .release (fun _ => 0) true (.copy src) (by simp) ⟨k, f, n, c ++ eoc⟩ hl).2
    have e : outcome true ((EditOp.copy src).step ⟨k, f, n, c ++ eoc⟩) =
        if src.length = c.length + 2 then .ok (idOctets (classNum k) (pcNum f) n ++ indefOctets ++ src) else .panic := by
      simp only [EditOp.step, hn]
      split <;> rfl
    rw [e] at this
    exact this

/-- A value whose octets begin with these and `80` is that value of indefinite length. -/
theorem indef_shape {id src : Bytes} (hid : IsId id) (hl : (id ++ indefOctets ++ src).length ≤ isizeMax) {f : Doc} (hf : f.Ok) (he : f.octets = id ++ indefOctets ++ src) :
    ∃ cs, f = .node id true cs ∧ src = cs.octets ++ eoc := by
  have hi := isizeMax_eq
  have hd := berDisassemble_indef hid src
  rw [← he] at hd hl
  match f, hf, hd, hl with
  | .leaf id' c', hf, hd, hl =>
    rw [Doc.octets] at hd hl
    rw [tlv_length] at hl
    have hdis : BerRef.disassemble (tlv id' c') = _ := disassemble_tlv (hasForm_isId (by omega) hf) (by omega)
    rw [hdis] at hd
    simp at hd
  | .node id' false cs, hf, hd, hl =>
    rw [Doc.octets] at hd hl
    rw [tlv_length] at hl
    have hdis : BerRef.disassemble (tlv id' cs.octets) = _ := disassemble_tlv (hasForm_isId (by omega) hf.1) (by omega)
    rw [hdis] at hd
    simp at hd
  | .node id' true cs, hf, hd, hl =>
    rw [Doc.octets, List.append_assoc (id' ++ indefOctets), berDisassemble_indef hf.1] at hd
    simp only [Res.ok.injEq, Prod.mk.injEq, true_and] at hd
    exact ⟨cs, by rw [hd.1], hd.2.symm⟩

/-- **C113.** The contents of a value of indefinite length, its end-of-contents among them, changed through `mut_contents()`: a panic exactly if the index is out of range or the
slice is of another length; otherwise the octets are read again to the same documents with another value of that length in the place exactly if the new contents are
values, none of them an end-of-contents, followed by one. -/
theorem C113_indefinite_contents_iff (ds cs : Docs) (id : Bytes) (p : List Nat) (hok : ds.Ok) (hl : ds.octets.length ≤ isizeMax)
    (h : ds.at p = some (.node id true cs)) (fuel : Nat) (hf : ds.octets.length < fuel) :
    (∀ i b, cs.octets.length + 2 ≤ i → onBer (Touch.setAt i b).ber p ds.octets = .panic) ∧
    (∀ src, src.length ≠ cs.octets.length + 2 → onBer (Touch.copy src).ber p ds.octets = .panic) ∧
    (∀ i b f, i < cs.octets.length + 2 → f.octets.length = (Doc.node id true cs).octets.length →
      ((onBer (Touch.setAt i b).ber p ds.octets).bind (readBers fuel) = .ok (Docs.put f ds p) ↔
        ∃ cs', f = .node id true cs' ∧ (cs.octets ++ eoc).set i b = cs'.octets ++ eoc ∧ cs'.Ok ∧ .leaf [0x00] [] ∉ cs'.toList)) ∧
    (∀ src f, src.length = cs.octets.length + 2 → f.octets.length = (Doc.node id true cs).octets.length →
      ((onBer (Touch.copy src).ber p ds.octets).bind (readBers fuel) = .ok (Docs.put f ds p) ↔
        ∃ cs', f = .node id true cs' ∧ src = cs'.octets ++ eoc ∧ cs'.Ok ∧ .leaf [0x00] [] ∉ cs'.toList)) := by
  have hx := at_length h
  have he := docs_at_ok ds _ p hok h
  have hoc : (Doc.node id true cs).octets = id ++ indefOctets ++ (cs.octets ++ eoc) := by simp [Doc.octets]
  obtain ⟨t1, t2⟩ := touch_contents_indef he.1 cs.octets (by rw [← hoc]; exact le_trans hx hl)
  have key : ∀ (src : Bytes) (f : Doc), src.length = cs.octets.length + 2 → f.octets.length = (Doc.node id true cs).octets.length →
      (readBers fuel (Docs.filled (id ++ indefOctets ++ src) ds p) = .ok (Docs.put f ds p) ↔
        ∃ cs', f = .node id true cs' ∧ src = cs'.octets ++ eoc ∧ cs'.Ok ∧ .leaf [0x00] [] ∉ cs'.toList) := by
    intro src f hs hfl
    have hq : (id ++ indefOctets ++ src).length = (Doc.node id true cs).octets.length := by rw [hoc]; simp [hs, eoc]
    have hlen := docs_filled_length h hq
    obtain ⟨a, b, h1, h2⟩ := docs_filled ds _ p h
    rw [C107_read_ber_iff fuel _ _ (by omega) (by omega), docs_put_octets hfl ds p h]
    constructor
    · rintro ⟨h3, h4⟩
      have h5 := docs_at_ok _ _ p h3 (docs_at_put ds p h)
      rw [h2, h2] at h4
      have h6 : f.octets = id ++ indefOctets ++ src := by
        have := List.append_inj_left h4 (by simp only [List.length_append] at hq ⊢; omega)
        exact (List.append_cancel_left this).symm
      obtain ⟨cs', rfl, h7⟩ := indef_shape he.1 (by omega) h5 h6
      exact ⟨cs', rfl, h7, h5.2⟩
    · rintro ⟨cs', rfl, rfl, h3, h4⟩
      exact ⟨docs_put_ok (f := .node id true cs') ⟨he.1, h3, h4⟩ ds p false hok h (by simp), by simp [Doc.octets]⟩
  refine ⟨fun i b hib => ?_, fun src hs => ?_, fun i b f hib hfl => ?_, fun src f hs hfl => ?_⟩
  · rw [onBer_filled _ _ p ds hok hl h, hoc, t1 i b, if_neg (Nat.not_lt.2 hib)]
    rfl
  · rw [onBer_filled _ _ p ds hok hl h, hoc, t2 src, if_neg hs]
    rfl
  · rw [onBer_filled _ _ p ds hok hl h, hoc, t1 i b, if_pos hib]
    exact key _ f (by simp [eoc]) hfl
  · rw [onBer_filled _ _ p ds hok hl h, hoc, t2 src, if_pos hs]
    exact key _ f hs hfl

example : (onBer (Touch.copy [0x05, 0x00, 0x05, 0x00, 0x00, 0x00]).ber [0, 0] [0x30, 0x0a, 0x31, 0x80, 0x04, 0x02, 0x07, 0x08, 0x00, 0x00, 0x05, 0x00]).bind (readBers 14) =
    .ok (.cons (.node [0x30] false (.cons (.node [0x31] true (.cons (.leaf [0x05] []) (.cons (.leaf [0x05] []) .nil))) (.cons (.leaf [0x05] []) .nil))) .nil) := by decide +kernel

/-- **C113, violated** for such contents: one octet set through `mut_contents()` makes the first value inside an end-of-contents; the octets are read again without an error, and what was
inside stands behind the value now. -/
theorem C113_indefinite_contents_violated : (onBer (Touch.setAt 0 0x00).ber [0] [0x30, 0x80, 0x04, 0x00, 0x05, 0x00, 0x00, 0x00]).bind (readBers 10) =
    .ok (.cons (.node [0x30] true .nil) (.cons (.leaf [0x05] []) (.cons (.leaf [0x00] []) .nil))) := by decide +kernel

/-- **C113.** With `DerRef`, where no length is indefinite, each of the operations does the same as with `BerRef`, and what is read again with `DerRef` is what is read again with
`BerRef` if no length is indefinite there. -/
theorem C113_der (ds : Docs) (e : Doc) (p : List Nat) (hok : ds.Ok) (hd : ds.Definite) (hl : ds.octets.length ≤ isizeMax) (h : ds.at p = some e)
    (t : Touch) (fuel : Nat) (hf : ds.octets.length < fuel) :
    onDer t.der p ds.octets = onBer t.ber p ds.octets ∧ ds.inIndefinite false p = false ∧
      ∀ ds', (onDer t.der p ds.octets).bind (readDers fuel) = .ok ds' ↔
        (onBer t.ber p ds.octets).bind (readBers fuel) = .ok ds' ∧ ds'.Definite := by
  have hi := isizeMax_eq
  have hx := at_length h
  have he := docs_at_ok ds e p hok h
  have hid : IsId e.ident := by
    match e, he with
    | .leaf id c, he => exact hasForm_isId (by omega) he
    | .node id false cs, he => exact hasForm_isId (by omega) he.1
    | .node id true cs, he => exact he.1
  obtain ⟨k, f, n, hid⟩ := isId_class hid
  obtain ⟨i, c, hs⟩ := withIdent_shape e
  have heo : e.octets = (Parts.mk k f n c).octets i := by rw [← hs, ← hid, withIdent_self]
  have hlo : ((Parts.mk k f n c).octets i).length ≤ isizeMax := heo ▸ (by omega)
  have ht : t.der e.octets = t.ber e.octets ∧ ∀ q, t.ber e.octets = .ok q → q.length = e.octets.length := by
    rw [heo]
    have hlen : ∀ k' f', ((Parts.mk k' f' n c).octets i).length = ((Parts.mk k f n c).octets i).length := by
      intro k' f'
      rw [← hs, ← hs]
      exact withIdent_length e k' k f' f n
    have hcl : ∀ c' : Bytes, c'.length = c.length → ((Parts.mk k f n c').octets i).length = ((Parts.mk k f n c).octets i).length := by
      intro c' hc
      cases i <;> simp [Parts.octets, Parts.id, tlv, hc]
    have hE : ∀ (op : EditOp) (_ : ∀ o, op ≠ .contents o), _ := fun op ho => edit_inplace .release (fun _ => 0) i op ho ⟨k, f, n, c⟩ hlo
    cases t with
    | setClass k' =>
      have h1 := hE (.setClass k') (by simp)
      refine ⟨h1.1.trans h1.2.symm, fun q hq => ?_⟩
      have : .ok q = outcome i ((EditOp.setClass k').step ⟨k, f, n, c⟩) := hq.symm.trans h1.2
      simp only [EditOp.step, outcome, Res.ok.injEq] at this
      rw [this, hlen]
    | setPc f' =>
      have h1 := hE (.setPc f') (by simp)
      refine ⟨h1.1.trans h1.2.symm, fun q hq => ?_⟩
      have : .ok q = outcome i ((EditOp.setPc f').step ⟨k, f, n, c⟩) := hq.symm.trans h1.2
      simp only [EditOp.step, outcome, Res.ok.injEq] at this
      rw [this, hlen]
    | setAt j b =>
      have h1 := hE (.setAt j b) (by simp)
      refine ⟨h1.1.trans h1.2.symm, fun q hq => ?_⟩
      have : .ok q = outcome i ((EditOp.setAt j b).step ⟨k, f, n, c⟩) := hq.symm.trans h1.2
      simp only [EditOp.step] at this
      split at this
      · simp only [outcome, Res.ok.injEq] at this
        rw [this, hcl _ (by simp)]
      · simp [outcome] at this
    | copy src =>
      have h1 := hE (.copy src) (by simp)
      refine ⟨h1.1.trans h1.2.symm, fun q hq => ?_⟩
      have : .ok q = outcome i ((EditOp.copy src).step ⟨k, f, n, c⟩) := hq.symm.trans h1.2
      simp only [EditOp.step] at this
      split at this
      · rename_i hsl
        simp only [outcome, Res.ok.injEq] at this
        rw [this, hcl _ hsl]
      · simp [outcome] at this
  have hsame : onDer t.der p ds.octets = onBer t.ber p ds.octets := by
    rw [onBer_filled _ e p ds hok hl h, onDer_filled _ e p ds hok hd hl h, ht.1]
  refine ⟨hsame, (docs_at_definite ds e p hd h).2, fun ds' => ?_⟩
  rw [hsame, onBer_filled _ e p ds hok hl h]
  cases hq : t.ber e.octets with
  | ok q =>
    have hlen := docs_filled_length h (ht.2 q hq)
    simp only [Res.bind]
    rw [C107_read_der_iff fuel _ ds' (by omega) (by omega), C107_read_ber_iff fuel _ ds' (by omega) (by omega)]
    tauto
  | err x => simp [Res.bind]
  | panic => simp [Res.bind]
  | ub => simp [Res.bind]

/-- The value 5 inside of a sequence is made 7. -/
example : onDer (Touch.setAt 0 0x07).der [0, 0] [0x30, 0x03, 0x02, 0x01, 0x05] = onBer (Touch.setAt 0 0x07).ber [0, 0] [0x30, 0x03, 0x02, 0x01, 0x05] ∧
    onDer (Touch.setAt 0 0x07).der [0, 0] [0x30, 0x03, 0x02, 0x01, 0x05] = .ok [0x30, 0x03, 0x02, 0x01, 0x07] := by decide +kernel

/-- **C113.** So `set_class` on a value inside of DER changes the class of that value and nothing else, always. -/
theorem C113_der_set_class (ds : Docs) (e : Doc) (p : List Nat) (hok : ds.Ok) (hd : ds.Definite) (hl : ds.octets.length ≤ isizeMax) (h : ds.at p = some e)
    (k k' : ClassTag) (f : PCTag) (n : Nat) (hid : e.ident = idOctets (classNum k) (pcNum f) n) (fuel : Nat) (hf : ds.octets.length < fuel) :
    (onDer (Touch.setClass k').der p ds.octets).bind (readDers fuel) =
      .ok (Docs.put (e.withIdent (idOctets (classNum k') (pcNum f) n)) ds p) := by
  obtain ⟨_, h1, h2⟩ := C113_der ds e p hok hd hl h (.setClass k') fuel hf
  obtain ⟨h3, h4⟩ := C113_set_class_partial ds e p hok hl h k k' f n hid fuel hf
  rw [h2, h3]
  refine ⟨h4.2 (by simp [h1]), docs_put_definite ?_ ds p hd h⟩
  have := (docs_at_definite ds e p hd h).1
  cases e <;> exact this

example : (onDer (Touch.setClass .universal).der [0, 0] [0x30, 0x05, 0x80, 0x00, 0x02, 0x01, 0x05]).bind (readDers 10) =
    .ok (.cons (.node [0x30] false (.cons (.leaf [0x00] []) (.cons (.leaf [0x02] [0x05]) .nil))) .nil) := by decide +kernel

end Bsn1
