import Verif.Spec.Edits
import Verif.Props.Place
/-!
# Several edits of documents, in place
-/

namespace Bsn1
open Spec

/-! ### Paths -/

theorem Apart.symm {p q : List Nat} (h : Apart p q) : Apart q p := ⟨h.2, h.1⟩

theorem apart_nil_left {q : List Nat} : ¬ Apart [] q := fun h => h.1 q.nil_prefix

theorem apart_nil_right {p : List Nat} : ¬ Apart p [] := fun h => h.2 p.nil_prefix

theorem apart_zero {p q : List Nat} (h : Apart (0 :: p) (0 :: q)) : Apart p q := by
  simpa [Apart, List.cons_prefix_cons] using h

theorem apart_succ {i j : Nat} {p q : List Nat} (h : Apart ((i + 1) :: p) ((j + 1) :: q)) : Apart (i :: p) (j :: q) := by
  simpa [Apart, List.cons_prefix_cons] using h

mutual
theorem doc_put_at_apart (f : Doc) : ∀ (d : Doc) (p q : List Nat), Apart p q → (Doc.put f d p).at q = d.at q
  | _, [], _, h => absurd h apart_nil_left
  | _, _ :: _, [], h => absurd h apart_nil_right
  | .leaf _ _, _ :: _, _ :: _, _ => by simp [Doc.put]
  | .node _ _ cs, i :: p, j :: q, h => by
    simp only [Doc.put, Doc.at]
    exact docs_put_at_apart f cs (i :: p) (j :: q) h
theorem docs_put_at_apart (f : Doc) : ∀ (ds : Docs) (p q : List Nat), Apart p q → (Docs.put f ds p).at q = ds.at q
  | _, [], _, h => absurd h apart_nil_left
  | _, _ :: _, [], h => absurd h apart_nil_right
  | .nil, _ :: _, _ :: _, _ => by simp [Docs.put]
  | .cons d r, 0 :: p, 0 :: q, h => by
    simp only [Docs.put, Docs.at]
    exact doc_put_at_apart f d p q (apart_zero h)
  | .cons d r, 0 :: p, (j + 1) :: q, _ => by simp [Docs.put, Docs.at]
  | .cons d r, (i + 1) :: p, 0 :: q, _ => by simp [Docs.put, Docs.at]
  | .cons d r, (i + 1) :: p, (j + 1) :: q, h => by
    simp only [Docs.put, Docs.at]
    exact docs_put_at_apart f r (i :: p) (j :: q) (apart_succ h)
end

mutual
theorem doc_put_at_self (f : Doc) : ∀ (d e : Doc) (p : List Nat), d.at p = some e → (Doc.put f d p).at p = some f
  | _, _, [], _ => by simp [Doc.put, Doc.at]
  | .leaf _ _, _, _ :: _, h => by simp [Doc.at] at h
  | .node _ _ cs, e, i :: p, h => by
    simp only [Doc.put, Doc.at]
    exact docs_put_at_self f cs e (i :: p) h
theorem docs_put_at_self (f : Doc) : ∀ (ds : Docs) (e : Doc) (p : List Nat), ds.at p = some e → (Docs.put f ds p).at p = some f
  | .nil, _, _, h => by simp [Docs.at] at h
  | .cons _ _, _, [], h => by simp [Docs.at] at h
  | .cons d _, e, 0 :: p, h => by
    simp only [Docs.put, Docs.at]
    exact doc_put_at_self f d e p h
  | .cons _ r, e, (i + 1) :: p, h => by
    simp only [Docs.put, Docs.at]
    exact docs_put_at_self f r e (i :: p) h
end

mutual
theorem doc_put_inIndefinite (f : Doc) : ∀ (d : Doc) (p q : List Nat) (b : Bool), Apart p q → (Doc.put f d p).inIndefinite b q = d.inIndefinite b q
  | _, [], _, _, h => absurd h apart_nil_left
  | _, _ :: _, [], _, h => absurd h apart_nil_right
  | .leaf _ _, _ :: _, _ :: _, _, _ => by simp [Doc.put]
  | .node _ _ cs, i :: p, j :: q, _, h => by
    simp only [Doc.put, Doc.inIndefinite]
    exact docs_put_inIndefinite f cs (i :: p) (j :: q) _ h
theorem docs_put_inIndefinite (f : Doc) : ∀ (ds : Docs) (p q : List Nat) (b : Bool), Apart p q →
    (Docs.put f ds p).inIndefinite b q = ds.inIndefinite b q
  | _, [], _, _, h => absurd h apart_nil_left
  | _, _ :: _, [], _, h => absurd h apart_nil_right
  | .nil, _ :: _, _ :: _, _, _ => by simp [Docs.put]
  | .cons d r, 0 :: p, 0 :: q, b, h => by
    simp only [Docs.put, Docs.inIndefinite]
    exact doc_put_inIndefinite f d p q b (apart_zero h)
  | .cons d r, 0 :: p, (j + 1) :: q, _, _ => by simp [Docs.put, Docs.inIndefinite]
  | .cons d r, (i + 1) :: p, 0 :: q, _, _ => by simp [Docs.put, Docs.inIndefinite]
  | .cons d r, (i + 1) :: p, (j + 1) :: q, b, h => by
    simp only [Docs.put, Docs.inIndefinite]
    exact docs_put_inIndefinite f r (i :: p) (j :: q) b (apart_succ h)
end

mutual
theorem doc_put_comm (f g : Doc) : ∀ (d : Doc) (p q : List Nat), Apart p q → Doc.put f (Doc.put g d q) p = Doc.put g (Doc.put f d p) q
  | _, [], _, h => absurd h apart_nil_left
  | _, _ :: _, [], h => absurd h apart_nil_right
  | .leaf _ _, _ :: _, _ :: _, _ => by simp [Doc.put]
  | .node _ _ cs, i :: p, j :: q, h => by
    simp only [Doc.put]
    rw [docs_put_comm f g cs (i :: p) (j :: q) h]
theorem docs_put_comm (f g : Doc) : ∀ (ds : Docs) (p q : List Nat), Apart p q → Docs.put f (Docs.put g ds q) p = Docs.put g (Docs.put f ds p) q
  | _, [], _, h => absurd h apart_nil_left
  | _, _ :: _, [], h => absurd h apart_nil_right
  | .nil, _ :: _, _ :: _, _ => by simp [Docs.put]
  | .cons d r, 0 :: p, 0 :: q, h => by
    simp only [Docs.put]
    rw [doc_put_comm f g d p q (apart_zero h)]
  | .cons d r, 0 :: p, (j + 1) :: q, _ => by simp [Docs.put]
  | .cons d r, (i + 1) :: p, 0 :: q, _ => by simp [Docs.put]
  | .cons d r, (i + 1) :: p, (j + 1) :: q, h => by
    simp only [Docs.put]
    rw [docs_put_comm f g r (i :: p) (j :: q) (apart_succ h)]
end

/-! ### One edit -/

theorem classed_idOctets (k k' : ClassTag) (f : PCTag) (n : Nat) :
    classed (classNum k') (idOctets (classNum k) (pcNum f) n) = idOctets (classNum k') (pcNum f) n := by
  have h1 : classNum k ≤ 3 := by cases k <;> decide
  have h2 : classNum k' ≤ 3 := by cases k' <;> decide
  have h3 : pcNum f ≤ 1 := by cases f <;> decide
  have key : ∀ x, x < 32 → UInt8.ofNat (64 * classNum k' + (UInt8.ofNat (64 * classNum k + 32 * pcNum f + x)).toNat % 64) =
      UInt8.ofNat (64 * classNum k' + 32 * pcNum f + x) := by
    intro x hx
    congr 1
    rw [UInt8.toNat_ofNat']
    omega
  unfold idOctets
  split
  · rename_i hn
    simp only [classed, List.cons.injEq, and_true]
    exact key n (by omega)
  · simp only [classed, List.cons_append, List.cons.injEq, and_true]
    exact key 31 (by omega)

theorem doc_ident_class {e : Doc} (hok : e.Ok) (hl : e.octets.length < 2 ^ 64) : ∃ k f n, e.ident = idOctets (classNum k) (pcNum f) n := by
  refine isId_class ?_
  match e, hok with
  | .leaf id c, he => exact hasForm_isId (by omega) he
  | .node id false cs, he => exact hasForm_isId (by omega) he.1
  | .node id true cs, he => exact he.1

theorem touched_setClass {e : Doc} {k : ClassTag} {f : PCTag} {n : Nat} (hid : e.ident = idOctets (classNum k) (pcNum f) n) (k' : ClassTag) :
    e.touched (.setClass k') = some (e.withIdent (idOctets (classNum k') (pcNum f) n)) := by
  have := classed_idOctets k k' f n
  cases k' <;> simp only [Doc.touched, hid] <;> exact congrArg (fun x => some (Doc.withIdent x e)) this

/-- What one edit does with the octets, and that the result is as good as what it was done with. -/
theorem edit_one {ds : Docs} {p : List Nat} {t : Touch} (hok : ds.Ok) (hl : ds.octets.length ≤ isizeMax) (hm : ds.May p t) :
    onBer t.ber p ds.octets = (match ds.edited1 p t with | some ds' => .ok ds'.octets | none => .panic) ∧
      (∀ ds', ds.edited1 p t = some ds' → ds'.Ok ∧ ds'.octets.length = ds.octets.length ∧ (ds.Definite → ds'.Definite)) := by
  have hi := isizeMax_eq
  obtain ⟨e, he, hk, hn⟩ := hm
  have hx := at_length he
  have hoe := docs_at_ok ds e p hok he
  have fin : ∀ e', e.touched t = some e' → t.ber e.octets = .ok e'.octets → e'.octets.length = e.octets.length → e'.Ok →
      (e.Definite → e'.Definite) →
      onBer t.ber p ds.octets = (match ds.edited1 p t with | some ds' => .ok ds'.octets | none => .panic) ∧
      (∀ ds', ds.edited1 p t = some ds' → ds'.Ok ∧ ds'.octets.length = ds.octets.length ∧ (ds.Definite → ds'.Definite)) := by
    intro e' h1 h2 h3 h4 h5
    have h6 : ds.edited1 p t = some (Docs.put e' ds p) := by simp [Docs.edited1, he, h1]
    have h7 := docs_put_octets h3 ds p he
    rw [onBer_filled _ e p ds hok hl he, h2, h6]
    refine ⟨by simp [Res.bind, h7], fun ds' h8 => ?_⟩
    obtain rfl := Option.some.inj h8
    refine ⟨docs_put_ok h4 ds p false hok he fun a b => hn e' h1 ⟨a, b⟩, ?_, fun hd => ?_⟩
    · rw [h7, docs_filled_length he h3]
    · exact docs_put_definite (h5 (docs_at_definite ds e p hd he).1) ds p hd he
  have bad : e.touched t = none → t.ber e.octets = .panic →
      onBer t.ber p ds.octets = (match ds.edited1 p t with | some ds' => .ok ds'.octets | none => .panic) ∧
      (∀ ds', ds.edited1 p t = some ds' → ds'.Ok ∧ ds'.octets.length = ds.octets.length ∧ (ds.Definite → ds'.Definite)) := by
    intro h1 h2
    have h6 : ds.edited1 p t = none := by simp [Docs.edited1, he, h1]
    rw [onBer_filled _ e p ds hok hl he, h2, h6]
    exact ⟨rfl, fun _ h => by simp at h⟩
  cases t with
  | setClass k' =>
    obtain ⟨k, f, n, hid⟩ := doc_ident_class hoe (by omega)
    refine fin _ (touched_setClass hid k') (touch_setClass hid (by omega) k').1 ?_ (withIdent_ok hid hoe) (fun hd => by cases e <;> exact hd)
    conv_rhs => rw [← withIdent_self e, hid]
    exact withIdent_length e k' k f f n
  | setPc f => exact absurd hk (by simp [Touch.Keeps])
  | setAt i b =>
    match e, hk, he, hx, hoe, fin, bad with
    | .leaf id c, hk, he, hx, hoe, fin, bad =>
      have t1 := (touch_contents (hasForm_isId (by omega) hoe) c (show (tlv id c).length ≤ isizeMax from le_trans hx hl)).1 i b
      by_cases hc : i < c.length
      · exact fin (.leaf id (c.set i b)) (by simp [Doc.touched, hc]) (t1.1.trans (by simp [hc, Doc.octets])) (by simp [Doc.octets, tlv]) hoe (fun hd => hd)
      · exact bad (by simp [Doc.touched, hc]) (t1.1.trans (by simp [hc]))
  | copy src =>
    match e, hk, he, hx, hoe, fin, bad with
    | .leaf id c, hk, he, hx, hoe, fin, bad =>
      have t1 := (touch_contents (hasForm_isId (by omega) hoe) c (show (tlv id c).length ≤ isizeMax from le_trans hx hl)).2 src
      by_cases hc : src.length = c.length
      · exact fin (.leaf id src) (by simp [Doc.touched, hc]) (t1.1.trans (by simp [hc, Doc.octets])) (by simp [Doc.octets, tlv, hc]) hoe (fun hd => hd)
      · exact bad (by simp [Doc.touched, hc]) (t1.1.trans (by simp [hc]))

/-! ### Two edits -/

theorem may_apart {ds ds' : Docs} {p q : List Nat} {t u : Touch} (ha : Apart p q) (h : ds.edited1 p t = some ds') (hm : ds.May q u) : ds'.May q u := by
  obtain ⟨e, h1, h2, h3⟩ := hm
  simp only [Docs.edited1, Option.bind_eq_bind, Option.bind_eq_some_iff] at h
  obtain ⟨f, h4, f', h5, h6⟩ := h
  obtain rfl := Option.some.inj h6
  exact ⟨e, by rw [docs_put_at_apart _ _ _ _ ha, h1], h2, fun e' h => by rw [docs_put_inIndefinite _ _ _ _ _ ha]; exact h3 e' h⟩

theorem edited1_comm {ds : Docs} {p q : List Nat} {t u : Touch} (ha : Apart p q) :
    (ds.edited1 p t).bind (fun d => d.edited1 q u) = (ds.edited1 q u).bind (fun d => d.edited1 p t) := by
  simp only [Docs.edited1, Option.bind_eq_bind]
  cases h1 : ds.at p with
  | none =>
    cases h2 : ds.at q with
    | none => simp
    | some g =>
      cases h4 : g.touched u with
      | none => simp [h4]
      | some g' => simp [h4, docs_put_at_apart _ _ _ _ ha.symm, h1]
  | some e =>
    cases h3 : e.touched t with
    | none =>
      cases h2 : ds.at q with
      | none => simp [h3]
      | some g =>
        cases h4 : g.touched u with
        | none => simp [h3, h4]
        | some g' => simp [h4, docs_put_at_apart _ _ _ _ ha.symm, h1, h3]
    | some e' =>
      cases h2 : ds.at q with
      | none => simp [h3, docs_put_at_apart _ _ _ _ ha, h2]
      | some g =>
        cases h4 : g.touched u with
        | none => simp [h3, h4, docs_put_at_apart _ _ _ _ ha, h2]
        | some g' =>
          have a1 := (docs_put_at_apart e' ds p q ha).trans h2
          have a2 := (docs_put_at_apart g' ds q p ha.symm).trans h1
          simp [h3, h4, a1, a2, docs_put_comm e' g' ds p q ha]

/-! ### Reading one value -/

theorem nth_ber {d : Doc} : ∀ (i : Nat) (ds : Docs) (p : List Nat), ds.Ok → ds.octets.length ≤ isizeMax → ds.at (i :: p) = some d →
    ∃ d' : Doc, d'.Ok ∧ d'.octets.length ≤ isizeMax ∧ nth BerRef.parse i ds.octets = .ok d'.octets ∧ d'.at p = some d
  | _, .nil, _, _, _, h => by simp [Docs.at] at h
  | 0, .cons e r, p, hok, hl, h => by
    have hi := isizeMax_eq
    have hl1 : e.octets.length ≤ isizeMax := by simp only [Docs.octets, List.length_append] at hl; omega
    have hx := (C29_ber_parse_iff (Docs.cons e r).octets e.octets r.octets hl).2 ⟨doc_isBer e hok.1 (by omega), rfl⟩
    exact ⟨e, hok.1, hl1, by rw [nth, hx], h⟩
  | i + 1, .cons e r, p, hok, hl, h => by
    have hi := isizeMax_eq
    have hl1 : e.octets.length ≤ isizeMax := by simp only [Docs.octets, List.length_append] at hl; omega
    have hx := (C29_ber_parse_iff (Docs.cons e r).octets e.octets r.octets hl).2 ⟨doc_isBer e hok.1 (by omega), rfl⟩
    obtain ⟨d', h1, h2, h3, h4⟩ := nth_ber i r p hok.2 (by simp only [Docs.octets, List.length_append] at hl; omega) h
    exact ⟨d', h1, h2, by rw [nth, hx]; exact h3, h4⟩

theorem nth_der {d : Doc} : ∀ (i : Nat) (ds : Docs) (p : List Nat), ds.Ok → ds.Definite → ds.octets.length ≤ isizeMax → ds.at (i :: p) = some d →
    ∃ d' : Doc, d'.Ok ∧ d'.Definite ∧ d'.octets.length ≤ isizeMax ∧ nth DerRef.parse i ds.octets = .ok d'.octets ∧ d'.at p = some d
  | _, .nil, _, _, _, _, h => by simp [Docs.at] at h
  | 0, .cons e r, p, hok, hd, hl, h => by
    have hi := isizeMax_eq
    have hl1 : e.octets.length ≤ isizeMax := by simp only [Docs.octets, List.length_append] at hl; omega
    have hx := (C19_der_parse_iff (Docs.cons e r).octets e.octets r.octets).2 ⟨doc_isDer e hok.1 hd.1 (by omega), rfl⟩
    exact ⟨e, hok.1, hd.1, hl1, by rw [nth, hx], h⟩
  | i + 1, .cons e r, p, hok, hd, hl, h => by
    have hi := isizeMax_eq
    have hl1 : e.octets.length ≤ isizeMax := by simp only [Docs.octets, List.length_append] at hl; omega
    have hx := (C19_der_parse_iff (Docs.cons e r).octets e.octets r.octets).2 ⟨doc_isDer e hok.1 hd.1 (by omega), rfl⟩
    obtain ⟨d', h1, h2, h3, h4, h5⟩ := nth_der i r p hok.2 hd.2 (by simp only [Docs.octets, List.length_append] at hl; omega) h
    exact ⟨d', h1, h2, h3, by rw [nth, hx]; exact h4, h5⟩

theorem getBer_at {e : Doc} : ∀ (p : List Nat) (ds : Docs), ds.Ok → ds.octets.length ≤ isizeMax → ds.at p = some e → getBer p ds.octets = .ok e.octets
  | [], ds, _, _, h => by cases ds <;> simp [Docs.at] at h
  | [i], ds, hok, hl, h => by
    obtain ⟨d, h1, h2, h3, h4⟩ := nth_ber i ds [] hok hl h
    simp only [Doc.at, Option.some.injEq] at h4
    rw [getBer, h3, h4]
  | i :: j :: p, ds, hok, hl, h => by
    have hi := isizeMax_eq
    obtain ⟨d, h1, h2, h3, h4⟩ := nth_ber i ds (j :: p) hok hl h
    rw [getBer, h3, Res.bind_ok]
    match d, h1, h2, h4 with
    | .leaf _ _, _, _, h => simp [Doc.at] at h
    | .node id false cs, hd, hl1, h =>
      have hid := hasForm_isId (by omega) hd.1
      simp only [Doc.octets] at hl1 ⊢
      have hl2 := hl1
      rw [tlv_length] at hl2
      have hdis : BerRef.disassemble (tlv id cs.octets) = _ := disassemble_tlv hid (by omega)
      simp only [BerRef.contents, BerRef.length, hdis, Res.bind_ok]
      exact getBer_at (j :: p) cs hd.2 (by omega) h
    | .node id true cs, hd, hl1, h =>
      simp only [Doc.octets] at hl1 ⊢
      have hdis : BerRef.disassemble (id ++ indefOctets ++ (cs.octets ++ eoc)) = _ := berDisassemble_indef hd.1 _
      have hl2 := hl1
      simp only [List.length_append] at hl2
      rw [List.append_assoc (id ++ indefOctets)]
      simp only [BerRef.contents, BerRef.length, hdis, Res.bind_ok]
      have hn : (cs.octets ++ eoc).length - 2 = cs.octets.length := by simp [eoc]
      show getBer (j :: p) ((cs.octets ++ eoc).take ((cs.octets ++ eoc).length - 2)) = _
      rw [hn, List.take_left' rfl]
      exact getBer_at (j :: p) cs hd.2.1 (by omega) h

theorem getDer_at {e : Doc} : ∀ (p : List Nat) (ds : Docs), ds.Ok → ds.Definite → ds.octets.length ≤ isizeMax → ds.at p = some e →
    getDer p ds.octets = .ok e.octets
  | [], ds, _, _, _, h => by cases ds <;> simp [Docs.at] at h
  | [i], ds, hok, hd, hl, h => by
    obtain ⟨d, h1, _, h2, h3, h4⟩ := nth_der i ds [] hok hd hl h
    simp only [Doc.at, Option.some.injEq] at h4
    rw [getDer, h3, h4]
  | i :: j :: p, ds, hok, hdf, hl, h => by
    have hi := isizeMax_eq
    obtain ⟨d, h1, hd, h2, h3, h4⟩ := nth_der i ds (j :: p) hok hdf hl h
    rw [getDer, h3, Res.bind_ok]
    match d, h1, hd, h2, h4 with
    | .leaf _ _, _, _, _, h => simp [Doc.at] at h
    | .node id false cs, hd, hx, hl1, h =>
      have hid := hasForm_isId (by omega) hd.1
      simp only [Doc.octets] at hl1 ⊢
      have hl2 := hl1
      rw [tlv_length] at hl2
      have hdis : DerRef.disassemble (tlv id cs.octets) = _ := disassemble_tlv hid (by omega)
      simp only [DerRef.contents, hdis, Res.bind_ok]
      exact getDer_at (j :: p) cs hd.2 hx.2 (by omega) h
    | .node id true cs, _, hx, _, _ => simp [Doc.Definite] at hx

end Bsn1
