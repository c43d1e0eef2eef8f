import Verif.Lemmas.Edits
/-!
# C116: several edits of a document in place

A list of edits, each at a path, is done with `parse_mut`, `mut_contents` and `mut_id`; then the octets are read again.
-/

namespace Bsn1
open Spec

theorem edits_main : ∀ (ops : List (List Nat × Touch)) (ds : Docs), ds.Ok → ds.octets.length ≤ isizeMax → Docs.MayAll ops ds →
    editsBer ops ds.octets = (match Docs.edited ops ds with | some ds' => .ok ds'.octets | none => .panic) ∧
      (ds.Definite → editsDer ops ds.octets = editsBer ops ds.octets) ∧
      (∀ ds', Docs.edited ops ds = some ds' → ds'.Ok ∧ ds'.octets.length = ds.octets.length ∧ (ds.Definite → ds'.Definite))
  | [], ds, hok, _, _ => by
    refine ⟨rfl, fun _ => rfl, fun ds' h => ?_⟩
    obtain rfl := Option.some.inj h
    exact ⟨hok, rfl, id⟩
  | (p, t) :: r, ds, hok, hl, hm => by
    obtain ⟨h1, h2⟩ := edit_one hok hl hm.1
    obtain ⟨e, he, _⟩ := hm.1
    have hder : ds.Definite → onDer t.der p ds.octets = onBer t.ber p ds.octets := fun hd =>
      (C113_der ds e p hok hd hl he t (ds.octets.length + 1) (by omega)).1
    cases hx : ds.edited1 p t with
    | none =>
      rw [hx] at h1
      refine ⟨?_, fun hd => ?_, fun ds' h => ?_⟩
      · simp only [editsBer, h1, Docs.edited, hx]; rfl
      · simp only [editsBer, editsDer, hder hd, h1]; rfl
      · simp [Docs.edited, hx] at h
    | some d1 =>
      rw [hx] at h1
      obtain ⟨h3, h4, h5⟩ := h2 d1 hx
      obtain ⟨i1, i2, i3⟩ := edits_main r d1 h3 (by omega) (hm.2 d1 hx)
      have hed : Docs.edited ((p, t) :: r) ds = Docs.edited r d1 := by simp [Docs.edited, hx]
      refine ⟨?_, fun hd => ?_, fun ds' h => ?_⟩
      · simp only [editsBer, h1, hed, Res.bind_ok]; exact i1
      · simp only [editsBer, editsDer, hder hd, h1, Res.bind_ok]; exact i2 (h5 hd)
      · obtain ⟨j1, j2, j3⟩ := i3 ds' (hed ▸ h)
        exact ⟨j1, j2.trans h4, fun hd => j3 (h5 hd)⟩

/-- **C116.** A list of edits of the class of values and of the contents of values which are not looked into, each in place at its path: the octets are those of the documents
with all the edits, in order, they are as many as before, and they are read as these documents; the program panics exactly if one of the edits is refused because of its size. -/
theorem C116_history (ops : List (List Nat × Touch)) (ds : Docs) (hok : ds.Ok) (hl : ds.octets.length ≤ isizeMax) (hm : Docs.MayAll ops ds) (fuel : Nat)
    (hf : ds.octets.length < fuel) :
    (∀ ds', Docs.edited ops ds = some ds' →
      editsBer ops ds.octets = .ok ds'.octets ∧ ds'.octets.length = ds.octets.length ∧ (editsBer ops ds.octets).bind (readBers fuel) = .ok ds') ∧
    (Docs.edited ops ds = none → editsBer ops ds.octets = .panic) := by
  obtain ⟨h1, -, h3⟩ := edits_main ops ds hok hl hm
  refine ⟨fun ds' h => ?_, fun h => by rw [h1, h]⟩
  obtain ⟨h4, h5, -⟩ := h3 ds' h
  rw [h] at h1
  refine ⟨h1, h5, ?_⟩
  rw [h1]
  exact (C107_read_ber_iff fuel _ ds' (by omega) (by omega)).2 ⟨h4, rfl⟩

/-- The class of a SEQUENCE of indefinite length, then the contents of an INTEGER inside of it, then one octet of the same INTEGER. -/
example : Docs.MayAll [([0], .setClass .priv), ([0, 1], .copy [0x01, 0x02]), ([0, 1], .setAt 1 0x07)]
      (.cons (.node [0x30] true (.cons (.leaf [0x05] []) (.cons (.leaf [0x02] [0x05, 0x06]) .nil))) .nil) ∧
    Docs.edited [([0], .setClass .priv), ([0, 1], .copy [0x01, 0x02]), ([0, 1], .setAt 1 0x07)]
      (.cons (.node [0x30] true (.cons (.leaf [0x05] []) (.cons (.leaf [0x02] [0x05, 0x06]) .nil))) .nil) =
      some (.cons (.node [0xf0] true (.cons (.leaf [0x05] []) (.cons (.leaf [0x02] [0x01, 0x07]) .nil))) .nil) ∧
    editsBer [([0], .setClass .priv), ([0, 1], .copy [0x01, 0x02]), ([0, 1], .setAt 1 0x07)] [0x30, 0x80, 0x05, 0x00, 0x02, 0x02, 0x05, 0x06, 0x00, 0x00] =
      .ok [0xf0, 0x80, 0x05, 0x00, 0x02, 0x02, 0x01, 0x07, 0x00, 0x00] := by
  refine ⟨⟨⟨_, rfl, trivial, by simp [Docs.inIndefinite, Doc.inIndefinite]⟩, fun d1 h1 => ?_⟩, by decide +kernel, by decide +kernel⟩
  obtain rfl := Option.some.inj h1
  refine ⟨⟨_, rfl, trivial, fun e' h => ?_⟩, fun d2 h2 => ?_⟩
  · obtain rfl := Option.some.inj h
    simp
  obtain rfl := Option.some.inj h2
  refine ⟨⟨_, rfl, trivial, fun e' h => ?_⟩, fun _ _ => trivial⟩
  obtain rfl := Option.some.inj h
  simp

/-- **C116.** The same edits of DER with `DerRef` leave the same octets, and these are read as DER. -/
theorem C116_der (ops : List (List Nat × Touch)) (ds : Docs) (hok : ds.Ok) (hd : ds.Definite) (hl : ds.octets.length ≤ isizeMax) (hm : Docs.MayAll ops ds)
    (fuel : Nat) (hf : ds.octets.length < fuel) :
    editsDer ops ds.octets = editsBer ops ds.octets ∧
    (∀ ds', Docs.edited ops ds = some ds' → (editsDer ops ds.octets).bind (readDers fuel) = .ok ds') ∧
    (Docs.edited ops ds = none → editsDer ops ds.octets = .panic) := by
  obtain ⟨h1, h2, h3⟩ := edits_main ops ds hok hl hm
  have hi := isizeMax_eq
  refine ⟨h2 hd, fun ds' h => ?_, fun h => by rw [h2 hd, h1, h]⟩
  obtain ⟨h4, h5, h6⟩ := h3 ds' h
  rw [h] at h1
  rw [h2 hd, h1]
  exact (C107_read_der_iff fuel _ ds' (by omega) (by omega)).2 ⟨h4, h6 hd, rfl⟩

example : (editsDer [([0], .setClass .application), ([0, 0], .setAt 0 0x09)] [0x30, 0x03, 0x02, 0x01, 0x05]).bind (readDers 6) =
      .ok (.cons (.node [0x70] false (.cons (.leaf [0x02] [0x09]) .nil)) .nil) ∧
    editsDer [([0], .setClass .application), ([0, 0], .setAt 1 0x09)] [0x30, 0x03, 0x02, 0x01, 0x05] = .panic := by decide +kernel

/-- **C116.** The value at a path is found with `parse`, `contents` and `length`. -/
theorem C116_get (ds : Docs) (e : Doc) (p : List Nat) (hok : ds.Ok) (hl : ds.octets.length ≤ isizeMax) (h : ds.at p = some e) :
    getBer p ds.octets = .ok e.octets ∧ (ds.Definite → getDer p ds.octets = .ok e.octets) :=
  ⟨getBer_at p ds hok hl h, fun hd => getDer_at p ds hok hd hl h⟩

example : getBer [1, 0, 1] [0x05, 0x00, 0x30, 0x0b, 0x30, 0x80, 0x05, 0x00, 0x02, 0x01, 0x05, 0x00, 0x00, 0x05, 0x00] = .ok [0x02, 0x01, 0x05] ∧
    getDer [0, 1] [0x30, 0x05, 0x05, 0x00, 0x02, 0x01, 0x05] = .ok [0x02, 0x01, 0x05] := by decide +kernel

theorem edited_at : ∀ (ops : List (List Nat × Touch)) (ds ds' : Docs) (q : List Nat), Docs.edited ops ds = some ds' →
    (∀ a ∈ ops, Apart a.1 q) → ds'.at q = ds.at q
  | [], ds, ds', q, h, _ => by rw [Option.some.inj h]
  | (p, t) :: r, ds, ds', q, h, ha => by
    simp only [Docs.edited, Option.bind_eq_bind, Option.bind_eq_some_iff] at h
    obtain ⟨d1, h1, h2⟩ := h
    rw [edited_at r d1 ds' q h2 fun a hx => ha a (List.mem_cons_of_mem _ hx)]
    simp only [Docs.edited1, Option.bind_eq_bind, Option.bind_eq_some_iff] at h1
    obtain ⟨e, _, e', _, h3⟩ := h1
    obtain rfl := Option.some.inj h3
    exact docs_put_at_apart e' ds p q (ha (p, t) List.mem_cons_self)

/-- **C116.** A value that is not inside of an edited one, nor has an edited one inside, is found at its path as it was, whatever the edits are. -/
theorem C116_others (ops : List (List Nat × Touch)) (ds ds' : Docs) (hok : ds.Ok) (hl : ds.octets.length ≤ isizeMax) (hm : Docs.MayAll ops ds)
    (hd : Docs.edited ops ds = some ds') (q : List Nat) (ha : ∀ a ∈ ops, Apart a.1 q) (e : Doc) (he : ds.at q = some e) :
    (editsBer ops ds.octets).bind (getBer q) = .ok e.octets ∧ getBer q ds.octets = .ok e.octets := by
  obtain ⟨h1, -, h3⟩ := edits_main ops ds hok hl hm
  obtain ⟨h4, h5, -⟩ := h3 ds' hd
  rw [hd] at h1
  rw [h1]
  exact ⟨getBer_at q ds' h4 (by omega) ((edited_at ops ds ds' q hd ha).trans he), getBer_at q ds hok hl he⟩

example : Apart [0, 0] [0, 1] ∧
    (editsBer [([0, 0], .copy [0x05, 0x00])] [0x30, 0x07, 0x04, 0x02, 0x07, 0x08, 0x02, 0x01, 0x05]).bind (getBer [0, 1]) = .ok [0x02, 0x01, 0x05] := by
  refine ⟨⟨by decide, by decide⟩, by decide +kernel⟩

/-- **C116.** The value edited last is found at its path as the edit has made it, and all the rest of the documents does not matter for that. -/
theorem C116_last (ops : List (List Nat × Touch)) (p : List Nat) (t : Touch) (ds ds1 : Docs) (e e' : Doc) (hok : ds.Ok) (hl : ds.octets.length ≤ isizeMax)
    (hm : Docs.MayAll ops ds) (h1 : Docs.edited ops ds = some ds1) (hm1 : ds1.May p t) (he : ds1.at p = some e) (he' : e.touched t = some e') :
    ((editsBer ops ds.octets).bind (onBer t.ber p)).bind (getBer p) = .ok e'.octets := by
  obtain ⟨a1, -, a3⟩ := edits_main ops ds hok hl hm
  obtain ⟨a4, a5, -⟩ := a3 ds1 h1
  rw [h1] at a1
  obtain ⟨b1, b2⟩ := edit_one a4 (by omega) hm1
  have hx : ds1.edited1 p t = some (Docs.put e' ds1 p) := by simp [Docs.edited1, he, he']
  rw [hx] at b1
  obtain ⟨b3, b4, -⟩ := b2 _ hx
  rw [a1]
  show (onBer t.ber p ds1.octets).bind (getBer p) = _
  rw [b1]
  exact getBer_at p _ b3 (by omega) (docs_put_at_self e' ds1 e p he)

example : ((editsBer [([0, 0], .copy [0x05, 0x00])] [0x30, 0x04, 0x04, 0x02, 0x07, 0x08]).bind (onBer (Touch.setAt 0 0x09).ber [0, 0])).bind (getBer [0, 0]) =
    .ok [0x04, 0x02, 0x09, 0x00] := by decide +kernel

theorem mayAll_of_apart : ∀ (ops : List (List Nat × Touch)) (ds : Docs), ops.Pairwise (fun a b => Apart a.1 b.1) → (∀ a ∈ ops, ds.May a.1 a.2) →
    Docs.MayAll ops ds
  | [], _, _, _ => trivial
  | (p, t) :: r, ds, hp, hm => by
    obtain ⟨h1, h2⟩ := List.pairwise_cons.1 hp
    exact ⟨hm (p, t) List.mem_cons_self, fun ds' h => mayAll_of_apart r ds' h2 fun a ha =>
      may_apart (h1 a ha) h (hm a (List.mem_cons_of_mem _ ha))⟩

theorem edited_perm {ops ops' : List (List Nat × Touch)} (h : ops.Perm ops') : ∀ (ds : Docs), ops.Pairwise (fun a b => Apart a.1 b.1) →
    Docs.edited ops ds = Docs.edited ops' ds := by
  induction h with
  | nil => exact fun _ _ => rfl
  | cons x _ ih =>
    intro ds hp
    simp only [Docs.edited, Option.bind_eq_bind]
    congr 1
    funext d
    exact ih d (List.pairwise_cons.1 hp).2
  | swap x y l =>
    intro ds hp
    have ha := (List.pairwise_cons.1 hp).1 x List.mem_cons_self
    have := edited1_comm (ds := ds) (t := y.2) (u := x.2) ha
    simp only [Docs.edited, Option.bind_eq_bind, ← Option.bind_assoc, this]
  | trans h1 _ ih1 ih2 =>
    intro ds hp
    exact (ih1 ds hp).trans (ih2 ds ((h1.pairwise_iff (fun h => Apart.symm h)).1 hp))

/-- **C116.** Edits of values none of which is inside of another may be done in any order: the octets are the same afterwards, and so is a panic. -/
theorem C116_any_order_partial (ops ops' : List (List Nat × Touch)) (hperm : ops.Perm ops') (ds : Docs) (hok : ds.Ok) (hl : ds.octets.length ≤ isizeMax)
    (hp : ops.Pairwise (fun a b => Apart a.1 b.1)) (hm : ∀ a ∈ ops, ds.May a.1 a.2) :
    editsBer ops ds.octets = editsBer ops' ds.octets ∧ (ds.Definite → editsDer ops ds.octets = editsDer ops' ds.octets) := by
  obtain ⟨h1, h2, -⟩ := edits_main ops ds hok hl (mayAll_of_apart ops ds hp hm)
  obtain ⟨h3, h4, -⟩ := edits_main ops' ds hok hl
    (mayAll_of_apart ops' ds ((hperm.pairwise_iff (fun h => Apart.symm h)).1 hp) fun a ha => hm a (hperm.mem_iff.2 ha))
  have h5 : editsBer ops ds.octets = editsBer ops' ds.octets := by rw [h1, h3, edited_perm hperm ds hp]
  exact ⟨h5, fun hd => by rw [h2 hd, h4 hd, h5]⟩

example : ([([0, 0], Touch.copy [0x01]), ([0, 1], .setAt 0 0x02), ([1], .setClass .priv)] : List (List Nat × Touch)).Pairwise (fun a b => Apart a.1 b.1) ∧
    editsBer [([0, 0], Touch.copy [0x01]), ([0, 1], .setAt 0 0x02), ([1], .setClass .priv)] [0x30, 0x06, 0x04, 0x01, 0x07, 0x02, 0x01, 0x05, 0x05, 0x00] =
      .ok [0x30, 0x06, 0x04, 0x01, 0x01, 0x02, 0x01, 0x02, 0xc5, 0x00] ∧
    editsBer [([1], .setClass .priv), ([0, 1], .setAt 0 0x02), ([0, 0], Touch.copy [0x01])] [0x30, 0x06, 0x04, 0x01, 0x07, 0x02, 0x01, 0x05, 0x05, 0x00] =
      .ok [0x30, 0x06, 0x04, 0x01, 0x01, 0x02, 0x01, 0x02, 0xc5, 0x00] := by
  refine ⟨?_, by decide +kernel, by decide +kernel⟩
  simp [Apart, List.cons_prefix_cons]

/-- **C116.** The exception is real, and it makes the order matter: a value inside of a value of indefinite length becomes `00 00`, and the program fails to find what stands behind it;
in the other order both edits are done. -/
theorem C116_order_violated :
    editsBer [([0, 0], .setClass .universal), ([0, 1], .setAt 0 0x09)] [0x30, 0x80, 0x80, 0x00, 0x02, 0x01, 0x05, 0x00, 0x00] = .err .unterminatedBytes ∧
    editsBer [([0, 1], .setAt 0 0x09), ([0, 0], .setClass .universal)] [0x30, 0x80, 0x80, 0x00, 0x02, 0x01, 0x05, 0x00, 0x00] =
      .ok [0x30, 0x80, 0x00, 0x00, 0x02, 0x01, 0x09, 0x00, 0x00] := by decide +kernel

end Bsn1
