import Verif.Spec.Part
/-!
# The parts of a value are subtrees of its tree
-/

namespace Bsn1
open Spec

variable {β : Type} {u : Ty β} {y : β}

theorem ofList_at {d : Doc} : ∀ (l : List Doc) (i : Nat) (p : List Nat), l[i]? = some d → (Docs.ofList l).at (i :: p) = d.at p
  | [], i, p, h => by simp at h
  | e :: r, 0, p, h => by
    simp only [List.getElem?_cons_zero, Option.some.injEq] at h
    subst h
    rfl
  | e :: r, i + 1, p, h => by
    rw [List.getElem?_cons_succ] at h
    simpa [Docs.ofList, Docs.at] using ofList_at r i p h

theorem ofList_put {d : Doc} (e : Doc) : ∀ (l : List Doc) (i : Nat) (p : List Nat), l[i]? = some d →
    Docs.put e (Docs.ofList l) (i :: p) = Docs.ofList (l.set i (Doc.put e d p))
  | [], i, p, h => by simp at h
  | x :: r, 0, p, h => by
    simp only [List.getElem?_cons_zero, Option.some.injEq] at h
    subst h
    rfl
  | x :: r, i + 1, p, h => by
    rw [List.getElem?_cons_succ] at h
    simpa [Docs.ofList, Docs.put] using ofList_put e r i p h

/-- What has to be shown of a tree and its part. -/
def InTree (d : Doc) (p : List Nat) (e : Doc) (put : β → Doc) (part : β → Doc) : Prop :=
  d.at p = some e ∧ ∀ z, put z = Doc.put (part z) d p

theorem list_inTree {α : Type} {f : α → Doc} {l : List α} {i : Nat} {x : α} (id : List UInt8) (h : l[i]? = some x) {p : List Nat} {e : Doc} {put : β → α}
    {part : β → Doc} (hx : InTree (f x) p e (fun z => f (put z)) part) :
    InTree (.node id false (Docs.ofList (l.map f))) (i :: p) e (fun z => .node id false (Docs.ofList ((l.set i (put z)).map f))) part := by
  have h' : (l.map f)[i]? = some (f x) := by simp [h]
  refine ⟨by rw [Doc.at, ofList_at _ i p h']; exact hx.1, fun z => ?_⟩
  rw [Doc.put, ofList_put _ _ i p h', ← hx.2 z, ← List.map_set]

theorem pair_inTree_fst {a b e : Doc} {p : List Nat} {put part : β → Doc} (h : InTree a p e put part) :
    InTree (Doc.pair a b) (0 :: p) e (fun z => Doc.pair (put z) b) part :=
  ⟨h.1, fun z => by simp [Doc.pair, Doc.put, Docs.put, h.2 z]⟩

theorem pair_inTree_snd {a b e : Doc} {p : List Nat} {put part : β → Doc} (h : InTree b p e put part) :
    InTree (Doc.pair a b) (1 :: p) e (fun z => Doc.pair a (put z)) part :=
  ⟨h.1, fun z => by simp [Doc.pair, Doc.put, Docs.put, h.2 z]⟩

theorem around_inTree {id : List UInt8} (hb : constructedBit id = true) {cs : Docs} {p : List Nat} {e : Doc} {put : β → Docs} {part : β → Doc}
    (h : p ≠ [] ∧ cs.at p = some e ∧ ∀ z, put z = Docs.put (part z) cs p) : InTree (Doc.around id cs) p e (fun z => Doc.around id (put z)) part := by
  obtain ⟨h0, h1, h2⟩ := h
  cases p with
  | nil => exact absurd rfl h0
  | cons i p => exact ⟨by simpa [Doc.around, hb, Doc.at] using h1, fun z => by simp [Doc.around, hb, Doc.put, h2 z]⟩

mutual
theorem Spec.Ty.Part.inTree : ∀ {p : List Nat} {key : Bool} {α : Type} {t : Ty α} {v : α} {put : β → α}, Ty.Part u y p key t v put →
    InTree (t.doc v) p (u.doc y) (fun z => t.doc (put z)) u.doc
  | _, _, _, _, _, _, .here => ⟨by simp [Doc.at], fun _ => by simp [Doc.put]⟩
  | _, _, _, _, _, _, .vec h hp => list_inTree [0x30] h hp.inTree
  | _, _, _, _, _, _, .linkedList h hp => list_inTree [0x30] h hp.inTree
  | _, _, _, _, _, _, .vecDeque h hp => list_inTree [0x30] h hp.inTree
  | _, _, _, _, _, _, .btreeSet h hp => list_inTree [0x30] h hp.inTree
  | _, _, _, _, _, _, .hashSet h hp => list_inTree [0x31] h hp.inTree
  | _, _, _, _, _, _, .btreeKey h hp => list_inTree [0x30] h (pair_inTree_fst hp.inTree)
  | _, _, _, _, _, _, .btreeValue h hp => list_inTree [0x30] h (pair_inTree_snd hp.inTree)
  | _, _, _, _, _, _, .hashKey h hp => list_inTree [0x31] h (pair_inTree_fst hp.inTree)
  | _, _, _, _, _, _, .hashValue h hp => list_inTree [0x31] h (pair_inTree_snd hp.inTree)
  | _, _, _, _, _, _, .struct hb hp => by
    have := around_inTree hb hp.inTree
    simpa only [Ty.doc] using this
  | _, _, _, _, _, _, .enum hp => hp.inTree
  | _, _, _, _, _, _, .transparent hp => hp.inTree
  | _, _, _, _, _, _, .named (h' := h') hp => by
    have := hp.inTree
    exact ⟨this.1, fun z => by simp only [Ty.doc, h']; exact this.2 z⟩
theorem Spec.Fields.Part.inTree : ∀ {p : List Nat} {key : Bool} {γ : Type} {fs : Fields γ} {v : γ} {put : β → γ}, Fields.Part u y p key fs v put →
    p ≠ [] ∧ (fs.docs v).at p = some (u.doc y) ∧ ∀ z, fs.docs (put z) = Docs.put (u.doc z) (fs.docs v) p
  | _, _, _, _, _, _, .plain hp => ⟨by simp, hp.inTree.1, fun z => by simp [Fields.docs, Docs.put, hp.inTree.2 z]⟩
  | _, _, _, _, _, _, .skipDe hp => ⟨by simp, hp.inTree.1, fun z => by simp [Fields.docs, Docs.put, hp.inTree.2 z]⟩
  | _, _, _, _, _, _, .conv hp => ⟨by simp, hp.inTree.1, fun z => by
    have h := hp.inTree.2 z
    simp only [Ty.doc] at h
    simp [Fields.docs, Docs.put, h]⟩
  | _, _, _, _, _, _, .afterPlain hp => ⟨by simp, hp.inTree.2.1, fun z => by simp [Fields.docs, Docs.put, hp.inTree.2.2 z]⟩
  | _, _, _, _, _, _, .afterSkipDe hp => ⟨by simp, hp.inTree.2.1, fun z => by simp [Fields.docs, Docs.put, hp.inTree.2.2 z]⟩
  | _, _, _, _, _, _, .afterConv hp => ⟨by simp, hp.inTree.2.1, fun z => by simp [Fields.docs, Docs.put, hp.inTree.2.2 z]⟩
  | _, _, _, _, _, _, .afterSkip hp => hp.inTree
  | _, _, _, _, _, _, .afterSkipSer hp => hp.inTree
theorem Spec.Fields.PartOne.inTree : ∀ {p : List Nat} {key : Bool} {γ : Type} {fs : Fields γ} {v : γ} {put : β → γ}, Fields.PartOne u y p key fs v put →
    InTree (fs.docOne v) p (u.doc y) (fun z => fs.docOne (put z)) u.doc
  | _, _, _, _, _, _, .plain hp => hp.inTree
  | _, _, _, _, _, _, .skipDe hp => hp.inTree
  | _, _, _, _, _, _, .conv hp => hp.inTree
  | _, _, _, _, _, _, .afterSkip hp => hp.inTree
  | _, _, _, _, _, _, .afterSkipSer hp => hp.inTree
theorem Spec.Variants.Part.inTree : ∀ {p : List Nat} {key : Bool} {ρ : Type} {vs : Variants ρ} {v : ρ} {put : β → ρ}, Variants.Part u y p key vs v put →
    InTree (vs.doc v) p (u.doc y) (fun z => vs.doc (put z)) u.doc
  | _, _, _, _, _, _, .this hb hp => by
    have := around_inTree hb hp.inTree
    simpa only [Variants.doc] using this
  | _, _, _, _, _, _, .other hp => hp.inTree
end

theorem mem_set_ok {α : Type} {P : α → Prop} {l : List α} {i : Nat} {x : α} (hl : ∀ a ∈ l, P a) (hx : P x) : ∀ a ∈ l.set i x, P a := by
  intro a ha
  rcases List.mem_or_eq_of_mem_set ha with h | rfl
  exacts [hl a h, hx]

theorem mem_of_get {α : Type} {l : List α} {i : Nat} {x : α} (h : l[i]? = some x) : x ∈ l := List.mem_of_getElem? h

theorem map_set_self {α γ : Type} (f : α → γ) {l : List α} {i : Nat} {x a : α} (h : l[i]? = some x) (ha : f a = f x) : (l.set i a).map f = l.map f := by
  rw [List.map_set, ha, ← List.map_set]
  congr 1
  obtain ⟨hi, rfl⟩ := List.getElem?_eq_some_iff.1 h
  exact List.set_getElem_self hi

theorem pairwise_set {α γ : Type} {R : γ → γ → Prop} (f : α → γ) {l : List α} {i : Nat} {x a : α} (h : l[i]? = some x) (ha : f a = f x)
    (hl : l.Pairwise fun p q => R (f p) (f q)) : (l.set i a).Pairwise fun p q => R (f p) (f q) := by
  have := List.pairwise_map.2 hl
  rw [← map_set_self f h ha] at this
  exact List.pairwise_map.1 this

mutual
theorem Spec.Ty.Part.okay : ∀ {p : List Nat} {key : Bool} {α : Type} {t : Ty α} {v : α} {put : β → α}, Ty.Part u y p key t v put → t.ok v →
    u.ok y ∧ (key = false → ∀ z, u.ok z → t.ok (put z))
  | _, _, _, _, _, _, .here, h => ⟨h, fun _ _ hz => hz⟩
  | _, _, _, _, _, _, .vec hi hp, h => ⟨(hp.okay (h _ (mem_of_get hi))).1, fun hk z hz => mem_set_ok h ((hp.okay (h _ (mem_of_get hi))).2 hk z hz)⟩
  | _, _, _, _, _, _, .linkedList hi hp, h => ⟨(hp.okay (h _ (mem_of_get hi))).1, fun hk z hz => mem_set_ok h ((hp.okay (h _ (mem_of_get hi))).2 hk z hz)⟩
  | _, _, _, _, _, _, .vecDeque hi hp, h => ⟨(hp.okay (h _ (mem_of_get hi))).1, fun hk z hz => mem_set_ok h ((hp.okay (h _ (mem_of_get hi))).2 hk z hz)⟩
  | _, _, _, _, _, _, .btreeSet hi hp, h => ⟨(hp.okay (h.2 _ (mem_of_get hi))).1, fun hk => by cases hk⟩
  | _, _, _, _, _, _, .hashSet hi hp, h => ⟨(hp.okay (h.2 _ (mem_of_get hi))).1, fun hk => by cases hk⟩
  | _, _, _, _, _, _, .btreeKey hi hp, h => ⟨(hp.okay (h.2 _ (mem_of_get hi)).1).1, fun hk => by cases hk⟩
  | _, _, _, _, _, _, .hashKey hi hp, h => ⟨(hp.okay (h.2 _ (mem_of_get hi)).1).1, fun hk => by cases hk⟩
  | _, _, _, _, _, _, .btreeValue (cmp := cmp) hi hp, h => ⟨(hp.okay (h.2 _ (mem_of_get hi)).2).1, fun hk z hz =>
      ⟨pairwise_set (R := fun a b => cmp a b = .lt) Prod.fst hi rfl h.1,
        mem_set_ok h.2 ⟨(h.2 _ (mem_of_get hi)).1, (hp.okay (h.2 _ (mem_of_get hi)).2).2 hk z hz⟩⟩⟩
  | _, _, _, _, _, _, .hashValue (x := x) (put := put) hi hp, h => ⟨(hp.okay (h.2 _ (mem_of_get hi)).2).1, fun hk z hz =>
      ⟨by
        have e := map_set_self Prod.fst hi (show (x.1, put z).1 = x.1 from rfl)
        exact e ▸ h.1,
        mem_set_ok h.2 ⟨(h.2 _ (mem_of_get hi)).1, (hp.okay (h.2 _ (mem_of_get hi)).2).2 hk z hz⟩⟩⟩
  | _, _, _, _, _, _, .struct _ hp, h => hp.okay h
  | _, _, _, _, _, _, .enum hp, h => hp.okay h
  | _, _, _, _, _, _, .transparent hp, h => hp.okay h
  | _, _, _, _, _, _, .named (h' := h') hp, h => ⟨(hp.okay h).1, fun hk z hz => by
      have := (hp.okay h).2 hk z hz
      simpa only [Ty.ok, h'] using this⟩
theorem Spec.Fields.Part.okay : ∀ {p : List Nat} {key : Bool} {γ : Type} {fs : Fields γ} {v : γ} {put : β → γ}, Fields.Part u y p key fs v put → fs.ok v →
    u.ok y ∧ (key = false → ∀ z, u.ok z → fs.ok (put z))
  | _, _, _, _, _, _, .plain hp, h => ⟨(hp.okay h.1).1, fun hk z hz => ⟨(hp.okay h.1).2 hk z hz, h.2⟩⟩
  | _, _, _, _, _, _, .skipDe hp, h => ⟨(hp.okay h.1).1, fun hk z hz => ⟨(hp.okay h.1).2 hk z hz, h.2⟩⟩
  | _, _, _, _, _, _, .conv hp, h => ⟨(hp.okay h.1).1, fun hk z hz => ⟨(hp.okay h.1).2 hk z hz, h.2⟩⟩
  | _, _, _, _, _, _, .afterPlain hp, h => ⟨(hp.okay h.2).1, fun hk z hz => ⟨h.1, (hp.okay h.2).2 hk z hz⟩⟩
  | _, _, _, _, _, _, .afterSkipDe hp, h => ⟨(hp.okay h.2).1, fun hk z hz => ⟨h.1, (hp.okay h.2).2 hk z hz⟩⟩
  | _, _, _, _, _, _, .afterConv hp, h => ⟨(hp.okay h.2).1, fun hk z hz => ⟨h.1, (hp.okay h.2).2 hk z hz⟩⟩
  | _, _, _, _, _, _, .afterSkip hp, h => hp.okay h
  | _, _, _, _, _, _, .afterSkipSer hp, h => hp.okay h
theorem Spec.Fields.PartOne.okay : ∀ {p : List Nat} {key : Bool} {γ : Type} {fs : Fields γ} {v : γ} {put : β → γ}, Fields.PartOne u y p key fs v put → fs.ok v →
    u.ok y ∧ (key = false → ∀ z, u.ok z → fs.ok (put z))
  | _, _, _, _, _, _, .plain hp, h => ⟨(hp.okay h.1).1, fun hk z hz => ⟨(hp.okay h.1).2 hk z hz, h.2⟩⟩
  | _, _, _, _, _, _, .skipDe hp, h => ⟨(hp.okay h.1).1, fun hk z hz => ⟨(hp.okay h.1).2 hk z hz, h.2⟩⟩
  | _, _, _, _, _, _, .conv hp, h => ⟨(hp.okay h.1).1, fun hk z hz => ⟨(hp.okay h.1).2 hk z hz, h.2⟩⟩
  | _, _, _, _, _, _, .afterSkip hp, h => hp.okay h
  | _, _, _, _, _, _, .afterSkipSer hp, h => hp.okay h
theorem Spec.Variants.Part.okay : ∀ {p : List Nat} {key : Bool} {ρ : Type} {vs : Variants ρ} {v : ρ} {put : β → ρ}, Variants.Part u y p key vs v put → vs.ok v →
    u.ok y ∧ (key = false → ∀ z, u.ok z → vs.ok (put z))
  | _, _, _, _, _, _, .this _ hp, h => hp.okay h
  | _, _, _, _, _, _, .other hp, h => hp.okay h
end

mutual
theorem Spec.Ty.Part.convs : ∀ {p : List Nat} {key : Bool} {α : Type} {t : Ty α} {v : α} {put : β → α}, Ty.Part u y p key t v put → t.convertible v →
    ∀ z, u.convertible z → t.convertible (put z)
  | _, _, _, _, _, _, .here, _ => fun _ hz => hz
  | _, _, _, _, _, _, .vec hi hp, h => fun z hz => mem_set_ok h (hp.convs (h _ (mem_of_get hi)) z hz)
  | _, _, _, _, _, _, .linkedList hi hp, h => fun z hz => mem_set_ok h (hp.convs (h _ (mem_of_get hi)) z hz)
  | _, _, _, _, _, _, .vecDeque hi hp, h => fun z hz => mem_set_ok h (hp.convs (h _ (mem_of_get hi)) z hz)
  | _, _, _, _, _, _, .btreeSet hi hp, h => fun z hz => mem_set_ok h (hp.convs (h _ (mem_of_get hi)) z hz)
  | _, _, _, _, _, _, .hashSet hi hp, h => fun z hz => mem_set_ok h (hp.convs (h _ (mem_of_get hi)) z hz)
  | _, _, _, _, _, _, .btreeKey hi hp, h => fun z hz => mem_set_ok h ⟨hp.convs (h _ (mem_of_get hi)).1 z hz, (h _ (mem_of_get hi)).2⟩
  | _, _, _, _, _, _, .hashKey hi hp, h => fun z hz => mem_set_ok h ⟨hp.convs (h _ (mem_of_get hi)).1 z hz, (h _ (mem_of_get hi)).2⟩
  | _, _, _, _, _, _, .btreeValue hi hp, h => fun z hz => mem_set_ok h ⟨(h _ (mem_of_get hi)).1, hp.convs (h _ (mem_of_get hi)).2 z hz⟩
  | _, _, _, _, _, _, .hashValue hi hp, h => fun z hz => mem_set_ok h ⟨(h _ (mem_of_get hi)).1, hp.convs (h _ (mem_of_get hi)).2 z hz⟩
  | _, _, _, _, _, _, .struct _ hp, h => hp.convs h
  | _, _, _, _, _, _, .enum hp, h => hp.convs h
  | _, _, _, _, _, _, .transparent hp, h => hp.convOne h
  | _, _, _, _, _, _, .named (h' := h') hp, h => fun z hz => by
      have := hp.convs h z hz
      simpa only [Ty.convertible, h'] using this
theorem Spec.Fields.Part.convs : ∀ {p : List Nat} {key : Bool} {γ : Type} {fs : Fields γ} {v : γ} {put : β → γ}, Fields.Part u y p key fs v put → fs.convertible v →
    ∀ z, u.convertible z → fs.convertible (put z)
  | _, _, _, _, _, _, .plain hp, h => fun z hz => ⟨hp.convs h.1 z hz, h.2⟩
  | _, _, _, _, _, _, .skipDe _, h => fun _ _ => h
  | _, _, _, _, _, _, .conv hp, h => fun z hz => ⟨hp.convs h.1 z hz, h.2⟩
  | _, _, _, _, _, _, .afterPlain hp, h => fun z hz => ⟨h.1, hp.convs h.2 z hz⟩
  | _, _, _, _, _, _, .afterSkipDe hp, h => hp.convs h
  | _, _, _, _, _, _, .afterConv hp, h => fun z hz => ⟨h.1, hp.convs h.2 z hz⟩
  | _, _, _, _, _, _, .afterSkip hp, h => hp.convs h
  | _, _, _, _, _, _, .afterSkipSer hp, h => hp.convs h
theorem Spec.Fields.PartOne.convOne : ∀ {p : List Nat} {key : Bool} {γ : Type} {fs : Fields γ} {v : γ} {put : β → γ}, Fields.PartOne u y p key fs v put →
    fs.convertible v → ∀ z, u.convertible z → fs.convertible (put z)
  | _, _, _, _, _, _, .plain hp, h => fun z hz => ⟨hp.convs h.1 z hz, h.2⟩
  | _, _, _, _, _, _, .skipDe _, h => fun _ _ => h
  | _, _, _, _, _, _, .conv hp, h => fun z hz => ⟨hp.convs h.1 z hz, h.2⟩
  | _, _, _, _, _, _, .afterSkip hp, h => hp.convOne h
  | _, _, _, _, _, _, .afterSkipSer hp, h => hp.convOne h
theorem Spec.Variants.Part.convs : ∀ {p : List Nat} {key : Bool} {ρ : Type} {vs : Variants ρ} {v : ρ} {put : β → ρ}, Variants.Part u y p key vs v put →
    vs.convertible v → ∀ z, u.convertible z → vs.convertible (put z)
  | _, _, _, _, _, _, .this _ hp, h => hp.convs h
  | _, _, _, _, _, _, .other hp, h => hp.convs h
end

mutual
theorem Spec.Ty.Part.ser : ∀ {p : List Nat} {key : Bool} {α : Type} {t : Ty α} {v : α} {put : β → α}, Ty.Part u y p key t v put → t.serializable → u.serializable
  | _, _, _, _, _, _, .here, h => h
  | _, _, _, _, _, _, .vec _hi hp, h => hp.ser h
  | _, _, _, _, _, _, .linkedList _hi hp, h => hp.ser h
  | _, _, _, _, _, _, .vecDeque _hi hp, h => hp.ser h
  | _, _, _, _, _, _, .btreeSet _hi hp, h => hp.ser h
  | _, _, _, _, _, _, .hashSet _hi hp, h => hp.ser h
  | _, _, _, _, _, _, .btreeKey _hi hp, h => hp.ser h.1
  | _, _, _, _, _, _, .hashKey _hi hp, h => hp.ser h.1
  | _, _, _, _, _, _, .btreeValue _hi hp, h => hp.ser h.2
  | _, _, _, _, _, _, .hashValue _hi hp, h => hp.ser h.2.1
  | _, _, _, _, _, _, .struct _ hp, h => hp.ser h.2
  | _, _, _, _, _, _, .enum hp, h => hp.ser h
  | _, _, _, _, _, _, .transparent hp, h => hp.ser h.2
  | _, _, _, _, _, _, .named hp, h => hp.ser h
theorem Spec.Fields.Part.ser : ∀ {p : List Nat} {key : Bool} {γ : Type} {fs : Fields γ} {v : γ} {put : β → γ}, Fields.Part u y p key fs v put → fs.serializable →
    u.serializable
  | _, _, _, _, _, _, .plain hp, h => hp.ser h.1
  | _, _, _, _, _, _, .skipDe hp, h => hp.ser h.1
  | _, _, _, _, _, _, .conv hp, h => hp.ser h.1
  | _, _, _, _, _, _, .afterPlain hp, h => hp.ser h.2
  | _, _, _, _, _, _, .afterSkipDe hp, h => hp.ser h.2
  | _, _, _, _, _, _, .afterConv hp, h => hp.ser h.2
  | _, _, _, _, _, _, .afterSkip hp, h => hp.ser h
  | _, _, _, _, _, _, .afterSkipSer hp, h => hp.ser h
theorem Spec.Fields.PartOne.ser : ∀ {p : List Nat} {key : Bool} {γ : Type} {fs : Fields γ} {v : γ} {put : β → γ}, Fields.PartOne u y p key fs v put →
    fs.serializable → u.serializable
  | _, _, _, _, _, _, .plain hp, h => hp.ser h.1
  | _, _, _, _, _, _, .skipDe hp, h => hp.ser h.1
  | _, _, _, _, _, _, .conv hp, h => hp.ser h.1
  | _, _, _, _, _, _, .afterSkip hp, h => hp.ser h
  | _, _, _, _, _, _, .afterSkipSer hp, h => hp.ser h
theorem Spec.Variants.Part.ser : ∀ {p : List Nat} {key : Bool} {ρ : Type} {vs : Variants ρ} {v : ρ} {put : β → ρ}, Variants.Part u y p key vs v put →
    vs.serializable → u.serializable
  | _, _, _, _, _, _, .this _ hp, h => hp.ser h.2.1
  | _, _, _, _, _, _, .other hp, h => hp.ser h.2.2
end

theorem set_back {α : Type} {l : List α} {i : Nat} {x : α} (h : l[i]? = some x) : l.set i x = l := by
  obtain ⟨hi, rfl⟩ := List.getElem?_eq_some_iff.1 h
  exact List.set_getElem_self hi

mutual
theorem Spec.Ty.Part.put_self : ∀ {p : List Nat} {key : Bool} {α : Type} {t : Ty α} {v : α} {put : β → α}, Ty.Part u y p key t v put → put y = v
  | _, _, _, _, _, _, .here => rfl
  | _, _, _, _, _, _, .vec hi hp => by simp only [hp.put_self, Prod.mk.eta, set_back hi]
  | _, _, _, _, _, _, .linkedList hi hp => by simp only [hp.put_self, Prod.mk.eta, set_back hi]
  | _, _, _, _, _, _, .vecDeque hi hp => by simp only [hp.put_self, Prod.mk.eta, set_back hi]
  | _, _, _, _, _, _, .btreeSet hi hp => by simp only [hp.put_self, Prod.mk.eta, set_back hi]
  | _, _, _, _, _, _, .hashSet hi hp => by simp only [hp.put_self, Prod.mk.eta, set_back hi]
  | _, _, _, _, _, _, .btreeKey hi hp => by simp only [hp.put_self, Prod.mk.eta, set_back hi]
  | _, _, _, _, _, _, .hashKey hi hp => by simp only [hp.put_self, Prod.mk.eta, set_back hi]
  | _, _, _, _, _, _, .btreeValue hi hp => by simp only [hp.put_self, Prod.mk.eta, set_back hi]
  | _, _, _, _, _, _, .hashValue hi hp => by simp only [hp.put_self, Prod.mk.eta, set_back hi]
  | _, _, _, _, _, _, .struct _ hp => hp.put_self
  | _, _, _, _, _, _, .enum hp => hp.put_self
  | _, _, _, _, _, _, .transparent hp => hp.put_self
  | _, _, _, _, _, _, .named (h := h) hp => by simp only [hp.put_self, h]
theorem Spec.Fields.Part.put_self : ∀ {p : List Nat} {key : Bool} {γ : Type} {fs : Fields γ} {v : γ} {put : β → γ}, Fields.Part u y p key fs v put → put y = v
  | _, _, _, _, _, _, .plain hp => by simp only [hp.put_self, Prod.mk.eta]
  | _, _, _, _, _, _, .skipDe hp => by simp only [hp.put_self, Prod.mk.eta]
  | _, _, _, _, _, _, .conv hp => by simp only [hp.put_self, Prod.mk.eta]
  | _, _, _, _, _, _, .afterPlain hp => by simp only [hp.put_self, Prod.mk.eta]
  | _, _, _, _, _, _, .afterSkipDe hp => by simp only [hp.put_self, Prod.mk.eta]
  | _, _, _, _, _, _, .afterConv hp => by simp only [hp.put_self, Prod.mk.eta]
  | _, _, _, _, _, _, .afterSkip hp => by simp only [hp.put_self, Prod.mk.eta]
  | _, _, _, _, _, _, .afterSkipSer hp => by simp only [hp.put_self, Prod.mk.eta]
theorem Spec.Fields.PartOne.put_self : ∀ {p : List Nat} {key : Bool} {γ : Type} {fs : Fields γ} {v : γ} {put : β → γ}, Fields.PartOne u y p key fs v put → put y = v
  | _, _, _, _, _, _, .plain hp => by simp only [hp.put_self, Prod.mk.eta]
  | _, _, _, _, _, _, .skipDe hp => by simp only [hp.put_self, Prod.mk.eta]
  | _, _, _, _, _, _, .conv hp => by simp only [hp.put_self, Prod.mk.eta]
  | _, _, _, _, _, _, .afterSkip hp => by simp only [hp.put_self, Prod.mk.eta]
  | _, _, _, _, _, _, .afterSkipSer hp => by simp only [hp.put_self, Prod.mk.eta]
theorem Spec.Variants.Part.put_self : ∀ {p : List Nat} {key : Bool} {ρ : Type} {vs : Variants ρ} {v : ρ} {put : β → ρ}, Variants.Part u y p key vs v put → put y = v
  | _, _, _, _, _, _, .this _ hp => by simp only [hp.put_self, Prod.mk.eta]
  | _, _, _, _, _, _, .other hp => by simp only [hp.put_self, Prod.mk.eta]
end

end Bsn1
