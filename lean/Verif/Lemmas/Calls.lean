import Verif.Model.Calls
import Verif.Spec.Calls
import Verif.Spec.Work
import Verif.Lemmas.SerTy
/-!
# Lemmas on what serializing calls
-/

namespace Bsn1
open Spec

variable {α β γ : Type}

/-- Only calls of `der_contents_len` are counted. -/
def Weights.lens : Weights := ⟨1, 0⟩

/-- Only conversions are counted. -/
def Weights.convs : Weights := ⟨0, 1⟩

theorem sum_map_le {f g : α → Nat} : ∀ {l : List α}, (∀ x ∈ l, f x ≤ g x) → (l.map f).sum ≤ (l.map g).sum
  | [], _ => Nat.le_refl _
  | x :: r, h => by
    rw [List.map_cons, List.map_cons, List.sum_cons, List.sum_cons]
    have h1 := h x (List.mem_cons_self ..)
    have h2 := sum_map_le (l := r) fun y hy => h y (List.mem_cons_of_mem _ hy)
    omega

theorem sum_map_add (f g : α → Nat) : ∀ l : List α, (l.map fun x => f x + g x).sum = (l.map f).sum + (l.map g).sum
  | [] => rfl
  | x :: r => by
    rw [List.map_cons, List.map_cons, List.map_cons, List.sum_cons, List.sum_cons, List.sum_cons, sum_map_add f g r]
    omega

/-! ### The implementation in a cost -/

mutual
theorem Ty.costs_ser (w : Weights) (m : Build) : ∀ {α : Type} (t : Ty α), (Ty.costs w m t).ser = Ty.ser m t
  | _, .bool => rfl
  | _, .int _ => rfl
  | _, .string => rfl
  | _, .octetString => rfl
  | _, .vec _ => rfl
  | _, .linkedList _ => rfl
  | _, .vecDeque _ => rfl
  | _, .btreeSet .. => rfl
  | _, .btreeMap .. => rfl
  | _, .hashSet .. => rfl
  | _, .hashMap .. => rfl
  | _, .struct .. => rfl
  | _, .enum .. => rfl
  | _, .transparent _ => rfl
  | _, .conv .. => rfl
  | _, .named .. => rfl
  | _, .hole => rfl
end

/-! ### Calls of `der_contents_len`: bounds -/

/-- The calls stay below a number of values and a sum of depths. -/
structure Costs.Bound (s : Costs α) (p d : α → Nat) : Prop where
  len : ∀ v, s.len v ≤ p v
  id : ∀ v, s.id v = 0
  contents : ∀ v, s.contents v + p v ≤ d v

theorem Costs.Bound.writeDer {s : Costs α} {p d : α → Nat} (h : s.Bound p d) (v : α) : s.writeDer v ≤ d v := by
  have h1 := h.len v
  have h2 := h.id v
  have h3 := h.contents v
  rw [Costs.writeDer]
  rcases s.ser.derContentsLen v with (_ | _) | _ | _ | _ <;> simp only <;> omega

theorem Costs.Bound.toDer {s : Costs α} {p d : α → Nat} (h : s.Bound p d) (v : α) : s.toDer v ≤ d v := h.writeDer v

theorem Costs.Bound.eachLen {s : Costs α} {p d : α → Nat} (h : s.Bound p d) (m : Build) : ∀ l, s.eachLen m l ≤ (l.map p).sum
  | [] => Nat.le_refl _
  | x :: r => by
    have h1 := h.len x
    have h2 := h.eachLen m r
    rw [List.map_cons, List.sum_cons, Costs.eachLen, Costs.derLen]
    split <;> omega

theorem Costs.Bound.writeEach {s : Costs α} {p d : α → Nat} (h : s.Bound p d) : ∀ l, s.writeEach l ≤ (l.map d).sum
  | [] => Nat.le_refl _
  | x :: r => by
    have h1 := h.writeDer x
    have h2 := h.writeEach r
    rw [List.map_cons, List.sum_cons, Costs.writeEach]
    omega

theorem Costs.Bound.entry {s : Costs α} {p d : α → Nat} (h : s.Bound p d) (m : Build) (k : α) :
    s.entryLen m k + s.writeEntry m k ≤ d k + p k := by
  have h1 := h.len k
  have h2 := h.writeDer k
  have h3 := h.toDer k
  rw [Costs.entryLen, Costs.writeEntry, Costs.derLen]
  rcases Bsn1.derLen m s.ser k with (_ | _) | _ | _ | _ <;> simp only <;> omega

theorem Costs.Bound.writePairs {s : Costs α} {s' : Costs β} {p d : α → Nat} {p' d' : β → Nat} (h : s.Bound p d) (h' : s'.Bound p' d') (m : Build) :
    ∀ l, s.writePairs m s' l ≤ (l.map fun x => (d x.1 + p x.1) + (d' x.2 + p' x.2)).sum
  | [] => Nat.le_refl _
  | x :: r => by
    have h1 := h.entry m x.1
    have h2 := h'.entry m x.2
    have h3 := h.writePairs h' m r
    rw [List.map_cons, List.sum_cons, Costs.writePairs]
    omega

theorem Costs.Bound.btreeMapLen {s : Costs α} {s' : Costs β} {p d : α → Nat} {p' d' : β → Nat} (h : s.Bound p d) (h' : s'.Bound p' d') (m : Build) :
    ∀ l, s.btreeMapLen m s' l ≤ (l.map fun x => p x.1 + p' x.2).sum
  | [] => Nat.le_refl _
  | x :: r => by
    have h1 := h.len x.1
    have h2 := h'.len x.2
    have h3 := h.btreeMapLen h' m r
    rw [List.map_cons, List.sum_cons, Costs.btreeMapLen, Costs.derLen, Costs.derLen]
    rcases Bsn1.derLen m s.ser x.1 with (_ | _) | _ | _ | _ <;> rcases Bsn1.derLen m s'.ser x.2 with (_ | _) | _ | _ | _ <;> simp only <;> omega

theorem Costs.Bound.hashMapLen {s : Costs α} {s' : Costs β} {p d : α → Nat} {p' d' : β → Nat} (h : s.Bound p d) (h' : s'.Bound p' d') (m : Build) :
    ∀ l, s.hashMapLen m s' l ≤ (l.map fun x => p x.1 + p' x.2).sum
  | [] => Nat.le_refl _
  | x :: r => by
    have h1 := h.len x.1
    have h2 := h'.len x.2
    have h3 := h.hashMapLen h' m r
    rw [List.map_cons, List.sum_cons, Costs.hashMapLen, Costs.derLen, Costs.derLen]
    rcases Bsn1.derLen m s.ser x.1 with (_ | _) | _ | _ | _ <;> rcases Bsn1.derLen m s'.ser x.2 with (_ | _) | _ | _ | _ <;> simp only <;> omega

theorem Costs.leaf_bound (s : Ser α) : (Costs.leaf .lens s).Bound (fun _ => 1) fun _ => 1 :=
  ⟨fun _ => Nat.le_refl _, fun _ => rfl, fun _ => Nat.le_refl _⟩

theorem Costs.Bound.coll {s : Costs α} {p d : α → Nat} (h : s.Bound p d) (m : Build) (s' : Ser (List α)) :
    (Costs.coll .lens m s s').Bound (fun v => 1 + (v.map p).sum) fun v => 1 + (v.map fun x => d x + p x).sum :=
  ⟨fun v => Nat.add_le_add_left (h.eachLen m v) 1, fun _ => rfl, fun v => by
    have h1 := h.writeEach v
    rw [sum_map_add]
    show s.writeEach v + _ ≤ _
    omega⟩

theorem Costs.Bound.pairs {s : Costs α} {s' : Costs β} {p d : α → Nat} {p' d' : β → Nat} (h : s.Bound p d) (h' : s'.Bound p' d') (m : Build)
    (l : List (α × β)) : s.writePairs m s' l + (1 + (l.map fun x => p x.1 + p' x.2).sum) ≤
      1 + (l.map fun x => (d x.1 + 2 * p x.1) + (d' x.2 + 2 * p' x.2)).sum := by
  have h1 := h.writePairs h' m l
  have e : (l.map fun x => (d x.1 + 2 * p x.1) + (d' x.2 + 2 * p' x.2)).sum =
      (l.map fun x => (d x.1 + p x.1) + (d' x.2 + p' x.2)).sum + (l.map fun x => p x.1 + p' x.2).sum := by
    rw [← sum_map_add]
    exact congrArg List.sum (List.map_congr_left fun x _ => by omega)
  omega

/-- The same for fields. -/
structure CostFields.Bound (fs : CostFields γ) (p d p1 d1 : γ → Nat) : Prop where
  len : ∀ v, fs.lenLoop v ≤ p v
  write : ∀ v, fs.write .lens v + p v ≤ d v
  oneLen : ∀ v, fs.oneLen .lens v ≤ p1 v
  oneId : ∀ v, fs.oneId .lens v = 0
  one : ∀ v, fs.oneContents .lens v + p1 v ≤ d1 v

theorem CostFields.Bound.len' {fs : CostFields γ} {p d p1 d1 : γ → Nat} (h : fs.Bound p d p1 d1) (v : γ) : fs.len .lens v ≤ 1 + p v := by
  have := h.len v
  rw [CostFields.len, show Weights.lens.len = 1 from rfl]
  split <;> omega

theorem CostFields.Bound.plain {s : Costs β} {fs : CostFields γ} {q e : β → Nat} {p d p1 d1 : γ → Nat} (hs : s.Bound q e) (h : fs.Bound p d p1 d1) :
    (CostFields.cons (.plain s) fs).Bound (fun v => q v.1 + p v.2) (fun v => (e v.1 + q v.1) + d v.2) (fun v => q v.1) (fun v => e v.1) where
  len v := by
    have h1 := hs.len v.1
    have h2 := h.len v.2
    rw [CostFields.lenLoop]
    split
    · split <;> omega
    · omega
  write v := by
    have h1 := hs.writeDer v.1
    have h2 := h.write v.2
    rw [CostFields.write]
    omega
  oneLen v := hs.len v.1
  oneId v := hs.id v.1
  one v := hs.contents v.1

theorem CostFields.Bound.conv {δ : Type} {s : Costs δ} {fs : CostFields γ} {q e : δ → Nat} {p d p1 d1 : γ → Nat} (f : β → δ) (hs : s.Bound q e)
    (hq : ∀ v, 1 ≤ q v) (h : fs.Bound p d p1 d1) :
    (CostFields.cons (.conv s f) fs).Bound (fun v => q (f v.1) + p v.2) (fun v => (e (f v.1) + q (f v.1)) + d v.2) (fun v => q (f v.1))
      (fun v => e (f v.1)) where
  len v := Nat.zero_le _
  write v := by
    have h1 := hs.writeDer (f v.1)
    have h2 := h.write v.2
    rw [CostFields.write, show Weights.lens.conv = 0 from rfl]
    omega
  oneLen v := hq _
  oneId v := by rw [CostFields.oneId, hs.id]; rfl
  one v := by
    have := hs.contents (f v.1)
    rw [CostFields.oneContents, show Weights.lens.conv = 0 from rfl]
    omega

theorem CostFields.Bound.skip {fs : CostFields γ} {p d p1 d1 : γ → Nat} (h : fs.Bound p d p1 d1) :
    (CostFields.cons (.skip : CostField β) fs).Bound (fun v => p v.2) (fun v => d v.2) (fun v => p1 v.2) (fun v => d1 v.2) :=
  ⟨fun v => h.len v.2, fun v => h.write v.2, fun v => h.oneLen v.2, fun v => h.oneId v.2, fun v => h.one v.2⟩

mutual
theorem Spec.Ty.parts_pos : ∀ {α : Type} (t : Ty α) (v : α), 1 ≤ t.parts v
  | _, .bool, _ => Nat.le_refl _
  | _, .int _, _ => Nat.le_refl _
  | _, .string, _ => Nat.le_refl _
  | _, .octetString, _ => Nat.le_refl _
  | _, .vec _, _ => Nat.le_add_right _ _
  | _, .linkedList _, _ => Nat.le_add_right _ _
  | _, .vecDeque _, _ => Nat.le_add_right _ _
  | _, .btreeSet .., _ => Nat.le_add_right _ _
  | _, .btreeMap .., _ => Nat.le_add_right _ _
  | _, .hashSet .., _ => Nat.le_add_right _ _
  | _, .hashMap .., _ => Nat.le_add_right _ _
  | _, .struct .., _ => Nat.le_add_right _ _
  | _, .enum .., _ => Nat.le_add_right _ _
  | _, .transparent fs, v => fs.partsOne_pos v
  | _, .conv t f _, v => t.parts_pos (f v)
  | _, .named t f _ _ _, v => t.parts_pos (f v)
  | _, .hole, _ => Nat.le_refl _
theorem Spec.Fields.partsOne_pos : ∀ {γ : Type} (fs : Fields γ) (v : γ), 1 ≤ fs.partsOne v
  | _, .nil, _ => Nat.le_refl _
  | _, .plain t _, v => t.parts_pos v.1
  | _, .skip _ r, v => r.partsOne_pos v.2
  | _, .skipSer _ r, v => r.partsOne_pos v.2
  | _, .skipDe t _ _, v => t.parts_pos v.1
  | _, .conv t f _ _, v => t.parts_pos (f v.1)
end

mutual
theorem Ty.costs_bound (m : Build) : ∀ {α : Type} (t : Ty α), (Ty.costs .lens m t).Bound t.parts t.depths
  | _, .bool => Costs.leaf_bound _
  | _, .int _ => Costs.leaf_bound _
  | _, .string => Costs.leaf_bound _
  | _, .octetString => Costs.leaf_bound _
  | _, .vec t => (Ty.costs_bound m t).coll m _
  | _, .linkedList t => (Ty.costs_bound m t).coll m _
  | _, .vecDeque t => (Ty.costs_bound m t).coll m _
  | _, .btreeSet _ _ _ t => (Ty.costs_bound m t).coll m _
  | _, .btreeMap _ _ _ k t => ⟨fun v => Nat.add_le_add_left ((Ty.costs_bound m k).btreeMapLen (Ty.costs_bound m t) m v) 1, fun _ => rfl,
      fun v => (Ty.costs_bound m k).pairs (Ty.costs_bound m t) m v⟩
  | _, .hashSet _ t => (Ty.costs_bound m t).coll m _
  | _, .hashMap _ k t => ⟨fun v => Nat.add_le_add_left ((Ty.costs_bound m k).hashMapLen (Ty.costs_bound m t) m v) 1, fun _ => rfl,
      fun v => (Ty.costs_bound m k).pairs (Ty.costs_bound m t) m v⟩
  | _, .struct id fs => ⟨(Fields.costs_bound m fs).len', fun _ => rfl, fun v => by
      have h : (Fields.costs .lens m fs).write .lens v + fs.parts v ≤ fs.depths v := (Fields.costs_bound m fs).write v
      show (Fields.costs .lens m fs).write .lens v + (1 + fs.parts v) ≤ 1 + fs.depths v
      omega⟩
  | _, .enum vs => ⟨fun v => (Variants.costs_bound m vs v).1, fun _ => rfl, fun v => by
      have h := (Variants.costs_bound m vs v).2
      show _ + (1 + vs.parts v) ≤ 1 + vs.depths v
      show (Variants.costs .lens m vs).pick (fun fs => fs.write .lens) v + _ ≤ _
      omega⟩
  | _, .transparent fs => ⟨(Fields.costs_bound m fs).oneLen, (Fields.costs_bound m fs).oneId, (Fields.costs_bound m fs).one⟩
  | _, .conv t f _ => ⟨fun v => t.parts_pos (f v), fun v => (Nat.zero_add _).trans ((Ty.costs_bound m t).id (f v)), fun v => by
      have h : (Ty.costs .lens m t).contents (f v) + t.parts (f v) ≤ t.depths (f v) := (Ty.costs_bound m t).contents (f v)
      show 0 + (Ty.costs .lens m t).contents (f v) + t.parts (f v) ≤ t.depths (f v)
      omega⟩
  | _, .named t f _ _ _ => ⟨fun v => (Ty.costs_bound m t).len (f v), fun v => (Ty.costs_bound m t).id (f v), fun v => (Ty.costs_bound m t).contents (f v)⟩
  | _, .hole => ⟨fun _ => Nat.zero_le _, fun _ => rfl, fun _ => Nat.le_refl _⟩
theorem Fields.costs_bound (m : Build) : ∀ {γ : Type} (fs : Fields γ), (Fields.costs .lens m fs).Bound fs.parts fs.depths fs.partsOne fs.depthsOne
  | _, .nil => ⟨fun _ => Nat.le_refl _, fun _ => Nat.le_refl _, fun _ => Nat.zero_le _, fun _ => rfl, fun _ => Nat.le_refl _⟩
  | _, .plain t r => (Fields.costs_bound m r).plain (Ty.costs_bound m t)
  | _, .skip _ r => (Fields.costs_bound m r).skip
  | _, .skipSer _ r => (Fields.costs_bound m r).skip
  | _, .skipDe t _ r => (Fields.costs_bound m r).plain (Ty.costs_bound m t)
  | _, .conv t f _ r => (Fields.costs_bound m r).conv f (Ty.costs_bound m t) t.parts_pos
theorem Variants.costs_bound (m : Build) : ∀ {ρ : Type} (vs : Variants ρ) (v : ρ),
    (Variants.costs .lens m vs).pick (fun fs => fs.len .lens) v ≤ 1 + vs.parts v ∧
      (Variants.costs .lens m vs).pick (fun fs => fs.write .lens) v + vs.parts v ≤ vs.depths v
  | _, .cons _ fs _, .inl v => ⟨(Fields.costs_bound m fs).len' v, (Fields.costs_bound m fs).write v⟩
  | _, .cons _ _ r, .inr v => Variants.costs_bound m r v
end

/-! ### Calls of `der_contents_len`: exactly, when all sizes are known -/

/-- The calls for one value are exactly so many; the size is known. -/
structure Costs.At (m : Build) (s : Costs α) (v : α) (p d : Nat) : Prop where
  len : s.len v = p
  id : s.id v = 0
  contents : s.contents v + p = d
  idLen : ∃ n, s.ser.idLen v = .ok (some n)
  contentsLen : ∃ n, s.ser.derContentsLen v = .ok (some n)
  derLen : ∃ n, Bsn1.derLen m s.ser v = .ok (some n)

section
variable {m : Build}

theorem Costs.At.writeDer {s : Costs α} {v : α} {p d : Nat} (h : s.At m v p d) : s.writeDer v = d := by
  obtain ⟨n, e⟩ := h.contentsLen
  have h1 := h.len
  have h2 := h.id
  have h3 := h.contents
  rw [Costs.writeDer, e]
  simp only
  omega

theorem Costs.At.toDer {s : Costs α} {v : α} {p d : Nat} (h : s.At m v p d) : s.toDer v = d := h.writeDer

theorem Costs.eachLen_at {s : Costs α} {p d : α → Nat} : ∀ {l : List α}, (∀ x ∈ l, s.At m x (p x) (d x)) → s.eachLen m l = (l.map p).sum
  | [], _ => rfl
  | x :: r, h => by
    have h1 := h x (List.mem_cons_self ..)
    have h2 := Costs.eachLen_at (l := r) fun y hy => h y (List.mem_cons_of_mem _ hy)
    obtain ⟨n, e⟩ := h1.derLen
    rw [List.map_cons, List.sum_cons, Costs.eachLen, Costs.derLen, e, h1.len, h2]

theorem Costs.writeEach_at {s : Costs α} {p d : α → Nat} : ∀ {l : List α}, (∀ x ∈ l, s.At m x (p x) (d x)) → s.writeEach l = (l.map d).sum
  | [], _ => rfl
  | x :: r, h => by
    have h1 := h x (List.mem_cons_self ..)
    have h2 := Costs.writeEach_at (l := r) fun y hy => h y (List.mem_cons_of_mem _ hy)
    rw [List.map_cons, List.sum_cons, Costs.writeEach, h1.writeDer, h2]

theorem Costs.At.entry {s : Costs α} {k : α} {p d : Nat} (h : s.At m k p d) : s.entryLen m k = p ∧ s.writeEntry m k = d := by
  obtain ⟨n, e⟩ := h.derLen
  rw [Costs.entryLen, Costs.writeEntry, Costs.derLen, e, h.len, h.writeDer]
  exact ⟨rfl, rfl⟩

theorem Costs.pairs_at {s : Costs α} {s' : Costs β} {p d : α → Nat} {p' d' : β → Nat} : ∀ {l : List (α × β)},
    (∀ x ∈ l, s.At m x.1 (p x.1) (d x.1) ∧ s'.At m x.2 (p' x.2) (d' x.2)) →
    s.btreeMapLen m s' l = (l.map fun x => p x.1 + p' x.2).sum ∧ s.hashMapLen m s' l = (l.map fun x => p x.1 + p' x.2).sum ∧
      s.writePairs m s' l + (l.map fun x => p x.1 + p' x.2).sum = (l.map fun x => (d x.1 + 2 * p x.1) + (d' x.2 + 2 * p' x.2)).sum
  | [], _ => ⟨rfl, rfl, rfl⟩
  | x :: r, h => by
    obtain ⟨h1, h2⟩ := h x (List.mem_cons_self ..)
    obtain ⟨i1, i2, i3⟩ := Costs.pairs_at (l := r) fun y hy => h y (List.mem_cons_of_mem _ hy)
    obtain ⟨n, e⟩ := h1.derLen
    obtain ⟨n', e'⟩ := h2.derLen
    obtain ⟨a1, a2⟩ := h1.entry
    obtain ⟨b1, b2⟩ := h2.entry
    have l1 := h1.len
    have l2 := h2.len
    simp only [List.map_cons, List.sum_cons]
    refine ⟨?_, ?_, ?_⟩
    · simp only [Costs.btreeMapLen, Costs.derLen, e, e', i1, l1, l2]
      exact (Nat.add_assoc ..).symm
    · simp only [Costs.hashMapLen, Costs.derLen, e, e', i2, l1, l2]
      exact (Nat.add_assoc ..).symm
    · rw [Costs.writePairs, a1, a2, b1, b2]
      omega
end

theorem Ty.at_of {m : Build} {t : Ty α} (hs : t.serializable) (hz : t.sized = true) {v : α} (hok : t.ok v) (hfit : (t.der v).length ≤ isizeMax)
    (h : (Ty.costs .lens m t).len v = t.parts v ∧ (Ty.costs .lens m t).contents v + t.parts v = t.depths v) :
    (Ty.costs .lens m t).At m v (t.parts v) (t.depths v) :=
  have hh := Ty.hints m t hs hz v hok hfit
  ⟨h.1, (Ty.costs_bound m t).id v, h.2, ⟨_, by rw [Ty.costs_ser]; exact hh.1⟩, ⟨_, by rw [Ty.costs_ser]; exact hh.2⟩,
    ⟨_, by rw [Ty.costs_ser]; exact derLen_hints m hh hfit⟩⟩

theorem Costs.coll_exact {m : Build} {s : Costs α} {p d : α → Nat} {s' : Ser (List α)} {v : List α} (h : ∀ x ∈ v, s.At m x (p x) (d x)) :
    (Costs.coll .lens m s s').len v = 1 + (v.map p).sum ∧
      (Costs.coll .lens m s s').contents v + (1 + (v.map p).sum) = 1 + (v.map fun x => d x + p x).sum := by
  refine ⟨congrArg (1 + ·) (Costs.eachLen_at h), ?_⟩
  show s.writeEach v + _ = _
  rw [Costs.writeEach_at h, sum_map_add]
  omega

theorem CostFields.len_exact {fs : CostFields γ} {v : γ} {p : Nat} (h1 : fs.anyConv = false) (h2 : fs.lenLoop v = p) : fs.len .lens v = 1 + p := by
  rw [CostFields.len, h1, h2]
  rfl

theorem CostFields.plain_exact {m : Build} {s : Costs β} {fs : CostFields γ} {v : β × γ} {q e p d : Nat} (hs : s.At m v.1 q e)
    (h : fs.anyConv = false ∧ fs.lenLoop v.2 = p ∧ fs.write .lens v.2 + p = d) :
    (CostFields.cons (.plain s) fs).anyConv = false ∧ (CostFields.cons (.plain s) fs).lenLoop v = q + p ∧
      (CostFields.cons (.plain s) fs).write .lens v + (q + p) = (e + q) + d := by
  obtain ⟨h1, h2, h3⟩ := h
  obtain ⟨n, e1⟩ := hs.contentsLen
  obtain ⟨n', e2⟩ := hs.idLen
  refine ⟨h1, ?_, ?_⟩
  · rw [CostFields.lenLoop, e1, hs.len]
    simp only [e2, h2]
  · rw [CostFields.write, hs.writeDer]
    omega

mutual
theorem Ty.costs_exact (m : Build) : ∀ {α : Type} (t : Ty α), t.serializable → t.sized = true → ∀ v : α, t.ok v →
    (t.der v).length ≤ isizeMax → (Ty.costs .lens m t).len v = t.parts v ∧ (Ty.costs .lens m t).contents v + t.parts v = t.depths v
  | _, .bool, _, _, _, _, _ => ⟨rfl, rfl⟩
  | _, .int _, _, _, _, _, _ => ⟨rfl, rfl⟩
  | _, .string, _, _, _, _, _ => ⟨rfl, rfl⟩
  | _, .octetString, _, _, _, _, _ => ⟨rfl, rfl⟩
  | _, .vec t, hs, hz, v, hok, hfit => Costs.coll_exact fun x hx =>
      Ty.at_of (t := t) hs hz (hok x hx) ((length_le_flatMap (f := fun x => tlvOf (t.enc x)) hx).trans (fits_of_der hfit)) (Ty.costs_exact m t hs hz x (hok x hx) ((length_le_flatMap (f := fun x => tlvOf (t.enc x)) hx).trans (fits_of_der hfit)))
  | _, .linkedList t, hs, hz, v, hok, hfit => Costs.coll_exact fun x hx =>
      Ty.at_of (t := t) hs hz (hok x hx) ((length_le_flatMap (f := fun x => tlvOf (t.enc x)) hx).trans (fits_of_der hfit)) (Ty.costs_exact m t hs hz x (hok x hx) ((length_le_flatMap (f := fun x => tlvOf (t.enc x)) hx).trans (fits_of_der hfit)))
  | _, .vecDeque t, hs, hz, v, hok, hfit => Costs.coll_exact fun x hx =>
      Ty.at_of (t := t) hs hz (hok x hx) ((length_le_flatMap (f := fun x => tlvOf (t.enc x)) hx).trans (fits_of_der hfit)) (Ty.costs_exact m t hs hz x (hok x hx) ((length_le_flatMap (f := fun x => tlvOf (t.enc x)) hx).trans (fits_of_der hfit)))
  | _, .btreeSet _ _ _ t, hs, hz, v, hok, hfit => Costs.coll_exact fun x hx =>
      Ty.at_of (t := t) hs hz (hok.2 x hx) ((length_le_flatMap (f := fun x => tlvOf (t.enc x)) hx).trans (fits_of_der hfit)) (Ty.costs_exact m t hs hz x (hok.2 x hx) ((length_le_flatMap (f := fun x => tlvOf (t.enc x)) hx).trans (fits_of_der hfit)))
  | _, .hashSet _ t, hs, hz, v, hok, hfit => Costs.coll_exact fun x hx =>
      Ty.at_of (t := t) hs hz (hok.2 x hx) ((length_le_flatMap (f := fun x => tlvOf (t.enc x)) hx).trans (fits_of_der hfit)) (Ty.costs_exact m t hs hz x (hok.2 x hx) ((length_le_flatMap (f := fun x => tlvOf (t.enc x)) hx).trans (fits_of_der hfit)))
  | _, .btreeMap _ _ _ k t, hs, hz, v, hok, hfit => by
      simp only [Ty.sized, Bool.and_eq_true] at hz
      obtain ⟨h1, _, h3⟩ := Costs.pairs_at (m := m) (s := Ty.costs .lens m k) (s' := Ty.costs .lens m t) (p := k.parts) (d := k.depths)
        (p' := t.parts) (d' := t.depths) (l := v) fun x hx =>
        have hf := map_fits_mem (f := fun x => tlvOf (k.enc x.1)) (g := fun x => tlvOf (t.enc x.2)) hx (fits_of_der hfit)
        ⟨Ty.at_of hs.1 hz.1 (hok.2 x hx).1 hf.1 (Ty.costs_exact m k hs.1 hz.1 x.1 (hok.2 x hx).1 hf.1), Ty.at_of hs.2 hz.2 (hok.2 x hx).2 hf.2 (Ty.costs_exact m t hs.2 hz.2 x.2 (hok.2 x hx).2 hf.2)⟩
      exact ⟨congrArg (1 + ·) h1, (by omega : ∀ {a b c : Nat}, a + b = c → a + (1 + b) = 1 + c) h3⟩
  | _, .hashMap _ k t, hs, hz, v, hok, hfit => by
      simp only [Ty.sized, Bool.and_eq_true] at hz
      obtain ⟨_, h1, h3⟩ := Costs.pairs_at (m := m) (s := Ty.costs .lens m k) (s' := Ty.costs .lens m t) (p := k.parts) (d := k.depths)
        (p' := t.parts) (d' := t.depths) (l := v) fun x hx =>
        have hf := map_fits_mem (f := fun x => tlvOf (k.enc x.1)) (g := fun x => tlvOf (t.enc x.2)) hx (fits_of_der hfit)
        ⟨Ty.at_of hs.1 hz.1 (hok.2 x hx).1 hf.1 (Ty.costs_exact m k hs.1 hz.1 x.1 (hok.2 x hx).1 hf.1), Ty.at_of hs.2.1 hz.2 (hok.2 x hx).2 hf.2 (Ty.costs_exact m t hs.2.1 hz.2 x.2 (hok.2 x hx).2 hf.2)⟩
      exact ⟨congrArg (1 + ·) h1, (by omega : ∀ {a b c : Nat}, a + b = c → a + (1 + b) = 1 + c) h3⟩
  | _, .struct _ fs, hs, hz, v, hok, hfit =>
      have h := Fields.costs_exact m fs hs.2 hz v hok (fits_of_der hfit)
      ⟨CostFields.len_exact h.1 h.2.1, (by omega : ∀ {a b c : Nat}, a + b = c → a + (1 + b) = 1 + c) h.2.2⟩
  | _, .enum vs, hs, hz, v, hok, hfit =>
      have h := Variants.costs_exact m vs hs hz v hok (fits_of_der hfit)
      ⟨h.1, (by omega : ∀ {a b c : Nat}, a + b = c → a + (1 + b) = 1 + c) h.2⟩
  | _, .transparent fs, hs, hz, v, hok, hfit => Fields.costs_one m fs hs.2 hz v hok hs.1 hfit
  | _, .conv .., _, hz, _, _, _ => by cases hz
  | _, .named t f _ _ _, hs, hz, v, hok, hfit => Ty.costs_exact m t hs hz (f v) hok hfit
  | _, .hole, _, _, _, hok, _ => hok.elim
theorem Fields.costs_exact (m : Build) : ∀ {γ : Type} (fs : Fields γ), fs.serializable → fs.sized = true → ∀ v : γ, fs.ok v →
    (fs.enc v).length ≤ isizeMax → (Fields.costs .lens m fs).anyConv = false ∧ (Fields.costs .lens m fs).lenLoop v = fs.parts v ∧
      (Fields.costs .lens m fs).write .lens v + fs.parts v = fs.depths v
  | _, .nil, _, _, _, _, _ => ⟨rfl, rfl, rfl⟩
  | _, .plain t r, hs, hz, v, hok, hfit => by
      simp only [Fields.sized, Bool.and_eq_true] at hz
      simp only [Fields.enc, List.length_append] at hfit
      have hf : (t.der v.1).length ≤ isizeMax := by rw [Ty.der]; omega
      exact CostFields.plain_exact (Ty.at_of hs.1 hz.1 hok.1 hf (Ty.costs_exact m t hs.1 hz.1 v.1 hok.1 hf))
        (Fields.costs_exact m r hs.2 hz.2 v.2 hok.2 (by omega))
  | _, .skip _ r, hs, hz, v, hok, hfit => Fields.costs_exact m r hs hz v.2 hok hfit
  | _, .skipSer _ r, hs, hz, v, hok, hfit => Fields.costs_exact m r hs hz v.2 hok hfit
  | _, .skipDe t _ r, hs, hz, v, hok, hfit => by
      simp only [Fields.sized, Bool.and_eq_true] at hz
      simp only [Fields.enc, List.length_append] at hfit
      have hf : (t.der v.1).length ≤ isizeMax := by rw [Ty.der]; omega
      exact CostFields.plain_exact (Ty.at_of hs.1 hz.1 hok.1 hf (Ty.costs_exact m t hs.1 hz.1 v.1 hok.1 hf))
        (Fields.costs_exact m r hs.2 hz.2 v.2 hok.2 (by omega))
  | _, .conv .., _, hz, _, _, _ => by cases hz
theorem Fields.costs_one (m : Build) : ∀ {γ : Type} (fs : Fields γ), fs.serializable → fs.sized = true → ∀ v : γ, fs.ok v → fs.serCount = 1 →
    (tlvOf (fs.encOne v)).length ≤ isizeMax → (Fields.costs .lens m fs).oneLen .lens v = fs.partsOne v ∧
      (Fields.costs .lens m fs).oneContents .lens v + fs.partsOne v = fs.depthsOne v
  | _, .nil, _, _, _, _, hn, _ => by cases hn
  | _, .plain t r, hs, hz, v, hok, _, hfit => by
      simp only [Fields.sized, Bool.and_eq_true] at hz
      exact Ty.costs_exact m t hs.1 hz.1 v.1 hok.1 hfit
  | _, .skip _ r, hs, hz, v, hok, hn, hfit => Fields.costs_one m r hs hz v.2 hok hn hfit
  | _, .skipSer _ r, hs, hz, v, hok, hn, hfit => Fields.costs_one m r hs hz v.2 hok hn hfit
  | _, .skipDe t _ r, hs, hz, v, hok, _, hfit => by
      simp only [Fields.sized, Bool.and_eq_true] at hz
      exact Ty.costs_exact m t hs.1 hz.1 v.1 hok.1 hfit
  | _, .conv .., _, hz, _, _, _, _ => by cases hz
theorem Variants.costs_exact (m : Build) : ∀ {ρ : Type} (vs : Variants ρ), vs.serializable → vs.sized = true → ∀ v : ρ, vs.ok v →
    (vs.enc v).2.length ≤ isizeMax → (Variants.costs .lens m vs).pick (fun fs => fs.len .lens) v = 1 + vs.parts v ∧
      (Variants.costs .lens m vs).pick (fun fs => fs.write .lens) v + vs.parts v = vs.depths v
  | _, .cons _ fs _, hs, hz, .inl v, hok, hfit => by
      simp only [Variants.sized, Bool.and_eq_true] at hz
      have h := Fields.costs_exact m fs hs.2.1 hz.1 v hok hfit
      exact ⟨CostFields.len_exact h.1 h.2.1, h.2.2⟩
  | _, .cons _ _ r, hs, hz, .inr v, hok, hfit => by
      simp only [Variants.sized, Bool.and_eq_true] at hz
      exact Variants.costs_exact m r hs.2.2 hz.2 v hok hfit
end

/-! ### Conversions -/

theorem Costs.eachLen_free {s : Costs α} (h : ∀ v, s.len v = 0) (m : Build) : ∀ l, s.eachLen m l = 0
  | [] => rfl
  | x :: r => by
    rw [Costs.eachLen, Costs.derLen, h, Costs.eachLen_free h m r]
    rcases Bsn1.derLen m s.ser x with (_ | _) | _ | _ | _ <;> rfl

theorem Costs.btreeMapLen_free {s : Costs α} {s' : Costs β} (h : ∀ v, s.len v = 0) (h' : ∀ v, s'.len v = 0) (m : Build) : ∀ l, s.btreeMapLen m s' l = 0
  | [] => rfl
  | x :: r => by
    rw [Costs.btreeMapLen, Costs.derLen, Costs.derLen, h, h', Costs.btreeMapLen_free h h' m r]
    rcases Bsn1.derLen m s.ser x.1 with (_ | _) | _ | _ | _ <;> rcases Bsn1.derLen m s'.ser x.2 with (_ | _) | _ | _ | _ <;> rfl

theorem Costs.hashMapLen_free {s : Costs α} {s' : Costs β} (h : ∀ v, s.len v = 0) (h' : ∀ v, s'.len v = 0) (m : Build) : ∀ l, s.hashMapLen m s' l = 0
  | [] => rfl
  | x :: r => by
    rw [Costs.hashMapLen, Costs.derLen, Costs.derLen, h, h', Costs.hashMapLen_free h h' m r]
    rcases Bsn1.derLen m s.ser x.1 with (_ | _) | _ | _ | _ <;> rcases Bsn1.derLen m s'.ser x.2 with (_ | _) | _ | _ | _ <;> rfl

theorem CostFields.plain_free {s : Costs β} {fs : CostFields γ} (hs : ∀ v, s.len v = 0) (h : ∀ v, fs.lenLoop v = 0) (v : β × γ) :
    (CostFields.cons (.plain s) fs).lenLoop v = 0 := by
  rw [CostFields.lenLoop, hs, h]
  rcases s.ser.derContentsLen v.1 with (_ | _) | _ | _ | _ <;> rcases s.ser.idLen v.1 with (_ | _) | _ | _ | _ <;> rfl

theorem CostFields.len_free {fs : CostFields γ} (h : ∀ v, fs.lenLoop v = 0) (v : γ) : fs.len .convs v = 0 := by
  rw [CostFields.len, h]
  split <;> rfl

mutual
/-- `der_contents_len` does not convert. -/
theorem Ty.costs_free (m : Build) : ∀ {α : Type} (t : Ty α) (v : α), (Ty.costs .convs m t).len v = 0
  | _, .bool, _ => rfl
  | _, .int _, _ => rfl
  | _, .string, _ => rfl
  | _, .octetString, _ => rfl
  | _, .vec t, v => (Nat.zero_add _).trans (Costs.eachLen_free (Ty.costs_free m t) m v)
  | _, .linkedList t, v => (Nat.zero_add _).trans (Costs.eachLen_free (Ty.costs_free m t) m v)
  | _, .vecDeque t, v => (Nat.zero_add _).trans (Costs.eachLen_free (Ty.costs_free m t) m v)
  | _, .btreeSet _ _ _ t, v => (Nat.zero_add _).trans (Costs.eachLen_free (Ty.costs_free m t) m v)
  | _, .btreeMap _ _ _ k t, v => (Nat.zero_add _).trans (Costs.btreeMapLen_free (Ty.costs_free m k) (Ty.costs_free m t) m v)
  | _, .hashSet _ t, v => (Nat.zero_add _).trans (Costs.eachLen_free (Ty.costs_free m t) m v)
  | _, .hashMap _ k t, v => (Nat.zero_add _).trans (Costs.hashMapLen_free (Ty.costs_free m k) (Ty.costs_free m t) m v)
  | _, .struct _ fs, v => CostFields.len_free (fun v => (Fields.costs_free m fs v).1) v
  | _, .enum vs, v => Variants.costs_free m vs v
  | _, .transparent fs, v => (Fields.costs_free m fs v).2
  | _, .conv .., _ => rfl
  | _, .named t f _ _ _, v => Ty.costs_free m t (f v)
  | _, .hole, _ => rfl
theorem Fields.costs_free (m : Build) : ∀ {γ : Type} (fs : Fields γ) (v : γ),
    (Fields.costs .convs m fs).lenLoop v = 0 ∧ (Fields.costs .convs m fs).oneLen .convs v = 0
  | _, .nil, _ => ⟨rfl, rfl⟩
  | _, .plain t r, v => ⟨CostFields.plain_free (Ty.costs_free m t) (fun v => (Fields.costs_free m r v).1) v, Ty.costs_free m t v.1⟩
  | _, .skip _ r, v => Fields.costs_free m r v.2
  | _, .skipSer _ r, v => Fields.costs_free m r v.2
  | _, .skipDe t _ r, v => ⟨CostFields.plain_free (Ty.costs_free m t) (fun v => (Fields.costs_free m r v).1) v, Ty.costs_free m t v.1⟩
  | _, .conv .., _ => ⟨rfl, rfl⟩
theorem Variants.costs_free (m : Build) : ∀ {ρ : Type} (vs : Variants ρ) (v : ρ), (Variants.costs .convs m vs).pick (fun fs => fs.len .convs) v = 0
  | _, .cons _ fs _, .inl v => CostFields.len_free (fun v => (Fields.costs_free m fs v).1) v
  | _, .cons _ _ r, .inr v => Variants.costs_free m r v
end

/-- Serializing one value calls exactly so many conversions; the sizes do not fail. -/
structure Costs.Converts (m : Build) (s : Costs α) (v : α) (c : Nat) : Prop where
  len : s.len v = 0
  calls : s.id v + s.contents v = c
  contentsLen : ∃ o, s.ser.derContentsLen v = .ok o
  derLen : ∃ o, Bsn1.derLen m s.ser v = .ok o

section
variable {m : Build}

theorem Costs.Converts.writeDer {s : Costs α} {v : α} {c : Nat} (h : s.Converts m v c) : s.writeDer v = c := by
  obtain ⟨o, e⟩ := h.contentsLen
  have h1 := h.len
  have h2 := h.calls
  rw [Costs.writeDer, e]
  cases o <;> simp only <;> omega

theorem Costs.Converts.toDer {s : Costs α} {v : α} {c : Nat} (h : s.Converts m v c) : s.toDer v = c := h.writeDer

theorem Costs.writeEach_converts {s : Costs α} {c : α → Nat} : ∀ {l : List α}, (∀ x ∈ l, s.Converts m x (c x)) → s.writeEach l = (l.map c).sum
  | [], _ => rfl
  | x :: r, h => by
    rw [List.map_cons, List.sum_cons, Costs.writeEach, (h x (List.mem_cons_self ..)).writeDer,
      Costs.writeEach_converts fun y hy => h y (List.mem_cons_of_mem _ hy)]

theorem Costs.Converts.entry {s : Costs α} {k : α} {c : Nat} (h : s.Converts m k c) : s.entryLen m k + s.writeEntry m k = c := by
  obtain ⟨o, e⟩ := h.derLen
  have h1 := h.writeDer
  have h2 := h.toDer
  rw [Costs.entryLen, Costs.writeEntry, Costs.derLen, e, h.len]
  cases o <;> simp only <;> omega

theorem Costs.writePairs_converts {s : Costs α} {s' : Costs β} {c : α → Nat} {c' : β → Nat} : ∀ {l : List (α × β)},
    (∀ x ∈ l, s.Converts m x.1 (c x.1) ∧ s'.Converts m x.2 (c' x.2)) → s.writePairs m s' l = (l.map fun x => c x.1 + c' x.2).sum
  | [], _ => rfl
  | x :: r, h => by
    obtain ⟨h1, h2⟩ := h x (List.mem_cons_self ..)
    have h3 := Costs.writePairs_converts (l := r) fun y hy => h y (List.mem_cons_of_mem _ hy)
    have h4 := h1.entry
    have h5 := h2.entry
    rw [List.map_cons, List.sum_cons, Costs.writePairs]
    omega
end

theorem Ty.converts_of {m : Build} {t : Ty α} (hs : t.serializable) {v : α} (hok : t.ok v) (hfit : (t.der v).length ≤ isizeMax)
    (h : (Ty.costs .convs m t).id v + (Ty.costs .convs m t).contents v = t.convs v) : (Ty.costs .convs m t).Converts m v (t.convs v) := by
  have hh := Ty.serializes m t hs v hok hfit
  refine ⟨Ty.costs_free m t v, h, ?_, ?_⟩ <;> rw [Ty.costs_ser]
  · rcases hh.contentsLen with e | e <;> exact ⟨_, e⟩
  · rcases derLen_ok m hh hfit with e | e <;> exact ⟨_, e⟩

mutual
theorem Ty.costs_convs (m : Build) : ∀ {α : Type} (t : Ty α), t.serializable → ∀ v : α, t.ok v →
    (t.der v).length ≤ isizeMax → (Ty.costs .convs m t).id v + (Ty.costs .convs m t).contents v = t.convs v
  | _, .bool, _, _, _, _ => rfl
  | _, .int _, _, _, _, _ => rfl
  | _, .string, _, _, _, _ => rfl
  | _, .octetString, _, _, _, _ => rfl
  | _, .vec t, hs, v, hok, hfit => (Nat.zero_add _).trans (Costs.writeEach_converts (m := m) fun x hx =>
      have hf := (length_le_flatMap (f := fun x => tlvOf (t.enc x)) hx).trans (fits_of_der hfit)
      Ty.converts_of (t := t) hs (hok x hx) hf (Ty.costs_convs m t hs x (hok x hx) hf))
  | _, .linkedList t, hs, v, hok, hfit => (Nat.zero_add _).trans (Costs.writeEach_converts (m := m) fun x hx =>
      have hf := (length_le_flatMap (f := fun x => tlvOf (t.enc x)) hx).trans (fits_of_der hfit)
      Ty.converts_of (t := t) hs (hok x hx) hf (Ty.costs_convs m t hs x (hok x hx) hf))
  | _, .vecDeque t, hs, v, hok, hfit => (Nat.zero_add _).trans (Costs.writeEach_converts (m := m) fun x hx =>
      have hf := (length_le_flatMap (f := fun x => tlvOf (t.enc x)) hx).trans (fits_of_der hfit)
      Ty.converts_of (t := t) hs (hok x hx) hf (Ty.costs_convs m t hs x (hok x hx) hf))
  | _, .btreeSet _ _ _ t, hs, v, hok, hfit => (Nat.zero_add _).trans (Costs.writeEach_converts (m := m) fun x hx =>
      have hf := (length_le_flatMap (f := fun x => tlvOf (t.enc x)) hx).trans (fits_of_der hfit)
      Ty.converts_of (t := t) hs (hok.2 x hx) hf (Ty.costs_convs m t hs x (hok.2 x hx) hf))
  | _, .hashSet _ t, hs, v, hok, hfit => (Nat.zero_add _).trans (Costs.writeEach_converts (m := m) fun x hx =>
      have hf := (length_le_flatMap (f := fun x => tlvOf (t.enc x)) hx).trans (fits_of_der hfit)
      Ty.converts_of (t := t) hs (hok.2 x hx) hf (Ty.costs_convs m t hs x (hok.2 x hx) hf))
  | _, .btreeMap _ _ _ k t, hs, v, hok, hfit => (Nat.zero_add _).trans (Costs.writePairs_converts (m := m) fun x hx =>
      have hf := map_fits_mem (f := fun x => tlvOf (k.enc x.1)) (g := fun x => tlvOf (t.enc x.2)) hx (fits_of_der hfit)
      ⟨Ty.converts_of hs.1 (hok.2 x hx).1 hf.1 (Ty.costs_convs m k hs.1 x.1 (hok.2 x hx).1 hf.1),
        Ty.converts_of hs.2 (hok.2 x hx).2 hf.2 (Ty.costs_convs m t hs.2 x.2 (hok.2 x hx).2 hf.2)⟩)
  | _, .hashMap _ k t, hs, v, hok, hfit => (Nat.zero_add _).trans (Costs.writePairs_converts (m := m) fun x hx =>
      have hf := map_fits_mem (f := fun x => tlvOf (k.enc x.1)) (g := fun x => tlvOf (t.enc x.2)) hx (fits_of_der hfit)
      ⟨Ty.converts_of hs.1 (hok.2 x hx).1 hf.1 (Ty.costs_convs m k hs.1 x.1 (hok.2 x hx).1 hf.1),
        Ty.converts_of hs.2.1 (hok.2 x hx).2 hf.2 (Ty.costs_convs m t hs.2.1 x.2 (hok.2 x hx).2 hf.2)⟩)
  | _, .struct _ fs, hs, v, hok, hfit => (Nat.zero_add _).trans (Fields.costs_convs m fs hs.2 v hok (fits_of_der hfit))
  | _, .enum vs, hs, v, hok, hfit => (Nat.zero_add _).trans (Variants.costs_convs m vs hs v hok (fits_of_der hfit))
  | _, .transparent fs, hs, v, hok, hfit => Fields.costs_convsOne m fs hs.2 v hok hs.1 hfit
  | _, .conv t f _, hs, v, hok, hfit => by
      have h := Ty.costs_convs m t hs (f v) hok hfit
      show (1 + (Ty.costs .convs m t).id (f v)) + (1 + (Ty.costs .convs m t).contents (f v)) = 2 + t.convs (f v)
      omega
  | _, .named t f _ _ _, hs, v, hok, hfit => Ty.costs_convs m t hs (f v) hok hfit
  | _, .hole, _, _, hok, _ => hok.elim
theorem Fields.costs_convs (m : Build) : ∀ {γ : Type} (fs : Fields γ), fs.serializable → ∀ v : γ, fs.ok v →
    (fs.enc v).length ≤ isizeMax → (Fields.costs .convs m fs).write .convs v = fs.convs v
  | _, .nil, _, _, _, _ => rfl
  | _, .plain t r, hs, v, hok, hfit => by
      simp only [Fields.enc, List.length_append] at hfit
      have hf : (t.der v.1).length ≤ isizeMax := by rw [Ty.der]; omega
      have h1 := (Ty.converts_of hs.1 hok.1 hf (Ty.costs_convs m t hs.1 v.1 hok.1 hf)).writeDer
      have h2 := Fields.costs_convs m r hs.2 v.2 hok.2 (by omega)
      show (Ty.costs .convs m t).writeDer v.1 + (Fields.costs .convs m r).write .convs v.2 = _
      rw [h1, h2]
      rfl
  | _, .skip _ r, hs, v, hok, hfit => Fields.costs_convs m r hs v.2 hok hfit
  | _, .skipSer _ r, hs, v, hok, hfit => Fields.costs_convs m r hs v.2 hok hfit
  | _, .skipDe t _ r, hs, v, hok, hfit => by
      simp only [Fields.enc, List.length_append] at hfit
      have hf : (t.der v.1).length ≤ isizeMax := by rw [Ty.der]; omega
      have h1 := (Ty.converts_of hs.1 hok.1 hf (Ty.costs_convs m t hs.1 v.1 hok.1 hf)).writeDer
      have h2 := Fields.costs_convs m r hs.2 v.2 hok.2 (by omega)
      show (Ty.costs .convs m t).writeDer v.1 + (Fields.costs .convs m r).write .convs v.2 = _
      rw [h1, h2]
      rfl
  | _, .conv t f _ r, hs, v, hok, hfit => by
      simp only [Fields.enc, List.length_append] at hfit
      have hf : (t.der (f v.1)).length ≤ isizeMax := by rw [Ty.der]; omega
      have h1 := (Ty.converts_of hs.1 hok.1 hf (Ty.costs_convs m t hs.1 (f v.1) hok.1 hf)).writeDer
      have h2 := Fields.costs_convs m r hs.2 v.2 hok.2 (by omega)
      show 1 + (Ty.costs .convs m t).writeDer (f v.1) + (Fields.costs .convs m r).write .convs v.2 = _
      rw [h1, h2]
      rfl
theorem Fields.costs_convsOne (m : Build) : ∀ {γ : Type} (fs : Fields γ), fs.serializable → ∀ v : γ, fs.ok v → fs.serCount = 1 →
    (tlvOf (fs.encOne v)).length ≤ isizeMax →
    (Fields.costs .convs m fs).oneId .convs v + (Fields.costs .convs m fs).oneContents .convs v = fs.convsOne v
  | _, .nil, _, _, _, hn, _ => by cases hn
  | _, .plain t r, hs, v, hok, _, hfit => Ty.costs_convs m t hs.1 v.1 hok.1 hfit
  | _, .skip _ r, hs, v, hok, hn, hfit => Fields.costs_convsOne m r hs v.2 hok hn hfit
  | _, .skipSer _ r, hs, v, hok, hn, hfit => Fields.costs_convsOne m r hs v.2 hok hn hfit
  | _, .skipDe t _ r, hs, v, hok, _, hfit => Ty.costs_convs m t hs.1 v.1 hok.1 hfit
  | _, .conv t f _ r, hs, v, hok, _, hfit => by
      have h := Ty.costs_convs m t hs.1 (f v.1) hok.1 hfit
      show (1 + (Ty.costs .convs m t).id (f v.1)) + (1 + (Ty.costs .convs m t).contents (f v.1)) = 2 + t.convs (f v.1)
      omega
theorem Variants.costs_convs (m : Build) : ∀ {ρ : Type} (vs : Variants ρ), vs.serializable → ∀ v : ρ, vs.ok v →
    (vs.enc v).2.length ≤ isizeMax → (Variants.costs .convs m vs).pick (fun fs => fs.write .convs) v = vs.convs v
  | _, .cons _ fs _, hs, .inl v, hok, hfit => Fields.costs_convs m fs hs.2.1 v hok hfit
  | _, .cons _ _ r, hs, .inr v, hok, hfit => Variants.costs_convs m r hs.2.2 v hok hfit
end

/-! ### Depths -/

theorem sum_map_mul (c : Nat) (f : α → Nat) : ∀ l : List α, (l.map fun x => c * f x).sum = c * (l.map f).sum
  | [] => rfl
  | x :: r => by rw [List.map_cons, List.map_cons, List.sum_cons, List.sum_cons, sum_map_mul c f r, Nat.mul_add]

theorem depths_around {k p d : Nat} (h : d ≤ (k + 2) * p) : 1 + d ≤ (k + 1 + 1) * (1 + p) := by
  rw [Nat.mul_add, show k + 1 + 1 = k + 2 by omega]
  omega

theorem depths_coll {k : Nat} {p d : α → Nat} (h : ∀ v, d v ≤ (k + 1) * p v) (l : List α) :
    1 + (l.map fun x => d x + p x).sum ≤ (k + 1 + 1) * (1 + (l.map p).sum) := by
  refine depths_around ?_
  rw [← sum_map_mul]
  refine sum_map_le fun x _ => ?_
  have := h x
  rw [show k + 2 = k + 1 + 1 by omega, Nat.add_mul (k + 1) 1]
  omega

theorem depths_map {k k' : Nat} {p d : α → Nat} {p' d' : β → Nat} (h : ∀ v, d v ≤ (k + 1) * p v) (h' : ∀ v, d' v ≤ (k' + 1) * p' v)
    (l : List (α × β)) : 1 + (l.map fun x => (d x.1 + 2 * p x.1) + (d' x.2 + 2 * p' x.2)).sum ≤
      (max k k' + 2 + 1) * (1 + (l.map fun x => p x.1 + p' x.2).sum) := by
  refine depths_around (k := max k k' + 1) ?_
  rw [← sum_map_mul]
  refine sum_map_le fun x _ => ?_
  have h1 := (h x.1).trans (Nat.mul_le_mul_right (p x.1) (show k + 1 ≤ max k k' + 1 by omega))
  have h2 := (h' x.2).trans (Nat.mul_le_mul_right (p' x.2) (show k' + 1 ≤ max k k' + 1 by omega))
  rw [show max k k' + 1 + 2 = (max k k' + 1) + 2 by omega, Nat.add_mul (max k k' + 1) 2, Nat.mul_add, Nat.mul_add]
  omega

theorem depths_field {k k' p d q e : Nat} (h : d ≤ (k + 1) * p) (h' : e ≤ (k' + 2) * q) :
    (d + p) + e ≤ (max k k' + 2) * (p + q) ∧ d ≤ (max k k' + 1) * p := by
  have h1 := h.trans (Nat.mul_le_mul_right p (show k + 1 ≤ max k k' + 1 by omega))
  have h2 := h'.trans (Nat.mul_le_mul_right q (show k' + 2 ≤ max k k' + 2 by omega))
  refine ⟨?_, h1⟩
  rw [show max k k' + 2 = (max k k' + 1) + 1 by omega] at h2 ⊢
  rw [Nat.mul_add, Nat.add_mul (max k k' + 1) 1 p]
  omega

mutual
theorem Spec.Ty.depths_levels : ∀ {α : Type} (t : Ty α) (v : α), t.depths v ≤ (t.levels + 1) * t.parts v
  | _, .bool, _ => Nat.le_refl _
  | _, .int _, _ => Nat.le_refl _
  | _, .string, _ => Nat.le_refl _
  | _, .octetString, _ => Nat.le_refl _
  | _, .vec t, v => depths_coll (t.depths_levels) v
  | _, .linkedList t, v => depths_coll (t.depths_levels) v
  | _, .vecDeque t, v => depths_coll (t.depths_levels) v
  | _, .btreeSet _ _ _ t, v => depths_coll (t.depths_levels) v
  | _, .btreeMap _ _ _ k t, v => depths_map (k.depths_levels) (t.depths_levels) v
  | _, .hashSet _ t, v => depths_coll (t.depths_levels) v
  | _, .hashMap _ k t, v => depths_map (k.depths_levels) (t.depths_levels) v
  | _, .struct _ fs, v => depths_around (fs.depths_levels v).1
  | _, .enum vs, v => depths_around (vs.depths_levels v)
  | _, .transparent fs, v => (fs.depths_levels v).2.trans (Nat.mul_le_mul_right _ (by show fs.levels + 1 ≤ fs.levels + 1 + 1; omega))
  | _, .conv t f _, v => t.depths_levels (f v)
  | _, .named t f _ _ _, v => t.depths_levels (f v)
  | _, .hole, _ => Nat.le_refl _
theorem Spec.Fields.depths_levels : ∀ {γ : Type} (fs : Fields γ) (v : γ),
    fs.depths v ≤ (fs.levels + 2) * fs.parts v ∧ fs.depthsOne v ≤ (fs.levels + 1) * fs.partsOne v
  | _, .nil, _ => ⟨Nat.le_refl _, Nat.le_refl _⟩
  | _, .plain t r, v => depths_field (t.depths_levels v.1) (r.depths_levels v.2).1
  | _, .skip _ r, v => r.depths_levels v.2
  | _, .skipSer t r, v => ⟨(r.depths_levels v.2).1.trans (Nat.mul_le_mul_right _ (by show r.levels + 2 ≤ max t.levels r.levels + 2; omega)),
      (r.depths_levels v.2).2.trans (Nat.mul_le_mul_right _ (by show r.levels + 1 ≤ max t.levels r.levels + 1; omega))⟩
  | _, .skipDe t _ r, v => depths_field (t.depths_levels v.1) (r.depths_levels v.2).1
  | _, .conv t f _ r, v => depths_field (t.depths_levels (f v.1)) (r.depths_levels v.2).1
theorem Spec.Variants.depths_levels : ∀ {ρ : Type} (vs : Variants ρ) (v : ρ), vs.depths v ≤ (vs.levels + 2) * vs.parts v
  | _, .cons _ fs r, .inl v => (fs.depths_levels v).1.trans (Nat.mul_le_mul_right _ (by show fs.levels + 2 ≤ max fs.levels r.levels + 2; omega))
  | _, .cons _ fs r, .inr v => (r.depths_levels v).trans (Nat.mul_le_mul_right _ (by show r.levels + 2 ≤ max fs.levels r.levels + 2; omega))
end

theorem sum_map_sq (f : α → Nat) : ∀ l : List α, (l.map fun x => f x * f x).sum ≤ (l.map f).sum * (l.map f).sum
  | [] => Nat.le_refl _
  | x :: r => by
    have h := sum_map_sq f r
    rw [List.map_cons, List.map_cons, List.sum_cons, List.sum_cons, Nat.add_mul, Nat.mul_add, Nat.mul_add]
    omega

theorem square_around {p d : Nat} (h : d ≤ p * p + 2 * p) : 1 + d ≤ (1 + p) * (1 + p) := by
  rw [Nat.add_mul, Nat.mul_add, Nat.mul_add]
  omega

theorem square_coll {p d : α → Nat} (h : ∀ v, d v ≤ p v * p v) (l : List α) :
    1 + (l.map fun x => d x + p x).sum ≤ (1 + (l.map p).sum) * (1 + (l.map p).sum) := by
  refine square_around ?_
  have h1 := sum_map_le (l := l) fun x _ => h x
  have h2 := sum_map_sq p l
  rw [sum_map_add]
  omega

theorem square_map {p d : α → Nat} {p' d' : β → Nat} (h : ∀ v, d v ≤ p v * p v) (h' : ∀ v, d' v ≤ p' v * p' v) (l : List (α × β)) :
    1 + (l.map fun x => (d x.1 + 2 * p x.1) + (d' x.2 + 2 * p' x.2)).sum ≤
      (1 + (l.map fun x => p x.1 + p' x.2).sum) * (1 + (l.map fun x => p x.1 + p' x.2).sum) := by
  refine square_around ?_
  have h2 := sum_map_sq (fun x : α × β => p x.1 + p' x.2) l
  have e : (l.map fun x => (d x.1 + 2 * p x.1) + (d' x.2 + 2 * p' x.2)).sum ≤
      (l.map fun x => (p x.1 + p' x.2) * (p x.1 + p' x.2) + 2 * (p x.1 + p' x.2)).sum := sum_map_le fun x _ => by
    have h3 := h x.1
    have h4 := h' x.2
    rw [Nat.add_mul, Nat.mul_add, Nat.mul_add]
    omega
  rw [sum_map_add (fun x : α × β => (p x.1 + p' x.2) * (p x.1 + p' x.2)), sum_map_mul] at e
  omega

theorem square_field {p d q e : Nat} (h : d ≤ p * p) (h' : e ≤ q * q + q) : (d + p) + e ≤ (p + q) * (p + q) + (p + q) := by
  rw [Nat.add_mul, Nat.mul_add, Nat.mul_add]
  omega

mutual
theorem Spec.Ty.depths_square : ∀ {α : Type} (t : Ty α) (v : α), t.depths v ≤ t.parts v * t.parts v
  | _, .bool, _ => Nat.le_refl _
  | _, .int _, _ => Nat.le_refl _
  | _, .string, _ => Nat.le_refl _
  | _, .octetString, _ => Nat.le_refl _
  | _, .vec t, v => square_coll (t.depths_square) v
  | _, .linkedList t, v => square_coll (t.depths_square) v
  | _, .vecDeque t, v => square_coll (t.depths_square) v
  | _, .btreeSet _ _ _ t, v => square_coll (t.depths_square) v
  | _, .btreeMap _ _ _ k t, v => square_map (k.depths_square) (t.depths_square) v
  | _, .hashSet _ t, v => square_coll (t.depths_square) v
  | _, .hashMap _ k t, v => square_map (k.depths_square) (t.depths_square) v
  | _, .struct _ fs, v => square_around (by have := (fs.depths_square v).1; omega)
  | _, .enum vs, v => square_around (by have := vs.depths_square v; omega)
  | _, .transparent fs, v => (fs.depths_square v).2
  | _, .conv t f _, v => t.depths_square (f v)
  | _, .named t f _ _ _, v => t.depths_square (f v)
  | _, .hole, _ => Nat.le_refl _
theorem Spec.Fields.depths_square : ∀ {γ : Type} (fs : Fields γ) (v : γ),
    fs.depths v ≤ fs.parts v * fs.parts v + fs.parts v ∧ fs.depthsOne v ≤ fs.partsOne v * fs.partsOne v
  | _, .nil, _ => ⟨Nat.le_refl _, Nat.le_refl _⟩
  | _, .plain t r, v => ⟨square_field (t.depths_square v.1) (r.depths_square v.2).1, t.depths_square v.1⟩
  | _, .skip _ r, v => r.depths_square v.2
  | _, .skipSer _ r, v => r.depths_square v.2
  | _, .skipDe t _ r, v => ⟨square_field (t.depths_square v.1) (r.depths_square v.2).1, t.depths_square v.1⟩
  | _, .conv t f _ r, v => ⟨square_field (t.depths_square (f v.1)) (r.depths_square v.2).1, t.depths_square (f v.1)⟩
theorem Spec.Variants.depths_square : ∀ {ρ : Type} (vs : Variants ρ) (v : ρ), vs.depths v ≤ vs.parts v * vs.parts v + vs.parts v
  | _, .cons _ fs _, .inl v => (fs.depths_square v).1
  | _, .cons _ _ r, .inr v => r.depths_square v
end

/-! ### The values and the octets -/

theorem lenOctets_pos (n : Nat) : 1 ≤ (lenOctets n).length := by
  rw [lenOctets]
  split <;> simp

theorem parts_tlv {id c : List UInt8} {p : Nat} (hid : 1 ≤ id.length) (h : 2 * p ≤ c.length) : 2 * (1 + p) ≤ (tlv id c).length := by
  have := lenOctets_pos c.length
  rw [tlv_length]
  omega

theorem parts_coll {p : α → Nat} {enc : α → List UInt8 × List UInt8} (l : List α) (h : ∀ x ∈ l, 2 * p x ≤ (tlvOf (enc x)).length) :
    2 * (l.map p).sum ≤ (l.flatMap fun x => tlvOf (enc x)).length := by
  rw [← sum_map_mul, List.length_flatMap]
  exact sum_map_le h

theorem parts_map {p : α → Nat} {p' : β → Nat} {f g : α × β → List UInt8} (l : List (α × β))
    (h : ∀ x ∈ l, 2 * p x.1 ≤ (f x).length ∧ 2 * p' x.2 ≤ (g x).length) :
    2 * (l.map fun x => p x.1 + p' x.2).sum ≤ (l.flatMap fun x => pairOctets (f x) (g x)).length := by
  rw [← sum_map_mul, List.length_flatMap]
  refine sum_map_le fun x hx => ?_
  obtain ⟨h1, h2⟩ := h x hx
  rw [pairOctets, tlv_length, List.length_append]
  omega

mutual
/-- Every value takes two octets at least. -/
theorem Spec.Ty.parts_octets : ∀ {α : Type} (t : Ty α), t.serializable → ∀ v : α, 2 * t.parts v ≤ (tlvOf (t.enc v)).length
  | _, .bool, _, _ => parts_tlv (p := 0) (Nat.le_refl _) (Nat.zero_le _)
  | _, .int _, _, _ => parts_tlv (p := 0) (Nat.le_refl _) (Nat.zero_le _)
  | _, .string, _, _ => parts_tlv (p := 0) (Nat.le_refl _) (Nat.zero_le _)
  | _, .octetString, _, _ => parts_tlv (p := 0) (Nat.le_refl _) (Nat.zero_le _)
  | _, .vec t, hs, v => parts_tlv (Nat.le_refl _) (parts_coll v fun x _ => t.parts_octets hs x)
  | _, .linkedList t, hs, v => parts_tlv (Nat.le_refl _) (parts_coll v fun x _ => t.parts_octets hs x)
  | _, .vecDeque t, hs, v => parts_tlv (Nat.le_refl _) (parts_coll v fun x _ => t.parts_octets hs x)
  | _, .btreeSet _ _ _ t, hs, v => parts_tlv (Nat.le_refl _) (parts_coll v fun x _ => t.parts_octets hs x)
  | _, .btreeMap _ _ _ k t, hs, v => parts_tlv (Nat.le_refl _) (parts_map v fun x _ => ⟨k.parts_octets hs.1 x.1, t.parts_octets hs.2 x.2⟩)
  | _, .hashSet _ t, hs, v => parts_tlv (Nat.le_refl _) (parts_coll v fun x _ => t.parts_octets hs x)
  | _, .hashMap _ k t, hs, v => parts_tlv (Nat.le_refl _) (parts_map v fun x _ => ⟨k.parts_octets hs.1 x.1, t.parts_octets hs.2.1 x.2⟩)
  | _, .struct _ fs, hs, v => parts_tlv (List.length_pos_iff.mpr (IsId.ne_nil hs.1)) (fs.parts_octets hs.2 v)
  | _, .enum vs, hs, v => parts_tlv (vs.parts_octets hs v).1 (vs.parts_octets hs v).2
  | _, .transparent fs, hs, v => fs.partsOne_octets hs.2 v hs.1
  | _, .conv t f _, hs, v => t.parts_octets hs (f v)
  | _, .named t f _ _ _, hs, v => t.parts_octets hs (f v)
  | _, .hole, _, _ => parts_tlv (p := 0) (Nat.le_refl _) (Nat.zero_le _)
theorem Spec.Fields.parts_octets : ∀ {γ : Type} (fs : Fields γ), fs.serializable → ∀ v : γ, 2 * fs.parts v ≤ (fs.enc v).length
  | _, .nil, _, _ => Nat.le_refl _
  | _, .plain t r, hs, v => by
      have h1 := t.parts_octets hs.1 v.1
      have h2 := r.parts_octets hs.2 v.2
      rw [Fields.parts, Fields.enc, List.length_append]
      omega
  | _, .skip _ r, hs, v => r.parts_octets hs v.2
  | _, .skipSer _ r, hs, v => r.parts_octets hs v.2
  | _, .skipDe t _ r, hs, v => by
      have h1 := t.parts_octets hs.1 v.1
      have h2 := r.parts_octets hs.2 v.2
      rw [Fields.parts, Fields.enc, List.length_append]
      omega
  | _, .conv t f _ r, hs, v => by
      have h1 := t.parts_octets hs.1 (f v.1)
      have h2 := r.parts_octets hs.2 v.2
      rw [Fields.parts, Fields.enc, List.length_append]
      omega
theorem Spec.Fields.partsOne_octets : ∀ {γ : Type} (fs : Fields γ), fs.serializable → ∀ v : γ, fs.serCount = 1 →
    2 * fs.partsOne v ≤ (tlvOf (fs.encOne v)).length
  | _, .nil, _, _, hn => by cases hn
  | _, .plain t _, hs, v, _ => t.parts_octets hs.1 v.1
  | _, .skip _ r, hs, v, hn => r.partsOne_octets hs v.2 hn
  | _, .skipSer _ r, hs, v, hn => r.partsOne_octets hs v.2 hn
  | _, .skipDe t _ _, hs, v, _ => t.parts_octets hs.1 v.1
  | _, .conv t f _ _, hs, v, _ => t.parts_octets hs.1 (f v.1)
theorem Spec.Variants.parts_octets : ∀ {ρ : Type} (vs : Variants ρ), vs.serializable → ∀ v : ρ,
    1 ≤ (vs.enc v).1.length ∧ 2 * vs.parts v ≤ (vs.enc v).2.length
  | _, .cons _ fs _, hs, .inl v => ⟨List.length_pos_iff.mpr (IsId.ne_nil hs.1), fs.parts_octets hs.2.1 v⟩
  | _, .cons _ _ r, hs, .inr v => r.parts_octets hs.2.2 v
end

end Bsn1
