import Verif.Model.Work
import Verif.Lemmas.Rec
/-!
# The counted decoders compute what the decoders compute
-/

namespace Bsn1
open Spec

namespace Work
variable {α β γ : Type}

theorem bind_res (x : Work α) (f : α → Work β) : (x >>= f).res = x.res.bind fun a => (f a).res := by
  show (Work.bind x f).res = _
  unfold Work.bind
  cases x.res <;> rfl

theorem pure_res (a : α) : (pure a : Work α).res = .ok a := rfl

theorem ite_res {c : Prop} [Decidable c] (x y : Work α) : (if c then x else y).res = if c then x.res else y.res := by
  split <;> rfl

end Work

/-- The counted decoder computes the same. -/
def WDe.Same {α : Type} (w : WDe α) (d : De α) : Prop :=
  (∀ id l c, (w.fromBer id l c).res = d.fromBer id l c) ∧ ∀ id c, (w.fromDer id c).res = d.fromDer id c

variable {α β γ δ ρ : Type}

theorem WDe.Same.derToVal {w : WDe α} {d : De α} (h : w.Same d) (c : Bytes) : (w.derToVal c).res = Bsn1.derToVal d c := by
  rw [WDe.derToVal, Bsn1.derToVal, Work.ite_res]
  refine if_congr Iff.rfl rfl ?_
  rw [Work.bind_res]
  refine congrArg (Res.bind _) (funext fun der => ?_)
  rw [Work.bind_res]
  refine congrArg (Res.bind _) (funext fun x => ?_)
  rw [Work.bind_res]
  exact congrArg (fun r => Res.bind (mapErrContext r) _) (h.2 _ _)

theorem WDe.Same.berToVal {w : WDe α} {d : De α} (h : w.Same d) (c : Bytes) : (w.berToVal c).res = Bsn1.berToVal d c := by
  rw [WDe.berToVal, Bsn1.berToVal, Work.ite_res]
  refine if_congr Iff.rfl rfl ?_
  rw [Work.bind_res]
  refine congrArg (Res.bind _) (funext fun der => ?_)
  rw [Work.bind_res]
  refine congrArg (Res.bind _) (funext fun x => ?_)
  rw [Work.bind_res]
  exact congrArg (fun r => Res.bind (mapErrContext r) _) (h.1 _ _ _)

theorem WDe.Same.derToKeyVal {w : WDe α} {d : De α} {w' : WDe β} {d' : De β} (h : w.Same d) (h' : w'.Same d') (c : Bytes) :
    (w.derToKeyVal w' c).res = Bsn1.derToKeyVal d d' c := by
  rw [WDe.derToKeyVal, Bsn1.derToKeyVal, Work.ite_res]
  refine if_congr Iff.rfl rfl ?_
  rw [Work.bind_res]
  refine congrArg (Res.bind _) (funext fun pair => ?_)
  rw [Work.bind_res]
  refine congrArg (Res.bind _) (funext fun pairId => ?_)
  rw [Work.ite_res]
  refine if_congr Iff.rfl rfl ?_
  rw [Work.bind_res]
  refine congrArg (Res.bind _) (funext fun pc => ?_)
  rw [Work.bind_res]
  refine congrArg (Res.bind _) (funext fun key => ?_)
  rw [Work.bind_res]
  refine congrArg (Res.bind _) (funext fun val => ?_)
  rw [Work.ite_res]
  refine if_congr Iff.rfl ?_ rfl
  rw [Work.bind_res]
  refine congrArg (Res.bind _) (funext fun x => ?_)
  rw [Work.bind_res]
  refine (congrArg (fun r => Res.bind (mapErrContext r) _) (h.2 _ _)).trans ?_
  refine congrArg (Res.bind _) (funext fun k => ?_)
  rw [Work.bind_res]
  refine congrArg (Res.bind _) (funext fun y => ?_)
  rw [Work.bind_res]
  exact congrArg (fun r => Res.bind (mapErrContext r) _) (h'.2 _ _)

theorem WDe.Same.berToKeyVal {w : WDe α} {d : De α} {w' : WDe β} {d' : De β} (h : w.Same d) (h' : w'.Same d') (c : Bytes) :
    (w.berToKeyVal w' c).res = Bsn1.berToKeyVal d d' c := by
  rw [WDe.berToKeyVal, Bsn1.berToKeyVal, Work.ite_res]
  refine if_congr Iff.rfl rfl ?_
  rw [Work.bind_res]
  refine congrArg (Res.bind _) (funext fun pair => ?_)
  rw [Work.bind_res]
  refine congrArg (Res.bind _) (funext fun pairId => ?_)
  rw [Work.ite_res]
  refine if_congr Iff.rfl rfl ?_
  rw [Work.bind_res]
  refine congrArg (Res.bind _) (funext fun pc => ?_)
  rw [Work.bind_res]
  refine congrArg (Res.bind _) (funext fun key => ?_)
  rw [Work.bind_res]
  refine congrArg (Res.bind _) (funext fun val => ?_)
  rw [Work.ite_res]
  refine if_congr Iff.rfl ?_ rfl
  rw [Work.bind_res]
  refine congrArg (Res.bind _) (funext fun x => ?_)
  rw [Work.bind_res]
  refine (congrArg (fun r => Res.bind (mapErrContext r) _) (h.1 _ _ _)).trans ?_
  refine congrArg (Res.bind _) (funext fun k => ?_)
  rw [Work.bind_res]
  refine congrArg (Res.bind _) (funext fun y => ?_)
  rw [Work.bind_res]
  exact congrArg (fun r => Res.bind (mapErrContext r) _) (h'.1 _ _ _)

theorem Work.collect_res {next : Bytes → Work (Option (α × Bytes))} {next' : Bytes → Res (Option (α × Bytes))}
    (h : ∀ c, (next c).res = next' c) (insert : γ → α → γ) (c : Bytes) (ret : γ) :
    (Work.collect next insert c ret).res = Bsn1.collect next' insert c ret := by
  rw [Work.collect, Bsn1.collect]
  generalize c.length + 1 = f
  induction f generalizing c ret with
  | zero => rfl
  | succ f ih =>
    rw [Work.collectLoop, Bsn1.collectLoop, Work.bind_res, h]
    refine congrArg (Res.bind _) (funext fun x => ?_)
    cases x with
    | none => rfl
    | some x => exact ih _ _

theorem Res.bind_pure (x : Res α) : (x.bind fun a => .ok a) = x := by cases x <;> rfl

theorem WDe.same_coll {m : Build} {seq : Bytes} {nb nd : Bytes → Work (Option (α × Bytes))} {nb' nd' : Bytes → Res (Option (α × Bytes))}
    (hb : ∀ c, (nb c).res = nb' c) (hd : ∀ c, (nd c).res = nd' c) (insert : List β → α → List β) (order : List β → List β) :
    (WDe.coll m seq nb nd insert order).Same
      ⟨fun id l c => if id ≠ seq then .err .unmatchedId else (excludeEoc m l c).bind fun c =>
          (Bsn1.collect nb' insert c []).bind fun ret => .ok (order ret),
        fun id c => if id ≠ seq then .err .unmatchedId else (Bsn1.collect nd' insert c []).bind fun ret => .ok (order ret)⟩ := by
  constructor
  · intro id l c
    rw [WDe.coll, Work.ite_res]
    refine if_congr Iff.rfl rfl ?_
    rw [Work.bind_res]
    refine congrArg (Res.bind _) (funext fun c => ?_)
    rw [Work.bind_res, Work.collect_res hb]
    rfl
  · intro id c
    rw [WDe.coll, Work.ite_res]
    refine if_congr Iff.rfl rfl ?_
    rw [Work.bind_res, Work.collect_res hd]
    rfl

theorem WDe.same_coll_id {m : Build} {seq : Bytes} {nb nd : Bytes → Work (Option (α × Bytes))} {nb' nd' : Bytes → Res (Option (α × Bytes))}
    (hb : ∀ c, (nb c).res = nb' c) (hd : ∀ c, (nd c).res = nd' c) (insert : List β → α → List β) :
    (WDe.coll m seq nb nd insert fun l => l).Same
      ⟨fun id l c => if id ≠ seq then .err .unmatchedId else (excludeEoc m l c).bind fun c => Bsn1.collect nb' insert c [],
        fun id c => if id ≠ seq then .err .unmatchedId else Bsn1.collect nd' insert c []⟩ := by
  have h := WDe.same_coll (m := m) (seq := seq) hb hd insert fun l => l
  simp only [Res.bind_pure] at h
  exact h

theorem WDe.Same.derTmpVal {w : WDe α} {d : De α} (h : w.Same d) (c : Bytes) : (w.derTmpVal c).res = Bsn1.derTmpVal d c := by
  rw [WDe.derTmpVal, Bsn1.derTmpVal, Work.bind_res]
  refine congrArg (Res.bind _) (funext fun der => ?_)
  rw [Work.bind_res]
  refine congrArg (Res.bind _) (funext fun x => ?_)
  rw [Work.bind_res]
  exact congrArg (fun r => Res.bind (mapErrContext r) _) (h.2 _ _)

theorem WDe.Same.berTmpVal {w : WDe α} {d : De α} (h : w.Same d) (c : Bytes) : (w.berTmpVal c).res = Bsn1.berTmpVal d c := by
  rw [WDe.berTmpVal, Bsn1.berTmpVal, Work.bind_res]
  refine congrArg (Res.bind _) (funext fun der => ?_)
  rw [Work.bind_res]
  refine congrArg (Res.bind _) (funext fun x => ?_)
  rw [Work.bind_res]
  exact congrArg (fun r => Res.bind (mapErrContext r) _) (h.1 _ _ _)

/-- The counted decoder of a field computes the same. -/
inductive WField.Same : {β : Type} → WField β → DeField β → Prop
  | skip {β : Type} (d : β) : WField.Same (.skip d) (.skip d)
  | plain {β : Type} {w : WDe β} {d : De β} : w.Same d → WField.Same (.plain w) (.plain d)
  | from_ {β δ : Type} {w : WDe δ} {d : De δ} (f : δ → β) : w.Same d → WField.Same (.from_ w f) (.from_ d f)
  | tryFrom {β δ : Type} {w : WDe δ} {d : De δ} (f : δ → Except Chain β) : w.Same d → WField.Same (.tryFrom w f) (.tryFrom d f)

inductive WFields.Same : {γ : Type} → WFields γ → DeFields γ → Prop
  | nil : WFields.Same .nil .nil
  | cons {β γ : Type} {f : WField β} {f' : DeField β} {r : WFields γ} {r' : DeFields γ} : f.Same f' → WFields.Same r r' →
      WFields.Same (.cons f r) (.cons f' r')

inductive WVariants.Same : {ρ : Type} → WVariants ρ → DeVariants ρ → Prop
  | nil : WVariants.Same .nil .nil
  | cons {γ ρ : Type} (id : Bytes) {f : WFields γ} {f' : DeFields γ} {r : WVariants ρ} {r' : DeVariants ρ} : f.Same f' →
      WVariants.Same r r' → WVariants.Same (.cons id f r) (.cons id f' r')

theorem WField.Same.res {tmp : {δ : Type} → WDe δ → Bytes → Work (δ × Bytes)} {tmp' : {δ : Type} → De δ → Bytes → Res (δ × Bytes)}
    (ht : ∀ {δ : Type} (w : WDe δ) (d : De δ) (c : Bytes), w.Same d → (tmp w c).res = tmp' d c)
    {f : WField β} {f' : DeField β} (h : f.Same f') (c : Bytes) : (Work.field tmp f c).res = deField tmp' f' c := by
  cases h with
  | skip d => rfl
  | plain h => exact ht _ _ _ h
  | from_ f h =>
    rw [Work.field, deField, Work.bind_res, ht _ _ _ h]
    rfl
  | tryFrom f h =>
    rw [Work.field, deField, Work.bind_res, ht _ _ _ h]
    refine congrArg (Res.bind _) (funext fun x => ?_)
    rw [Work.bind_res]
    rfl

theorem WFields.Same.res {tmp : {δ : Type} → WDe δ → Bytes → Work (δ × Bytes)} {tmp' : {δ : Type} → De δ → Bytes → Res (δ × Bytes)}
    (ht : ∀ {δ : Type} (w : WDe δ) (d : De δ) (c : Bytes), w.Same d → (tmp w c).res = tmp' d c) :
    {γ : Type} → {f : WFields γ} → {f' : DeFields γ} → f.Same f' → ∀ c, (Work.fields tmp f c).res = deFields tmp' f' c
  | _, _, _, .nil, _ => rfl
  | _, _, _, .cons h hr, c => by
    rw [Work.fields, deFields, Work.bind_res, h.res ht]
    refine congrArg (Res.bind _) (funext fun x => ?_)
    rw [Work.bind_res, WFields.Same.res ht hr]
    rfl

theorem WFields.Same.der {f : WFields γ} {f' : DeFields γ} (h : f.Same f') (c : Bytes) :
    (Work.fromDerContents f c).res = fromDerContents f' c := by
  rw [Work.fromDerContents, fromDerContents, Work.bind_res, h.res (tmp' := Bsn1.derTmpVal) fun w d c h => h.derTmpVal c]
  rfl

theorem WFields.Same.ber {f : WFields γ} {f' : DeFields γ} (h : f.Same f') (m : Build) (l : Length) (c : Bytes) :
    (Work.fromBerContents m f l c).res = fromBerContents m f' l c := by
  rw [Work.fromBerContents, fromBerContents, Work.bind_res]
  refine congrArg (Res.bind _) (funext fun x => ?_)
  rw [Work.bind_res, h.res (tmp' := Bsn1.berTmpVal) fun w d c h => h.berTmpVal c]
  rfl

theorem WField.Same.transparent {tmp : {δ : Type} → WDe δ → Work δ} {tmp' : {δ : Type} → De δ → Res δ}
    (ht : ∀ {δ : Type} (w : WDe δ) (d : De δ), w.Same d → (tmp w).res = tmp' d) {f : WField β} {f' : DeField β} (h : f.Same f') :
    (Work.fieldTransparent tmp f).res = deFieldTransparent tmp' f' := by
  cases h with
  | skip d => rfl
  | plain h => exact congrArg mapErrContext (ht _ _ h)
  | from_ f h =>
    rw [Work.fieldTransparent, deFieldTransparent, Work.bind_res, Work.context, ht _ _ h]
    rfl
  | tryFrom f h =>
    rw [Work.fieldTransparent, deFieldTransparent, Work.bind_res, Work.context, ht _ _ h]
    rfl

theorem WFields.Same.transparent {tmp : {δ : Type} → WDe δ → Work δ} {tmp' : {δ : Type} → De δ → Res δ}
    (ht : ∀ {δ : Type} (w : WDe δ) (d : De δ), w.Same d → (tmp w).res = tmp' d) :
    {γ : Type} → {f : WFields γ} → {f' : DeFields γ} → f.Same f' → (Work.fieldsTransparent tmp f).res = deFieldsTransparent tmp' f'
  | _, _, _, .nil => rfl
  | _, _, _, .cons h hr => by
    rw [Work.fieldsTransparent, deFieldsTransparent, Work.bind_res, h.transparent ht]
    refine congrArg (Res.bind _) (funext fun x => ?_)
    rw [Work.bind_res, WFields.Same.transparent ht hr]
    rfl

theorem WFields.Same.count : {γ : Type} → {f : WFields γ} → {f' : DeFields γ} → f.Same f' → f.deserialized = deserializedFields f'
  | _, _, _, .nil => rfl
  | _, _, _, .cons (.skip _) r => r.count
  | _, _, _, .cons (.plain _) r => congrArg (· + 1) r.count
  | _, _, _, .cons (.from_ _ _) r => congrArg (· + 1) r.count
  | _, _, _, .cons (.tryFrom _ _) r => congrArg (· + 1) r.count

theorem WVariants.Same.pick {k : {γ : Type} → WFields γ → Work γ} {k' : {γ : Type} → DeFields γ → Res γ}
    (hk : ∀ {γ : Type} (f : WFields γ) (f' : DeFields γ), f.Same f' → (k f).res = k' f') (id : Bytes) :
    {ρ : Type} → {v : WVariants ρ} → {v' : DeVariants ρ} → v.Same v' → (v.pick id k).res = v'.pick id k'
  | _, _, _, .nil => rfl
  | _, _, _, .cons i h hr => by
    rw [WVariants.pick, DeVariants.pick, Work.ite_res]
    refine if_congr Iff.rfl ?_ ?_
    · rw [Work.bind_res, hk _ _ h]; rfl
    · rw [Work.bind_res, WVariants.Same.pick hk id hr]; rfl

theorem WDe.same_struct (m : Build) (id : Bytes) {f : WFields γ} {f' : DeFields γ} (h : f.Same f') :
    (WDe.struct m id f).Same (De.struct m id f') := by
  constructor
  · intro i l c
    rw [WDe.struct, De.struct, Work.ite_res]
    exact if_congr Iff.rfl rfl (h.ber m l c)
  · intro i c
    rw [WDe.struct, De.struct, Work.ite_res]
    exact if_congr Iff.rfl rfl (h.der c)

theorem WDe.same_transparent (m : Build) {f : WFields γ} {f' : DeFields γ} (h : f.Same f') :
    (WDe.transparent m f).Same ((De.transparent f').getD (De.struct m [] f')) := by
  rw [WDe.transparent, De.transparent, h.count]
  split
  · exact ⟨fun id l c => h.transparent fun w d h => h.1 id l c, fun id c => h.transparent fun w d h => h.2 id c⟩
  · exact WDe.same_struct m [] h

theorem WDe.same_enum (m : Build) {v : WVariants ρ} {v' : DeVariants ρ} (h : v.Same v') : (WDe.enum m v).Same (De.enum m v') :=
  ⟨fun id l c => h.pick (fun _ _ h => h.ber m l c) id, fun id c => h.pick (fun _ _ h => h.der c) id⟩

theorem WDe.Same.from_ {w : WDe β} {d : De β} (h : w.Same d) (g : β → α) : (w.conv fun v => .ok (g v)).Same (De.from_ d g) := by
  constructor
  · intro id l c
    rw [WDe.conv, Work.bind_res, h.1]; rfl
  · intro id c
    rw [WDe.conv, Work.bind_res, h.2]; rfl

theorem WDe.Same.back {w : WDe β} {d : De β} (h : w.Same d) (g : Back β α) : (w.conv (Work.back g)).Same (De.back d g) := by
  cases g with
  | from_ g => exact h.from_ g
  | tryFrom g =>
    constructor
    · intro id l c
      rw [WDe.conv, Work.bind_res, h.1]; rfl
    · intro id c
      rw [WDe.conv, Work.bind_res, h.2]; rfl

theorem WDe.Same.backField {w : WDe β} {d : De β} (h : w.Same d) (g : Back β α) : (w.backField g).Same (Bsn1.backField d g) := by
  cases g with
  | from_ g => exact .from_ g h
  | tryFrom g => exact .tryFrom g h

theorem WDe.same_leaf (d : De α) : (WDe.leaf d).Same d := ⟨fun _ _ _ => rfl, fun _ _ => rfl⟩

mutual
theorem Ty.work_same (m : Build) (o : HashOrder) : {α : Type} → (t : Ty α) → (Ty.work m o t).Same (Ty.de m o t)
  | _, .bool => WDe.same_leaf _
  | _, .int _ => WDe.same_leaf _
  | _, .string => WDe.same_leaf _
  | _, .octetString => WDe.same_leaf _
  | _, .vec t => WDe.same_coll_id (Ty.work_same m o t).berToVal (Ty.work_same m o t).derToVal _
  | _, .linkedList t => WDe.same_coll_id (Ty.work_same m o t).berToVal (Ty.work_same m o t).derToVal _
  | _, .vecDeque t => WDe.same_coll_id (Ty.work_same m o t).berToVal (Ty.work_same m o t).derToVal _
  | _, .btreeSet _ _ _ t => WDe.same_coll_id (Ty.work_same m o t).berToVal (Ty.work_same m o t).derToVal _
  | _, .btreeMap _ _ _ k t => WDe.same_coll_id ((Ty.work_same m o k).berToKeyVal (Ty.work_same m o t))
      ((Ty.work_same m o k).derToKeyVal (Ty.work_same m o t)) _
  | _, .hashSet _ t => WDe.same_coll (Ty.work_same m o t).berToVal (Ty.work_same m o t).derToVal _ _
  | _, .hashMap _ k t => WDe.same_coll ((Ty.work_same m o k).berToKeyVal (Ty.work_same m o t))
      ((Ty.work_same m o k).derToKeyVal (Ty.work_same m o t)) _ _
  | _, .struct id fs => WDe.same_struct m id (Fields.work_same m o fs)
  | _, .enum vs => WDe.same_enum m (Variants.work_same m o vs)
  | _, .transparent fs => WDe.same_transparent m (Fields.work_same m o fs)
  | _, .conv t _ g => (Ty.work_same m o t).back g
  | _, .named t _ g _ _ => (Ty.work_same m o t).from_ g
  | _, .hole => ⟨fun _ _ _ => rfl, fun _ _ => rfl⟩
theorem Fields.work_same (m : Build) (o : HashOrder) : {γ : Type} → (fs : Fields γ) → (Fields.work m o fs).Same (Fields.de m o fs)
  | _, .nil => .nil
  | _, .plain t r => .cons (.plain (Ty.work_same m o t)) (Fields.work_same m o r)
  | _, .skip d r => .cons (.skip d) (Fields.work_same m o r)
  | _, .skipSer t r => .cons (.plain (Ty.work_same m o t)) (Fields.work_same m o r)
  | _, .skipDe _ d r => .cons (.skip d) (Fields.work_same m o r)
  | _, .conv t _ g r => .cons ((Ty.work_same m o t).backField g) (Fields.work_same m o r)
theorem Variants.work_same (m : Build) (o : HashOrder) : {ρ : Type} → (vs : Variants ρ) →
    (Variants.work m o vs).Same (Variants.de m o vs)
  | _, .nil => .nil
  | _, .cons id fs r => .cons id (Fields.work_same m o fs) (Variants.work_same m o r)
end

end Bsn1
