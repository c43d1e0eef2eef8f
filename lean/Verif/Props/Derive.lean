import Verif.Props.Decode
import Verif.Lemmas.Derive
/-!
# C53–C57: derived implementations
-/

namespace Bsn1
open Spec

variable {α β γ : Type}

/-! ### C53 -/

/-- The position of the variant of a value. -/
def Spec.Variants.index : {ρ : Type} → Variants ρ → ρ → Nat
  | _, .cons _ _ _, .inl _ => 0
  | _, .cons _ _ r, .inr v => r.index v + 1

theorem restores_index : {ρ : Type} → (vs : Variants ρ) → (v w : ρ) → vs.restores v w → vs.index w = vs.index v
  | _, .cons _ _ _, .inl _, .inl _, _ => rfl
  | _, .cons _ _ r, .inr v, .inr w, h => congrArg (· + 1) (restores_index r v w h)
  | _, .cons _ _ _, .inl _, .inr _, h => h.elim
  | _, .cons _ _ _, .inr _, .inl _, h => h.elim

theorem enc_index : {ρ : Type} → (vs : Variants ρ) → (v : ρ) → vs.ids[vs.index v]? = some (vs.enc v).1
  | _, .cons _ _ _, .inl _ => rfl
  | _, .cons _ _ r, .inr v => by
    simp only [Variants.ids, Variants.index, List.getElem?_cons_succ]
    exact enc_index r v

/-- C53.  An enum whose variants have different identifiers (part of `restorable`): the encoding has the identifier of the
variant, and decoding gives the same variant with the same fields. -/
theorem C53_variant_restored (m m' : Build) (o : HashOrder) {ρ : Type} (vs : Variants ρ) (hs : vs.serializable)
    (hd : vs.deserializable) (hr : vs.restorable) (hn : vs.ids.Nodup) (v : ρ) (hok : vs.ok v) (hc : vs.convertible v)
    (hfit : ((Ty.enum vs).der v).length ≤ isizeMax) :
    ∃ id c w, toDer m (Ty.ser m (.enum vs)) v = .ok (tlv id c) ∧ vs.ids[vs.index v]? = some id ∧
      fromDer (Ty.de m' o (.enum vs)) (tlv id c) = .ok w ∧ vs.index w = vs.index v ∧ vs.restores v w := by
  obtain ⟨p, w, h1, h2, h3⟩ := C43_der_round_trip m m' o (.enum vs) hs hd ⟨hr, hn⟩ v hok hc hfit
  have e := (C41_to_der m (.enum vs) hs v hok hfit).1
  rw [e] at h1
  cases h1
  exact ⟨(vs.enc v).1, (vs.enc v).2, w, e, enc_index vs v, h2, restores_index vs v w h3, h3⟩

/-- Two variants with different identifiers; a value of the second one. -/
example (m m' : Build) (o : HashOrder) := by
  refine C53_variant_restored m m' o (.cons [0x30] (.plain (.int .i32) .nil) (.cons [0x31] (.plain (.int .u8) .nil) .nil))
    ⟨isId_sequence, ⟨trivial, trivial⟩, (⟨0, 1, 17, by decide, by decide, by decide +kernel⟩ : IsId [0x31]), ⟨trivial, trivial⟩, trivial⟩ ⟨⟨trivial, trivial⟩, ⟨trivial, trivial⟩, trivial⟩
    ⟨⟨trivial, trivial⟩, ⟨trivial, trivial⟩, trivial⟩ (by simp [Variants.ids]) (.inr (.inl (5, ())))
    ⟨(by decide : IntTy.u8.InRange 5), trivial⟩ ⟨trivial, trivial⟩ ?_
  change (tlv [0x31] (tlv [0x02] (intOctets 5) ++ [])).length ≤ _
  decide +kernel

/-- C53, fields restored exactly. -/
theorem C53_value_restored (m m' : Build) (o : HashOrder) {ρ : Type} (vs : Variants ρ) (hs : vs.serializable)
    (hd : vs.deserializable) (hr : vs.restorable) (hn : vs.ids.Nodup) (he : vs.exact) (v : ρ) (hok : vs.ok v)
    (hc : vs.convertible v) (hfit : ((Ty.enum vs).der v).length ≤ isizeMax) :
    (toDer m (Ty.ser m (.enum vs)) v >>= fun p => fromDer (Ty.de m' o (.enum vs)) p) = .ok v :=
  C43_der_round_trip_exact m m' o (.enum vs) hs hd ⟨hr, hn⟩ he v hok hc hfit

/-- The position of the variant of a value. -/
def DeVariants.index : {ρ : Type} → DeVariants ρ → ρ → Nat
  | _, .cons _ _ _, .inl _ => 0
  | _, .cons _ _ r, .inr v => r.index v + 1

theorem pick_first (id : Bytes) (k : {γ : Type} → DeFields γ → Res γ) : {ρ : Type} → (vs : DeVariants ρ) → (v : ρ) →
    vs.pick id k = .ok v → vs.idList[vs.index v]? = some id ∧ ∀ j, j < vs.index v → vs.idList[j]? ≠ some id
  | _, .cons i fs r, .inl v, h => by
    rw [DeVariants.pick] at h
    split at h
    · rename_i e; exact ⟨by simp [DeVariants.idList, DeVariants.index, e], by simp [DeVariants.index]⟩
    · obtain ⟨u, _, h2⟩ := Res.bind_eq_ok.mp h; cases h2
  | _, .cons i fs r, .inr v, h => by
    rw [DeVariants.pick] at h
    split at h
    · obtain ⟨u, _, h2⟩ := Res.bind_eq_ok.mp h; cases h2
    · rename_i hne
      obtain ⟨u, h1, h2⟩ := Res.bind_eq_ok.mp h
      cases h2
      obtain ⟨h3, h4⟩ := pick_first id k r v h1
      refine ⟨by simpa [DeVariants.idList, DeVariants.index] using h3, fun j hj => ?_⟩
      cases j with
      | zero => simpa [DeVariants.idList, eq_comm] using hne
      | succ j => simpa [DeVariants.idList] using h4 j (by rw [DeVariants.index] at hj; omega)

/-- C53.  For all enums and all implementations of the types of the fields: the decoded variant is the first one with the
identifier of the value. -/
theorem C53_first_match (m : Build) {ρ : Type} (vs : DeVariants ρ) (id : Bytes) (l : Length) (c : Bytes) (v : ρ)
    (h : (De.enum m vs).fromDer id c = .ok v ∨ (De.enum m vs).fromBer id l c = .ok v) :
    vs.idList[vs.index v]? = some id ∧ ∀ j, j < vs.index v → vs.idList[j]? ≠ some id := by
  rcases h with h | h
  · exact pick_first id _ vs v h
  · exact pick_first id _ vs v h

/-- Three variants, of which the second and the third have the same identifier: the second is found. -/
example := C53_first_match .release (.cons [0x30] (.cons (.plain (De.bool .release)) .nil) (.cons [0x31] (.cons (.plain (De.bool .release)) .nil)
      (.cons [0x31] (.cons (.plain (De.bool .release)) .nil) .nil))) [0x31] (.definite 3) [0x01, 0x01, 0xff] (.inr (.inl (true, ())))
    (.inl (by decide +kernel))

/-- C53.  If the first variant has the identifier of a later one, and can decode its contents as `u`, then the encoding of
a value of the later variant decodes to `u` in the first variant. -/
theorem C53_shared_id (m m' : Build) (o : HashOrder) {ρ : Type} (fs : Fields γ) (r : Variants ρ) (v : ρ)
    (hs : (Variants.cons (r.enc v).1 fs r).serializable) (hd : (Variants.cons (r.enc v).1 fs r).deserializable) (hok : r.ok v)
    (hfit : ((Ty.enum (.cons (r.enc v).1 fs r)).der (.inr v)).length ≤ isizeMax) (u : γ)
    (hu : fromDerContents (Fields.de m' o fs) (r.enc v).2 = .ok u) :
    (toDer m (Ty.ser m (.enum (.cons (r.enc v).1 fs r))) (.inr v) >>= fun p =>
      fromDer (Ty.de m' o (.enum (.cons (r.enc v).1 fs r))) p) = .ok (.inl u) := by
  rw [(C41_to_der m (.enum (.cons (r.enc v).1 fs r)) hs (.inr v) hok hfit).1, Res.bind_ok]
  obtain ⟨h1, _, h2⟩ := der_enc_fits (t := .enum (.cons (r.enc v).1 fs r)) hs hfit
  change (r.enc v).2.length < 2 ^ 64 at h1
  change IsId (r.enc v).1 at h2
  change fromDer _ (tlv (r.enc v).1 (r.enc v).2) = _
  rw [fromDer_tlv _ h2 h1]
  change (if (r.enc v).1 = (r.enc v).1 then (fromDerContents (Fields.de m' o fs) (r.enc v).2 >>= fun v => pure (Sum.inl v)) else _) = _
  rw [if_pos rfl, hu]
  rfl

/-- Two variants with different identifiers. -/
example (m m' : Build) (o : HashOrder) :
    (toDer m (Ty.ser m (.enum (.cons [0x30] (.plain (.int .i32) .nil) (.cons [0x31] (.plain (.int .u8) .nil) .nil))))
      (.inr (.inl (5, ()))) >>= fun p => fromDer (Ty.de m' o
        (.enum (.cons [0x30] (.plain (.int .i32) .nil) (.cons [0x31] (.plain (.int .u8) .nil) .nil)))) p) =
      .ok (.inr (.inl (5, ()))) := by
  refine C53_value_restored m m' o (.cons [0x30] (.plain (.int .i32) .nil) (.cons [0x31] (.plain (.int .u8) .nil) .nil))
    ⟨isId_sequence, ⟨trivial, trivial⟩, (⟨0, 1, 17, by decide, by decide, by decide +kernel⟩ : IsId [0x31]), ⟨trivial, trivial⟩, trivial⟩ ⟨⟨trivial, trivial⟩, ⟨trivial, trivial⟩, trivial⟩
    ⟨⟨trivial, trivial⟩, ⟨trivial, trivial⟩, trivial⟩ (by simp [Variants.ids]) ⟨⟨trivial, trivial⟩, ⟨trivial, trivial⟩, trivial⟩ (.inr (.inl (5, ())))
    ⟨(by decide : IntTy.u8.InRange 5), trivial⟩ ⟨trivial, trivial⟩ ?_
  change (tlv [0x31] (tlv [0x02] (intOctets 5) ++ [])).length ≤ _
  decide +kernel

/-- Two variants with the same identifier: `B(5)` decodes as `A(5)`. -/
example (m m' : Build) (o : HashOrder) :
    (toDer m (Ty.ser m (.enum (.cons [0x30] (.plain (.int .i32) .nil) (.cons [0x30] (.plain (.int .u8) .nil) .nil))))
      (.inr (.inl (5, ()))) >>= fun p => fromDer (Ty.de m' o
        (.enum (.cons [0x30] (.plain (.int .i32) .nil) (.cons [0x30] (.plain (.int .u8) .nil) .nil)))) p) =
      .ok (.inl (5, ())) := by
  have h := C53_shared_id m m' o (.plain (.int .i32) .nil) (.cons [0x30] (.plain (.int .u8) .nil) .nil) (.inl (5, ()))
    ⟨isId_sequence, ⟨trivial, trivial⟩, isId_sequence, ⟨trivial, trivial⟩, trivial⟩ ⟨⟨trivial, trivial⟩, ⟨trivial, trivial⟩, trivial⟩
    ⟨(by decide : IntTy.u8.InRange 5), trivial⟩
    (by change (tlv [0x30] (tlv [0x02] (intOctets 5) ++ [])).length ≤ _; decide +kernel) (5, ())
    (by
      change fromDerContents (.cons (.plain (De.int m' .i32)) .nil) (tlv [0x02] (intOctets 5) ++ []) = _
      cases m' <;> decide +kernel)
  exact h

/-! ### C54 -/

/-- `fs'` is `fs` without some skipped fields; `p` drops them from a value. -/
inductive SerFields.Drops : {γ γ' : Type} → SerFields γ → SerFields γ' → (γ → γ') → Prop
  | nil : Drops .nil .nil fun v => v
  | skip {β γ γ' : Type} {r : SerFields γ} {r' : SerFields γ'} {p : γ → γ'} : Drops r r' p →
      Drops (.cons (.skip : SerField β) r) r' fun v => p v.2
  | keep {β γ γ' : Type} (f : SerField β) {r : SerFields γ} {r' : SerFields γ'} {p : γ → γ'} : Drops r r' p →
      Drops (.cons f r) (.cons f r') fun v => (v.1, p v.2)

/-- `fs'` is `fs` without some skipped fields; `q` adds their defaults to a value. -/
inductive DeFields.Drops : {γ γ' : Type} → DeFields γ → DeFields γ' → (γ' → γ) → Prop
  | nil : Drops .nil .nil fun v => v
  | skip {β γ γ' : Type} (dflt : β) {r : DeFields γ} {r' : DeFields γ'} {q : γ' → γ} : Drops r r' q →
      Drops (.cons (.skip dflt) r) r' fun u => (dflt, q u)
  | keep {β γ γ' : Type} (f : DeField β) {r : DeFields γ} {r' : DeFields γ'} {q : γ' → γ} : Drops r r' q →
      Drops (.cons f r) (.cons f r') fun u => (u.1, q u.2)

/-- No field is skipped. -/
def SerFields.noSkip : {γ : Type} → SerFields γ → Prop
  | _, .nil => True
  | _, .cons .skip _ => False
  | _, .cons (.plain _) r => r.noSkip
  | _, .cons (.conv _ _) r => r.noSkip

/-- No field is skipped. -/
def DeFields.noSkip : {γ : Type} → DeFields γ → Prop
  | _, .nil => True
  | _, .cons (.skip _) _ => False
  | _, .cons (.plain _) r => r.noSkip
  | _, .cons (.from_ _ _) r => r.noSkip
  | _, .cons (.tryFrom _ _) r => r.noSkip

theorem toDer_congr (m : Build) {s : Ser α} {s' : Ser β} {v : α} {w : β} (h1 : s.writeId v = s'.writeId w)
    (h2 : s.writeDerContents v = s'.writeDerContents w) (h3 : s.idLen v = s'.idLen w)
    (h4 : s.derContentsLen v = s'.derContentsLen w) :
    toDer m s v = toDer m s' w ∧ writeDer m s v = writeDer m s' w := by
  constructor
  · simp only [toDer, contentsLen, h1, h2, h3, h4]
  · simp only [writeDer, contentsLen, h1, h2, h4]

theorem writeFields_drops (m : Build) {γ γ' : Type} {fs : SerFields γ} {fs' : SerFields γ'} {p : γ → γ'} (h : fs.Drops fs' p)
    (v : γ) : writeFields m fs v = writeFields m fs' (p v) := by
  induction h with
  | nil => rfl
  | skip _ ih => rw [writeFields, ← ih]; rfl
  | keep f _ ih => rw [writeFields, writeFields, ih]

theorem fieldsLen_drops (m : Build) {γ γ' : Type} {fs : SerFields γ} {fs' : SerFields γ'} {p : γ → γ'} (h : fs.Drops fs' p)
    (v : γ) : fieldsLen m fs v = fieldsLen m fs' (p v) := by
  have h1 : anyConv fs = anyConv fs' := by
    induction h with
    | nil => rfl
    | skip _ ih => rw [anyConv]; exact ih v.2
    | keep f _ ih => cases f <;> simp only [anyConv] <;> exact ih v.2
  have h2 : ∀ ret, fieldsLenLoop m fs v ret = fieldsLenLoop m fs' (p v) ret := by
    clear h1
    induction h with
    | nil => intro ret; rfl
    | skip _ ih => intro ret; rw [fieldsLenLoop]; exact ih v.2 ret
    | keep f _ ih => intro ret; cases f <;> simp only [fieldsLenLoop, ih]
  rw [fieldsLen, fieldsLen, h1, h2]

/-- C54.  Skipped fields contribute nothing: the encoding is that of the struct without these fields, whatever their values
are, for all types and attributes of the other fields.  The same for a variant of an enum. -/
theorem C54_skip_serializing (m : Build) (id : Bytes) {γ γ' : Type} (fs : SerFields γ) (fs' : SerFields γ') (p : γ → γ')
    (h : fs.Drops fs' p) (v : γ) :
    toDer m (Ser.struct m id fs) v = toDer m (Ser.struct m id fs') (p v) ∧
    writeDer m (Ser.struct m id fs) v = writeDer m (Ser.struct m id fs') (p v) ∧
    ∀ {ρ : Type} (r : SerVariants ρ), toDer m (Ser.enum m (.cons id fs r)) (.inl v) =
      toDer m (Ser.enum m (.cons id fs' r)) (.inl (p v)) := by
  have e1 := writeFields_drops m h v
  have e2 := fieldsLen_drops m h v
  obtain ⟨h1, h2⟩ := toDer_congr m (s := Ser.struct m id fs) (s' := Ser.struct m id fs') (v := v) (w := p v) rfl e1 rfl e2
  exact ⟨h1, h2, fun r => (toDer_congr m (s := Ser.enum m (.cons id fs r)) (s' := Ser.enum m (.cons id fs' r)) (v := .inl v) (w := .inl (p v))
    rfl e1 rfl e2).1⟩

example (m : Build) : toDer m (Ser.struct m [0x30] (.cons (.plain Ser.bool) (.cons (.skip : SerField String) (.cons (.plain (Ser.int .u8)) .nil)))) (true, "x", 5, ()) =
    toDer m (Ser.struct m [0x30] (.cons (.plain Ser.bool) (.cons (.plain (Ser.int .u8)) .nil))) (true, 5, ()) :=
  (C54_skip_serializing m [0x30] _ _ _ (.keep _ (.skip (.keep _ .nil))) (true, "x", 5, ())).1

theorem deFields_drops (tmp : {δ : Type} → De δ → Bytes → Res (δ × Bytes)) {γ γ' : Type} {fs : DeFields γ}
    {fs' : DeFields γ'} {q : γ' → γ} (h : fs.Drops fs' q) (c : Bytes) :
    deFields tmp fs c = (deFields tmp fs' c >>= fun x => .ok (q x.1, x.2)) := by
  induction h generalizing c with
  | nil => rfl
  | skip dflt _ ih =>
    rw [deFields, deField, Res.bind_ok]
    simp only [ih]
    cases deFields tmp _ c <;> rfl
  | keep f h ih =>
    rename_i r r' q
    rw [deFields, deFields]
    cases deField tmp f c with
    | ok x =>
      simp only [Res.bind_ok, ih]
      cases deFields tmp r' x.2 <;> rfl
    | _ => rfl

/-- C54.  Skipped fields take no octets and get their defaults: decoding is that of the struct without these fields, with
the same errors, for all types and attributes of the other fields. -/
theorem C54_skip_deserializing (m : Build) (i : Bytes) {γ γ' : Type} (fs : DeFields γ) (fs' : DeFields γ') (q : γ' → γ)
    (h : fs.Drops fs' q) (id : Bytes) (l : Length) (c : Bytes) :
    (De.struct m i fs).fromDer id c = ((De.struct m i fs').fromDer id c >>= fun u => .ok (q u)) ∧
    (De.struct m i fs).fromBer id l c = ((De.struct m i fs').fromBer id l c >>= fun u => .ok (q u)) := by
  have e1 : fromDerContents fs c = (fromDerContents fs' c >>= fun u => .ok (q u)) := by
    rw [fromDerContents, fromDerContents, deFields_drops _ h]
    cases deFields derTmpVal fs' c with
    | ok x =>
      simp only [Res.bind_ok, finish]
      split <;> rfl
    | _ => rfl
  have e2 : fromBerContents m fs l c = (fromBerContents m fs' l c >>= fun u => .ok (q u)) := by
    rw [fromBerContents, fromBerContents]
    cases structContents m l c with
    | ok b =>
      simp only [Res.bind_ok, deFields_drops _ h]
      cases deFields berTmpVal fs' b with
      | ok x =>
        simp only [Res.bind_ok, finish]
        split <;> rfl
      | _ => rfl
    | _ => rfl
  constructor
  · simp only [De.struct, e1]; split <;> rfl
  · simp only [De.struct, e2]; split <;> rfl

example (m : Build) : (De.struct m [0x30] (.cons (.plain (De.bool m)) (.cons (.skip "default") .nil))).fromDer [0x30] [0x01, 0x01, 0xff] =
    .ok (true, "default", ()) := by
  rw [(C54_skip_deserializing m [0x30] _ _ _ (.keep _ (.skip "default" .nil)) [0x30] .indefinite [0x01, 0x01, 0xff]).1]
  have : (De.struct m [0x30] (.cons (.plain (De.bool m)) .nil)).fromDer [0x30] [0x01, 0x01, 0xff] = .ok (true, ()) := by
    cases m <;> decide +kernel
  rw [this]; rfl

/-- C54.  All skipped fields can be dropped, so the two theorems say everything about them. -/
theorem C54_drop_all :
    (∀ {γ : Type} (fs : SerFields γ), ∃ (γ' : Type) (fs' : SerFields γ') (p : γ → γ'), fs.Drops fs' p ∧ fs'.noSkip) ∧
    (∀ {γ : Type} (fs : DeFields γ), ∃ (γ' : Type) (fs' : DeFields γ') (q : γ' → γ), fs.Drops fs' q ∧ fs'.noSkip) := by
  constructor
  · intro γ fs
    induction fs with
    | nil => exact ⟨_, _, _, .nil, trivial⟩
    | cons f r ih =>
      obtain ⟨γ', r', p, h1, h2⟩ := ih
      cases f with
      | skip => exact ⟨_, _, _, .skip h1, h2⟩
      | plain s => exact ⟨_, _, _, .keep _ h1, h2⟩
      | conv s g => exact ⟨_, _, _, .keep _ h1, h2⟩
  · intro γ fs
    induction fs with
    | nil => exact ⟨_, _, _, .nil, trivial⟩
    | cons f r ih =>
      obtain ⟨γ', r', q, h1, h2⟩ := ih
      cases f with
      | skip d => exact ⟨_, _, _, .skip d h1, h2⟩
      | plain s => exact ⟨_, _, _, .keep _ h1, h2⟩
      | from_ s g => exact ⟨_, _, _, .keep _ h1, h2⟩
      | tryFrom s g => exact ⟨_, _, _, .keep _ h1, h2⟩

example : ∃ (γ' : Type) (fs' : SerFields γ') (p : Bool × String × Int × Unit → γ'),
    (SerFields.cons (.plain Ser.bool) (.cons (.skip : SerField String) (.cons (.plain (Ser.int .u8)) .nil))).Drops fs' p ∧ fs'.noSkip :=
  C54_drop_all.1 _

/-- `fs'` is `fs` without some fields with `skip` or `skip_serializing`; `p` drops them from a value. -/
inductive Spec.Fields.SerDrops : {γ γ' : Type} → Fields γ → Fields γ' → (γ → γ') → Prop
  | nil : SerDrops .nil .nil fun v => v
  | skip {β γ γ' : Type} (dflt : β) {r : Fields γ} {r' : Fields γ'} {p : γ → γ'} : SerDrops r r' p →
      SerDrops (.skip dflt r) r' fun v => p v.2
  | skipSer {β γ γ' : Type} (t : Ty β) {r : Fields γ} {r' : Fields γ'} {p : γ → γ'} : SerDrops r r' p →
      SerDrops (.skipSer t r) r' fun v => p v.2
  | plain {β γ γ' : Type} (t : Ty β) {r : Fields γ} {r' : Fields γ'} {p : γ → γ'} : SerDrops r r' p →
      SerDrops (.plain t r) (.plain t r') fun v => (v.1, p v.2)
  | skipDe {β γ γ' : Type} (t : Ty β) (dflt : β) {r : Fields γ} {r' : Fields γ'} {p : γ → γ'} : SerDrops r r' p →
      SerDrops (.skipDe t dflt r) (.plain t r') fun v => (v.1, p v.2)
  | conv {β δ γ γ' : Type} (t : Ty δ) (f : β → δ) (g : Back δ β) {r : Fields γ} {r' : Fields γ'} {p : γ → γ'} : SerDrops r r' p →
      SerDrops (.conv t f g r) (.conv t f g r') fun v => (v.1, p v.2)

/-- `fs'` is `fs` without some fields with `skip` or `skip_deserializing`; `q` adds their defaults to a value. -/
inductive Spec.Fields.DeDrops : {γ γ' : Type} → Fields γ → Fields γ' → (γ' → γ) → Prop
  | nil : DeDrops .nil .nil fun v => v
  | skip {β γ γ' : Type} (dflt : β) {r : Fields γ} {r' : Fields γ'} {q : γ' → γ} : DeDrops r r' q →
      DeDrops (.skip dflt r) r' fun u => (dflt, q u)
  | skipDe {β γ γ' : Type} (t : Ty β) (dflt : β) {r : Fields γ} {r' : Fields γ'} {q : γ' → γ} : DeDrops r r' q →
      DeDrops (.skipDe t dflt r) r' fun u => (dflt, q u)
  | plain {β γ γ' : Type} (t : Ty β) {r : Fields γ} {r' : Fields γ'} {q : γ' → γ} : DeDrops r r' q →
      DeDrops (.plain t r) (.plain t r') fun u => (u.1, q u.2)
  | skipSer {β γ γ' : Type} (t : Ty β) {r : Fields γ} {r' : Fields γ'} {q : γ' → γ} : DeDrops r r' q →
      DeDrops (.skipSer t r) (.plain t r') fun u => (u.1, q u.2)
  | conv {β δ γ γ' : Type} (t : Ty δ) (f : β → δ) (g : Back δ β) {r : Fields γ} {r' : Fields γ'} {q : γ' → γ} : DeDrops r r' q →
      DeDrops (.conv t f g r) (.conv t f g r') fun u => (u.1, q u.2)

/-- C54, by attributes: fields with `skip` or `skip_serializing` contribute nothing, fields with `skip_deserializing` what they would without. -/
theorem C54_skip_attributes_serialize (m : Build) (id : Bytes) {γ γ' : Type} (fs : Fields γ) (fs' : Fields γ') (p : γ → γ')
    (h : fs.SerDrops fs' p) (v : γ) :
    toDer m (Ty.ser m (.struct id fs)) v = toDer m (Ty.ser m (.struct id fs')) (p v) ∧
    writeDer m (Ty.ser m (.struct id fs)) v = writeDer m (Ty.ser m (.struct id fs')) (p v) := by
  have hd : (Fields.ser m fs).Drops (Fields.ser m fs') p := by
    induction h with
    | nil => exact .nil
    | skip _ _ ih => exact .skip (ih v.2)
    | skipSer _ _ ih => exact .skip (ih v.2)
    | plain _ _ ih => exact .keep _ (ih v.2)
    | skipDe _ _ _ ih => exact .keep _ (ih v.2)
    | conv _ _ _ _ ih => exact .keep _ (ih v.2)
  have := C54_skip_serializing m id _ _ p hd v
  exact ⟨this.1, this.2.1⟩

/-- A struct of a boolean with `skip_serializing` and an integer with `skip_deserializing` is encoded like one with the integer. -/
example (m : Build) (b : Bool) : toDer m (Ty.ser m (.struct [0x30] (.skipSer .bool (.skipDe (.int .u8) 7 .nil)))) (b, 5, ()) =
    toDer m (Ty.ser m (.struct [0x30] (.plain (.int .u8) .nil))) (5, ()) :=
  (C54_skip_attributes_serialize m [0x30] _ _ _ (.skipSer .bool (.skipDe (.int .u8) 7 .nil)) (b, 5, ())).1

/-- C54, by attributes: fields with `skip` or `skip_deserializing` take no octets and get their defaults, fields with `skip_serializing` take what
they would without. -/
theorem C54_skip_attributes_deserialize (m : Build) (o : HashOrder) (i : Bytes) {γ γ' : Type} (fs : Fields γ) (fs' : Fields γ') (q : γ' → γ)
    (h : fs.DeDrops fs' q) (id : Bytes) (l : Length) (c : Bytes) :
    (Ty.de m o (.struct i fs)).fromDer id c = ((Ty.de m o (.struct i fs')).fromDer id c >>= fun u => .ok (q u)) ∧
    (Ty.de m o (.struct i fs)).fromBer id l c = ((Ty.de m o (.struct i fs')).fromBer id l c >>= fun u => .ok (q u)) := by
  have hd : (Fields.de m o fs).Drops (Fields.de m o fs') q := by
    induction h with
    | nil => exact .nil
    | skip _ _ ih => exact .skip _ ih
    | skipDe _ _ _ ih => exact .skip _ ih
    | plain _ _ ih => exact .keep _ ih
    | skipSer _ _ ih => exact .keep _ ih
    | conv _ _ _ _ ih => exact .keep _ ih
  exact C54_skip_deserializing m i _ _ q hd id l c

/-- A struct of a boolean with `skip_serializing` and an integer with `skip_deserializing` is encoded like one with the integer, and decoded like
one with the boolean. -/
example : Fields.SerDrops (.skipSer .bool (.skipDe (.int .u8) 7 .nil)) (.plain (.int .u8) .nil) (fun v => (v.2.1, v.2.2)) ∧
    Fields.DeDrops (.skipSer .bool (.skipDe (.int .u8) 7 .nil)) (.plain .bool .nil) (fun u => (u.1, (7, u.2))) :=
  ⟨.skipSer _ (.skipDe _ _ .nil), .skipSer _ (.skipDe _ _ .nil)⟩

/-- The value with the defaults in the fields skipped when decoding. -/
def Spec.Fields.defaulted : {γ : Type} → Fields γ → γ → γ
  | _, .nil, _ => ()
  | _, .plain _ r, v => (v.1, r.defaulted v.2)
  | _, .skip d r, v => (d, r.defaulted v.2)
  | _, .skipSer _ r, v => (v.1, r.defaulted v.2)
  | _, .skipDe _ d r, v => (d, r.defaulted v.2)
  | _, .conv _ _ _ r, v => (v.1, r.defaulted v.2)

/-- The fields that are not skipped have types that are restored exactly, and their conversions are inverse on the
value. -/
def Spec.Fields.exactOn : {γ : Type} → Fields γ → γ → Prop
  | _, .nil, _ => True
  | _, .plain t r, v => t.exact ∧ r.exactOn v.2
  | _, .skip _ r, v => r.exactOn v.2
  | _, .skipSer t r, v => t.exact ∧ r.exactOn v.2
  | _, .skipDe _ _ r, v => r.exactOn v.2
  | _, .conv t f g r, v => (t.exact ∧ g.apply (f v.1) = .ok v.1) ∧ r.exactOn v.2

theorem restores_defaulted : {γ : Type} → (fs : Fields γ) → (v w : γ) → fs.exactOn v → fs.restores v w → w = fs.defaulted v
  | _, .nil, _, _, _, _ => rfl
  | _, .plain t r, v, w, he, h =>
    Prod.ext (Ty.exact_faithful t he.1 v.1 w.1 h.1) (restores_defaulted r v.2 w.2 he.2 h.2)
  | _, .skip _ r, v, w, he, h => Prod.ext h.1 (restores_defaulted r v.2 w.2 he h.2)
  | _, .skipSer t r, v, w, he, h =>
    Prod.ext (Ty.exact_faithful t he.1 v.1 w.1 h.1) (restores_defaulted r v.2 w.2 he.2 h.2)
  | _, .skipDe _ _ r, v, w, he, h => Prod.ext h.1 (restores_defaulted r v.2 w.2 he h.2)
  | _, .conv t f g r, v, w, he, h => by
    obtain ⟨⟨u, h1, h2⟩, h3⟩ := h
    rw [Ty.exact_faithful t he.1.1 _ u h1, he.1.2] at h2
    exact Prod.ext (Except.ok.inj h2).symm (restores_defaulted r v.2 w.2 he.2 h3)

/-- C54.  With consistent marks (a field is skipped on both sides or on none, part of `restorable`) decoding does not fail
on an encoded struct: all fields are restored but the skipped ones, which get the default. -/
theorem C54_round_trip (m m' : Build) (o : HashOrder) (id : Bytes) (fs : Fields γ) (hs : IsId id ∧ fs.serializable)
    (hd : fs.deserializable) (hr : fs.restorable) (v : γ) (he : fs.exactOn v) (hok : fs.ok v) (hc : fs.convertible v)
    (hfit : ((Ty.struct id fs).der v).length ≤ isizeMax) :
    (toDer m (Ty.ser m (.struct id fs)) v >>= fun p => fromDer (Ty.de m' o (.struct id fs)) p) = .ok (fs.defaulted v) := by
  obtain ⟨p, w, h1, h2, h3⟩ := C43_der_round_trip m m' o (.struct id fs) hs hd hr v hok hc hfit
  rw [h1, Res.bind_ok, h2, restores_defaulted fs v w he h3]

/-- A struct with a skipped field between two others. -/
example (m m' : Build) (o : HashOrder) :
    (toDer m (Ty.ser m (.struct [0x30] (.plain .bool (.skip "default" (.plain .bool .nil))))) (true, "x", false, ()) >>=
      fun p => fromDer (Ty.de m' o (.struct [0x30] (.plain .bool (.skip "default" (.plain .bool .nil))))) p) =
      .ok (true, "default", false, ()) := by
  refine C54_round_trip m m' o [0x30] (.plain .bool (.skip "default" (.plain .bool .nil))) ⟨isId_sequence, trivial, trivial, trivial⟩
    ⟨trivial, trivial, trivial⟩ ⟨trivial, trivial, trivial⟩ (true, "x", false, ()) ⟨trivial, trivial, trivial⟩
    ⟨trivial, trivial, trivial⟩ ⟨trivial, trivial, trivial⟩ ?_
  change (tlv [0x30] (tlv [0x01] [0xff] ++ (tlv [0x01] [0x00] ++ []))).length ≤ _
  decide +kernel

/-! ### C55 -/

theorem activeFields_drops {γ γ' : Type} {fs : SerFields γ} {fs' : SerFields γ'} {p : γ → γ'} (h : fs.Drops fs' p) :
    activeFields fs = (activeFields fs').map fun t => ⟨t.ser.comap p, t.converted⟩ := by
  induction h with
  | nil => rfl
  | skip _ ih => rw [activeFields, ih, List.map_map]; rfl
  | keep f _ ih =>
    cases f <;> simp only [activeFields, ih, List.map_map, List.map_cons] <;> rfl

/-- C55, encoding.  If one field is not skipped, a transparent struct is encoded as this field (after its conversion). -/
theorem C55_transparent_encode (m : Build) {γ β δ : Type} (fs : SerFields γ) (p : γ → β × Unit) :
    (∀ s : Ser β, fs.Drops (.cons (.plain s) .nil) p → ∃ t, Ser.transparent fs = some t ∧
      ∀ v, toDer m t v = toDer m s (p v).1 ∧ writeDer m t v = writeDer m s (p v).1 ∧ t.idLen v = s.idLen (p v).1 ∧
        t.derContentsLen v = s.derContentsLen (p v).1) ∧
    (∀ (s : Ser δ) (f : β → δ), fs.Drops (.cons (.conv s f) .nil) p → ∃ t, Ser.transparent fs = some t ∧
      ∀ v, t.writeId v = s.writeId (f (p v).1) ∧ t.writeDerContents v = s.writeDerContents (f (p v).1) ∧
        t.idLen v = .ok none ∧
        t.derContentsLen v = .ok none ∧ toDer m t v = toDer m (Ser.conv s f) (p v).1) := by
  constructor
  · intro s h
    have e := activeFields_drops h
    simp only [activeFields, List.map_cons, List.map_nil] at e
    refine ⟨_, by rw [Ser.transparent, e], fun v => ?_⟩
    obtain ⟨h1, h2⟩ := toDer_congr m (s := ⟨((s.comap Prod.fst).comap p).writeId, ((s.comap Prod.fst).comap p).writeDerContents,
      fun v => if false = true then .ok none else ((s.comap Prod.fst).comap p).idLen v,
      fun v => if false = true then .ok none else ((s.comap Prod.fst).comap p).derContentsLen v⟩) (s' := s) (v := v)
      (w := (p v).1) rfl rfl rfl rfl
    exact ⟨h1, h2, rfl, rfl⟩
  · intro s f h
    have e := activeFields_drops h
    simp only [activeFields, List.map_cons, List.map_nil] at e
    exact ⟨_, by rw [Ser.transparent, e], fun v => ⟨rfl, rfl, rfl, rfl, (toDer_congr m rfl rfl rfl rfl).1⟩⟩

/-- C55, encoding of a supported type with `into` or `to`: the octets are those of the converted field. -/
theorem C55_transparent_conv (m : Build) (pre : β) (t : Ty δ) (f : α → δ) (g : Back δ α) (hs : t.serializable) (v : β × α × Unit)
    (hok : t.ok (f v.2.1)) (hfit : (t.der (f v.2.1)).length ≤ isizeMax) :
    toDer m (Ty.ser m (.transparent (.skip pre (.conv t f g .nil)))) v = toDer m (Ty.ser m t) (f v.2.1) := by
  have h1 := (C41_to_der m (.transparent (.skip pre (.conv t f g .nil))) ⟨rfl, hs, trivial⟩ v ⟨hok, trivial⟩ hfit).1
  rw [h1, (C41_to_der m t hs (f v.2.1) hok hfit).1]
  rfl

example (m : Build) : toDer m (Ty.ser m (.transparent (.skip "x" (.conv (.int .u8) (fun v : Nat => 2 * (v : Int)) (.from_ Int.toNat) .nil)))) ("y", 21, ()) =
    toDer m (Ty.ser m (.int .u8)) 42 := by
  refine C55_transparent_conv m "x" (.int .u8) _ _ trivial ("y", 21, ()) ?_ ?_
  · exact (by decide : IntTy.u8.InRange 42)
  · change (tlv [0x02] (intOctets 42)).length ≤ _
    decide +kernel

theorem deTransparent_nil {γ γ' : Type} {fs : DeFields γ} {fs' : DeFields γ'} {q : γ' → γ} (h : fs.Drops fs' q)
    (tmp : {δ : Type} → De δ → Res δ) :
    deFieldsTransparent tmp fs = (deFieldsTransparent tmp fs' >>= fun u => .ok (q u)) := by
  induction h with
  | nil => rfl
  | skip dflt _ ih =>
    rename_i r r' q _
    rw [deFieldsTransparent, deFieldTransparent, Res.bind_ok, ih]
    cases deFieldsTransparent tmp r' <;> rfl
  | keep f h ih =>
    rename_i r r' q
    rw [deFieldsTransparent, deFieldsTransparent, ih]
    cases deFieldTransparent tmp f with
    | ok x => simp only [Res.bind_ok]; cases deFieldsTransparent tmp r' <;> rfl
    | _ => rfl

theorem deserializedFields_drops {γ γ' : Type} {fs : DeFields γ} {fs' : DeFields γ'} {q : γ' → γ} (h : fs.Drops fs' q) :
    deserializedFields fs = deserializedFields fs' := by
  induction h with
  | nil => rfl
  | skip _ _ ih => rw [deserializedFields, ih]
  | keep f _ ih => cases f <;> simp only [deserializedFields, ih]

/-- C55, decoding.  If one field is not skipped, a transparent struct decodes the input as this field, then converts;
the other fields get their defaults. -/
theorem C55_transparent_decode {γ β δ : Type} (fs : DeFields γ) (q : β × Unit → γ) :
    (∀ d : De β, fs.Drops (.cons (.plain d) .nil) q → ∃ t, De.transparent fs = some t ∧ ∀ id l c v,
      (t.fromDer id c = .ok v ↔ ∃ u, d.fromDer id c = .ok u ∧ v = q (u, ())) ∧
      (t.fromBer id l c = .ok v ↔ ∃ u, d.fromBer id l c = .ok u ∧ v = q (u, ())) ∧
      ∀ e, (d.fromDer id c = .err e → t.fromDer id c = .err e.context) ∧
        (d.fromBer id l c = .err e → t.fromBer id l c = .err e.context)) ∧
    (∀ (d : De δ) (f : δ → Except Chain β), fs.Drops (.cons (.tryFrom d f) .nil) q → ∃ t, De.transparent fs = some t ∧
      ∀ id l c v, (t.fromDer id c = .ok v ↔ ∃ u w, d.fromDer id c = .ok u ∧ f u = .ok w ∧ v = q (w, ())) ∧
      (t.fromBer id l c = .ok v ↔ ∃ u w, d.fromBer id l c = .ok u ∧ f u = .ok w ∧ v = q (w, ()))) ∧
    (∀ (d : De δ) (f : δ → β), fs.Drops (.cons (.from_ d f) .nil) q → ∃ t, De.transparent fs = some t ∧
      ∀ id l c v, (t.fromDer id c = .ok v ↔ ∃ u, d.fromDer id c = .ok u ∧ v = q (f u, ())) ∧
      (t.fromBer id l c = .ok v ↔ ∃ u, d.fromBer id l c = .ok u ∧ v = q (f u, ()))) := by
  have plain : ∀ (x : Res β) (v : γ), ((mapErrContext x >>= fun u => (Res.ok () : Res Unit) >>= fun vs => pure (u, vs)) >>=
      fun u => .ok (q u)) = .ok v ↔ ∃ u, x = .ok u ∧ v = q (u, ()) := by
    intro x v
    cases x with
    | ok u =>
      simp only [mapErrContext, Res.bind_ok, Res.pure_eq, Res.ok.injEq, exists_eq_left']
      exact eq_comm
    | _ => simp [mapErrContext]
  have try_ : ∀ (f : δ → Except Chain β) (x : Res δ) (v : γ),
      (((mapErrContext x >>= fun u => convErr (f u)) >>= fun u => (Res.ok () : Res Unit) >>= fun vs => pure (u, vs)) >>=
      fun u => .ok (q u)) = .ok v ↔ ∃ u w, x = .ok u ∧ f u = .ok w ∧ v = q (w, ()) := by
    intro f x v
    cases x with
    | ok u =>
      simp only [mapErrContext, Res.bind_ok, Res.ok.injEq, exists_and_left, exists_eq_left']
      cases hf : f u with
      | ok w =>
        simp only [convErr, Res.bind_ok, Res.pure_eq, Res.ok.injEq, Except.ok.injEq, exists_eq_left']
        exact eq_comm
      | error e => simp [convErr]
    | _ => simp [mapErrContext]
  have from_ : ∀ (f : δ → β) (x : Res δ) (v : γ),
      (((mapErrContext x >>= fun u => pure (f u)) >>= fun u => (Res.ok () : Res Unit) >>= fun vs => pure (u, vs)) >>=
      fun u => .ok (q u)) = .ok v ↔ ∃ u, x = .ok u ∧ v = q (f u, ()) := by
    intro f x v
    cases x with
    | ok u =>
      simp only [mapErrContext, Res.bind_ok, Res.pure_eq, Res.ok.injEq, exists_eq_left']
      exact eq_comm
    | _ => simp [mapErrContext]
  refine ⟨fun d h => ?_, fun d f h => ?_, fun d f h => ?_⟩
  · refine ⟨_, by rw [De.transparent, if_pos ((deserializedFields_drops h).trans rfl : deserializedFields fs = 1)], fun id l c v => ⟨?_, ?_, fun e => ⟨?_, ?_⟩⟩⟩
    · simp only [deTransparent_nil h, deFieldsTransparent, deFieldTransparent]; exact plain _ v
    · simp only [deTransparent_nil h, deFieldsTransparent, deFieldTransparent]; exact plain _ v
    · intro he; simp only [deTransparent_nil h, deFieldsTransparent, deFieldTransparent, he]; rfl
    · intro he; simp only [deTransparent_nil h, deFieldsTransparent, deFieldTransparent, he]; rfl
  · refine ⟨_, by rw [De.transparent, if_pos ((deserializedFields_drops h).trans rfl : deserializedFields fs = 1)], fun id l c v => ⟨?_, ?_⟩⟩
    · simp only [deTransparent_nil h, deFieldsTransparent, deFieldTransparent]; exact try_ f _ v
    · simp only [deTransparent_nil h, deFieldsTransparent, deFieldTransparent]; exact try_ f _ v
  · refine ⟨_, by rw [De.transparent, if_pos ((deserializedFields_drops h).trans rfl : deserializedFields fs = 1)], fun id l c v => ⟨?_, ?_⟩⟩
    · simp only [deTransparent_nil h, deFieldsTransparent, deFieldTransparent]; exact from_ f _ v
    · simp only [deTransparent_nil h, deFieldsTransparent, deFieldTransparent]; exact from_ f _ v

example (m : Build) : ∃ t, De.transparent (.cons (.skip "x") (.cons (.plain (De.bool m)) .nil)) = some t ∧
    t.fromDer [0x01] [0xff] = .ok ("x", true, ()) := by
  obtain ⟨t, h1, h2⟩ := (C55_transparent_decode (δ := Int) (.cons (.skip "x") (.cons (.plain (De.bool m)) .nil)) _).1 _ (.skip "x" (.keep _ .nil))
  exact ⟨t, h1, (h2 [0x01] .indefinite [0xff] _).1.mpr ⟨true, by cases m <;> decide +kernel, rfl⟩⟩

/-- The number of fields that are not skipped. -/
def SerFields.kept : {γ : Type} → SerFields γ → Nat
  | _, .nil => 0
  | _, .cons .skip r => r.kept
  | _, .cons (.plain _) r => r.kept + 1
  | _, .cons (.conv _ _) r => r.kept + 1

/-- The number of fields that are not skipped. -/
def DeFields.kept : {γ : Type} → DeFields γ → Nat
  | _, .nil => 0
  | _, .cons (.skip _) r => r.kept
  | _, .cons (.plain _) r => r.kept + 1
  | _, .cons (.from_ _ _) r => r.kept + 1
  | _, .cons (.tryFrom _ _) r => r.kept + 1

theorem activeFields_length {γ : Type} (fs : SerFields γ) : (activeFields fs).length = fs.kept := by
  induction fs with
  | nil => rfl
  | cons f r ih => cases f <;> simp [activeFields, SerFields.kept, ih]

theorem deserializedFields_eq {γ : Type} (fs : DeFields γ) : deserializedFields fs = fs.kept := by
  induction fs with
  | nil => rfl
  | cons f r ih => cases f <;> simp [deserializedFields, DeFields.kept, ih]

/-- C55.  Otherwise, when no field or more than one are not skipped, the macro refuses to generate code. -/
theorem C55_transparent_refused {γ : Type} (fs : SerFields γ) (ds : DeFields γ) :
    (Ser.transparent fs = none ↔ fs.kept ≠ 1) ∧ (De.transparent ds = none ↔ ds.kept ≠ 1) := by
  constructor
  · rw [← activeFields_length, Ser.transparent]
    rcases activeFields fs with _ | ⟨a, _ | ⟨b, l⟩⟩ <;> simp
  · rw [← deserializedFields_eq, De.transparent]
    split <;> simp [*]

/-- A transparent struct with three fields, two of them skipped. -/
example (m : Build) : ∃ t, Ser.transparent (.cons (.skip : SerField String) (.cons (.plain (Ser.int .u8)) (.cons (.skip : SerField Bool) .nil))) =
    some t ∧ toDer m t ("x", 200, true, ()) = toDer m (Ser.int .u8) 200 := by
  obtain ⟨t, h1, h2⟩ := (C55_transparent_encode (δ := Int) m
    (.cons (.skip : SerField String) (.cons (.plain (Ser.int .u8)) (.cons (.skip : SerField Bool) .nil))) _).1 _ (.skip (.keep _ (.skip .nil)))
  exact ⟨t, h1, (h2 ("x", 200, true, ())).1⟩

/-- One that is refused. -/
example : Ser.transparent (.cons (.plain (Ser.int .u8)) (.cons (.plain (Ser.int .u8)) .nil)) = none :=
  (C55_transparent_refused _ (.cons (.skip (0 : Int)) (.cons (.skip (0 : Int)) .nil))).1.mpr (by decide)

/-! ### C56 -/

/-- C56, container, encoding.  For every implementation that keeps the contract of `Serialize` on the converted value, the
octets are those of the converted value, although the size hints are withheld. -/
theorem C56_container_encode (m : Build) (s : Ser β) (f : α → β) (v : α) (id c : Bytes) (h : Serializes s (f v) id c)
    (hfit : (tlv id c).length ≤ isizeMax) :
    (Ser.conv s f).idLen v = .ok none ∧ (Ser.conv s f).derContentsLen v = .ok none ∧
    toDer m (Ser.conv s f) v = .ok (tlv id c) ∧ toDer m s (f v) = .ok (tlv id c) ∧
    Serializes (Ser.conv s f) v id c :=
  ⟨rfl, rfl, toDer_ok m (conv_serializes f h) hfit, toDer_ok m h hfit, conv_serializes f h⟩

example (m : Build) : toDer m (Ser.conv (Ty.ser m (.int .u8)) (fun b : Bool => cond b 42 7)) true = .ok (tlv [0x02] [42]) :=
  (C56_container_encode m (Ty.ser m (.int .u8)) (fun b : Bool => cond b 42 7) true [0x02] [42]
    (Ty.serializes m (.int .u8) trivial 42 (by change IntTy.u8.InRange 42; decide)
      (by change (tlv [0x02] (intOctets 42)).length ≤ _; decide +kernel)) (by decide +kernel)).2.2.1

/-- C56, container, encoding, for the supported types. -/
theorem C56_container_encode_supported (m : Build) (t : Ty β) (f : α → β) (g : Back β α) (hs : t.serializable) (v : α)
    (hok : t.ok (f v)) (hfit : (t.der (f v)).length ≤ isizeMax) :
    toDer m (Ty.ser m (.conv t f g)) v = toDer m (Ty.ser m t) (f v) := by
  rw [(C41_to_der m (.conv t f g) hs v hok hfit).1, (C41_to_der m t hs (f v) hok hfit).1]
  rfl

example (m : Build) : toDer m (Ty.ser m (.conv (.int .u8) (fun v : Nat => 2 * (v : Int)) (.from_ Int.toNat))) 21 = toDer m (Ty.ser m (.int .u8)) 42 :=
  C56_container_encode_supported m (.int .u8) (fun v : Nat => 2 * (v : Int)) (.from_ Int.toNat) trivial 21
    (by change IntTy.u8.InRange 42; decide) (by change (tlv [0x02] (intOctets 42)).length ≤ _; decide +kernel)

/-- C56, container, decoding: for all inputs, the inner result is converted, inner errors are passed on unchanged, and an
error of the conversion is wrapped with a context. -/
theorem C56_container_decode (d : De β) (f : β → α) (f' : β → Except Chain α) (id : Bytes) (l : Length) (c : Bytes) :
    (∀ u, d.fromDer id c = .ok u → (De.from_ d f).fromDer id c = .ok (f u) ∧
      (∀ w, f' u = .ok w → (De.tryFrom d f').fromDer id c = .ok w) ∧
      (∀ x, f' u = .error x → (De.tryFrom d f').fromDer id c = .err (Error.anyhow x).context)) ∧
    (∀ u, d.fromBer id l c = .ok u → (De.from_ d f).fromBer id l c = .ok (f u) ∧
      (∀ w, f' u = .ok w → (De.tryFrom d f').fromBer id l c = .ok w) ∧
      (∀ x, f' u = .error x → (De.tryFrom d f').fromBer id l c = .err (Error.anyhow x).context)) ∧
    (∀ e, d.fromDer id c = .err e → (De.from_ d f).fromDer id c = .err e ∧ (De.tryFrom d f').fromDer id c = .err e) ∧
    (∀ e, d.fromBer id l c = .err e → (De.from_ d f).fromBer id l c = .err e ∧ (De.tryFrom d f').fromBer id l c = .err e) := by
  refine ⟨fun u h => ⟨?_, fun w hw => ?_, fun x hx => ?_⟩, fun u h => ⟨?_, fun w hw => ?_, fun x hx => ?_⟩,
    fun e h => ⟨?_, ?_⟩, fun e h => ⟨?_, ?_⟩⟩
  · simp only [De.from_, h]; rfl
  · simp only [De.tryFrom, h, Res.bind_ok, hw]; rfl
  · simp only [De.tryFrom, h, Res.bind_ok, hx]; rfl
  · simp only [De.from_, h]; rfl
  · simp only [De.tryFrom, h, Res.bind_ok, hw]; rfl
  · simp only [De.tryFrom, h, Res.bind_ok, hx]; rfl
  · simp only [De.from_, h]; rfl
  · simp only [De.tryFrom, h]; rfl
  · simp only [De.from_, h]; rfl
  · simp only [De.tryFrom, h]; rfl

/-- The inner value 5 is odd: the conversion fails, and its error gets a context. -/
example (m : Build) : (De.tryFrom (De.int m .u8) fun u => if u % 2 = 0 then Except.ok (u / 2) else .error .foreign).fromDer [0x02] [0x05] =
    .err (Error.anyhow .foreign).context :=
  ((C56_container_decode (De.int m .u8) (fun u => u) (fun u => if u % 2 = 0 then Except.ok (u / 2) else .error .foreign) [0x02] .indefinite [0x05]).1 5
    (by cases m <;> decide +kernel)).2.2 _ rfl

/-- `fs'` is `fs` without conversions; `p` converts a value. -/
inductive SerFields.Converts : {γ γ' : Type} → SerFields γ → SerFields γ' → (γ → γ') → Prop
  | nil : Converts .nil .nil fun v => v
  | conv {β δ γ γ' : Type} (s : Ser δ) (f : β → δ) {r : SerFields γ} {r' : SerFields γ'} {p : γ → γ'} : Converts r r' p →
      Converts (.cons (.conv s f) r) (.cons (.plain s) r') fun v => (f v.1, p v.2)
  | keep {β γ γ' : Type} (f : SerField β) {r : SerFields γ} {r' : SerFields γ'} {p : γ → γ'} : Converts r r' p →
      Converts (.cons f r) (.cons f r') fun v => (v.1, p v.2)

/-- `fs'` is `fs` without conversions; `q` converts a value, or fails. -/
inductive DeFields.Converts : {γ γ' : Type} → DeFields γ → DeFields γ' → (γ' → Option γ) → Prop
  | nil : Converts .nil .nil some
  | from_ {β δ γ γ' : Type} (d : De δ) (f : δ → β) {r : DeFields γ} {r' : DeFields γ'} {q : γ' → Option γ} : Converts r r' q →
      Converts (.cons (.from_ d f) r) (.cons (.plain d) r') fun u => (q u.2).map fun y => (f u.1, y)
  | tryFrom {β δ γ γ' : Type} (d : De δ) (f : δ → Except Chain β) {r : DeFields γ} {r' : DeFields γ'} {q : γ' → Option γ} :
      Converts r r' q →
      Converts (.cons (.tryFrom d f) r) (.cons (.plain d) r') fun u =>
        (f u.1).toOption.bind fun x => (q u.2).map fun y => (x, y)
  | keep {β γ γ' : Type} (f : DeField β) {r : DeFields γ} {r' : DeFields γ'} {q : γ' → Option γ} : Converts r r' q →
      Converts (.cons f r) (.cons f r') fun u => (q u.2).map fun y => (u.1, y)

theorem writeFields_converts (m : Build) {γ γ' : Type} {fs : SerFields γ} {fs' : SerFields γ'} {p : γ → γ'}
    (h : fs.Converts fs' p) (v : γ) : writeFields m fs v = writeFields m fs' (p v) := by
  induction h with
  | nil => rfl
  | conv s f _ ih => rw [writeFields, writeFields, ih]; rfl
  | keep f _ ih => rw [writeFields, writeFields, ih]

theorem fieldsWrite_converts {γ γ' : Type} {fs : SerFields γ} {fs' : SerFields γ'} {p : γ → γ'}
    (h : fs.Converts fs' p) (v : γ) (c : Bytes) : FieldsWrite fs v c ↔ FieldsWrite fs' (p v) c := by
  induction h generalizing c with
  | nil => exact Iff.rfl
  | conv s f _ ih => simp only [FieldsWrite, ih]; exact Iff.rfl
  | keep f _ ih => simp only [FieldsWrite, ih]

/-- Some field has a conversion. -/
def SerFields.hasConv : {γ : Type} → SerFields γ → Prop
  | _, .nil => False
  | _, .cons (.conv _ _) _ => True
  | _, .cons .skip r => r.hasConv
  | _, .cons (.plain _) r => r.hasConv

/-- Some field has a conversion. -/
def DeFields.hasConv : {γ : Type} → DeFields γ → Prop
  | _, .nil => False
  | _, .cons (.from_ _ _) _ => True
  | _, .cons (.tryFrom _ _) _ => True
  | _, .cons (.skip _) r => r.hasConv
  | _, .cons (.plain _) r => r.hasConv

theorem anyConv_of_hasConv {γ : Type} (fs : SerFields γ) (h : fs.hasConv) : anyConv fs = true := by
  induction fs with
  | nil => exact h.elim
  | cons f r ih =>
    cases f with
    | conv s g => rfl
    | skip => exact ih h
    | plain s => exact ih h

/-- C56, fields, encoding: the octets are those of the struct with the converted fields.  A converted field withholds the
size hint of the contents. -/
theorem C56_fields_encode (m : Build) (i : Bytes) {γ γ' : Type} (fs : SerFields γ) (fs' : SerFields γ') (p : γ → γ')
    (h : fs.Converts fs' p) (v : γ) :
    (Ser.struct m i fs).writeDerContents v = (Ser.struct m i fs').writeDerContents (p v) ∧
    (fs.hasConv → (Ser.struct m i fs).derContentsLen v = .ok none) ∧
    ∀ c, FieldsWrite fs' (p v) c → (tlv i c).length ≤ isizeMax →
      toDer m (Ser.struct m i fs) v = .ok (tlv i c) ∧ toDer m (Ser.struct m i fs') (p v) = .ok (tlv i c) := by
  refine ⟨writeFields_converts m h v, fun hc => ?_, fun c h1 hfit => ⟨?_, ?_⟩⟩
  · change fieldsLen m fs v = _
    rw [fieldsLen, anyConv_of_hasConv fs hc]; rfl
  · exact toDer_ok m (struct_serializes m i ((fieldsWrite_converts h v c).mpr h1) (fits_contents hfit)) hfit
  · exact toDer_ok m (struct_serializes m i h1 (fits_contents hfit)) hfit

example (m : Build) : toDer m (Ser.struct m [0x30] (.cons (.conv (Ser.int .u8) fun b : Bool => cond b 42 7) (.cons (.plain Ser.bool) .nil))) (true, true, ()) =
    .ok (tlv [0x30] [0x02, 0x01, 42, 0x01, 0x01, 0xff]) := by
  refine ((C56_fields_encode m [0x30] _ (.cons (.plain (Ser.int .u8)) (.cons (.plain Ser.bool) .nil)) _
    (.conv (Ser.int .u8) (fun b : Bool => cond b 42 7) (.keep (.plain Ser.bool) .nil)) (true, true, ())).2.2 _
    ⟨_, _, ⟨[0x02], [42], Ty.serializes m (.int .u8) trivial 42
      (by change IntTy.u8.InRange 42; decide) ?_, rfl⟩,
      ⟨_, _, ⟨[0x01], [0xff], Ty.serializes m .bool trivial true trivial ?_, rfl⟩, rfl, rfl⟩, by decide +kernel⟩ (by decide +kernel)).1
  · change (tlv [0x02] (intOctets 42)).length ≤ _; decide +kernel
  · change (tlv [0x01] [0xff]).length ≤ _; decide +kernel

theorem toOption_bind_some {x : Except Chain α} {g : α → Option β} {y : β} :
    x.toOption.bind g = some y ↔ ∃ a, x = .ok a ∧ g a = some y := by
  cases x <;> simp [Except.toOption]

theorem deField_plain (tmp : {δ : Type} → De δ → Bytes → Res (δ × Bytes)) (d : De α) (c : Bytes) :
    deField tmp (.plain d) c = tmp d c := rfl

theorem deFields_converts (tmp : {δ : Type} → De δ → Bytes → Res (δ × Bytes)) {γ γ' : Type} {fs : DeFields γ}
    {fs' : DeFields γ'} {q : γ' → Option γ} (h : fs.Converts fs' q) : ∀ (c : Bytes) (v : γ) (rest : Bytes),
    deFields tmp fs c = .ok (v, rest) ↔ ∃ u, deFields tmp fs' c = .ok (u, rest) ∧ q u = some v := by
  induction h with
  | nil => intro c v rest; simp [deFields]
  | from_ d f _ ih =>
    intro c v rest
    rw [deFields_cons]
    simp only [deFields_cons, deField_from, ih, Option.map_eq_some_iff, deField_plain]
    constructor
    · rintro ⟨mid, ⟨u, h1, h2⟩, w, h3, h4⟩
      exact ⟨(u, w), ⟨mid, h1, h3⟩, v.2, h4, by rw [← h2]⟩
    · rintro ⟨⟨u, w⟩, ⟨mid, h1, h3⟩, y, h4, rfl⟩
      exact ⟨mid, ⟨u, h1, rfl⟩, w, h3, h4⟩
  | tryFrom d f _ ih =>
    intro c v rest
    rw [deFields_cons]
    simp only [deFields_cons, deField_tryFrom, deField_plain, ih, toOption_bind_some, Option.map_eq_some_iff]
    constructor
    · rintro ⟨mid, ⟨u, h1, h2⟩, w, h3, h4⟩
      exact ⟨(u, w), ⟨mid, h1, h3⟩, v.1, h2, v.2, h4, rfl⟩
    · rintro ⟨⟨u, w⟩, ⟨mid, h1, h3⟩, x, h2, y, h4, rfl⟩
      exact ⟨mid, ⟨u, h1, h2⟩, w, h3, h4⟩
  | keep f _ ih =>
    intro c v rest
    rw [deFields_cons]
    simp only [deFields_cons, ih, Option.map_eq_some_iff]
    constructor
    · rintro ⟨mid, h1, w, h3, h4⟩
      exact ⟨(v.1, w), ⟨mid, h1, h3⟩, v.2, h4, rfl⟩
    · rintro ⟨⟨u, w⟩, ⟨mid, h1, h3⟩, y, h4, rfl⟩
      exact ⟨mid, h1, w, h3, h4⟩

/-- C56, fields, decoding: the result is `v` exactly when decoding without the conversions gives a value which they convert
to `v`. -/
theorem C56_fields_decode (m : Build) (i : Bytes) {γ γ' : Type} (fs : DeFields γ) (fs' : DeFields γ') (q : γ' → Option γ)
    (h : fs.Converts fs' q) (id : Bytes) (indef : Bool) (raw : Bytes) (v : γ) :
    ((De.struct m i fs).fromDer id raw = .ok v ↔ ∃ u, (De.struct m i fs').fromDer id raw = .ok u ∧ q u = some v) ∧
    ((De.struct m i fs).fromBer id (lenOf indef raw) raw = .ok v ↔
      ∃ u, (De.struct m i fs').fromBer id (lenOf indef raw) raw = .ok u ∧ q u = some v) := by
  constructor
  · simp only [De.struct]
    split
    · simp
    · simp only [fromDerContents_iff]; exact deFields_converts _ h _ _ _
  · simp only [De.struct]
    split
    · simp
    · simp only [fromBerContents_iff, deFields_converts _ h]
      constructor
      · rintro ⟨c, h1, u, h2, h3⟩; exact ⟨u, ⟨c, h1, h2⟩, h3⟩
      · rintro ⟨u, ⟨c, h1, h2⟩, h3⟩; exact ⟨c, h1, u, h2, h3⟩

example (m : Build) : (De.struct m [0x30] (.cons (.tryFrom (De.int m .u8) fun u => if u = 5 then Except.ok (u + 1) else .error .foreign) .nil)).fromDer
    [0x30] [0x02, 0x01, 0x05] = .ok (6, ()) :=
  (C56_fields_decode m [0x30] _ (.cons (.plain (De.int m .u8)) .nil) _ (.tryFrom _ _ .nil) [0x30] false [0x02, 0x01, 0x05] (6, ())).1.mpr
    ⟨(5, ()), by cases m <;> decide +kernel, rfl⟩

/-- C56.  All conversions can be removed, so the two theorems say everything about them. -/
theorem C56_remove_all :
    (∀ {γ : Type} (fs : SerFields γ), ∃ (γ' : Type) (fs' : SerFields γ') (p : γ → γ'), fs.Converts fs' p ∧ ¬ fs'.hasConv) ∧
    (∀ {γ : Type} (fs : DeFields γ), ∃ (γ' : Type) (fs' : DeFields γ') (q : γ' → Option γ), fs.Converts fs' q ∧ ¬ fs'.hasConv) := by
  constructor
  · intro γ fs
    induction fs with
    | nil => exact ⟨_, _, _, .nil, id⟩
    | cons f r ih =>
      obtain ⟨γ', r', p, h1, h2⟩ := ih
      cases f with
      | skip => exact ⟨_, _, _, .keep _ h1, h2⟩
      | plain s => exact ⟨_, _, _, .keep _ h1, h2⟩
      | conv s g => exact ⟨_, _, _, .conv s g h1, h2⟩
  · intro γ fs
    induction fs with
    | nil => exact ⟨_, _, _, .nil, id⟩
    | cons f r ih =>
      obtain ⟨γ', r', q, h1, h2⟩ := ih
      cases f with
      | skip d => exact ⟨_, _, _, .keep _ h1, h2⟩
      | plain s => exact ⟨_, _, _, .keep _ h1, h2⟩
      | from_ s g => exact ⟨_, _, _, .from_ s g h1, h2⟩
      | tryFrom s g => exact ⟨_, _, _, .tryFrom s g h1, h2⟩

example : ∃ (γ' : Type) (fs' : SerFields γ') (p : Nat × Bool × Unit → γ'),
    (SerFields.cons (.conv (Ser.int .u8) fun v : Nat => 2 * (v : Int)) (.cons (.plain Ser.bool) .nil)).Converts fs' p ∧ ¬ fs'.hasConv :=
  C56_remove_all.1 _

/-- C56, round trip of a container whose conversions are inverse on the value; for converted fields see
`C54_round_trip`. -/
theorem C56_container_round_trip (m m' : Build) (o : HashOrder) (t : Ty β) (f : α → β) (g : Back β α) (hs : t.serializable)
    (hd : t.deserializable) (hr : t.restorable) (he : t.exact) (v : α) (hinv : g.apply (f v) = .ok v) (hok : t.ok (f v))
    (hc : t.convertible (f v)) (hfit : (t.der (f v)).length ≤ isizeMax) :
    (toDer m (Ty.ser m (.conv t f g)) v >>= fun p => fromDer (Ty.de m' o (.conv t f g)) p) = .ok v := by
  obtain ⟨p, w, h1, h2, u, h3, h4⟩ := C43_der_round_trip m m' o (.conv t f g) hs hd hr v hok
    ⟨hc, fun u h => ⟨v, by rw [Ty.exact_faithful t he (f v) u h, hinv]⟩⟩ hfit
  rw [Ty.exact_faithful t he (f v) u h3, hinv] at h4
  rw [h1, Res.bind_ok, h2, Except.ok.inj h4]

/-- A container encoded as a `u8`; the conversion back fails on odd numbers, and is inverse on 21. -/
example (m m' : Build) (o : HashOrder) :
    (toDer m (Ty.ser m (.conv (.int .u8) (fun v : Nat => 2 * (v : Int))
        (.tryFrom fun u => if u % 2 = 0 then .ok (u / 2).toNat else .error .foreign))) 21 >>= fun p =>
      fromDer (Ty.de m' o (.conv (.int .u8) (fun v : Nat => 2 * (v : Int))
        (.tryFrom fun u => if u % 2 = 0 then .ok (u / 2).toNat else .error .foreign))) p) = .ok 21 := by
  refine C56_container_round_trip m m' o (.int .u8) _ _ trivial trivial trivial trivial 21 rfl ?_ trivial ?_
  · exact (by decide : IntTy.u8.InRange 42)
  · change (tlv [0x02] (intOctets 42)).length ≤ _
    decide +kernel

/-- A struct with a converted field. -/
example : (SerFields.cons (.conv (Ser.int .u8) fun v : Nat => 2 * (v : Int)) (.cons (.plain Ser.bool) .nil)).Converts
    (.cons (.plain (Ser.int .u8)) (.cons (.plain Ser.bool) .nil)) (fun v => (2 * (v.1 : Int), v.2.1, v.2.2)) ∧
    (SerFields.cons (.conv (Ser.int .u8) fun v : Nat => 2 * (v : Int)) (.cons (.plain Ser.bool) .nil)).hasConv ∧
    FieldsWrite (.cons (.plain (Ser.int .u8)) (.cons (.plain Ser.bool) .nil)) (42, true, ()) [0x02, 0x01, 42, 0x01, 0x01, 0xff] := by
  refine ⟨.conv _ _ (.keep _ .nil), trivial, _, _, ⟨[0x02], [42], Ty.serializes .release (.int .u8) trivial 42
    (by change IntTy.u8.InRange 42; decide) ?_, rfl⟩,
    ⟨_, _, ⟨[0x01], [0xff], Ty.serializes .release .bool trivial true trivial ?_, rfl⟩, rfl, rfl⟩, by decide +kernel⟩
  · change (tlv [0x02] (intOctets 42)).length ≤ _; decide +kernel
  · change (tlv [0x01] [0xff]).length ≤ _; decide +kernel

/-! ### C57 -/

/-- C57.  Decoding a derived struct gives `v` exactly when the identifier matches and the contents are one value for each
field not skipped, in order, from which the fields of `v` are obtained.  For arbitrary implementations for the types of
the fields. -/
theorem C57_struct_decodes (m : Build) (i : Bytes) (fs : DeFields γ) (id : Bytes) (indef : Bool) (raw : Bytes) (v : γ) :
    ((De.struct m i fs).fromDer id raw = .ok v ↔ id = i ∧ fs.Decodes DerTakes raw v) ∧
    (raw.length ≤ isizeMax → ((De.struct m i fs).fromBer id (lenOf indef raw) raw = .ok v ↔
      id = i ∧ ∃ c, IsBody indef raw c ∧ fs.Decodes BerTakes c v)) := by
  constructor
  · simp only [De.struct]
    split
    · rename_i h
      simp [h]
    · rename_i h
      have h := Decidable.not_not.mp h
      rw [fromDerContents_iff, deFields_iff (derStepper raw.length) fs raw v [] (Nat.le_refl _)]
      simp [h]
  · intro hl
    simp only [De.struct]
    split
    · rename_i h
      simp [h]
    · rename_i h
      have h := Decidable.not_not.mp h
      rw [fromBerContents_iff]
      simp only [h, true_and]
      refine exists_congr fun c => and_congr_right fun hb => ?_
      rw [deFields_iff berStepper fs c v [] (Nat.le_trans (isBody_length hb) hl)]
      simp

example (m : Build) : (De.struct m [0x30] (.cons (.plain (De.bool m)) (.cons (.skip "x") .nil))).fromDer [0x30] [0x01, 0x01, 0xff] = .ok (true, "x", ()) :=
  ((C57_struct_decodes m [0x30] _ [0x30] false _ _).1).mpr ⟨rfl, [0x01, 0x01, 0xff], [], rfl,
    ⟨[0x01], [0xff], (⟨0, 0, 1, by decide, by decide, by decide +kernel⟩ : IsId [0x01]), by decide, by decide +kernel, by cases m <;> decide +kernel⟩, rfl, rfl⟩

/-- C57.  So the contents are as many values as there are fields not skipped. -/
theorem C57_number_of_values (fs : DeFields γ) (c : Bytes) (v : γ) :
    (fs.Decodes DerTakes c v → ∃ l : List (Bytes × Bytes), l.length = fs.kept ∧ c = l.flatMap tlvOf ∧ ∀ x ∈ l, IsId x.1) ∧
    (fs.Decodes BerTakes c v → ∃ l : List Bytes, l.length = fs.kept ∧ c = l.flatten ∧ ∀ x ∈ l, IsBer x) := by
  constructor
  · intro h
    induction fs generalizing c with
    | nil => exact ⟨[], rfl, h, by simp⟩
    | cons f r ih =>
      have step : ∀ {δ : Type} (d : De δ) (p c' : Bytes) (u : δ), DerTakes d p u → r.Decodes DerTakes c' v.2 →
          ∃ l : List (Bytes × Bytes), l.length = r.kept + 1 ∧ p ++ c' = l.flatMap tlvOf ∧ ∀ x ∈ l, IsId x.1 := by
        intro δ d p c' u ⟨id, b, h1, h2, h3, h4⟩ h5
        obtain ⟨l, e1, e2, e3⟩ := ih c' v.2 h5
        refine ⟨(id, b) :: l, by simp [e1], by rw [h3, e2]; rfl, ?_⟩
        intro x hx
        rcases List.mem_cons.mp hx with rfl | hx
        · exact h1
        · exact e3 x hx
      cases f with
      | skip dflt => exact ih c v.2 h.2
      | plain d => obtain ⟨p, c', rfl, h1, h2⟩ := h; exact step d p c' _ h1 h2
      | from_ d f => obtain ⟨p, c', u, rfl, h1, _, h2⟩ := h; exact step d p c' _ h1 h2
      | tryFrom d f => obtain ⟨p, c', u, rfl, h1, _, h2⟩ := h; exact step d p c' _ h1 h2
  · intro h
    induction fs generalizing c with
    | nil => exact ⟨[], rfl, h, by simp⟩
    | cons f r ih =>
      have step : ∀ {δ : Type} (d : De δ) (p c' : Bytes) (u : δ), BerTakes d p u → r.Decodes BerTakes c' v.2 →
          ∃ l : List Bytes, l.length = r.kept + 1 ∧ p ++ c' = l.flatten ∧ ∀ x ∈ l, IsBer x := by
        intro δ d p c' u ⟨id, indef, raw, h1, h2⟩ h5
        obtain ⟨l, e1, e2, e3⟩ := ih c' v.2 h5
        refine ⟨p :: l, by simp [e1], by rw [e2]; rfl, ?_⟩
        intro x hx
        rcases List.mem_cons.mp hx with rfl | hx
        · exact berValue_isBer h1
        · exact e3 x hx
      cases f with
      | skip dflt => exact ih c v.2 h.2
      | plain d => obtain ⟨p, c', rfl, h1, h2⟩ := h; exact step d p c' _ h1 h2
      | from_ d f => obtain ⟨p, c', u, rfl, h1, _, h2⟩ := h; exact step d p c' _ h1 h2
      | tryFrom d f => obtain ⟨p, c', u, rfl, h1, _, h2⟩ := h; exact step d p c' _ h1 h2

example (m : Build) : ∃ l : List (Bytes × Bytes), l.length = 1 ∧ [0x01, 0x01, 0xff] = l.flatMap tlvOf ∧ ∀ x ∈ l, IsId x.1 :=
  (C57_number_of_values (.cons (.plain (De.bool m)) (.cons (.skip "x") .nil)) [0x01, 0x01, 0xff] (true, "x", ())).1
    ⟨[0x01, 0x01, 0xff], [], rfl,
    ⟨[0x01], [0xff], (⟨0, 0, 1, by decide, by decide, by decide +kernel⟩ : IsId [0x01]), by decide, by decide +kernel, by cases m <;> decide +kernel⟩, rfl, rfl⟩

/-- C57.  Octets after the values of the fields give `ExtraContentsOctet`. -/
theorem C57_extra_octets (m : Build) (i : Bytes) (fs : DeFields γ) (c rest : Bytes) (v : γ) (hrest : rest ≠ []) :
    (fs.Decodes DerTakes c v → (De.struct m i fs).fromDer i (c ++ rest) = .err .extraContentsOctet) ∧
    (∀ indef raw, fs.Decodes BerTakes c v → IsBody indef raw (c ++ rest) → raw.length ≤ isizeMax →
      (De.struct m i fs).fromBer i (lenOf indef raw) raw = .err .extraContentsOctet) := by
  constructor
  · intro h
    have e := (deFields_iff (derStepper (c ++ rest).length) fs (c ++ rest) v rest (Nat.le_refl _)).mpr ⟨c, rfl, h⟩
    simp only [De.struct, ne_eq, not_true_eq_false, if_false, fromDerContents, e, Res.bind_ok]
    exact finish_extra hrest
  · intro indef raw h hb hl
    have e := (deFields_iff berStepper fs (c ++ rest) v rest (Nat.le_trans (isBody_length hb) hl)).mpr ⟨c, rfl, h⟩
    simp only [De.struct, ne_eq, not_true_eq_false, if_false, fromBerContents, structContents_eq, (excludeEoc_iff m indef raw _).mpr hb, e, Res.bind_ok]
    exact finish_extra hrest

example (m : Build) : (De.struct m [0x30] (.cons (.plain (De.bool m)) .nil)).fromDer [0x30] [0x01, 0x01, 0xff, 0x05, 0x00] = .err .extraContentsOctet :=
  (C57_extra_octets m [0x30] (.cons (.plain (De.bool m)) .nil) [0x01, 0x01, 0xff] [0x05, 0x00] (true, ()) (by simp)).1
    ⟨[0x01, 0x01, 0xff], [], rfl,
    ⟨[0x01], [0xff], (⟨0, 0, 1, by decide, by decide, by decide +kernel⟩ : IsId [0x01]), by decide, by decide +kernel, by cases m <;> decide +kernel⟩, rfl⟩

/-- C57.  Contents from which octets are missing at the end (part of a value or whole values) give an error. -/
theorem C57_missing_octets (m : Build) (i : Bytes) (fs : DeFields γ) (c c1 c2 : Bytes) (v : γ) (hc : c = c1 ++ c2) (h2 : c2 ≠ []) :
    (fs.Decodes DerTakes c v → ∃ e, (De.struct m i fs).fromDer i c1 = .err e) ∧
    (∀ indef raw, fs.Decodes BerTakes c v → c.length ≤ isizeMax → IsBody indef raw c1 →
      ∃ e, (De.struct m i fs).fromBer i (lenOf indef raw) raw = .err e) := by
  constructor
  · intro h
    obtain ⟨e, he⟩ := deFields_cut (derStepper c.length) fs c c1 c2 v h hc h2 (Nat.le_refl _)
    refine ⟨e, ?_⟩
    simp only [De.struct, ne_eq, not_true_eq_false, if_false, fromDerContents]
    exact bind_err he
  · intro indef raw h hl hb
    obtain ⟨e, he⟩ := deFields_cut berStepper fs c c1 c2 v h hc h2 hl
    refine ⟨e, ?_⟩
    simp only [De.struct, ne_eq, not_true_eq_false, if_false, fromBerContents, structContents_eq, (excludeEoc_iff m indef raw _).mpr hb, Res.bind_ok]
    exact bind_err he

example (m : Build) : ∃ e, (De.struct m [0x30] (.cons (.plain (De.bool m)) .nil)).fromDer [0x30] [0x01, 0x01] = .err e :=
  (C57_missing_octets m [0x30] (.cons (.plain (De.bool m)) .nil) [0x01, 0x01, 0xff] [0x01, 0x01] [0xff] (true, ()) rfl (by simp)).1
    ⟨[0x01, 0x01, 0xff], [], rfl,
    ⟨[0x01], [0xff], (⟨0, 0, 1, by decide, by decide, by decide +kernel⟩ : IsId [0x01]), by decide, by decide +kernel, by cases m <;> decide +kernel⟩, rfl⟩

/-- C57 for the variants of an enum: the variant with the identifier is decoded as a struct. -/
theorem C57_variants (m : Build) (i : Bytes) (fs : DeFields γ) {ρ : Type} (r : DeVariants ρ) (id : Bytes) (l : Length) (c : Bytes) :
    (De.enum m (.cons i fs r)).fromDer id c = (if id = i then (De.struct m i fs).fromDer i c >>= fun v => .ok (.inl v)
      else (De.enum m r).fromDer id c >>= fun v => .ok (.inr v)) ∧
    (De.enum m (.cons i fs r)).fromBer id l c = (if id = i then (De.struct m i fs).fromBer i l c >>= fun v => .ok (.inl v)
      else (De.enum m r).fromBer id l c >>= fun v => .ok (.inr v)) := by
  constructor
  · simp only [De.enum, De.struct, DeVariants.pick, ne_eq, not_true_eq_false, if_false]; rfl
  · simp only [De.enum, De.struct, DeVariants.pick, ne_eq, not_true_eq_false, if_false]; rfl

/-- A struct of two fields with a skipped one between, with the contents of a value, of a value with an extra octet, and of a
value without the last octet. -/
example (m m' : Build) : let fs := DeFields.cons (.plain (De.bool m)) (.cons (.skip "x") (.cons (.tryFrom (De.int m .u8) fun u =>
      if u = 5 then Except.ok (u + 1) else .error .foreign) .nil))
    (De.struct m' [0x30] fs).fromDer [0x30] [0x01, 0x01, 0xff, 0x02, 0x01, 0x05] = .ok (true, "x", 6, ()) ∧
    (De.struct m' [0x30] fs).fromDer [0x30] [0x01, 0x01, 0xff, 0x02, 0x01, 0x05, 0x00] = .err .extraContentsOctet ∧
    ∃ e, (De.struct m' [0x30] fs).fromDer [0x30] [0x01, 0x01, 0xff, 0x02, 0x01] = .err e := by
  intro fs
  have h : fs.Decodes DerTakes [0x01, 0x01, 0xff, 0x02, 0x01, 0x05] (true, "x", 6, ()) :=
    ⟨[0x01, 0x01, 0xff], [0x02, 0x01, 0x05], rfl, ⟨[0x01], [0xff], (⟨0, 0, 1, by decide, by decide, by decide +kernel⟩ : IsId [0x01]), by decide, by decide +kernel, by cases m <;> decide +kernel⟩, rfl,
      [0x02, 0x01, 0x05], [], 5, rfl, ⟨[0x02], [0x05], (⟨0, 0, 2, by decide, by decide, by decide +kernel⟩ : IsId [0x02]), by decide, by decide +kernel, by cases m <;> decide +kernel⟩, rfl, rfl⟩
  exact ⟨((C57_struct_decodes m' [0x30] fs [0x30] false _ _).1).mpr ⟨rfl, h⟩, (C57_extra_octets m' [0x30] fs _ [0x00] _ (by simp)).1 h,
    (C57_missing_octets m' [0x30] fs _ [0x01, 0x01, 0xff, 0x02, 0x01] [0x05] _ rfl (by simp)).1 h⟩

end Bsn1
