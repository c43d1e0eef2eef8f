import Verif.Lemmas.Faults

/-!
# Errors of the decoders of types
-/

namespace Bsn1

open Spec

/-! ### Primitives -/

theorem toBoolDer_errs (c : Bytes) : (ContentsRef.toBoolDer c).Errs (boolFault .der c) := by
  match c with
  | [] =>
    exact (Res.errs_err .unterminatedBytes).congr fun e => by simp [boolFault]
  | [b] =>
    by_cases h0 : b = 0
    · subst h0; exact (Res.errs_ok false).congr fun e => by simp [boolFault]
    · by_cases h1 : b = 0xff
      · subst h1; exact (Res.errs_ok true).congr fun e => by simp [boolFault]
      · have : ContentsRef.toBoolDer [b] = .err .invalidDerBooleanContents := by simp [ContentsRef.toBoolDer, getAt, h0, h1]
        rw [this]
        exact (Res.errs_err _).congr fun e => by simp [boolFault, h0, h1]
  | b :: b' :: r =>
    have : ContentsRef.toBoolDer (b :: b' :: r) = .err .extraContentsOctet := by simp [ContentsRef.toBoolDer]
    rw [this]
    exact (Res.errs_err _).congr fun e => by simp [boolFault]

theorem toBoolBer_errs (lax : Bool) (c : Bytes) : (ContentsRef.toBoolBer c).Errs (boolFault (.ber lax) c) := by
  match c with
  | [] =>
    exact (Res.errs_err .unterminatedBytes).congr fun e => by simp [boolFault]
  | [b] =>
    have : ContentsRef.toBoolBer [b] = .ok (decide (b ≠ 0)) := by
      by_cases h0 : b = 0 <;> simp [ContentsRef.toBoolBer, getAt, h0]
    rw [this]
    exact (Res.errs_ok _).congr fun e => by simp [boolFault]
  | b :: b' :: r =>
    have : ContentsRef.toBoolBer (b :: b' :: r) = .err .extraContentsOctet := by simp [ContentsRef.toBoolBer]
    rw [this]
    exact (Res.errs_err _).congr fun e => by simp [boolFault]

theorem toInteger_errs (t : IntTy) (c : Bytes) : (ContentsRef.toInteger t c).Errs (intFault t c) := by
  intro e
  rw [toInteger_spec, intFault]
  by_cases h1 : c = []
  · subst h1; simp [IntMinimal, eq_comm]
  · rw [if_neg h1]
    by_cases h2 : IntMinimal c
    · rw [if_neg (not_not.2 h2)]
      by_cases h3 : t.InRange (intVal c)
      · simp [h1, h2, h3]
      · simp [h1, h2, h3, eq_comm]
    · simp [h1, h2, eq_comm]

theorem strFromUtf8_errs (c : Bytes) :
    (strFromUtf8 c).Errs fun e => (¬ ∃ s : String, c = s.toByteArray.data.toList) ∧ e = .invalidUtf8 := by
  refine (strFromUtf8_settled c).errs (fun v h e he => he.1 ⟨v, (strFromUtf8_iff c v).1 h⟩) fun e h e' => ?_
  have h0 : ¬ ∃ s : String, c = s.toByteArray.data.toList := by
    rintro ⟨s, hs⟩
    rw [(strFromUtf8_iff c s).2 hs] at h
    cases h
  have : e = .invalidUtf8 := by
    rw [strFromUtf8] at h
    split at h <;> cases h
    rfl
  rw [this]
  exact ⟨fun h => h.2, fun h => ⟨h0, h⟩⟩

theorem assert_errs (m : Build) (indef : Bool) (raw : Bytes) {k : Res α} {E : Error → Prop} (hk : k.Errs E) :
    (debugAssert m ((lenOf indef raw).definite? == some raw.length) >>= fun _ => k).Errs fun e =>
      (Rules.ber (decide (m = .release))).Admits indef ∧ E e := by
  cases indef with
  | false =>
    have h : debugAssert m ((lenOf false raw).definite? == some raw.length) = .ok () := by
      cases m <;> simp [debugAssert, lenOf, Length.definite?]
    rw [h, Res.bind_ok]
    exact hk.congr fun e => by simp [Rules.Admits]
  | true =>
    cases m with
    | release =>
      exact hk.congr fun e => by simp [Rules.Admits]
    | debug =>
      intro e
      exact ⟨(nomatch ·), (by rintro ⟨h, _⟩; simp [Rules.Admits] at h)⟩

/-! ### Fields -/

theorem field_errs {r : Rules} {R : Bytes → Bool → Bytes → β → Prop} {F : Bytes → Bool → Bytes → Error → Prop} {Q : Bytes → Error → Prop}
    {f : β × Bytes → Res γ} {x : Res (β × Bytes)} {bytes : Bytes} (hx : x.Errs (firstFault r F bytes))
    (hv : ∀ v rest, x = .ok (v, rest) ↔ ∃ id d raw, r.Starts bytes id d raw rest ∧ R id d raw v)
    (hf : ∀ v rest, x = .ok (v, rest) → (f (v, rest)).Errs (Q rest)) :
    (x >>= f).Errs fun e => firstFault r F bytes e ∨
      ∃ id d raw rest v, r.Starts bytes id d raw rest ∧ R id d raw v ∧ Q rest e := by
  refine (hx.bind (Q := fun a => Q a.2) fun a e => hf a.1 a.2 e).congr fun e => or_congr Iff.rfl ?_
  constructor
  · rintro ⟨⟨v, rest⟩, h1, h2⟩
    obtain ⟨id, d, raw, h3, h4⟩ := (hv v rest).1 h1
    exact ⟨id, d, raw, rest, v, h3, h4, h2⟩
  · rintro ⟨id, d, raw, rest, v, h3, h4, h2⟩
    exact ⟨(v, rest), (hv v rest).2 ⟨id, d, raw, h3, h4⟩, h2⟩

theorem convField_errs {tmp : {δ : Type} → De δ → Bytes → Res (δ × Bytes)} {d : De β} (g : Back β α) {r : Rules}
    {R : Bytes → Bool → Bytes → β → Prop} {F : Bytes → Bool → Bytes → Error → Prop} {Q : Bytes → Error → Prop}
    {f : α × Bytes → Res γ} {bytes : Bytes} (hx : (tmp d bytes).Errs (firstFault r F bytes))
    (hv : ∀ v rest, tmp d bytes = .ok (v, rest) ↔ ∃ id d raw, r.Starts bytes id d raw rest ∧ R id d raw v)
    (hf : ∀ u v rest, tmp d bytes = .ok (u, rest) → (f (v, rest)).Errs (Q rest)) :
    (deField tmp (backField d g) bytes >>= f).Errs fun e => firstFault r F bytes e ∨
      ∃ id d raw rest u, r.Starts bytes id d raw rest ∧ R id d raw u ∧ (convFault g u e ∨ (∃ v, g.apply u = .ok v) ∧ Q rest e) := by
  have h1 : (deField tmp (backField d g) bytes >>= f) = (tmp d bytes >>= fun p => (match g.apply p.1 with
      | .ok v => f (v, p.2)
      | .error c => .err (.anyhow (.context c)))) := by
    cases g with
    | from_ g =>
      change ((tmp d bytes >>= fun p => pure (g p.1, p.2)) >>= f) = _
      cases tmp d bytes <;> rfl
    | tryFrom g =>
      change ((tmp d bytes >>= fun p => convErr (g p.1) >>= fun v => pure (v, p.2)) >>= f) = _
      cases tmp d bytes with
      | ok p =>
        change ((convErr (g p.1) >>= fun v => pure (v, p.2)) >>= f) = (match g p.1 with
          | .ok v => f (v, p.2)
          | .error c => .err (.anyhow (.context c)))
        cases g p.1 <;> rfl
      | _ => rfl
  rw [h1]
  refine (hx.bind (Q := fun p e => convFault g p.1 e ∨ (∃ v, g.apply p.1 = .ok v) ∧ Q p.2 e) fun p hp => ?_).congr fun e => or_congr Iff.rfl ?_
  · cases ha : g.apply p.1 with
    | ok v =>
      refine (hf p.1 v p.2 hp).congr fun e => ?_
      simp only [convFault, ha]
      constructor
      · exact fun h => .inr ⟨⟨v, rfl⟩, h⟩
      · rintro (⟨_, h, _⟩ | h)
        · cases h
        · exact h.2
    | error c =>
      refine (Res.errs_err _).congr fun e => ?_
      simp only [convFault, ha]
      constructor
      · exact fun h => .inl ⟨c, rfl, h⟩
      · rintro (⟨_, h, h'⟩ | ⟨⟨_, h⟩, _⟩)
        · cases h; exact h'
        · cases h
  · constructor
    · rintro ⟨⟨v, rest⟩, h1, h2⟩
      obtain ⟨id, d, raw, h3, h4⟩ := (hv v rest).1 h1
      exact ⟨id, d, raw, rest, v, h3, h4, h2⟩
    · rintro ⟨id, d, raw, rest, v, h3, h4, h2⟩
      exact ⟨(v, rest), (hv v rest).2 ⟨id, d, raw, h3, h4⟩, h2⟩

/-- The test for octets left commutes with the gathering of the values. -/
theorem finish_cons {tmp : {δ : Type} → De δ → Bytes → Res (δ × Bytes)} {f : DeField β} {r : DeFields γ} {bytes : Bytes}
    {E : Error → Prop} (h : (deField tmp f bytes >>= fun p => deFields tmp r p.2 >>= finish).Errs E) :
    (deFields tmp (.cons f r) bytes >>= finish).Errs E := by
  intro e
  rw [← h e]
  change ((deField tmp f bytes >>= fun p => deFields tmp r p.2 >>= fun q => pure ((p.1, q.1), q.2)) >>= finish) = _ ↔ _
  cases deField tmp f bytes with
  | ok p =>
    change ((deFields tmp r p.2 >>= fun q => pure ((p.1, q.1), q.2)) >>= finish) = .err e ↔ (deFields tmp r p.2 >>= finish) = .err e
    cases deFields tmp r p.2 with
    | ok q =>
      change finish ((p.1, q.1), q.2) = .err e ↔ finish q = .err e
      simp only [finish]
      split <;> simp
    | err e' => exact ⟨fun h => by cases h; rfl, fun h => by cases h; rfl⟩
    | panic => exact ⟨(nomatch ·), (nomatch ·)⟩
    | ub => exact ⟨(nomatch ·), (nomatch ·)⟩
  | err e' => exact ⟨fun h => by cases h; rfl, fun h => by cases h; rfl⟩
  | panic => exact ⟨(nomatch ·), (nomatch ·)⟩
  | ub => exact ⟨(nomatch ·), (nomatch ·)⟩

theorem finish_errs (c : Bytes) : (finish ((), c)).Errs fun e => c ≠ [] ∧ e = .extraContentsOctet := by
  by_cases h : c = []
  · subst h; exact (Res.errs_ok ()).congr fun e => by simp
  · rw [finish, if_neg (by simpa using h)]
    exact (Res.errs_err _).congr fun e => by simp [h]

theorem derTmp_starts {d : De β} {R : Bytes → Bytes → β → Prop} (hd : DecodesDer d R) (bytes : Bytes) (v : β) (rest : Bytes) :
    derTmpVal d bytes = .ok (v, rest) ↔ ∃ id i raw, Rules.der.Starts bytes id i raw rest ∧ R id raw v := by
  rw [derTmpVal_iff]
  constructor
  · rintro ⟨id, b, h1, h2, h3, h4⟩; exact ⟨id, false, b, ⟨rfl, h1, h2, h4⟩, (hd id b v).1 h3⟩
  · rintro ⟨id, _, b, ⟨rfl, h1, h2, h4⟩, h3⟩; exact ⟨id, b, h1, h2, (hd id b v).2 h3, h4⟩

theorem berTmp_starts {d : De β} {R : Bytes → Bool → Bytes → β → Prop} (lax : Bool) (hd : DecodesBer d R) (bytes : Bytes)
    (hl : bytes.length ≤ isizeMax) (v : β) (rest : Bytes) :
    berTmpVal d bytes = .ok (v, rest) ↔ ∃ id i raw, (Rules.ber lax).Starts bytes id i raw rest ∧ R id i raw v := by
  rw [tmp_iff hd bytes hl]
  constructor
  · rintro ⟨p, id, i, raw, h1, h2, h3⟩; exact ⟨id, i, raw, ⟨p, h1, h3⟩, h2⟩
  · rintro ⟨id, i, raw, ⟨p, h1, h3⟩, h2⟩; exact ⟨p, id, i, raw, h1, h2, h3⟩

/-! ### Transparent structs -/

theorem one_errs {x : Res α} {E Q : Error → Prop} {R : α → Prop} {δ : Type} {y : Res γ} {f : α → γ → δ} (hx : x.Errs E)
    (hv : ∀ v, x = .ok v ↔ R v) (hy : y.Errs Q) :
    (mapErrContext x >>= fun v => y >>= fun vs => (pure (f v vs) : Res δ)).Errs fun e =>
      (∃ e', e = wrapped e' ∧ E e') ∨ (∃ v, R v) ∧ Q e := by
  refine (hx.mapErr.bind fun v _ => hy.bindOk fun _ => ⟨_, rfl⟩).congr fun e => or_congr Iff.rfl ?_
  rw [exists_and_right]
  exact and_congr (exists_congr fun v => by rw [mapErr_ok]; exact hv v) Iff.rfl

theorem convOne_errs {tmp : {δ : Type} → De δ → Res δ} {d : De β} (g : Back β α) {E Q : Error → Prop} {R : β → Prop} {δ : Type} {y : Res γ}
    {f : α → γ → δ} (hx : (tmp d).Errs E) (hv : ∀ v, tmp d = .ok v ↔ R v) (hy : y.Errs Q) :
    (deFieldTransparent tmp (backField d g) >>= fun v => y >>= fun vs => (pure (f v vs) : Res δ)).Errs fun e =>
      (∃ e', e = wrapped e' ∧ E e') ∨ ∃ u, R u ∧ (convFault g u e ∨ (∃ v, g.apply u = .ok v) ∧ Q e) := by
  have h1 : (deFieldTransparent tmp (backField d g) >>= fun v => y >>= fun vs => (pure (f v vs) : Res δ)) =
      (mapErrContext (tmp d) >>= fun u => (match g.apply u with
      | .ok v => y >>= fun vs => (pure (f v vs) : Res δ)
      | .error c => .err (.anyhow (.context c)))) := by
    cases g with
    | from_ g =>
      change ((mapErrContext (tmp d) >>= fun u => pure (g u)) >>= fun v => y >>= fun vs => (pure (f v vs) : Res δ)) = _
      cases mapErrContext (tmp d) <;> rfl
    | tryFrom g =>
      change ((mapErrContext (tmp d) >>= fun u => convErr (g u)) >>= fun v => y >>= fun vs => (pure (f v vs) : Res δ)) = _
      cases mapErrContext (tmp d) with
      | ok u =>
        change (convErr (g u) >>= fun v => y >>= fun vs => (pure (f v vs) : Res δ)) = (match g u with
          | .ok v => y >>= fun vs => (pure (f v vs) : Res δ)
          | .error c => .err (.anyhow (.context c)))
        cases g u <;> rfl
      | _ => rfl
  rw [h1]
  refine (hx.mapErr.bind (Q := fun u e => convFault g u e ∨ (∃ v, g.apply u = .ok v) ∧ Q e) fun u _ => ?_).congr fun e => or_congr Iff.rfl ?_
  · cases ha : g.apply u with
    | ok v =>
      refine (hy.bindOk fun _ => ⟨_, rfl⟩).congr fun e => ?_
      simp only [convFault, ha]
      constructor
      · exact fun h => .inr ⟨⟨v, rfl⟩, h⟩
      · rintro (⟨_, h, _⟩ | h)
        · cases h
        · exact h.2
    | error c =>
      refine (Res.errs_err _).congr fun e => ?_
      simp only [convFault, ha]
      constructor
      · exact fun h => .inl ⟨c, rfl, h⟩
      · rintro (⟨_, h, h'⟩ | ⟨⟨_, h⟩, _⟩)
        · cases h; exact h'
        · cases h
  · exact exists_congr fun u => and_congr (by rw [mapErr_ok]; exact hv u) Iff.rfl

theorem back_errsDer {d : De β} {F : Bytes → Bool → Bytes → Error → Prop} {R : Bytes → Bytes → β → Prop} (hd : DecodesDer d R)
    (h : ErrsDer d F) (g : Back β α) (id c : Bytes) :
    ((De.back d g).fromDer id c).Errs fun e => F id false c e ∨ ∃ u, R id c u ∧ convFault g u e := by
  have := back_errs (h id c) (hd id c) g
  cases g <;> exact this

theorem back_errsBer {d : De β} {F : Bytes → Bool → Bytes → Error → Prop} {R : Bytes → Bool → Bytes → β → Prop} (hd : DecodesBer d R)
    (h : ErrsBer d F) (g : Back β α) (id : Bytes) (indef : Bool) (raw : Bytes) (hl : raw.length ≤ isizeMax) :
    ((De.back d g).fromBer id (lenOf indef raw) raw).Errs fun e => F id indef raw e ∨ ∃ u, R id indef raw u ∧ convFault g u e := by
  have := back_errs (h id indef raw hl) (fun u => hd id indef raw u hl) g
  cases g <;> exact this

/-! ### DER -/

mutual
/-- The errors of `from_der`. -/
theorem Ty.errsDer (m : Build) (o : HashOrder) : {α : Type} → (t : Ty α) → t.deserializable → ErrsDer (Ty.de m o t) (t.fault .der o.order)
  | _, .bool, _ => fun id c => ((toBoolDer_errs c).congr fun e => by simp [Rules.Admits]).tag (q := id = [0x01]) Iff.rfl
  | _, .int t, _ => fun id c => ((toInteger_errs t c).tag (q := id = [0x02]) Iff.rfl).congr fun e => ⟨fun h => ⟨rfl, h⟩, fun h => h.2⟩
  | _, .string, _ => fun id c => ((strFromUtf8_errs c).congr fun e => ⟨fun h => ⟨rfl, h⟩, fun h => h.2⟩).tag (q := id = [0x0c]) Iff.rfl
  | _, .octetString, _ => fun id c => ((Res.errs_ok c).congr fun e => by simp).tag (q := id = [0x04]) Iff.rfl
  | _, .vec t, h => fun id c => (derBody_errs
      (collectDer_errs (R := t.denotes .der o.order) (Ty.fromDer_iff m o t h) (Ty.errsDer m o t h) _ c _)).tag (q := id = [0x30]) Iff.rfl
  | _, .linkedList t, h => fun id c => (derBody_errs
      (collectDer_errs (R := t.denotes .der o.order) (Ty.fromDer_iff m o t h) (Ty.errsDer m o t h) _ c _)).tag (q := id = [0x30]) Iff.rfl
  | _, .vecDeque t, h => fun id c => (derBody_errs
      (collectDer_errs (R := t.denotes .der o.order) (Ty.fromDer_iff m o t h) (Ty.errsDer m o t h) _ c _)).tag (q := id = [0x30]) Iff.rfl
  | _, .btreeSet _ _ _ t, h => fun id c => (derBody_errs
      (collectDer_errs (R := t.denotes .der o.order) (Ty.fromDer_iff m o t h) (Ty.errsDer m o t h) _ c _)).tag (q := id = [0x30]) Iff.rfl
  | _, .btreeMap _ _ _ k t, h => fun id c => (derBody_errs
      (collectDerPairs_errs (K := k.denotes .der o.order) (V := t.denotes .der o.order) (Ty.fromDer_iff m o k h.1) (Ty.fromDer_iff m o t h.2)
        (Ty.errsDer m o k h.1) (Ty.errsDer m o t h.2) _ c _)).tag (q := id = [0x30]) Iff.rfl
  | _, .hashSet _ t, h => fun id c => (derBody_errs
      ((collectDer_errs (R := t.denotes .der o.order) (Ty.fromDer_iff m o t h) (Ty.errsDer m o t h) _ c _).bindOk fun _ =>
        ⟨_, rfl⟩)).tag (q := id = [0x31]) Iff.rfl
  | _, .hashMap _ k t, h => fun id c => (derBody_errs
      ((collectDerPairs_errs (K := k.denotes .der o.order) (V := t.denotes .der o.order) (Ty.fromDer_iff m o k h.1) (Ty.fromDer_iff m o t h.2)
        (Ty.errsDer m o k h.1) (Ty.errsDer m o t h.2) _ c _).bindOk fun _ => ⟨_, rfl⟩)).tag (q := id = [0x31]) Iff.rfl
  | _, .struct i fs, h => fun id c => (derBody_errs (Fields.errsDer m o fs h c)).tag (q := id = i) Iff.rfl
  | _, .enum vs, h => fun id c => Variants.errsDer m o vs h id c
  | _, .transparent fs, h => fun id c => by
    have e : De.transparent (Fields.de m o fs) = some _ := if_pos ((Fields.deCount_eq m o fs).trans h.1)
    change (((De.transparent (Fields.de m o fs)).getD (De.struct m [] (Fields.de m o fs))).fromDer id c).Errs _
    rw [e]
    exact Fields.errsDerOne m o fs h.2 id c
  | _, .conv t _ g, h => fun id c => back_errsDer (Ty.fromDer_iff m o t h) (Ty.errsDer m o t h) g id c
  | _, .named t _ _ _ _, h => fun id c => (Ty.errsDer m o t h id c).bindOk fun _ => ⟨_, rfl⟩
  | _, .hole, _ => fun _ _ => Res.errs_err _
/-- The same for fields, with the test for octets left. -/
theorem Fields.errsDer (m : Build) (o : HashOrder) : {γ : Type} → (fs : Fields γ) → fs.deserializable →
    (bytes : Bytes) → (deFields derTmpVal (Fields.de m o fs) bytes >>= finish).Errs (fs.fault .der o.order bytes)
  | _, .nil, _, bytes => finish_errs bytes
  | _, .plain t r, h, bytes => finish_cons (field_errs (R := t.denotes .der o.order) (derTmpVal_errs (Ty.errsDer m o t h.1) bytes)
      (derTmp_starts (Ty.fromDer_iff m o t h.1) bytes) fun _ rest _ => Fields.errsDer m o r h.2 rest)
  | _, .skip _ r, h, bytes => finish_cons (Fields.errsDer m o r h bytes)
  | _, .skipSer t r, h, bytes => finish_cons (field_errs (R := t.denotes .der o.order) (derTmpVal_errs (Ty.errsDer m o t h.1) bytes)
      (derTmp_starts (Ty.fromDer_iff m o t h.1) bytes) fun _ rest _ => Fields.errsDer m o r h.2 rest)
  | _, .skipDe _ _ r, h, bytes => finish_cons (Fields.errsDer m o r h bytes)
  | _, .conv t _ g r, h, bytes => finish_cons (convField_errs g (R := t.denotes .der o.order) (derTmpVal_errs (Ty.errsDer m o t h.1) bytes)
      (derTmp_starts (Ty.fromDer_iff m o t h.1) bytes) fun _ _ rest _ => Fields.errsDer m o r h.2 rest)
/-- The same for a transparent struct. -/
theorem Fields.errsDerOne (m : Build) (o : HashOrder) : {γ : Type} → (fs : Fields γ) → fs.deserializable →
    (id c : Bytes) → (deFieldsTransparent (fun d => d.fromDer id c) (Fields.de m o fs)).Errs (fs.faultOne .der o.order id false c)
  | _, .nil, _, _, _ => Res.errs_ok _
  | _, .plain t r, h, id, c => one_errs (Ty.errsDer m o t h.1 id c) (Ty.fromDer_iff m o t h.1 id c) (Fields.errsDerOne m o r h.2 id c)
  | _, .skip _ r, h, id, c => (Fields.errsDerOne m o r h id c).bindOk fun _ => ⟨_, rfl⟩
  | _, .skipSer t r, h, id, c => one_errs (Ty.errsDer m o t h.1 id c) (Ty.fromDer_iff m o t h.1 id c) (Fields.errsDerOne m o r h.2 id c)
  | _, .skipDe _ _ r, h, id, c => (Fields.errsDerOne m o r h id c).bindOk fun _ => ⟨_, rfl⟩
  | _, .conv t _ g r, h, id, c => convOne_errs (tmp := fun d => d.fromDer id c) g (Ty.errsDer m o t h.1 id c) (Ty.fromDer_iff m o t h.1 id c)
      (Fields.errsDerOne m o r h.2 id c)
/-- The same for an enum. -/
theorem Variants.errsDer (m : Build) (o : HashOrder) : {ρ : Type} → (vs : Variants ρ) → vs.deserializable →
    (id c : Bytes) → ((Variants.de m o vs).pick id (fun fs => fromDerContents fs c)).Errs (vs.fault .der o.order id false c)
  | _, .nil, _, _, _ => Res.errs_err _
  | _, .cons i fs r, h, id, c => by
    change (if id = i then _ else _ : Res _).Errs fun e => (id = i ∧ bodyFault false c (fs.fault .der o.order) e) ∨ (id ≠ i ∧ _)
    split
    · rename_i e
      exact ((derBody_errs (Fields.errsDer m o fs h.1 c)).bindOk fun _ => ⟨_, rfl⟩).congr fun e' => by simp [e]
    · rename_i e
      exact ((Variants.errsDer m o r h.2 id c).bindOk fun _ => ⟨_, rfl⟩).congr fun e' => by simp [e]
end

/-! ### BER -/

mutual
/-- The errors of `from_ber`. -/
theorem Ty.errsBer (m : Build) (o : HashOrder) : {α : Type} → (t : Ty α) → t.deserializable →
    ErrsBer (Ty.de m o t) (t.fault (.ber (decide (m = .release))) o.order)
  | _, .bool, _ => fun id indef raw _ => by
    change (if id ≠ IdRef.boolean then _ else if (lenOf indef raw).eq .indefinite then _ else
      (debugAssert m ((lenOf indef raw).definite? == some raw.length) >>= fun _ => ContentsRef.toBoolBer raw)).Errs _
    rw [not_eq_indefinite, if_neg (c := false = true) (by simp)]
    exact (assert_errs m indef raw (toBoolBer_errs _ raw)).tag (q := id = [0x01]) Iff.rfl
  | _, .int t, _ => fun id indef raw _ => by
    change (if (lenOf indef raw).eq .indefinite then _ else
      (debugAssert m ((lenOf indef raw).definite? == some raw.length) >>= fun _ =>
        if id ≠ IdRef.integer then _ else ContentsRef.toInteger t raw)).Errs _
    rw [not_eq_indefinite, if_neg (c := false = true) (by simp)]
    exact assert_errs m indef raw ((toInteger_errs t raw).tag (q := id = [0x02]) Iff.rfl)
  | _, .string, _ => fun id indef raw _ => by
    change (if id ≠ IdRef.utf8String ∧ id ≠ IdRef.utf8StringConstructed then _ else
      if (lenOf indef raw).eq .indefinite then _ else
      (debugAssert m ((lenOf indef raw).definite? == some raw.length) >>= fun _ => strFromUtf8 raw)).Errs _
    rw [not_eq_indefinite, if_neg (c := false = true) (by simp)]
    exact (assert_errs m indef raw (strFromUtf8_errs raw)).tag (q := id = [0x0c] ∨ id = [0x2c]) not_or.symm
  | _, .octetString, _ => fun id indef raw _ => by
    change (if id ≠ IdRef.octetString ∧ id ≠ IdRef.octetStringConstructed then _ else
      if (lenOf indef raw).isIndefinite then _ else Res.ok raw).Errs _
    refine Res.Errs.tag (q := id = [0x04] ∨ id = [0x24]) ?_ not_or.symm
    cases indef with
    | false => exact (Res.errs_ok raw).congr fun e => by simp
    | true => exact (Res.errs_err .indefiniteLength).congr fun e => by simp
  | _, .vec t, h => fun id _ _ hl => (body_errs hl fun c hc =>
      collectBer_errs _ (Ty.fromBer_iff m o t h) (Ty.errsBer m o t h) _ c hc _).tag (q := id = [0x30]) Iff.rfl
  | _, .linkedList t, h => fun id _ _ hl => (body_errs hl fun c hc =>
      collectBer_errs _ (Ty.fromBer_iff m o t h) (Ty.errsBer m o t h) _ c hc _).tag (q := id = [0x30]) Iff.rfl
  | _, .vecDeque t, h => fun id _ _ hl => (body_errs hl fun c hc =>
      collectBer_errs _ (Ty.fromBer_iff m o t h) (Ty.errsBer m o t h) _ c hc _).tag (q := id = [0x30]) Iff.rfl
  | _, .btreeSet _ _ _ t, h => fun id _ _ hl => (body_errs hl fun c hc =>
      collectBer_errs _ (Ty.fromBer_iff m o t h) (Ty.errsBer m o t h) _ c hc _).tag (q := id = [0x30]) Iff.rfl
  | _, .btreeMap _ _ _ k t, h => fun id _ _ hl => (body_errs hl fun c hc =>
      collectBerPairs_errs _ (Ty.fromBer_iff m o k h.1) (Ty.fromBer_iff m o t h.2) (Ty.errsBer m o k h.1) (Ty.errsBer m o t h.2)
        _ c hc _).tag (q := id = [0x30]) Iff.rfl
  | _, .hashSet _ t, h => fun id _ _ hl => (body_errs hl fun c hc =>
      (collectBer_errs _ (Ty.fromBer_iff m o t h) (Ty.errsBer m o t h) _ c hc _).bindOk fun _ => ⟨_, rfl⟩).tag (q := id = [0x31]) Iff.rfl
  | _, .hashMap _ k t, h => fun id _ _ hl => (body_errs hl fun c hc =>
      (collectBerPairs_errs _ (Ty.fromBer_iff m o k h.1) (Ty.fromBer_iff m o t h.2) (Ty.errsBer m o k h.1) (Ty.errsBer m o t h.2)
        _ c hc _).bindOk fun _ => ⟨_, rfl⟩).tag (q := id = [0x31]) Iff.rfl
  | _, .struct i fs, h => fun id indef raw hl => (Fields.errsContents m o fs h indef raw hl).tag (q := id = i) Iff.rfl
  | _, .enum vs, h => fun id indef raw hl => Variants.errsBer m o vs h id indef raw hl
  | _, .transparent fs, h => fun id indef raw hl => by
    have e : De.transparent (Fields.de m o fs) = some _ := if_pos ((Fields.deCount_eq m o fs).trans h.1)
    change (((De.transparent (Fields.de m o fs)).getD
      (De.struct m [] (Fields.de m o fs))).fromBer id (lenOf indef raw) raw).Errs _
    rw [e]
    exact Fields.errsOne m o fs h.2 id indef raw hl
  | _, .conv t _ g, h => fun id indef raw hl => back_errsBer (Ty.fromBer_iff m o t h) (Ty.errsBer m o t h) g id indef raw hl
  | _, .named t _ _ _ _, h => fun id d raw hl => (Ty.errsBer m o t h id d raw hl).bindOk fun _ => ⟨_, rfl⟩
  | _, .hole, _ => fun _ _ _ _ => Res.errs_err _
/-- The same for the contents of a struct or variant. -/
theorem Fields.errsContents (m : Build) (o : HashOrder) : {γ : Type} → (fs : Fields γ) → fs.deserializable →
    (indef : Bool) → (raw : Bytes) → raw.length ≤ isizeMax →
    (fromBerContents m (Fields.de m o fs) (lenOf indef raw) raw).Errs
      (bodyFault indef raw (fs.fault (.ber (decide (m = .release))) o.order))
  | _, fs, h, indef, raw, hl => by
    rw [fromBerContents, structContents_eq]
    exact body_errs hl fun c hc => Fields.errsBer m o fs h c hc
/-- The same for fields, with the test for octets left. -/
theorem Fields.errsBer (m : Build) (o : HashOrder) : {γ : Type} → (fs : Fields γ) → fs.deserializable →
    (bytes : Bytes) → bytes.length ≤ isizeMax →
    (deFields berTmpVal (Fields.de m o fs) bytes >>= finish).Errs (fs.fault (.ber (decide (m = .release))) o.order bytes)
  | _, .nil, _, bytes, _ => finish_errs bytes
  | _, .plain t r, h, bytes, hl => finish_cons (field_errs (R := t.denotes (.ber (decide (m = .release))) o.order)
      (berTmpVal_errs _ (Ty.errsBer m o t h.1) bytes hl) (berTmp_starts _ (Ty.fromBer_iff m o t h.1) bytes hl) fun v rest hx =>
      Fields.errsBer m o r h.2 rest (berTmpVal_length hl (v := v) hx))
  | _, .skip _ r, h, bytes, hl => finish_cons (Fields.errsBer m o r h bytes hl)
  | _, .skipSer t r, h, bytes, hl => finish_cons (field_errs (R := t.denotes (.ber (decide (m = .release))) o.order)
      (berTmpVal_errs _ (Ty.errsBer m o t h.1) bytes hl) (berTmp_starts _ (Ty.fromBer_iff m o t h.1) bytes hl) fun v rest hx =>
      Fields.errsBer m o r h.2 rest (berTmpVal_length hl (v := v) hx))
  | _, .skipDe _ _ r, h, bytes, hl => finish_cons (Fields.errsBer m o r h bytes hl)
  | _, .conv t _ g r, h, bytes, hl => finish_cons (convField_errs g (R := t.denotes (.ber (decide (m = .release))) o.order)
      (berTmpVal_errs _ (Ty.errsBer m o t h.1) bytes hl) (berTmp_starts _ (Ty.fromBer_iff m o t h.1) bytes hl) fun u _ rest hx =>
      Fields.errsBer m o r h.2 rest (berTmpVal_length hl (v := u) hx))
/-- The same for a transparent struct. -/
theorem Fields.errsOne (m : Build) (o : HashOrder) : {γ : Type} → (fs : Fields γ) → fs.deserializable →
    (id : Bytes) → (indef : Bool) → (raw : Bytes) → raw.length ≤ isizeMax →
    (deFieldsTransparent (fun d => d.fromBer id (lenOf indef raw) raw) (Fields.de m o fs)).Errs
      (fs.faultOne (.ber (decide (m = .release))) o.order id indef raw)
  | _, .nil, _, _, _, _, _ => Res.errs_ok _
  | _, .plain t r, h, id, indef, raw, hl => one_errs (Ty.errsBer m o t h.1 id indef raw hl)
      (fun v => Ty.fromBer_iff m o t h.1 id indef raw v hl) (Fields.errsOne m o r h.2 id indef raw hl)
  | _, .skip _ r, h, id, indef, raw, hl => (Fields.errsOne m o r h id indef raw hl).bindOk fun _ => ⟨_, rfl⟩
  | _, .skipSer t r, h, id, indef, raw, hl => one_errs (Ty.errsBer m o t h.1 id indef raw hl)
      (fun v => Ty.fromBer_iff m o t h.1 id indef raw v hl) (Fields.errsOne m o r h.2 id indef raw hl)
  | _, .skipDe _ _ r, h, id, indef, raw, hl => (Fields.errsOne m o r h id indef raw hl).bindOk fun _ => ⟨_, rfl⟩
  | _, .conv t _ g r, h, id, indef, raw, hl => convOne_errs (tmp := fun d => d.fromBer id (lenOf indef raw) raw) g
      (Ty.errsBer m o t h.1 id indef raw hl) (fun v => Ty.fromBer_iff m o t h.1 id indef raw v hl)
      (Fields.errsOne m o r h.2 id indef raw hl)
/-- The same for an enum. -/
theorem Variants.errsBer (m : Build) (o : HashOrder) : {ρ : Type} → (vs : Variants ρ) → vs.deserializable →
    (id : Bytes) → (indef : Bool) → (raw : Bytes) → raw.length ≤ isizeMax →
    ((Variants.de m o vs).pick id (fun fs => fromBerContents m fs (lenOf indef raw) raw)).Errs
      (vs.fault (.ber (decide (m = .release))) o.order id indef raw)
  | _, .nil, _, _, _, _, _ => Res.errs_err _
  | _, .cons i fs r, h, id, indef, raw, hl => by
    change (if id = i then _ else _ : Res _).Errs fun e =>
      (id = i ∧ bodyFault indef raw (fs.fault (.ber (decide (m = .release))) o.order) e) ∨ (id ≠ i ∧ _)
    split
    · rename_i e
      exact ((Fields.errsContents m o fs h.1 indef raw hl).bindOk fun _ => ⟨_, rfl⟩).congr fun e' => by simp [e]
    · rename_i e
      exact ((Variants.errsBer m o r h.2 id indef raw hl).bindOk fun _ => ⟨_, rfl⟩).congr fun e' => by simp [e]
end

end Bsn1
