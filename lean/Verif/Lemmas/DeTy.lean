import Verif.Lemmas.De
import Verif.Lemmas.Sets
import Verif.Props.Contents
/-!
# Decoding follows the specification, for every type expression
-/

namespace Bsn1
open Spec

variable {α β γ : Type}

theorem guard_ok {p : Prop} [Decidable p] {e : Error} {x : Res α} {v : α} :
    (if p then .err e else x) = .ok v ↔ ¬ p ∧ x = .ok v := by
  by_cases h : p <;> simp [h]

theorem strFromUtf8_iff (c : Bytes) (v : String) : strFromUtf8 c = .ok v ↔ c = v.toByteArray.data.toList := by
  rw [strFromUtf8, String.fromUTF8?]
  constructor
  · intro h
    split at h
    · rename_i s hs
      cases h
      split at hs
      · cases hs; rfl
      · cases hs
    · cases h
  · rintro rfl
    have e : (⟨v.toByteArray.data.toList.toArray⟩ : ByteArray) = v.toByteArray := rfl
    rw [e, dif_pos v.isValidUTF8]
    rfl

/-! ### Collections from DER -/

theorem fromDer_list (d : De α) (c : Bytes) (v : List α) :
    collect (derToVal d) (fun ret t => ret ++ [t]) c [] = .ok v ↔ DerElems (fun id b x => d.fromDer id b = .ok x) c v := by
  rw [collect_iff (derToVal_consumes c.length d) _ c (Nat.le_refl _)]
  constructor
  · rintro ⟨xs, h, rfl⟩
    rw [foldl_append, List.nil_append]
    exact (splits_der d c xs).mp h
  · intro h
    exact ⟨v, (splits_der d c v).mpr h, by rw [foldl_append, List.nil_append]⟩

theorem fromDer_fold (d : De α) (insert : γ → α → γ) (c : Bytes) (ret v : γ) :
    collect (derToVal d) insert c ret = .ok v ↔
      ∃ l, DerElems (fun id b x => d.fromDer id b = .ok x) c l ∧ v = l.foldl insert ret := by
  rw [collect_iff (derToVal_consumes c.length d) _ c (Nat.le_refl _)]
  simp only [splits_der]

theorem fromDer_foldPairs (dk : De α) (dv : De β) (insert : γ → α × β → γ) (c : Bytes) (ret v : γ) :
    collect (derToKeyVal dk dv) insert c ret = .ok v ↔
      ∃ l, DerElems (DerPair (fun id b x => dk.fromDer id b = .ok x) (fun id b x => dv.fromDer id b = .ok x)) c l ∧
        v = l.foldl insert ret := by
  rw [collect_iff (derToKeyVal_consumes c.length dk dv) _ c (Nat.le_refl _)]
  simp only [splits_derPairs]

/-! ### Collections from BER -/

theorem fromBer_list (d : De α) (c : Bytes) (hc : c.length ≤ isizeMax) (v : List α) :
    collect (berToVal d) (fun ret t => ret ++ [t]) c [] = .ok v ↔
      BerElems (fun id indef raw x => d.fromBer id (lenOf indef raw) raw = .ok x) c v := by
  rw [collect_iff (berToVal_consumes d) _ c hc]
  constructor
  · rintro ⟨xs, h, rfl⟩
    rw [foldl_append, List.nil_append]
    exact (splits_ber d c hc xs).mp h
  · intro h
    exact ⟨v, (splits_ber d c hc v).mpr h, by rw [foldl_append, List.nil_append]⟩

theorem fromBer_fold (d : De α) (insert : γ → α → γ) (c : Bytes) (hc : c.length ≤ isizeMax) (ret v : γ) :
    collect (berToVal d) insert c ret = .ok v ↔
      ∃ l, BerElems (fun id indef raw x => d.fromBer id (lenOf indef raw) raw = .ok x) c l ∧ v = l.foldl insert ret := by
  rw [collect_iff (berToVal_consumes d) _ c hc]
  simp only [splits_ber d c hc]

theorem fromBer_foldPairs (dk : De α) (dv : De β) (insert : γ → α × β → γ) (c : Bytes) (hc : c.length ≤ isizeMax)
    (ret v : γ) :
    collect (berToKeyVal dk dv) insert c ret = .ok v ↔
      ∃ l, BerElems (BerPair (fun id indef raw x => dk.fromBer id (lenOf indef raw) raw = .ok x)
        (fun id indef raw x => dv.fromBer id (lenOf indef raw) raw = .ok x)) c l ∧ v = l.foldl insert ret := by
  rw [collect_iff (berToKeyVal_consumes dk dv) _ c hc]
  simp only [splits_berPairs dk dv c hc]

theorem body_bind {m : Build} {indef : Bool} {raw : Bytes} {k : Bytes → Res α} {v : α} :
    (excludeEoc m (lenOf indef raw) raw >>= k) = .ok v ↔ ∃ c, IsBody indef raw c ∧ k c = .ok v := by
  constructor
  · intro h
    obtain ⟨c, h1, h2⟩ := Res.bind_eq_ok.mp h
    exact ⟨c, (excludeEoc_iff m indef raw c).mp h1, h2⟩
  · rintro ⟨c, h1, h2⟩
    rw [(excludeEoc_iff m indef raw c).mpr h1, Res.bind_ok, h2]

theorem map_ok {x : Res α} {f : α → β} {v : β} : (x >>= fun y => pure (f y)) = .ok v ↔ ∃ y, x = .ok y ∧ v = f y := by
  cases x with
  | ok y =>
    rw [Res.bind_ok, Res.pure_eq]
    constructor
    · intro h; cases h; exact ⟨y, rfl, rfl⟩
    · rintro ⟨_, h, rfl⟩; cases h; rfl
  | _ =>
    constructor
    · intro h; cases h
    · rintro ⟨_, h, _⟩; cases h

/-! ### Conversions -/

theorem convErr_ok {x : Except Chain α} {v : α} : convErr x = .ok v ↔ x = .ok v := by
  cases x <;> simp [convErr]

theorem back_fromDer (d : De β) (g : Back β α) (id c : Bytes) (v : α) :
    (De.back d g).fromDer id c = .ok v ↔ ∃ u, d.fromDer id c = .ok u ∧ g.apply u = .ok v := by
  cases g with
  | from_ g =>
    rw [De.back, De.from_]
    simp only [map_ok, Back.apply, Except.ok.injEq]
    simp only [eq_comm]
  | tryFrom g =>
    rw [De.back, De.tryFrom]
    simp only [Res.bind_eq_ok, convErr_ok, Back.apply]

theorem back_fromBer (d : De β) (g : Back β α) (id : Bytes) (l : Length) (c : Bytes) (v : α) :
    (De.back d g).fromBer id l c = .ok v ↔ ∃ u, d.fromBer id l c = .ok u ∧ g.apply u = .ok v := by
  cases g with
  | from_ g =>
    rw [De.back, De.from_]
    simp only [map_ok, Back.apply, Except.ok.injEq]
    simp only [eq_comm]
  | tryFrom g =>
    rw [De.back, De.tryFrom]
    simp only [Res.bind_eq_ok, convErr_ok, Back.apply]

theorem backField_de (tmp : {δ : Type} → De δ → Bytes → Res (δ × Bytes)) (d : De β) (g : Back β α) (bytes : Bytes)
    (v : α) (rest : Bytes) :
    deField tmp (backField d g) bytes = .ok (v, rest) ↔ ∃ u, tmp d bytes = .ok (u, rest) ∧ g.apply u = .ok v := by
  cases g with
  | from_ g =>
    simp only [backField, deField, Back.apply]
    constructor
    · intro h
      obtain ⟨⟨u, r⟩, h1, h2⟩ := Res.bind_eq_ok.mp h
      cases h2
      exact ⟨u, h1, rfl⟩
    · rintro ⟨u, h1, h2⟩
      cases h2
      rw [h1]; rfl
  | tryFrom g =>
    simp only [backField, deField, Back.apply]
    constructor
    · intro h
      obtain ⟨⟨u, r⟩, h1, h2⟩ := Res.bind_eq_ok.mp h
      simp only [] at h2
      obtain ⟨w, h3, h4⟩ := Res.bind_eq_ok.mp h2
      cases h4
      exact ⟨u, h1, convErr_ok.mp h3⟩
    · rintro ⟨u, h1, h2⟩
      rw [h1, Res.bind_ok]
      simp only [h2]
      rfl

theorem backField_transparent (tmp : {δ : Type} → De δ → Res δ) (d : De β) (g : Back β α) (v : α) :
    deFieldTransparent tmp (backField d g) = .ok v ↔ ∃ u, tmp d = .ok u ∧ g.apply u = .ok v := by
  cases g with
  | from_ g =>
    simp only [backField, deFieldTransparent, map_ok, mapErr_ok, Back.apply, Except.ok.injEq]
    simp only [eq_comm]
  | tryFrom g =>
    simp only [backField, deFieldTransparent, Res.bind_eq_ok, mapErr_ok, convErr_ok, Back.apply]

theorem backField_counted (d : De β) (g : Back β α) (r : DeFields γ) :
    deserializedFields (.cons (backField d g) r) = deserializedFields r + 1 := by
  cases g <;> rfl

/-! ### Fields -/

theorem derTmpVal_iff (d : De α) (bytes : Bytes) (v : α) (rest : Bytes) :
    derTmpVal d bytes = .ok (v, rest) ↔
      ∃ id b, IsId id ∧ b.length < 2 ^ 64 ∧ d.fromDer id b = .ok v ∧ bytes = tlv id b ++ rest := by
  constructor
  · intro h
    rw [derTmpVal] at h
    rcases e : DerRef.parse bytes with ⟨r, rest'⟩
    rw [e] at h
    simp only [] at h
    obtain ⟨der, h1, h2⟩ := Res.bind_eq_ok.mp h
    obtain ⟨⟨id, l, b⟩, h3, h4⟩ := Res.bind_eq_ok.mp h2
    obtain ⟨y, h5, h6⟩ := Res.bind_eq_ok.mp h4
    cases h6
    rw [mapErr_ok] at h1 h5
    subst h1
    obtain ⟨id', b', hid, hb, rfl, h7⟩ := DerRef_parse_ok e
    rw [disassemble_tlv hid hb] at h3
    cases h3
    exact ⟨_, _, hid, hb, h5, h7⟩
  · rintro ⟨id, b, hid, hb, h, rfl⟩
    rw [derTmpVal, DerRef_parse_tlv hid hb]
    simp only [mapErrContext, Res.bind_ok, disassemble_tlv hid hb, h]
    rfl

theorem berTmpVal_iff (d : De α) (bytes : Bytes) (hlen : bytes.length ≤ isizeMax) (v : α) (rest : Bytes) :
    berTmpVal d bytes = .ok (v, rest) ↔
      ∃ p id indef raw, BerValue p id indef raw ∧ d.fromBer id (lenOf indef raw) raw = .ok v ∧ bytes = p ++ rest := by
  constructor
  · intro h
    rw [berTmpVal] at h
    rcases e : BerRef.parse bytes with ⟨r, rest'⟩
    rw [e] at h
    simp only [] at h
    obtain ⟨ber, h1, h2⟩ := Res.bind_eq_ok.mp h
    obtain ⟨⟨id, l, b⟩, h3, h4⟩ := Res.bind_eq_ok.mp h2
    obtain ⟨y, h5, h6⟩ := Res.bind_eq_ok.mp h4
    cases h6
    rw [mapErr_ok] at h1 h5
    obtain ⟨hb, h7⟩ := BerRef_parse_sound hlen (h1 ▸ e)
    obtain ⟨id', indef, raw, hv⟩ := isBer_berValue hb
    rw [berValue_disassemble hv] at h3
    cases h3
    exact ⟨ber, _, indef, _, hv, h5, h7⟩
  · rintro ⟨p, id, indef, raw, hv, h, rfl⟩
    rw [berTmpVal, BerRef_parse_ok (berValue_isBer hv) hlen]
    simp only [mapErrContext, Res.bind_ok, berValue_disassemble hv, h]
    rfl

theorem deFields_cons (tmp : {δ : Type} → De δ → Bytes → Res (δ × Bytes)) (f : DeField α) (r : DeFields γ) (bytes : Bytes)
    (v : α × γ) (rest : Bytes) :
    deFields tmp (.cons f r) bytes = .ok (v, rest) ↔
      ∃ mid, deField tmp f bytes = .ok (v.1, mid) ∧ deFields tmp r mid = .ok (v.2, rest) := by
  rw [deFields]
  constructor
  · intro h
    obtain ⟨⟨x, mid⟩, h1, h2⟩ := Res.bind_eq_ok.mp h
    simp only [] at h2
    obtain ⟨⟨y, rest'⟩, h3, h4⟩ := Res.bind_eq_ok.mp h2
    cases h4
    exact ⟨mid, h1, h3⟩
  · rintro ⟨mid, h1, h2⟩
    rw [h1, Res.bind_ok]
    simp only []
    rw [h2]
    rfl

theorem deFieldsTransparent_cons (tmp : {δ : Type} → De δ → Res δ) (f : DeField α) (r : DeFields γ) (v : α × γ) :
    deFieldsTransparent tmp (.cons f r) = .ok v ↔
      deFieldTransparent tmp f = .ok v.1 ∧ deFieldsTransparent tmp r = .ok v.2 := by
  rw [deFieldsTransparent]
  constructor
  · intro h
    obtain ⟨x, h1, h2⟩ := Res.bind_eq_ok.mp h
    obtain ⟨y, h3, h4⟩ := Res.bind_eq_ok.mp h2
    cases h4
    exact ⟨h1, h3⟩
  · rintro ⟨h1, h2⟩
    rw [h1, Res.bind_ok, h2]
    rfl

theorem finish_ok (x : γ × Bytes) (v : γ) : finish x = .ok v ↔ x = (v, []) := by
  obtain ⟨r, bytes⟩ := x
  rw [finish]
  cases bytes with
  | nil => simp
  | cons _ _ => simp

theorem fromDerContents_iff (fs : DeFields γ) (c : Bytes) (v : γ) :
    fromDerContents fs c = .ok v ↔ deFields derTmpVal fs c = .ok (v, []) := by
  rw [fromDerContents]
  simp only [Res.bind_eq_ok, finish_ok]
  constructor
  · rintro ⟨_, h, rfl⟩; exact h
  · intro h; exact ⟨_, h, rfl⟩

theorem fromBerContents_iff (m : Build) (fs : DeFields γ) (indef : Bool) (raw : Bytes) (v : γ) :
    fromBerContents m fs (lenOf indef raw) raw = .ok v ↔
      ∃ c, IsBody indef raw c ∧ deFields berTmpVal fs c = .ok (v, []) := by
  rw [fromBerContents, structContents_eq, body_bind]
  simp only [Res.bind_eq_ok, finish_ok]
  constructor
  · rintro ⟨c, hc, _, h, rfl⟩; exact ⟨c, hc, h⟩
  · rintro ⟨c, hc, h⟩; exact ⟨c, hc, _, h, rfl⟩

theorem Fields.deCount_eq (m : Build) (o : HashOrder) : {γ : Type} → (fs : Fields γ) →
    deserializedFields (Fields.de m o fs) = fs.deCount
  | _, .nil => rfl
  | _, .plain _ r => by rw [Fields.de, Spec.Fields.deCount, deserializedFields, Fields.deCount_eq m o r]
  | _, .skip _ r => by rw [Fields.de, Spec.Fields.deCount, deserializedFields, Fields.deCount_eq m o r]
  | _, .skipSer _ r => by rw [Fields.de, Spec.Fields.deCount, deserializedFields, Fields.deCount_eq m o r]
  | _, .skipDe _ _ r => by rw [Fields.de, Spec.Fields.deCount, deserializedFields, Fields.deCount_eq m o r]
  | _, .conv _ _ _ r => by rw [Fields.de, Spec.Fields.deCount, backField_counted, Fields.deCount_eq m o r]

/-! ### Decoding DER -/

/-- A decoder that follows a relation from DER. -/
def DecodesDer (d : De α) (R : Bytes → Bytes → α → Prop) : Prop := ∀ id c v, d.fromDer id c = .ok v ↔ R id c v

theorem DecodesDer.elems {d : De α} {R : Bytes → Bytes → α → Prop} (h : DecodesDer d R) (c : Bytes) (l : List α) :
    DerElems (fun id b x => d.fromDer id b = .ok x) c l ↔ DerElems R c l :=
  Spec.DerElems.congr fun id b x => h id b x

theorem DecodesDer.pairs {dk : De α} {K : Bytes → Bytes → α → Prop} (hk : DecodesDer dk K) {dv : De β}
    {V : Bytes → Bytes → β → Prop} (hv : DecodesDer dv V) (c : Bytes) (l : List (α × β)) :
    DerElems (DerPair (fun id b x => dk.fromDer id b = .ok x) (fun id b x => dv.fromDer id b = .ok x)) c l ↔
      DerElems (DerPair K V) c l :=
  Spec.DerElems.congr fun _ _ _ => Spec.DerPair.congr hk hv

theorem derSpec_list {d : De α} {R : Bytes → Bytes → α → Prop} (h : DecodesDer d R) (id c : Bytes) (v : List α) :
    (if id ≠ IdRef.sequence then .err .unmatchedId
      else collect (derToVal d) (fun ret t => ret ++ [t]) c []) = .ok v ↔ id = [0x30] ∧ DerElems R c v := by
  rw [guard_ok, not_not, fromDer_list, h.elems]
  rfl

/-- The statement for one field. -/
theorem derSpec_field {d : De β} {R : Bytes → Bytes → β → Prop} (h : DecodesDer d R) {r : DeFields γ}
    {S : Bytes → γ → Prop}
    (hr : ∀ bytes v rest, deFields derTmpVal r bytes = .ok (v, rest) ↔ ∃ c, bytes = c ++ rest ∧ S c v)
    (bytes : Bytes) (v : β × γ) (rest : Bytes) :
    (∃ mid, derTmpVal d bytes = .ok (v.1, mid) ∧ deFields derTmpVal r mid = .ok (v.2, rest)) ↔
      ∃ c, bytes = c ++ rest ∧ ∃ id b c', IsId id ∧ b.length < 2 ^ 64 ∧ c = tlv id b ++ c' ∧ R id b v.1 ∧ S c' v.2 := by
  constructor
  · rintro ⟨mid, h1, h2⟩
    obtain ⟨id, b, hid, hb, h3, rfl⟩ := (derTmpVal_iff d bytes v.1 mid).mp h1
    obtain ⟨c', rfl, h4⟩ := (hr mid v.2 rest).mp h2
    exact ⟨tlv id b ++ c', by simp, id, b, c', hid, hb, rfl, (h id b v.1).mp h3, h4⟩
  · rintro ⟨c, rfl, id, b, c', hid, hb, rfl, h3, h4⟩
    refine ⟨c' ++ rest, (derTmpVal_iff d _ v.1 _).mpr ⟨id, b, hid, hb, (h id b v.1).mpr h3, by simp⟩, ?_⟩
    exact (hr _ v.2 rest).mpr ⟨c', rfl, h4⟩

theorem map_ok_iff {r : Res α} {f : β → α} {g : α → β} (h : ∀ v, g (f v) = v) (h' : ∀ u, f (g u) = u) (v : β) :
    (r >>= fun x => Res.ok (g x)) = .ok v ↔ r = .ok (f v) := by
  cases r with
  | ok a =>
    change Res.ok (g a) = Res.ok v ↔ Res.ok a = Res.ok (f v)
    constructor
    · intro e
      injection e with e
      rw [← e, h']
    · intro e
      injection e with e
      rw [e, h]
  | err e => exact iff_of_false (fun e => nomatch e) (fun e => nomatch e)
  | panic => exact iff_of_false (fun e => nomatch e) (fun e => nomatch e)
  | ub => exact iff_of_false (fun e => nomatch e) (fun e => nomatch e)

mutual
/-- `from_der` of a type decodes exactly what the specification says. -/
theorem Ty.fromDer_iff (m : Build) (o : HashOrder) : {α : Type} → (t : Ty α) → t.deserializable →
    DecodesDer (Ty.de m o t) (t.derVal o.order)
  | _, .bool, _ => fun id c v => by
    change (if id ≠ IdRef.boolean then _ else ContentsRef.toBoolDer c) = _ ↔ id = [0x01] ∧ c = [if v then 0xff else 0x00]
    rw [guard_ok, not_not, C17_to_bool_der]
    refine and_congr Iff.rfl ?_
    cases v <;> simp
  | _, .int t, _ => fun id c v => by
    change (if id ≠ IdRef.integer then _ else ContentsRef.toInteger t c) = _ ↔ id = [0x02] ∧ c = intOctets v ∧ t.InRange v
    rw [guard_ok, not_not]
    refine and_congr Iff.rfl ⟨toInteger_sound t c v, ?_⟩
    rintro ⟨rfl, h⟩
    exact toInteger_intOctets t v h
  | _, .string, _ => fun id c v => by
    change (if id ≠ IdRef.utf8String then _ else strFromUtf8 c) = _ ↔ id = [0x0c] ∧ c = v.toByteArray.data.toList
    rw [guard_ok, not_not, strFromUtf8_iff]
    rfl
  | _, .octetString, _ => fun id c v => by
    change (if id ≠ IdRef.octetString then _ else Res.ok c) = _ ↔ id = [0x04] ∧ c = v
    rw [guard_ok, not_not, Res.ok.injEq]
    rfl
  | _, .vec t, h => fun id c v => derSpec_list (Ty.fromDer_iff m o t h) id c v
  | _, .linkedList t, h => fun id c v => derSpec_list (Ty.fromDer_iff m o t h) id c v
  | _, .vecDeque t, h => fun id c v => derSpec_list (Ty.fromDer_iff m o t h) id c v
  | _, .btreeSet cmp h1 h2 t, h => fun id c v => by
    have ih := Ty.fromDer_iff m o t h
    change (if id ≠ IdRef.sequence then _ else collect (derToVal (Ty.de m o t)) _ c []) = _ ↔
      id = [0x30] ∧ ∃ l, DerElems (t.derVal o.order) c l ∧ SetOf cmp l v
    rw [guard_ok, not_not, fromDer_fold]
    simp only [ih.elems, setOf_iff]
    rfl
  | _, .btreeMap cmp h1 h2 k t, h => fun id c v => by
    have ihk := Ty.fromDer_iff m o k h.1
    have ih := Ty.fromDer_iff m o t h.2
    change (if id ≠ IdRef.sequence then _ else collect (derToKeyVal (Ty.de m o k) (Ty.de m o t)) _ c []) = _ ↔
      id = [0x30] ∧ ∃ l, DerElems (DerPair (k.derVal o.order) (t.derVal o.order)) c l ∧ MapOf cmp l v
    rw [guard_ok, not_not, fromDer_foldPairs]
    simp only [ihk.pairs ih, mapOf_iff]
    rfl
  | _, .hashSet eq t, h => fun id c v => by
    have ih := Ty.fromDer_iff m o t h
    change (if id ≠ IdRef.set then _ else (collect (derToVal (Ty.de m o t)) _ c [] >>= fun ret => pure (o.order _ ret))) = _ ↔
      id = [0x31] ∧ ∃ l, DerElems (t.derVal o.order) c l ∧ v = o.order _ (firsts l)
    rw [guard_ok, not_not, map_ok]
    simp only [fromDer_fold, ih.elems, foldl_hashInsert]
    refine and_congr Iff.rfl ⟨?_, ?_⟩
    · rintro ⟨_, ⟨l, h1, rfl⟩, h2⟩; exact ⟨l, h1, h2⟩
    · rintro ⟨l, h1, h2⟩; exact ⟨_, ⟨l, h1, rfl⟩, h2⟩
  | _, .hashMap eq k t, h => fun id c v => by
    have ihk := Ty.fromDer_iff m o k h.1
    have ih := Ty.fromDer_iff m o t h.2
    change (if id ≠ IdRef.set then _ else
      (collect (derToKeyVal (Ty.de m o k) (Ty.de m o t)) _ c [] >>= fun ret => pure (o.order _ ret))) = _ ↔
      id = [0x31] ∧ ∃ l u, DerElems (DerPair (k.derVal o.order) (t.derVal o.order)) c l ∧ HashMapOf l u ∧ v = o.order _ u
    rw [guard_ok, not_not, map_ok]
    simp only [fromDer_foldPairs, ihk.pairs ih, hashMapOf_iff]
    refine and_congr Iff.rfl ⟨?_, ?_⟩
    · rintro ⟨u, ⟨l, h1, h3⟩, h2⟩; exact ⟨l, u, h1, h3, h2⟩
    · rintro ⟨l, u, h1, h3, h2⟩; exact ⟨u, ⟨l, h1, h3⟩, h2⟩
  | _, .struct i fs, h => fun id c v => by
    change (if id ≠ i then _ else fromDerContents (Fields.de m o fs) c) = _ ↔ id = i ∧ fs.derVal o.order c v
    rw [guard_ok, not_not, fromDerContents_iff, Fields.fromDer_iff m o fs h]
    simp
  | _, .enum vs, h => fun id c v => Variants.fromDer_iff m o vs h id c v
  | _, .transparent fs, h => fun id c v => by
    change ((De.transparent (Fields.de m o fs)).getD (De.struct m [] (Fields.de m o fs))).fromDer id c = _ ↔ fs.derOne o.order id c v
    rw [De.transparent, if_pos (by rw [Fields.deCount_eq]; exact h.1)]
    exact Fields.fromDerOne_iff m o fs h.2 id c v
  | _, .conv t _ g, h => fun id c v => by
    have ih := Ty.fromDer_iff m o t h
    change (De.back (Ty.de m o t) g).fromDer id c = .ok v ↔ ∃ u, t.derVal o.order id c u ∧ g.apply u = .ok v
    rw [back_fromDer]
    simp only [ih id c]
  | _, .named t f g hgf hfg, h => fun id c v => by
    exact (map_ok_iff hgf hfg v).trans (Ty.fromDer_iff m o t h id c (f v))
  | _, .hole, _ => fun _ _ _ => iff_of_false (fun e => nomatch e) (fun e => e)
/-- The same for the fields of a struct. -/
theorem Fields.fromDer_iff (m : Build) (o : HashOrder) : {γ : Type} → (fs : Fields γ) → fs.deserializable →
    (bytes : Bytes) → (v : γ) → (rest : Bytes) →
    (deFields derTmpVal (Fields.de m o fs) bytes = .ok (v, rest) ↔ ∃ c, bytes = c ++ rest ∧ fs.derVal o.order c v)
  | _, .nil, _ => fun bytes v rest => by
    change Res.ok ((), bytes) = .ok (v, rest) ↔ ∃ c, bytes = c ++ rest ∧ c = []
    simp
  | _, .plain t r, h => fun bytes v rest => by
    rw [Fields.de, deFields_cons]
    exact derSpec_field (Ty.fromDer_iff m o t h.1) (Fields.fromDer_iff m o r h.2) bytes v rest
  | _, .skip d r, h => fun bytes v rest => by
    rw [Fields.de, deFields_cons]
    simp only [deField, Res.ok.injEq, Prod.mk.injEq]
    change _ ↔ ∃ c, bytes = c ++ rest ∧ v.1 = d ∧ r.derVal o.order c v.2
    have ih := Fields.fromDer_iff m o r h bytes v.2 rest
    constructor
    · rintro ⟨_, ⟨h1, rfl⟩, h2⟩
      obtain ⟨c, h3, h4⟩ := ih.mp h2
      exact ⟨c, h3, h1.symm, h4⟩
    · rintro ⟨c, h3, h1, h4⟩
      exact ⟨bytes, ⟨h1.symm, rfl⟩, ih.mpr ⟨c, h3, h4⟩⟩
  | _, .skipSer t r, h => fun bytes v rest => by
    rw [Fields.de, deFields_cons]
    exact derSpec_field (Ty.fromDer_iff m o t h.1) (Fields.fromDer_iff m o r h.2) bytes v rest
  | _, .skipDe _ d r, h => fun bytes v rest => by
    rw [Fields.de, deFields_cons]
    simp only [deField, Res.ok.injEq, Prod.mk.injEq]
    change _ ↔ ∃ c, bytes = c ++ rest ∧ v.1 = d ∧ r.derVal o.order c v.2
    have ih := Fields.fromDer_iff m o r h bytes v.2 rest
    constructor
    · rintro ⟨_, ⟨h1, rfl⟩, h2⟩
      obtain ⟨c, h3, h4⟩ := ih.mp h2
      exact ⟨c, h3, h1.symm, h4⟩
    · rintro ⟨c, h3, h1, h4⟩
      exact ⟨bytes, ⟨h1.symm, rfl⟩, ih.mpr ⟨c, h3, h4⟩⟩
  | _, .conv t _ g r, h => fun bytes v rest => by
    rw [Fields.de, deFields_cons]
    have iht := Ty.fromDer_iff m o t h.1
    have e : ∀ mid, deField derTmpVal (backField (Ty.de m o t) g) bytes = .ok (v.1, mid) ↔
        derTmpVal (De.back (Ty.de m o t) g) bytes = .ok (v.1, mid) := by
      intro mid
      rw [backField_de, derTmpVal_iff]
      simp only [derTmpVal_iff, back_fromDer]
      constructor
      · rintro ⟨u, ⟨id, b, h1, h2, h3, h4⟩, h5⟩; exact ⟨id, b, h1, h2, ⟨u, h3, h5⟩, h4⟩
      · rintro ⟨id, b, h1, h2, ⟨u, h3, h5⟩, h4⟩; exact ⟨u, ⟨id, b, h1, h2, h3, h4⟩, h5⟩
    simp only [e]
    have hb : DecodesDer (De.back (Ty.de m o t) g) (fun id b w => ∃ u, t.derVal o.order id b u ∧ g.apply u = .ok w) := by
      intro id b w
      rw [back_fromDer]
      simp only [iht id b]
    exact derSpec_field hb (Fields.fromDer_iff m o r h.2) bytes v rest
/-- The same for the field of a transparent struct. -/
theorem Fields.fromDerOne_iff (m : Build) (o : HashOrder) : {γ : Type} → (fs : Fields γ) → fs.deserializable →
    (id c : Bytes) → (v : γ) →
    (deFieldsTransparent (fun d => d.fromDer id c) (Fields.de m o fs) = .ok v ↔ fs.derOne o.order id c v)
  | _, .nil, _ => fun id c v => by
    change Res.ok () = .ok v ↔ True
    simp
  | _, .plain t r, h => fun id c v => by
    rw [Fields.de, deFieldsTransparent_cons, deFieldTransparent, mapErr_ok, Fields.fromDerOne_iff m o r h.2]
    exact and_congr (Ty.fromDer_iff m o t h.1 id c v.1) Iff.rfl
  | _, .skip d r, h => fun id c v => by
    rw [Fields.de, deFieldsTransparent_cons, deFieldTransparent, Fields.fromDerOne_iff m o r h, Res.ok.injEq, eq_comm]
    rfl
  | _, .skipSer t r, h => fun id c v => by
    rw [Fields.de, deFieldsTransparent_cons, deFieldTransparent, mapErr_ok, Fields.fromDerOne_iff m o r h.2]
    exact and_congr (Ty.fromDer_iff m o t h.1 id c v.1) Iff.rfl
  | _, .skipDe _ d r, h => fun id c v => by
    rw [Fields.de, deFieldsTransparent_cons, deFieldTransparent, Fields.fromDerOne_iff m o r h, Res.ok.injEq, eq_comm]
    rfl
  | _, .conv t _ g r, h => fun id c v => by
    rw [Fields.de, deFieldsTransparent_cons, backField_transparent, Fields.fromDerOne_iff m o r h.2]
    have iht := Ty.fromDer_iff m o t h.1
    simp only [iht id c]
    rfl
/-- The same for an enum. -/
theorem Variants.fromDer_iff (m : Build) (o : HashOrder) : {ρ : Type} → (vs : Variants ρ) → vs.deserializable →
    (id c : Bytes) → (v : ρ) →
    ((Variants.de m o vs).pick id (fun fs => fromDerContents fs c) = .ok v ↔ vs.derVal o.order id c v)
  | _, .nil, _ => fun id c v => v.elim
  | _, .cons i fs r, h => fun id c v => by
    rw [Variants.de, DeVariants.pick]
    by_cases hi : id = i
    · rw [if_pos hi, map_ok]
      cases v with
      | inl v =>
        change _ ↔ id = i ∧ fs.derVal o.order c v
        simp only [fromDerContents_iff, Sum.inl.injEq, exists_eq_right', Fields.fromDer_iff m o fs h.1, List.append_nil]
        simp [hi]
      | inr v =>
        change _ ↔ id ≠ i ∧ r.derVal o.order id c v
        simp [hi]
    · rw [if_neg hi, map_ok]
      cases v with
      | inl v =>
        change _ ↔ id = i ∧ fs.derVal o.order c v
        simp [hi]
      | inr v =>
        change _ ↔ id ≠ i ∧ r.derVal o.order id c v
        simp only [Sum.inr.injEq, exists_eq_right', Variants.fromDer_iff m o r h.2, ne_eq, hi, not_false_eq_true, true_and]
end

end Bsn1
