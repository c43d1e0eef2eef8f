import Verif.Lemmas.DeTyBer
import Verif.Props.Ber
/-!
# Decoding neither panics nor meets undefined behaviour
-/

namespace Bsn1
open Spec

variable {α β γ : Type}

theorem Res.settled_ok (a : α) : (Res.ok a).Settled := .inl ⟨a, rfl⟩

theorem Res.settled_err (e : Error) : (Res.err e : Res α).Settled := .inr ⟨e, rfl⟩

theorem Res.Settled.bind {x : Res α} {f : α → Res β} (hx : x.Settled) (hf : ∀ a, x = .ok a → (f a).Settled) :
    (x >>= f).Settled := by
  rcases hx with ⟨a, rfl⟩ | ⟨e, rfl⟩
  · exact hf a rfl
  · exact .inr ⟨e, rfl⟩

theorem Res.Settled.mapErr {x : Res α} (hx : x.Settled) : (mapErrContext x).Settled := by
  rcases hx with ⟨a, rfl⟩ | ⟨e, rfl⟩
  · exact .inl ⟨a, rfl⟩
  · exact .inr ⟨_, rfl⟩

theorem Res.Settled.guard {p : Prop} [Decidable p] {e : Error} {x : Res α} (hx : ¬ p → x.Settled) :
    (if p then .err e else x).Settled := by
  by_cases h : p
  · rw [if_pos h]; exact .inr ⟨e, rfl⟩
  · rw [if_neg h]; exact hx h

theorem derParse_cases (c : Bytes) : (∃ e rest, DerRef.parse c = (.err e, rest)) ∨
    ∃ id b rest, IsId id ∧ b.length < 2 ^ 64 ∧ DerRef.parse c = (.ok (tlv id b), rest) ∧ c = tlv id b ++ rest := by
  rcases (C22_der_parse_settled c).1 with ⟨d, h⟩ | ⟨e, h⟩
  · have h' : DerRef.parse c = (.ok d, (DerRef.parse c).2) := Prod.ext h rfl
    obtain ⟨id, b, h1, h2, rfl, h4⟩ := DerRef_parse_ok h'
    exact .inr ⟨id, b, _, h1, h2, h', h4⟩
  · exact .inl ⟨e, _, Prod.ext h rfl⟩

theorem berParse_cases (c : Bytes) (hlen : c.length ≤ isizeMax) : (∃ e rest, BerRef.parse c = (.err e, rest)) ∨
    ∃ p id indef raw rest, BerValue p id indef raw ∧ BerRef.parse c = (.ok p, rest) ∧ c = p ++ rest := by
  rcases (C22_ber_parse_settled c hlen).1 with ⟨d, h⟩ | ⟨e, h⟩
  · have h' : BerRef.parse c = (.ok d, (BerRef.parse c).2) := Prod.ext h rfl
    obtain ⟨h4, h3⟩ := BerRef_parse_sound hlen h'
    obtain ⟨id, indef, raw, hv⟩ := isBer_berValue h4
    exact .inr ⟨d, id, indef, raw, _, hv, h', h3⟩
  · exact .inl ⟨e, _, Prod.ext h rfl⟩

/-- `from_der` returns for all identifiers and contents. -/
def SettlesDer (d : De α) : Prop := ∀ id c, (d.fromDer id c).Settled

/-- `from_ber` returns for all BER values that fit in memory. -/
def SettlesBer (d : De α) : Prop :=
  ∀ id indef raw, raw.length ≤ isizeMax → (d.fromBer id (lenOf indef raw) raw).Settled

theorem collect_settled {next : Bytes → Res (Option (α × Bytes))} {n : Nat} (hn : Consumes n next)
    (hs : ∀ c : Bytes, c.length ≤ n → (next c).Settled) (insert : γ → α → γ) :
    ∀ (f : Nat) (c : Bytes) (ret : γ), c.length ≤ n → c.length < f → (collectLoop next insert f c ret).Settled := by
  intro f
  induction f with
  | zero => intro c ret _ h; omega
  | succ f ih =>
    intro c ret hc hf
    rw [collectLoop]
    refine (hs c hc).bind fun o h => ?_
    cases o with
    | none => exact Res.settled_ok _
    | some x =>
      obtain ⟨t, c'⟩ := x
      have := hn c t c' hc h
      exact ih c' _ (by omega) (by omega)

theorem derToVal_settled {d : De α} (h : SettlesDer d) (c : Bytes) : (derToVal d c).Settled := by
  rw [derToVal]
  split
  · exact Res.settled_ok _
  · rcases derParse_cases c with ⟨e, rest, hp⟩ | ⟨id, b, rest, h1, h2, hp, _⟩
    · rw [hp]; exact Res.settled_err _
    · rw [hp]
      simp only [mapErrContext, Res.bind_ok]
      rw [show DerRef.disassemble (tlv id b) = _ from disassemble_tlv h1 h2, Res.bind_ok]
      exact (h id b).mapErr.bind fun _ _ => Res.settled_ok _

theorem derToKeyVal_settled {dk : De α} {dv : De β} (hk : SettlesDer dk) (hv : SettlesDer dv) (c : Bytes) :
    (derToKeyVal dk dv c).Settled := by
  rw [derToKeyVal]
  split
  · exact Res.settled_ok _
  · rcases derParse_cases c with ⟨e, rest, hp⟩ | ⟨id, b, rest, h1, h2, hp, _⟩
    · rw [hp]; exact Res.settled_err _
    · rw [hp]
      simp only [mapErrContext, Res.bind_ok]
      rw [DerRef_id_tlv h1 b, Res.bind_ok]
      refine Res.Settled.guard fun _ => ?_
      rw [DerRef_contents_tlv h1 h2, Res.bind_ok]
      rcases derParse_cases b with ⟨e, rest', hp'⟩ | ⟨id', b', rest', h1', h2', hp', _⟩
      · rw [hp']; exact Res.settled_err _
      rw [hp']
      simp only [mapErrContext, Res.bind_ok]
      rcases derParse_cases rest' with ⟨e, rest'', hp''⟩ | ⟨id'', b'', rest'', h1'', h2'', hp'', _⟩
      · rw [hp'']; exact Res.settled_err _
      rw [hp'']
      simp only [mapErrContext, Res.bind_ok]
      split
      · rw [show DerRef.disassemble (tlv id' b') = _ from disassemble_tlv h1' h2', Res.bind_ok]
        simp only []
        refine (hk id' b').mapErr.bind fun k _ => ?_
        rw [show DerRef.disassemble (tlv id'' b'') = _ from disassemble_tlv h1'' h2'', Res.bind_ok]
        exact (hv id'' b'').mapErr.bind fun _ _ => Res.settled_ok _
      · exact Res.settled_err _

theorem berToVal_settled {d : De α} (h : SettlesBer d) (c : Bytes) (hc : c.length ≤ isizeMax) :
    (berToVal d c).Settled := by
  rw [berToVal]
  split
  · exact Res.settled_ok _
  · rcases berParse_cases c hc with ⟨e, rest, hp⟩ | ⟨p, id, indef, raw, rest, hv, hp, rfl⟩
    · rw [hp]; exact Res.settled_err _
    · rw [hp]
      have hl := berValue_length hv
      rw [List.length_append] at hc
      simp only [mapErrContext, Res.bind_ok]
      rw [berValue_disassemble hv, Res.bind_ok]
      exact (h id indef raw (by omega)).mapErr.bind fun _ _ => Res.settled_ok _

theorem berToKeyVal_settled {dk : De α} {dv : De β} (hk : SettlesBer dk) (hv : SettlesBer dv) (c : Bytes)
    (hc : c.length ≤ isizeMax) : (berToKeyVal dk dv c).Settled := by
  rw [berToKeyVal]
  split
  · exact Res.settled_ok _
  · rcases berParse_cases c hc with ⟨e, rest, hp⟩ | ⟨p, id, indef, raw, rest, hb, hp, rfl⟩
    · rw [hp]; exact Res.settled_err _
    · rw [hp]
      have hl := berValue_length hb
      rw [List.length_append] at hc
      simp only [mapErrContext, Res.bind_ok]
      rw [berValue_id hb, Res.bind_ok]
      refine Res.Settled.guard fun _ => ?_
      rw [berValue_contents hb, Res.bind_ok]
      rcases berParse_cases raw (by omega) with ⟨e, rest', hp'⟩ | ⟨p', id', d', b', rest', hb', hp', e'⟩
      · rw [hp']; exact Res.settled_err _
      have hl' := berValue_length hb'
      have he' := congrArg List.length e'
      rw [List.length_append] at he'
      rw [hp']
      simp only [mapErrContext, Res.bind_ok]
      rcases berParse_cases rest' (by omega) with ⟨e, rest'', hp''⟩ | ⟨p'', id'', d'', b'', rest'', hb'', hp'', e''⟩
      · rw [hp'']; exact Res.settled_err _
      have hl'' := berValue_length hb''
      have he'' := congrArg List.length e''
      rw [List.length_append] at he''
      rw [hp'']
      simp only [mapErrContext, Res.bind_ok]
      split
      · rw [berValue_disassemble hb', Res.bind_ok]
        simp only []
        refine (hk id' d' b' (by omega)).mapErr.bind fun k _ => ?_
        rw [berValue_disassemble hb'', Res.bind_ok]
        exact (hv id'' d'' b'' (by omega)).mapErr.bind fun _ _ => Res.settled_ok _
      · exact Res.settled_err _

theorem excludeEoc_settled (m : Build) (indef : Bool) (raw : Bytes) : (excludeEoc m (lenOf indef raw) raw).Settled := by
  cases indef with
  | false => exact .inl ⟨_, (excludeEoc_iff m false raw raw).mpr rfl⟩
  | true =>
    rw [lenOf, excludeEoc]
    split
    · rw [sliceTo, if_pos (by omega)]; exact Res.settled_ok _
    · exact Res.settled_err _

theorem toInteger_settled (t : IntTy) (c : Bytes) : (ContentsRef.toInteger t c).Settled := by
  rw [toInteger_spec]
  split_ifs <;> first | exact Res.settled_err _ | exact Res.settled_ok _

theorem toBoolDer_settled (c : Bytes) : (ContentsRef.toBoolDer c).Settled := by
  match c with
  | [] => exact .inr ⟨_, rfl⟩
  | [b] =>
    by_cases h0 : b = 0
    · subst h0; exact .inl ⟨_, rfl⟩
    · by_cases h1 : b = 0xff
      · subst h1; exact .inl ⟨_, rfl⟩
      · refine .inr ⟨.invalidDerBooleanContents, ?_⟩
        simp [ContentsRef.toBoolDer, getAt, h0, h1]
  | b :: b' :: r =>
    refine .inr ⟨.extraContentsOctet, ?_⟩
    simp [ContentsRef.toBoolDer]

theorem toBoolBer_settled (c : Bytes) : (ContentsRef.toBoolBer c).Settled := by
  match c with
  | [] => exact .inr ⟨_, rfl⟩
  | [b] =>
    by_cases h0 : b = 0
    · subst h0; exact .inl ⟨_, rfl⟩
    · refine .inl ⟨true, ?_⟩
      simp [ContentsRef.toBoolBer, getAt, h0]
  | b :: b' :: r =>
    refine .inr ⟨.extraContentsOctet, ?_⟩
    simp [ContentsRef.toBoolBer]

theorem strFromUtf8_settled (c : Bytes) : (strFromUtf8 c).Settled := by
  rw [strFromUtf8]
  split
  · exact Res.settled_ok _
  · exact Res.settled_err _

theorem convErr_settled (x : Except Chain α) : (convErr x).Settled := by
  cases x
  · exact Res.settled_err _
  · exact Res.settled_ok _

theorem back_settledDer {d : De β} (h : SettlesDer d) (g : Back β α) : SettlesDer (De.back d g) := by
  intro id c
  cases g with
  | from_ g => exact (h id c).bind fun _ _ => Res.settled_ok _
  | tryFrom g => exact (h id c).bind fun _ _ => convErr_settled _

theorem back_settledBer {d : De β} (h : SettlesBer d) (g : Back β α) : SettlesBer (De.back d g) := by
  intro id indef raw hl
  cases g with
  | from_ g => exact (h id indef raw hl).bind fun _ _ => Res.settled_ok _
  | tryFrom g => exact (h id indef raw hl).bind fun _ _ => convErr_settled _

theorem derTmpVal_settled {d : De α} (h : SettlesDer d) (c : Bytes) : (derTmpVal d c).Settled := by
  rw [derTmpVal]
  rcases derParse_cases c with ⟨e, rest, hp⟩ | ⟨id, b, rest, h1, h2, hp, _⟩
  · rw [hp]; exact Res.settled_err _
  · rw [hp]
    simp only [mapErrContext, Res.bind_ok]
    rw [show DerRef.disassemble (tlv id b) = _ from disassemble_tlv h1 h2, Res.bind_ok]
    exact (h id b).mapErr.bind fun _ _ => Res.settled_ok _

theorem berTmpVal_settled {d : De α} (h : SettlesBer d) (c : Bytes) (hc : c.length ≤ isizeMax) :
    (berTmpVal d c).Settled := by
  rw [berTmpVal]
  rcases berParse_cases c hc with ⟨e, rest, hp⟩ | ⟨p, id, indef, raw, rest, hv, hp, rfl⟩
  · rw [hp]; exact Res.settled_err _
  · rw [hp]
    have hl := berValue_length hv
    rw [List.length_append] at hc
    simp only [mapErrContext, Res.bind_ok]
    rw [berValue_disassemble hv, Res.bind_ok]
    exact (h id indef raw (by omega)).mapErr.bind fun _ _ => Res.settled_ok _

theorem berTmpVal_length {d : De α} {c : Bytes} (hc : c.length ≤ isizeMax) {v : α} {rest : Bytes}
    (h : berTmpVal d c = .ok (v, rest)) : rest.length ≤ isizeMax := by
  obtain ⟨p, id, indef, raw, _, _, rfl⟩ := (berTmpVal_iff d c hc v rest).mp h
  rw [List.length_append] at hc
  omega

theorem backField_settled {tmp : {δ : Type} → De δ → Bytes → Res (δ × Bytes)} {d : De β} {bytes : Bytes}
    (h : (tmp d bytes).Settled) (g : Back β α) : (deField tmp (backField d g) bytes).Settled := by
  cases g with
  | from_ g => exact h.bind fun _ _ => Res.settled_ok _
  | tryFrom g => exact h.bind fun _ _ => (convErr_settled _).bind fun _ _ => Res.settled_ok _

theorem backFieldTransparent_settled {tmp : {δ : Type} → De δ → Res δ} {d : De β} (h : (tmp d).Settled) (g : Back β α) :
    (deFieldTransparent tmp (backField d g)).Settled := by
  cases g with
  | from_ g => exact h.mapErr.bind fun _ _ => Res.settled_ok _
  | tryFrom g => exact h.mapErr.bind fun _ _ => convErr_settled _

theorem finish_settled (x : γ × Bytes) : (finish x).Settled := by
  obtain ⟨r, b⟩ := x
  rw [finish]
  split
  · exact Res.settled_ok _
  · exact Res.settled_err _

theorem collectDer_settled {d : De α} (h : SettlesDer d) (insert : γ → α → γ) (c : Bytes) (ret : γ) :
    (collect (derToVal d) insert c ret).Settled :=
  collect_settled (derToVal_consumes c.length d) (fun c _ => derToVal_settled h c) insert _ c ret (Nat.le_refl _) (by omega)

theorem collectDerPairs_settled {dk : De α} {dv : De β} (hk : SettlesDer dk) (hv : SettlesDer dv)
    (insert : γ → α × β → γ) (c : Bytes) (ret : γ) : (collect (derToKeyVal dk dv) insert c ret).Settled :=
  collect_settled (derToKeyVal_consumes c.length dk dv) (fun c _ => derToKeyVal_settled hk hv c) insert _ c ret
    (Nat.le_refl _) (by omega)

theorem collectBer_settled {d : De α} (h : SettlesBer d) (insert : γ → α → γ) (c : Bytes) (hc : c.length ≤ isizeMax)
    (ret : γ) : (collect (berToVal d) insert c ret).Settled :=
  collect_settled (berToVal_consumes d) (fun c hc => berToVal_settled h c hc) insert _ c ret hc (by omega)

theorem collectBerPairs_settled {dk : De α} {dv : De β} (hk : SettlesBer dk) (hv : SettlesBer dv)
    (insert : γ → α × β → γ) (c : Bytes) (hc : c.length ≤ isizeMax) (ret : γ) :
    (collect (berToKeyVal dk dv) insert c ret).Settled :=
  collect_settled (berToKeyVal_consumes dk dv) (fun c hc => berToKeyVal_settled hk hv c hc) insert _ c ret hc (by omega)

theorem body_settled {m : Build} {indef : Bool} {raw : Bytes} {k : Bytes → Res α} (hl : raw.length ≤ isizeMax)
    (hk : ∀ c : Bytes, c.length ≤ isizeMax → (k c).Settled) : (excludeEoc m (lenOf indef raw) raw >>= k).Settled :=
  (excludeEoc_settled m indef raw).bind fun c h =>
    hk c (Nat.le_trans (isBody_length ((excludeEoc_iff m indef raw c).mp h)) hl)

mutual
/-- `from_der` of every supported type returns. -/
theorem Ty.settlesDer (m : Build) (o : HashOrder) : {α : Type} → (t : Ty α) → t.deserializable →
    SettlesDer (Ty.de m o t)
  | _, .bool, _ => fun _ c => Res.Settled.guard fun _ => toBoolDer_settled c
  | _, .int t, _ => fun _ c => Res.Settled.guard fun _ => toInteger_settled t c
  | _, .string, _ => fun _ c => Res.Settled.guard fun _ => strFromUtf8_settled c
  | _, .octetString, _ => fun _ _ => Res.Settled.guard fun _ => Res.settled_ok _
  | _, .vec t, h => fun _ c => Res.Settled.guard fun _ => collectDer_settled (Ty.settlesDer m o t h) _ c _
  | _, .linkedList t, h => fun _ c => Res.Settled.guard fun _ => collectDer_settled (Ty.settlesDer m o t h) _ c _
  | _, .vecDeque t, h => fun _ c => Res.Settled.guard fun _ => collectDer_settled (Ty.settlesDer m o t h) _ c _
  | _, .btreeSet _ _ _ t, h => fun _ c => Res.Settled.guard fun _ => collectDer_settled (Ty.settlesDer m o t h) _ c _
  | _, .btreeMap _ _ _ k t, h => fun _ c => Res.Settled.guard fun _ =>
    collectDerPairs_settled (Ty.settlesDer m o k h.1) (Ty.settlesDer m o t h.2) _ c _
  | _, .hashSet _ t, h => fun _ c => Res.Settled.guard fun _ =>
    (collectDer_settled (Ty.settlesDer m o t h) _ c _).bind fun _ _ => Res.settled_ok _
  | _, .hashMap _ k t, h => fun _ c => Res.Settled.guard fun _ =>
    (collectDerPairs_settled (Ty.settlesDer m o k h.1) (Ty.settlesDer m o t h.2) _ c _).bind fun _ _ => Res.settled_ok _
  | _, .struct _ fs, h => fun _ c => Res.Settled.guard fun _ =>
    (Fields.settlesDer m o fs h c).bind fun x _ => finish_settled x
  | _, .enum vs, h => fun id c => Variants.settlesDer m o vs h id c
  | _, .transparent fs, h => fun id c => by
    have e : De.transparent (Fields.de m o fs) = some _ := if_pos ((Fields.deCount_eq m o fs).trans h.1)
    change (((De.transparent (Fields.de m o fs)).getD (De.struct m [] (Fields.de m o fs))).fromDer id c).Settled
    rw [e]
    exact Fields.settlesDerOne m o fs h.2 id c
  | _, .conv t _ g, h => back_settledDer (Ty.settlesDer m o t h) g
  | _, .named t _ _ _ _, h => fun id c => (Ty.settlesDer m o t h id c).bind fun _ _ => Res.settled_ok _
  | _, .hole, _ => fun _ _ => Res.settled_err _
/-- The same for fields. -/
theorem Fields.settlesDer (m : Build) (o : HashOrder) : {γ : Type} → (fs : Fields γ) → fs.deserializable →
    (bytes : Bytes) → (deFields derTmpVal (Fields.de m o fs) bytes).Settled
  | _, .nil, _, _ => Res.settled_ok _
  | _, .plain t r, h, bytes => (derTmpVal_settled (Ty.settlesDer m o t h.1) bytes).bind fun x _ =>
    (Fields.settlesDer m o r h.2 x.2).bind fun _ _ => Res.settled_ok _
  | _, .skip _ r, h, bytes => (Fields.settlesDer m o r h bytes).bind fun _ _ => Res.settled_ok _
  | _, .skipSer t r, h, bytes => (derTmpVal_settled (Ty.settlesDer m o t h.1) bytes).bind fun x _ =>
    (Fields.settlesDer m o r h.2 x.2).bind fun _ _ => Res.settled_ok _
  | _, .skipDe _ _ r, h, bytes => (Fields.settlesDer m o r h bytes).bind fun _ _ => Res.settled_ok _
  | _, .conv t _ g r, h, bytes => (backField_settled (derTmpVal_settled (Ty.settlesDer m o t h.1) bytes) g).bind fun x _ =>
    (Fields.settlesDer m o r h.2 x.2).bind fun _ _ => Res.settled_ok _
/-- The same for a transparent struct. -/
theorem Fields.settlesDerOne (m : Build) (o : HashOrder) : {γ : Type} → (fs : Fields γ) → fs.deserializable →
    (id c : Bytes) → (deFieldsTransparent (fun d => d.fromDer id c) (Fields.de m o fs)).Settled
  | _, .nil, _, _, _ => Res.settled_ok _
  | _, .plain t r, h, id, c => (Ty.settlesDer m o t h.1 id c).mapErr.bind fun _ _ =>
    (Fields.settlesDerOne m o r h.2 id c).bind fun _ _ => Res.settled_ok _
  | _, .skip _ r, h, id, c => (Fields.settlesDerOne m o r h id c).bind fun _ _ => Res.settled_ok _
  | _, .skipSer t r, h, id, c => (Ty.settlesDer m o t h.1 id c).mapErr.bind fun _ _ =>
    (Fields.settlesDerOne m o r h.2 id c).bind fun _ _ => Res.settled_ok _
  | _, .skipDe _ _ r, h, id, c => (Fields.settlesDerOne m o r h id c).bind fun _ _ => Res.settled_ok _
  | _, .conv t _ g r, h, id, c =>
    (backFieldTransparent_settled (tmp := fun d => d.fromDer id c) (Ty.settlesDer m o t h.1 id c) g).bind fun _ _ =>
      (Fields.settlesDerOne m o r h.2 id c).bind fun _ _ => Res.settled_ok _
/-- The same for an enum. -/
theorem Variants.settlesDer (m : Build) (o : HashOrder) : {ρ : Type} → (vs : Variants ρ) → vs.deserializable →
    (id c : Bytes) → ((Variants.de m o vs).pick id (fun fs => fromDerContents fs c)).Settled
  | _, .nil, _, _, _ => Res.settled_err _
  | _, .cons i fs r, h, id, c => by
    change (if id = i then _ else _ : Res _).Settled
    split
    · exact ((Fields.settlesDer m o fs h.1 c).bind fun x _ => finish_settled x).bind fun _ _ => Res.settled_ok _
    · exact (Variants.settlesDer m o r h.2 id c).bind fun _ _ => Res.settled_ok _
end

mutual
/-- `from_ber` of every supported type returns, in release builds. -/
theorem Ty.settlesBer (o : HashOrder) : {α : Type} → (t : Ty α) → t.deserializable → SettlesBer (Ty.de .release o t)
  | _, .bool, _ => fun _ indef raw _ => Res.Settled.guard fun _ => Res.Settled.guard fun _ => toBoolBer_settled raw
  | _, .int t, _ => fun _ indef raw _ => Res.Settled.guard fun _ => Res.Settled.guard fun _ => toInteger_settled t raw
  | _, .string, _ => fun _ indef raw _ => Res.Settled.guard fun _ => Res.Settled.guard fun _ => strFromUtf8_settled raw
  | _, .octetString, _ => fun _ _ _ _ => Res.Settled.guard fun _ => Res.Settled.guard fun _ => Res.settled_ok _
  | _, .vec t, h => fun _ _ _ hl => Res.Settled.guard fun _ => body_settled hl fun c hc =>
    collectBer_settled (Ty.settlesBer o t h) _ c hc _
  | _, .linkedList t, h => fun _ _ _ hl => Res.Settled.guard fun _ => body_settled hl fun c hc =>
    collectBer_settled (Ty.settlesBer o t h) _ c hc _
  | _, .vecDeque t, h => fun _ _ _ hl => Res.Settled.guard fun _ => body_settled hl fun c hc =>
    collectBer_settled (Ty.settlesBer o t h) _ c hc _
  | _, .btreeSet _ _ _ t, h => fun _ _ _ hl => Res.Settled.guard fun _ => body_settled hl fun c hc =>
    collectBer_settled (Ty.settlesBer o t h) _ c hc _
  | _, .btreeMap _ _ _ k t, h => fun _ _ _ hl => Res.Settled.guard fun _ => body_settled hl fun c hc =>
    collectBerPairs_settled (Ty.settlesBer o k h.1) (Ty.settlesBer o t h.2) _ c hc _
  | _, .hashSet _ t, h => fun _ _ _ hl => Res.Settled.guard fun _ => body_settled hl fun c hc =>
    (collectBer_settled (Ty.settlesBer o t h) _ c hc _).bind fun _ _ => Res.settled_ok _
  | _, .hashMap _ k t, h => fun _ _ _ hl => Res.Settled.guard fun _ => body_settled hl fun c hc =>
    (collectBerPairs_settled (Ty.settlesBer o k h.1) (Ty.settlesBer o t h.2) _ c hc _).bind fun _ _ => Res.settled_ok _
  | _, .struct _ fs, h => fun _ indef raw hl => Res.Settled.guard fun _ => Fields.settlesBerContents o fs h indef raw hl
  | _, .enum vs, h => fun id indef raw hl => Variants.settlesBer o vs h id indef raw hl
  | _, .transparent fs, h => fun id indef raw hl => by
    have e : De.transparent (Fields.de .release o fs) = some _ := if_pos ((Fields.deCount_eq .release o fs).trans h.1)
    change (((De.transparent (Fields.de .release o fs)).getD
      (De.struct .release [] (Fields.de .release o fs))).fromBer id (lenOf indef raw) raw).Settled
    rw [e]
    exact Fields.settlesBerOne o fs h.2 id indef raw hl
  | _, .conv t _ g, h => back_settledBer (Ty.settlesBer o t h) g
  | _, .named t _ _ _ _, h => fun id d raw hl => (Ty.settlesBer o t h id d raw hl).bind fun _ _ => Res.settled_ok _
  | _, .hole, _ => fun _ _ _ _ => Res.settled_err _
/-- The same for the contents of a struct or variant. -/
theorem Fields.settlesBerContents (o : HashOrder) : {γ : Type} → (fs : Fields γ) → fs.deserializable →
    (indef : Bool) → (raw : Bytes) → raw.length ≤ isizeMax →
    (fromBerContents .release (Fields.de .release o fs) (lenOf indef raw) raw).Settled
  | _, fs, h, indef, raw, hl => by
    rw [fromBerContents, structContents_eq]
    exact body_settled hl fun c hc => (Fields.settlesBer o fs h c hc).bind fun x _ => finish_settled x
/-- The same for fields. -/
theorem Fields.settlesBer (o : HashOrder) : {γ : Type} → (fs : Fields γ) → fs.deserializable →
    (bytes : Bytes) → bytes.length ≤ isizeMax → (deFields berTmpVal (Fields.de .release o fs) bytes).Settled
  | _, .nil, _, _, _ => Res.settled_ok _
  | _, .plain t r, h, bytes, hl => (berTmpVal_settled (Ty.settlesBer o t h.1) bytes hl).bind fun x hx =>
    (Fields.settlesBer o r h.2 x.2 (berTmpVal_length hl (v := x.1) hx)).bind fun _ _ => Res.settled_ok _
  | _, .skip _ r, h, bytes, hl => (Fields.settlesBer o r h bytes hl).bind fun _ _ => Res.settled_ok _
  | _, .skipSer t r, h, bytes, hl => (berTmpVal_settled (Ty.settlesBer o t h.1) bytes hl).bind fun x hx =>
    (Fields.settlesBer o r h.2 x.2 (berTmpVal_length hl (v := x.1) hx)).bind fun _ _ => Res.settled_ok _
  | _, .skipDe _ _ r, h, bytes, hl => (Fields.settlesBer o r h bytes hl).bind fun _ _ => Res.settled_ok _
  | _, .conv t _ g r, h, bytes, hl =>
    (backField_settled (berTmpVal_settled (Ty.settlesBer o t h.1) bytes hl) g).bind fun x hx =>
      (Fields.settlesBer o r h.2 x.2 (by
        obtain ⟨u, hu, _⟩ := (backField_de berTmpVal (Ty.de .release o t) g bytes x.1 x.2).mp hx
        exact berTmpVal_length hl hu)).bind fun _ _ => Res.settled_ok _
/-- The same for a transparent struct. -/
theorem Fields.settlesBerOne (o : HashOrder) : {γ : Type} → (fs : Fields γ) → fs.deserializable →
    (id : Bytes) → (indef : Bool) → (raw : Bytes) → raw.length ≤ isizeMax →
    (deFieldsTransparent (fun d => d.fromBer id (lenOf indef raw) raw) (Fields.de .release o fs)).Settled
  | _, .nil, _, _, _, _, _ => Res.settled_ok _
  | _, .plain t r, h, id, indef, raw, hl => (Ty.settlesBer o t h.1 id indef raw hl).mapErr.bind fun _ _ =>
    (Fields.settlesBerOne o r h.2 id indef raw hl).bind fun _ _ => Res.settled_ok _
  | _, .skip _ r, h, id, indef, raw, hl => (Fields.settlesBerOne o r h id indef raw hl).bind fun _ _ => Res.settled_ok _
  | _, .skipSer t r, h, id, indef, raw, hl => (Ty.settlesBer o t h.1 id indef raw hl).mapErr.bind fun _ _ =>
    (Fields.settlesBerOne o r h.2 id indef raw hl).bind fun _ _ => Res.settled_ok _
  | _, .skipDe _ _ r, h, id, indef, raw, hl =>
    (Fields.settlesBerOne o r h id indef raw hl).bind fun _ _ => Res.settled_ok _
  | _, .conv t _ g r, h, id, indef, raw, hl =>
    (backFieldTransparent_settled (tmp := fun d => d.fromBer id (lenOf indef raw) raw)
      (Ty.settlesBer o t h.1 id indef raw hl) g).bind fun _ _ =>
      (Fields.settlesBerOne o r h.2 id indef raw hl).bind fun _ _ => Res.settled_ok _
/-- The same for an enum. -/
theorem Variants.settlesBer (o : HashOrder) : {ρ : Type} → (vs : Variants ρ) → vs.deserializable →
    (id : Bytes) → (indef : Bool) → (raw : Bytes) → raw.length ≤ isizeMax →
    ((Variants.de .release o vs).pick id (fun fs => fromBerContents .release fs (lenOf indef raw) raw)).Settled
  | _, .nil, _, _, _, _, _ => Res.settled_err _
  | _, .cons i fs r, h, id, indef, raw, hl => by
    change (if id = i then _ else _ : Res _).Settled
    split
    · exact (Fields.settlesBerContents o fs h.1 indef raw hl).bind fun _ _ => Res.settled_ok _
    · exact (Variants.settlesBer o r h.2 id indef raw hl).bind fun _ _ => Res.settled_ok _
end

end Bsn1
