import Verif.Lemmas.SerTy
import Verif.Lemmas.TargetRead
import Verif.Lemmas.TargetEnc
import Verif.Model.TargetSer
import Verif.Spec.Target
/-!
# Serialization on targets with another pointer width

The proofs of `Verif.Lemmas.Ser` and `Verif.Lemmas.SerTy` again, with the arithmetic of the target.
-/

namespace Bsn1
namespace Target
open Spec

/-- The pointer width is between 1 and 8 octets. -/
class OkWord (tg : Target) : Prop where
  ge : 1 ≤ tg.word
  le : tg.word ≤ 8

variable {tg : Target} [OkWord tg] {α β γ ρ : Type}

omit [OkWord tg] in
theorem Real.okWord (h : tg.Real) : OkWord tg := ⟨by have := h.le; omega, h.le.2⟩

theorem lt_usize : tg.isizeMax < tg.usizeSize := by
  have := (isizeMax_lt (t := tg) OkWord.ge).1
  omega

theorem toBytes_fits {n : Nat} (h : n < tg.usizeSize) : tg.toBytes (.definite n) = .ok (lenOctets n) :=
  toBytes_lenOctets OkWord.ge OkWord.le h

theorem len_fits {n : Nat} (h : n < tg.usizeSize) : tg.lengthLen (.definite n) = (lenOctets n).length := lengthLen_definite h

theorem reserve_fits {m : Build} {a b : Nat} (h : a + b ≤ tg.isizeMax) : tg.bufReserve m a b = .ok (a + b) := bufReserve_ok OkWord.ge h

theorem intLen_word (i : IntTy) (v : Int) (h : (tg.intTy i).InRange v) : tg.intLen i v = (intOctets v).length := by
  cases i with
  | isize => exact signedLen_eq (by rw [intTy]; split_ifs <;> rfl) h
  | usize => exact unsignedLen_eq (by rw [intTy]; split_ifs <;> rfl) h
  | _ => exact intLen_eq _ v h

theorem writeBuffer_ok (m : Build) (cs : List Bytes) (b : Bytes) (h : b.length + cs.flatten.length ≤ tg.isizeMax) :
    tg.writeBuffer m cs b = .ok (b ++ cs.flatten) := by
  induction cs generalizing b with
  | nil => simp [Target.writeBuffer]
  | cons c r ih =>
    simp only [List.flatten_cons, List.length_append] at h
    rw [Target.writeBuffer, reserve_fits (by omega), Res.bind_ok, ih _ (by rw [List.length_append]; omega)]
    simp

theorem toBuffer_ok (m : Build) {w : W α} {a : α} {bs : Bytes} (hw : WritesR w a bs) (b : Bytes)
    (h : b.length + bs.length ≤ tg.isizeMax) : tg.toBuffer m w b = .ok (a, b ++ bs) := by
  obtain ⟨h1, h2⟩ := hw
  rw [Target.toBuffer, writeBuffer_ok m _ _ (by rw [h2]; exact h), h1, h2]
  rfl

theorem fits_contents {id c : Bytes} (h : (tlv id c).length ≤ tg.isizeMax) : c.length ≤ tg.isizeMax := by
  rw [tlv_length] at h; omega

theorem fits_lt {c : Bytes} (h : c.length ≤ tg.isizeMax) : c.length < tg.usizeSize := by
  have := lt_usize (tg := tg)
  omega

/-- The contents are buffered only without a size hint. -/
theorem contentsLen_ok (m : Build) {s : Ser α} {v : α} {id c : Bytes} (h : Serializes s v id c)
    (hc : c.length ≤ tg.isizeMax) :
    tg.contentsLen m s v = .ok (c.length, none) ∨ tg.contentsLen m s v = .ok (c.length, some c) := by
  rcases h.contentsLen with e | e
  · right
    rw [Target.contentsLen, e, Res.bind_ok]
    simp only []
    rw [toBuffer_ok m h.writeContents [] (by simpa using hc), Res.bind_ok]
    simp
  · left
    rw [Target.contentsLen, e, Res.bind_ok]
    rfl

theorem writeDer_writes (m : Build) {s : Ser α} {v : α} {id c : Bytes} (h : Serializes s v id c)
    (hc : c.length ≤ tg.isizeMax) : Writes (tg.writeDer m s v) (tlv id c) := by
  rw [Target.writeDer]
  rcases contentsLen_ok m h hc with e | e
  · refine (WritesR.bind (writesR_lift e) (WritesR.bind (writesR_lift (toBytes_fits (fits_lt hc)))
      (WritesR.bind h.writeId (WritesR.bind (writes_writeAll _) h.writeContents)))).cast ?_
    simp [tlv]
  · refine (WritesR.bind (writesR_lift e) (WritesR.bind (writesR_lift (toBytes_fits (fits_lt hc)))
      (WritesR.bind h.writeId (WritesR.bind (writes_writeAll _) (writes_writeAll c))))).cast ?_
    simp [tlv]

theorem reserveDer_ok (m : Build) {id c : Bytes} {o : Option Nat} (ho : o = none ∨ o = some id.length)
    (h : (tlv id c).length ≤ tg.isizeMax) : tg.reserveDer m o (lenOctets c.length).length c.length = .ok () := by
  have := lt_usize (tg := tg)
  rw [tlv_length] at h
  rcases ho with rfl | rfl
  · rfl
  · simp only [Target.reserveDer]
    rw [uadd_ok (by omega), Res.bind_ok, uadd_ok (by omega), Res.bind_ok, reserve_fits (by omega)]
    rfl

theorem toDer_ok (m : Build) {s : Ser α} {v : α} {id c : Bytes} (h : Serializes s v id c)
    (hfit : (tlv id c).length ≤ tg.isizeMax) : tg.toDer m s v = .ok (tlv id c) := by
  have hc := fits_contents hfit
  have hl := tlv_length id c
  obtain ⟨o, ho, e2⟩ : ∃ o, (o = none ∨ o = some id.length) ∧ s.idLen v = .ok o := by
    rcases h.idLen with e | e
    · exact ⟨_, .inl rfl, e⟩
    · exact ⟨_, .inr rfl, e⟩
  have e3 : tg.writeBuffer m [lenOctets c.length] ([] ++ id) = .ok (id ++ lenOctets c.length) := by
    rw [writeBuffer_ok m _ _ (by simp; omega)]; simp
  rw [Target.toDer]
  rcases contentsLen_ok m h hc with e | e
  · rw [e, Res.bind_ok]
    simp only []
    rw [toBytes_fits (fits_lt hc), Res.bind_ok, e2, Res.bind_ok, reserveDer_ok m ho hfit, Res.bind_ok,
      toBuffer_ok m h.writeId [] (by simp; omega), Res.bind_ok]
    simp only []
    rw [e3, Res.bind_ok, toBuffer_ok m h.writeContents _ (by simp; omega), Res.bind_ok]
    simp [tlv]
  · rw [e, Res.bind_ok]
    simp only []
    rw [toBytes_fits (fits_lt hc), Res.bind_ok, e2, Res.bind_ok, reserveDer_ok m ho hfit, Res.bind_ok,
      toBuffer_ok m h.writeId [] (by simp; omega), Res.bind_ok]
    simp only []
    rw [e3, Res.bind_ok, writeBuffer_ok m _ _ (by simp; omega)]
    simp [tlv]

theorem derLen_ok (m : Build) {s : Ser α} {v : α} {id c : Bytes} (h : Serializes s v id c)
    (hfit : (tlv id c).length ≤ tg.isizeMax) :
    tg.derLen m s v = .ok none ∨ tg.derLen m s v = .ok (some (tlv id c).length) := by
  have := lt_usize (tg := tg)
  have hc := fits_contents hfit
  have hl := tlv_length id c
  rw [Target.derLen]
  rcases h.contentsLen with e | e
  · left; rw [e]; rfl
  · rw [e, Res.bind_ok]
    simp only []
    rcases h.idLen with e | e
    · left; rw [e]; rfl
    · right
      rw [e, Res.bind_ok]
      simp only []
      rw [len_fits (fits_lt hc), uadd_ok (by omega), Res.bind_ok, uadd_ok (by omega), Res.bind_ok, hl]
      rfl

theorem derLen_hints (m : Build) {s : Ser α} {v : α} {id c : Bytes} (h : Hints s v id c)
    (hfit : (tlv id c).length ≤ tg.isizeMax) : tg.derLen m s v = .ok (some (tlv id c).length) := by
  have := lt_usize (tg := tg)
  have hc := fits_contents hfit
  have hl := tlv_length id c
  rw [Target.derLen, h.2, Res.bind_ok]
  simp only []
  rw [h.1, Res.bind_ok]
  simp only []
  rw [len_fits (fits_lt hc), uadd_ok (by omega), Res.bind_ok, uadd_ok (by omega), Res.bind_ok, hl]
  rfl

/-! ### Sequences of elements -/

theorem writeEach_writes (m : Build) {s : Ser α} {enc : α → Bytes × Bytes} (l : List α)
    (h : ∀ x ∈ l, (tlvOf (enc x)).length ≤ tg.isizeMax → Serializes s x (enc x).1 (enc x).2)
    (hfit : (encAll enc l).length ≤ tg.isizeMax) : Writes (tg.writeEach m s l) (encAll enc l) := by
  induction l with
  | nil => exact writesR_pure ()
  | cons x r ih =>
    simp only [encAll, List.flatMap_cons, List.length_append] at hfit
    have hx : (tlvOf (enc x)).length ≤ tg.isizeMax := by omega
    exact WritesR.bind (writeDer_writes m (h x (by simp) hx) (fits_contents hx))
      (ih (fun y hy => h y (by simp [hy])) (by simp only [encAll]; omega))

theorem derContentsLenLoop_ok (m : Build) {s : Ser α} {enc : α → Bytes × Bytes} (l : List α) (acc : Nat)
    (h : ∀ x ∈ l, (tlvOf (enc x)).length ≤ tg.isizeMax → Serializes s x (enc x).1 (enc x).2)
    (hfit : acc + (encAll enc l).length ≤ tg.isizeMax) :
    tg.derContentsLenLoop m s l acc = .ok none ∨
      tg.derContentsLenLoop m s l acc = .ok (some (acc + (encAll enc l).length)) := by
  induction l generalizing acc with
  | nil => right; simp [Target.derContentsLenLoop, encAll]
  | cons x r ih =>
    simp only [encAll, List.flatMap_cons, List.length_append] at hfit
    have hx : (tlvOf (enc x)).length ≤ tg.isizeMax := by omega
    have := lt_usize (tg := tg)
    rw [Target.derContentsLenLoop]
    rcases derLen_ok m (h x (by simp) hx) hx with e | e
    · left; rw [e]; rfl
    · rw [e, Res.bind_ok]
      simp only [tlvOf] at hfit ⊢
      rw [uadd_ok (by omega), Res.bind_ok]
      have hr := ih (acc + (tlv (enc x).1 (enc x).2).length) (fun y hy => h y (by simp [hy]))
        (by simp only [encAll, tlvOf]; omega)
      rcases hr with e | e
      · exact .inl e
      · right; rw [e]; simp [encAll, tlvOf, Nat.add_assoc]

theorem derContentsLenLoop_hints (m : Build) {s : Ser α} {enc : α → Bytes × Bytes} (l : List α) (acc : Nat)
    (h : ∀ x ∈ l, (tlvOf (enc x)).length ≤ tg.isizeMax → Hints s x (enc x).1 (enc x).2)
    (hfit : acc + (encAll enc l).length ≤ tg.isizeMax) :
    tg.derContentsLenLoop m s l acc = .ok (some (acc + (encAll enc l).length)) := by
  induction l generalizing acc with
  | nil => simp [Target.derContentsLenLoop, encAll]
  | cons x r ih =>
    simp only [encAll, List.flatMap_cons, List.length_append] at hfit
    have hx : (tlvOf (enc x)).length ≤ tg.isizeMax := by omega
    have := lt_usize (tg := tg)
    rw [Target.derContentsLenLoop, derLen_hints m (h x (by simp) hx) hx, Res.bind_ok]
    simp only [tlvOf] at hfit ⊢
    rw [uadd_ok (by omega), Res.bind_ok, ih _ (fun y hy => h y (by simp [hy])) (by simp only [encAll, tlvOf]; omega)]
    simp [encAll, tlvOf, Nat.add_assoc]

/-! ### Key-value pairs -/

theorem entryLen_ok (m : Build) {s : Ser α} {v : α} {id c : Bytes} (h : Serializes s v id c)
    (hfit : (tlv id c).length ≤ tg.isizeMax) :
    ∃ o, tg.entryLen m s v = .ok ((tlv id c).length, o) ∧ Writes (tg.writeEntry m s v o) (tlv id c) := by
  rw [Target.entryLen]
  rcases derLen_ok m h hfit with e | e
  · refine ⟨some (tlv id c), ?_, writes_writeAll _⟩
    rw [e, Res.bind_ok]
    simp only []
    rw [toDer_ok m h hfit]
    rfl
  · refine ⟨none, ?_, writeDer_writes m h (fits_contents hfit)⟩
    rw [e]
    rfl

theorem pair_fits {k v : Bytes} (h : (pairOctets k v).length ≤ tg.isizeMax) :
    k.length + v.length ≤ tg.isizeMax ∧ k.length ≤ tg.isizeMax ∧ v.length ≤ tg.isizeMax := by
  rw [pairOctets, tlv_length, List.length_append] at h
  omega

theorem writePair_writes (m : Build) {sk : Ser α} {sv : Ser β} {x : α × β} {k v : Bytes × Bytes}
    (hk : Serializes sk x.1 k.1 k.2) (hv : Serializes sv x.2 v.1 v.2)
    (hfit : (pairOctets (tlvOf k) (tlvOf v)).length ≤ tg.isizeMax) :
    Writes (tg.writePair m sk sv x) (pairOctets (tlvOf k) (tlvOf v)) := by
  obtain ⟨h1, h2, h3⟩ := pair_fits hfit
  have := lt_usize (tg := tg)
  obtain ⟨ok, ek, wk⟩ := entryLen_ok m hk h2
  obtain ⟨ov, ev, wv⟩ := entryLen_ok m hv h3
  rw [Target.writePair]
  simp only [tlvOf] at *
  refine (WritesR.bind (writesR_lift ek) (WritesR.bind (writesR_lift ev) (WritesR.bind (writesR_lift (uadd_ok (by omega)))
    (WritesR.bind (writes_writeAll _) (WritesR.bind (writesR_lift (toBytes_fits ?_))
      (WritesR.bind (writes_writeAll _) (WritesR.bind wk wv))))))).cast ?_
  · omega
  · generalize tlv k.1 k.2 = a
    generalize tlv v.1 v.2 = b
    simp [pairOctets, tlv, IdRef.sequence]

theorem writePairs_writes (m : Build) {sk : Ser α} {sv : Ser β} {ek : α → Bytes × Bytes} {ev : β → Bytes × Bytes}
    (l : List (α × β))
    (hk : ∀ x ∈ l, (tlvOf (ek x.1)).length ≤ tg.isizeMax → Serializes sk x.1 (ek x.1).1 (ek x.1).2)
    (hv : ∀ x ∈ l, (tlvOf (ev x.2)).length ≤ tg.isizeMax → Serializes sv x.2 (ev x.2).1 (ev x.2).2)
    (hfit : (encPairs ek ev l).length ≤ tg.isizeMax) : Writes (tg.writePairs m sk sv l) (encPairs ek ev l) := by
  induction l with
  | nil => exact writesR_pure ()
  | cons x r ih =>
    simp only [encPairs, List.flatMap_cons, List.length_append] at hfit
    have hx : (pairOctets (tlvOf (ek x.1)) (tlvOf (ev x.2))).length ≤ tg.isizeMax := by omega
    obtain ⟨_, h2, h3⟩ := pair_fits hx
    exact WritesR.bind (writePair_writes m (hk x (by simp) h2) (hv x (by simp) h3) hx)
      (ih (fun y hy => hk y (by simp [hy])) (fun y hy => hv y (by simp [hy])) (by simp only [encPairs]; omega))

theorem addPair_ok (m : Build) (acc : Nat) {k v : Bytes} (h : acc + (pairOctets k v).length ≤ tg.isizeMax) :
    tg.addPair m acc k.length v.length = .ok (acc + (pairOctets k v).length) := by
  have := lt_usize (tg := tg)
  have hl : (pairOctets k v).length = 1 + (lenOctets (k.length + v.length)).length + (k.length + v.length) := by
    rw [pairOctets, tlv_length, List.length_append]; rfl
  rw [hl] at h ⊢
  have e : IdRef.sequence.length = 1 := rfl
  rw [Target.addPair, uadd_ok (by omega), Res.bind_ok, len_fits (by omega), e, uadd_ok (by omega), Res.bind_ok,
    uadd_ok (by omega), Res.bind_ok, uadd_ok (by omega)]

theorem btreeMapLen_ok (m : Build) {sk : Ser α} {sv : Ser β} {ek : α → Bytes × Bytes} {ev : β → Bytes × Bytes}
    (l : List (α × β)) (acc : Nat)
    (hk : ∀ x ∈ l, (tlvOf (ek x.1)).length ≤ tg.isizeMax → Serializes sk x.1 (ek x.1).1 (ek x.1).2)
    (hv : ∀ x ∈ l, (tlvOf (ev x.2)).length ≤ tg.isizeMax → Serializes sv x.2 (ev x.2).1 (ev x.2).2)
    (hfit : acc + (encPairs ek ev l).length ≤ tg.isizeMax) :
    tg.btreeMapLen m sk sv l acc = .ok none ∨ tg.btreeMapLen m sk sv l acc = .ok (some (acc + (encPairs ek ev l).length)) := by
  induction l generalizing acc with
  | nil => right; simp [Target.btreeMapLen, encPairs]
  | cons x r ih =>
    simp only [encPairs, List.flatMap_cons, List.length_append] at hfit
    have hx : (pairOctets (tlvOf (ek x.1)) (tlvOf (ev x.2))).length ≤ tg.isizeMax := by omega
    obtain ⟨_, h2, h3⟩ := pair_fits hx
    rw [Target.btreeMapLen]
    rcases derLen_ok m (hk x (by simp) h2) h2 with e | e
    · left; rw [e]; rfl
    · rw [e, Res.bind_ok]
      simp only []
      rcases derLen_ok m (hv x (by simp) h3) h3 with e | e
      · left; rw [e]; rfl
      · rw [e, Res.bind_ok]
        simp only []
        rw [addPair_ok m acc (k := tlv _ _) (v := tlv _ _) (by simp only [tlvOf] at hfit; omega), Res.bind_ok]
        have hr := ih (acc + (pairOctets (tlvOf (ek x.1)) (tlvOf (ev x.2))).length) (fun y hy => hk y (by simp [hy]))
          (fun y hy => hv y (by simp [hy])) (by simp only [encPairs]; omega)
        rcases hr with e | e
        · exact .inl e
        · right
          simp only [tlvOf] at e ⊢
          rw [e]; simp [encPairs, tlvOf, Nat.add_assoc]

theorem btreeMapLen_hints (m : Build) {sk : Ser α} {sv : Ser β} {ek : α → Bytes × Bytes} {ev : β → Bytes × Bytes}
    (l : List (α × β)) (acc : Nat)
    (hk : ∀ x ∈ l, (tlvOf (ek x.1)).length ≤ tg.isizeMax → Hints sk x.1 (ek x.1).1 (ek x.1).2)
    (hv : ∀ x ∈ l, (tlvOf (ev x.2)).length ≤ tg.isizeMax → Hints sv x.2 (ev x.2).1 (ev x.2).2)
    (hfit : acc + (encPairs ek ev l).length ≤ tg.isizeMax) :
    tg.btreeMapLen m sk sv l acc = .ok (some (acc + (encPairs ek ev l).length)) := by
  induction l generalizing acc with
  | nil => simp [Target.btreeMapLen, encPairs]
  | cons x r ih =>
    simp only [encPairs, List.flatMap_cons, List.length_append] at hfit
    have hx : (pairOctets (tlvOf (ek x.1)) (tlvOf (ev x.2))).length ≤ tg.isizeMax := by omega
    obtain ⟨_, h2, h3⟩ := pair_fits hx
    rw [Target.btreeMapLen, derLen_hints m (hk x (by simp) h2) h2, Res.bind_ok]
    simp only []
    rw [derLen_hints m (hv x (by simp) h3) h3, Res.bind_ok]
    simp only []
    rw [addPair_ok m acc (k := tlv _ _) (v := tlv _ _) (by simp only [tlvOf] at hfit; omega), Res.bind_ok]
    have hr := ih (acc + (pairOctets (tlvOf (ek x.1)) (tlvOf (ev x.2))).length) (fun y hy => hk y (by simp [hy]))
      (fun y hy => hv y (by simp [hy])) (by simp only [encPairs]; omega)
    simp only [tlvOf] at hr ⊢
    rw [hr]; simp [encPairs, tlvOf, Nat.add_assoc]

/-- With keys of known size `HashMap` computes the same as `BTreeMap`. -/
theorem hashMapLen_eq (m : Build) {sk : Ser α} {sv : Ser β} (l : List (α × β)) (acc : Nat)
    (hk : ∀ x ∈ l, tg.derLen m sk x.1 ≠ .ok none) : tg.hashMapLen m sk sv l acc = tg.btreeMapLen m sk sv l acc := by
  induction l generalizing acc with
  | nil => rfl
  | cons x r ih =>
    rw [Target.hashMapLen, Target.btreeMapLen]
    have h := hk x (by simp)
    cases e : tg.derLen m sk x.1 with
    | ok o =>
      cases o with
      | none => exact absurd e h
      | some n =>
        simp only [Res.bind_ok]
        cases e' : tg.derLen m sv x.2 with
        | ok o =>
          cases o with
          | none => rfl
          | some n' =>
            simp only [Res.bind_ok]
            congr 1
            funext a
            exact ih a fun y hy => hk y (by simp [hy])
        | _ => rfl
    | _ => rfl

theorem writeField_writes (m : Build) {f : SerField β} {v : β} {bs : Bytes} (h : FieldWrites f v bs)
    (hfit : bs.length ≤ tg.isizeMax) : Writes (tg.writeField m f v) bs := by
  cases f with
  | skip => cases h; exact writesR_pure ()
  | plain s =>
    obtain ⟨id, c, h, rfl⟩ := h
    exact writeDer_writes m h (fits_contents hfit)
  | conv s g =>
    obtain ⟨id, c, h, rfl⟩ := h
    exact writeDer_writes m h (fits_contents hfit)

theorem writeFields_writes (m : Build) {fs : SerFields γ} {v : γ} {bs : Bytes} (h : FieldsWrite fs v bs)
    (hfit : bs.length ≤ tg.isizeMax) : Writes (tg.writeFields m fs v) bs := by
  induction fs generalizing bs with
  | nil => cases h; exact writesR_pure ()
  | cons f r ih =>
    obtain ⟨a, b, h1, h2, rfl⟩ := h
    rw [List.length_append] at hfit
    exact WritesR.bind (writeField_writes m h1 (by omega)) (ih h2 (by omega))

theorem fieldsLenLoop_ok (m : Build) {fs : SerFields γ} {v : γ} {bs : Bytes} (h : FieldsWrite fs v bs) (acc : Nat)
    (hc : anyConv fs = false) (hfit : acc + bs.length ≤ tg.isizeMax) :
    tg.fieldsLenLoop m fs v acc = .ok none ∨ tg.fieldsLenLoop m fs v acc = .ok (some (acc + bs.length)) := by
  have := lt_usize (tg := tg)
  induction fs generalizing bs acc with
  | nil => cases h; right; simp [Target.fieldsLenLoop]
  | cons f r ih =>
    obtain ⟨a, b, h1, h2, rfl⟩ := h
    rw [List.length_append] at hfit
    cases f with
    | skip =>
      cases h1
      simp only [List.length_nil, List.nil_append] at hfit ⊢
      exact ih h2 acc (by simpa [anyConv] using hc) (by omega)
    | conv s g => simp [anyConv] at hc
    | plain s =>
      obtain ⟨id, c, h, rfl⟩ := h1
      have hl := tlv_length id c
      rw [Target.fieldsLenLoop]
      rcases h.contentsLen with e | e
      · left; rw [e]; rfl
      · rw [e, Res.bind_ok]
        simp only []
        rcases h.idLen with e | e
        · left; rw [e]; rfl
        · rw [e, Res.bind_ok]
          simp only []
          rw [len_fits (fits_lt (by omega)), uadd_ok (by omega), Res.bind_ok, uadd_ok (by omega), Res.bind_ok,
            uadd_ok (by omega), Res.bind_ok, ← hl]
          rcases ih h2 (acc + (tlv id c).length) (by simpa [anyConv] using hc) (by omega) with e | e
          · exact .inl e
          · right; rw [e, List.length_append, Nat.add_assoc]

theorem fieldsLen_ok (m : Build) {fs : SerFields γ} {v : γ} {bs : Bytes} (h : FieldsWrite fs v bs)
    (hfit : bs.length ≤ tg.isizeMax) : tg.fieldsLen m fs v = .ok none ∨ tg.fieldsLen m fs v = .ok (some bs.length) := by
  rw [Target.fieldsLen]
  cases hc : anyConv fs with
  | true => left; rfl
  | false =>
    simp only [Bool.false_eq_true, if_false]
    simpa using fieldsLenLoop_ok m h 0 hc (by omega)

theorem struct_serializes (m : Build) (id : Bytes) {fs : SerFields γ} {v : γ} {bs : Bytes} (h : FieldsWrite fs v bs)
    (hfit : bs.length ≤ tg.isizeMax) : Serializes (tg.serStruct m id fs) v id bs where
  writeId := writes_writeAll _
  writeContents := writeFields_writes m h hfit
  idLen := .inr rfl
  contentsLen := fieldsLen_ok m h hfit

theorem fieldsLen_hints (m : Build) {fs : SerFields γ} {v : γ} {bs : Bytes} (h : FieldsHint fs v bs)
    (hfit : bs.length ≤ tg.isizeMax) : tg.fieldsLen m fs v = .ok (some bs.length) := by
  have := lt_usize (tg := tg)
  have hc : anyConv fs = false := by
    clear hfit
    induction fs generalizing bs with
    | nil => rfl
    | cons f r ih =>
      cases f with
      | skip => exact ih h
      | plain s => obtain ⟨_, _, _, _, h, _⟩ := h; exact ih h
      | conv s g => exact h.elim
  have key : ∀ acc, acc + bs.length ≤ tg.isizeMax → tg.fieldsLenLoop m fs v acc = .ok (some (acc + bs.length)) := by
    clear hfit
    induction fs generalizing bs with
    | nil => cases h; intro acc _; simp [Target.fieldsLenLoop]
    | cons f r ih =>
      intro acc hfit
      cases f with
      | skip => exact ih h (by simpa [anyConv] using hc) acc hfit
      | conv s g => exact h.elim
      | plain s =>
        obtain ⟨id, c, b, h, h2, rfl⟩ := h
        have hl := tlv_length id c
        rw [List.length_append] at hfit
        rw [Target.fieldsLenLoop, h.2, Res.bind_ok]
        simp only []
        rw [h.1, Res.bind_ok]
        simp only []
        rw [len_fits (fits_lt (by omega)), uadd_ok (by omega), Res.bind_ok, uadd_ok (by omega), Res.bind_ok,
            uadd_ok (by omega), Res.bind_ok, ← hl, ih h2 (by simpa [anyConv] using hc) _ (by omega), List.length_append,
            Nat.add_assoc]
  rw [Target.fieldsLen, hc]
  simpa using key 0 (by omega)

/-! ### All supported types -/

theorem fits_of_der {α : Type} {t : Ty α} {v : α} (h : (t.der v).length ≤ tg.isizeMax) :
    (t.enc v).2.length ≤ tg.isizeMax := fits_contents h

theorem map_fits_mem {l : List (α × β)} {f : α × β → Bytes} {g : α × β → Bytes} {x : α × β} (hx : x ∈ l)
    (h : (l.flatMap fun x => pairOctets (f x) (g x)).length ≤ tg.isizeMax) :
    (f x).length ≤ tg.isizeMax ∧ (g x).length ≤ tg.isizeMax :=
  (pair_fits ((length_le_flatMap (f := fun x => pairOctets (f x) (g x)) hx).trans h)).2

theorem eachLen_ok (m : Build) {s : Ser α} {enc : α → Bytes × Bytes} (l : List α)
    (h : ∀ x ∈ l, (tlvOf (enc x)).length ≤ tg.isizeMax → Serializes s x (enc x).1 (enc x).2)
    (hfit : (encAll enc l).length ≤ tg.isizeMax) :
    tg.derContentsLenLoop m s l 0 = .ok none ∨ tg.derContentsLenLoop m s l 0 = .ok (some (encAll enc l).length) := by
  simpa using derContentsLenLoop_ok m l 0 h (by omega)

theorem eachLen_hints (m : Build) {s : Ser α} {enc : α → Bytes × Bytes} (l : List α)
    (h : ∀ x ∈ l, (tlvOf (enc x)).length ≤ tg.isizeMax → Hints s x (enc x).1 (enc x).2)
    (hfit : (encAll enc l).length ≤ tg.isizeMax) :
    tg.derContentsLenLoop m s l 0 = .ok (some (encAll enc l).length) := by
  simpa using derContentsLenLoop_hints m l 0 h (by omega)

theorem pairsLen_ok (m : Build) {sk : Ser α} {sv : Ser β} {ek : α → Bytes × Bytes} {ev : β → Bytes × Bytes}
    (l : List (α × β))
    (hk : ∀ x ∈ l, (tlvOf (ek x.1)).length ≤ tg.isizeMax → Serializes sk x.1 (ek x.1).1 (ek x.1).2)
    (hv : ∀ x ∈ l, (tlvOf (ev x.2)).length ≤ tg.isizeMax → Serializes sv x.2 (ev x.2).1 (ev x.2).2)
    (hfit : (encPairs ek ev l).length ≤ tg.isizeMax) :
    tg.btreeMapLen m sk sv l 0 = .ok none ∨ tg.btreeMapLen m sk sv l 0 = .ok (some (encPairs ek ev l).length) := by
  simpa using btreeMapLen_ok m l 0 hk hv (by omega)

theorem pairsLen_hints (m : Build) {sk : Ser α} {sv : Ser β} {ek : α → Bytes × Bytes} {ev : β → Bytes × Bytes}
    (l : List (α × β))
    (hk : ∀ x ∈ l, (tlvOf (ek x.1)).length ≤ tg.isizeMax → Hints sk x.1 (ek x.1).1 (ek x.1).2)
    (hv : ∀ x ∈ l, (tlvOf (ev x.2)).length ≤ tg.isizeMax → Hints sv x.2 (ev x.2).1 (ev x.2).2)
    (hfit : (encPairs ek ev l).length ≤ tg.isizeMax) :
    tg.btreeMapLen m sk sv l 0 = .ok (some (encPairs ek ev l).length) := by
  simpa using btreeMapLen_hints m l 0 hk hv (by omega)

/-- Keys with size hints: the sizes a `HashMap` and a `BTreeMap` compute agree. -/
theorem hashLen_eq (m : Build) {sk : Ser α} {sv : Ser β} {ek : α → Bytes × Bytes} {ev : β → Bytes × Bytes}
    (l : List (α × β))
    (hk : ∀ x ∈ l, (tlvOf (ek x.1)).length ≤ tg.isizeMax → Hints sk x.1 (ek x.1).1 (ek x.1).2)
    (hfit : (encPairs ek ev l).length ≤ tg.isizeMax) : tg.hashMapLen m sk sv l 0 = tg.btreeMapLen m sk sv l 0 :=
  hashMapLen_eq m l 0 fun x hx => by
    have hf := (map_fits_mem (f := fun x => tlvOf (ek x.1)) (g := fun x => tlvOf (ev x.2)) hx hfit).1
    rw [derLen_hints m (hk x hx hf) hf]
    simp

mutual
/-- Types of known size give both size hints, and these are right. -/
theorem tyHints (m : Build) : ∀ {α : Type} (t : Ty α), t.serializable → t.sized = true → ∀ v : α, (t.withInts tg.intTy).ok v →
    (t.der v).length ≤ tg.isizeMax → Hints (tg.tySer m t) v (t.enc v).1 (t.enc v).2
  | _, .bool, _, _, _, _, _ => ⟨rfl, rfl⟩
  | _, .int t, _, _, v, hok, _ => ⟨rfl, by
      change Res.ok (some (tg.intLen t v)) = _
      rw [intLen_word t v hok]; rfl⟩
  | _, .string, _, _, v, _, _ => ⟨rfl, by
      change Res.ok (some v.toByteArray.size) = .ok (some v.toByteArray.data.toList.length)
      simp⟩
  | _, .octetString, _, _, _, _, _ => ⟨rfl, rfl⟩
  | _, .vec t, hs, hz, v, hok, hfit => ⟨rfl, eachLen_hints m v
        (fun x hx => tyHints m t hs hz x (hok x hx)) (fits_of_der hfit)⟩
  | _, .linkedList t, hs, hz, v, hok, hfit => ⟨rfl, eachLen_hints m v
        (fun x hx => tyHints m t hs hz x (hok x hx)) (fits_of_der hfit)⟩
  | _, .vecDeque t, hs, hz, v, hok, hfit => ⟨rfl, eachLen_hints m v
        (fun x hx => tyHints m t hs hz x (hok x hx)) (fits_of_der hfit)⟩
  | _, .btreeSet _ _ _ t, hs, hz, v, hok, hfit => ⟨rfl, eachLen_hints m v
        (fun x hx => tyHints m t hs hz x (hok.2 x hx)) (fits_of_der hfit)⟩
  | _, .hashSet _ t, hs, hz, v, hok, hfit => ⟨rfl, eachLen_hints m v
        (fun x hx => tyHints m t hs hz x (hok.2 x hx)) (fits_of_der hfit)⟩
  | _, .btreeMap _ _ _ k t, hs, hz, v, hok, hfit => ⟨rfl, by
      simp only [Ty.sized, Bool.and_eq_true] at hz
      exact pairsLen_hints m v (fun x hx => tyHints m k hs.1 hz.1 x.1 (hok.2 x hx).1) (fun x hx => tyHints m t hs.2 hz.2 x.2 (hok.2 x hx).2)
        (fits_of_der hfit)⟩
  | _, .hashMap _ k t, hs, hz, v, hok, hfit => ⟨rfl, by
      simp only [Ty.sized, Bool.and_eq_true] at hz
      have hk : ∀ x ∈ v, (tlvOf (k.enc x.1)).length ≤ tg.isizeMax → Hints (tg.tySer m k) x.1 (k.enc x.1).1 (k.enc x.1).2 :=
        fun x hx => tyHints m k hs.1 hz.1 x.1 (hok.2 x hx).1
      exact (hashLen_eq m v hk (fits_of_der hfit)).trans
        (pairsLen_hints m v hk (fun x hx => tyHints m t hs.2.1 hz.2 x.2 (hok.2 x hx).2) (fits_of_der hfit))⟩
  | _, .struct _ fs, hs, hz, v, hok, hfit => ⟨rfl,
      fieldsLen_hints m (fieldsHints m fs hs.2 hz v hok (fits_of_der hfit)) (fits_of_der hfit)⟩
  | _, .enum vs, hs, hz, v, hok, hfit => variantsHints m vs hs hz v hok hfit
  | _, .transparent fs, hs, hz, v, hok, hfit => by
      obtain ⟨t, h1, h2, h3⟩ := fieldsHintsOne m fs hs.2 hs.1 hz v hok hfit
      obtain ⟨s, e, h⟩ := transparent_hints h1 h2 h3
      change Hints ((Ser.transparent (tg.fieldsSer m fs)).getD (tg.serStruct m [] (tg.fieldsSer m fs))) _ _ _
      rw [e]
      exact h
  | _, .conv _ _ _, _, hz, _, _, _ => by cases hz
  | _, .named t f _ _ _, hs, hz, v, hok, hfit => tyHints m t hs hz (f v) hok hfit
  | _, .hole, _, _, _, hok, _ => hok.elim
theorem fieldsHints (m : Build) : ∀ {γ : Type} (fs : Fields γ), fs.serializable → fs.sized = true → ∀ v : γ, (fs.withInts tg.intTy).ok v →
    (fs.enc v).length ≤ tg.isizeMax → FieldsHint (tg.fieldsSer m fs) v (fs.enc v)
  | _, .nil, _, _, _, _, _ => rfl
  | _, .plain t r, hs, hz, v, hok, hfit => by
      simp only [Fields.sized, Bool.and_eq_true] at hz
      simp only [Fields.enc, List.length_append] at hfit
      exact ⟨_, _, _, tyHints m t hs.1 hz.1 v.1 hok.1 (by rw [Ty.der]; omega),
        fieldsHints m r hs.2 hz.2 v.2 hok.2 (by omega), rfl⟩
  | _, .skip _ r, hs, hz, v, hok, hfit => fieldsHints m r hs hz v.2 hok hfit
  | _, .skipSer _ r, hs, hz, v, hok, hfit => fieldsHints m r hs hz v.2 hok hfit
  | _, .skipDe t _ r, hs, hz, v, hok, hfit => by
      simp only [Fields.sized, Bool.and_eq_true] at hz
      simp only [Fields.enc, List.length_append] at hfit
      exact ⟨_, _, _, tyHints m t hs.1 hz.1 v.1 hok.1 (by rw [Ty.der]; omega),
        fieldsHints m r hs.2 hz.2 v.2 hok.2 (by omega), rfl⟩
  | _, .conv _ _ _ _, _, hz, _, _, _ => by cases hz
theorem fieldsHintsOne (m : Build) : ∀ {γ : Type} (fs : Fields γ), fs.serializable → fs.serCount = 1 →
    fs.sized = true → ∀ v : γ, (fs.withInts tg.intTy).ok v → (tlvOf (fs.encOne v)).length ≤ tg.isizeMax →
    ∃ t, activeFields (tg.fieldsSer m fs) = [t] ∧ t.converted = false ∧ Hints t.ser v (fs.encOne v).1 (fs.encOne v).2
  | _, .nil, _, h, _, _, _, _ => by cases h
  | _, .plain t r, hs, hn, hz, v, hok, hfit => by
      simp only [Fields.sized, Bool.and_eq_true] at hz
      simp only [Fields.serCount, Nat.add_eq_right] at hn
      refine ⟨⟨(tg.tySer m t).comap Prod.fst, false⟩, ?_, rfl, tyHints m t hs.1 hz.1 v.1 hok.1 hfit⟩
      simp [Target.fieldsSer, activeFields, fieldsActive_nil m r hn]
  | _, .skip _ r, hs, hn, hz, v, hok, hfit => by
      obtain ⟨t, h1, h2, h3⟩ := fieldsHintsOne m r hs hn hz v.2 hok hfit
      exact ⟨⟨t.ser.comap Prod.snd, t.converted⟩, by simp [Target.fieldsSer, activeFields, h1], h2, h3⟩
  | _, .skipSer _ r, hs, hn, hz, v, hok, hfit => by
      obtain ⟨t, h1, h2, h3⟩ := fieldsHintsOne m r hs hn hz v.2 hok hfit
      exact ⟨⟨t.ser.comap Prod.snd, t.converted⟩, by simp [Target.fieldsSer, activeFields, h1], h2, h3⟩
  | _, .skipDe t _ r, hs, hn, hz, v, hok, hfit => by
      simp only [Fields.sized, Bool.and_eq_true] at hz
      simp only [Fields.serCount, Nat.add_eq_right] at hn
      refine ⟨⟨(tg.tySer m t).comap Prod.fst, false⟩, ?_, rfl, tyHints m t hs.1 hz.1 v.1 hok.1 hfit⟩
      simp [Target.fieldsSer, activeFields, fieldsActive_nil m r hn]
  | _, .conv _ _ _ _, _, _, hz, _, _, _ => by cases hz
theorem variantsHints (m : Build) : ∀ {ρ : Type} (vs : Variants ρ), vs.serializable → vs.sized = true → ∀ v : ρ,
    (vs.withInts tg.intTy).ok v → (tlvOf (vs.enc v)).length ≤ tg.isizeMax →
    Hints (tg.serEnum m (tg.variantsSer m vs)) v (vs.enc v).1 (vs.enc v).2
  | _, .cons _ fs _, hs, hz, .inl v, hok, hfit => by
      simp only [Variants.sized, Bool.and_eq_true] at hz
      exact ⟨rfl, fieldsLen_hints m (fieldsHints m fs hs.2.1 hz.1 v hok (fits_contents hfit)) (fits_contents hfit)⟩
  | _, .cons _ _ r, hs, hz, .inr v, hok, hfit => by
      simp only [Variants.sized, Bool.and_eq_true] at hz
      exact variantsHints m r hs.2.2 hz.2 v hok hfit
theorem fieldsActive_nil (m : Build) : ∀ {γ : Type} (fs : Fields γ), fs.serCount = 0 →
    activeFields (tg.fieldsSer m fs) = []
  | _, .nil, _ => rfl
  | _, .plain _ _, h => by simp [Fields.serCount] at h
  | _, .skip _ r, h => by simp [Target.fieldsSer, activeFields, fieldsActive_nil m r h]
  | _, .skipSer _ r, h => by simp [Target.fieldsSer, activeFields, fieldsActive_nil m r h]
  | _, .skipDe _ _ _, h => by simp [Fields.serCount] at h
  | _, .conv _ _ _ _, h => by simp [Fields.serCount] at h
end

mutual
/-- The implementation chosen for a type obeys the contract. -/
theorem tySerializes (m : Build) : ∀ {α : Type} (t : Ty α), t.serializable → ∀ v : α, (t.withInts tg.intTy).ok v →
    (t.der v).length ≤ tg.isizeMax → Serializes (tg.tySer m t) v (t.enc v).1 (t.enc v).2
  | _, .bool, _, v, _, _ => ⟨writes_writeAll _, by cases v <;> exact writes_writeAll _, .inr rfl, .inr rfl⟩
  | _, .int t, hs, v, hok, hfit => ⟨writes_writeAll _, by
      change Writes (tg.serInt t |>.writeDerContents v) (intOctets v)
      exact WritesR.bind (writesR_lift (ofInt_intOctets (tg.intTy t) v hok)) (writes_writeAll _),
      .inr rfl, .inr (tyHints m (.int t) hs rfl v hok hfit).2⟩
  | _, .string, hs, v, hok, hfit => ⟨writes_writeAll _, writes_writeAll _, .inr rfl,
      .inr (tyHints m .string hs rfl v hok hfit).2⟩
  | _, .octetString, _, _, _, _ => ⟨writes_writeAll _, writes_writeAll _, .inr rfl, .inr rfl⟩
  | _, .vec t, hs, v, hok, hfit =>
    have h : ∀ x ∈ v, (tlvOf (t.enc x)).length ≤ tg.isizeMax → Serializes (tg.tySer m t) x (t.enc x).1 (t.enc x).2 :=
      fun x hx => tySerializes m t hs x (hok x hx)
    ⟨writes_writeAll _, writeEach_writes m v h (fits_of_der hfit), .inr rfl, eachLen_ok m v h (fits_of_der hfit)⟩
  | _, .linkedList t, hs, v, hok, hfit =>
    have h : ∀ x ∈ v, (tlvOf (t.enc x)).length ≤ tg.isizeMax → Serializes (tg.tySer m t) x (t.enc x).1 (t.enc x).2 :=
      fun x hx => tySerializes m t hs x (hok x hx)
    ⟨writes_writeAll _, writeEach_writes m v h (fits_of_der hfit), .inr rfl, eachLen_ok m v h (fits_of_der hfit)⟩
  | _, .vecDeque t, hs, v, hok, hfit =>
    have h : ∀ x ∈ v, (tlvOf (t.enc x)).length ≤ tg.isizeMax → Serializes (tg.tySer m t) x (t.enc x).1 (t.enc x).2 :=
      fun x hx => tySerializes m t hs x (hok x hx)
    ⟨writes_writeAll _, writeEach_writes m v h (fits_of_der hfit), .inr rfl, eachLen_ok m v h (fits_of_der hfit)⟩
  | _, .btreeSet _ _ _ t, hs, v, hok, hfit =>
    have h : ∀ x ∈ v, (tlvOf (t.enc x)).length ≤ tg.isizeMax → Serializes (tg.tySer m t) x (t.enc x).1 (t.enc x).2 :=
      fun x hx => tySerializes m t hs x (hok.2 x hx)
    ⟨writes_writeAll _, writeEach_writes m v h (fits_of_der hfit), .inr rfl, eachLen_ok m v h (fits_of_der hfit)⟩
  | _, .hashSet _ t, hs, v, hok, hfit =>
    have h : ∀ x ∈ v, (tlvOf (t.enc x)).length ≤ tg.isizeMax → Serializes (tg.tySer m t) x (t.enc x).1 (t.enc x).2 :=
      fun x hx => tySerializes m t hs x (hok.2 x hx)
    ⟨writes_writeAll _, writeEach_writes m v h (fits_of_der hfit), .inr rfl, eachLen_ok m v h (fits_of_der hfit)⟩
  | _, .btreeMap _ _ _ k t, hs, v, hok, hfit =>
    have hk : ∀ x ∈ v, (tlvOf (k.enc x.1)).length ≤ tg.isizeMax →
        Serializes (tg.tySer m k) x.1 (k.enc x.1).1 (k.enc x.1).2 :=
      fun x hx => tySerializes m k hs.1 x.1 (hok.2 x hx).1
    have ht : ∀ x ∈ v, (tlvOf (t.enc x.2)).length ≤ tg.isizeMax →
        Serializes (tg.tySer m t) x.2 (t.enc x.2).1 (t.enc x.2).2 :=
      fun x hx => tySerializes m t hs.2 x.2 (hok.2 x hx).2
    ⟨writes_writeAll _, writePairs_writes m v hk ht (fits_of_der hfit), .inr rfl,
      pairsLen_ok m v hk ht (fits_of_der hfit)⟩
  | _, .hashMap _ k t, hs, v, hok, hfit =>
    have hk : ∀ x ∈ v, (tlvOf (k.enc x.1)).length ≤ tg.isizeMax →
        Serializes (tg.tySer m k) x.1 (k.enc x.1).1 (k.enc x.1).2 :=
      fun x hx => tySerializes m k hs.1 x.1 (hok.2 x hx).1
    have ht : ∀ x ∈ v, (tlvOf (t.enc x.2)).length ≤ tg.isizeMax →
        Serializes (tg.tySer m t) x.2 (t.enc x.2).1 (t.enc x.2).2 :=
      fun x hx => tySerializes m t hs.2.1 x.2 (hok.2 x hx).2
    ⟨writes_writeAll _, writePairs_writes m v hk ht (fits_of_der hfit), .inr rfl, by
      have e := hashLen_eq m (sv := tg.tySer m t) (ev := t.enc) v
        (fun x hx => tyHints m k hs.1 hs.2.2 x.1 (hok.2 x hx).1) (fits_of_der hfit)
      change tg.hashMapLen m (tg.tySer m k) (tg.tySer m t) v 0 = _ ∨ tg.hashMapLen m (tg.tySer m k) (tg.tySer m t) v 0 = _
      rw [e]
      exact pairsLen_ok m v hk ht (fits_of_der hfit)⟩
  | _, .struct id fs, hs, v, hok, hfit =>
    struct_serializes m id (fieldsWrites m fs hs.2 v hok (fits_of_der hfit)) (fits_of_der hfit)
  | _, .enum vs, hs, v, hok, hfit => variantsSerializes m vs hs v hok hfit
  | _, .transparent fs, hs, v, hok, hfit => by
      obtain ⟨t, h1, h2⟩ := fieldsSerializesOne m fs hs.2 hs.1 v hok hfit
      obtain ⟨s, e, h⟩ := transparent_serializes h1 h2
      change Serializes ((Ser.transparent (tg.fieldsSer m fs)).getD (tg.serStruct m [] (tg.fieldsSer m fs))) _ _ _
      rw [e]
      exact h
  | _, .conv t f _, hs, v, hok, hfit => conv_serializes f (tySerializes m t hs (f v) hok hfit)
  | _, .named t f _ _ _, hs, v, hok, hfit => by
      have ih := tySerializes m t hs (f v) hok hfit
      exact ⟨ih.writeId, ih.writeContents, ih.idLen, ih.contentsLen⟩
  | _, .hole, _, _, hok, _ => hok.elim
theorem fieldsWrites (m : Build) : ∀ {γ : Type} (fs : Fields γ), fs.serializable → ∀ v : γ, (fs.withInts tg.intTy).ok v →
    (fs.enc v).length ≤ tg.isizeMax → FieldsWrite (tg.fieldsSer m fs) v (fs.enc v)
  | _, .nil, _, _, _, _ => rfl
  | _, .plain t r, hs, v, hok, hfit => by
      simp only [Fields.enc, List.length_append] at hfit
      exact ⟨_, _, ⟨_, _, tySerializes m t hs.1 v.1 hok.1 (by rw [Ty.der]; omega), rfl⟩,
        fieldsWrites m r hs.2 v.2 hok.2 (by omega), rfl⟩
  | _, .skip _ r, hs, v, hok, hfit => ⟨_, _, rfl, fieldsWrites m r hs v.2 hok hfit, rfl⟩
  | _, .skipSer _ r, hs, v, hok, hfit => ⟨_, _, rfl, fieldsWrites m r hs v.2 hok hfit, rfl⟩
  | _, .skipDe t _ r, hs, v, hok, hfit => by
      simp only [Fields.enc, List.length_append] at hfit
      exact ⟨_, _, ⟨_, _, tySerializes m t hs.1 v.1 hok.1 (by rw [Ty.der]; omega), rfl⟩,
        fieldsWrites m r hs.2 v.2 hok.2 (by omega), rfl⟩
  | _, .conv t f _ r, hs, v, hok, hfit => by
      simp only [Fields.enc, List.length_append] at hfit
      exact ⟨_, _, ⟨_, _, tySerializes m t hs.1 (f v.1) hok.1 (by rw [Ty.der]; omega), rfl⟩,
        fieldsWrites m r hs.2 v.2 hok.2 (by omega), rfl⟩
theorem fieldsSerializesOne (m : Build) : ∀ {γ : Type} (fs : Fields γ), fs.serializable → fs.serCount = 1 →
    ∀ v : γ, (fs.withInts tg.intTy).ok v → (tlvOf (fs.encOne v)).length ≤ tg.isizeMax →
    ∃ t, activeFields (tg.fieldsSer m fs) = [t] ∧ Serializes t.ser v (fs.encOne v).1 (fs.encOne v).2
  | _, .nil, _, h, _, _, _ => by cases h
  | _, .plain t r, hs, hn, v, hok, hfit => by
      simp only [Fields.serCount, Nat.add_eq_right] at hn
      exact ⟨⟨(tg.tySer m t).comap Prod.fst, false⟩, by simp [Target.fieldsSer, activeFields, fieldsActive_nil m r hn],
        comap_serializes _ (tySerializes m t hs.1 v.1 hok.1 hfit)⟩
  | _, .skip _ r, hs, hn, v, hok, hfit => by
      obtain ⟨t, h1, h2⟩ := fieldsSerializesOne m r hs hn v.2 hok hfit
      exact ⟨⟨t.ser.comap Prod.snd, t.converted⟩, by simp [Target.fieldsSer, activeFields, h1], comap_serializes _ h2⟩
  | _, .skipSer _ r, hs, hn, v, hok, hfit => by
      obtain ⟨t, h1, h2⟩ := fieldsSerializesOne m r hs hn v.2 hok hfit
      exact ⟨⟨t.ser.comap Prod.snd, t.converted⟩, by simp [Target.fieldsSer, activeFields, h1], comap_serializes _ h2⟩
  | _, .skipDe t _ r, hs, hn, v, hok, hfit => by
      simp only [Fields.serCount, Nat.add_eq_right] at hn
      exact ⟨⟨(tg.tySer m t).comap Prod.fst, false⟩, by simp [Target.fieldsSer, activeFields, fieldsActive_nil m r hn],
        comap_serializes _ (tySerializes m t hs.1 v.1 hok.1 hfit)⟩
  | _, .conv t f _ r, hs, hn, v, hok, hfit => by
      simp only [Fields.serCount, Nat.add_eq_right] at hn
      exact ⟨⟨(tg.tySer m t).comap (fun v => f v.1), true⟩,
        by simp [Target.fieldsSer, activeFields, fieldsActive_nil m r hn],
        comap_serializes _ (tySerializes m t hs.1 (f v.1) hok.1 hfit)⟩
theorem variantsSerializes (m : Build) : ∀ {ρ : Type} (vs : Variants ρ), vs.serializable → ∀ v : ρ, (vs.withInts tg.intTy).ok v →
    (tlvOf (vs.enc v)).length ≤ tg.isizeMax →
    Serializes (tg.serEnum m (tg.variantsSer m vs)) v (vs.enc v).1 (vs.enc v).2
  | _, .cons id fs _, hs, .inl v, hok, hfit =>
      have h := struct_serializes m id (fieldsWrites m fs hs.2.1 v hok (fits_contents hfit)) (fits_contents hfit)
      ⟨h.1, h.2, h.3, h.4⟩
  | _, .cons _ _ r, hs, .inr v, hok, hfit =>
      have h := variantsSerializes m r hs.2.2 v hok hfit
      ⟨h.1, h.2, h.3, h.4⟩
end

end Target
end Bsn1
