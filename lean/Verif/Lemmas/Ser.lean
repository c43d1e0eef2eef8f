import Verif.Lemmas.Der
import Verif.Lemmas.Contents
import Verif.Model.Types
/-!
# Lemmas on serialization, for arbitrary `Serialize` implementations
-/

namespace Bsn1
open Spec

variable {α β : Type}

/-- The computation succeeds with `a` and writes exactly `bs`. -/
def WritesR (w : W α) (a : α) (bs : Bytes) : Prop := w.res = .ok a ∧ w.chunks.flatten = bs

/-- The computation succeeds and writes exactly `bs`. -/
abbrev Writes (w : W Unit) (bs : Bytes) : Prop := WritesR w () bs

theorem WritesR.bind {x : W α} {f : α → W β} {a : α} {b : β} {bs cs : Bytes} (hx : WritesR x a bs)
    (hf : WritesR (f a) b cs) : WritesR (x >>= f) b (bs ++ cs) := by
  obtain ⟨h1, h2⟩ := hx
  obtain ⟨h3, h4⟩ := hf
  change WritesR (W.bind x f) b (bs ++ cs)
  rw [W.bind, h1]
  exact ⟨h3, by simp [h2, h4]⟩

theorem writesR_pure (a : α) : WritesR (pure a) a [] := ⟨rfl, rfl⟩

theorem writesR_lift {r : Res α} {a : α} (h : r = .ok a) : WritesR (W.lift r) a [] := ⟨h, rfl⟩

theorem writes_writeAll (bs : Bytes) : Writes (W.writeAll bs) bs := ⟨rfl, by simp [W.writeAll]⟩

theorem WritesR.cast {w : W α} {a : α} {bs cs : Bytes} (h : WritesR w a bs) (e : bs = cs) : WritesR w a cs := e ▸ h

theorem writeBuffer_ok (m : Build) (cs : List Bytes) (b : Bytes) (h : b.length + cs.flatten.length ≤ isizeMax) :
    writeBuffer m cs b = .ok (b ++ cs.flatten) := by
  induction cs generalizing b with
  | nil => simp [writeBuffer]
  | cons c r ih =>
    simp only [List.flatten_cons, List.length_append] at h
    rw [writeBuffer, bufReserve_ok (by omega), Res.bind_ok, ih _ (by rw [List.length_append]; omega)]
    simp

theorem toBuffer_ok (m : Build) {w : W α} {a : α} {bs : Bytes} (hw : WritesR w a bs) (b : Bytes)
    (h : b.length + bs.length ≤ isizeMax) : w.toBuffer m b = .ok (a, b ++ bs) := by
  obtain ⟨h1, h2⟩ := hw
  rw [W.toBuffer, writeBuffer_ok m _ _ (by rw [h2]; exact h), h1, h2]
  rfl

/-- What `Serialize` promises for a value with identifier octets `id` and contents octets `c`. -/
structure Serializes (s : Ser α) (v : α) (id c : Bytes) : Prop where
  writeId : Writes (s.writeId v) id
  writeContents : Writes (s.writeDerContents v) c
  idLen : s.idLen v = .ok none ∨ s.idLen v = .ok (some id.length)
  contentsLen : s.derContentsLen v = .ok none ∨ s.derContentsLen v = .ok (some c.length)

/-- Both size hints are given. -/
def Hints (s : Ser α) (v : α) (id c : Bytes) : Prop :=
  s.idLen v = .ok (some id.length) ∧ s.derContentsLen v = .ok (some c.length)

theorem fits_contents {id c : Bytes} (h : (tlv id c).length ≤ isizeMax) : c.length ≤ isizeMax := by
  rw [tlv_length] at h; omega

theorem fits_lt {c : Bytes} (h : c.length ≤ isizeMax) : c.length < 2 ^ 64 := by
  have := isizeMax_lt
  rw [usizeSize_eq] at this
  omega

/-- The contents are buffered only without a size hint. -/
theorem contentsLen_ok (m : Build) {s : Ser α} {v : α} {id c : Bytes} (h : Serializes s v id c)
    (hc : c.length ≤ isizeMax) :
    contentsLen m s v = .ok (c.length, none) ∨ contentsLen m s v = .ok (c.length, some c) := by
  rcases h.contentsLen with e | e
  · right
    rw [contentsLen, e, Res.bind_ok]
    simp only []
    rw [toBuffer_ok m h.writeContents [] (by simpa using hc), Res.bind_ok]
    simp
  · left
    rw [contentsLen, e, Res.bind_ok]
    rfl

theorem writeDer_writes (m : Build) {s : Ser α} {v : α} {id c : Bytes} (h : Serializes s v id c)
    (hc : c.length ≤ isizeMax) : Writes (writeDer m s v) (tlv id c) := by
  rw [writeDer]
  rcases contentsLen_ok m h hc with e | e
  · refine (WritesR.bind (writesR_lift e) (WritesR.bind (writesR_lift (toBytes_definite (fits_lt hc)))
      (WritesR.bind h.writeId (WritesR.bind (writes_writeAll _) h.writeContents)))).cast ?_
    simp [tlv]
  · refine (WritesR.bind (writesR_lift e) (WritesR.bind (writesR_lift (toBytes_definite (fits_lt hc)))
      (WritesR.bind h.writeId (WritesR.bind (writes_writeAll _) (writes_writeAll c))))).cast ?_
    simp [tlv]

theorem reserveDer_ok (m : Build) {id c : Bytes} {o : Option Nat} (ho : o = none ∨ o = some id.length)
    (h : (tlv id c).length ≤ isizeMax) : reserveDer m o (lenOctets c.length).length c.length = .ok () := by
  have := isizeMax_lt
  rw [tlv_length] at h
  rcases ho with rfl | rfl
  · rfl
  · simp only [reserveDer]
    rw [uadd_ok (by omega), Res.bind_ok, uadd_ok (by omega), Res.bind_ok, bufReserve_ok (by omega)]
    rfl

theorem toDer_ok (m : Build) {s : Ser α} {v : α} {id c : Bytes} (h : Serializes s v id c)
    (hfit : (tlv id c).length ≤ isizeMax) : toDer m s v = .ok (tlv id c) := by
  have hc := fits_contents hfit
  have hl := tlv_length id c
  obtain ⟨o, ho, e2⟩ : ∃ o, (o = none ∨ o = some id.length) ∧ s.idLen v = .ok o := by
    rcases h.idLen with e | e
    · exact ⟨_, .inl rfl, e⟩
    · exact ⟨_, .inr rfl, e⟩
  have e3 : writeBuffer m [lenOctets c.length] ([] ++ id) = .ok (id ++ lenOctets c.length) := by
    rw [writeBuffer_ok m _ _ (by simp; omega)]; simp
  rw [toDer]
  rcases contentsLen_ok m h hc with e | e
  · rw [e, Res.bind_ok]
    simp only []
    rw [toBytes_definite (fits_lt hc), Res.bind_ok, e2, Res.bind_ok, reserveDer_ok m ho hfit, Res.bind_ok,
      toBuffer_ok m h.writeId [] (by simp; omega), Res.bind_ok]
    simp only []
    rw [e3, Res.bind_ok, toBuffer_ok m h.writeContents _ (by simp; omega), Res.bind_ok]
    simp [tlv]
  · rw [e, Res.bind_ok]
    simp only []
    rw [toBytes_definite (fits_lt hc), Res.bind_ok, e2, Res.bind_ok, reserveDer_ok m ho hfit, Res.bind_ok,
      toBuffer_ok m h.writeId [] (by simp; omega), Res.bind_ok]
    simp only []
    rw [e3, Res.bind_ok, writeBuffer_ok m _ _ (by simp; omega)]
    simp [tlv]

theorem derLen_ok (m : Build) {s : Ser α} {v : α} {id c : Bytes} (h : Serializes s v id c)
    (hfit : (tlv id c).length ≤ isizeMax) :
    derLen m s v = .ok none ∨ derLen m s v = .ok (some (tlv id c).length) := by
  have := isizeMax_lt
  have hc := fits_contents hfit
  have hl := tlv_length id c
  rw [derLen]
  rcases h.contentsLen with e | e
  · left; rw [e]; rfl
  · rw [e, Res.bind_ok]
    simp only []
    rcases h.idLen with e | e
    · left; rw [e]; rfl
    · right
      rw [e, Res.bind_ok]
      simp only []
      rw [len_definite (fits_lt hc), uadd_ok (by omega), Res.bind_ok, uadd_ok (by omega), Res.bind_ok, hl]
      rfl

theorem derLen_hints (m : Build) {s : Ser α} {v : α} {id c : Bytes} (h : Hints s v id c)
    (hfit : (tlv id c).length ≤ isizeMax) : derLen m s v = .ok (some (tlv id c).length) := by
  have := isizeMax_lt
  have hc := fits_contents hfit
  have hl := tlv_length id c
  rw [derLen, h.2, Res.bind_ok]
  simp only []
  rw [h.1, Res.bind_ok]
  simp only []
  rw [len_definite (fits_lt hc), uadd_ok (by omega), Res.bind_ok, uadd_ok (by omega), Res.bind_ok, hl]
  rfl

/-! ### Sequences of elements -/

/-- The encodings of the elements, concatenated. -/
def encAll (enc : α → Bytes × Bytes) (l : List α) : Bytes := l.flatMap fun x => tlvOf (enc x)

theorem length_le_flatMap {f : α → Bytes} {l : List α} {x : α} (h : x ∈ l) : (f x).length ≤ (l.flatMap f).length := by
  induction l with
  | nil => cases h
  | cons y r ih =>
    rw [List.flatMap_cons, List.length_append]
    rcases List.mem_cons.mp h with rfl | h
    · omega
    · have := ih h; omega

theorem writeEach_writes (m : Build) {s : Ser α} {enc : α → Bytes × Bytes} (l : List α)
    (h : ∀ x ∈ l, (tlvOf (enc x)).length ≤ isizeMax → Serializes s x (enc x).1 (enc x).2)
    (hfit : (encAll enc l).length ≤ isizeMax) : Writes (writeEach m s l) (encAll enc l) := by
  induction l with
  | nil => exact writesR_pure ()
  | cons x r ih =>
    simp only [encAll, List.flatMap_cons, List.length_append] at hfit
    have hx : (tlvOf (enc x)).length ≤ isizeMax := by omega
    exact WritesR.bind (writeDer_writes m (h x (by simp) hx) (fits_contents hx))
      (ih (fun y hy => h y (by simp [hy])) (by simp only [encAll]; omega))

theorem derContentsLenLoop_ok (m : Build) {s : Ser α} {enc : α → Bytes × Bytes} (l : List α) (acc : Nat)
    (h : ∀ x ∈ l, (tlvOf (enc x)).length ≤ isizeMax → Serializes s x (enc x).1 (enc x).2)
    (hfit : acc + (encAll enc l).length ≤ isizeMax) :
    derContentsLenLoop m s l acc = .ok none ∨
      derContentsLenLoop m s l acc = .ok (some (acc + (encAll enc l).length)) := by
  induction l generalizing acc with
  | nil => right; simp [derContentsLenLoop, encAll]
  | cons x r ih =>
    simp only [encAll, List.flatMap_cons, List.length_append] at hfit
    have hx : (tlvOf (enc x)).length ≤ isizeMax := by omega
    have := isizeMax_lt
    rw [derContentsLenLoop]
    rcases derLen_ok m (h x (by simp) hx) hx with e | e
    · left; rw [e]; rfl
    · rw [e, Res.bind_ok]
      simp only [tlvOf] at hfit ⊢
      rw [uadd_ok (by omega), Res.bind_ok]
      have hr := ih (acc + (tlv (enc x).1 (enc x).2).length) (fun y hy => h y (by simp [hy]))
        (by simp only [encAll, tlvOf]; omega)
      rcases hr with e | e
      · exact .inl e
      · right; rw [e]; simp [encAll, tlvOf, Nat.add_assoc]

theorem derContentsLenLoop_hints (m : Build) {s : Ser α} {enc : α → Bytes × Bytes} (l : List α) (acc : Nat)
    (h : ∀ x ∈ l, (tlvOf (enc x)).length ≤ isizeMax → Hints s x (enc x).1 (enc x).2)
    (hfit : acc + (encAll enc l).length ≤ isizeMax) :
    derContentsLenLoop m s l acc = .ok (some (acc + (encAll enc l).length)) := by
  induction l generalizing acc with
  | nil => simp [derContentsLenLoop, encAll]
  | cons x r ih =>
    simp only [encAll, List.flatMap_cons, List.length_append] at hfit
    have hx : (tlvOf (enc x)).length ≤ isizeMax := by omega
    have := isizeMax_lt
    rw [derContentsLenLoop, derLen_hints m (h x (by simp) hx) hx, Res.bind_ok]
    simp only [tlvOf] at hfit ⊢
    rw [uadd_ok (by omega), Res.bind_ok, ih _ (fun y hy => h y (by simp [hy])) (by simp only [encAll, tlvOf]; omega)]
    simp [encAll, tlvOf, Nat.add_assoc]

/-! ### Key-value pairs -/

/-- The encodings of the pairs, concatenated. -/
def encPairs (enck : α → Bytes × Bytes) (encv : β → Bytes × Bytes) (l : List (α × β)) : Bytes :=
  l.flatMap fun x => pairOctets (tlvOf (enck x.1)) (tlvOf (encv x.2))

theorem entryLen_ok (m : Build) {s : Ser α} {v : α} {id c : Bytes} (h : Serializes s v id c)
    (hfit : (tlv id c).length ≤ isizeMax) :
    ∃ o, entryLen m s v = .ok ((tlv id c).length, o) ∧ Writes (writeEntry m s v o) (tlv id c) := by
  rw [entryLen]
  rcases derLen_ok m h hfit with e | e
  · refine ⟨some (tlv id c), ?_, writes_writeAll _⟩
    rw [e, Res.bind_ok]
    simp only []
    rw [toDer_ok m h hfit]
    rfl
  · refine ⟨none, ?_, writeDer_writes m h (fits_contents hfit)⟩
    rw [e]
    rfl

theorem pair_fits {k v : Bytes} (h : (pairOctets k v).length ≤ isizeMax) :
    k.length + v.length ≤ isizeMax ∧ k.length ≤ isizeMax ∧ v.length ≤ isizeMax := by
  rw [pairOctets, tlv_length, List.length_append] at h
  omega

theorem writePair_writes (m : Build) {sk : Ser α} {sv : Ser β} {x : α × β} {k v : Bytes × Bytes}
    (hk : Serializes sk x.1 k.1 k.2) (hv : Serializes sv x.2 v.1 v.2)
    (hfit : (pairOctets (tlvOf k) (tlvOf v)).length ≤ isizeMax) :
    Writes (writePair m sk sv x) (pairOctets (tlvOf k) (tlvOf v)) := by
  obtain ⟨h1, h2, h3⟩ := pair_fits hfit
  have := isizeMax_lt
  obtain ⟨ok, ek, wk⟩ := entryLen_ok m hk h2
  obtain ⟨ov, ev, wv⟩ := entryLen_ok m hv h3
  rw [writePair]
  simp only [tlvOf] at *
  refine (WritesR.bind (writesR_lift ek) (WritesR.bind (writesR_lift ev) (WritesR.bind (writesR_lift (uadd_ok (by omega)))
    (WritesR.bind (writes_writeAll _) (WritesR.bind (writesR_lift (toBytes_definite ?_))
      (WritesR.bind (writes_writeAll _) (WritesR.bind wk wv))))))).cast ?_
  · have := usizeSize_eq; omega
  · generalize tlv k.1 k.2 = a
    generalize tlv v.1 v.2 = b
    simp [pairOctets, tlv, IdRef.sequence]

theorem writePairs_writes (m : Build) {sk : Ser α} {sv : Ser β} {ek : α → Bytes × Bytes} {ev : β → Bytes × Bytes}
    (l : List (α × β))
    (hk : ∀ x ∈ l, (tlvOf (ek x.1)).length ≤ isizeMax → Serializes sk x.1 (ek x.1).1 (ek x.1).2)
    (hv : ∀ x ∈ l, (tlvOf (ev x.2)).length ≤ isizeMax → Serializes sv x.2 (ev x.2).1 (ev x.2).2)
    (hfit : (encPairs ek ev l).length ≤ isizeMax) : Writes (writePairs m sk sv l) (encPairs ek ev l) := by
  induction l with
  | nil => exact writesR_pure ()
  | cons x r ih =>
    simp only [encPairs, List.flatMap_cons, List.length_append] at hfit
    have hx : (pairOctets (tlvOf (ek x.1)) (tlvOf (ev x.2))).length ≤ isizeMax := by omega
    obtain ⟨_, h2, h3⟩ := pair_fits hx
    exact WritesR.bind (writePair_writes m (hk x (by simp) h2) (hv x (by simp) h3) hx)
      (ih (fun y hy => hk y (by simp [hy])) (fun y hy => hv y (by simp [hy])) (by simp only [encPairs]; omega))

theorem addPair_ok (m : Build) (acc : Nat) {k v : Bytes} (h : acc + (pairOctets k v).length ≤ isizeMax) :
    addPair m acc k.length v.length = .ok (acc + (pairOctets k v).length) := by
  have := isizeMax_lt
  have := usizeSize_eq
  have hl : (pairOctets k v).length = 1 + (lenOctets (k.length + v.length)).length + (k.length + v.length) := by
    rw [pairOctets, tlv_length, List.length_append]; rfl
  rw [hl] at h ⊢
  have e : IdRef.sequence.length = 1 := rfl
  rw [addPair, uadd_ok (by omega), Res.bind_ok, len_definite (by omega), e, uadd_ok (by omega), Res.bind_ok,
    uadd_ok (by omega), Res.bind_ok, uadd_ok (by omega)]

theorem btreeMapLen_ok (m : Build) {sk : Ser α} {sv : Ser β} {ek : α → Bytes × Bytes} {ev : β → Bytes × Bytes}
    (l : List (α × β)) (acc : Nat)
    (hk : ∀ x ∈ l, (tlvOf (ek x.1)).length ≤ isizeMax → Serializes sk x.1 (ek x.1).1 (ek x.1).2)
    (hv : ∀ x ∈ l, (tlvOf (ev x.2)).length ≤ isizeMax → Serializes sv x.2 (ev x.2).1 (ev x.2).2)
    (hfit : acc + (encPairs ek ev l).length ≤ isizeMax) :
    btreeMapLen m sk sv l acc = .ok none ∨ btreeMapLen m sk sv l acc = .ok (some (acc + (encPairs ek ev l).length)) := by
  induction l generalizing acc with
  | nil => right; simp [btreeMapLen, encPairs]
  | cons x r ih =>
    simp only [encPairs, List.flatMap_cons, List.length_append] at hfit
    have hx : (pairOctets (tlvOf (ek x.1)) (tlvOf (ev x.2))).length ≤ isizeMax := by omega
    obtain ⟨_, h2, h3⟩ := pair_fits hx
    rw [btreeMapLen]
    rcases derLen_ok m (hk x (by simp) h2) h2 with e | e
    · left; rw [e]; rfl
    · rw [e, Res.bind_ok]
      simp only []
      rcases derLen_ok m (hv x (by simp) h3) h3 with e | e
      · left; rw [e]; rfl
      · rw [e, Res.bind_ok]
        simp only []
        rw [addPair_ok m acc (k := tlv _ _) (v := tlv _ _) (by simp only [tlvOf] at hfit; omega), Res.bind_ok]
        have hr := ih (acc + (pairOctets (tlvOf (ek x.1)) (tlvOf (ev x.2))).length) (fun y hy => hk y (by simp [hy]))
          (fun y hy => hv y (by simp [hy])) (by simp only [encPairs]; omega)
        rcases hr with e | e
        · exact .inl e
        · right
          simp only [tlvOf] at e ⊢
          rw [e]; simp [encPairs, tlvOf, Nat.add_assoc]

theorem btreeMapLen_hints (m : Build) {sk : Ser α} {sv : Ser β} {ek : α → Bytes × Bytes} {ev : β → Bytes × Bytes}
    (l : List (α × β)) (acc : Nat)
    (hk : ∀ x ∈ l, (tlvOf (ek x.1)).length ≤ isizeMax → Hints sk x.1 (ek x.1).1 (ek x.1).2)
    (hv : ∀ x ∈ l, (tlvOf (ev x.2)).length ≤ isizeMax → Hints sv x.2 (ev x.2).1 (ev x.2).2)
    (hfit : acc + (encPairs ek ev l).length ≤ isizeMax) :
    btreeMapLen m sk sv l acc = .ok (some (acc + (encPairs ek ev l).length)) := by
  induction l generalizing acc with
  | nil => simp [btreeMapLen, encPairs]
  | cons x r ih =>
    simp only [encPairs, List.flatMap_cons, List.length_append] at hfit
    have hx : (pairOctets (tlvOf (ek x.1)) (tlvOf (ev x.2))).length ≤ isizeMax := by omega
    obtain ⟨_, h2, h3⟩ := pair_fits hx
    rw [btreeMapLen, derLen_hints m (hk x (by simp) h2) h2, Res.bind_ok]
    simp only []
    rw [derLen_hints m (hv x (by simp) h3) h3, Res.bind_ok]
    simp only []
    rw [addPair_ok m acc (k := tlv _ _) (v := tlv _ _) (by simp only [tlvOf] at hfit; omega), Res.bind_ok]
    have hr := ih (acc + (pairOctets (tlvOf (ek x.1)) (tlvOf (ev x.2))).length) (fun y hy => hk y (by simp [hy]))
      (fun y hy => hv y (by simp [hy])) (by simp only [encPairs]; omega)
    simp only [tlvOf] at hr ⊢
    rw [hr]; simp [encPairs, tlvOf, Nat.add_assoc]

/-- With keys of known size `HashMap` computes the same as `BTreeMap`. -/
theorem hashMapLen_eq (m : Build) {sk : Ser α} {sv : Ser β} (l : List (α × β)) (acc : Nat)
    (hk : ∀ x ∈ l, derLen m sk x.1 ≠ .ok none) : hashMapLen m sk sv l acc = btreeMapLen m sk sv l acc := by
  induction l generalizing acc with
  | nil => rfl
  | cons x r ih =>
    rw [hashMapLen, btreeMapLen]
    have h := hk x (by simp)
    cases e : derLen m sk x.1 with
    | ok o =>
      cases o with
      | none => exact absurd e h
      | some n =>
        simp only [Res.bind_ok]
        cases e' : derLen m sv x.2 with
        | ok o =>
          cases o with
          | none => rfl
          | some n' =>
            simp only [Res.bind_ok]
            congr 1
            funext a
            exact ih a fun y hy => hk y (by simp [hy])
        | _ => rfl
    | _ => rfl

end Bsn1
