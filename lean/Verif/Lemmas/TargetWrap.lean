import Verif.Lemmas.TargetTy
/-!
# Sequences longer than `usize::MAX` of the target
-/

namespace Bsn1
namespace Target
open Spec

variable {tg : Target} [OkWord tg] {α β γ ρ : Type}

/-- What a sum of `usize` comes to, when the true sum is `n`. -/
def total (tg : Target) (m : Build) (n : Nat) : Res Nat :=
  match m with
  | .debug => if n < tg.usizeSize then .ok n else .panic
  | .release => .ok (n % tg.usizeSize)

omit [OkWord tg] in
theorem total_lt (m : Build) {n : Nat} (h : n < tg.usizeSize) : tg.total m n = .ok n := by
  cases m
  · simp [total, h]
  · simp [total, Nat.mod_eq_of_lt h]

omit [OkWord tg] in
/-- One step of an accumulation. -/
theorem total_step (m : Build) {f : Nat → Res β} {g : Nat → Res β} {n : Nat} (acc k : Nat)
    (h : ∀ r, r < tg.usizeSize → f r = tg.total m (r + n) >>= g) : (tg.uadd m acc k >>= f) = tg.total m (acc + (k + n)) >>= g := by
  have hu : 0 < tg.usizeSize := Nat.pow_pos (by decide)
  unfold Target.uadd
  split
  · next hlt => rw [Res.bind_ok, h _ hlt, Nat.add_assoc]
  · next hlt =>
    cases m with
    | debug => simp only [total]; rw [if_neg (by omega)]; rfl
    | release =>
      simp only [Res.bind_ok]
      rw [h _ (Nat.mod_lt _ hu)]
      simp [total, Nat.add_assoc]

theorem derContentsLenLoop_total (m : Build) {s : Ser α} {enc : α → Bytes × Bytes} (l : List α) (acc : Nat) (ha : acc < tg.usizeSize)
    (h : ∀ x ∈ l, (tlvOf (enc x)).length ≤ tg.isizeMax ∧ Hints s x (enc x).1 (enc x).2) :
    tg.derContentsLenLoop m s l acc = tg.total m (acc + (encAll enc l).length) >>= fun n => .ok (some n) := by
  induction l generalizing acc with
  | nil => simp [Target.derContentsLenLoop, encAll, total_lt m ha]
  | cons x r ih =>
    obtain ⟨hx, hh⟩ := h x (by simp)
    rw [Target.derContentsLenLoop, derLen_hints _ hh hx, Res.bind_ok]
    simp only
    change (tg.uadd m acc (tlvOf (enc x)).length >>= _) = _
    rw [total_step m acc _ fun r' hr' => ih r' hr' fun y hy => h y (by simp [hy])]
    simp [encAll]

/-- A computation that writes `bs` in pieces that fit. -/
def Pieces (tg : Target) (w : W Unit) (bs : Bytes) : Prop := Writes w bs ∧ ∀ c ∈ w.chunks, c.length ≤ tg.isizeMax

omit [OkWord tg] in
theorem Pieces.pure : Pieces tg (pure ()) [] := ⟨writesR_pure (), fun _ hc => nomatch hc⟩

omit [OkWord tg] in
theorem Pieces.bind {x y : W Unit} {a b : Bytes} (hx : Pieces tg x a) (hy : Pieces tg y b) : Pieces tg (x >>= fun _ => y) (a ++ b) := by
  refine ⟨WritesR.bind hx.1 hy.1, fun c hc => ?_⟩
  have e : (x >>= fun _ => y).chunks = x.chunks ++ y.chunks := by
    change (W.bind _ _).chunks = _
    rw [W.bind, hx.1.1]
  rw [e, List.mem_append] at hc
  exact hc.elim (hx.2 c) (hy.2 c)

omit [OkWord tg] in
theorem Pieces.of_fits {w : W Unit} {bs : Bytes} (hw : Writes w bs) (h : bs.length ≤ tg.isizeMax) : Pieces tg w bs :=
  ⟨hw, fun c hc => by
    refine le_trans ?_ h
    rw [← hw.2]
    exact (List.sublist_flatten_of_mem hc).length_le⟩

theorem writeEach_pieces (m : Build) {s : Ser α} {enc : α → Bytes × Bytes} (l : List α)
    (h : ∀ x ∈ l, (tlvOf (enc x)).length ≤ tg.isizeMax ∧ Serializes s x (enc x).1 (enc x).2) :
    Pieces tg (tg.writeEach m s l) (encAll enc l) := by
  induction l with
  | nil => exact .pure
  | cons x r ih =>
    obtain ⟨hx, hh⟩ := h x (by simp)
    exact .bind (.of_fits (writeDer_writes m hh (fits_contents hx)) hx) (ih fun y hy => h y (by simp [hy]))

theorem addPair_eq (m : Build) (acc : Nat) {k v : Bytes} (h : (pairOctets k v).length ≤ tg.isizeMax) :
    tg.addPair m acc k.length v.length = tg.uadd m acc (pairOctets k v).length := by
  have := lt_usize (tg := tg)
  have hl : (pairOctets k v).length = 1 + (lenOctets (k.length + v.length)).length + (k.length + v.length) := by
    rw [pairOctets, tlv_length, List.length_append]; rfl
  rw [hl] at h ⊢
  have e : IdRef.sequence.length = 1 := rfl
  rw [Target.addPair, uadd_ok (by omega), Res.bind_ok, len_fits (by omega), e, uadd_ok (by omega), Res.bind_ok, uadd_ok (by omega), Res.bind_ok]

theorem btreeMapLen_total (m : Build) {sk : Ser α} {sv : Ser β} {ek : α → Bytes × Bytes} {ev : β → Bytes × Bytes}
    (l : List (α × β)) (acc : Nat) (ha : acc < tg.usizeSize)
    (h : ∀ x ∈ l, (pairOctets (tlvOf (ek x.1)) (tlvOf (ev x.2))).length ≤ tg.isizeMax ∧ Hints sk x.1 (ek x.1).1 (ek x.1).2 ∧
      Hints sv x.2 (ev x.2).1 (ev x.2).2) :
    tg.btreeMapLen m sk sv l acc = tg.total m (acc + (encPairs ek ev l).length) >>= fun n => .ok (some n) := by
  induction l generalizing acc with
  | nil => simp [Target.btreeMapLen, encPairs, total_lt m ha]
  | cons x r ih =>
    obtain ⟨hx, hk, hv⟩ := h x (by simp)
    obtain ⟨_, h2, h3⟩ := pair_fits hx
    rw [Target.btreeMapLen, derLen_hints _ hk h2, Res.bind_ok]
    simp only
    rw [derLen_hints _ hv h3, Res.bind_ok]
    simp only
    change (tg.addPair m acc (tlvOf (ek x.1)).length (tlvOf (ev x.2)).length >>= _) = _
    rw [addPair_eq m acc hx, total_step m acc _ fun r' hr' => ih r' hr' fun y hy => h y (by simp [hy])]
    simp [encPairs]

theorem writePairs_pieces (m : Build) {sk : Ser α} {sv : Ser β} {ek : α → Bytes × Bytes} {ev : β → Bytes × Bytes} (l : List (α × β))
    (h : ∀ x ∈ l, (pairOctets (tlvOf (ek x.1)) (tlvOf (ev x.2))).length ≤ tg.isizeMax ∧ Serializes sk x.1 (ek x.1).1 (ek x.1).2 ∧
      Serializes sv x.2 (ev x.2).1 (ev x.2).2) :
    Pieces tg (tg.writePairs m sk sv l) (encPairs ek ev l) := by
  induction l with
  | nil => exact .pure
  | cons x r ih =>
    obtain ⟨hx, hk, hv⟩ := h x (by simp)
    exact .bind (.of_fits (writePair_writes m hk hv hx) hx) (ih fun y hy => h y (by simp [hy]))

omit [OkWord tg] in
theorem anyConv_sized (m : Build) : ∀ {γ : Type} (fs : Fields γ), fs.sized = true → anyConv (tg.fieldsSer m fs) = false
  | _, .nil, _ => rfl
  | _, .plain _ r, h => by
      simp only [Fields.sized, Bool.and_eq_true] at h
      simpa [Target.fieldsSer, anyConv] using anyConv_sized m r h.2
  | _, .skip _ r, h => by simpa [Target.fieldsSer, anyConv] using anyConv_sized m r h
  | _, .skipSer _ r, h => by simpa [Target.fieldsSer, anyConv] using anyConv_sized m r h
  | _, .skipDe _ _ r, h => by
      simp only [Fields.sized, Bool.and_eq_true] at h
      simpa [Target.fieldsSer, anyConv] using anyConv_sized m r h.2
  | _, .conv _ _ _ _, h => by cases h

theorem field_total (m : Build) {s : Ser β} {r : SerFields γ} {v : β × γ} {id c : Bytes} {n : Nat} (h : Hints s v.1 id c)
    (hfit : (tlv id c).length ≤ tg.isizeMax) (acc : Nat)
    (ih : ∀ r', r' < tg.usizeSize → tg.fieldsLenLoop m r v.2 r' = tg.total m (r' + n) >>= fun n => .ok (some n)) :
    tg.fieldsLenLoop m (.cons (.plain s) r) v acc = tg.total m (acc + ((tlv id c).length + n)) >>= fun n => .ok (some n) := by
  have := lt_usize (tg := tg)
  have hl := tlv_length id c
  rw [Target.fieldsLenLoop, h.2, Res.bind_ok]
  simp only []
  rw [h.1, Res.bind_ok]
  simp only []
  rw [len_fits (by omega), uadd_ok (by omega), Res.bind_ok, uadd_ok (by omega), Res.bind_ok, ← hl, total_step m acc _ ih]

theorem fieldsLen_total (m : Build) : ∀ {γ : Type} (fs : Fields γ), fs.serializable → fs.sized = true → ∀ v : γ, (fs.withInts tg.intTy).ok v →
    fs.PartsFit tg.isizeMax v → ∀ acc, acc < tg.usizeSize →
    tg.fieldsLenLoop m (tg.fieldsSer m fs) v acc = tg.total m (acc + (fs.enc v).length) >>= fun n => .ok (some n)
  | _, .nil, _, _, _, _, _, acc, ha => by simp [Target.fieldsSer, Target.fieldsLenLoop, Fields.enc, total_lt m ha]
  | _, .plain t r, hs, hz, v, hok, hfit, acc, ha => by
      simp only [Fields.sized, Bool.and_eq_true] at hz
      rw [Fields.enc, List.length_append]
      exact field_total m (tyHints m t hs.1 hz.1 v.1 hok.1 hfit.1) hfit.1 acc (fieldsLen_total m r hs.2 hz.2 v.2 hok.2 hfit.2)
  | _, .skip _ r, hs, hz, v, hok, hfit, acc, ha => fieldsLen_total m r hs hz v.2 hok hfit acc ha
  | _, .skipSer _ r, hs, hz, v, hok, hfit, acc, ha => fieldsLen_total m r hs hz v.2 hok hfit acc ha
  | _, .skipDe t _ r, hs, hz, v, hok, hfit, acc, ha => by
      simp only [Fields.sized, Bool.and_eq_true] at hz
      rw [Fields.enc, List.length_append]
      exact field_total m (tyHints m t hs.1 hz.1 v.1 hok.1 hfit.1) hfit.1 acc (fieldsLen_total m r hs.2 hz.2 v.2 hok.2 hfit.2)
  | _, .conv _ _ _ _, _, hz, _, _, _, _, _ => by cases hz

theorem writeFields_pieces (m : Build) : ∀ {γ : Type} (fs : Fields γ), fs.serializable → ∀ v : γ, (fs.withInts tg.intTy).ok v →
    fs.PartsFit tg.isizeMax v → Pieces tg (tg.writeFields m (tg.fieldsSer m fs) v) (fs.enc v)
  | _, .nil, _, _, _, _ => .pure
  | _, .plain t r, hs, v, hok, hfit =>
      .bind (.of_fits (writeDer_writes m (tySerializes m t hs.1 v.1 hok.1 hfit.1) (fits_contents hfit.1)) hfit.1)
        (writeFields_pieces m r hs.2 v.2 hok.2 hfit.2)
  | _, .skip _ r, hs, v, hok, hfit => .bind .pure (writeFields_pieces m r hs v.2 hok hfit)
  | _, .skipSer _ r, hs, v, hok, hfit => .bind .pure (writeFields_pieces m r hs v.2 hok hfit)
  | _, .skipDe t _ r, hs, v, hok, hfit =>
      .bind (.of_fits (writeDer_writes m (tySerializes m t hs.1 v.1 hok.1 hfit.1) (fits_contents hfit.1)) hfit.1)
        (writeFields_pieces m r hs.2 v.2 hok.2 hfit.2)
  | _, .conv t f _ r, hs, v, hok, hfit =>
      .bind (.of_fits (writeDer_writes m (tySerializes m t hs.1 (f v.1) hok.1 hfit.1) (fits_contents hfit.1)) hfit.1)
        (writeFields_pieces m r hs.2 v.2 hok.2 hfit.2)

/-- A serializer of known size, of a value of any size. -/
structure LongSer (tg : Target) (m : Build) (s : Ser α) (v : α) (id c : Bytes) : Prop where
  writeId : Writes (s.writeId v) id
  contents : Pieces tg (s.writeDerContents v) c
  idLen : s.idLen v = .ok (some id.length)
  len : s.derContentsLen v = tg.total m c.length >>= fun n => .ok (some n)

omit [OkWord tg] in
theorem LongSer.comap {m : Build} {s : Ser β} (f : α → β) {v : α} {id c : Bytes} (h : LongSer tg m s (f v) id c) :
    LongSer tg m (s.comap f) v id c := ⟨h.1, h.2, h.3, h.4⟩

theorem LongSer.small {m : Build} {s : Ser α} {v : α} {id c : Bytes} (h1 : Writes (s.writeId v) id) (h2 : Writes (s.writeDerContents v) c)
    (h3 : Hints s v id c) (h : c.length ≤ tg.isizeMax) : LongSer tg m s v id c :=
  ⟨h1, .of_fits h2 h, h3.1, by rw [h3.2, total_lt m (fits_lt h), Res.bind_ok]⟩

theorem fields_long (m : Build) {γ : Type} (id : Bytes) (fs : Fields γ) (hs : fs.serializable) (hz : fs.sized = true) (v : γ)
    (hok : (fs.withInts tg.intTy).ok v) (hfit : fs.PartsFit tg.isizeMax v) :
    LongSer tg m (tg.serStruct m id (tg.fieldsSer m fs)) v id (fs.enc v) :=
  ⟨writes_writeAll _, writeFields_pieces m fs hs v hok hfit, rfl, by
    change tg.fieldsLen m (tg.fieldsSer m fs) v = _
    rw [Target.fieldsLen, anyConv_sized m fs hz]
    simpa using fieldsLen_total m fs hs hz v hok hfit 0 (Nat.pow_pos (by decide))⟩

theorem hashPairs_total (m : Build) {sk : Ser α} {sv : Ser β} {ek : α → Bytes × Bytes} {ev : β → Bytes × Bytes}
    (l : List (α × β))
    (h : ∀ x ∈ l, (pairOctets (tlvOf (ek x.1)) (tlvOf (ev x.2))).length ≤ tg.isizeMax ∧ Hints sk x.1 (ek x.1).1 (ek x.1).2 ∧
      Hints sv x.2 (ev x.2).1 (ev x.2).2) :
    tg.hashMapLen m sk sv l 0 = tg.total m (encPairs ek ev l).length >>= fun n => .ok (some n) := by
  rw [hashMapLen_eq m l 0 fun x hx => by
    rw [derLen_hints m (h x hx).2.1 (pair_fits (h x hx).1).2.1]; simp]
  simpa using btreeMapLen_total m l 0 (Nat.pow_pos (by decide)) h

theorem each_total (m : Build) {s : Ser α} {enc : α → Bytes × Bytes} (l : List α)
    (h : ∀ x ∈ l, (tlvOf (enc x)).length ≤ tg.isizeMax ∧ Hints s x (enc x).1 (enc x).2) :
    tg.derContentsLen m s l = tg.total m (encAll enc l).length >>= fun n => .ok (some n) := by
  simpa [Target.derContentsLen] using derContentsLenLoop_total m l 0 (Nat.pow_pos (by decide)) h

theorem each_long (m : Build) (t : Ty α) (hs : t.serializable) (hz : t.sized = true) (v : List α) (hok : ∀ x ∈ v, (t.withInts tg.intTy).ok x)
    (hfit : ∀ x ∈ v, (t.der x).length ≤ tg.isizeMax) :
    Pieces tg (tg.writeEach m (tg.tySer m t) v) (encAll t.enc v) ∧
    tg.derContentsLen m (tg.tySer m t) v = tg.total m (encAll t.enc v).length >>= fun n => .ok (some n) :=
  ⟨writeEach_pieces m v fun x hx => ⟨hfit x hx, tySerializes m t hs x (hok x hx) (hfit x hx)⟩,
    each_total m v fun x hx => ⟨hfit x hx, tyHints m t hs hz x (hok x hx) (hfit x hx)⟩⟩

theorem pairs_long (m : Build) (k : Ty α) (t : Ty β) (hs : k.serializable ∧ t.serializable) (hz : k.sized = true ∧ t.sized = true)
    (v : List (α × β)) (hok : ∀ x ∈ v, (k.withInts tg.intTy).ok x.1 ∧ (t.withInts tg.intTy).ok x.2)
    (hfit : ∀ x ∈ v, (pairOctets (k.der x.1) (t.der x.2)).length ≤ tg.isizeMax) :
    Pieces tg (tg.writePairs m (tg.tySer m k) (tg.tySer m t) v) (encPairs k.enc t.enc v) ∧
    (tg.btreeMapLen m (tg.tySer m k) (tg.tySer m t) v 0 = tg.total m (encPairs k.enc t.enc v).length >>= fun n => .ok (some n)) ∧
    tg.hashMapLen m (tg.tySer m k) (tg.tySer m t) v 0 = tg.total m (encPairs k.enc t.enc v).length >>= fun n => .ok (some n) := by
  have h : ∀ x ∈ v, (pairOctets (tlvOf (k.enc x.1)) (tlvOf (t.enc x.2))).length ≤ tg.isizeMax ∧
      Hints (tg.tySer m k) x.1 (k.enc x.1).1 (k.enc x.1).2 ∧ Hints (tg.tySer m t) x.2 (t.enc x.2).1 (t.enc x.2).2 := fun x hx =>
    have hp := pair_fits (hfit x hx)
    ⟨hfit x hx, tyHints m k hs.1 hz.1 _ (hok x hx).1 hp.2.1, tyHints m t hs.2 hz.2 _ (hok x hx).2 hp.2.2⟩
  refine ⟨writePairs_pieces m v fun x hx => ?_, ?_, hashPairs_total m v h⟩
  · have hp := pair_fits (hfit x hx)
    exact ⟨hfit x hx, tySerializes m k hs.1 _ (hok x hx).1 hp.2.1, tySerializes m t hs.2 _ (hok x hx).2 hp.2.2⟩
  · simpa using btreeMapLen_total m v 0 (Nat.pow_pos (by decide)) h

omit [OkWord tg] in
theorem transparent_long (m : Build) {fs : SerFields γ} {t : TransparentField γ} (ht : activeFields fs = [t])
    (hc : t.converted = false) {v : γ} {id c : Bytes} (h : LongSer tg m t.ser v id c) :
    ∃ s, Ser.transparent fs = some s ∧ LongSer tg m s v id c := by
  rw [Ser.transparent, ht]
  refine ⟨_, rfl, h.1, h.2, ?_, ?_⟩
  · simpa [hc] using h.3
  · simpa [hc] using h.4

theorem int_small (i : IntTy) {v : Int} (hok : i.InRange v) : (intOctets v).length ≤ tg.isizeMax := by
  have h1 := (isizeMax_lt (t := tg) OkWord.ge).2
  have hb : IntTy.minVal .i128 ≤ v ∧ v ≤ IntTy.maxVal .u128 := by
    refine ⟨le_trans ?_ hok.1, le_trans hok.2 ?_⟩ <;> cases i <;> decide +kernel
  refine le_trans ?_ h1
  by_cases h : 0 ≤ v
  · have e : (intOctets v).length = _ := (unsignedLen_eq (t := .u128) rfl ⟨h, hb.2⟩).symm
    rw [e, unsignedLen]
    have : IntTy.size .u128 = 16 := rfl
    omega
  · have e : (intOctets v).length = _ :=
      (signedLen_eq (t := .i128) rfl ⟨hb.1, by have : 0 ≤ IntTy.maxVal .i128 := by decide +kernel
                                               omega⟩).symm
    rw [e, signedLen]
    have : IntTy.size .i128 = 16 := rfl
    split <;> omega

theorem one_fits : 1 ≤ tg.isizeMax := by
  have := (isizeMax_lt (t := tg) OkWord.ge).2
  omega

mutual
theorem tyLong (m : Build) : ∀ {α : Type} (t : Ty α), t.serializable → t.sized = true → ∀ v : α,
    (t.withInts tg.intTy).ok v → t.PartsFit tg.isizeMax v → LongSer tg m (tg.tySer m t) v (t.enc v).1 (t.enc v).2
  | _, .bool, _, _, v, _, _ => .small (writes_writeAll _) (by cases v <;> exact writes_writeAll _) ⟨rfl, rfl⟩ one_fits
  | _, .int t, hs, _, v, hok, _ => .small (writes_writeAll _)
      (show Writes (tg.serInt t |>.writeDerContents v) (intOctets v) from
        WritesR.bind (writesR_lift (ofInt_intOctets (tg.intTy t) v hok)) (writes_writeAll _))
      ⟨rfl, by
        change Res.ok (some (tg.intLen t v)) = _
        rw [intLen_word t v hok]; rfl⟩ (int_small _ hok)
  | _, .string, hs, _, v, hok, hfit => .small (writes_writeAll _) (writes_writeAll _) ⟨rfl, by
      change Res.ok (some v.toByteArray.size) = .ok (some v.toByteArray.data.toList.length)
      simp⟩ hfit
  | _, .octetString, _, _, _, _, hfit => .small (writes_writeAll _) (writes_writeAll _) ⟨rfl, rfl⟩ hfit
  | _, .vec t, hs, hz, v, hok, hfit => ⟨writes_writeAll _, (each_long m t hs hz v hok hfit).1, rfl, (each_long m t hs hz v hok hfit).2⟩
  | _, .linkedList t, hs, hz, v, hok, hfit => ⟨writes_writeAll _, (each_long m t hs hz v hok hfit).1, rfl, (each_long m t hs hz v hok hfit).2⟩
  | _, .vecDeque t, hs, hz, v, hok, hfit => ⟨writes_writeAll _, (each_long m t hs hz v hok hfit).1, rfl, (each_long m t hs hz v hok hfit).2⟩
  | _, .btreeSet _ _ _ t, hs, hz, v, hok, hfit =>
      ⟨writes_writeAll _, (each_long m t hs hz v hok.2 hfit).1, rfl, (each_long m t hs hz v hok.2 hfit).2⟩
  | _, .hashSet _ t, hs, hz, v, hok, hfit =>
      ⟨writes_writeAll _, (each_long m t hs hz v hok.2 hfit).1, rfl, (each_long m t hs hz v hok.2 hfit).2⟩
  | _, .btreeMap _ _ _ k t, hs, hz, v, hok, hfit =>
      have h := pairs_long m k t hs (by simpa [Ty.sized] using hz) v hok.2 hfit
      ⟨writes_writeAll _, h.1, rfl, h.2.1⟩
  | _, .hashMap _ k t, hs, hz, v, hok, hfit =>
      have h := pairs_long m k t ⟨hs.1, hs.2.1⟩ (by simpa [Ty.sized] using hz) v hok.2 hfit
      ⟨writes_writeAll _, h.1, rfl, h.2.2⟩
  | _, .struct id fs, hs, hz, v, hok, hfit => fields_long m id fs hs.2 hz v hok hfit
  | _, .enum vs, hs, hz, v, hok, hfit => variantsLong m vs hs hz v hok hfit
  | _, .transparent fs, hs, hz, v, hok, hfit => by
      obtain ⟨t, h1, h2, h3⟩ := fieldsLongOne m fs hs.2 hs.1 hz v hok hfit
      obtain ⟨s, e, h⟩ := transparent_long m h1 h2 h3
      change LongSer tg m ((Ser.transparent (tg.fieldsSer m fs)).getD (tg.serStruct m [] (tg.fieldsSer m fs))) _ _ _
      rw [e]
      exact h
  | _, .conv _ _ _, _, hz, _, _, _ => by cases hz
  | _, .named t f _ _ _, hs, hz, v, hok, hfit => (tyLong m t hs hz (f v) hok hfit).comap f
  | _, .hole, _, _, _, hok, _ => hok.elim
theorem fieldsLongOne (m : Build) : ∀ {γ : Type} (fs : Fields γ), fs.serializable → fs.serCount = 1 →
    fs.sized = true → ∀ v : γ, (fs.withInts tg.intTy).ok v → fs.PartsFitOne tg.isizeMax v →
    ∃ t, activeFields (tg.fieldsSer m fs) = [t] ∧ t.converted = false ∧ LongSer tg m t.ser v (fs.encOne v).1 (fs.encOne v).2
  | _, .nil, _, h, _, _, _, _ => by cases h
  | _, .plain t r, hs, hn, hz, v, hok, hfit => by
      simp only [Fields.sized, Bool.and_eq_true] at hz
      simp only [Fields.serCount, Nat.add_eq_right] at hn
      refine ⟨⟨(tg.tySer m t).comap Prod.fst, false⟩, ?_, rfl, (tyLong m t hs.1 hz.1 v.1 hok.1 hfit).comap Prod.fst⟩
      simp [Target.fieldsSer, activeFields, fieldsActive_nil m r hn]
  | _, .skip _ r, hs, hn, hz, v, hok, hfit => by
      obtain ⟨t, h1, h3, h4⟩ := fieldsLongOne m r hs hn hz v.2 hok hfit
      exact ⟨⟨t.ser.comap Prod.snd, t.converted⟩, by simp [Target.fieldsSer, activeFields, h1], h3, h4.comap Prod.snd⟩
  | _, .skipSer _ r, hs, hn, hz, v, hok, hfit => by
      obtain ⟨t, h1, h3, h4⟩ := fieldsLongOne m r hs hn hz v.2 hok hfit
      exact ⟨⟨t.ser.comap Prod.snd, t.converted⟩, by simp [Target.fieldsSer, activeFields, h1], h3, h4.comap Prod.snd⟩
  | _, .skipDe t _ r, hs, hn, hz, v, hok, hfit => by
      simp only [Fields.sized, Bool.and_eq_true] at hz
      simp only [Fields.serCount, Nat.add_eq_right] at hn
      refine ⟨⟨(tg.tySer m t).comap Prod.fst, false⟩, ?_, rfl, (tyLong m t hs.1 hz.1 v.1 hok.1 hfit).comap Prod.fst⟩
      simp [Target.fieldsSer, activeFields, fieldsActive_nil m r hn]
  | _, .conv _ _ _ _, _, _, hz, _, _, _ => by cases hz
theorem variantsLong (m : Build) : ∀ {ρ : Type} (vs : Variants ρ), vs.serializable → vs.sized = true → ∀ v : ρ,
    (vs.withInts tg.intTy).ok v → vs.PartsFit tg.isizeMax v →
    LongSer tg m (tg.serEnum m (tg.variantsSer m vs)) v (vs.enc v).1 (vs.enc v).2
  | _, .cons id fs _, hs, hz, .inl v, hok, hfit => by
      simp only [Variants.sized, Bool.and_eq_true] at hz
      have h := fields_long m id fs hs.2.1 hz.1 v hok hfit
      exact ⟨h.1, h.2, h.3, h.4⟩
  | _, .cons _ _ r, hs, hz, .inr v, hok, hfit => by
      simp only [Variants.sized, Bool.and_eq_true] at hz
      have h := variantsLong m r hs.2.2 hz.2 v hok hfit
      exact ⟨h.1, h.2, h.3, h.4⟩
end

theorem writeBuffer_panic (m : Build) (cs : List Bytes) (b : Bytes) (hb : b.length ≤ tg.isizeMax) (hc : ∀ c ∈ cs, c.length ≤ tg.isizeMax)
    (h : tg.isizeMax < b.length + cs.flatten.length) : tg.writeBuffer m cs b = .panic := by
  induction cs generalizing b with
  | nil => simp at h; omega
  | cons c r ih =>
    have hcl := hc c (by simp)
    have hi : 2 * tg.isizeMax < tg.usizeSize := by
      have := isizeMax_lt (t := tg) OkWord.ge
      simp only [Target.isizeMax, Target.usizeSize] at this ⊢
      omega
    simp only [List.flatten_cons, List.length_append] at h
    by_cases hlt : b.length + c.length ≤ tg.isizeMax
    · rw [Target.writeBuffer, reserve_fits hlt, Res.bind_ok, ih _ (by rw [List.length_append]; exact hlt) (fun x hx => hc x (by simp [hx]))
        (by rw [List.length_append]; omega)]
    · rw [Target.writeBuffer, Target.bufReserve, uadd_ok (by omega), Res.bind_ok, if_neg hlt]
      rfl

theorem reserveDer_cases (m : Build) (i a b : Nat) : tg.reserveDer m (some i) a b = .ok () ∨ tg.reserveDer m (some i) a b = .panic := by
  have hu : ∀ x y, (∃ z, tg.uadd m x y = .ok z) ∨ tg.uadd m x y = .panic := by
    intro x y
    unfold Target.uadd
    split
    · exact .inl ⟨_, rfl⟩
    · cases m
      · exact .inr rfl
      · exact .inl ⟨_, rfl⟩
  rw [Target.reserveDer]
  rcases hu i a with ⟨z, e⟩ | e
  · rw [e, Res.bind_ok]
    rcases hu z b with ⟨w, e⟩ | e
    · rw [e, Res.bind_ok, Target.bufReserve]
      rcases hu 0 w with ⟨q, e⟩ | e
      · rw [e, Res.bind_ok]
        split
        · exact .inl rfl
        · exact .inr rfl
      · rw [e]; exact .inr rfl
    · rw [e]; exact .inr rfl
  · rw [e]; exact .inr rfl

end Target
end Bsn1
