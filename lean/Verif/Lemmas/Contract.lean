import Verif.Spec.Contract
import Verif.Lemmas.DeSettled
/-!
# Which arguments the decoders are called with
-/

namespace Bsn1
open Spec

variable {α β γ δ ρ : Type} {P : Bytes → Prop}

/-- What holds of octets holds of every part of them, and they fit in memory. -/
structure Hereditary (P : Bytes → Prop) : Prop where
  part : ∀ l p r, P (l ++ p ++ r) → P p
  fits : ∀ p, P p → p.length ≤ isizeMax

theorem Hereditary.left (h : Hereditary P) {p r : Bytes} (hp : P (p ++ r)) : P p := h.part [] p r hp

theorem Hereditary.right (h : Hereditary P) {l p : Bytes} (hp : P (l ++ p)) : P p := h.part l p [] (by rwa [List.append_nil])

/-- The two decoders agree on all values that satisfy `P`. -/
structure Same (P : Bytes → Prop) (x x' : De α) : Prop where
  ber : ∀ p id indef raw, P p → BerValue p id indef raw → x.fromBer id (lenOf indef raw) raw = x'.fromBer id (lenOf indef raw) raw
  der : ∀ id c, IsId id → c.length < 2 ^ 64 → x.fromDer id c = x'.fromDer id c

theorem berValue_raw {p id raw : Bytes} {indef : Bool} (h : BerValue p id indef raw) : ∃ l, p = l ++ raw := by
  obtain ⟨_, h⟩ := h
  cases indef with
  | false => obtain ⟨_, rfl⟩ := h; exact ⟨id ++ lenOctets raw.length, rfl⟩
  | true => obtain ⟨_, _, _, h⟩ := h; exact ⟨_, h⟩

theorem Same.derToVal {d d' : De α} (h : Same P d d') (c : Bytes) : derToVal d c = Bsn1.derToVal d' c := by
  rw [Bsn1.derToVal, Bsn1.derToVal]
  rcases derParse_cases c with ⟨e, rest, hp⟩ | ⟨id, b, rest, h1, h2, hp, _⟩
  · rw [hp]; rfl
  · rw [hp]
    simp only [mapErrContext, Res.bind_ok]
    rw [show DerRef.disassemble (tlv id b) = _ from disassemble_tlv h1 h2, Res.bind_ok]
    simp only [h.der id b h1 h2]
    rfl

theorem Same.derTmpVal {d d' : De α} (h : Same P d d') (c : Bytes) : derTmpVal d c = Bsn1.derTmpVal d' c := by
  rw [Bsn1.derTmpVal, Bsn1.derTmpVal]
  rcases derParse_cases c with ⟨e, rest, hp⟩ | ⟨id, b, rest, h1, h2, hp, _⟩
  · rw [hp]; rfl
  · rw [hp]
    simp only [mapErrContext, Res.bind_ok]
    rw [show DerRef.disassemble (tlv id b) = _ from disassemble_tlv h1 h2, Res.bind_ok]
    simp only [h.der id b h1 h2]
    rfl

theorem Same.derToKeyVal {dk dk' : De α} {dv dv' : De β} (hk : Same P dk dk') (hv : Same P dv dv') (c : Bytes) :
    derToKeyVal dk dv c = Bsn1.derToKeyVal dk' dv' c := by
  rw [Bsn1.derToKeyVal, Bsn1.derToKeyVal]
  rcases derParse_cases c with ⟨e, rest, hp⟩ | ⟨id, b, rest, h1, h2, hp, _⟩
  · rw [hp]; rfl
  rw [hp]
  simp only [mapErrContext, Res.bind_ok]
  rw [DerRef_id_tlv h1 b, Res.bind_ok, Res.bind_ok, DerRef_contents_tlv h1 h2, Res.bind_ok, Res.bind_ok]
  rcases derParse_cases b with ⟨e, rest', hp'⟩ | ⟨id', b', rest', h1', h2', hp', _⟩
  · rw [hp']; rfl
  rw [hp']
  simp only [Res.bind_ok]
  rcases derParse_cases rest' with ⟨e, rest'', hp''⟩ | ⟨id'', b'', rest'', h1'', h2'', hp'', _⟩
  · rw [hp'']; rfl
  rw [hp'']
  simp only [Res.bind_ok]
  rw [show DerRef.disassemble (tlv id' b') = _ from disassemble_tlv h1' h2',
    show DerRef.disassemble (tlv id'' b'') = _ from disassemble_tlv h1'' h2'']
  simp only [Res.bind_ok, hk.der id' b' h1' h2', hv.der id'' b'' h1'' h2'']

theorem Same.berToVal (hP : Hereditary P) {d d' : De α} (h : Same P d d') {c : Bytes} (hc : P c) :
    berToVal d c = Bsn1.berToVal d' c := by
  rw [Bsn1.berToVal, Bsn1.berToVal]
  rcases berParse_cases c (hP.fits c hc) with ⟨e, rest, hp⟩ | ⟨p, id, indef, raw, rest, hv, hp, rfl⟩
  · rw [hp]; rfl
  · rw [hp]
    simp only [mapErrContext, Res.bind_ok]
    rw [berValue_disassemble hv, Res.bind_ok]
    simp only [h.ber p id indef raw (hP.left hc) hv]
    rfl

theorem Same.berTmpVal (hP : Hereditary P) {d d' : De α} (h : Same P d d') {c : Bytes} (hc : P c) :
    berTmpVal d c = Bsn1.berTmpVal d' c := by
  rw [Bsn1.berTmpVal, Bsn1.berTmpVal]
  rcases berParse_cases c (hP.fits c hc) with ⟨e, rest, hp⟩ | ⟨p, id, indef, raw, rest, hv, hp, rfl⟩
  · rw [hp]; rfl
  · rw [hp]
    simp only [mapErrContext, Res.bind_ok]
    rw [berValue_disassemble hv, Res.bind_ok]
    simp only [h.ber p id indef raw (hP.left hc) hv]
    rfl

theorem Same.berToKeyVal (hP : Hereditary P) {dk dk' : De α} {dv dv' : De β} (hk : Same P dk dk') (hv : Same P dv dv') {c : Bytes}
    (hc : P c) : berToKeyVal dk dv c = Bsn1.berToKeyVal dk' dv' c := by
  rw [Bsn1.berToKeyVal, Bsn1.berToKeyVal]
  rcases berParse_cases c (hP.fits c hc) with ⟨e, rest, hp⟩ | ⟨p, id, indef, raw, rest, hb, hp, rfl⟩
  · rw [hp]; rfl
  rw [hp]
  simp only [mapErrContext, Res.bind_ok]
  rw [berValue_id hb, Res.bind_ok, Res.bind_ok, berValue_contents hb, Res.bind_ok, Res.bind_ok]
  obtain ⟨l, rfl⟩ := berValue_raw hb
  have hraw : P raw := hP.right (hP.left hc)
  rcases berParse_cases raw (hP.fits _ hraw) with ⟨e, rest', hp'⟩ | ⟨p', id', d', b', rest', hb', hp', rfl⟩
  · rw [hp']; rfl
  rw [hp']
  simp only [Res.bind_ok]
  have hr' := hP.right hraw
  rcases berParse_cases rest' (hP.fits _ hr') with ⟨e, rest'', hp''⟩ | ⟨p'', id'', d'', b'', rest'', hb'', hp'', rfl⟩
  · rw [hp'']; rfl
  rw [hp'']
  simp only [Res.bind_ok]
  rw [berValue_disassemble hb', berValue_disassemble hb'']
  simp only [Res.bind_ok, hk.ber p' id' d' b' (hP.left hraw) hb', hv.ber p'' id'' d'' b'' (hP.left hr') hb'']

/-- The loop over the elements only sees parts of the contents. -/
theorem collectLoop_same {next next' : Bytes → Res (Option (α × Bytes))} (h : ∀ c, P c → next c = next' c)
    (hrest : ∀ c x c', P c → next c = .ok (some (x, c')) → P c') (insert : γ → α → γ) :
    ∀ (f : Nat) (c : Bytes) (ret : γ), P c → collectLoop next insert f c ret = collectLoop next' insert f c ret := by
  intro f
  induction f with
  | zero => intro c ret _; rfl
  | succ f ih =>
    intro c ret hc
    rw [collectLoop, collectLoop, ← h c hc]
    rcases e : next c with o | e' | _ | _
    · rw [Res.bind_ok, Res.bind_ok]
      rcases o with _ | ⟨t, c'⟩
      · rfl
      · exact ih c' _ (hrest c t c' hc e)
    all_goals rfl

theorem collect_same {next next' : Bytes → Res (Option (α × Bytes))} (h : ∀ c, P c → next c = next' c)
    (hrest : ∀ c x c', P c → next c = .ok (some (x, c')) → P c') (insert : γ → α → γ) (c : Bytes) (ret : γ) (hc : P c) :
    collect next insert c ret = collect next' insert c ret := collectLoop_same h hrest insert _ c ret hc

theorem berToVal_rest (hP : Hereditary P) (d : De α) (c : Bytes) (x : α) (c' : Bytes) (hc : P c)
    (h : berToVal d c = .ok (some (x, c'))) : P c' := by
  obtain ⟨_, _, _, _, _, _, rfl⟩ := (berToVal_some d c (hP.fits c hc) x c').mp h
  exact hP.right hc

theorem berToKeyVal_rest (hP : Hereditary P) (dk : De α) (dv : De β) (c : Bytes) (x : α × β) (c' : Bytes) (hc : P c)
    (h : berToKeyVal dk dv c = .ok (some (x, c'))) : P c' := by
  obtain ⟨_, _, _, _, _, _, rfl⟩ := (berToKeyVal_some dk dv c (hP.fits c hc) x c').mp h
  exact hP.right hc

/-- The contents without the end-of-contents are part of the value. -/
theorem excludeEoc_same (hP : Hereditary P) (m : Build) {p id raw : Bytes} {indef : Bool} (hp : P p) (hv : BerValue p id indef raw)
    {f f' : Bytes → Res α} (h : ∀ c, P c → f c = f' c) :
    (excludeEoc m (lenOf indef raw) raw >>= f) = (excludeEoc m (lenOf indef raw) raw >>= f') := by
  rcases e : excludeEoc m (lenOf indef raw) raw with c | e' | _ | _
  · have hb := (excludeEoc_iff m indef raw c).mp e
    obtain ⟨l, rfl⟩ := berValue_raw hv
    have hr := hP.right hp
    refine h c ?_
    cases indef with
    | false => cases hb; exact hr
    | true => cases hb; exact hP.left hr
  all_goals rfl

theorem Same.refl (x : De α) : Same P x x := ⟨fun _ _ _ _ _ _ => rfl, fun _ _ _ _ => rfl⟩

theorem Same.elems (hP : Hereditary P) {x x' : De α} (h : Same P x x') (insert : γ → α → γ) (c : Bytes) (ret : γ) (hc : P c) :
    collect (Bsn1.berToVal x) insert c ret = collect (Bsn1.berToVal x') insert c ret :=
  collect_same (fun _ hc => h.berToVal hP hc) (berToVal_rest hP x) insert c ret hc

theorem Same.elemsDer {x x' : De α} (h : Same P x x') (insert : γ → α → γ) (c : Bytes) (ret : γ) :
    collect (Bsn1.derToVal x) insert c ret = collect (Bsn1.derToVal x') insert c ret := by
  rw [show Bsn1.derToVal x = Bsn1.derToVal x' from funext h.derToVal]

theorem Same.pairs (hP : Hereditary P) {k k' : De α} {x x' : De β} (hk : Same P k k') (h : Same P x x') (insert : γ → α × β → γ)
    (c : Bytes) (ret : γ) (hc : P c) : collect (Bsn1.berToKeyVal k x) insert c ret = collect (Bsn1.berToKeyVal k' x') insert c ret :=
  collect_same (fun _ hc => hk.berToKeyVal hP h hc) (berToKeyVal_rest hP k x) insert c ret hc

theorem Same.pairsDer {k k' : De α} {x x' : De β} (hk : Same P k k') (h : Same P x x') (insert : γ → α × β → γ) (c : Bytes) (ret : γ) :
    collect (Bsn1.derToKeyVal k x) insert c ret = collect (Bsn1.derToKeyVal k' x') insert c ret := by
  rw [show Bsn1.derToKeyVal k x = Bsn1.derToKeyVal k' x' from funext fun c => hk.derToKeyVal h c]

/-- `Same` for the fields of a container. -/
structure SameFields (P : Bytes → Prop) (fs fs' : DeFields γ) : Prop where
  ber : ∀ c, P c → deFields berTmpVal fs c = deFields berTmpVal fs' c
  rest : ∀ c v c', P c → deFields berTmpVal fs c = .ok (v, c') → P c'
  der : ∀ c, deFields derTmpVal fs c = deFields derTmpVal fs' c
  berT : ∀ p id indef raw, P p → BerValue p id indef raw → deFieldsTransparent (fun d => d.fromBer id (lenOf indef raw) raw) fs =
    deFieldsTransparent (fun d => d.fromBer id (lenOf indef raw) raw) fs'
  derT : ∀ id c, IsId id → c.length < 2 ^ 64 → deFieldsTransparent (fun d => d.fromDer id c) fs =
    deFieldsTransparent (fun d => d.fromDer id c) fs'

theorem berTmpVal_rest (hP : Hereditary P) (d : De α) (c : Bytes) (x : α) (c' : Bytes) (hc : P c)
    (h : berTmpVal d c = .ok (x, c')) : P c' := by
  rw [berTmpVal] at h
  rcases berParse_cases c (hP.fits c hc) with ⟨e, rest, hp⟩ | ⟨p, id, indef, raw, rest, hv, hp, rfl⟩
  · rw [hp] at h; cases h
  · rw [hp] at h
    simp only [mapErrContext, Res.bind_ok] at h
    rw [berValue_disassemble hv, Res.bind_ok] at h
    obtain ⟨_, _, h⟩ := Res.bind_eq_ok.mp h
    cases h
    exact hP.right hc

/-- `Same` for one field. -/
structure SameField (P : Bytes → Prop) (f f' : DeField β) : Prop where
  ber : ∀ c, P c → deField berTmpVal f c = deField berTmpVal f' c
  rest : ∀ c v c', P c → deField berTmpVal f c = .ok (v, c') → P c'
  der : ∀ c, deField derTmpVal f c = deField derTmpVal f' c
  berT : ∀ p id indef raw, P p → BerValue p id indef raw → deFieldTransparent (fun d => d.fromBer id (lenOf indef raw) raw) f =
    deFieldTransparent (fun d => d.fromBer id (lenOf indef raw) raw) f'
  derT : ∀ id c, IsId id → c.length < 2 ^ 64 → deFieldTransparent (fun d => d.fromDer id c) f =
    deFieldTransparent (fun d => d.fromDer id c) f'

theorem SameField.skip (v : β) : SameField P (.skip v) (.skip v) :=
  ⟨fun _ _ => rfl, fun c w c' hc h => by cases h; exact hc, fun _ => rfl, fun _ _ _ _ _ _ => rfl, fun _ _ _ _ => rfl⟩

theorem SameField.plain (hP : Hereditary P) {x x' : De β} (h : Same P x x') : SameField P (.plain x) (.plain x') :=
  ⟨fun _ hc => h.berTmpVal hP hc, fun c v c' hc e => berTmpVal_rest hP x c v c' hc e, fun c => h.derTmpVal c,
    fun p id indef raw hp hv => by simp only [deFieldTransparent, h.ber p id indef raw hp hv],
    fun id c h1 h2 => by simp only [deFieldTransparent, h.der id c h1 h2]⟩

theorem SameField.from_ (hP : Hereditary P) {x x' : De γ} (h : Same P x x') (f : γ → β) : SameField P (.from_ x f) (.from_ x' f) :=
  ⟨fun _ hc => by simp only [deField, h.berTmpVal hP hc],
    fun c v c' hc e => by
      obtain ⟨⟨w, c1⟩, h1, h2⟩ := Res.bind_eq_ok.mp e
      cases h2
      exact berTmpVal_rest hP x c w _ hc h1,
    fun c => by simp only [deField, h.derTmpVal c],
    fun p id indef raw hp hv => by simp only [deFieldTransparent, h.ber p id indef raw hp hv],
    fun id c h1 h2 => by simp only [deFieldTransparent, h.der id c h1 h2]⟩

theorem SameField.tryFrom (hP : Hereditary P) {x x' : De γ} (h : Same P x x') (f : γ → Except Chain β) :
    SameField P (.tryFrom x f) (.tryFrom x' f) :=
  ⟨fun _ hc => by simp only [deField, h.berTmpVal hP hc],
    fun c v c' hc e => by
      obtain ⟨⟨w, c1⟩, h1, h2⟩ := Res.bind_eq_ok.mp e
      obtain ⟨w', h3, h4⟩ := Res.bind_eq_ok.mp h2
      cases h4
      exact berTmpVal_rest hP x c w _ hc h1,
    fun c => by simp only [deField, h.derTmpVal c],
    fun p id indef raw hp hv => by simp only [deFieldTransparent, h.ber p id indef raw hp hv],
    fun id c h1 h2 => by simp only [deFieldTransparent, h.der id c h1 h2]⟩

theorem SameFields.nil : SameFields P .nil .nil :=
  ⟨fun _ _ => rfl, fun c w c' hc h => by cases h; exact hc, fun _ => rfl, fun _ _ _ _ _ _ => rfl, fun _ _ _ _ => rfl⟩

theorem SameFields.cons {f f' : DeField β} {r r' : DeFields γ} (hf : SameField P f f') (hr : SameFields P r r') :
    SameFields P (.cons f r) (.cons f' r') := by
  refine ⟨fun c hc => ?_, fun c v c' hc e => ?_, fun c => ?_, fun p id indef raw hp hv => ?_, fun id c h1 h2 => ?_⟩
  · rw [deFields, deFields, ← hf.ber c hc]
    rcases e : deField berTmpVal f c with ⟨v, c'⟩ | e' | _ | _
    · simp only [Res.bind_ok]
      rw [hr.ber c' (hf.rest c v c' hc e)]
    all_goals rfl
  · rw [deFields] at e
    obtain ⟨⟨w, c1⟩, h1, h2⟩ := Res.bind_eq_ok.mp e
    obtain ⟨⟨w', c2⟩, h3, h4⟩ := Res.bind_eq_ok.mp h2
    cases h4
    exact hr.rest c1 w' _ (hf.rest c w c1 hc h1) h3
  · rw [deFields, deFields, hf.der c]
    simp only [hr.der]
  · rw [deFieldsTransparent, deFieldsTransparent, hf.berT p id indef raw hp hv, hr.berT p id indef raw hp hv]
  · rw [deFieldsTransparent, deFieldsTransparent, hf.derT id c h1 h2, hr.derT id c h1 h2]

theorem SameFields.fromBerContents (hP : Hereditary P) (m : Build) {fs fs' : DeFields γ} (h : SameFields P fs fs') {p id raw : Bytes}
    {indef : Bool} (hp : P p) (hv : BerValue p id indef raw) :
    fromBerContents m fs (lenOf indef raw) raw = Bsn1.fromBerContents m fs' (lenOf indef raw) raw := by
  rw [Bsn1.fromBerContents, Bsn1.fromBerContents, structContents_eq]
  exact excludeEoc_same hP m hp hv fun c hc => by rw [h.ber c hc]

theorem SameFields.fromDerContents {fs fs' : DeFields γ} (h : SameFields P fs fs') (c : Bytes) :
    fromDerContents fs c = Bsn1.fromDerContents fs' c := by
  rw [Bsn1.fromDerContents, Bsn1.fromDerContents, h.der c]

/-- `Same` for the variants of an enum. -/
structure SameVariants (m : Build) (P : Bytes → Prop) (vs vs' : DeVariants ρ) : Prop where
  ber : ∀ i p id indef raw, P p → BerValue p id indef raw → vs.pick i (fun fs => Bsn1.fromBerContents m fs (lenOf indef raw) raw) =
    vs'.pick i fun fs => Bsn1.fromBerContents m fs (lenOf indef raw) raw
  der : ∀ i c, vs.pick i (fun fs => Bsn1.fromDerContents fs c) = vs'.pick i fun fs => Bsn1.fromDerContents fs c

theorem SameVariants.nil (m : Build) : SameVariants m P .nil .nil := ⟨fun _ _ _ _ _ _ _ => rfl, fun _ _ => rfl⟩

theorem SameVariants.cons (hP : Hereditary P) (m : Build) (i : Bytes) {fs fs' : DeFields γ} {r r' : DeVariants ρ} (hf : SameFields P fs fs')
    (hr : SameVariants m P r r') : SameVariants m P (.cons i fs r) (.cons i fs' r') :=
  ⟨fun j p id indef raw hp hv => by
      rw [DeVariants.pick, DeVariants.pick, hf.fromBerContents hP m hp hv, hr.ber j p id indef raw hp hv],
    fun j c => by rw [DeVariants.pick, DeVariants.pick, hf.fromDerContents c, hr.der j c]⟩

mutual
/-- Whatever is built around two decoders that agree, agrees. -/
theorem Spec.Around.same (hP : Hereditary P) {m : Build} {d d' : De δ} (hd : Same P d d') {α : Type} {x x' : De α} :
    Around m d d' x x' → Same P x x'
  | .impl => hd
  | .other x => .refl x
  | .vec h => by
    have h := Around.same hP hd h
    refine ⟨fun p id indef raw hp hv => ?_, fun id c _ _ => ?_⟩
    · simp only [De.vec]
      split
      · rfl
      · exact excludeEoc_same hP m hp hv fun c hc => by rw [h.elems hP _ c _ hc]
    · simp only [De.vec]
      rw [h.elemsDer]
  | .linkedList h => by
    have h := Around.same hP hd h
    refine ⟨fun p id indef raw hp hv => ?_, fun id c _ _ => ?_⟩
    · simp only [De.linkedList]
      split
      · rfl
      · exact excludeEoc_same hP m hp hv fun c hc => by rw [h.elems hP _ c _ hc]
    · simp only [De.linkedList]
      rw [h.elemsDer]
  | .vecDeque h => by
    have h := Around.same hP hd h
    refine ⟨fun p id indef raw hp hv => ?_, fun id c _ _ => ?_⟩
    · simp only [De.vecDeque]
      split
      · rfl
      · exact excludeEoc_same hP m hp hv fun c hc => by rw [h.elems hP _ c _ hc]
    · simp only [De.vecDeque]
      rw [h.elemsDer]
  | .btreeSet _ h => by
    have h := Around.same hP hd h
    refine ⟨fun p id indef raw hp hv => ?_, fun id c _ _ => ?_⟩
    · simp only [De.btreeSet]
      split
      · rfl
      · exact excludeEoc_same hP m hp hv fun c hc => by rw [h.elems hP _ c _ hc]
    · simp only [De.btreeSet]
      rw [h.elemsDer]
  | .btreeMap _ hk h => by
    have hk := Around.same hP hd hk
    have h := Around.same hP hd h
    refine ⟨fun p id indef raw hp hv => ?_, fun id c _ _ => ?_⟩
    · simp only [De.btreeMap]
      split
      · rfl
      · exact excludeEoc_same hP m hp hv fun c hc => by rw [hk.pairs hP h _ c _ hc]
    · simp only [De.btreeMap]
      rw [hk.pairsDer h]
  | .hashSet _ _ h => by
    have h := Around.same hP hd h
    refine ⟨fun p id indef raw hp hv => ?_, fun id c _ _ => ?_⟩
    · simp only [De.hashSet]
      split
      · rfl
      · exact excludeEoc_same hP m hp hv fun c hc => by rw [h.elems hP _ c _ hc]
    · simp only [De.hashSet]
      rw [h.elemsDer]
  | .hashMap _ _ hk h => by
    have hk := Around.same hP hd hk
    have h := Around.same hP hd h
    refine ⟨fun p id indef raw hp hv => ?_, fun id c _ _ => ?_⟩
    · simp only [De.hashMap]
      split
      · rfl
      · exact excludeEoc_same hP m hp hv fun c hc => by rw [hk.pairs hP h _ c _ hc]
    · simp only [De.hashMap]
      rw [hk.pairsDer h]
  | .struct i h => by
    have h := AroundFields.same hP hd h
    exact ⟨fun p id indef raw hp hv => by simp only [De.struct, h.fromBerContents hP m hp hv],
      fun id c _ _ => by simp only [De.struct, h.fromDerContents]⟩
  | .transparent h e e' => by
    have h := AroundFields.same hP hd h
    rw [De.transparent] at e e'
    split at e
    · split at e'
      · cases e
        cases e'
        exact ⟨h.berT, h.derT⟩
      · cases e'
    · cases e
  | .enum h => by
    have h := AroundVariants.same hP hd h
    exact ⟨fun p id indef raw hp hv => h.ber id p id indef raw hp hv, fun id c _ _ => h.der id c⟩
  | .from_ f h => by
    have h := Around.same hP hd h
    exact ⟨fun p id indef raw hp hv => by simp only [De.from_, h.ber p id indef raw hp hv],
      fun id c h1 h2 => by simp only [De.from_, h.der id c h1 h2]⟩
  | .tryFrom f h => by
    have h := Around.same hP hd h
    exact ⟨fun p id indef raw hp hv => by simp only [De.tryFrom, h.ber p id indef raw hp hv],
      fun id c h1 h2 => by simp only [De.tryFrom, h.der id c h1 h2]⟩
theorem Spec.AroundFields.same (hP : Hereditary P) {m : Build} {d d' : De δ} (hd : Same P d d') {γ : Type} {fs fs' : DeFields γ} :
    AroundFields m d d' fs fs' → SameFields P fs fs'
  | .nil => .nil
  | .skip v h => .cons (.skip v) (AroundFields.same hP hd h)
  | .plain hx h => .cons (.plain hP (Around.same hP hd hx)) (AroundFields.same hP hd h)
  | .from_ f hx h => .cons (.from_ hP (Around.same hP hd hx) f) (AroundFields.same hP hd h)
  | .tryFrom f hx h => .cons (.tryFrom hP (Around.same hP hd hx) f) (AroundFields.same hP hd h)
theorem Spec.AroundVariants.same (hP : Hereditary P) {m : Build} {d d' : De δ} (hd : Same P d d') {ρ : Type} {vs vs' : DeVariants ρ} :
    AroundVariants m d d' vs vs' → SameVariants m P vs vs'
  | .nil => .nil m
  | .cons i hf h => .cons hP m i (AroundFields.same hP hd hf) (AroundVariants.same hP hd h)
end

/-! ### The functions of bsn1_serde/src/lib.rs -/

theorem Same.fromBer {x x' : De α} (h : Same P x x') {p : Bytes} (hb : IsBer p) (hp : P p) : fromBer x p = Bsn1.fromBer x' p := by
  obtain ⟨id, indef, raw, hv⟩ := isBer_berValue hb
  rw [Bsn1.fromBer, Bsn1.fromBer, berValue_disassemble hv]
  exact h.ber p id indef raw hp hv

theorem Same.fromDer {x x' : De α} (h : Same P x x') {p : Bytes} (hb : IsDer p) : fromDer x p = Bsn1.fromDer x' p := by
  obtain ⟨id, c, h1, h2, rfl⟩ := hb
  rw [Bsn1.fromDer, Bsn1.fromDer, show DerRef.disassemble (tlv id c) = _ from disassemble_tlv h1 h2]
  exact h.der id c h1 h2

theorem Same.parseBer (hP : Hereditary P) {x x' : De α} (h : Same P x x') {bs : Bytes} (hbs : P bs) :
    parseBer x bs = Bsn1.parseBer x' bs := by
  rw [Bsn1.parseBer, Bsn1.parseBer]
  rcases berParse_cases bs (hP.fits bs hbs) with ⟨e, rest, hp⟩ | ⟨p, id, indef, raw, rest, hv, hp, rfl⟩
  · rw [hp]
  · rw [hp]
    simp only [h.fromBer (berValue_isBer hv) (hP.left hbs)]

theorem Same.parseDer {x x' : De α} (h : Same P x x') (bs : Bytes) : parseDer x bs = Bsn1.parseDer x' bs := by
  rw [Bsn1.parseDer, Bsn1.parseDer]
  rcases derParse_cases bs with ⟨e, rest, hp⟩ | ⟨id, b, rest, h1, h2, hp, _⟩
  · rw [hp]
  · rw [hp]
    simp only [h.fromDer ⟨id, b, h1, h2, rfl⟩]

end Bsn1
