import Verif.Lemmas.TargetSer
import Verif.Lemmas.TargetParse
import Verif.Model.TargetDe
import Verif.Lemmas.De
import Verif.Lemmas.Raw
/-!
# Deserialization on targets with another pointer width
-/

namespace Bsn1
namespace Target
open Spec

/-- The same outcome, but for the error of a header that announces too much. -/
def Agree {α : Type} (r r' : Res α) : Prop := r = r' ∨ ∃ e e', r = .err e ∧ r' = .err e' ∧ Overlong e e'

variable {tg : Target} [OkWord tg] {α β γ ρ : Type}

theorem Agree.refl (r : Res α) : Agree r r := .inl rfl

theorem Agree.bind {x x' : Res α} {f f' : α → Res β} (h : Agree x x') (hf : ∀ a, x' = .ok a → Agree (f a) (f' a)) :
    Agree (x >>= f) (x' >>= f') := by
  rcases h with rfl | ⟨e, e', rfl, rfl, h⟩
  · cases x with
    | ok a => exact hf a rfl
    | _ => exact .inl rfl
  · exact .inr ⟨e, e', rfl, rfl, h⟩

theorem Agree.mapErr {r r' : Res α} (h : Agree r r') : Agree (mapErrContext r) (mapErrContext r') := by
  rcases h with rfl | ⟨e, e', rfl, rfl, h⟩
  · exact .inl rfl
  · exact .inr ⟨_, _, rfl, rfl, h.context⟩

theorem Agree.ite {p : Prop} [Decidable p] {a a' b b' : Res α} (h : p → Agree a a') (h' : ¬ p → Agree b b') :
    Agree (if p then a else b) (if p then a' else b') := by
  split
  · exact h ‹_›
  · exact h' ‹_›

/-- Taking apart what the parsers accept. -/
theorem disassemble_agree {v : Bytes} (hv : IsBer v) (hl : v.length ≤ tg.isizeMax) :
    ∃ id l c, tg.disassemble v = .ok (id, l, c) ∧ DerRef.disassemble v = .ok (id, l, c) ∧ c.length ≤ v.length := by
  have hlt := lt_usize (tg := tg)
  cases hv with
  | definite id c hid hc =>
    rw [tlv_length] at hl ⊢
    exact ⟨id, _, c, disassemble_ok OkWord.le hid (by omega), disassemble_tlv hid hc, by omega⟩
  | indefinite id c hid hc =>
    refine ⟨id, .indefinite, c ++ eoc, ?_, ?_, by simp; omega⟩
    · have e : id ++ indefOctets ++ c ++ eoc = id ++ (indefOctets ++ (c ++ eoc)) := by simp
      rw [e]
      simp only [disassemble, parseIdUnchecked_shape ((isId_iff_shape _).mp hid), Res.bind_ok]
      rfl
    · have := Raw.disassemble_indef_hdr hid (c ++ eoc)
      rwa [← List.append_assoc] at this

theorem isDer_isBer' {v : Bytes} (h : IsDer v) : IsBer v := by
  obtain ⟨id, c, h1, h2, rfl⟩ := h
  exact .definite id c h1 h2

/-- `let (r, rest) := DerRef::parse(bs)`, and on. -/
theorem der_step {bs : Bytes} (hb : bs.length ≤ tg.isizeMax) {k k' : Bytes → Bytes → Res α}
    (h : ∀ v rest, IsDer v → v.length ≤ tg.isizeMax → rest.length ≤ bs.length → Agree (k v rest) (k' v rest)) :
    Agree (mapErrContext (tg.derRefParse bs).1 >>= fun v => k v (tg.derRefParse bs).2)
      (mapErrContext (DerRef.parse bs).1 >>= fun v => k' v (DerRef.parse bs).2) := by
  rcases derRefParse_cases OkWord.ge OkWord.le bs hb with e | ⟨e, e'⟩
  · rw [e]
    refine Agree.bind (.refl _) fun v hv => ?_
    rcases hp : DerRef.parse bs with ⟨r, rest⟩
    rw [hp] at hv
    cases r with
    | ok v' =>
      cases hv
      obtain ⟨id, c, h1, h2, h3, h4⟩ := DerRef_parse_ok hp
      have hl : bs.length = v.length + rest.length := by rw [h4, List.length_append]
      exact h v rest ⟨id, c, h1, h2, h3⟩ (by omega) (by omega)
    | _ => cases hv
  · rw [e, e']
    exact .inr ⟨_, _, rfl, rfl, .context .base⟩

/-- `let (r, rest) := BerRef::parse(bs)`, and on. -/
theorem ber_step {bs : Bytes} (hb : bs.length ≤ tg.isizeMax) {k k' : Bytes → Bytes → Res α}
    (h : ∀ v rest, IsBer v → v.length ≤ tg.isizeMax → rest.length ≤ bs.length → Agree (k v rest) (k' v rest)) :
    Agree (mapErrContext (tg.berRefParse bs).1 >>= fun v => k v (tg.berRefParse bs).2)
      (mapErrContext (BerRef.parse bs).1 >>= fun v => k' v (BerRef.parse bs).2) := by
  rcases berRefParse_cases OkWord.ge OkWord.le bs hb with e | ⟨e, e'⟩
  · rw [e]
    refine Agree.bind (.refl _) fun v hv => ?_
    rcases hp : BerRef.parse bs with ⟨r, rest⟩
    rw [hp] at hv
    cases r with
    | ok v' =>
      cases hv
      obtain ⟨h3, h4⟩ := BerRef_parse_sound (hb.trans (isizeMax_le OkWord.le)) hp
      have hl : bs.length = v.length + rest.length := by rw [h4, List.length_append]
      exact h v rest h3 (by omega) (by omega)
    | _ => cases hv
  · rw [e, e']
    exact .inr ⟨_, _, rfl, rfl, .context .base⟩

/-- `disassemble`, and on. -/
theorem take_step {v : Bytes} (hv : IsBer v) (hl : v.length ≤ tg.isizeMax) {k k' : Bytes × Length × Bytes → Res α}
    (h : ∀ id l c, c.length ≤ tg.isizeMax → Agree (k (id, l, c)) (k' (id, l, c))) :
    Agree (tg.disassemble v >>= k) (DerRef.disassemble v >>= k') := by
  obtain ⟨id, l, c, h1, h2, h3⟩ := disassemble_agree hv hl
  rw [h1, h2]
  exact h id l c (by omega)

/-- `contents`, and on. -/
theorem contents_step {v : Bytes} (hv : IsBer v) (hl : v.length ≤ tg.isizeMax) {k k' : Bytes → Res α}
    (h : ∀ c, c.length ≤ tg.isizeMax → Agree (k c) (k' c)) :
    Agree (tg.contents v >>= k) (DerRef.contents v >>= k') := by
  obtain ⟨id, l, c, h1, h2, h3⟩ := disassemble_agree hv hl
  rw [contents, DerRef.contents, h1, h2]
  exact h c (by omega)

/-- The decoders agree on whatever fits the target. -/
structure DeAgree (tg : Target) (d d' : De α) : Prop where
  der : ∀ id c, c.length ≤ tg.isizeMax → Agree (d.fromDer id c) (d'.fromDer id c)
  ber : ∀ id l c, c.length ≤ tg.isizeMax → Agree (d.fromBer id l c) (d'.fromBer id l c)

theorem DeAgree.refl (d : De α) : DeAgree tg d d := ⟨fun _ _ _ => .refl _, fun _ _ _ _ => .refl _⟩

/-- One round of a loop over values agrees, and the rest is no longer. -/
def NextAgree (tg : Target) (n n' : Bytes → Res (Option (α × Bytes))) : Prop :=
  ∀ bs, bs.length ≤ tg.isizeMax → Agree (n bs) (n' bs) ∧ ∀ a rest, n' bs = .ok (some (a, rest)) → rest.length ≤ bs.length

theorem bind_ok_inv {x : Res α} {f : α → Res β} {b : β} (h : (x >>= f) = .ok b) : ∃ a, x = .ok a ∧ f a = .ok b := by
  cases x with
  | ok a => exact ⟨a, rfl, h⟩
  | _ => cases h

theorem mapErr_inv {x : Res α} {a : α} (h : mapErrContext x = .ok a) : x = .ok a := by
  cases x with
  | ok b => exact h
  | _ => cases h

theorem der_rest {bs v rest : Bytes} (h : mapErrContext (DerRef.parse bs).1 = .ok v) (e : (DerRef.parse bs).2 = rest) : rest.length ≤ bs.length := by
  have h := mapErr_inv h
  rcases hp : DerRef.parse bs with ⟨r, rest'⟩
  rw [hp] at h e
  simp only at h e
  subst h e
  obtain ⟨_, _, _, _, _, h4⟩ := DerRef_parse_ok hp
  rw [h4, List.length_append]
  omega

theorem ber_rest {bs v rest : Bytes} (hb : bs.length ≤ Bsn1.isizeMax) (h : mapErrContext (BerRef.parse bs).1 = .ok v)
    (e : (BerRef.parse bs).2 = rest) : rest.length ≤ bs.length := by
  have h := mapErr_inv h
  rcases hp : BerRef.parse bs with ⟨r, rest'⟩
  rw [hp] at h e
  simp only at h e
  subst h e
  obtain ⟨_, h4⟩ := BerRef_parse_sound hb hp
  rw [h4, List.length_append]
  omega

theorem derToVal_agree {d d' : De α} (h : DeAgree tg d d') : NextAgree tg (tg.derToVal d) (Bsn1.derToVal d') := by
  intro bs hb
  refine ⟨Agree.ite (fun _ => .refl _) fun _ => ?_, fun a rest e => ?_⟩
  · exact der_step hb (k := fun v rest => tg.disassemble v >>= fun x => mapErrContext (d.fromDer x.1 x.2.2) >>= fun val => pure (some (val, rest)))
      (k' := fun v rest => DerRef.disassemble v >>= fun x => mapErrContext (d'.fromDer x.1 x.2.2) >>= fun val => pure (some (val, rest)))
      fun v rest hv hl _ => take_step (isDer_isBer' hv) hl fun id l c hc => Agree.bind (h.der id c hc).mapErr fun _ _ => .refl _
  · exact le_of_lt (derToVal_consumes bs.length d' bs a rest (le_refl _) e)

theorem berToVal_agree {d d' : De α} (h : DeAgree tg d d') : NextAgree tg (tg.berToVal d) (Bsn1.berToVal d') := by
  intro bs hb
  refine ⟨Agree.ite (fun _ => .refl _) fun _ => ?_, fun a rest e => ?_⟩
  · exact ber_step hb (k := fun v rest => tg.disassemble v >>= fun x => mapErrContext (d.fromBer x.1 x.2.1 x.2.2) >>= fun val => pure (some (val, rest)))
      (k' := fun v rest => BerRef.disassemble v >>= fun x => mapErrContext (d'.fromBer x.1 x.2.1 x.2.2) >>= fun val => pure (some (val, rest)))
      fun v rest hv hl _ => take_step hv hl fun id l c hc => Agree.bind (h.ber id l c hc).mapErr fun _ _ => .refl _
  · exact le_of_lt (berToVal_consumes d' bs a rest (hb.trans (isizeMax_le OkWord.le)) e)

theorem derToKeyVal_agree {dk dk' : De α} {dv dv' : De β} (hk : DeAgree tg dk dk') (hv : DeAgree tg dv dv') :
    NextAgree tg (tg.derToKeyVal dk dv) (Bsn1.derToKeyVal dk' dv') := by
  intro bs hb
  refine ⟨Agree.ite (fun _ => .refl _) fun _ => ?_, fun a rest e => ?_⟩
  · refine der_step hb (k := fun pair rest => DerRef.id pair >>= fun pid =>
      if pid ≠ IdRef.sequence then .err (Error.invalidKeyValuePair.context)
      else tg.contents pair >>= fun c => mapErrContext (tg.derRefParse c).1 >>= fun key => mapErrContext (tg.derRefParse (tg.derRefParse c).2).1 >>= fun val =>
        if (tg.derRefParse (tg.derRefParse c).2).2.isEmpty then
          tg.disassemble key >>= fun x => mapErrContext (dk.fromDer x.1 x.2.2) >>= fun k =>
          tg.disassemble val >>= fun y => mapErrContext (dv.fromDer y.1 y.2.2) >>= fun v => pure (some ((k, v), rest))
        else .err (Error.invalidKeyValuePair.context))
      (k' := fun pair rest => DerRef.id pair >>= fun pid =>
      if pid ≠ IdRef.sequence then .err (Error.invalidKeyValuePair.context)
      else DerRef.contents pair >>= fun c => mapErrContext (DerRef.parse c).1 >>= fun key => mapErrContext (DerRef.parse (DerRef.parse c).2).1 >>= fun val =>
        if (DerRef.parse (DerRef.parse c).2).2.isEmpty then
          DerRef.disassemble key >>= fun x => mapErrContext (dk'.fromDer x.1 x.2.2) >>= fun k =>
          DerRef.disassemble val >>= fun y => mapErrContext (dv'.fromDer y.1 y.2.2) >>= fun v => pure (some ((k, v), rest))
        else .err (Error.invalidKeyValuePair.context)) fun v rest hd hl _ => Agree.bind (.refl _) fun pid _ => Agree.ite (fun _ => .refl _) fun _ =>
      contents_step (isDer_isBer' hd) hl fun c hc => der_step hc (k := fun key r => mapErrContext (tg.derRefParse r).1 >>= fun val => if (tg.derRefParse r).2.isEmpty then tg.disassemble key >>= fun x => mapErrContext (dk.fromDer x.1 x.2.2) >>= fun k =>
          tg.disassemble val >>= fun y => mapErrContext (dv.fromDer y.1 y.2.2) >>= fun v => pure (some ((k, v), rest)) else .err (Error.invalidKeyValuePair.context))
        (k' := fun key r => mapErrContext (DerRef.parse r).1 >>= fun val => if (DerRef.parse r).2.isEmpty then DerRef.disassemble key >>= fun x => mapErrContext (dk'.fromDer x.1 x.2.2) >>= fun k =>
          DerRef.disassemble val >>= fun y => mapErrContext (dv'.fromDer y.1 y.2.2) >>= fun v => pure (some ((k, v), rest)) else .err (Error.invalidKeyValuePair.context)) fun key rest' hkey hkl hr' =>
      der_step (hr'.trans hc) (k := fun val r => if r.isEmpty then tg.disassemble key >>= fun x => mapErrContext (dk.fromDer x.1 x.2.2) >>= fun k =>
          tg.disassemble val >>= fun y => mapErrContext (dv.fromDer y.1 y.2.2) >>= fun v => pure (some ((k, v), rest)) else .err (Error.invalidKeyValuePair.context))
        (k' := fun val r => if r.isEmpty then DerRef.disassemble key >>= fun x => mapErrContext (dk'.fromDer x.1 x.2.2) >>= fun k =>
          DerRef.disassemble val >>= fun y => mapErrContext (dv'.fromDer y.1 y.2.2) >>= fun v => pure (some ((k, v), rest)) else .err (Error.invalidKeyValuePair.context)) fun val rest'' hval hvl _ => ?_
    refine Agree.ite (fun _ => ?_) fun _ => .refl _
    exact take_step (isDer_isBer' hkey) hkl fun id l c hc => Agree.bind (hk.der id c hc).mapErr fun _ _ =>
      take_step (isDer_isBer' hval) hvl fun id l c hc => Agree.bind (hv.der id c hc).mapErr fun _ _ => .refl _
  · exact le_of_lt (derToKeyVal_consumes bs.length dk' dv' bs a rest (le_refl _) e)

theorem berToKeyVal_agree {dk dk' : De α} {dv dv' : De β} (hk : DeAgree tg dk dk') (hv : DeAgree tg dv dv') :
    NextAgree tg (tg.berToKeyVal dk dv) (Bsn1.berToKeyVal dk' dv') := by
  intro bs hb
  refine ⟨Agree.ite (fun _ => .refl _) fun _ => ?_, fun a rest e => ?_⟩
  · refine ber_step hb (k := fun pair rest => BerRef.id pair >>= fun pid =>
      if pid ≠ IdRef.sequence then .err (Error.invalidKeyValuePair.context)
      else tg.contents pair >>= fun c => mapErrContext (tg.berRefParse c).1 >>= fun key => mapErrContext (tg.berRefParse (tg.berRefParse c).2).1 >>= fun val =>
        if (tg.berRefParse (tg.berRefParse c).2).2.isEmpty then
          tg.disassemble key >>= fun x => mapErrContext (dk.fromBer x.1 x.2.1 x.2.2) >>= fun k =>
          tg.disassemble val >>= fun y => mapErrContext (dv.fromBer y.1 y.2.1 y.2.2) >>= fun v => pure (some ((k, v), rest))
        else .err (Error.invalidKeyValuePair.context))
      (k' := fun pair rest => BerRef.id pair >>= fun pid =>
      if pid ≠ IdRef.sequence then .err (Error.invalidKeyValuePair.context)
      else BerRef.contents pair >>= fun c => mapErrContext (BerRef.parse c).1 >>= fun key => mapErrContext (BerRef.parse (BerRef.parse c).2).1 >>= fun val =>
        if (BerRef.parse (BerRef.parse c).2).2.isEmpty then
          BerRef.disassemble key >>= fun x => mapErrContext (dk'.fromBer x.1 x.2.1 x.2.2) >>= fun k =>
          BerRef.disassemble val >>= fun y => mapErrContext (dv'.fromBer y.1 y.2.1 y.2.2) >>= fun v => pure (some ((k, v), rest))
        else .err (Error.invalidKeyValuePair.context)) fun v rest hd hl _ => Agree.bind (.refl _) fun pid _ => Agree.ite (fun _ => .refl _) fun _ =>
      contents_step hd hl fun c hc => ber_step hc (k := fun key r => mapErrContext (tg.berRefParse r).1 >>= fun val => if (tg.berRefParse r).2.isEmpty then tg.disassemble key >>= fun x => mapErrContext (dk.fromBer x.1 x.2.1 x.2.2) >>= fun k =>
          tg.disassemble val >>= fun y => mapErrContext (dv.fromBer y.1 y.2.1 y.2.2) >>= fun v => pure (some ((k, v), rest)) else .err (Error.invalidKeyValuePair.context))
        (k' := fun key r => mapErrContext (BerRef.parse r).1 >>= fun val => if (BerRef.parse r).2.isEmpty then BerRef.disassemble key >>= fun x => mapErrContext (dk'.fromBer x.1 x.2.1 x.2.2) >>= fun k =>
          BerRef.disassemble val >>= fun y => mapErrContext (dv'.fromBer y.1 y.2.1 y.2.2) >>= fun v => pure (some ((k, v), rest)) else .err (Error.invalidKeyValuePair.context)) fun key rest' hkey hkl hr' =>
      ber_step (hr'.trans hc) (k := fun val r => if r.isEmpty then tg.disassemble key >>= fun x => mapErrContext (dk.fromBer x.1 x.2.1 x.2.2) >>= fun k =>
          tg.disassemble val >>= fun y => mapErrContext (dv.fromBer y.1 y.2.1 y.2.2) >>= fun v => pure (some ((k, v), rest)) else .err (Error.invalidKeyValuePair.context))
        (k' := fun val r => if r.isEmpty then BerRef.disassemble key >>= fun x => mapErrContext (dk'.fromBer x.1 x.2.1 x.2.2) >>= fun k =>
          BerRef.disassemble val >>= fun y => mapErrContext (dv'.fromBer y.1 y.2.1 y.2.2) >>= fun v => pure (some ((k, v), rest)) else .err (Error.invalidKeyValuePair.context)) fun val rest'' hval hvl _ => ?_
    refine Agree.ite (fun _ => ?_) fun _ => .refl _
    exact take_step hkey hkl fun id l c hc => Agree.bind (hk.ber id l c hc).mapErr fun _ _ =>
      take_step hval hvl fun id l c hc => Agree.bind (hv.ber id l c hc).mapErr fun _ _ => .refl _
  · exact le_of_lt (berToKeyVal_consumes dk' dv' bs a rest (hb.trans (isizeMax_le OkWord.le)) e)

omit [OkWord tg] in
theorem collect_agree {n n' : Bytes → Res (Option (α × Bytes))} (h : NextAgree tg n n') (ins : γ → α → γ) {bs : Bytes}
    (hb : bs.length ≤ tg.isizeMax) (ret : γ) : Agree (collect n ins bs ret) (collect n' ins bs ret) := by
  have key : ∀ (fuel : Nat) (bs : Bytes) (ret : γ), bs.length ≤ tg.isizeMax →
      Agree (collectLoop n ins fuel bs ret) (collectLoop n' ins fuel bs ret) := by
    intro fuel
    induction fuel with
    | zero => intro _ _ _; exact .refl _
    | succ f ih =>
      intro bs ret hb
      rw [collectLoop, collectLoop]
      refine Agree.bind (h bs hb).1 fun o ho => ?_
      cases o with
      | none => exact .refl _
      | some x => exact ih x.2 _ (((h bs hb).2 x.1 x.2 ho).trans hb)
  exact key _ _ _ hb

theorem excludeEoc_length {m : Build} {l : Length} {raw c : Bytes} (h : excludeEoc m l raw = .ok c) : c.length ≤ raw.length := by
  cases l with
  | definite n =>
    obtain ⟨_, _, h⟩ := bind_ok_inv h
    cases h
    exact le_refl _
  | indefinite =>
    simp only [excludeEoc] at h
    split at h
    · simp only [sliceTo] at h
      split at h
      · cases h; simp
      · cases h
    · cases h

omit [OkWord tg] in
/-- A sequence of values. -/
theorem seq_agree (m : Build) (tag : Bytes) {n n' k k' : Bytes → Res (Option (α × Bytes))} (hn : NextAgree tg n n') (hk : NextAgree tg k k')
    (ins : γ → α → γ) (ret : γ) (fin : γ → Res β) :
    DeAgree tg
      ⟨fun id l c => if id ≠ tag then .err .unmatchedId else (excludeEoc m l c >>= fun c => collect n ins c ret >>= fin),
        fun id c => if id ≠ tag then .err .unmatchedId else (collect k ins c ret >>= fin)⟩
      ⟨fun id l c => if id ≠ tag then .err .unmatchedId else (excludeEoc m l c >>= fun c => collect n' ins c ret >>= fin),
        fun id c => if id ≠ tag then .err .unmatchedId else (collect k' ins c ret >>= fin)⟩ :=
  ⟨fun _ _ hc => Agree.ite (fun _ => .refl _) fun _ => Agree.bind (collect_agree hk ins hc ret) fun _ _ => .refl _,
    fun _ _ _ hc => Agree.ite (fun _ => .refl _) fun _ => Agree.bind (.refl _) fun _ he =>
      Agree.bind (collect_agree hn ins ((excludeEoc_length he).trans hc) ret) fun _ _ => .refl _⟩

omit [OkWord tg] in
/-- A sequence of values, returned as it is. -/
theorem seq_agree' (m : Build) (tag : Bytes) {n n' k k' : Bytes → Res (Option (α × Bytes))} (hn : NextAgree tg n n') (hk : NextAgree tg k k')
    (ins : γ → α → γ) (ret : γ) :
    DeAgree tg
      ⟨fun id l c => if id ≠ tag then .err .unmatchedId else (excludeEoc m l c >>= fun c => collect n ins c ret),
        fun id c => if id ≠ tag then .err .unmatchedId else (collect k ins c ret)⟩
      ⟨fun id l c => if id ≠ tag then .err .unmatchedId else (excludeEoc m l c >>= fun c => collect n' ins c ret),
        fun id c => if id ≠ tag then .err .unmatchedId else (collect k' ins c ret)⟩ :=
  ⟨fun _ _ hc => Agree.ite (fun _ => .refl _) fun _ => collect_agree hk ins hc ret,
    fun _ _ _ hc => Agree.ite (fun _ => .refl _) fun _ => Agree.bind (.refl _) fun _ he => collect_agree hn ins ((excludeEoc_length he).trans hc) ret⟩

/-! ### Derived types -/

/-- The decoders of the fields agree. -/
inductive FieldAgree (tg : Target) : {β : Type} → DeField β → DeField β → Prop
  | skip {β : Type} (x : β) : FieldAgree tg (.skip x) (.skip x)
  | plain {β : Type} {d d' : De β} : DeAgree tg d d' → FieldAgree tg (.plain d) (.plain d')
  | from_ {β δ : Type} {d d' : De δ} (f : δ → β) : DeAgree tg d d' → FieldAgree tg (.from_ d f) (.from_ d' f)
  | tryFrom {β δ : Type} {d d' : De δ} (f : δ → Except Chain β) : DeAgree tg d d' → FieldAgree tg (.tryFrom d f) (.tryFrom d' f)

/-- The decoders of all fields agree. -/
inductive FieldsAgree (tg : Target) : {γ : Type} → DeFields γ → DeFields γ → Prop
  | nil : FieldsAgree tg .nil .nil
  | cons {β γ : Type} {f f' : DeField β} {r r' : DeFields γ} : FieldAgree tg f f' → FieldsAgree tg r r' → FieldsAgree tg (.cons f r) (.cons f' r')

/-- The decoders of all variants agree. -/
inductive VariantsAgree (tg : Target) : {ρ : Type} → DeVariants ρ → DeVariants ρ → Prop
  | nil : VariantsAgree tg .nil .nil
  | cons {γ ρ : Type} (id : Bytes) {f f' : DeFields γ} {r r' : DeVariants ρ} : FieldsAgree tg f f' → VariantsAgree tg r r' →
      VariantsAgree tg (.cons id f r) (.cons id f' r')

/-- One field. -/
def TmpAgree (tg : Target) (tmp tmp' : {δ : Type} → De δ → Bytes → Res (δ × Bytes)) : Prop :=
  ∀ {δ : Type} (d d' : De δ), DeAgree tg d d' → ∀ bs, bs.length ≤ tg.isizeMax →
    Agree (tmp d bs) (tmp' d' bs) ∧ ∀ a rest, tmp' d' bs = .ok (a, rest) → rest.length ≤ bs.length

theorem derTmpVal_agree : TmpAgree tg tg.derTmpVal Bsn1.derTmpVal := by
  intro δ d d' h bs hb
  refine ⟨?_, fun a rest e => ?_⟩
  · exact der_step hb (k := fun v rest => tg.disassemble v >>= fun x => mapErrContext (d.fromDer x.1 x.2.2) >>= fun val => pure (val, rest))
      (k' := fun v rest => DerRef.disassemble v >>= fun x => mapErrContext (d'.fromDer x.1 x.2.2) >>= fun val => pure (val, rest))
      fun v rest hv hl _ => take_step (isDer_isBer' hv) hl fun id l c hc => Agree.bind (h.der id c hc).mapErr fun _ _ => .refl _
  · obtain ⟨v, h1, h2⟩ := bind_ok_inv e
    obtain ⟨x, h3, h4⟩ := bind_ok_inv h2
    obtain ⟨y, h5, h6⟩ := bind_ok_inv h4
    refine der_rest h1 ?_
    cases h6
    rfl

theorem berTmpVal_agree : TmpAgree tg tg.berTmpVal Bsn1.berTmpVal := by
  intro δ d d' h bs hb
  refine ⟨?_, fun a rest e => ?_⟩
  · exact ber_step hb (k := fun v rest => tg.disassemble v >>= fun x => mapErrContext (d.fromBer x.1 x.2.1 x.2.2) >>= fun val => pure (val, rest))
      (k' := fun v rest => BerRef.disassemble v >>= fun x => mapErrContext (d'.fromBer x.1 x.2.1 x.2.2) >>= fun val => pure (val, rest))
      fun v rest hv hl _ => take_step hv hl fun id l c hc => Agree.bind (h.ber id l c hc).mapErr fun _ _ => .refl _
  · obtain ⟨v, h1, h2⟩ := bind_ok_inv e
    obtain ⟨x, h3, h4⟩ := bind_ok_inv h2
    obtain ⟨y, h5, h6⟩ := bind_ok_inv h4
    refine ber_rest (hb.trans (isizeMax_le OkWord.le)) h1 ?_
    cases h6
    rfl

omit [OkWord tg] in
theorem deField_agree {tmp tmp' : {δ : Type} → De δ → Bytes → Res (δ × Bytes)} (ht : TmpAgree tg tmp tmp') {f f' : DeField β}
    (h : FieldAgree tg f f') {bs : Bytes} (hb : bs.length ≤ tg.isizeMax) :
    Agree (deField tmp f bs) (deField tmp' f' bs) ∧ ∀ a rest, deField tmp' f' bs = .ok (a, rest) → rest.length ≤ bs.length := by
  cases h with
  | skip x => exact ⟨.refl _, fun a rest e => by cases e; exact le_refl _⟩
  | plain hd => exact ht _ _ hd bs hb
  | from_ g hd =>
    refine ⟨Agree.bind (ht _ _ hd bs hb).1 fun _ _ => .refl _, fun a rest e => ?_⟩
    obtain ⟨x, h1, h2⟩ := bind_ok_inv e
    cases h2
    exact (ht _ _ hd bs hb).2 _ _ h1
  | tryFrom g hd =>
    refine ⟨Agree.bind (ht _ _ hd bs hb).1 fun _ _ => .refl _, fun a rest e => ?_⟩
    obtain ⟨x, h1, h2⟩ := bind_ok_inv e
    obtain ⟨y, h3, h4⟩ := bind_ok_inv h2
    cases h4
    exact (ht _ _ hd bs hb).2 _ _ h1

omit [OkWord tg] in
theorem deFields_agree {tmp tmp' : {δ : Type} → De δ → Bytes → Res (δ × Bytes)} (ht : TmpAgree tg tmp tmp') {fs fs' : DeFields γ}
    (h : FieldsAgree tg fs fs') : ∀ {bs : Bytes}, bs.length ≤ tg.isizeMax → Agree (deFields tmp fs bs) (deFields tmp' fs' bs) := by
  induction h with
  | nil => intro _ _; exact .refl _
  | cons hf _ ih =>
    intro bs hb
    refine Agree.bind (deField_agree ht hf hb).1 fun x hx => ?_
    exact Agree.bind (ih (((deField_agree ht hf hb).2 x.1 x.2 hx).trans hb)) fun _ _ => .refl _

theorem fromDerContents_agree {fs fs' : DeFields γ} (h : FieldsAgree tg fs fs') {c : Bytes} (hc : c.length ≤ tg.isizeMax) :
    Agree (tg.fromDerContents fs c) (Bsn1.fromDerContents fs' c) :=
  Agree.bind (deFields_agree derTmpVal_agree h hc) fun _ _ => .refl _

theorem fromBerContents_agree (m : Build) {fs fs' : DeFields γ} (h : FieldsAgree tg fs fs') (l : Length) {c : Bytes} (hc : c.length ≤ tg.isizeMax) :
    Agree (tg.fromBerContents m fs l c) (Bsn1.fromBerContents m fs' l c) := by
  refine Agree.bind (.refl _) fun b hb => Agree.bind (deFields_agree berTmpVal_agree h ?_) fun _ _ => .refl _
  rw [structContents_eq] at hb
  exact (excludeEoc_length hb).trans hc

theorem struct_agree (m : Build) (id : Bytes) {fs fs' : DeFields γ} (h : FieldsAgree tg fs fs') :
    DeAgree tg (tg.deStruct m id fs) (De.struct m id fs') :=
  ⟨fun _ _ hc => Agree.ite (fun _ => .refl _) fun _ => fromDerContents_agree h hc,
    fun _ l _ hc => Agree.ite (fun _ => .refl _) fun _ => fromBerContents_agree m h l hc⟩

omit [OkWord tg] in
theorem pick_agree {vs vs' : DeVariants ρ} (h : VariantsAgree tg vs vs') (id : Bytes) {k k' : {γ : Type} → DeFields γ → Res γ}
    (hk : ∀ {γ : Type} (fs fs' : DeFields γ), FieldsAgree tg fs fs' → Agree (k fs) (k' fs')) : Agree (vs.pick id k) (vs'.pick id k') := by
  induction h with
  | nil => exact .refl _
  | cons i hf _ ih => exact Agree.ite (fun _ => Agree.bind (hk _ _ hf) fun _ _ => .refl _) fun _ => Agree.bind ih fun _ _ => .refl _

theorem enum_agree (m : Build) {vs vs' : DeVariants ρ} (h : VariantsAgree tg vs vs') : DeAgree tg (tg.deEnum m vs) (De.enum m vs') :=
  ⟨fun _ _ hc => pick_agree h _ fun _ _ hf => fromDerContents_agree hf hc,
    fun _ l _ hc => pick_agree h _ fun _ _ hf => fromBerContents_agree m hf l hc⟩

omit [OkWord tg] in
theorem deserializedFields_agree {fs fs' : DeFields γ} (h : FieldsAgree tg fs fs') : deserializedFields fs = deserializedFields fs' := by
  induction h with
  | nil => rfl
  | cons hf _ ih => cases hf <;> simp [deserializedFields, ih]

omit [OkWord tg] in
theorem fieldsTransparent_agree {fs fs' : DeFields γ} (h : FieldsAgree tg fs fs') {tmp tmp' : {δ : Type} → De δ → Res δ}
    (ht : ∀ {δ : Type} (d d' : De δ), DeAgree tg d d' → Agree (tmp d) (tmp' d')) :
    Agree (deFieldsTransparent tmp fs) (deFieldsTransparent tmp' fs') := by
  induction h with
  | nil => exact .refl _
  | cons hf _ ih =>
    refine Agree.bind ?_ fun _ _ => Agree.bind ih fun _ _ => .refl _
    cases hf with
    | skip x => exact .refl _
    | plain hd => exact (ht _ _ hd).mapErr
    | from_ g hd => exact Agree.bind (ht _ _ hd).mapErr fun _ _ => .refl _
    | tryFrom g hd => exact Agree.bind (ht _ _ hd).mapErr fun _ _ => .refl _

theorem transparent_agree (m : Build) {fs fs' : DeFields γ} (h : FieldsAgree tg fs fs') :
    DeAgree tg ((De.transparent fs).getD (tg.deStruct m [] fs)) ((De.transparent fs').getD (De.struct m [] fs')) := by
  rw [De.transparent, De.transparent, deserializedFields_agree h]
  split
  · exact ⟨fun id c hc => fieldsTransparent_agree h fun _ _ hd => hd.der id c hc,
      fun id l c hc => fieldsTransparent_agree h fun _ _ hd => hd.ber id l c hc⟩
  · exact struct_agree m [] h

omit [OkWord tg] in
theorem back_agree {d d' : De β} (h : DeAgree tg d d') (g : Back β α) : DeAgree tg (De.back d g) (De.back d' g) := by
  cases g with
  | from_ g => exact ⟨fun id c hc => Agree.bind (h.der id c hc) fun _ _ => .refl _, fun id l c hc => Agree.bind (h.ber id l c hc) fun _ _ => .refl _⟩
  | tryFrom g => exact ⟨fun id c hc => Agree.bind (h.der id c hc) fun _ _ => .refl _, fun id l c hc => Agree.bind (h.ber id l c hc) fun _ _ => .refl _⟩

omit [OkWord tg] in
theorem backField_agree {d d' : De β} (h : DeAgree tg d d') (g : Back β α) : FieldAgree tg (backField d g) (backField d' g) := by
  cases g with
  | from_ g => exact .from_ g h
  | tryFrom g => exact .tryFrom g h

/-! ### All supported types -/

mutual
/-- On the target a type is decoded as on 64 bits the type with integer types of the target's size. -/
theorem tyDe_agree (m : Build) (o : HashOrder) : ∀ {α : Type} (t : Ty α), DeAgree tg (tg.tyDe m o t) (Ty.de m o (t.withInts tg.intTy))
  | _, .bool => .refl _
  | _, .int _ => .refl _
  | _, .string => .refl _
  | _, .octetString => .refl _
  | _, .vec t => seq_agree' m _ (berToVal_agree (tyDe_agree m o t)) (derToVal_agree (tyDe_agree m o t)) _ _
  | _, .linkedList t => seq_agree' m _ (berToVal_agree (tyDe_agree m o t)) (derToVal_agree (tyDe_agree m o t)) _ _
  | _, .vecDeque t => seq_agree' m _ (berToVal_agree (tyDe_agree m o t)) (derToVal_agree (tyDe_agree m o t)) _ _
  | _, .btreeSet _ _ _ t => seq_agree' m _ (berToVal_agree (tyDe_agree m o t)) (derToVal_agree (tyDe_agree m o t)) _ _
  | _, .btreeMap _ _ _ k t => seq_agree' m _ (berToKeyVal_agree (tyDe_agree m o k) (tyDe_agree m o t))
      (derToKeyVal_agree (tyDe_agree m o k) (tyDe_agree m o t)) _ _
  | _, .hashSet _ t => seq_agree m _ (berToVal_agree (tyDe_agree m o t)) (derToVal_agree (tyDe_agree m o t)) _ _ _
  | _, .hashMap _ k t => seq_agree m _ (berToKeyVal_agree (tyDe_agree m o k) (tyDe_agree m o t))
      (derToKeyVal_agree (tyDe_agree m o k) (tyDe_agree m o t)) _ _ _
  | _, .struct id fs => struct_agree m id (fieldsDe_agree m o fs)
  | _, .enum vs => enum_agree m (variantsDe_agree m o vs)
  | _, .transparent fs => transparent_agree m (fieldsDe_agree m o fs)
  | _, .conv t _ g => back_agree (tyDe_agree m o t) g
  | _, .named t _ g _ _ => back_agree (tyDe_agree m o t) (.from_ g)
  | _, .hole => .refl _
/-- The same for the fields. -/
theorem fieldsDe_agree (m : Build) (o : HashOrder) : ∀ {γ : Type} (fs : Fields γ),
    FieldsAgree tg (tg.fieldsDe m o fs) (Fields.de m o (fs.withInts tg.intTy))
  | _, .nil => .nil
  | _, .plain t r => .cons (.plain (tyDe_agree m o t)) (fieldsDe_agree m o r)
  | _, .skip d r => .cons (.skip d) (fieldsDe_agree m o r)
  | _, .skipSer t r => .cons (.plain (tyDe_agree m o t)) (fieldsDe_agree m o r)
  | _, .skipDe _ d r => .cons (.skip d) (fieldsDe_agree m o r)
  | _, .conv t _ g r => .cons (backField_agree (tyDe_agree m o t) g) (fieldsDe_agree m o r)
/-- The same for the variants. -/
theorem variantsDe_agree (m : Build) (o : HashOrder) : ∀ {ρ : Type} (vs : Variants ρ),
    VariantsAgree tg (tg.variantsDe m o vs) (Variants.de m o (vs.withInts tg.intTy))
  | _, .nil => .nil
  | _, .cons id fs r => .cons id (fieldsDe_agree m o fs) (variantsDe_agree m o r)
end

end Target
end Bsn1
