import Verif.Model.Told
import Verif.Spec.Told
import Verif.Lemmas.FaultsTy
/-!
# Without their messages, the errors are those of the model without messages
-/

namespace Bsn1
open Spec

/-- Without the messages. -/
def TRes.forget : TRes α → Res α
  | .ok a => .ok a
  | .err t => .err t.error
  | .panic => .panic
  | .ub => .ub

theorem TRes.forget_of (x : Res α) : (TRes.of x).forget = x := by cases x <;> rfl

theorem TRes.forget_bind (x : TRes α) (f : α → TRes β) : (x >>= f).forget = x.forget >>= fun a => (f a).forget := by cases x <;> rfl

theorem TRes.bind_ok (a : α) (f : α → TRes β) : (TRes.ok a >>= f) = f a := rfl

theorem TRes.forget_pure (a : α) : (pure a : TRes α).forget = pure a := rfl

theorem TRes.forget_err (t : Told) : (TRes.err t : TRes α).forget = .err t.error := rfl

theorem TRes.forget_mapErr (msg : String) (x : TRes α) : (x.mapErrContext msg).forget = Bsn1.mapErrContext x.forget := by cases x <;> rfl

theorem TRes.forget_ok {x : TRes α} {a : α} : x.forget = .ok a ↔ x = .ok a := by
  cases x with
  | ok b => exact ⟨fun h => by cases h; rfl, fun h => by cases h; rfl⟩
  | _ => exact ⟨(nomatch ·), (nomatch ·)⟩

theorem TRes.of_ok {x : Res α} {a : α} : TRes.of x = .ok a ↔ x = .ok a := by
  rw [← TRes.forget_ok, TRes.forget_of]

theorem TRes.mapErr_ok {msg : String} {x : TRes α} {a : α} : x.mapErrContext msg = .ok a ↔ x = .ok a := by
  cases x with
  | ok b => exact Iff.rfl
  | _ => exact ⟨(nomatch ·), (nomatch ·)⟩

/-- The same implementation, without messages. -/
structure DeT.Erases (d : DeT α) (d' : De α) : Prop where
  ber : ∀ id len c, (d.fromBer id len c).forget = d'.fromBer id len c
  der : ∀ id c, (d.fromDer id c).forget = d'.fromDer id c

theorem De.told_erases (d : De α) : d.told.Erases d := ⟨fun _ _ _ => TRes.forget_of _, fun _ _ => TRes.forget_of _⟩

/-! ### The helper -/

/-- Without the index. -/
def Helper.drop (x : Option (α × Helper)) : Option (α × Bytes) := x.map fun p => (p.1, p.2.contents)

/-- The same step, without messages and index. -/
def Helper.Erases (next : Helper → TRes (Option (α × Helper))) (next' : Bytes → Res (Option (α × Bytes))) : Prop :=
  ∀ h, ((next h).forget >>= fun x => pure (Helper.drop x)) = next' h.contents

/-- Each step adds one to the index. -/
def Helper.Counts (next : Helper → TRes (Option (α × Helper))) : Prop :=
  ∀ h x h', next h = .ok (some (x, h')) → h'.index = h.index + 1

theorem Helper.derToVal_erases {d : DeT α} {d' : De α} (hd : d.Erases d') : Helper.Erases (Helper.derToVal d) (Bsn1.derToVal d') := by
  intro h
  rw [Helper.derToVal, Bsn1.derToVal]
  split
  · rfl
  · rcases DerRef.parse h.contents with ⟨r, c⟩
    cases r with
    | ok der =>
      simp only [TRes.of, TRes.mapErrContext, mapErrContext, TRes.bind_ok, Res.bind_ok]
      cases DerRef.disassemble der with
      | ok p =>
        obtain ⟨id, len, c'⟩ := p
        simp only [TRes.of, TRes.bind_ok, Res.bind_ok]
        rw [← hd.der id c']
        cases d.fromDer id c' <;> rfl
      | _ => rfl
    | _ => rfl

theorem Helper.berToVal_erases {d : DeT α} {d' : De α} (hd : d.Erases d') : Helper.Erases (Helper.berToVal d) (Bsn1.berToVal d') := by
  intro h
  rw [Helper.berToVal, Bsn1.berToVal]
  split
  · rfl
  · rcases BerRef.parse h.contents with ⟨r, c⟩
    cases r with
    | ok ber =>
      simp only [TRes.of, TRes.mapErrContext, mapErrContext, TRes.bind_ok, Res.bind_ok]
      cases BerRef.disassemble ber with
      | ok p =>
        obtain ⟨id, len, c'⟩ := p
        simp only [TRes.of, TRes.bind_ok, Res.bind_ok]
        rw [← hd.ber id len c']
        cases d.fromBer id len c' <;> rfl
      | _ => rfl
    | _ => rfl

/-- The same pairs, without messages and index: key and value one after the other. -/
theorem Helper.both_erases {x : TRes α} {y : TRes β} {mk mv : String} {h : Helper} :
    ((((x.mapErrContext mk) >>= fun k => (y.mapErrContext mv) >>= fun v => (pure (some ((k, v), h)) : TRes _)).forget) >>= fun x =>
      (pure (Helper.drop x) : Res (Option ((α × β) × Bytes)))) =
    (mapErrContext x.forget >>= fun k => mapErrContext y.forget >>= fun v => (pure (some ((k, v), h.contents)))) := by
  cases x with
  | ok k => cases y <;> rfl
  | _ => rfl

theorem Helper.derToKeyVal_erases {dk : DeT α} {dv : DeT β} {dk' : De α} {dv' : De β} (hk : dk.Erases dk') (hv : dv.Erases dv') :
    Helper.Erases (Helper.derToKeyVal dk dv) (Bsn1.derToKeyVal dk' dv') := by
  intro h
  rw [Helper.derToKeyVal, Bsn1.derToKeyVal]
  split
  · rfl
  · rcases DerRef.parse h.contents with ⟨r, c⟩
    cases r with
    | ok pair =>
      simp only [TRes.of, TRes.mapErrContext, mapErrContext, TRes.bind_ok, Res.bind_ok]
      cases DerRef.id pair with
      | ok pid =>
        simp only [TRes.of, TRes.bind_ok, Res.bind_ok]
        split
        · rfl
        · cases DerRef.contents pair with
          | ok pc =>
            simp only [TRes.of, TRes.bind_ok, Res.bind_ok]
            rcases DerRef.parse pc with ⟨r, pc'⟩
            cases r with
            | ok key =>
              simp only [TRes.of, TRes.mapErrContext, mapErrContext, TRes.bind_ok, Res.bind_ok]
              rcases DerRef.parse pc' with ⟨r, pc''⟩
              cases r with
              | ok val =>
                simp only [TRes.of, TRes.mapErrContext, mapErrContext, TRes.bind_ok, Res.bind_ok]
                split
                · cases DerRef.disassemble key with
                  | ok p =>
                    obtain ⟨id, len, c'⟩ := p
                    simp only [TRes.of, TRes.bind_ok, Res.bind_ok]
                    rw [← hk.der id c']
                    cases dk.fromDer id c' with
                    | ok k =>
                      simp only [TRes.mapErrContext, mapErrContext, TRes.bind_ok, Res.bind_ok, TRes.forget]
                      cases DerRef.disassemble val with
                      | ok p =>
                        obtain ⟨id, len, c'⟩ := p
                        simp only [TRes.of, TRes.bind_ok, Res.bind_ok]
                        rw [← hv.der id c']
                        cases dv.fromDer id c' <;> rfl
                      | _ => rfl
                    | _ => rfl
                  | _ => rfl
                · rfl
              | _ => rfl
            | _ => rfl
          | _ => rfl
      | _ => rfl
    | _ => rfl

theorem Helper.berToKeyVal_erases {dk : DeT α} {dv : DeT β} {dk' : De α} {dv' : De β} (hk : dk.Erases dk') (hv : dv.Erases dv') :
    Helper.Erases (Helper.berToKeyVal dk dv) (Bsn1.berToKeyVal dk' dv') := by
  intro h
  rw [Helper.berToKeyVal, Bsn1.berToKeyVal]
  split
  · rfl
  · rcases BerRef.parse h.contents with ⟨r, c⟩
    cases r with
    | ok pair =>
      simp only [TRes.of, TRes.mapErrContext, mapErrContext, TRes.bind_ok, Res.bind_ok]
      cases BerRef.id pair with
      | ok pid =>
        simp only [TRes.of, TRes.bind_ok, Res.bind_ok]
        split
        · rfl
        · cases BerRef.contents pair with
          | ok pc =>
            simp only [TRes.of, TRes.bind_ok, Res.bind_ok]
            rcases BerRef.parse pc with ⟨r, pc'⟩
            cases r with
            | ok key =>
              simp only [TRes.of, TRes.mapErrContext, mapErrContext, TRes.bind_ok, Res.bind_ok]
              rcases BerRef.parse pc' with ⟨r, pc''⟩
              cases r with
              | ok val =>
                simp only [TRes.of, TRes.mapErrContext, mapErrContext, TRes.bind_ok, Res.bind_ok]
                split
                · cases BerRef.disassemble key with
                  | ok p =>
                    obtain ⟨id, len, c'⟩ := p
                    simp only [TRes.of, TRes.bind_ok, Res.bind_ok]
                    rw [← hk.ber id len c']
                    cases dk.fromBer id len c' with
                    | ok k =>
                      simp only [TRes.mapErrContext, mapErrContext, TRes.bind_ok, Res.bind_ok, TRes.forget]
                      cases BerRef.disassemble val with
                      | ok p =>
                        obtain ⟨id, len, c'⟩ := p
                        simp only [TRes.of, TRes.bind_ok, Res.bind_ok]
                        rw [← hv.ber id len c']
                        cases dv.fromBer id len c' <;> rfl
                      | _ => rfl
                    | _ => rfl
                  | _ => rfl
                · rfl
              | _ => rfl
            | _ => rfl
          | _ => rfl
      | _ => rfl
    | _ => rfl

theorem TRes.bind_eq_ok {x : TRes α} {f : α → TRes β} {b : β} : (x >>= f) = .ok b ↔ ∃ a, x = .ok a ∧ f a = .ok b := by
  cases x with
  | ok a => exact ⟨fun h => ⟨a, rfl, h⟩, fun ⟨a', h1, h2⟩ => by cases h1; exact h2⟩
  | _ => exact ⟨(nomatch ·), fun ⟨_, h, _⟩ => nomatch h⟩

theorem Helper.derToVal_counts (d : DeT α) : Helper.Counts (Helper.derToVal d) := by
  intro h x h' he
  rw [Helper.derToVal] at he
  split at he
  · cases he
  · simp only [TRes.bind_eq_ok] at he
    obtain ⟨_, _, _, _, _, _, he⟩ := he
    cases he; rfl

theorem Helper.berToVal_counts (d : DeT α) : Helper.Counts (Helper.berToVal d) := by
  intro h x h' he
  rw [Helper.berToVal] at he
  split at he
  · cases he
  · simp only [TRes.bind_eq_ok] at he
    obtain ⟨_, _, _, _, _, _, he⟩ := he
    cases he; rfl

theorem Helper.derToKeyVal_counts (dk : DeT α) (dv : DeT β) : Helper.Counts (Helper.derToKeyVal dk dv) := by
  intro h x h' he
  rw [Helper.derToKeyVal] at he
  split at he
  · cases he
  · simp only [TRes.bind_eq_ok] at he
    obtain ⟨_, _, _, _, he⟩ := he
    split at he
    · cases he
    · simp only [TRes.bind_eq_ok] at he
      obtain ⟨_, _, _, _, _, _, he⟩ := he
      split at he
      · simp only [TRes.bind_eq_ok] at he
        obtain ⟨_, _, _, _, _, _, _, _, he⟩ := he
        cases he; rfl
      · cases he

theorem Helper.berToKeyVal_counts (dk : DeT α) (dv : DeT β) : Helper.Counts (Helper.berToKeyVal dk dv) := by
  intro h x h' he
  rw [Helper.berToKeyVal] at he
  split at he
  · cases he
  · simp only [TRes.bind_eq_ok] at he
    obtain ⟨_, _, _, _, he⟩ := he
    split at he
    · cases he
    · simp only [TRes.bind_eq_ok] at he
      obtain ⟨_, _, _, _, _, _, he⟩ := he
      split at he
      · simp only [TRes.bind_eq_ok] at he
        obtain ⟨_, _, _, _, _, _, _, _, he⟩ := he
        cases he; rfl
      · cases he

theorem Helper.loop_erases {next : Helper → TRes (Option (α × Helper))} {next' : Bytes → Res (Option (α × Bytes))}
    (hn : Helper.Erases next next') (insert : γ → α → γ) : ∀ (f : Nat) (h : Helper) (ret : γ),
    (Helper.loop next insert f h ret).forget = collectLoop next' insert f h.contents ret := by
  intro f
  induction f with
  | zero => intro h ret; rfl
  | succ f ih =>
    intro h ret
    rw [Helper.loop, collectLoop, ← hn h]
    cases next h with
    | ok x =>
      cases x with
      | none => rfl
      | some p => exact ih p.2 _
    | _ => rfl

theorem Helper.collect_erases {next : Helper → TRes (Option (α × Helper))} {next' : Bytes → Res (Option (α × Bytes))}
    (hn : Helper.Erases next next') (insert : γ → α → γ) (c : Bytes) (ret : γ) :
    (Helper.collect next insert c ret).forget = Bsn1.collect next' insert c ret := Helper.loop_erases hn insert _ _ _

/-! ### Collections -/

theorem Res.bind_pure_id (x : Res α) : (x >>= fun a => pure (id a)) = x := by cases x <;> rfl

theorem DeT.elements_erases (m : Build) (tag : Bytes) {d : DeT α} {d' : De α} (hd : d.Erases d') (insert : List α → α → List α)
    (fin : List α → List α) : (DeT.elements m tag d insert fin).Erases
      { fromBer := fun id length contents => if id ≠ tag then .err .unmatchedId else do
          let contents ← excludeEoc m length contents
          let ret ← collect (berToVal d') insert contents []
          return fin ret
        fromDer := fun id contents => if id ≠ tag then .err .unmatchedId else do
          let ret ← collect (derToVal d') insert contents []
          return fin ret } where
  ber id len c := by
    rw [DeT.elements]
    simp only
    split
    · rfl
    · rw [TRes.forget_bind, TRes.forget_of]
      congr 1; funext c'
      rw [TRes.forget_bind, Helper.collect_erases (Helper.berToVal_erases hd)]
      rfl
  der id c := by
    rw [DeT.elements]
    simp only
    split
    · rfl
    · rw [TRes.forget_bind, Helper.collect_erases (Helper.derToVal_erases hd)]
      rfl

theorem DeT.pairs_erases (m : Build) (tag : Bytes) {dk : DeT α} {dv : DeT β} {dk' : De α} {dv' : De β} (hk : dk.Erases dk') (hv : dv.Erases dv')
    (insert : List (α × β) → α × β → List (α × β)) (fin : List (α × β) → List (α × β)) : (DeT.pairs m tag dk dv insert fin).Erases
      { fromBer := fun id length contents => if id ≠ tag then .err .unmatchedId else do
          let contents ← excludeEoc m length contents
          let ret ← collect (berToKeyVal dk' dv') insert contents []
          return fin ret
        fromDer := fun id contents => if id ≠ tag then .err .unmatchedId else do
          let ret ← collect (derToKeyVal dk' dv') insert contents []
          return fin ret } where
  ber id len c := by
    rw [DeT.pairs]
    simp only
    split
    · rfl
    · rw [TRes.forget_bind, TRes.forget_of]
      congr 1; funext c'
      rw [TRes.forget_bind, Helper.collect_erases (Helper.berToKeyVal_erases hk hv)]
      rfl
  der id c := by
    rw [DeT.pairs]
    simp only
    split
    · rfl
    · rw [TRes.forget_bind, Helper.collect_erases (Helper.derToKeyVal_erases hk hv)]
      rfl

theorem DeT.Erases.congr {d : DeT α} {d' d'' : De α} (h : d.Erases d') (hb : ∀ id len c, d'.fromBer id len c = d''.fromBer id len c)
    (hd : ∀ id c, d'.fromDer id c = d''.fromDer id c) : d.Erases d'' :=
  ⟨fun id len c => (h.ber id len c).trans (hb id len c), fun id c => (h.der id c).trans (hd id c)⟩

/-! ### Fields -/

/-- The same field, without names. -/
inductive DeFieldT.Erases : {β : Type} → DeFieldT β → DeField β → Prop
  | skip {β : Type} (x : β) : Erases (.skip x) (.skip x)
  | plain {β : Type} (label : String) (d : DeT β) (d' : De β) : d.Erases d' → Erases (.plain label d) (.plain d')
  | from_ {β δ : Type} (label : String) (d : DeT δ) (d' : De δ) (f : δ → β) : d.Erases d' → Erases (.from_ label d f) (.from_ d' f)
  | tryFrom {β δ : Type} (label source : String) (d : DeT δ) (d' : De δ) (f : δ → Except Chain β) : d.Erases d' →
      Erases (.tryFrom label source d f) (.tryFrom d' f)

/-- The same fields, without names. -/
inductive DeFieldsT.Erases : {γ : Type} → DeFieldsT γ → DeFields γ → Prop
  | nil : Erases .nil .nil
  | cons {β γ : Type} {f : DeFieldT β} {f' : DeField β} {r : DeFieldsT γ} {r' : DeFields γ} : f.Erases f' → Erases r r' →
      Erases (.cons f r) (.cons f' r')

theorem forget_convErrT (msg : String) (x : Except Chain β) : (convErrT msg x).forget = convErr x := by cases x <;> rfl

theorem derTmpValT_erases {label : String} {d : DeT β} {d' : De β} (hd : d.Erases d') (c : Bytes) :
    (derTmpValT label d c).forget = derTmpVal d' c := by
  rw [derTmpValT, derTmpVal]
  rcases DerRef.parse c with ⟨r, c'⟩
  cases r with
  | ok der =>
    simp only [TRes.of, TRes.mapErrContext, mapErrContext, TRes.bind_ok, Res.bind_ok]
    cases DerRef.disassemble der with
    | ok p =>
      simp only [TRes.of, TRes.bind_ok, Res.bind_ok]
      rw [← hd.der]
      cases d.fromDer p.1 p.2.2 <;> rfl
    | _ => rfl
  | _ => rfl

theorem berTmpValT_erases {label : String} {d : DeT β} {d' : De β} (hd : d.Erases d') (c : Bytes) :
    (berTmpValT label d c).forget = berTmpVal d' c := by
  rw [berTmpValT, berTmpVal]
  rcases BerRef.parse c with ⟨r, c'⟩
  cases r with
  | ok der =>
    simp only [TRes.of, TRes.mapErrContext, mapErrContext, TRes.bind_ok, Res.bind_ok]
    cases BerRef.disassemble der with
    | ok p =>
      simp only [TRes.of, TRes.bind_ok, Res.bind_ok]
      rw [← hd.ber]
      cases d.fromBer p.1 p.2.1 p.2.2 <;> rfl
    | _ => rfl
  | _ => rfl

section fields
variable {tmp : {δ : Type} → String → DeT δ → Bytes → TRes (δ × Bytes)} {tmp' : {δ : Type} → De δ → Bytes → Res (δ × Bytes)}

theorem deFieldT_erases (ht : ∀ {δ : Type} (label : String) (d : DeT δ) (d' : De δ) c, d.Erases d' → (tmp label d c).forget = tmp' d' c)
    {f : DeFieldT β} {f' : DeField β} (h : f.Erases f') (c : Bytes) : (deFieldT tmp f c).forget = deField tmp' f' c := by
  cases h with
  | skip x => rfl
  | plain label d d' hd => exact ht label d d' c hd
  | from_ label d d' f hd =>
    rw [deFieldT, deField, TRes.forget_bind, ht label d d' c hd]; rfl
  | tryFrom label source d d' f hd =>
    rw [deFieldT, deField, TRes.forget_bind, ht label d d' c hd]
    congr 1; funext p
    rw [TRes.forget_bind, forget_convErrT]
    rfl

theorem deFieldsT_erases (ht : ∀ {δ : Type} (label : String) (d : DeT δ) (d' : De δ) c, d.Erases d' → (tmp label d c).forget = tmp' d' c)
    {γ : Type} {fs : DeFieldsT γ} {fs' : DeFields γ} (h : fs.Erases fs') : ∀ c : Bytes, (deFieldsT tmp fs c).forget = deFields tmp' fs' c := by
  induction h with
  | nil => intro c; rfl
  | cons hf _ ih =>
    intro c
    rw [deFieldsT, deFields, TRes.forget_bind, deFieldT_erases ht hf]
    congr 1; funext p
    rw [TRes.forget_bind, ih]
    rfl

end fields

theorem fromDerContentsT_erases {fs : DeFieldsT γ} {fs' : DeFields γ} (h : fs.Erases fs') (c : Bytes) :
    (fromDerContentsT fs c).forget = fromDerContents fs' c := by
  rw [fromDerContentsT, fromDerContents, TRes.forget_bind, deFieldsT_erases (fun _ _ _ c h => derTmpValT_erases h c) h]
  congr 1; funext p; exact TRes.forget_of _

theorem fromBerContentsT_erases (m : Build) {fs : DeFieldsT γ} {fs' : DeFields γ} (h : fs.Erases fs') (len : Length) (c : Bytes) :
    (fromBerContentsT m fs len c).forget = fromBerContents m fs' len c := by
  rw [fromBerContentsT, fromBerContents, TRes.forget_bind, TRes.forget_of]
  congr 1; funext c'
  rw [TRes.forget_bind, deFieldsT_erases (fun _ _ _ c h => berTmpValT_erases h c) h]
  congr 1; funext p; exact TRes.forget_of _

section transparent
variable {rules : String} {tmp : {δ : Type} → DeT δ → TRes δ} {tmp' : {δ : Type} → De δ → Res δ}

theorem deFieldsTransparentT_erases (ht : ∀ {δ : Type} (d : DeT δ) (d' : De δ), d.Erases d' → (tmp d).forget = tmp' d')
    {γ : Type} {fs : DeFieldsT γ} {fs' : DeFields γ} (h : fs.Erases fs') :
    (deFieldsTransparentT rules tmp fs).forget = deFieldsTransparent tmp' fs' := by
  induction h with
  | nil => rfl
  | @cons β γ f f' r r' hf _ ih =>
    rw [deFieldsTransparentT, deFieldsTransparent, TRes.forget_bind]
    have : (deFieldTransparentT rules tmp f).forget = deFieldTransparent tmp' f' := by
      cases hf with
      | skip x => rfl
      | plain label d d' hd => rw [deFieldTransparentT, deFieldTransparent, TRes.forget_mapErr, ht d d' hd]
      | from_ label d d' f hd => rw [deFieldTransparentT, deFieldTransparent, TRes.forget_bind, TRes.forget_mapErr, ht d d' hd]; rfl
      | tryFrom label source d d' f hd =>
        rw [deFieldTransparentT, deFieldTransparent, TRes.forget_bind, TRes.forget_mapErr, ht d d' hd]
        congr 1; funext p; exact forget_convErrT _ _
    rw [this]
    congr 1; funext v
    rw [TRes.forget_bind, ih]
    rfl

end transparent

theorem DeT.back_erases {source : String} {d : DeT β} {d' : De β} (hd : d.Erases d') (g : Back β α) : (DeT.back source d g).Erases (De.back d' g) := by
  cases g with
  | from_ g =>
    constructor
    · intro id len c
      change ((d.fromBer id len c >>= fun v => pure (g v)) : TRes α).forget = _
      rw [TRes.forget_bind, hd.ber]; rfl
    · intro id c
      change ((d.fromDer id c >>= fun v => pure (g v)) : TRes α).forget = _
      rw [TRes.forget_bind, hd.der]; rfl
  | tryFrom g =>
    constructor
    · intro id len c
      change ((d.fromBer id len c >>= fun v => convErrT _ (g v)) : TRes α).forget = (d'.fromBer id len c >>= fun v => convErr (g v))
      rw [TRes.forget_bind, hd.ber]
      congr 1; funext v; exact forget_convErrT _ _
    · intro id c
      change ((d.fromDer id c >>= fun v => convErrT _ (g v)) : TRes α).forget = (d'.fromDer id c >>= fun v => convErr (g v))
      rw [TRes.forget_bind, hd.der]
      congr 1; funext v; exact forget_convErrT _ _

theorem backFieldT_erases (label source : String) {d : DeT β} {d' : De β} (hd : d.Erases d') (g : Back β α) :
    (backFieldT label source d g).Erases (backField d' g) := by
  cases g with
  | from_ g => exact .from_ _ _ _ _ hd
  | tryFrom g => exact .tryFrom _ _ _ _ _ hd

/-- The same variants, without names. -/
inductive DeVariantsT.Erases : {ρ : Type} → DeVariantsT ρ → DeVariants ρ → Prop
  | nil : Erases .nil .nil
  | cons {γ ρ : Type} {i : Bytes} {f : DeFieldsT γ} {f' : DeFields γ} {r : DeVariantsT ρ} {r' : DeVariants ρ} : f.Erases f' → Erases r r' →
      Erases (.cons i f r) (.cons i f' r')

theorem DeVariantsT.pick_erases {id : Bytes} {k : {γ : Type} → DeFieldsT γ → TRes γ} {k' : {γ : Type} → DeFields γ → Res γ}
    (hk : ∀ {γ : Type} (fs : DeFieldsT γ) (fs' : DeFields γ), fs.Erases fs' → (k fs).forget = k' fs') {vs : DeVariantsT ρ} {vs' : DeVariants ρ}
    (h : vs.Erases vs') : (vs.pick id k).forget = vs'.pick id k' := by
  induction h with
  | nil => rfl
  | @cons γ ρ i f f' r r' hf _ ih =>
    rw [DeVariantsT.pick, DeVariants.pick]
    split
    · rw [TRes.forget_bind, hk f f' hf]; rfl
    · rw [TRes.forget_bind, ih]; rfl

mutual
/-- The decoders of a type. -/
theorem Ty.deT_erases (m : Build) (o : HashOrder) : {α : Type} → (t : Ty α) → t.deserializable → (l : Labels) → (Ty.deT m o t l).Erases (Ty.de m o t)
  | _, .bool, _, _ => De.told_erases _
  | _, .int _, _, _ => De.told_erases _
  | _, .string, _, _ => De.told_erases _
  | _, .octetString, _, _ => De.told_erases _
  | _, .vec t, h, l => (DeT.elements_erases m _ (Ty.deT_erases m o t h (l.part 0)) _ _).congr
      (fun _ _ _ => by simp only [Res.bind_pure_id]; rfl) (fun _ _ => by simp only [Res.bind_pure_id]; rfl)
  | _, .linkedList t, h, l => (DeT.elements_erases m _ (Ty.deT_erases m o t h (l.part 0)) _ _).congr
      (fun _ _ _ => by simp only [Res.bind_pure_id]; rfl) (fun _ _ => by simp only [Res.bind_pure_id]; rfl)
  | _, .vecDeque t, h, l => (DeT.elements_erases m _ (Ty.deT_erases m o t h (l.part 0)) _ _).congr
      (fun _ _ _ => by simp only [Res.bind_pure_id]; rfl) (fun _ _ => by simp only [Res.bind_pure_id]; rfl)
  | _, .btreeSet _ _ _ t, h, l => (DeT.elements_erases m _ (Ty.deT_erases m o t h (l.part 0)) _ _).congr
      (fun _ _ _ => by simp only [Res.bind_pure_id]; rfl) (fun _ _ => by simp only [Res.bind_pure_id]; rfl)
  | _, .btreeMap _ _ _ k t, h, l => (DeT.pairs_erases m _ (Ty.deT_erases m o k h.1 (l.part 0)) (Ty.deT_erases m o t h.2 (l.part 1)) _ _).congr
      (fun _ _ _ => by simp only [Res.bind_pure_id]; rfl) (fun _ _ => by simp only [Res.bind_pure_id]; rfl)
  | _, .hashSet _ t, h, l => (DeT.elements_erases m _ (Ty.deT_erases m o t h (l.part 0)) _ _).congr (fun _ _ _ => rfl) (fun _ _ => rfl)
  | _, .hashMap _ k t, h, l => (DeT.pairs_erases m _ (Ty.deT_erases m o k h.1 (l.part 0)) (Ty.deT_erases m o t h.2 (l.part 1)) _ _).congr
      (fun _ _ _ => rfl) (fun _ _ => rfl)
  | _, .struct i fs, h, l => by
    have hf := Fields.deT_erases m o fs h l 0
    constructor
    · intro id len c
      change (if id ≠ i then _ else fromBerContentsT m (Fields.deT m o fs l 0) len c : TRes _).forget =
        (if id ≠ i then _ else fromBerContents m (Fields.de m o fs) len c)
      split
      · rfl
      · exact fromBerContentsT_erases m hf len c
    · intro id c
      change (if id ≠ i then _ else fromDerContentsT (Fields.deT m o fs l 0) c : TRes _).forget =
        (if id ≠ i then _ else fromDerContents (Fields.de m o fs) c)
      split
      · rfl
      · exact fromDerContentsT_erases hf c
  | _, .enum vs, h, l => by
    have hv := Variants.deT_erases m o vs h l 0
    exact ⟨fun id len c => DeVariantsT.pick_erases (fun _ _ h => fromBerContentsT_erases m h len c) hv,
      fun id c => DeVariantsT.pick_erases (fun _ _ h => fromDerContentsT_erases h c) hv⟩
  | _, .transparent fs, h, l => by
    have e : De.transparent (Fields.de m o fs) = some _ := if_pos ((Fields.deCount_eq m o fs).trans h.1)
    have hf := Fields.deT_erases m o fs h.2 l 0
    change (DeT.transparent (Fields.deT m o fs l 0)).Erases ((De.transparent (Fields.de m o fs)).getD (De.struct m [] (Fields.de m o fs)))
    rw [e]
    exact ⟨fun id len c => deFieldsTransparentT_erases (fun _ _ h => h.ber id len c) hf,
      fun id c => deFieldsTransparentT_erases (fun _ _ h => h.der id c) hf⟩
  | _, .conv t _ g, h, l => DeT.back_erases (Ty.deT_erases m o t h (l.part 0)) g
  | _, .named t _ g _ _, h, l => DeT.back_erases (source := "") (Ty.deT_erases m o t h l) (.from_ g)
  | _, .hole, _, _ => De.told_erases _
/-- The decoders of fields. -/
theorem Fields.deT_erases (m : Build) (o : HashOrder) : {γ : Type} → (fs : Fields γ) → fs.deserializable → (l : Labels) → (k : Nat) →
    (Fields.deT m o fs l k).Erases (Fields.de m o fs)
  | _, .nil, _, _, _ => .nil
  | _, .plain t r, h, l, k => .cons (.plain _ _ _ (Ty.deT_erases m o t h.1 (l.part k))) (Fields.deT_erases m o r h.2 l (k + 1))
  | _, .skip _ r, h, l, k => .cons (.skip _) (Fields.deT_erases m o r h l (k + 1))
  | _, .skipSer t r, h, l, k => .cons (.plain _ _ _ (Ty.deT_erases m o t h.1 (l.part k))) (Fields.deT_erases m o r h.2 l (k + 1))
  | _, .skipDe _ _ r, h, l, k => .cons (.skip _) (Fields.deT_erases m o r h l (k + 1))
  | _, .conv t _ g r, h, l, k => .cons (backFieldT_erases _ _ (Ty.deT_erases m o t h.1 (l.part k)) g) (Fields.deT_erases m o r h.2 l (k + 1))
/-- The decoders of variants. -/
theorem Variants.deT_erases (m : Build) (o : HashOrder) : {ρ : Type} → (vs : Variants ρ) → vs.deserializable → (l : Labels) → (k : Nat) →
    (Variants.deT m o vs l k).Erases (Variants.de m o vs)
  | _, .nil, _, _, _ => .nil
  | _, .cons _ fs r, h, l, k => .cons (Fields.deT_erases m o fs h.1 (l.part k) 0) (Variants.deT_erases m o r h.2 l (k + 1))
end

end Bsn1
