import Verif.Spec.Trap
import Verif.Lemmas.DeSettled
/-!
# When a decoder panics in debug builds
-/

namespace Bsn1
open Spec

variable {α β γ : Type}

/-- Panics exactly if `P`, and does not meet undefined behaviour. -/
def Res.Traps (x : Res α) (P : Prop) : Prop := (x = .panic ↔ P) ∧ x ≠ .ub

theorem Res.Traps.congr {x : Res α} {P Q : Prop} (h : x.Traps P) (e : P ↔ Q) : x.Traps Q := ⟨h.1.trans e, h.2⟩

theorem Res.Traps.not {x : Res α} {P : Prop} (h : x.Traps P) (hn : ¬ P) : x.Settled := by
  cases x with
  | ok a => exact .inl ⟨a, rfl⟩
  | err e => exact .inr ⟨e, rfl⟩
  | panic => exact absurd (h.1.1 rfl) hn
  | ub => exact absurd rfl h.2

theorem Res.Settled.traps {x : Res α} (h : x.Settled) : x.Traps False := by
  rcases h with ⟨a, rfl⟩ | ⟨e, rfl⟩ <;> exact ⟨⟨(nomatch ·), False.elim⟩, (nomatch ·)⟩

theorem Res.Traps.bind {x : Res α} {f : α → Res β} {P : Prop} {Q : α → Prop} (hx : x.Traps P)
    (hf : ∀ a, x = .ok a → (f a).Traps (Q a)) : (x >>= f).Traps (P ∨ ∃ a, x = .ok a ∧ Q a) := by
  cases x with
  | ok a =>
    have h := hf a rfl
    have hp : ¬ P := fun p => nomatch hx.1.2 p
    rw [Res.bind_ok]
    exact h.congr ⟨fun q => .inr ⟨a, rfl, q⟩, fun q => q.elim (fun p => absurd p hp) fun ⟨b, e, q⟩ => by cases e; exact q⟩
  | err e =>
    have hp : ¬ P := fun p => nomatch hx.1.2 p
    exact ⟨⟨(nomatch ·), fun q => q.elim (fun p => absurd p hp) fun ⟨b, e, q⟩ => nomatch e⟩, (nomatch ·)⟩
  | panic => exact ⟨⟨fun _ => .inl (hx.1.1 rfl), fun _ => rfl⟩, (nomatch ·)⟩
  | ub => exact absurd rfl hx.2

/-- What follows does not panic. -/
theorem Res.Traps.bindS {x : Res α} {f : α → Res β} {P : Prop} (hx : x.Traps P) (hf : ∀ a, x = .ok a → (f a).Settled) :
    (x >>= f).Traps P :=
  (hx.bind fun a e => (hf a e).traps).congr ⟨fun h => h.elim id fun ⟨_, _, e⟩ => e.elim, .inl⟩

theorem Res.Traps.mapErr {x : Res α} {P : Prop} (hx : x.Traps P) : (mapErrContext x).Traps P := by
  cases x with
  | ok a => exact hx
  | err e => exact ⟨⟨(nomatch ·), fun p => nomatch hx.1.2 p⟩, (nomatch ·)⟩
  | panic => exact hx
  | ub => exact hx

theorem Res.Traps.guard {p : Prop} [Decidable p] {e : Error} {x : Res α} {P : Prop} (hx : x.Traps P) :
    (if p then .err e else x).Traps (¬ p ∧ P) := by
  by_cases h : p
  · rw [if_pos h]; exact (Res.settled_err e).traps.congr ⟨fun f => f.elim, fun f => f.1 h⟩
  · rw [if_neg h]; exact hx.congr ⟨fun q => ⟨h, q⟩, fun q => q.2⟩

/-- `from_ber` panics exactly on the values in `T`. -/
def TrapsBer (d : De α) (T : Bytes → Bool → Bytes → Prop) : Prop :=
  ∀ id indef raw, raw.length ≤ isizeMax → (d.fromBer id (lenOf indef raw) raw).Traps (T id indef raw)

/-- The first BER value of `c`, if there is one, is in `T`. -/
def FirstTrap (T : Bytes → Bool → Bytes → Prop) (c : Bytes) : Prop :=
  ∃ p id indef raw rest, BerValue p id indef raw ∧ c = p ++ rest ∧ T id indef raw

theorem firstTrap_value {T : Bytes → Bool → Bytes → Prop} {p id raw rest : Bytes} {indef : Bool} (h : BerValue p id indef raw) :
    FirstTrap T (p ++ rest) ↔ T id indef raw := by
  constructor
  · rintro ⟨p', id', d', raw', rest', h', e, ht⟩
    obtain ⟨rfl, _⟩ := isBer_prefix_free (berValue_isBer h) (berValue_isBer h') e
    obtain ⟨rfl, rfl, rfl⟩ := berValue_unique h h'
    exact ht
  · exact fun ht => ⟨p, id, indef, raw, rest, h, rfl, ht⟩

theorem firstTrap_err {T : Bytes → Bool → Bytes → Prop} {c rest : Bytes} {e : Error} (hc : c.length ≤ isizeMax)
    (h : BerRef.parse c = (.err e, rest)) : ¬ FirstTrap T c := by
  rintro ⟨p, id, d, raw, rest', hv, rfl, _⟩
  rw [BerRef_parse_ok (berValue_isBer hv) hc] at h
  exact nomatch h

theorem firstTrap_nil {T : Bytes → Bool → Bytes → Prop} : ¬ FirstTrap T [] := by
  rintro ⟨p, id, d, raw, rest', hv, e, _⟩
  have := berValue_length hv
  have := congrArg List.length e
  simp only [List.length_nil, List.length_append] at this
  omega

theorem berToVal_traps {d : De α} {T : Bytes → Bool → Bytes → Prop} (h : TrapsBer d T) (c : Bytes) (hc : c.length ≤ isizeMax) :
    (berToVal d c).Traps (FirstTrap T c) := by
  rw [berToVal]
  split
  · rename_i he
    rw [List.isEmpty_iff] at he
    subst he
    exact (Res.settled_ok _).traps.congr ⟨False.elim, firstTrap_nil⟩
  · rcases berParse_cases c hc with ⟨e, rest, hp⟩ | ⟨p, id, indef, raw, rest, hv, hp, rfl⟩
    · have := firstTrap_err (T := T) hc hp
      rw [hp]; exact (Res.settled_err _).traps.congr ⟨False.elim, this⟩
    · rw [hp]
      have hl := berValue_length hv
      rw [List.length_append] at hc
      simp only [mapErrContext, Res.bind_ok]
      rw [berValue_disassemble hv, Res.bind_ok, firstTrap_value hv]
      exact (h id indef raw (by omega)).mapErr.bindS fun _ _ => Res.settled_ok _

theorem berTmpVal_traps {d : De α} {T : Bytes → Bool → Bytes → Prop} (h : TrapsBer d T) (c : Bytes) (hc : c.length ≤ isizeMax) :
    (berTmpVal d c).Traps (FirstTrap T c) := by
  rw [berTmpVal]
  rcases berParse_cases c hc with ⟨e, rest, hp⟩ | ⟨p, id, indef, raw, rest, hv, hp, rfl⟩
  · have := firstTrap_err (T := T) hc hp
    rw [hp]; exact (Res.settled_err _).traps.congr ⟨False.elim, this⟩
  · rw [hp]
    have hl := berValue_length hv
    rw [List.length_append] at hc
    simp only [mapErrContext, Res.bind_ok]
    rw [berValue_disassemble hv, Res.bind_ok, firstTrap_value hv]
    exact (h id indef raw (by omega)).mapErr.bindS fun _ _ => Res.settled_ok _

theorem berToKeyVal_traps {dk : De α} {dv : De β} {K : Bytes → Bool → Bytes → α → Prop} {TK TV : Bytes → Bool → Bytes → Prop}
    (hd : DecodesBer dk K) (hk : TrapsBer dk TK) (hv : TrapsBer dv TV) (c : Bytes) (hc : c.length ≤ isizeMax) :
    (berToKeyVal dk dv c).Traps (FirstTrap (PairTrap K TK TV) c) := by
  rw [berToKeyVal]
  split
  · rename_i he
    rw [List.isEmpty_iff] at he
    subst he
    exact (Res.settled_ok _).traps.congr ⟨False.elim, firstTrap_nil⟩
  · rcases berParse_cases c hc with ⟨e, rest, hp⟩ | ⟨p, id, indef, raw, rest, hb, hp, rfl⟩
    · have := firstTrap_err (T := PairTrap K TK TV) hc hp
      rw [hp]; exact (Res.settled_err _).traps.congr ⟨False.elim, this⟩
    · rw [hp, firstTrap_value hb]
      have hl := berValue_length hb
      rw [List.length_append] at hc
      simp only [mapErrContext, Res.bind_ok]
      rw [berValue_id hb, Res.bind_ok]
      by_cases hid : id = IdRef.sequence
      case neg =>
        rw [if_pos hid]
        refine (Res.settled_err _).traps.congr ⟨False.elim, ?_⟩
        rintro (_ | _) <;> exact hid rfl
      rw [if_neg (not_not.2 hid), berValue_contents hb, Res.bind_ok]
      rcases berParse_cases raw (by omega) with ⟨e, rest', hp'⟩ | ⟨p', id', d', b', rest', hb', hp', e'⟩
      · rw [hp']
        refine (Res.settled_err _).traps.congr ⟨False.elim, ?_⟩
        rintro (⟨_, pk, ik, dk, ck, pv, iv, dv, cv, h1, h2, _⟩ | ⟨_, pk, ik, dk, ck, pv, iv, dv, cv, k, h1, h2, _⟩) <;>
        · rw [BerRef_parse_ok (berValue_isBer h1) (by omega)] at hp'
          exact nomatch hp'
      have hl' := berValue_length hb'
      have he' := congrArg List.length e'
      rw [List.length_append] at he'
      rw [hp']
      simp only [mapErrContext, Res.bind_ok]
      rcases berParse_cases rest' (by omega) with ⟨e, rest'', hp''⟩ | ⟨p'', id'', d'', b'', rest'', hb'', hp'', e''⟩
      · rw [hp'']
        refine (Res.settled_err _).traps.congr ⟨False.elim, ?_⟩
        rintro (⟨_, pk, ik, dk, ck, pv, iv, dv, cv, h1, h2, _⟩ | ⟨_, pk, ik, dk, ck, pv, iv, dv, cv, k, h1, h2, _⟩) <;>
        · obtain ⟨rfl, rfl⟩ := isBer_prefix_free (berValue_isBer h1) (berValue_isBer hb') e'
          have := BerRef_parse_ok (berValue_isBer h2) (rest := []) (by rw [List.append_nil]; omega)
          rw [List.append_nil, hp''] at this
          exact nomatch this
      have hl'' := berValue_length hb''
      have he'' := congrArg List.length e''
      rw [List.length_append] at he''
      rw [hp'']
      simp only [mapErrContext, Res.bind_ok]
      split
      · rename_i hem
        rw [List.isEmpty_iff] at hem
        subst hem
        rw [List.append_nil] at e''
        subst e'' e'
        rw [berValue_disassemble hb', Res.bind_ok]
        simp only []
        refine ((hk id' d' b' (by omega)).mapErr.bind (Q := fun _ => TV id'' d'' b'') fun k hk' => ?_).congr ?_
        · rw [berValue_disassemble hb'', Res.bind_ok]
          exact (hv id'' d'' b'' (by omega)).mapErr.bindS fun _ _ => Res.settled_ok _
        · constructor
          · rintro (h | ⟨k, h1, h2⟩)
            · rw [hid]; exact .key indef p' id' d' b' rest' id'' d'' b'' hb' hb'' h
            · rw [hid]
              rw [mapErr_ok] at h1
              exact .value indef p' id' d' b' rest' id'' d'' b'' k hb' hb'' ((hd _ _ _ _ (by omega)).1 h1) h2
          · generalize hr : p' ++ rest' = r
            rintro (⟨_, pk, ik, dk, ck, pv, iv, dv, cv, h1, h2, h3⟩ | ⟨_, pk, ik, dk, ck, pv, iv, dv, cv, k, h1, h2, h3, h4⟩)
            · obtain ⟨rfl, rfl⟩ := isBer_prefix_free (berValue_isBer hb') (berValue_isBer h1) hr
              obtain ⟨rfl, rfl, rfl⟩ := berValue_unique hb' h1
              exact .inl h3
            · obtain ⟨rfl, rfl⟩ := isBer_prefix_free (berValue_isBer hb') (berValue_isBer h1) hr
              obtain ⟨rfl, rfl, rfl⟩ := berValue_unique hb' h1
              obtain ⟨rfl, rfl, rfl⟩ := berValue_unique hb'' h2
              exact .inr ⟨k, mapErr_ok.2 ((hd _ _ _ _ (by omega)).2 h3), h4⟩
      · rename_i hem
        rw [List.isEmpty_iff] at hem
        subst e'' e'
        refine (Res.settled_err _).traps.congr ⟨False.elim, ?_⟩
        generalize hr : p' ++ (p'' ++ rest'') = r
        rintro (⟨_, pk, ik, dk, ck, pv, iv, dv, cv, h1, h2, h3⟩ | ⟨_, pk, ik, dk, ck, pv, iv, dv, cv, k, h1, h2, h3, h4⟩) <;>
        · obtain ⟨rfl, h5⟩ := isBer_prefix_free (berValue_isBer hb') (berValue_isBer h1) hr
          rw [← List.append_nil pv] at h5
          exact hem (isBer_prefix_free (berValue_isBer hb'') (berValue_isBer h2) h5).2

theorem elemTrap_nil {R : Bytes → Bool → Bytes → α → Prop} {T : Bytes → Bool → Bytes → Prop} : ¬ ElemTrap R T [] := by
  generalize hc : ([] : Bytes) = c
  rintro (⟨p, id, d, raw, c, hv, _⟩ | ⟨p, id, d, raw, c, x, hv, _⟩) <;>
  · have h1 := berValue_length hv
    have h2 := congrArg List.length hc
    simp only [List.length_nil, List.length_append] at h2
    omega

theorem collect_traps {next : Bytes → Res (Option (α × Bytes))} {R : Bytes → Bool → Bytes → α → Prop} {T : Bytes → Bool → Bytes → Prop}
    (hn : Consumes isizeMax next)
    (hsome : ∀ (c : Bytes) x c', c.length ≤ isizeMax → (next c = .ok (some (x, c')) ↔
      ∃ p id indef raw, BerValue p id indef raw ∧ R id indef raw x ∧ c = p ++ c'))
    (hs : ∀ c : Bytes, c.length ≤ isizeMax → (next c).Traps (FirstTrap T c)) (insert : γ → α → γ) :
    ∀ (f : Nat) (c : Bytes) (ret : γ), c.length ≤ isizeMax → c.length < f → (collectLoop next insert f c ret).Traps (ElemTrap R T c) := by
  intro f
  induction f with
  | zero => intro c ret _ h; omega
  | succ f ih =>
    intro c ret hc hf
    rw [collectLoop]
    refine ((hs c hc).bind (Q := fun o => match o with
      | none => False
      | some (_, c') => ElemTrap R T c') fun o h => ?_).congr ?_
    · cases o with
      | none => exact (Res.settled_ok _).traps
      | some x =>
        obtain ⟨t, c'⟩ := x
        have := hn c t c' hc h
        exact ih c' _ (by omega) (by omega)
    · constructor
      · rintro (⟨p, id, d, raw, rest, hv, rfl, ht⟩ | ⟨o, h1, h2⟩)
        · exact .here p id d raw rest hv ht
        · cases o with
          | none => exact h2.elim
          | some x =>
            obtain ⟨x, c'⟩ := x
            obtain ⟨p, id, d, raw, hv, hx, rfl⟩ := (hsome c x c' hc).1 h1
            exact .later p id d raw c' x hv hx h2
      · rintro (⟨p, id, d, raw, c, hv, ht⟩ | ⟨p, id, d, raw, c', x, hv, hx, ht⟩)
        · exact .inl ⟨p, id, d, raw, c, hv, rfl, ht⟩
        · exact .inr ⟨some (x, c'), (hsome _ x c' hc).2 ⟨p, id, d, raw, hv, hx, rfl⟩, ht⟩

theorem collectBer_traps {d : De α} {R : Bytes → Bool → Bytes → α → Prop} {T : Bytes → Bool → Bytes → Prop} (hd : DecodesBer d R)
    (h : TrapsBer d T) (insert : γ → α → γ) (c : Bytes) (hc : c.length ≤ isizeMax) (ret : γ) :
    (collect (berToVal d) insert c ret).Traps (ElemTrap R T c) := by
  refine collect_traps (berToVal_consumes d) (fun c x c' hc => ?_) (fun c hc => berToVal_traps h c hc) insert _ c ret hc
    (by omega)
  rw [berToVal_some d c hc]
  refine exists_congr fun p => exists_congr fun id => exists_congr fun indef => exists_congr fun raw => and_congr_right fun hv => ?_
  refine and_congr_left fun e => hd _ _ _ _ ?_
  have := berValue_length hv
  have := congrArg List.length e
  rw [List.length_append] at this
  omega

theorem collectBerPairs_traps {dk : De α} {dv : De β} {K : Bytes → Bool → Bytes → α → Prop} {V : Bytes → Bool → Bytes → β → Prop}
    {TK TV : Bytes → Bool → Bytes → Prop} (hdk : DecodesBer dk K) (hdv : DecodesBer dv V) (hk : TrapsBer dk TK) (hv : TrapsBer dv TV)
    (insert : γ → α × β → γ) (c : Bytes) (hc : c.length ≤ isizeMax) (ret : γ) :
    (collect (berToKeyVal dk dv) insert c ret).Traps (ElemTrap (BerPair K V) (PairTrap K TK TV) c) := by
  refine collect_traps (berToKeyVal_consumes dk dv) (fun c x c' hc => ?_)
    (fun c hc => berToKeyVal_traps hdk hk hv c hc) insert _ c ret hc (by omega)
  rw [berToKeyVal_some dk dv c hc]
  refine exists_congr fun p => exists_congr fun id => exists_congr fun indef => exists_congr fun raw => and_congr_right fun hv => ?_
  refine and_congr_left fun e => Spec.BerPair.congr ?_ hdk hdv
  have := berValue_length hv
  have := congrArg List.length e
  rw [List.length_append] at this
  omega

theorem body_traps {m : Build} {indef : Bool} {raw : Bytes} {k : Bytes → Res α} {P : Bytes → Prop} (hl : raw.length ≤ isizeMax)
    (hk : ∀ c : Bytes, c.length ≤ isizeMax → (k c).Traps (P c)) :
    (excludeEoc m (lenOf indef raw) raw >>= k).Traps (∃ c, IsBody indef raw c ∧ P c) := by
  refine ((excludeEoc_settled m indef raw).traps.bind fun c h =>
    hk c (Nat.le_trans (isBody_length ((excludeEoc_iff m indef raw c).mp h)) hl)).congr ?_
  rw [false_or]
  exact exists_congr fun c => and_congr (excludeEoc_iff m indef raw c) Iff.rfl

theorem assert_traps (indef : Bool) (raw : Bytes) {k : Res α} (hk : k.Settled) :
    (debugAssert .debug ((lenOf indef raw).definite? == some raw.length) >>= fun _ => k).Traps (indef = true) := by
  cases indef with
  | false => simp only [debugAssert, lenOf, Length.definite?, beq_self_eq_true, if_true, Res.bind_ok]
             exact hk.traps.congr ⟨False.elim, (nomatch ·)⟩
  | true => exact ⟨⟨fun _ => rfl, fun _ => rfl⟩, (nomatch ·)⟩

theorem back_trapsBer {d : De β} {T : Bytes → Bool → Bytes → Prop} (h : TrapsBer d T) (g : Back β α) : TrapsBer (De.back d g) T := by
  intro id indef raw hl
  cases g with
  | from_ g => exact (h id indef raw hl).bindS fun _ _ => Res.settled_ok _
  | tryFrom g => exact (h id indef raw hl).bindS fun _ _ => convErr_settled _

theorem backField_traps {tmp : {δ : Type} → De δ → Bytes → Res (δ × Bytes)} {d : De β} {bytes : Bytes} {P : Prop}
    (h : (tmp d bytes).Traps P) (g : Back β α) : (deField tmp (backField d g) bytes).Traps P := by
  cases g with
  | from_ g => exact h.bindS fun _ _ => Res.settled_ok _
  | tryFrom g => exact h.bindS fun _ _ => (convErr_settled _).bind fun _ _ => Res.settled_ok _

theorem backFieldTransparent_traps {tmp : {δ : Type} → De δ → Res δ} {d : De β} {P : Prop} (h : (tmp d).Traps P) (g : Back β α) :
    (deFieldTransparent tmp (backField d g)).Traps P := by
  cases g with
  | from_ g => exact h.mapErr.bindS fun _ _ => Res.settled_ok _
  | tryFrom g => exact h.mapErr.bindS fun _ _ => convErr_settled _

theorem traps_field {R : Bytes → Bool → Bytes → β → Prop} {T : Bytes → Bool → Bytes → Prop} {Q : Bytes → Prop}
    {f : β × Bytes → Res γ} {x : Res (β × Bytes)} {bytes : Bytes}
    (hx : x.Traps (FirstTrap T bytes))
    (hv : ∀ v rest, x = .ok (v, rest) ↔ ∃ p id indef raw, BerValue p id indef raw ∧ R id indef raw v ∧ bytes = p ++ rest)
    (hf : ∀ v rest, x = .ok (v, rest) → (f (v, rest)).Traps (Q rest)) :
    (x >>= f).Traps (∃ p id indef raw c', BerValue p id indef raw ∧ bytes = p ++ c' ∧
      (T id indef raw ∨ (∃ v, R id indef raw v) ∧ Q c')) := by
  refine (hx.bind (Q := fun a => Q a.2) fun a e => hf a.1 a.2 e).congr ?_
  constructor
  · rintro (⟨p, id, d, raw, rest, h1, h2, h3⟩ | ⟨⟨v, rest⟩, h1, h2⟩)
    · exact ⟨p, id, d, raw, rest, h1, h2, .inl h3⟩
    · obtain ⟨p, id, d, raw, h3, h4, h5⟩ := (hv v rest).1 h1
      exact ⟨p, id, d, raw, rest, h3, h5, .inr ⟨⟨v, h4⟩, h2⟩⟩
  · rintro ⟨p, id, d, raw, rest, h1, h2, h3 | ⟨⟨v, h3⟩, h4⟩⟩
    · exact .inl ⟨p, id, d, raw, rest, h1, h2, h3⟩
    · exact .inr ⟨(v, rest), (hv v rest).2 ⟨p, id, d, raw, h1, h3, h2⟩, h4⟩

theorem tmp_iff {d : De β} {R : Bytes → Bool → Bytes → β → Prop} (hd : DecodesBer d R) (bytes : Bytes) (hl : bytes.length ≤ isizeMax)
    (v : β) (rest : Bytes) : berTmpVal d bytes = .ok (v, rest) ↔
      ∃ p id indef raw, BerValue p id indef raw ∧ R id indef raw v ∧ bytes = p ++ rest := by
  rw [berTmpVal_iff d bytes hl]
  refine exists_congr fun p => exists_congr fun id => exists_congr fun indef => exists_congr fun raw => and_congr_right fun hv => ?_
  refine and_congr_left fun e => hd _ _ _ _ ?_
  have := berValue_length hv
  have := congrArg List.length e
  rw [List.length_append] at this
  omega

mutual
/-- In debug builds `from_ber` of a type panics exactly on the values that meet a primitive of indefinite length. -/
theorem Ty.trapsBer (o : HashOrder) : {α : Type} → (t : Ty α) → t.deserializable → TrapsBer (Ty.de .debug o t) (t.berTrap o.order)
  | _, .bool, _ => fun id indef raw _ => by
    change (if id ≠ IdRef.boolean then _ else if (lenOf indef raw).eq .indefinite then _ else
      (debugAssert .debug ((lenOf indef raw).definite? == some raw.length) >>= fun _ => ContentsRef.toBoolBer raw)).Traps
      (id = [0x01] ∧ indef = true)
    rw [not_eq_indefinite, if_neg (c := false = true) (by simp)]
    exact (assert_traps indef raw (toBoolBer_settled raw)).guard.congr (and_congr not_not Iff.rfl)
  | _, .int t, _ => fun id indef raw _ => by
    change (if (lenOf indef raw).eq .indefinite then _ else
      (debugAssert .debug ((lenOf indef raw).definite? == some raw.length) >>= fun _ =>
        if id ≠ IdRef.integer then _ else ContentsRef.toInteger t raw)).Traps (indef = true)
    rw [not_eq_indefinite, if_neg (c := false = true) (by simp)]
    exact assert_traps indef raw (Res.Settled.guard fun _ => toInteger_settled t raw)
  | _, .string, _ => fun id indef raw _ => by
    change (if id ≠ IdRef.utf8String ∧ id ≠ IdRef.utf8StringConstructed then _ else
      if (lenOf indef raw).eq .indefinite then _ else
      (debugAssert .debug ((lenOf indef raw).definite? == some raw.length) >>= fun _ => strFromUtf8 raw)).Traps
      ((id = [0x0c] ∨ id = [0x2c]) ∧ indef = true)
    rw [not_eq_indefinite, if_neg (c := false = true) (by simp)]
    refine (assert_traps indef raw (strFromUtf8_settled raw)).guard.congr (and_congr ?_ Iff.rfl)
    rw [ne_eq, ne_eq, ← not_or, not_not]
    rfl
  | _, .octetString, _ => fun _ _ _ _ => (Res.Settled.guard fun _ => Res.Settled.guard fun _ => Res.settled_ok _).traps
  | _, .vec t, h => fun _ _ _ hl => (body_traps hl fun c hc =>
      collectBer_traps (Ty.fromBer_iff .debug o t h) (Ty.trapsBer o t h) _ c hc _).guard.congr (and_congr not_not Iff.rfl)
  | _, .linkedList t, h => fun _ _ _ hl => (body_traps hl fun c hc =>
      collectBer_traps (Ty.fromBer_iff .debug o t h) (Ty.trapsBer o t h) _ c hc _).guard.congr (and_congr not_not Iff.rfl)
  | _, .vecDeque t, h => fun _ _ _ hl => (body_traps hl fun c hc =>
      collectBer_traps (Ty.fromBer_iff .debug o t h) (Ty.trapsBer o t h) _ c hc _).guard.congr (and_congr not_not Iff.rfl)
  | _, .btreeSet _ _ _ t, h => fun _ _ _ hl => (body_traps hl fun c hc =>
      collectBer_traps (Ty.fromBer_iff .debug o t h) (Ty.trapsBer o t h) _ c hc _).guard.congr (and_congr not_not Iff.rfl)
  | _, .btreeMap _ _ _ k t, h => fun _ _ _ hl => (body_traps hl fun c hc =>
      collectBerPairs_traps (Ty.fromBer_iff .debug o k h.1) (Ty.fromBer_iff .debug o t h.2) (Ty.trapsBer o k h.1) (Ty.trapsBer o t h.2)
        _ c hc _).guard.congr (and_congr not_not Iff.rfl)
  | _, .hashSet _ t, h => fun _ _ _ hl => (body_traps hl fun c hc =>
      (collectBer_traps (Ty.fromBer_iff .debug o t h) (Ty.trapsBer o t h) _ c hc _).bindS fun _ _ => Res.settled_ok _).guard.congr
        (and_congr not_not Iff.rfl)
  | _, .hashMap _ k t, h => fun _ _ _ hl => (body_traps hl fun c hc =>
      (collectBerPairs_traps (Ty.fromBer_iff .debug o k h.1) (Ty.fromBer_iff .debug o t h.2) (Ty.trapsBer o k h.1) (Ty.trapsBer o t h.2)
        _ c hc _).bindS fun _ _ => Res.settled_ok _).guard.congr (and_congr not_not Iff.rfl)
  | _, .struct _ fs, h => fun _ indef raw hl => (Fields.trapsContents o fs h indef raw hl).guard.congr (and_congr not_not Iff.rfl)
  | _, .enum vs, h => fun id indef raw hl => Variants.trapsBer o vs h id indef raw hl
  | _, .transparent fs, h => fun id indef raw hl => by
    have e : De.transparent (Fields.de .debug o fs) = some _ := if_pos ((Fields.deCount_eq .debug o fs).trans h.1)
    change (((De.transparent (Fields.de .debug o fs)).getD
      (De.struct .debug [] (Fields.de .debug o fs))).fromBer id (lenOf indef raw) raw).Traps _
    rw [e]
    exact Fields.trapsOne o fs h.2 id indef raw hl
  | _, .conv t _ g, h => back_trapsBer (Ty.trapsBer o t h) g
  | _, .named t _ _ _ _, h => fun id d raw hl => (Ty.trapsBer o t h id d raw hl).bindS fun _ _ => Res.settled_ok _
  | _, .hole, _ => fun _ _ _ _ => (Res.settled_err _).traps
/-- The same for the contents of a struct or variant. -/
theorem Fields.trapsContents (o : HashOrder) : {γ : Type} → (fs : Fields γ) → fs.deserializable →
    (indef : Bool) → (raw : Bytes) → raw.length ≤ isizeMax →
    (fromBerContents .debug (Fields.de .debug o fs) (lenOf indef raw) raw).Traps (∃ c, IsBody indef raw c ∧ fs.berTrap o.order c)
  | _, fs, h, indef, raw, hl => by
    rw [fromBerContents, structContents_eq]
    exact body_traps hl fun c hc => (Fields.trapsBer o fs h c hc).bindS fun x _ => finish_settled x
/-- The same for fields. -/
theorem Fields.trapsBer (o : HashOrder) : {γ : Type} → (fs : Fields γ) → fs.deserializable →
    (bytes : Bytes) → bytes.length ≤ isizeMax → (deFields berTmpVal (Fields.de .debug o fs) bytes).Traps (fs.berTrap o.order bytes)
  | _, .nil, _, _, _ => (Res.settled_ok _).traps
  | _, .plain t r, h, bytes, hl => traps_field (berTmpVal_traps (Ty.trapsBer o t h.1) bytes hl)
      (tmp_iff (Ty.fromBer_iff .debug o t h.1) bytes hl) fun v rest hx =>
      (Fields.trapsBer o r h.2 rest (berTmpVal_length hl (v := v) hx)).bindS fun _ _ => Res.settled_ok _
  | _, .skip _ r, h, bytes, hl => (Fields.trapsBer o r h bytes hl).bindS fun _ _ => Res.settled_ok _
  | _, .skipSer t r, h, bytes, hl => traps_field (berTmpVal_traps (Ty.trapsBer o t h.1) bytes hl)
      (tmp_iff (Ty.fromBer_iff .debug o t h.1) bytes hl) fun v rest hx =>
      (Fields.trapsBer o r h.2 rest (berTmpVal_length hl (v := v) hx)).bindS fun _ _ => Res.settled_ok _
  | _, .skipDe _ _ r, h, bytes, hl => (Fields.trapsBer o r h bytes hl).bindS fun _ _ => Res.settled_ok _
  | _, .conv t _ g r, h, bytes, hl => by
    refine (traps_field (R := fun id d raw v => ∃ u, t.berVal false o.order id d raw u ∧ g.apply u = .ok v)
      (backField_traps (berTmpVal_traps (Ty.trapsBer o t h.1) bytes hl) g) (fun v rest => ?_) fun v rest hx =>
      (Fields.trapsBer o r h.2 rest (by
        obtain ⟨u, hu, _⟩ := (backField_de berTmpVal (Ty.de .debug o t) g bytes v rest).mp hx
        exact berTmpVal_length hl hu)).bindS fun _ _ => Res.settled_ok _).congr ?_
    · rw [backField_de]
      simp only [tmp_iff (Ty.fromBer_iff .debug o t h.1) bytes hl]
      constructor
      · rintro ⟨u, ⟨p, id, indef, raw, h1, h3, h4⟩, h5⟩; exact ⟨p, id, indef, raw, h1, ⟨u, h3, h5⟩, h4⟩
      · rintro ⟨p, id, indef, raw, h1, ⟨u, h3, h5⟩, h4⟩; exact ⟨u, ⟨p, id, indef, raw, h1, h3, h4⟩, h5⟩
    · refine exists_congr fun p => exists_congr fun id => exists_congr fun d => exists_congr fun raw => exists_congr fun c' =>
        and_congr Iff.rfl (and_congr Iff.rfl (or_congr Iff.rfl (and_congr exists_comm Iff.rfl)))
/-- The same for a transparent struct. -/
theorem Fields.trapsOne (o : HashOrder) : {γ : Type} → (fs : Fields γ) → fs.deserializable →
    (id : Bytes) → (indef : Bool) → (raw : Bytes) → raw.length ≤ isizeMax →
    (deFieldsTransparent (fun d => d.fromBer id (lenOf indef raw) raw) (Fields.de .debug o fs)).Traps (fs.berTrapOne o.order id indef raw)
  | _, .nil, _, _, _, _, _ => (Res.settled_ok _).traps
  | _, .plain t r, h, id, indef, raw, hl => ((Ty.trapsBer o t h.1 id indef raw hl).mapErr.bind fun _ _ =>
      (Fields.trapsOne o r h.2 id indef raw hl).bindS fun _ _ => Res.settled_ok _).congr (or_congr Iff.rfl (by
        rw [exists_and_right]
        simp only [mapErr_ok]
        exact and_congr (exists_congr fun v => Ty.fromBer_iff .debug o t h.1 id indef raw v hl) Iff.rfl))
  | _, .skip _ r, h, id, indef, raw, hl => (Fields.trapsOne o r h id indef raw hl).bindS fun _ _ => Res.settled_ok _
  | _, .skipSer t r, h, id, indef, raw, hl => ((Ty.trapsBer o t h.1 id indef raw hl).mapErr.bind fun _ _ =>
      (Fields.trapsOne o r h.2 id indef raw hl).bindS fun _ _ => Res.settled_ok _).congr (or_congr Iff.rfl (by
        rw [exists_and_right]
        simp only [mapErr_ok]
        exact and_congr (exists_congr fun v => Ty.fromBer_iff .debug o t h.1 id indef raw v hl) Iff.rfl))
  | _, .skipDe _ _ r, h, id, indef, raw, hl => (Fields.trapsOne o r h id indef raw hl).bindS fun _ _ => Res.settled_ok _
  | _, .conv t _ g r, h, id, indef, raw, hl =>
    ((backFieldTransparent_traps (tmp := fun d => d.fromBer id (lenOf indef raw) raw)
      (Ty.trapsBer o t h.1 id indef raw hl) g).bind fun _ _ =>
      (Fields.trapsOne o r h.2 id indef raw hl).bindS fun _ _ => Res.settled_ok _).congr (or_congr Iff.rfl (by
        rw [exists_and_right]
        simp only [backField_transparent]
        rw [exists_comm]
        exact and_congr (exists_congr fun v => exists_congr fun u => and_congr (Ty.fromBer_iff .debug o t h.1 id indef raw v hl) Iff.rfl) Iff.rfl))
/-- The same for an enum. -/
theorem Variants.trapsBer (o : HashOrder) : {ρ : Type} → (vs : Variants ρ) → vs.deserializable →
    (id : Bytes) → (indef : Bool) → (raw : Bytes) → raw.length ≤ isizeMax →
    ((Variants.de .debug o vs).pick id (fun fs => fromBerContents .debug fs (lenOf indef raw) raw)).Traps (vs.berTrap o.order id indef raw)
  | _, .nil, _, _, _, _, _ => (Res.settled_err _).traps
  | _, .cons i fs r, h, id, indef, raw, hl => by
    change (if id = i then _ else _ : Res _).Traps ((id = i ∧ ∃ c, IsBody indef raw c ∧ fs.berTrap o.order c) ∨ (id ≠ i ∧ _))
    split
    · rename_i e
      exact ((Fields.trapsContents o fs h.1 indef raw hl).bindS fun _ _ => Res.settled_ok _).congr (by simp [e])
    · rename_i e
      exact ((Variants.trapsBer o r h.2 id indef raw hl).bindS fun _ _ => Res.settled_ok _).congr (by simp [e])
end

end Bsn1
