import Verif.Lemmas.Ber
import Verif.Lemmas.IntOctets
import Verif.Spec.Decode
import Verif.Model.Types
/-!
# Lemmas on deserialization, for arbitrary `Deserialize` implementations
-/

namespace Bsn1
open Spec

variable {α β γ : Type}

/-! ### Errors with context -/

theorem mapErr_ok {x : Res α} {v : α} : mapErrContext x = .ok v ↔ x = .ok v := by
  cases x <;> simp [mapErrContext]

/-! ### The loop -/

/-- The successive results of `next`. -/
inductive Splits (next : Bytes → Res (Option (α × Bytes))) : Bytes → List α → Prop
  | nil (c : Bytes) : next c = .ok none → Splits next c []
  | cons (c c' : Bytes) (x : α) (xs : List α) : next c = .ok (some (x, c')) → Splits next c' xs → Splits next c (x :: xs)

/-- Each step consumes something, on inputs up to the length `n`. -/
def Consumes (n : Nat) (next : Bytes → Res (Option (α × Bytes))) : Prop :=
  ∀ c x c', c.length ≤ n → next c = .ok (some (x, c')) → c'.length < c.length

theorem collectLoop_iff {next : Bytes → Res (Option (α × Bytes))} {n : Nat} (hn : Consumes n next) (insert : γ → α → γ)
    (f : Nat) (c : Bytes) (hc : c.length ≤ n) (ret r : γ) (hf : c.length < f) :
    collectLoop next insert f c ret = .ok r ↔ ∃ xs, Splits next c xs ∧ r = xs.foldl insert ret := by
  induction f generalizing c ret with
  | zero => omega
  | succ f ih =>
    rw [collectLoop]
    constructor
    · intro h
      cases e : next c with
      | ok o =>
        rw [e, Res.bind_ok] at h
        cases o with
        | none => cases h; exact ⟨[], .nil c e, rfl⟩
        | some y =>
          obtain ⟨x, c'⟩ := y
          have := hn _ _ _ hc e
          obtain ⟨xs, h1, h2⟩ := (ih c' (by omega) (insert ret x) (by omega)).mp h
          exact ⟨x :: xs, .cons c c' x xs e h1, h2⟩
      | _ => rw [e] at h; cases h
    · rintro ⟨xs, h1, rfl⟩
      cases h1 with
      | nil _ e => rw [e]; rfl
      | cons _ c' x xs e h =>
        rw [e, Res.bind_ok]
        have := hn _ _ _ hc e
        exact (ih c' (by omega) (insert ret x) (by omega)).mpr ⟨xs, h, rfl⟩

theorem collect_iff {next : Bytes → Res (Option (α × Bytes))} {n : Nat} (hn : Consumes n next) (insert : γ → α → γ)
    (c : Bytes) (hc : c.length ≤ n) (ret r : γ) :
    collect next insert c ret = .ok r ↔ ∃ xs, Splits next c xs ∧ r = xs.foldl insert ret :=
  collectLoop_iff hn insert _ c hc ret r (by omega)

theorem foldl_append (xs ret : List α) : xs.foldl (fun ret t => ret ++ [t]) ret = ret ++ xs := by
  induction xs generalizing ret with
  | nil => simp
  | cons x r ih => rw [List.foldl_cons, ih]; simp

/-! ### DER elements -/

theorem derToVal_none (d : De α) (c : Bytes) : derToVal d c = .ok none ↔ c = [] := by
  cases c with
  | nil => simp [derToVal]
  | cons b r =>
    simp only [derToVal, List.isEmpty_cons, Bool.false_eq_true, if_false, reduceCtorEq, iff_false]
    intro h
    obtain ⟨_, _, h⟩ := Res.bind_eq_ok.mp h
    obtain ⟨⟨_, _, _⟩, _, h⟩ := Res.bind_eq_ok.mp h
    obtain ⟨_, _, h⟩ := Res.bind_eq_ok.mp h
    cases h

theorem derToVal_some (d : De α) (c : Bytes) (x : α) (c' : Bytes) : derToVal d c = .ok (some (x, c')) ↔
    ∃ id b, IsId id ∧ b.length < 2 ^ 64 ∧ d.fromDer id b = .ok x ∧ c = tlv id b ++ c' := by
  constructor
  · intro h
    rw [derToVal] at h
    split at h
    · cases h
    · rcases e : DerRef.parse c with ⟨r, rest⟩
      rw [e] at h
      simp only [] at h
      obtain ⟨der, h1, h⟩ := Res.bind_eq_ok.mp h
      obtain ⟨⟨id, l, b⟩, h2, h⟩ := Res.bind_eq_ok.mp h
      obtain ⟨y, h3, h⟩ := Res.bind_eq_ok.mp h
      cases h
      rw [mapErr_ok] at h1 h3
      subst h1
      obtain ⟨id', b', hid, hb, rfl, h5⟩ := DerRef_parse_ok e
      rw [disassemble_tlv hid hb] at h2
      cases h2
      exact ⟨_, _, hid, hb, h3, h5⟩
  · rintro ⟨id, b, hid, hb, h, rfl⟩
    have hne : (tlv id b ++ c').isEmpty = false := by
      cases hx : tlv id b ++ c' with
      | nil =>
        have := isId_length_pos hid
        have hl := congrArg List.length hx
        rw [List.length_append, tlv_length, List.length_nil] at hl
        omega
      | cons _ _ => rfl
    rw [derToVal, hne, DerRef_parse_tlv hid hb]
    simp only [Bool.false_eq_true, if_false, mapErrContext, Res.bind_ok, disassemble_tlv hid hb, h]
    rfl

theorem derToVal_consumes (n : Nat) (d : De α) : Consumes n (derToVal d) := by
  intro c x c' _ h
  obtain ⟨id, b, hid, _, _, rfl⟩ := (derToVal_some d c x c').mp h
  have := isId_length_pos hid
  rw [List.length_append, tlv_length]
  omega

theorem splits_der (d : De α) (c : Bytes) (xs : List α) :
    Splits (derToVal d) c xs ↔ DerElems (fun id b x => d.fromDer id b = .ok x) c xs := by
  constructor
  · intro h
    induction h with
    | nil c h => rw [(derToVal_none d c).mp h]; exact .nil
    | cons c c' x xs h _ ih =>
      obtain ⟨id, b, hid, hb, h1, rfl⟩ := (derToVal_some d c x c').mp h
      exact .cons id b c' x xs hid hb h1 ih
  · intro h
    induction h with
    | nil => exact .nil _ ((derToVal_none d []).mpr rfl)
    | cons id b c x xs hid hb h _ ih => exact .cons _ c x xs ((derToVal_some d _ x c).mpr ⟨id, b, hid, hb, h, rfl⟩) ih

theorem Spec.DerElems.mono {R R' : Bytes → Bytes → α → Prop} {c : Bytes} {xs : List α} (h : DerElems R c xs)
    (hr : ∀ id b x, R id b x → R' id b x) : DerElems R' c xs := by
  induction h with
  | nil => exact .nil
  | cons id b c x xs h1 h2 h3 _ ih => exact .cons id b c x xs h1 h2 (hr _ _ _ h3) ih

theorem Spec.DerElems.congr {R R' : Bytes → Bytes → α → Prop} {c : Bytes} {xs : List α}
    (hr : ∀ id b x, R id b x ↔ R' id b x) : DerElems R c xs ↔ DerElems R' c xs :=
  ⟨fun h => h.mono fun id b x => (hr id b x).mp, fun h => h.mono fun id b x => (hr id b x).mpr⟩

/-! ### DER pairs -/

theorem isId_sequence : IsId [0x30] := ⟨0, 1, 16, by decide, by decide, by decide +kernel⟩

theorem derToKeyVal_none (dk : De α) (dv : De β) (c : Bytes) : derToKeyVal dk dv c = .ok none ↔ c = [] := by
  cases c with
  | nil => simp [derToKeyVal]
  | cons b r =>
    simp only [derToKeyVal, List.isEmpty_cons, Bool.false_eq_true, if_false, reduceCtorEq, iff_false]
    intro h
    obtain ⟨_, _, h⟩ := Res.bind_eq_ok.mp h
    obtain ⟨_, _, h⟩ := Res.bind_eq_ok.mp h
    split at h
    · cases h
    · obtain ⟨_, _, h⟩ := Res.bind_eq_ok.mp h
      obtain ⟨_, _, h⟩ := Res.bind_eq_ok.mp h
      obtain ⟨_, _, h⟩ := Res.bind_eq_ok.mp h
      split at h
      · obtain ⟨⟨_, _, _⟩, _, h⟩ := Res.bind_eq_ok.mp h
        obtain ⟨_, _, h⟩ := Res.bind_eq_ok.mp h
        obtain ⟨⟨_, _, _⟩, _, h⟩ := Res.bind_eq_ok.mp h
        obtain ⟨_, _, h⟩ := Res.bind_eq_ok.mp h
        cases h
      · cases h

theorem tlv_nonempty {id : Bytes} (hid : IsId id) (b r : Bytes) : (tlv id b ++ r).isEmpty = false := by
  cases hx : tlv id b ++ r with
  | nil =>
    have := isId_length_pos hid
    have hl := congrArg List.length hx
    rw [List.length_append, tlv_length, List.length_nil] at hl
    omega
  | cons _ _ => rfl

theorem derToKeyVal_some (dk : De α) (dv : De β) (c : Bytes) (x : α × β) (c' : Bytes) :
    derToKeyVal dk dv c = .ok (some (x, c')) ↔
    ∃ id b, IsId id ∧ b.length < 2 ^ 64 ∧
      DerPair (fun id b x => dk.fromDer id b = .ok x) (fun id b x => dv.fromDer id b = .ok x) id b x ∧
      c = tlv id b ++ c' := by
  constructor
  · intro h
    rw [derToKeyVal] at h
    split at h
    · cases h
    · rcases e : DerRef.parse c with ⟨r, rest⟩
      rw [e] at h
      simp only [] at h
      obtain ⟨pair, h1, g1⟩ := Res.bind_eq_ok.mp h
      clear h
      rw [mapErr_ok] at h1
      obtain ⟨id, b, hid, hb, rfl, h5⟩ := DerRef_parse_ok (h1 ▸ e)
      rw [DerRef_id_tlv hid, Res.bind_ok, DerRef_contents_tlv hid hb, Res.bind_ok] at g1
      split at g1
      · cases g1
      · rename_i hseq
        simp only [ne_eq, not_not] at hseq
        rcases e1 : DerRef.parse b with ⟨r1, rest1⟩
        rcases e2 : DerRef.parse rest1 with ⟨r2, rest2⟩
        rw [e1] at g1
        simp only [e2] at g1
        obtain ⟨key, hk, g2⟩ := Res.bind_eq_ok.mp g1
        obtain ⟨val, hv, g3⟩ := Res.bind_eq_ok.mp g2
        clear g1 g2
        rw [mapErr_ok] at hk hv
        obtain ⟨ik, ck, hik, hck, rfl, h6⟩ := DerRef_parse_ok (hk ▸ e1)
        obtain ⟨iv, cv, hiv, hcv, rfl, h7⟩ := DerRef_parse_ok (hv ▸ e2)
        split at g3
        · rename_i hemp
          rw [disassemble_tlv hik hck, Res.bind_ok, disassemble_tlv hiv hcv] at g3
          simp only [Res.bind_ok] at g3
          obtain ⟨k, h8, g4⟩ := Res.bind_eq_ok.mp g3
          obtain ⟨v, h9, g5⟩ := Res.bind_eq_ok.mp g4
          cases g5
          rw [mapErr_ok] at h8 h9
          rw [List.isEmpty_iff] at hemp
          rw [hemp, List.append_nil] at h7
          rw [h7] at h6
          refine ⟨id, b, hid, hb, ?_, h5⟩
          rw [hseq, h6]
          exact .mk ik ck iv cv k v hik hck h8 hiv hcv h9
        · cases g3
  · rintro ⟨id, b, hid, hb, h, rfl⟩
    cases h with
    | mk ik ck iv cv k v hik hck hk hiv hcv hv =>
      have e1 := DerRef_parse_tlv hik hck (tlv iv cv)
      have e2 := DerRef_parse_tlv hiv hcv []
      rw [List.append_nil] at e2
      rw [derToKeyVal, tlv_nonempty hid, DerRef_parse_tlv hid hb]
      simp only [Bool.false_eq_true, if_false, mapErrContext, Res.bind_ok]
      rw [DerRef_id_tlv hid, Res.bind_ok, if_neg (by simp [IdRef.sequence]), DerRef_contents_tlv hid hb, Res.bind_ok, e1]
      simp only [Res.bind_ok]
      rw [e2]
      simp only [Res.bind_ok, List.isEmpty_nil, if_true]
      rw [disassemble_tlv hik hck, Res.bind_ok, disassemble_tlv hiv hcv]
      simp only [Res.bind_ok]
      rw [hk, hv]
      rfl

theorem derToKeyVal_consumes (n : Nat) (dk : De α) (dv : De β) : Consumes n (derToKeyVal dk dv) := by
  intro c x c' _ h
  obtain ⟨id, b, hid, _, _, rfl⟩ := (derToKeyVal_some dk dv c x c').mp h
  have := isId_length_pos hid
  rw [List.length_append, tlv_length]
  omega

theorem splits_derPairs (dk : De α) (dv : De β) (c : Bytes) (xs : List (α × β)) :
    Splits (derToKeyVal dk dv) c xs ↔
      DerElems (DerPair (fun id b x => dk.fromDer id b = .ok x) (fun id b x => dv.fromDer id b = .ok x)) c xs := by
  constructor
  · intro h
    induction h with
    | nil c h => rw [(derToKeyVal_none dk dv c).mp h]; exact .nil
    | cons c c' x xs h _ ih =>
      obtain ⟨id, b, hid, hb, h1, rfl⟩ := (derToKeyVal_some dk dv c x c').mp h
      exact .cons id b c' x xs hid hb h1 ih
  · intro h
    induction h with
    | nil => exact .nil _ ((derToKeyVal_none dk dv []).mpr rfl)
    | cons id b c x xs hid hb h _ ih =>
      exact .cons _ c x xs ((derToKeyVal_some dk dv _ x c).mpr ⟨id, b, hid, hb, h, rfl⟩) ih

theorem Spec.DerPair.mono {K K' : Bytes → Bytes → α → Prop} {V V' : Bytes → Bytes → β → Prop} {id b : Bytes} {x : α × β}
    (h : DerPair K V id b x) (hk : ∀ id b x, K id b x → K' id b x) (hv : ∀ id b x, V id b x → V' id b x) :
    DerPair K' V' id b x := by
  cases h with
  | mk ik ck iv cv k v h1 h2 h3 h4 h5 h6 => exact .mk ik ck iv cv k v h1 h2 (hk _ _ _ h3) h4 h5 (hv _ _ _ h6)

theorem Spec.DerPair.congr {K K' : Bytes → Bytes → α → Prop} {V V' : Bytes → Bytes → β → Prop} {id b : Bytes} {x : α × β}
    (hk : ∀ id b x, K id b x ↔ K' id b x) (hv : ∀ id b x, V id b x ↔ V' id b x) :
    DerPair K V id b x ↔ DerPair K' V' id b x :=
  ⟨fun h => h.mono (fun a b c => (hk a b c).mp) fun a b c => (hv a b c).mp,
    fun h => h.mono (fun a b c => (hk a b c).mpr) fun a b c => (hv a b c).mpr⟩

/-! ### BER values -/

/-- The length of a value as the model passes it to `from_ber`. -/
def lenOf (indef : Bool) (raw : Bytes) : Length :=
  match indef with
  | false => .definite raw.length
  | true => .indefinite

theorem berValue_isBer {p id raw : Bytes} {indef : Bool} (h : BerValue p id indef raw) : IsBer p := by
  obtain ⟨hid, h⟩ := h
  cases indef with
  | false => obtain ⟨h1, rfl⟩ := h; exact .definite id raw hid h1
  | true =>
    obtain ⟨c, h1, rfl, rfl⟩ := h
    rw [← List.append_assoc]
    exact .indefinite id c hid h1

theorem isBer_berValue {p : Bytes} (h : IsBer p) : ∃ id indef raw, BerValue p id indef raw := by
  cases h with
  | definite id c hid hc => exact ⟨id, false, c, hid, hc, rfl⟩
  | indefinite id c hid hc => exact ⟨id, true, c ++ eoc, hid, c, hc, rfl, by simp⟩

theorem berValue_disassemble {p id raw : Bytes} {indef : Bool} (h : BerValue p id indef raw) :
    BerRef.disassemble p = .ok (id, lenOf indef raw, raw) := by
  obtain ⟨hid, h⟩ := h
  cases indef with
  | false =>
    obtain ⟨h1, rfl⟩ := h
    exact disassemble_tlv hid h1
  | true =>
    obtain ⟨c, h1, rfl, rfl⟩ := h
    exact berDisassemble_indef hid _

theorem berValue_id {p id raw : Bytes} {indef : Bool} (h : BerValue p id indef raw) : BerRef.id p = .ok id := by
  have e := berValue_disassemble h
  rw [BerRef.disassemble] at e
  obtain ⟨⟨i, bs⟩, h1, h2⟩ := Res.bind_eq_ok.mp e
  simp only [] at h2
  obtain ⟨⟨l, r⟩, h3, h4⟩ := Res.bind_eq_ok.mp h2
  injection h4 with h5
  injection h5 with h5 _
  rw [BerRef.id, h1, ← h5]
  rfl

theorem berValue_contents {p id raw : Bytes} {indef : Bool} (h : BerValue p id indef raw) :
    BerRef.contents p = .ok raw := by
  rw [BerRef.contents, berValue_disassemble h]
  rfl

theorem berValue_length {p id raw : Bytes} {indef : Bool} (h : BerValue p id indef raw) :
    raw.length + 2 ≤ p.length := by
  obtain ⟨hid, h⟩ := h
  have := isId_length_pos hid
  cases indef with
  | false =>
    obtain ⟨h1, rfl⟩ := h
    have : 0 < (lenOctets raw.length).length := List.length_pos_iff.mpr (lenOctets_ne_nil _)
    rw [tlv_length]
    omega
  | true =>
    obtain ⟨c, h1, rfl, rfl⟩ := h
    simp only [indefOctets, List.length_append, List.length_cons, List.length_nil]
    omega

/-- The parts of a BER value are determined. -/
theorem berValue_unique {p id id' raw raw' : Bytes} {indef indef' : Bool} (h : BerValue p id indef raw)
    (h' : BerValue p id' indef' raw') : id = id' ∧ indef = indef' ∧ raw = raw' := by
  have e := berValue_disassemble h
  rw [berValue_disassemble h'] at e
  simp only [Res.ok.injEq, Prod.mk.injEq] at e
  obtain ⟨h1, h2, h3⟩ := e
  refine ⟨h1.symm, ?_, h3.symm⟩
  cases indef <;> cases indef' <;> simp [lenOf] at h2 ⊢

theorem berToVal_none (d : De α) (c : Bytes) : berToVal d c = .ok none ↔ c = [] := by
  cases c with
  | nil => simp [berToVal]
  | cons b r =>
    simp only [berToVal, List.isEmpty_cons, Bool.false_eq_true, if_false, reduceCtorEq, iff_false]
    intro h
    obtain ⟨_, _, h⟩ := Res.bind_eq_ok.mp h
    obtain ⟨⟨_, _, _⟩, _, h⟩ := Res.bind_eq_ok.mp h
    obtain ⟨_, _, h⟩ := Res.bind_eq_ok.mp h
    cases h

theorem ber_nonempty {p id raw : Bytes} {indef : Bool} (h : BerValue p id indef raw) (r : Bytes) :
    (p ++ r).isEmpty = false := by
  cases hx : p ++ r with
  | nil =>
    have := berValue_length h
    have hl := congrArg List.length hx
    rw [List.length_append, List.length_nil] at hl
    omega
  | cons _ _ => rfl

theorem berToVal_some (d : De α) (c : Bytes) (hlen : c.length ≤ isizeMax) (x : α) (c' : Bytes) :
    berToVal d c = .ok (some (x, c')) ↔
    ∃ p id indef raw, BerValue p id indef raw ∧ d.fromBer id (lenOf indef raw) raw = .ok x ∧ c = p ++ c' := by
  constructor
  · intro h
    rw [berToVal] at h
    split at h
    · cases h
    · rcases e : BerRef.parse c with ⟨r, rest⟩
      rw [e] at h
      simp only [] at h
      obtain ⟨ber, h1, h⟩ := Res.bind_eq_ok.mp h
      obtain ⟨⟨id, l, b⟩, h2, h⟩ := Res.bind_eq_ok.mp h
      obtain ⟨y, h3, h⟩ := Res.bind_eq_ok.mp h
      cases h
      rw [mapErr_ok] at h1 h3
      obtain ⟨hb, h5⟩ := BerRef_parse_sound hlen (h1 ▸ e)
      obtain ⟨id', indef, raw, hv⟩ := isBer_berValue hb
      rw [berValue_disassemble hv] at h2
      cases h2
      exact ⟨ber, _, indef, _, hv, h3, h5⟩
  · rintro ⟨p, id, indef, raw, hv, h, rfl⟩
    rw [berToVal, ber_nonempty hv, BerRef_parse_ok (berValue_isBer hv) hlen]
    simp only [Bool.false_eq_true, if_false, mapErrContext, Res.bind_ok, berValue_disassemble hv, h]
    rfl

theorem berToVal_consumes (d : De α) : Consumes isizeMax (berToVal d) := by
  intro c x c' hc h
  obtain ⟨p, id, indef, raw, hv, _, rfl⟩ := (berToVal_some d c hc x c').mp h
  have := berValue_length hv
  rw [List.length_append]
  omega

theorem splits_ber (d : De α) (c : Bytes) (hlen : c.length ≤ isizeMax) (xs : List α) :
    Splits (berToVal d) c xs ↔ BerElems (fun id indef raw x => d.fromBer id (lenOf indef raw) raw = .ok x) c xs := by
  constructor
  · intro h
    induction h with
    | nil c h => rw [(berToVal_none d c).mp h]; exact .nil
    | cons c c' x xs h _ ih =>
      obtain ⟨p, id, indef, raw, hv, h1, rfl⟩ := (berToVal_some d c hlen x c').mp h
      rw [List.length_append] at hlen
      exact .cons p id indef raw c' x xs hv h1 (ih (by omega))
  · intro h
    induction h with
    | nil => exact .nil _ ((berToVal_none d []).mpr rfl)
    | cons p id indef raw c x xs hv h _ ih =>
      have hlen' := hlen
      rw [List.length_append] at hlen'
      exact .cons _ c x xs ((berToVal_some d _ hlen x c).mpr ⟨p, id, indef, raw, hv, h, rfl⟩) (ih (by omega))

theorem Spec.BerElems.mono {R R' : Bytes → Bool → Bytes → α → Prop} {c : Bytes} {xs : List α} (h : BerElems R c xs)
    (hlen : c.length ≤ isizeMax) (hr : ∀ id indef raw x, raw.length ≤ isizeMax → R id indef raw x → R' id indef raw x) :
    BerElems R' c xs := by
  induction h with
  | nil => exact .nil
  | cons p id indef raw c x xs hv h _ ih =>
    rw [List.length_append] at hlen
    have := berValue_length hv
    exact .cons p id indef raw c x xs hv (hr _ _ _ _ (by omega) h) (ih (by omega))

theorem Spec.BerElems.congr {R R' : Bytes → Bool → Bytes → α → Prop} {c : Bytes} {xs : List α}
    (hlen : c.length ≤ isizeMax) (hr : ∀ id indef raw x, raw.length ≤ isizeMax → (R id indef raw x ↔ R' id indef raw x)) :
    BerElems R c xs ↔ BerElems R' c xs :=
  ⟨fun h => h.mono hlen fun a b c d e => (hr a b c d e).mp, fun h => h.mono hlen fun a b c d e => (hr a b c d e).mpr⟩

/-! ### BER pairs -/

theorem berToKeyVal_none (dk : De α) (dv : De β) (c : Bytes) : berToKeyVal dk dv c = .ok none ↔ c = [] := by
  cases c with
  | nil => simp [berToKeyVal]
  | cons b r =>
    simp only [berToKeyVal, List.isEmpty_cons, Bool.false_eq_true, if_false, reduceCtorEq, iff_false]
    intro h
    obtain ⟨_, _, h⟩ := Res.bind_eq_ok.mp h
    obtain ⟨_, _, h⟩ := Res.bind_eq_ok.mp h
    split at h
    · cases h
    · obtain ⟨_, _, h⟩ := Res.bind_eq_ok.mp h
      obtain ⟨_, _, h⟩ := Res.bind_eq_ok.mp h
      obtain ⟨_, _, h⟩ := Res.bind_eq_ok.mp h
      split at h
      · obtain ⟨⟨_, _, _⟩, _, h⟩ := Res.bind_eq_ok.mp h
        obtain ⟨_, _, h⟩ := Res.bind_eq_ok.mp h
        obtain ⟨⟨_, _, _⟩, _, h⟩ := Res.bind_eq_ok.mp h
        obtain ⟨_, _, h⟩ := Res.bind_eq_ok.mp h
        cases h
      · cases h

theorem berToKeyVal_some (dk : De α) (dv : De β) (c : Bytes) (hlen : c.length ≤ isizeMax) (x : α × β) (c' : Bytes) :
    berToKeyVal dk dv c = .ok (some (x, c')) ↔
    ∃ p id indef raw, BerValue p id indef raw ∧
      BerPair (fun id indef raw x => dk.fromBer id (lenOf indef raw) raw = .ok x)
        (fun id indef raw x => dv.fromBer id (lenOf indef raw) raw = .ok x) id indef raw x ∧
      c = p ++ c' := by
  constructor
  · intro h
    rw [berToKeyVal] at h
    split at h
    · cases h
    · rcases e : BerRef.parse c with ⟨r, rest⟩
      rw [e] at h
      simp only [] at h
      obtain ⟨pair, h1, g1⟩ := Res.bind_eq_ok.mp h
      clear h
      rw [mapErr_ok] at h1
      obtain ⟨hb, h5⟩ := BerRef_parse_sound hlen (h1 ▸ e)
      obtain ⟨id, indef, raw, hv⟩ := isBer_berValue hb
      have hl := berValue_length hv
      have hraw : raw.length ≤ isizeMax := by rw [h5, List.length_append] at hlen; omega
      rw [berValue_id hv, Res.bind_ok, berValue_contents hv, Res.bind_ok] at g1
      split at g1
      · cases g1
      · rename_i hseq
        simp only [ne_eq, not_not] at hseq
        rcases e1 : BerRef.parse raw with ⟨r1, rest1⟩
        rcases e2 : BerRef.parse rest1 with ⟨r2, rest2⟩
        rw [e1] at g1
        simp only [e2] at g1
        obtain ⟨key, hk, g2⟩ := Res.bind_eq_ok.mp g1
        obtain ⟨val, hw, g3⟩ := Res.bind_eq_ok.mp g2
        clear g1 g2
        rw [mapErr_ok] at hk hw
        obtain ⟨hbk, h6⟩ := BerRef_parse_sound hraw (hk ▸ e1)
        obtain ⟨hbv, h7⟩ := BerRef_parse_sound (by rw [h6, List.length_append] at hraw; omega) (hw ▸ e2)
        obtain ⟨ik, indk, ck, hvk⟩ := isBer_berValue hbk
        obtain ⟨iv, indv, cv, hvv⟩ := isBer_berValue hbv
        split at g3
        · rename_i hemp
          rw [berValue_disassemble hvk, Res.bind_ok, berValue_disassemble hvv] at g3
          simp only [Res.bind_ok] at g3
          obtain ⟨k, h8, g4⟩ := Res.bind_eq_ok.mp g3
          obtain ⟨v, h9, g5⟩ := Res.bind_eq_ok.mp g4
          cases g5
          rw [mapErr_ok] at h8 h9
          rw [List.isEmpty_iff] at hemp
          rw [hemp, List.append_nil] at h7
          rw [h7] at h6
          refine ⟨pair, id, indef, raw, hv, ?_, h5⟩
          rw [hseq, h6]
          exact .mk indef key ik indk ck val iv indv cv k v hvk h8 hvv h9
        · cases g3
  · rintro ⟨p, id, indef, raw, hb, h, rfl⟩
    have hl := berValue_length hb
    have hraw : raw.length ≤ isizeMax := by rw [List.length_append] at hlen; omega
    cases h with
    | mk indef pk ik dk' ck pv iv dv' cv k v hik hk hiv hv =>
      have e1 := BerRef_parse_ok (berValue_isBer hik) (rest := pv) hraw
      have e2 := BerRef_parse_ok (berValue_isBer hiv) (rest := [])
        (by rw [List.length_append] at hraw ⊢; simp only [List.length_nil]; omega)
      rw [List.append_nil] at e2
      rw [berToKeyVal, ber_nonempty hb, BerRef_parse_ok (berValue_isBer hb) hlen]
      simp only [Bool.false_eq_true, if_false, mapErrContext, Res.bind_ok]
      rw [berValue_id hb, Res.bind_ok, if_neg (by simp [IdRef.sequence]), berValue_contents hb, Res.bind_ok, e1]
      simp only [Res.bind_ok]
      rw [e2]
      simp only [Res.bind_ok, List.isEmpty_nil, if_true]
      rw [berValue_disassemble hik, Res.bind_ok, berValue_disassemble hiv]
      simp only [Res.bind_ok]
      rw [hk, hv]
      rfl

theorem berToKeyVal_consumes (dk : De α) (dv : De β) : Consumes isizeMax (berToKeyVal dk dv) := by
  intro c x c' hc h
  obtain ⟨p, id, indef, raw, hv, _, rfl⟩ := (berToKeyVal_some dk dv c hc x c').mp h
  have := berValue_length hv
  rw [List.length_append]
  omega

theorem splits_berPairs (dk : De α) (dv : De β) (c : Bytes) (hlen : c.length ≤ isizeMax) (xs : List (α × β)) :
    Splits (berToKeyVal dk dv) c xs ↔
      BerElems (BerPair (fun id indef raw x => dk.fromBer id (lenOf indef raw) raw = .ok x)
        (fun id indef raw x => dv.fromBer id (lenOf indef raw) raw = .ok x)) c xs := by
  constructor
  · intro h
    induction h with
    | nil c h => rw [(berToKeyVal_none dk dv c).mp h]; exact .nil
    | cons c c' x xs h _ ih =>
      obtain ⟨p, id, indef, raw, hv, h1, rfl⟩ := (berToKeyVal_some dk dv c hlen x c').mp h
      rw [List.length_append] at hlen
      exact .cons p id indef raw c' x xs hv h1 (ih (by omega))
  · intro h
    induction h with
    | nil => exact .nil _ ((berToKeyVal_none dk dv []).mpr rfl)
    | cons p id indef raw c x xs hv h _ ih =>
      have hlen' := hlen
      rw [List.length_append] at hlen'
      exact .cons _ c x xs ((berToKeyVal_some dk dv _ hlen x c).mpr ⟨p, id, indef, raw, hv, h, rfl⟩) (ih (by omega))

theorem Spec.BerPair.mono {K K' : Bytes → Bool → Bytes → α → Prop} {V V' : Bytes → Bool → Bytes → β → Prop} {id : Bytes}
    {indef : Bool} {raw : Bytes} {x : α × β} (hlen : raw.length ≤ isizeMax)
    (h : BerPair K V id indef raw x) (hk : ∀ id d raw x, raw.length ≤ isizeMax → K id d raw x → K' id d raw x)
    (hv : ∀ id d raw x, raw.length ≤ isizeMax → V id d raw x → V' id d raw x) :
    BerPair K' V' id indef raw x := by
  cases h with
  | mk indef pk ik dk' ck pv iv dv' cv k v h1 h2 h3 h4 =>
    have := berValue_length h1
    have := berValue_length h3
    rw [List.length_append] at hlen
    exact .mk indef pk ik dk' ck pv iv dv' cv k v h1 (hk _ _ _ _ (by omega) h2) h3 (hv _ _ _ _ (by omega) h4)

theorem Spec.BerPair.congr {K K' : Bytes → Bool → Bytes → α → Prop} {V V' : Bytes → Bool → Bytes → β → Prop} {id : Bytes}
    {indef : Bool} {raw : Bytes} {x : α × β} (hlen : raw.length ≤ isizeMax)
    (hk : ∀ id d raw x, raw.length ≤ isizeMax → (K id d raw x ↔ K' id d raw x))
    (hv : ∀ id d raw x, raw.length ≤ isizeMax → (V id d raw x ↔ V' id d raw x)) :
    BerPair K V id indef raw x ↔ BerPair K' V' id indef raw x :=
  ⟨fun h => h.mono hlen (fun a b c d e => (hk a b c d e).mp) fun a b c d e => (hv a b c d e).mp,
    fun h => h.mono hlen (fun a b c d e => (hk a b c d e).mpr) fun a b c d e => (hv a b c d e).mpr⟩

/-! ### End of contents -/

theorem excludeEoc_iff (m : Build) (indef : Bool) (raw c : Bytes) :
    excludeEoc m (lenOf indef raw) raw = .ok c ↔ IsBody indef raw c := by
  cases indef with
  | false =>
    have : debugAssert m (raw.length == raw.length) = .ok () := by cases m <;> simp [debugAssert]
    simp only [excludeEoc, lenOf, this, Res.bind_ok, Res.pure_eq, Res.ok.injEq, IsBody]
  | true =>
    simp only [excludeEoc, lenOf, IsBody]
    constructor
    · intro h
      split at h
      · rename_i hs
        rw [List.isSuffixOf_iff_suffix] at hs
        obtain ⟨c', rfl⟩ := hs
        rw [List.length_append, Nat.add_sub_cancel, sliceTo] at h
        split at h
        · cases h; simp [BerRef.eoc, eoc]
        · cases h
      · cases h
    · rintro rfl
      have hs : BerRef.eoc.isSuffixOf (c ++ eoc) = true := by
        rw [List.isSuffixOf_iff_suffix]; exact ⟨c, rfl⟩
      have hl : (c ++ eoc).length - BerRef.eoc.length = c.length := by
        rw [List.length_append]; simp [BerRef.eoc, eoc]
      rw [if_pos hs, hl, sliceTo, if_pos (by simp)]
      simp

theorem structContents_eq (m : Build) (length : Length) (contents : Bytes) :
    structContents m length contents = excludeEoc m length contents := by
  cases length <;> rfl

theorem isBody_length {indef : Bool} {raw c : Bytes} (h : IsBody indef raw c) : c.length ≤ raw.length := by
  cases indef with
  | false => cases h; exact Nat.le_refl _
  | true => cases h; rw [List.length_append]; omega

end Bsn1
