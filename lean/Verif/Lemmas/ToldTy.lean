import Verif.Lemmas.Told
/-!
# The messages lead to the fault
-/

namespace Bsn1
open Spec

/-! ### Errors of a result -/

/-- The errors, with their messages, are exactly `E`. -/
def TRes.Errs (x : TRes α) (E : Told → Prop) : Prop := ∀ t, x = .err t ↔ E t

theorem TRes.Errs.congr {x : TRes α} {E E' : Told → Prop} (h : x.Errs E) (he : ∀ t, E t ↔ E' t) : x.Errs E' :=
  fun t => (h t).trans (he t)

theorem TRes.errs_ok (a : α) : (TRes.ok a).Errs fun _ => False := fun _ => ⟨(nomatch ·), False.elim⟩

theorem TRes.errs_err (t0 : Told) : (TRes.err t0 : TRes α).Errs (· = t0) := fun t => by rw [TRes.err.injEq]; exact eq_comm

theorem TRes.errs_of {x : Res α} {E : Error → Prop} (h : x.Errs E) : (TRes.of x).Errs (hereIs E) := by
  intro t
  cases x with
  | err e0 =>
    change TRes.err (here e0) = _ ↔ _
    rw [TRes.err.injEq]
    constructor
    · rintro rfl; exact ⟨e0, rfl, (h e0).1 rfl⟩
    · rintro ⟨e, rfl, he⟩; have := (h e).2 he; cases this; rfl
  | _ => exact ⟨(nomatch ·), fun ⟨e, _, he⟩ => nomatch (h e).2 he⟩

theorem TRes.Errs.bind {x : TRes α} {f : α → TRes β} {E : Told → Prop} {Q : α → Told → Prop} (hx : x.Errs E)
    (hf : ∀ a, x = .ok a → (f a).Errs (Q a)) : (x >>= f).Errs fun t => E t ∨ ∃ a, x = .ok a ∧ Q a t := by
  intro t
  have he := hx t
  cases x with
  | ok a =>
    rw [TRes.bind_ok, hf a rfl t]
    constructor
    · exact fun h => .inr ⟨a, rfl, h⟩
    · rintro (h | ⟨b, h1, h2⟩)
      · exact nomatch he.2 h
      · cases h1; exact h2
  | err e0 =>
    constructor
    · intro h
      exact .inl (he.1 (by cases h; rfl))
    · rintro (h | ⟨b, h1, _⟩)
      · have := he.2 h; cases this; rfl
      · cases h1
  | panic =>
    constructor
    · intro h; cases h
    · rintro (h | ⟨b, h1, _⟩)
      · exact nomatch he.2 h
      · cases h1
  | ub =>
    constructor
    · intro h; cases h
    · rintro (h | ⟨b, h1, _⟩)
      · exact nomatch he.2 h
      · cases h1

theorem TRes.Errs.bindOk {x : TRes α} {f : α → TRes β} {E : Told → Prop} (hx : x.Errs E) (hf : ∀ a, ∃ b, f a = .ok b) : (x >>= f).Errs E :=
  (hx.bind (Q := fun _ _ => False) fun a _ => by obtain ⟨b, hb⟩ := hf a; rw [hb]; exact TRes.errs_ok b).congr fun e =>
    ⟨fun h => h.elim id fun ⟨_, _, e⟩ => e.elim, .inl⟩

theorem TRes.Errs.mapErr {x : TRes α} {E : Told → Prop} (hx : x.Errs E) (msg : String) :
    (x.mapErrContext msg).Errs fun t => ∃ t', t = within msg t' ∧ E t' := by
  intro t
  cases x with
  | err t0 =>
    change TRes.err (within msg t0) = _ ↔ _
    rw [TRes.err.injEq]
    constructor
    · rintro rfl; exact ⟨t0, rfl, (hx t0).1 rfl⟩
    · rintro ⟨e', rfl, h⟩
      have := (hx e').2 h
      cases this; rfl
  | _ => exact ⟨(nomatch ·), (by rintro ⟨e', _, h⟩; exact nomatch (hx e').2 h)⟩

theorem TRes.Errs.tag {p q : Prop} [Decidable p] {x : TRes α} {E : Told → Prop} (hx : x.Errs E) (h : p ↔ ¬ q) :
    (if p then .err ⟨.unmatchedId, []⟩ else x).Errs (tagTold q E) := by
  by_cases hq : q
  · rw [if_neg (by rw [h]; exact not_not.2 hq)]
    exact hx.congr fun t => by simp [tagTold, hq]
  · rw [if_pos (h.2 hq)]
    exact (TRes.errs_err _).congr fun t => by simp [tagTold, hq, here]

/-! ### The messages -/

theorem noElement_der (n : Nat) : Message.derAt (n + 1) = Rules.noElement .der n :=
  congrArg (· ++ toString n) (show "Failed to parse DER at index " = "Failed to parse " ++ "DER" ++ " at index " by decide +kernel)

theorem noElement_ber (n : Nat) (lax : Bool) : Message.berAt (n + 1) = Rules.noElement (.ber lax) n :=
  congrArg (· ++ toString n) (show "Failed to parse BER at index " = "Failed to parse " ++ "BER" ++ " at index " by decide +kernel)

theorem inElement_der (n : Nat) : Message.derInto (n + 1) = Rules.inElement .der n :=
  congrArg (· ++ toString n) (show "Failed to deserialize DER into element at index " = "Failed to deserialize " ++ "DER" ++ " into element at index "
    by decide +kernel)

theorem inElement_ber (n : Nat) (lax : Bool) :
    Message.berInto (n + 1) = Rules.inElement (.ber lax) n :=
  congrArg (· ++ toString n) (show "Failed to deserialize BER into element at index " = "Failed to deserialize " ++ "BER" ++ " into element at index "
    by decide +kernel)

theorem noPair_der (n : Nat) : Message.derPair (n + 1) = Rules.noPair .der n :=
  congrArg (· ++ toString n) (show "Failed to parse DER of the key-value pair at index " =
    "Failed to parse " ++ "DER" ++ " of the key-value pair at index " by decide +kernel)

theorem noPair_ber (n : Nat) (lax : Bool) :
    Message.berPair (n + 1) = Rules.noPair (.ber lax) n :=
  congrArg (· ++ toString n) (show "Failed to parse BER of the key-value pair at index " =
    "Failed to parse " ++ "BER" ++ " of the key-value pair at index " by decide +kernel)

theorem noKey_der (n : Nat) : Message.derKey (n + 1) = Rules.noPart .der "key" n :=
  congrArg (· ++ toString n) (show "Failed to parse DER of the key at index " =
    "Failed to parse " ++ "DER" ++ " of the " ++ "key" ++ " at index " by decide +kernel)

theorem noKey_ber (n : Nat) (lax : Bool) : Message.berKey (n + 1) = Rules.noPart (.ber lax) "key" n :=
  congrArg (· ++ toString n) (show "Failed to parse BER of the key at index " =
    "Failed to parse " ++ "BER" ++ " of the " ++ "key" ++ " at index " by decide +kernel)

theorem noValue_der (n : Nat) : Message.derValue (n + 1) = Rules.noPart .der "value" n :=
  congrArg (· ++ toString n) (show "Failed to parse DER of the value at index " =
    "Failed to parse " ++ "DER" ++ " of the " ++ "value" ++ " at index " by decide +kernel)

theorem noValue_ber (n : Nat) (lax : Bool) :
    Message.berValue (n + 1) = Rules.noPart (.ber lax) "value" n :=
  congrArg (· ++ toString n) (show "Failed to parse BER of the value at index " =
    "Failed to parse " ++ "BER" ++ " of the " ++ "value" ++ " at index " by decide +kernel)

theorem inKey_der (n : Nat) : Message.derIntoKey (n + 1) = Rules.inPart .der "key" n :=
  congrArg (· ++ toString n) (show "Failed to deserialize DER into the key at index " =
    "Failed to deserialize " ++ "DER" ++ " into the " ++ "key" ++ " at index " by decide +kernel)

theorem inKey_ber (n : Nat) (lax : Bool) :
    Message.berIntoKey (n + 1) = Rules.inPart (.ber lax) "key" n :=
  congrArg (· ++ toString n) (show "Failed to deserialize BER into the key at index " =
    "Failed to deserialize " ++ "BER" ++ " into the " ++ "key" ++ " at index " by decide +kernel)

theorem inValue_der (n : Nat) : Message.derIntoValue (n + 1) = Rules.inPart .der "value" n :=
  congrArg (· ++ toString n) (show "Failed to deserialize DER into the value at index " =
    "Failed to deserialize " ++ "DER" ++ " into the " ++ "value" ++ " at index " by decide +kernel)

theorem inValue_ber (n : Nat) (lax : Bool) :
    Message.berIntoValue (n + 1) = Rules.inPart (.ber lax) "value" n :=
  congrArg (· ++ toString n) (show "Failed to deserialize BER into the value at index " =
    "Failed to deserialize " ++ "BER" ++ " into the " ++ "value" ++ " at index " by decide +kernel)

theorem noSequence_eq (n : Nat) : Message.notSequence (n + 1) = noSequence n := rfl

theorem tooMuch_eq (n : Nat) : Message.extraOctets (n + 1) = tooMuch n := rfl

theorem noField_der (field : String) : "Failed to parse DER for `" ++ field ++ "`" = Rules.noField .der field :=
  congrArg (· ++ field ++ "`") (show "Failed to parse DER for `" = "Failed to parse " ++ "DER" ++ " for `" by decide +kernel)

theorem noField_ber (field : String) (lax : Bool) : "Failed to parse BER for `" ++ field ++ "`" = Rules.noField (.ber lax) field :=
  congrArg (· ++ field ++ "`") (show "Failed to parse BER for `" = "Failed to parse " ++ "BER" ++ " for `" by decide +kernel)

theorem inField_der (field : String) : "Failed to deserialize DER into `" ++ field ++ "`" = Rules.inField .der field :=
  congrArg (· ++ field ++ "`") (show "Failed to deserialize DER into `" = "Failed to deserialize " ++ "DER" ++ " into `" by decide +kernel)

theorem inField_ber (field : String) (lax : Bool) : "Failed to deserialize BER into `" ++ field ++ "`" = Rules.inField (.ber lax) field :=
  congrArg (· ++ field ++ "`") (show "Failed to deserialize BER into `" = "Failed to deserialize " ++ "BER" ++ " into `" by decide +kernel)

/-! ### Division into values -/

theorem firstTold_no {r : Rules} {field : String} {F : Bytes → Bool → Bytes → Told → Prop} {c : Bytes} {e0 : Error} (hf : r.Fits c)
    (h : r.NoValue c e0) (t : Told) : firstTold r field F c t ↔ t = within (r.noField field) (here e0) := by
  constructor
  · rintro (⟨e, rfl, h1⟩ | ⟨id, d, raw, rest, h1, _⟩)
    · rw [Spec.Rules.noValue_unique hf h h1]
    · exact (Spec.Rules.starts_noValue hf h1 h).elim
  · rintro rfl; exact .inl ⟨e0, rfl, h⟩

theorem firstTold_starts {r : Rules} {field : String} {F : Bytes → Bool → Bytes → Told → Prop} {c id raw rest : Bytes} {d : Bool} (hf : r.Fits c)
    (h : r.Starts c id d raw rest) (t : Told) : firstTold r field F c t ↔ inside (r.inField field) F id d raw t := by
  constructor
  · rintro (⟨e, _, h1⟩ | ⟨id', d', raw', rest', h1, h2⟩)
    · exact (Spec.Rules.starts_noValue hf h h1).elim
    · obtain ⟨rfl, rfl, rfl, rfl⟩ := Spec.Rules.starts_unique h h1
      exact h2
  · exact fun h1 => .inr ⟨id, d, raw, rest, h, h1⟩

/-- What is wrong with the next value: there is none, or it has the fault `F`. -/
def nextTold (r : Rules) (no : String) (F : Bytes → Bool → Bytes → Told → Prop) (c : Bytes) (t : Told) : Prop :=
  (∃ e, t = within no (here e) ∧ r.NoValue c e) ∨ ∃ id d raw rest, r.Starts c id d raw rest ∧ F id d raw t

theorem nextTold_no {r : Rules} {no : String} {F : Bytes → Bool → Bytes → Told → Prop} {c : Bytes} {e0 : Error} (hf : r.Fits c)
    (h : r.NoValue c e0) (t : Told) : nextTold r no F c t ↔ t = within no (here e0) := by
  constructor
  · rintro (⟨e, rfl, h1⟩ | ⟨id, d, raw, rest, h1, _⟩)
    · rw [Spec.Rules.noValue_unique hf h h1]
    · exact (Spec.Rules.starts_noValue hf h1 h).elim
  · rintro rfl; exact .inl ⟨e0, rfl, h⟩

theorem nextTold_starts {r : Rules} {no : String} {F : Bytes → Bool → Bytes → Told → Prop} {c id raw rest : Bytes} {d : Bool} (hf : r.Fits c)
    (h : r.Starts c id d raw rest) (t : Told) : nextTold r no F c t ↔ F id d raw t := by
  constructor
  · rintro (⟨e, _, h1⟩ | ⟨id', d', raw', rest', h1, h2⟩)
    · exact (Spec.Rules.starts_noValue hf h h1).elim
    · obtain ⟨rfl, rfl, rfl, rfl⟩ := Spec.Rules.starts_unique h h1
      exact h2
  · exact fun h1 => .inr ⟨id, d, raw, rest, h, h1⟩

section pair
variable {r : Rules} {K : Bytes → Bool → Bytes → α → Prop} {FK FV : Bytes → Bool → Bytes → Told → Prop} {n : Nat} {d : Bool} {raw : Bytes}

theorem pairTold_tag {id : Bytes} (h : id ≠ [0x30]) (t : Told) :
    PairTold r K FK FV n id d raw t ↔ t = within (noSequence n) (here .invalidKeyValuePair) := by
  constructor
  · intro hp
    cases hp with
    | tag => rfl
    | _ => exact absurd rfl h
  · rintro rfl; exact .tag _ _ _ h

theorem pairTold_noKey (hf : r.Fits raw) {e0 : Error} (h : r.NoValue raw e0) (t : Told) :
    PairTold r K FK FV n [0x30] d raw t ↔ t = within (r.noPart "key" n) (here e0) := by
  constructor
  · intro hp
    cases hp with
    | tag _ _ _ h1 => exact absurd rfl h1
    | noKey _ _ _ h1 => rw [Spec.Rules.noValue_unique hf h1 h]
    | noValue _ _ _ _ _ _ _ h1 => exact (Spec.Rules.starts_noValue hf h1 h).elim
    | extra _ _ _ _ _ _ _ _ _ _ h1 => exact (Spec.Rules.starts_noValue hf h1 h).elim
    | key _ _ _ _ _ _ _ _ _ _ h1 => exact (Spec.Rules.starts_noValue hf h1 h).elim
    | value _ _ _ _ _ _ _ _ _ _ _ h1 => exact (Spec.Rules.starts_noValue hf h1 h).elim
  · rintro rfl; exact .noKey _ _ _ h

variable {ik ck rest iv cv rest' : Bytes} {dk dv : Bool}

theorem pairTold_noValue (hf : r.Fits raw) (hk : r.Starts raw ik dk ck rest) {e0 : Error} (h : r.NoValue rest e0) (t : Told) :
    PairTold r K FK FV n [0x30] d raw t ↔ t = within (r.noPart "value" n) (here e0) := by
  have hf' : r.Fits rest := hf.mono (by have := Spec.Rules.starts_length hk; omega)
  constructor
  · intro hp
    cases hp with
    | tag _ _ _ h1 => exact absurd rfl h1
    | noKey _ _ _ h1 => exact (Spec.Rules.starts_noValue hf hk h1).elim
    | noValue _ _ _ _ _ _ _ h1 h2 =>
      obtain ⟨_, _, _, rfl⟩ := Spec.Rules.starts_unique hk h1
      rw [Spec.Rules.noValue_unique hf' h2 h]
    | extra _ _ _ _ _ _ _ _ _ _ h1 h2 =>
      obtain ⟨_, _, _, rfl⟩ := Spec.Rules.starts_unique hk h1
      exact (Spec.Rules.starts_noValue hf' h2 h).elim
    | key _ _ _ _ _ _ _ _ _ _ h1 h2 =>
      obtain ⟨_, _, _, rfl⟩ := Spec.Rules.starts_unique hk h1
      exact (Spec.Rules.starts_noValue hf' h2 h).elim
    | value _ _ _ _ _ _ _ _ _ _ _ h1 h2 =>
      obtain ⟨_, _, _, rfl⟩ := Spec.Rules.starts_unique hk h1
      exact (Spec.Rules.starts_noValue hf' h2 h).elim
  · rintro rfl; exact .noValue _ _ _ _ _ _ _ hk h

theorem pairTold_extra (hf : r.Fits raw) (hk : r.Starts raw ik dk ck rest) (hv : r.Starts rest iv dv cv rest') (h : rest' ≠ []) (t : Told) :
    PairTold r K FK FV n [0x30] d raw t ↔ t = within (tooMuch n) (here .invalidKeyValuePair) := by
  have hf' : r.Fits rest := hf.mono (by have := Spec.Rules.starts_length hk; omega)
  constructor
  · intro hp
    cases hp with
    | tag _ _ _ h1 => exact absurd rfl h1
    | noKey _ _ _ h1 => exact (Spec.Rules.starts_noValue hf hk h1).elim
    | noValue _ _ _ _ _ _ _ h1 h2 =>
      obtain ⟨_, _, _, rfl⟩ := Spec.Rules.starts_unique hk h1
      exact (Spec.Rules.starts_noValue hf' hv h2).elim
    | extra => rfl
    | key _ _ _ _ _ _ _ _ _ _ h1 h2 =>
      obtain ⟨_, _, _, rfl⟩ := Spec.Rules.starts_unique hk h1
      exact absurd (Spec.Rules.starts_unique hv h2).2.2.2 h
    | value _ _ _ _ _ _ _ _ _ _ _ h1 h2 =>
      obtain ⟨_, _, _, rfl⟩ := Spec.Rules.starts_unique hk h1
      exact absurd (Spec.Rules.starts_unique hv h2).2.2.2 h
  · rintro rfl; exact .extra _ _ _ _ _ _ _ _ _ _ hk hv h

theorem pairTold_both (hf : r.Fits raw) (hk : r.Starts raw ik dk ck rest) (hv : r.Starts rest iv dv cv []) (t : Told) :
    PairTold r K FK FV n [0x30] d raw t ↔ (∃ t', t = within (r.inPart "key" n) t' ∧ FK ik dk ck t') ∨
      (∃ k, K ik dk ck k) ∧ ∃ t', t = within (r.inPart "value" n) t' ∧ FV iv dv cv t' := by
  have hf' : r.Fits rest := hf.mono (by have := Spec.Rules.starts_length hk; omega)
  constructor
  · intro hp
    cases hp with
    | tag _ _ _ h1 => exact absurd rfl h1
    | noKey _ _ _ h1 => exact (Spec.Rules.starts_noValue hf hk h1).elim
    | noValue _ _ _ _ _ _ _ h1 h2 =>
      obtain ⟨_, _, _, rfl⟩ := Spec.Rules.starts_unique hk h1
      exact (Spec.Rules.starts_noValue hf' hv h2).elim
    | extra _ _ _ _ _ _ _ _ _ _ h1 h2 h3 =>
      obtain ⟨_, _, _, rfl⟩ := Spec.Rules.starts_unique hk h1
      exact absurd (Spec.Rules.starts_unique hv h2).2.2.2.symm h3
    | key _ _ _ _ _ _ _ _ _ t' h1 h2 h3 =>
      obtain ⟨rfl, rfl, rfl, rfl⟩ := Spec.Rules.starts_unique hk h1
      exact .inl ⟨t', rfl, h3⟩
    | value _ _ _ _ _ _ _ _ _ k t' h1 h2 h3 h4 =>
      obtain ⟨rfl, rfl, rfl, rfl⟩ := Spec.Rules.starts_unique hk h1
      obtain ⟨rfl, rfl, rfl, _⟩ := Spec.Rules.starts_unique hv h2
      exact .inr ⟨⟨k, h3⟩, t', rfl, h4⟩
  · rintro (⟨t', rfl, h⟩ | ⟨⟨k, h1⟩, t', rfl, h2⟩)
    · exact .key _ _ _ _ _ _ _ _ _ _ hk hv h
    · exact .value _ _ _ _ _ _ _ _ _ k _ hk hv h1 h2

end pair

/-- The errors of `from_der`. -/
def ToldDer (d : DeT α) (F : Bytes → Bool → Bytes → Told → Prop) : Prop := ∀ id c, (d.fromDer id c).Errs (F id false c)

/-- The errors of `from_ber`. -/
def ToldBer (d : DeT α) (F : Bytes → Bool → Bytes → Told → Prop) : Prop :=
  ∀ id indef raw, raw.length ≤ isizeMax → (d.fromBer id (lenOf indef raw) raw).Errs (F id indef raw)

theorem derTmpValT_errs {d : DeT α} {F : Bytes → Bool → Bytes → Told → Prop} (h : ToldDer d F) (field : String) (c : Bytes) :
    (derTmpValT field d c).Errs (firstTold .der field F c) := by
  rw [derTmpValT]
  rcases derParse_rules c with ⟨e, rest, hp, hn⟩ | ⟨id, b, rest, h1, h2, hp, hs⟩
  · simp only [hp, noField_der]
    exact (TRes.errs_err _).congr fun t => by rw [firstTold_no (fits_der _) hn]; rfl
  · simp only [hp, inField_der, TRes.of, TRes.mapErrContext, TRes.bind_ok]
    rw [show DerRef.disassemble (tlv id b) = _ from disassemble_tlv h1 h2]
    exact (((h id b).mapErr _).bindOk fun _ => ⟨_, rfl⟩).congr fun t => (firstTold_starts (fits_der _) hs t).symm

theorem berTmpValT_errs {d : DeT α} {F : Bytes → Bool → Bytes → Told → Prop} (lax : Bool) (h : ToldBer d F) (field : String) (c : Bytes)
    (hc : c.length ≤ isizeMax) : (berTmpValT field d c).Errs (firstTold (.ber lax) field F c) := by
  rw [berTmpValT]
  rcases berParse_rules lax c hc with ⟨e, rest, hp, hn⟩ | ⟨p, id, indef, raw, rest, hv, hp, hs⟩
  · simp only [hp, noField_ber _ lax]
    exact (TRes.errs_err _).congr fun t => by rw [firstTold_no (fits_ber hc) hn]; rfl
  · have hl := Spec.Rules.starts_length hs
    simp only [hp, inField_ber _ lax, TRes.of, TRes.mapErrContext, TRes.bind_ok]
    rw [berValue_disassemble hv]
    exact (((h id indef raw (by omega)).mapErr _).bindOk fun _ => ⟨_, rfl⟩).congr fun t => (firstTold_starts (fits_ber hc) hs t).symm

theorem Helper.derToVal_errs {d : DeT α} {F : Bytes → Bool → Bytes → Told → Prop} (h : ToldDer d F) (hp : Helper) :
    (Helper.derToVal d hp).Errs fun t => hp.contents ≠ [] ∧
      nextTold .der (Rules.noElement .der hp.index) (inside (Rules.inElement .der hp.index) F) hp.contents t := by
  obtain ⟨c, n⟩ := hp
  simp only [Helper.derToVal, noElement_der, inElement_der]
  split
  · rename_i he
    rw [List.isEmpty_iff] at he
    exact (TRes.errs_ok _).congr fun e => ⟨False.elim, fun h => h.1 he⟩
  · rename_i he
    rw [List.isEmpty_iff] at he
    refine TRes.Errs.congr (E := nextTold .der (Rules.noElement .der n) (inside (Rules.inElement .der n) F) c) ?_ fun e =>
      ⟨fun h => ⟨he, h⟩, fun h => h.2⟩
    rcases derParse_rules c with ⟨e, rest, hp, hn⟩ | ⟨id, b, rest, h1, h2, hp, hs⟩
    · simp only [hp]
      exact (TRes.errs_err _).congr fun t => by rw [nextTold_no (fits_der _) hn]; rfl
    · simp only [hp, TRes.of, TRes.mapErrContext, TRes.bind_ok]
      rw [show DerRef.disassemble (tlv id b) = _ from disassemble_tlv h1 h2]
      exact (((h id b).mapErr _).bindOk fun _ => ⟨_, rfl⟩).congr fun t =>
        (nextTold_starts (F := inside (Rules.inElement .der n) F) (fits_der _) hs t).symm

theorem Helper.berToVal_errs {d : DeT α} {F : Bytes → Bool → Bytes → Told → Prop} (lax : Bool) (h : ToldBer d F) (hp : Helper)
    (hc : hp.contents.length ≤ isizeMax) :
    (Helper.berToVal d hp).Errs fun t => hp.contents ≠ [] ∧
      nextTold (.ber lax) (Rules.noElement (.ber lax) hp.index) (inside (Rules.inElement (.ber lax) hp.index) F) hp.contents t := by
  obtain ⟨c, n⟩ := hp
  simp only [Helper.berToVal, noElement_ber _ lax, inElement_ber _ lax]
  split
  · rename_i he
    rw [List.isEmpty_iff] at he
    exact (TRes.errs_ok _).congr fun e => ⟨False.elim, fun h => h.1 he⟩
  · rename_i he
    rw [List.isEmpty_iff] at he
    refine TRes.Errs.congr (E := nextTold (.ber lax) (Rules.noElement (.ber lax) n) (inside (Rules.inElement (.ber lax) n) F) c) ?_ fun e =>
      ⟨fun h => ⟨he, h⟩, fun h => h.2⟩
    rcases berParse_rules lax c hc with ⟨e, rest, hp, hn⟩ | ⟨p, id, indef, raw, rest, hv, hp, hs⟩
    · simp only [hp]
      exact (TRes.errs_err _).congr fun t => by rw [nextTold_no (fits_ber hc) hn]; rfl
    · have hl := Spec.Rules.starts_length hs
      simp only [hp, TRes.of, TRes.mapErrContext, TRes.bind_ok]
      rw [berValue_disassemble hv]
      change c.length ≤ isizeMax at hc
      exact (((h id indef raw (by omega)).mapErr _).bindOk fun _ => ⟨_, rfl⟩).congr fun t =>
        (nextTold_starts (F := inside (Rules.inElement (.ber lax) n) F) (fits_ber hc) hs t).symm

/-- Key and value are looked at one after the other. -/
theorem both_told {x : TRes α} {y : TRes β} {δ : Type} {f : α → β → δ} {EK EV : Told → Prop} {K : α → Prop} {mk mv : String} (hx : x.Errs EK)
    (hk : ∀ k, x = .ok k ↔ K k) (hy : y.Errs EV) :
    (x.mapErrContext mk >>= fun k => y.mapErrContext mv >>= fun v => (pure (f k v) : TRes δ)).Errs fun t =>
      (∃ t', t = within mk t' ∧ EK t') ∨ (∃ k, K k) ∧ ∃ t', t = within mv t' ∧ EV t' := by
  refine ((hx.mapErr mk).bind fun k _ => (hy.mapErr mv).bindOk fun v => ⟨_, rfl⟩).congr fun e => or_congr Iff.rfl ?_
  rw [exists_and_right]
  exact and_congr (exists_congr fun k => by rw [TRes.mapErr_ok]; exact hk k) Iff.rfl

theorem Helper.derToKeyVal_errs {dk : DeT α} {dv : DeT β} {K : Bytes → Bool → Bytes → α → Prop} {FK FV : Bytes → Bool → Bytes → Told → Prop}
    (hd : ∀ id c k, dk.fromDer id c = .ok k ↔ K id false c k) (hk : ToldDer dk FK) (hv : ToldDer dv FV) (hp : Helper) :
    (Helper.derToKeyVal dk dv hp).Errs fun t => hp.contents ≠ [] ∧
      nextTold .der (Rules.noPair .der hp.index) (PairTold .der K FK FV hp.index) hp.contents t := by
  obtain ⟨c, n⟩ := hp
  simp only [Helper.derToKeyVal, noPair_der, noKey_der, noValue_der, inKey_der, inValue_der, noSequence_eq, tooMuch_eq]
  split
  · rename_i he
    rw [List.isEmpty_iff] at he
    exact (TRes.errs_ok _).congr fun e => ⟨False.elim, fun h => h.1 he⟩
  · rename_i he
    rw [List.isEmpty_iff] at he
    refine TRes.Errs.congr (E := nextTold .der (Rules.noPair .der n) (PairTold .der K FK FV n) c) ?_ fun e =>
      ⟨fun h => ⟨he, h⟩, fun h => h.2⟩
    rcases derParse_rules c with ⟨e, rest, hp, hn⟩ | ⟨id, b, rest, h1, h2, hp, hs⟩
    · simp only [hp]
      exact (TRes.errs_err _).congr fun t => by rw [nextTold_no (fits_der _) hn]; rfl
    simp only [hp]
    refine TRes.Errs.congr ?_ fun t => (nextTold_starts (fits_der _) hs t).symm
    simp only [TRes.of, TRes.mapErrContext, TRes.bind_ok]
    rw [DerRef_id_tlv h1 b]
    simp only [TRes.bind_ok]
    by_cases hid : id = IdRef.sequence
    case neg =>
      rw [if_pos hid]
      exact (TRes.errs_err _).congr fun t => (pairTold_tag hid t).symm
    rw [if_neg (not_not.2 hid), DerRef_contents_tlv h1 h2]
    simp only [TRes.bind_ok]
    rw [show id = [0x30] from hid]
    rcases derParse_rules b with ⟨e, rest', hp', hn'⟩ | ⟨id', b', rest', h1', h2', hp', hs'⟩
    · simp only [hp']; exact (TRes.errs_err _).congr fun t => (pairTold_noKey (fits_der _) hn' t).symm
    simp only [hp', TRes.bind_ok]
    rcases derParse_rules rest' with ⟨e, rest'', hp'', hn''⟩ | ⟨id'', b'', rest'', h1'', h2'', hp'', hs''⟩
    · simp only [hp'']; exact (TRes.errs_err _).congr fun t => (pairTold_noValue (fits_der _) hs' hn'' t).symm
    simp only [hp'', TRes.bind_ok]
    split
    · rename_i hem
      rw [List.isEmpty_iff] at hem
      subst hem
      rw [show DerRef.disassemble (tlv id' b') = _ from disassemble_tlv h1' h2']
      simp only [show DerRef.disassemble (tlv id'' b'') = _ from disassemble_tlv h1'' h2'', TRes.bind_ok]
      exact (both_told (hk id' b') (hd id' b') (hv id'' b'')).congr fun t => (pairTold_both (fits_der _) hs' hs'' t).symm
    · rename_i hem
      rw [List.isEmpty_iff] at hem
      exact (TRes.errs_err _).congr fun t => (pairTold_extra (fits_der _) hs' hs'' hem t).symm

theorem Helper.berToKeyVal_errs {dk : DeT α} {dv : DeT β} {K : Bytes → Bool → Bytes → α → Prop} {FK FV : Bytes → Bool → Bytes → Told → Prop}
    (lax : Bool) (hd : ∀ id indef raw k, raw.length ≤ isizeMax → (dk.fromBer id (lenOf indef raw) raw = .ok k ↔ K id indef raw k))
    (hk : ToldBer dk FK) (hv : ToldBer dv FV) (hp : Helper) (hc : hp.contents.length ≤ isizeMax) :
    (Helper.berToKeyVal dk dv hp).Errs fun t => hp.contents ≠ [] ∧
      nextTold (.ber lax) (Rules.noPair (.ber lax) hp.index) (PairTold (.ber lax) K FK FV hp.index) hp.contents t := by
  obtain ⟨c, n⟩ := hp
  simp only [Helper.berToKeyVal, noPair_ber _ lax, noKey_ber _ lax, noValue_ber _ lax, inKey_ber _ lax, inValue_ber _ lax, noSequence_eq, tooMuch_eq]
  split
  · rename_i he
    rw [List.isEmpty_iff] at he
    exact (TRes.errs_ok _).congr fun e => ⟨False.elim, fun h => h.1 he⟩
  · rename_i he
    rw [List.isEmpty_iff] at he
    change c.length ≤ isizeMax at hc
    refine TRes.Errs.congr (E := nextTold (.ber lax) (Rules.noPair (.ber lax) n) (PairTold (.ber lax) K FK FV n) c) ?_ fun e =>
      ⟨fun h => ⟨he, h⟩, fun h => h.2⟩
    rcases berParse_rules lax c hc with ⟨e, rest, hp, hn⟩ | ⟨p, id, d, b, rest, hb, hp, hs⟩
    · simp only [hp]
      exact (TRes.errs_err _).congr fun t => by rw [nextTold_no (fits_ber hc) hn]; rfl
    have hl := Spec.Rules.starts_length hs
    simp only [hp]
    refine TRes.Errs.congr ?_ fun t => (nextTold_starts (fits_ber hc) hs t).symm
    simp only [TRes.of, TRes.mapErrContext, TRes.bind_ok]
    rw [berValue_id hb]
    simp only [TRes.bind_ok]
    by_cases hid : id = IdRef.sequence
    case neg =>
      rw [if_pos hid]
      exact (TRes.errs_err _).congr fun t => (pairTold_tag hid t).symm
    rw [if_neg (not_not.2 hid), berValue_contents hb]
    simp only [TRes.bind_ok]
    rw [show id = [0x30] from hid]
    have hf : (Rules.ber lax).Fits b := by change b.length ≤ isizeMax; omega
    rcases berParse_rules lax b hf with ⟨e, rest', hp', hn'⟩ | ⟨p', id', d', b', rest', hb', hp', hs'⟩
    · simp only [hp']; exact (TRes.errs_err _).congr fun t => (pairTold_noKey hf hn' t).symm
    have hl' := Spec.Rules.starts_length hs'
    simp only [hp', TRes.bind_ok]
    rcases berParse_rules lax rest' (by omega) with ⟨e, rest'', hp'', hn''⟩ | ⟨p'', id'', d'', b'', rest'', hb'', hp'', hs''⟩
    · simp only [hp'']; exact (TRes.errs_err _).congr fun t => (pairTold_noValue hf hs' hn'' t).symm
    have hl'' := Spec.Rules.starts_length hs''
    simp only [hp'', TRes.bind_ok]
    split
    · rename_i hem
      rw [List.isEmpty_iff] at hem
      subst hem
      rw [berValue_disassemble hb']
      simp only [berValue_disassemble hb'', TRes.bind_ok]
      exact (both_told (hk id' d' b' (by omega)) (fun k => hd id' d' b' k (by omega)) (hv id'' d'' b'' (by omega))).congr fun t =>
        (pairTold_both hf hs' hs'' t).symm
    · rename_i hem
      rw [List.isEmpty_iff] at hem
      exact (TRes.errs_err _).congr fun t => (pairTold_extra hf hs' hs'' hem t).symm

/-! ### Collections -/

theorem Helper.erased_some {next : Helper → TRes (Option (α × Helper))} {next' : Bytes → Res (Option (α × Bytes))} (he : Helper.Erases next next')
    (hc : Helper.Counts next) (h : Helper) (x : α) (c : Bytes) :
    next' h.contents = .ok (some (x, c)) ↔ next h = .ok (some (x, ⟨c, h.index + 1⟩)) := by
  rw [← he h]
  constructor
  · intro h1
    cases hn : next h with
    | ok y =>
      rw [hn] at h1
      cases y with
      | none => cases h1
      | some p =>
        obtain ⟨x', c', n'⟩ := p
        have := hc h x' ⟨c', n'⟩ hn
        cases h1
        cases this
        rfl
    | _ => rw [hn] at h1; cases h1
  · intro h1; rw [h1]; rfl

theorem Helper.loop_errs {next : Helper → TRes (Option (α × Helper))} {next' : Bytes → Res (Option (α × Bytes))} {r : Rules}
    {R : Bytes → Bool → Bytes → α → Prop} {no : Nat → String} {F : Nat → Bytes → Bool → Bytes → Told → Prop} {n : Nat}
    (he : Helper.Erases next next') (hc : Helper.Counts next) (hn : Consumes n next')
    (hsome : ∀ (c : Bytes) x c', c.length ≤ n → (next' c = .ok (some (x, c')) ↔ ∃ id d raw, r.Starts c id d raw c' ∧ R id d raw x))
    (hs : ∀ h : Helper, h.contents.length ≤ n → (next h).Errs fun t => h.contents ≠ [] ∧ nextTold r (no h.index) (F h.index) h.contents t)
    (insert : γ → α → γ) : ∀ (f : Nat) (h : Helper) (ret : γ), h.contents.length ≤ n → h.contents.length < f →
      (Helper.loop next insert f h ret).Errs (ElemTold r R no F h.index h.contents) := by
  intro f
  induction f with
  | zero => intro h ret _ hf; omega
  | succ f ih =>
    intro h ret hl hf
    rw [Helper.loop]
    refine ((hs h hl).bind (Q := fun o t => match o with
      | none => False
      | some (_, h') => ElemTold r R no F h'.index h'.contents t) fun o ho => ?_).congr fun t => ?_
    · cases o with
      | none => exact TRes.errs_ok _
      | some x =>
        obtain ⟨x, c', n'⟩ := x
        have hi := hc h x _ ho
        have := hn h.contents x c' hl ((Helper.erased_some he hc h x c').2 (by cases hi; exact ho))
        exact ih ⟨c', n'⟩ _ (by change c'.length ≤ n; omega) (by change c'.length < f; omega)
    · obtain ⟨c, k⟩ := h
      constructor
      · rintro (⟨h0, ⟨e, rfl, h⟩ | ⟨id, d, raw, rest, h1, h2⟩⟩ | ⟨o, h1, h2⟩)
        · exact .octets k c e h0 h
        · exact .here k c id d raw rest t h1 h2
        · cases o with
          | none => exact h2.elim
          | some x =>
            obtain ⟨x, c', n'⟩ := x
            have hi := hc _ x _ h1
            cases hi
            obtain ⟨id, d, raw, h3, h4⟩ := (hsome c x c' hl).1 ((Helper.erased_some he hc ⟨c, k⟩ x c').2 h1)
            exact .later k c id d raw c' x t h3 h4 h2
      · intro h
        cases h with
        | octets _ _ e h1 h2 => exact .inl ⟨h1, .inl ⟨e, rfl, h2⟩⟩
        | here _ _ id d raw rest _ h1 h2 => exact .inl ⟨Spec.Rules.starts_ne_nil h1, .inr ⟨id, d, raw, rest, h1, h2⟩⟩
        | later _ _ id d raw rest x _ h1 h2 h3 =>
          exact .inr ⟨some (x, ⟨rest, k + 1⟩), (Helper.erased_some he hc ⟨c, k⟩ x rest).1 ((hsome c x rest hl).2 ⟨id, d, raw, h1, h2⟩), h3⟩

theorem collectDer_told {d : DeT α} {d' : De α} {R : Bytes → Bool → Bytes → α → Prop} {F : Bytes → Bool → Bytes → Told → Prop}
    (he : d.Erases d') (hd : DecodesDer d' fun id c => R id false c) (h : ToldDer d F) (insert : γ → α → γ) (c : Bytes) (ret : γ) :
    (Helper.collect (Helper.derToVal d) insert c ret).Errs (elemsTold .der R F c) := by
  refine Helper.loop_errs (Helper.derToVal_erases he) (Helper.derToVal_counts d) (derToVal_consumes c.length d') (fun c x c' _ => ?_)
    (fun hp _ => Helper.derToVal_errs h hp) insert _ ⟨c, 0⟩ ret (Nat.le_refl _) (Nat.lt_succ_self _)
  rw [derToVal_some d' c]
  constructor
  · rintro ⟨id, b, h1, h2, h3, h4⟩; exact ⟨id, false, b, ⟨rfl, h1, h2, h4⟩, (hd id b x).1 h3⟩
  · rintro ⟨id, _, b, ⟨rfl, h1, h2, h4⟩, h3⟩; exact ⟨id, b, h1, h2, (hd id b x).2 h3, h4⟩

theorem collectBer_told {d : DeT α} {d' : De α} {R : Bytes → Bool → Bytes → α → Prop} {F : Bytes → Bool → Bytes → Told → Prop} (lax : Bool)
    (he : d.Erases d') (hd : DecodesBer d' R) (h : ToldBer d F) (insert : γ → α → γ) (c : Bytes) (hc : c.length ≤ isizeMax) (ret : γ) :
    (Helper.collect (Helper.berToVal d) insert c ret).Errs (elemsTold (.ber lax) R F c) := by
  refine Helper.loop_errs (Helper.berToVal_erases he) (Helper.berToVal_counts d) (berToVal_consumes d') (fun c x c' hc => ?_)
    (fun hp hc => Helper.berToVal_errs lax h hp hc) insert _ ⟨c, 0⟩ ret hc (Nat.lt_succ_self _)
  rw [berToVal_some d' c hc]
  constructor
  · rintro ⟨p, id, d, raw, h1, h2, h3⟩
    have hs : (Rules.ber lax).Starts c id d raw c' := ⟨p, h1, h3⟩
    have := Spec.Rules.starts_length hs
    exact ⟨id, d, raw, hs, (hd id d raw x (by omega)).1 h2⟩
  · rintro ⟨id, d, raw, hs, h2⟩
    have := Spec.Rules.starts_length hs
    obtain ⟨p, h1, h3⟩ := hs
    exact ⟨p, id, d, raw, h1, (hd id d raw x (by omega)).2 h2, h3⟩

theorem DeT.Erases.decodesDer {d : DeT α} {d' : De α} {R : Bytes → Bytes → α → Prop} (he : d.Erases d') (hd : DecodesDer d' R) (id c : Bytes) (v : α) :
    d.fromDer id c = .ok v ↔ R id c v := by
  rw [← hd id c v, ← he.der, TRes.forget_ok]

theorem DeT.Erases.decodesBer {d : DeT α} {d' : De α} {R : Bytes → Bool → Bytes → α → Prop} (he : d.Erases d') (hd : DecodesBer d' R) (id : Bytes)
    (indef : Bool) (raw : Bytes) (v : α) (hl : raw.length ≤ isizeMax) : d.fromBer id (lenOf indef raw) raw = .ok v ↔ R id indef raw v := by
  rw [← hd id indef raw v hl, ← he.ber, TRes.forget_ok]

theorem collectDerPairs_told {dk : DeT α} {dv : DeT β} {dk' : De α} {dv' : De β} {K : Bytes → Bool → Bytes → α → Prop}
    {V : Bytes → Bool → Bytes → β → Prop} {FK FV : Bytes → Bool → Bytes → Told → Prop} (hek : dk.Erases dk') (hev : dv.Erases dv')
    (hdk : DecodesDer dk' fun id c => K id false c) (hdv : DecodesDer dv' fun id c => V id false c)
    (hk : ToldDer dk FK) (hv : ToldDer dv FV) (insert : γ → α × β → γ) (c : Bytes) (ret : γ) :
    (Helper.collect (Helper.derToKeyVal dk dv) insert c ret).Errs (pairsTold .der K V FK FV c) := by
  refine Helper.loop_errs (Helper.derToKeyVal_erases hek hev) (Helper.derToKeyVal_counts dk dv) (derToKeyVal_consumes c.length dk' dv')
    (fun c x c' _ => ?_) (fun hp _ => Helper.derToKeyVal_errs (hek.decodesDer hdk) hk hv hp) insert _ ⟨c, 0⟩ ret (Nat.le_refl _) (Nat.lt_succ_self _)
  rw [derToKeyVal_some dk' dv' c]
  have hp : ∀ id b, DerPair (fun id b x => dk'.fromDer id b = .ok x) (fun id b x => dv'.fromDer id b = .ok x) id b x ↔
      Rules.der.Pair K V id false b x := fun id b => derPair_congr hdk hdv
  constructor
  · rintro ⟨id, b, h1, h2, h3, h4⟩; exact ⟨id, false, b, ⟨rfl, h1, h2, h4⟩, (hp id b).1 h3⟩
  · rintro ⟨id, _, b, ⟨rfl, h1, h2, h4⟩, h3⟩; exact ⟨id, b, h1, h2, (hp id b).2 h3, h4⟩

theorem collectBerPairs_told {dk : DeT α} {dv : DeT β} {dk' : De α} {dv' : De β} {K : Bytes → Bool → Bytes → α → Prop}
    {V : Bytes → Bool → Bytes → β → Prop} {FK FV : Bytes → Bool → Bytes → Told → Prop} (lax : Bool) (hek : dk.Erases dk') (hev : dv.Erases dv')
    (hdk : DecodesBer dk' K) (hdv : DecodesBer dv' V) (hk : ToldBer dk FK) (hv : ToldBer dv FV) (insert : γ → α × β → γ) (c : Bytes)
    (hc : c.length ≤ isizeMax) (ret : γ) :
    (Helper.collect (Helper.berToKeyVal dk dv) insert c ret).Errs (pairsTold (.ber lax) K V FK FV c) := by
  refine Helper.loop_errs (Helper.berToKeyVal_erases hek hev) (Helper.berToKeyVal_counts dk dv) (berToKeyVal_consumes dk' dv')
    (fun c x c' hc => ?_) (fun hp hc => Helper.berToKeyVal_errs lax (hek.decodesBer hdk) hk hv hp hc) insert _ ⟨c, 0⟩ ret hc (Nat.lt_succ_self _)
  rw [berToKeyVal_some dk' dv' c hc]
  constructor
  · rintro ⟨p, id, d, raw, h1, h2, h3⟩
    have hs : (Rules.ber lax).Starts c id d raw c' := ⟨p, h1, h3⟩
    have := Spec.Rules.starts_length hs
    exact ⟨id, d, raw, hs, (Spec.BerPair.congr (by omega) hdk hdv).1 h2⟩
  · rintro ⟨id, d, raw, hs, h2⟩
    have := Spec.Rules.starts_length hs
    obtain ⟨p, h1, h3⟩ := hs
    exact ⟨p, id, d, raw, h1, (Spec.BerPair.congr (by omega) hdk hdv).2 h2, h3⟩

/-! ### Bodies -/

theorem body_told {m : Build} {indef : Bool} {raw : Bytes} {k : Bytes → TRes α} {P : Bytes → Told → Prop} (hl : raw.length ≤ isizeMax)
    (hk : ∀ c : Bytes, c.length ≤ isizeMax → (k c).Errs (P c)) :
    (TRes.of (excludeEoc m (lenOf indef raw) raw) >>= k).Errs (bodyTold indef raw P) := by
  refine ((TRes.errs_of (excludeEoc_errs m indef raw)).bind fun c h =>
    hk c (Nat.le_trans (isBody_length ((excludeEoc_iff m indef raw c).mp (TRes.of_ok.1 h))) hl)).congr fun t => or_congr ?_ ?_
  · constructor
    · rintro ⟨e, rfl, h, rfl⟩; exact ⟨h, rfl⟩
    · rintro ⟨h, rfl⟩; exact ⟨_, rfl, h, rfl⟩
  · exact exists_congr fun c => and_congr (TRes.of_ok.trans (excludeEoc_iff m indef raw c)) Iff.rfl

theorem derBody_told {c : Bytes} {x : TRes α} {P : Bytes → Told → Prop} (h : x.Errs (P c)) : x.Errs (bodyTold false c P) :=
  h.congr fun e => ⟨fun he => .inr ⟨c, rfl, he⟩, fun he => he.elim (fun ⟨h, _⟩ => absurd rfl (h c)) fun ⟨c', h1, h2⟩ => by
    cases (show c = c' from h1); exact h2⟩

/-! ### Conversions -/

theorem convErrT_errs (msg : String) (g : Back β α) (u : β) :
    (match g with
      | .from_ f => (pure (f u) : TRes α)
      | .tryFrom f => convErrT msg (f u)).Errs (convTold msg g u) := by
  cases g with
  | from_ f => exact (TRes.errs_ok (f u)).congr fun t => ⟨False.elim, fun ⟨ch, h, _⟩ => nomatch h⟩
  | tryFrom f =>
    simp only
    intro t
    simp only [convTold, Back.apply]
    cases f u with
    | ok v => exact ⟨(nomatch ·), (by rintro ⟨_, h, _⟩; cases h)⟩
    | error ch =>
      constructor
      · intro h; cases h; exact ⟨ch, rfl, rfl⟩
      · rintro ⟨_, h, rfl⟩; cases h; rfl

/-- What the conversion gives. -/
def convT (msg : String) (g : Back β α) (u : β) : TRes α :=
  match g with
  | .from_ f => pure (f u)
  | .tryFrom f => convErrT msg (f u)

theorem convT_errs (msg : String) (g : Back β α) (u : β) : (convT msg g u).Errs (convTold msg g u) := convErrT_errs msg g u

theorem convT_ok (msg : String) (g : Back β α) (u : β) (v : α) : convT msg g u = .ok v ↔ g.apply u = .ok v := by
  cases g with
  | from_ f => exact ⟨fun h => by cases h; rfl, fun h => by cases h; rfl⟩
  | tryFrom f =>
    change convErrT msg (f u) = _ ↔ f u = _
    cases f u with
    | ok w => exact ⟨fun h => by cases h; rfl, fun h => by cases h; rfl⟩
    | error ch => exact ⟨(nomatch ·), (nomatch ·)⟩

theorem back_told {x : TRes β} {E : Told → Prop} {R : β → Prop} {msg : String} (hx : x.Errs E) (hv : ∀ u, x = .ok u ↔ R u) (g : Back β α) :
    (x >>= convT msg g).Errs fun t => E t ∨ ∃ u, R u ∧ convTold msg g u t :=
  (hx.bind fun u _ => convT_errs msg g u).congr fun _ => or_congr Iff.rfl (exists_congr fun u => and_congr (hv u) Iff.rfl)

theorem DeT.back_der {msg : String} (d : DeT β) (g : Back β α) (id c : Bytes) :
    (DeT.back msg d g).fromDer id c = (d.fromDer id c >>= convT ("Failed to convert from `" ++ msg ++ "`") g) := by
  cases g <;> rfl

theorem DeT.back_ber {msg : String} (d : DeT β) (g : Back β α) (id : Bytes) (len : Length) (c : Bytes) :
    (DeT.back msg d g).fromBer id len c = (d.fromBer id len c >>= convT ("Failed to convert from `" ++ msg ++ "`") g) := by
  cases g <;> rfl

/-! ### Fields -/

theorem field_told {r : Rules} {field : String} {R : Bytes → Bool → Bytes → β → Prop} {F : Bytes → Bool → Bytes → Told → Prop}
    {Q : Bytes → Told → Prop} {f : β × Bytes → TRes γ} {x : TRes (β × Bytes)} {bytes : Bytes} (hx : x.Errs (firstTold r field F bytes))
    (hv : ∀ v rest, x = .ok (v, rest) ↔ ∃ id d raw, r.Starts bytes id d raw rest ∧ R id d raw v)
    (hf : ∀ v rest, x = .ok (v, rest) → (f (v, rest)).Errs (Q rest)) :
    (x >>= f).Errs fun t => firstTold r field F bytes t ∨
      ∃ id d raw rest v, r.Starts bytes id d raw rest ∧ R id d raw v ∧ Q rest t := by
  refine (hx.bind (Q := fun a => Q a.2) fun a e => hf a.1 a.2 e).congr fun e => or_congr Iff.rfl ?_
  constructor
  · rintro ⟨⟨v, rest⟩, h1, h2⟩
    obtain ⟨id, d, raw, h3, h4⟩ := (hv v rest).1 h1
    exact ⟨id, d, raw, rest, v, h3, h4, h2⟩
  · rintro ⟨id, d, raw, rest, v, h3, h4, h2⟩
    exact ⟨(v, rest), (hv v rest).2 ⟨id, d, raw, h3, h4⟩, h2⟩

theorem TRes.bind_assoc (x : TRes α) (f : α → TRes β) (g : β → TRes γ) : ((x >>= f) >>= g) = (x >>= fun a => f a >>= g) := by cases x <;> rfl

theorem convField_told {tmp : {δ : Type} → String → DeT δ → Bytes → TRes (δ × Bytes)} {d : DeT β} (g : Back β α) {r : Rules} {field source : String}
    {R : Bytes → Bool → Bytes → β → Prop} {F : Bytes → Bool → Bytes → Told → Prop} {Q : Bytes → Told → Prop}
    {f : α × Bytes → TRes γ} {bytes : Bytes} (hx : (tmp field d bytes).Errs (firstTold r field F bytes))
    (hv : ∀ v rest, tmp field d bytes = .ok (v, rest) ↔ ∃ id d raw, r.Starts bytes id d raw rest ∧ R id d raw v)
    (hf : ∀ u v rest, tmp field d bytes = .ok (u, rest) → (f (v, rest)).Errs (Q rest)) :
    (deFieldT tmp (backFieldT field source d g) bytes >>= f).Errs fun t => firstTold r field F bytes t ∨
      ∃ id d raw rest u, r.Starts bytes id d raw rest ∧ R id d raw u ∧
        (convTold (noConversion source field) g u t ∨ (∃ v, g.apply u = .ok v) ∧ Q rest t) := by
  have h1 : (deFieldT tmp (backFieldT field source d g) bytes >>= f) =
      (tmp field d bytes >>= fun p => convT (noConversion source field) g p.1 >>= fun v => f (v, p.2)) := by
    cases g with
    | from_ g =>
      change ((tmp field d bytes >>= fun p => pure (g p.1, p.2)) >>= f) = _
      rw [TRes.bind_assoc]; rfl
    | tryFrom g =>
      change ((tmp field d bytes >>= fun p => convErrT (noConversion source field) (g p.1) >>= fun v => pure (v, p.2)) >>= f) = _
      rw [TRes.bind_assoc]
      congr 1; funext p
      rw [TRes.bind_assoc]; rfl
  rw [h1]
  refine (hx.bind (Q := fun p t => convTold (noConversion source field) g p.1 t ∨ (∃ v, g.apply p.1 = .ok v) ∧ Q p.2 t) fun p hp => ?_).congr
    fun e => or_congr Iff.rfl ?_
  · refine ((convT_errs _ g p.1).bind (Q := fun _ => Q p.2) fun v _ => hf p.1 v p.2 hp).congr fun t => or_congr Iff.rfl ?_
    rw [exists_and_right]
    exact and_congr (exists_congr fun v => convT_ok _ g p.1 v) Iff.rfl
  · constructor
    · rintro ⟨⟨v, rest⟩, h1, h2⟩
      obtain ⟨id, d, raw, h3, h4⟩ := (hv v rest).1 h1
      exact ⟨id, d, raw, rest, v, h3, h4, h2⟩
    · rintro ⟨id, d, raw, rest, v, h3, h4, h2⟩
      exact ⟨(v, rest), (hv v rest).2 ⟨id, d, raw, h3, h4⟩, h2⟩

/-- The test for octets left commutes with the gathering of the values. -/
theorem finishT_cons {tmp : {δ : Type} → String → DeT δ → Bytes → TRes (δ × Bytes)} {f : DeFieldT β} {r : DeFieldsT γ} {bytes : Bytes}
    {E : Told → Prop} (h : (deFieldT tmp f bytes >>= fun p => deFieldsT tmp r p.2 >>= finishT).Errs E) :
    (deFieldsT tmp (.cons f r) bytes >>= finishT).Errs E := by
  intro e
  rw [← h e]
  change ((deFieldT tmp f bytes >>= fun p => deFieldsT tmp r p.2 >>= fun q => pure ((p.1, q.1), q.2)) >>= finishT) = _ ↔ _
  cases deFieldT tmp f bytes with
  | ok p =>
    change ((deFieldsT tmp r p.2 >>= fun q => pure ((p.1, q.1), q.2)) >>= finishT) = .err e ↔ (deFieldsT tmp r p.2 >>= finishT) = .err e
    cases deFieldsT tmp r p.2 with
    | ok q =>
      change finishT ((p.1, q.1), q.2) = .err e ↔ finishT q = .err e
      simp only [finishT, finish]
      split <;> simp [TRes.of]
    | err e' => exact ⟨fun h => by cases h; rfl, fun h => by cases h; rfl⟩
    | panic => exact ⟨(nomatch ·), (nomatch ·)⟩
    | ub => exact ⟨(nomatch ·), (nomatch ·)⟩
  | err e' => exact ⟨fun h => by cases h; rfl, fun h => by cases h; rfl⟩
  | panic => exact ⟨(nomatch ·), (nomatch ·)⟩
  | ub => exact ⟨(nomatch ·), (nomatch ·)⟩

theorem finishT_errs (c : Bytes) : (finishT ((), c)).Errs fun t => c ≠ [] ∧ t = here .extraContentsOctet :=
  (TRes.errs_of (finish_errs c)).congr fun t => by
    constructor
    · rintro ⟨e, rfl, h, rfl⟩; exact ⟨h, rfl⟩
    · rintro ⟨h, rfl⟩; exact ⟨_, rfl, h, rfl⟩

theorem derTmpT_starts {d : DeT β} {d' : De β} {R : Bytes → Bytes → β → Prop} (he : d.Erases d') (hd : DecodesDer d' R) (field : String) (bytes : Bytes)
    (v : β) (rest : Bytes) :
    derTmpValT field d bytes = .ok (v, rest) ↔ ∃ id i raw, Rules.der.Starts bytes id i raw rest ∧ R id raw v := by
  rw [← TRes.forget_ok, derTmpValT_erases he, derTmp_starts hd]

theorem berTmpT_starts {d : DeT β} {d' : De β} {R : Bytes → Bool → Bytes → β → Prop} (lax : Bool) (he : d.Erases d') (hd : DecodesBer d' R)
    (field : String) (bytes : Bytes) (hl : bytes.length ≤ isizeMax) (v : β) (rest : Bytes) :
    berTmpValT field d bytes = .ok (v, rest) ↔ ∃ id i raw, (Rules.ber lax).Starts bytes id i raw rest ∧ R id i raw v := by
  rw [← TRes.forget_ok, berTmpValT_erases he, berTmp_starts lax hd bytes hl]

theorem berTmpT_length {d : DeT β} {d' : De β} (he : d.Erases d') {field : String} {bytes : Bytes} (hl : bytes.length ≤ isizeMax) {v : β} {rest : Bytes}
    (hx : berTmpValT field d bytes = .ok (v, rest)) : rest.length ≤ isizeMax :=
  berTmpVal_length hl (v := v) (by rw [← berTmpValT_erases he, hx]; rfl)

/-! ### Transparent structs -/

theorem one_told {x : TRes α} {E Q : Told → Prop} {R : α → Prop} {δ : Type} {y : TRes γ} {f : α → γ → δ} {msg : String} (hx : x.Errs E)
    (hv : ∀ v, x = .ok v ↔ R v) (hy : y.Errs Q) :
    (x.mapErrContext msg >>= fun v => y >>= fun vs => (pure (f v vs) : TRes δ)).Errs fun t =>
      (∃ t', t = within msg t' ∧ E t') ∨ (∃ v, R v) ∧ Q t := by
  refine ((hx.mapErr msg).bind fun v _ => hy.bindOk fun _ => ⟨_, rfl⟩).congr fun e => or_congr Iff.rfl ?_
  rw [exists_and_right]
  exact and_congr (exists_congr fun v => by rw [TRes.mapErr_ok]; exact hv v) Iff.rfl

theorem convOne_told {rules : String} {tmp : {δ : Type} → DeT δ → TRes δ} {d : DeT β} (g : Back β α) {field source : String} {E Q : Told → Prop}
    {R : β → Prop} {δ : Type} {y : TRes γ} {f : α → γ → δ} (hx : (tmp d).Errs E) (hv : ∀ v, tmp d = .ok v ↔ R v) (hy : y.Errs Q) :
    (deFieldTransparentT rules tmp (backFieldT field source d g) >>= fun v => y >>= fun vs => (pure (f v vs) : TRes δ)).Errs fun t =>
      (∃ t', t = within ("Failed to deserialize " ++ rules ++ " into `" ++ field ++ "`") t' ∧ E t') ∨
      ∃ u, R u ∧ (convTold (noConversion source field) g u t ∨ (∃ v, g.apply u = .ok v) ∧ Q t) := by
  have h1 : (deFieldTransparentT rules tmp (backFieldT field source d g) >>= fun v => y >>= fun vs => (pure (f v vs) : TRes δ)) =
      ((tmp d).mapErrContext ("Failed to deserialize " ++ rules ++ " into `" ++ field ++ "`") >>= fun u =>
        convT (noConversion source field) g u >>= fun v => y >>= fun vs => (pure (f v vs) : TRes δ)) := by
    cases g with
    | from_ g =>
      change (((tmp d).mapErrContext _ >>= fun u => pure (g u)) >>= fun v => y >>= fun vs => (pure (f v vs) : TRes δ)) = _
      rw [TRes.bind_assoc]; rfl
    | tryFrom g =>
      change (((tmp d).mapErrContext _ >>= fun u => convErrT (noConversion source field) (g u)) >>= fun v => y >>= fun vs =>
        (pure (f v vs) : TRes δ)) = _
      rw [TRes.bind_assoc]; rfl
  rw [h1]
  refine ((hx.mapErr _).bind (Q := fun u t => convTold (noConversion source field) g u t ∨ (∃ v, g.apply u = .ok v) ∧ Q t) fun u _ => ?_).congr
    fun e => or_congr Iff.rfl (exists_congr fun u => and_congr (by rw [TRes.mapErr_ok]; exact hv u) Iff.rfl)
  refine ((convT_errs _ g u).bind (Q := fun _ => Q) fun v _ => hy.bindOk fun _ => ⟨_, rfl⟩).congr fun t => or_congr Iff.rfl ?_
  rw [exists_and_right]
  exact and_congr (exists_congr fun v => convT_ok _ g u v) Iff.rfl

/-! ### DER -/

mutual
/-- The errors of `from_der`. -/
theorem Ty.toldDer (m : Build) (o : HashOrder) : {α : Type} → (t : Ty α) → t.deserializable → (l : Labels) →
    ToldDer (Ty.deT m o t l) (t.told .der o.order l)
  | _, .bool, h, _ => fun id c => TRes.errs_of (Ty.errsDer m o .bool h id c)
  | _, .int t, h, _ => fun id c => TRes.errs_of (Ty.errsDer m o (.int t) h id c)
  | _, .string, h, _ => fun id c => TRes.errs_of (Ty.errsDer m o .string h id c)
  | _, .octetString, h, _ => fun id c => TRes.errs_of (Ty.errsDer m o .octetString h id c)
  | _, .vec t, h, l => fun id c => (derBody_told ((collectDer_told (R := t.denotes .der o.order) (Ty.deT_erases m o t h (l.part 0))
      (Ty.fromDer_iff m o t h) (Ty.toldDer m o t h (l.part 0)) _ c _).bindOk fun _ => ⟨_, rfl⟩)).tag (q := id = [0x30]) Iff.rfl
  | _, .linkedList t, h, l => fun id c => (derBody_told ((collectDer_told (R := t.denotes .der o.order) (Ty.deT_erases m o t h (l.part 0))
      (Ty.fromDer_iff m o t h) (Ty.toldDer m o t h (l.part 0)) _ c _).bindOk fun _ => ⟨_, rfl⟩)).tag (q := id = [0x30]) Iff.rfl
  | _, .vecDeque t, h, l => fun id c => (derBody_told ((collectDer_told (R := t.denotes .der o.order) (Ty.deT_erases m o t h (l.part 0))
      (Ty.fromDer_iff m o t h) (Ty.toldDer m o t h (l.part 0)) _ c _).bindOk fun _ => ⟨_, rfl⟩)).tag (q := id = [0x30]) Iff.rfl
  | _, .btreeSet _ _ _ t, h, l => fun id c => (derBody_told ((collectDer_told (R := t.denotes .der o.order) (Ty.deT_erases m o t h (l.part 0))
      (Ty.fromDer_iff m o t h) (Ty.toldDer m o t h (l.part 0)) _ c _).bindOk fun _ => ⟨_, rfl⟩)).tag (q := id = [0x30]) Iff.rfl
  | _, .btreeMap _ _ _ k t, h, l => fun id c => (derBody_told ((collectDerPairs_told (K := k.denotes .der o.order) (V := t.denotes .der o.order)
      (Ty.deT_erases m o k h.1 (l.part 0)) (Ty.deT_erases m o t h.2 (l.part 1)) (Ty.fromDer_iff m o k h.1) (Ty.fromDer_iff m o t h.2)
      (Ty.toldDer m o k h.1 (l.part 0)) (Ty.toldDer m o t h.2 (l.part 1)) _ c _).bindOk fun _ => ⟨_, rfl⟩)).tag (q := id = [0x30]) Iff.rfl
  | _, .hashSet _ t, h, l => fun id c => (derBody_told ((collectDer_told (R := t.denotes .der o.order) (Ty.deT_erases m o t h (l.part 0))
      (Ty.fromDer_iff m o t h) (Ty.toldDer m o t h (l.part 0)) _ c _).bindOk fun _ => ⟨_, rfl⟩)).tag (q := id = [0x31]) Iff.rfl
  | _, .hashMap _ k t, h, l => fun id c => (derBody_told ((collectDerPairs_told (K := k.denotes .der o.order) (V := t.denotes .der o.order)
      (Ty.deT_erases m o k h.1 (l.part 0)) (Ty.deT_erases m o t h.2 (l.part 1)) (Ty.fromDer_iff m o k h.1) (Ty.fromDer_iff m o t h.2)
      (Ty.toldDer m o k h.1 (l.part 0)) (Ty.toldDer m o t h.2 (l.part 1)) _ c _).bindOk fun _ => ⟨_, rfl⟩)).tag (q := id = [0x31]) Iff.rfl
  | _, .struct i fs, h, l => fun id c => (derBody_told (Fields.toldDer m o fs h l 0 c)).tag (q := id = i) Iff.rfl
  | _, .enum vs, h, l => fun id c => Variants.toldDer m o vs h l 0 id c
  | _, .transparent fs, h, l => fun id c => Fields.toldDerOne m o fs h.2 l 0 id c
  | _, .conv t _ g, h, l => fun id c => by
    change ((DeT.back (l.converted []) (Ty.deT m o t (l.part 0)) g).fromDer id c).Errs _
    rw [DeT.back_der]
    exact back_told (Ty.toldDer m o t h (l.part 0) id c) ((Ty.deT_erases m o t h (l.part 0)).decodesDer (Ty.fromDer_iff m o t h) id c) g
  | _, .named t _ _ _ _, h, l => fun id c => (Ty.toldDer m o t h l id c).bindOk fun _ => ⟨_, rfl⟩
  | _, .hole, _, _ => fun _ _ => TRes.errs_err _
/-- The same for fields, with the test for octets left. -/
theorem Fields.toldDer (m : Build) (o : HashOrder) : {γ : Type} → (fs : Fields γ) → fs.deserializable → (l : Labels) → (k : Nat) →
    (bytes : Bytes) → (deFieldsT derTmpValT (Fields.deT m o fs l k) bytes >>= finishT).Errs (fs.told .der o.order l k bytes)
  | _, .nil, _, _, _, bytes => finishT_errs bytes
  | _, .plain t r, h, l, k, bytes => finishT_cons (field_told (R := t.denotes .der o.order)
      (derTmpValT_errs (Ty.toldDer m o t h.1 (l.part k)) (l.field [k]) bytes)
      (derTmpT_starts (Ty.deT_erases m o t h.1 (l.part k)) (Ty.fromDer_iff m o t h.1) (l.field [k]) bytes) fun _ rest _ =>
      Fields.toldDer m o r h.2 l (k + 1) rest)
  | _, .skip _ r, h, l, k, bytes => finishT_cons (Fields.toldDer m o r h l (k + 1) bytes)
  | _, .skipSer t r, h, l, k, bytes => finishT_cons (field_told (R := t.denotes .der o.order)
      (derTmpValT_errs (Ty.toldDer m o t h.1 (l.part k)) (l.field [k]) bytes)
      (derTmpT_starts (Ty.deT_erases m o t h.1 (l.part k)) (Ty.fromDer_iff m o t h.1) (l.field [k]) bytes) fun _ rest _ =>
      Fields.toldDer m o r h.2 l (k + 1) rest)
  | _, .skipDe _ _ r, h, l, k, bytes => finishT_cons (Fields.toldDer m o r h l (k + 1) bytes)
  | _, .conv t _ g r, h, l, k, bytes => finishT_cons (convField_told g (R := t.denotes .der o.order)
      (derTmpValT_errs (Ty.toldDer m o t h.1 (l.part k)) (l.field [k]) bytes)
      (derTmpT_starts (Ty.deT_erases m o t h.1 (l.part k)) (Ty.fromDer_iff m o t h.1) (l.field [k]) bytes) fun _ _ rest _ =>
      Fields.toldDer m o r h.2 l (k + 1) rest)
/-- The same for a transparent struct. -/
theorem Fields.toldDerOne (m : Build) (o : HashOrder) : {γ : Type} → (fs : Fields γ) → fs.deserializable → (l : Labels) → (k : Nat) →
    (id c : Bytes) → (deFieldsTransparentT "DER" (fun d => d.fromDer id c) (Fields.deT m o fs l k)).Errs (fs.toldOne .der o.order l k id false c)
  | _, .nil, _, _, _, _, _ => TRes.errs_ok _
  | _, .plain t r, h, l, k, id, c => one_told (Ty.toldDer m o t h.1 (l.part k) id c)
      ((Ty.deT_erases m o t h.1 (l.part k)).decodesDer (Ty.fromDer_iff m o t h.1) id c) (Fields.toldDerOne m o r h.2 l (k + 1) id c)
  | _, .skip _ r, h, l, k, id, c => (Fields.toldDerOne m o r h l (k + 1) id c).bindOk fun _ => ⟨_, rfl⟩
  | _, .skipSer t r, h, l, k, id, c => one_told (Ty.toldDer m o t h.1 (l.part k) id c)
      ((Ty.deT_erases m o t h.1 (l.part k)).decodesDer (Ty.fromDer_iff m o t h.1) id c) (Fields.toldDerOne m o r h.2 l (k + 1) id c)
  | _, .skipDe _ _ r, h, l, k, id, c => (Fields.toldDerOne m o r h l (k + 1) id c).bindOk fun _ => ⟨_, rfl⟩
  | _, .conv t _ g r, h, l, k, id, c => convOne_told (tmp := fun d => d.fromDer id c) g (Ty.toldDer m o t h.1 (l.part k) id c)
      ((Ty.deT_erases m o t h.1 (l.part k)).decodesDer (Ty.fromDer_iff m o t h.1) id c) (Fields.toldDerOne m o r h.2 l (k + 1) id c)
/-- The same for an enum. -/
theorem Variants.toldDer (m : Build) (o : HashOrder) : {ρ : Type} → (vs : Variants ρ) → vs.deserializable → (l : Labels) → (k : Nat) →
    (id c : Bytes) → ((Variants.deT m o vs l k).pick id (fun fs => fromDerContentsT fs c)).Errs (vs.told .der o.order l k id false c)
  | _, .nil, _, _, _, _, _ => TRes.errs_err _
  | _, .cons i fs r, h, l, k, id, c => by
    change (if id = i then _ else _ : TRes _).Errs fun t => (id = i ∧ bodyTold false c (fs.told .der o.order (l.part k) 0) t) ∨ (id ≠ i ∧ _)
    split
    · rename_i e
      exact ((derBody_told (Fields.toldDer m o fs h.1 (l.part k) 0 c)).bindOk fun _ => ⟨_, rfl⟩).congr fun e' => by simp [e]
    · rename_i e
      exact ((Variants.toldDer m o r h.2 l (k + 1) id c).bindOk fun _ => ⟨_, rfl⟩).congr fun e' => by simp [e]
end

/-! ### BER -/

mutual
/-- The errors of `from_ber`. -/
theorem Ty.toldBer (m : Build) (o : HashOrder) : {α : Type} → (t : Ty α) → t.deserializable → (l : Labels) →
    ToldBer (Ty.deT m o t l) (t.told (.ber (decide (m = .release))) o.order l)
  | _, .bool, h, _ => fun id d c hl => TRes.errs_of (Ty.errsBer m o .bool h id d c hl)
  | _, .int t, h, _ => fun id d c hl => TRes.errs_of (Ty.errsBer m o (.int t) h id d c hl)
  | _, .string, h, _ => fun id d c hl => TRes.errs_of (Ty.errsBer m o .string h id d c hl)
  | _, .octetString, h, _ => fun id d c hl => TRes.errs_of (Ty.errsBer m o .octetString h id d c hl)
  | _, .vec t, h, l => fun id _ _ hl => (body_told hl fun c hc => (collectBer_told _ (Ty.deT_erases m o t h (l.part 0))
      (Ty.fromBer_iff m o t h) (Ty.toldBer m o t h (l.part 0)) _ c hc _).bindOk fun _ => ⟨_, rfl⟩).tag (q := id = [0x30]) Iff.rfl
  | _, .linkedList t, h, l => fun id _ _ hl => (body_told hl fun c hc => (collectBer_told _ (Ty.deT_erases m o t h (l.part 0))
      (Ty.fromBer_iff m o t h) (Ty.toldBer m o t h (l.part 0)) _ c hc _).bindOk fun _ => ⟨_, rfl⟩).tag (q := id = [0x30]) Iff.rfl
  | _, .vecDeque t, h, l => fun id _ _ hl => (body_told hl fun c hc => (collectBer_told _ (Ty.deT_erases m o t h (l.part 0))
      (Ty.fromBer_iff m o t h) (Ty.toldBer m o t h (l.part 0)) _ c hc _).bindOk fun _ => ⟨_, rfl⟩).tag (q := id = [0x30]) Iff.rfl
  | _, .btreeSet _ _ _ t, h, l => fun id _ _ hl => (body_told hl fun c hc => (collectBer_told _ (Ty.deT_erases m o t h (l.part 0))
      (Ty.fromBer_iff m o t h) (Ty.toldBer m o t h (l.part 0)) _ c hc _).bindOk fun _ => ⟨_, rfl⟩).tag (q := id = [0x30]) Iff.rfl
  | _, .btreeMap _ _ _ k t, h, l => fun id _ _ hl => (body_told hl fun c hc => (collectBerPairs_told _
      (Ty.deT_erases m o k h.1 (l.part 0)) (Ty.deT_erases m o t h.2 (l.part 1)) (Ty.fromBer_iff m o k h.1) (Ty.fromBer_iff m o t h.2)
      (Ty.toldBer m o k h.1 (l.part 0)) (Ty.toldBer m o t h.2 (l.part 1)) _ c hc _).bindOk fun _ => ⟨_, rfl⟩).tag (q := id = [0x30]) Iff.rfl
  | _, .hashSet _ t, h, l => fun id _ _ hl => (body_told hl fun c hc => (collectBer_told _ (Ty.deT_erases m o t h (l.part 0))
      (Ty.fromBer_iff m o t h) (Ty.toldBer m o t h (l.part 0)) _ c hc _).bindOk fun _ => ⟨_, rfl⟩).tag (q := id = [0x31]) Iff.rfl
  | _, .hashMap _ k t, h, l => fun id _ _ hl => (body_told hl fun c hc => (collectBerPairs_told _
      (Ty.deT_erases m o k h.1 (l.part 0)) (Ty.deT_erases m o t h.2 (l.part 1)) (Ty.fromBer_iff m o k h.1) (Ty.fromBer_iff m o t h.2)
      (Ty.toldBer m o k h.1 (l.part 0)) (Ty.toldBer m o t h.2 (l.part 1)) _ c hc _).bindOk fun _ => ⟨_, rfl⟩).tag (q := id = [0x31]) Iff.rfl
  | _, .struct i fs, h, l => fun id d c hl => (Fields.toldContents m o fs h l d c hl).tag (q := id = i) Iff.rfl
  | _, .enum vs, h, l => fun id d c hl => Variants.toldBer m o vs h l 0 id d c hl
  | _, .transparent fs, h, l => fun id d c hl => Fields.toldBerOne m o fs h.2 l 0 id d c hl
  | _, .conv t _ g, h, l => fun id d c hl => by
    change ((DeT.back (l.converted []) (Ty.deT m o t (l.part 0)) g).fromBer id (lenOf d c) c).Errs _
    rw [DeT.back_ber]
    exact back_told (Ty.toldBer m o t h (l.part 0) id d c hl)
      (fun v => (Ty.deT_erases m o t h (l.part 0)).decodesBer (Ty.fromBer_iff m o t h) id d c v hl) g
  | _, .named t _ _ _ _, h, l => fun id d c hl => (Ty.toldBer m o t h l id d c hl).bindOk fun _ => ⟨_, rfl⟩
  | _, .hole, _, _ => fun _ _ _ _ => TRes.errs_err _
/-- The same for the contents of a struct or variant. -/
theorem Fields.toldContents (m : Build) (o : HashOrder) : {γ : Type} → (fs : Fields γ) → fs.deserializable → (l : Labels) →
    (indef : Bool) → (raw : Bytes) → raw.length ≤ isizeMax →
    (fromBerContentsT m (Fields.deT m o fs l 0) (lenOf indef raw) raw).Errs
      (bodyTold indef raw (fs.told (.ber (decide (m = .release))) o.order l 0))
  | _, fs, h, l, indef, raw, hl => by
    rw [fromBerContentsT, structContents_eq]
    exact body_told hl fun c hc => Fields.toldBer m o fs h l 0 c hc
/-- The same for fields, with the test for octets left. -/
theorem Fields.toldBer (m : Build) (o : HashOrder) : {γ : Type} → (fs : Fields γ) → fs.deserializable → (l : Labels) → (k : Nat) →
    (bytes : Bytes) → bytes.length ≤ isizeMax →
    (deFieldsT berTmpValT (Fields.deT m o fs l k) bytes >>= finishT).Errs (fs.told (.ber (decide (m = .release))) o.order l k bytes)
  | _, .nil, _, _, _, bytes, _ => finishT_errs bytes
  | _, .plain t r, h, l, k, bytes, hl => finishT_cons (field_told (R := t.denotes (.ber (decide (m = .release))) o.order)
      (berTmpValT_errs _ (Ty.toldBer m o t h.1 (l.part k)) (l.field [k]) bytes hl)
      (berTmpT_starts _ (Ty.deT_erases m o t h.1 (l.part k)) (Ty.fromBer_iff m o t h.1) (l.field [k]) bytes hl) fun _ rest hx =>
      Fields.toldBer m o r h.2 l (k + 1) rest (berTmpT_length (Ty.deT_erases m o t h.1 (l.part k)) hl hx))
  | _, .skip _ r, h, l, k, bytes, hl => finishT_cons (Fields.toldBer m o r h l (k + 1) bytes hl)
  | _, .skipSer t r, h, l, k, bytes, hl => finishT_cons (field_told (R := t.denotes (.ber (decide (m = .release))) o.order)
      (berTmpValT_errs _ (Ty.toldBer m o t h.1 (l.part k)) (l.field [k]) bytes hl)
      (berTmpT_starts _ (Ty.deT_erases m o t h.1 (l.part k)) (Ty.fromBer_iff m o t h.1) (l.field [k]) bytes hl) fun _ rest hx =>
      Fields.toldBer m o r h.2 l (k + 1) rest (berTmpT_length (Ty.deT_erases m o t h.1 (l.part k)) hl hx))
  | _, .skipDe _ _ r, h, l, k, bytes, hl => finishT_cons (Fields.toldBer m o r h l (k + 1) bytes hl)
  | _, .conv t _ g r, h, l, k, bytes, hl => finishT_cons (convField_told g (R := t.denotes (.ber (decide (m = .release))) o.order)
      (berTmpValT_errs _ (Ty.toldBer m o t h.1 (l.part k)) (l.field [k]) bytes hl)
      (berTmpT_starts _ (Ty.deT_erases m o t h.1 (l.part k)) (Ty.fromBer_iff m o t h.1) (l.field [k]) bytes hl) fun _ _ rest hx =>
      Fields.toldBer m o r h.2 l (k + 1) rest (berTmpT_length (Ty.deT_erases m o t h.1 (l.part k)) hl hx))
/-- The same for a transparent struct. -/
theorem Fields.toldBerOne (m : Build) (o : HashOrder) : {γ : Type} → (fs : Fields γ) → fs.deserializable → (l : Labels) → (k : Nat) →
    (id : Bytes) → (indef : Bool) → (raw : Bytes) → raw.length ≤ isizeMax →
    (deFieldsTransparentT "BER" (fun d => d.fromBer id (lenOf indef raw) raw) (Fields.deT m o fs l k)).Errs
      (fs.toldOne (.ber (decide (m = .release))) o.order l k id indef raw)
  | _, .nil, _, _, _, _, _, _, _ => TRes.errs_ok _
  | _, .plain t r, h, l, k, id, d, c, hl => one_told (Ty.toldBer m o t h.1 (l.part k) id d c hl)
      (fun v => (Ty.deT_erases m o t h.1 (l.part k)).decodesBer (Ty.fromBer_iff m o t h.1) id d c v hl)
      (Fields.toldBerOne m o r h.2 l (k + 1) id d c hl)
  | _, .skip _ r, h, l, k, id, d, c, hl => (Fields.toldBerOne m o r h l (k + 1) id d c hl).bindOk fun _ => ⟨_, rfl⟩
  | _, .skipSer t r, h, l, k, id, d, c, hl => one_told (Ty.toldBer m o t h.1 (l.part k) id d c hl)
      (fun v => (Ty.deT_erases m o t h.1 (l.part k)).decodesBer (Ty.fromBer_iff m o t h.1) id d c v hl)
      (Fields.toldBerOne m o r h.2 l (k + 1) id d c hl)
  | _, .skipDe _ _ r, h, l, k, id, d, c, hl => (Fields.toldBerOne m o r h l (k + 1) id d c hl).bindOk fun _ => ⟨_, rfl⟩
  | _, .conv t _ g r, h, l, k, id, d, c, hl => convOne_told (tmp := fun x => x.fromBer id (lenOf d c) c) g
      (Ty.toldBer m o t h.1 (l.part k) id d c hl)
      (fun v => (Ty.deT_erases m o t h.1 (l.part k)).decodesBer (Ty.fromBer_iff m o t h.1) id d c v hl)
      (Fields.toldBerOne m o r h.2 l (k + 1) id d c hl)
/-- The same for an enum. -/
theorem Variants.toldBer (m : Build) (o : HashOrder) : {ρ : Type} → (vs : Variants ρ) → vs.deserializable → (l : Labels) → (k : Nat) →
    (id : Bytes) → (indef : Bool) → (raw : Bytes) → raw.length ≤ isizeMax →
    ((Variants.deT m o vs l k).pick id (fun fs => fromBerContentsT m fs (lenOf indef raw) raw)).Errs
      (vs.told (.ber (decide (m = .release))) o.order l k id indef raw)
  | _, .nil, _, _, _, _, _, _, _ => TRes.errs_err _
  | _, .cons i fs r, h, l, k, id, indef, raw, hl => by
    change (if id = i then _ else _ : TRes _).Errs fun t =>
      (id = i ∧ bodyTold indef raw (fs.told (.ber (decide (m = .release))) o.order (l.part k) 0) t) ∨ (id ≠ i ∧ _)
    split
    · rename_i e
      exact ((Fields.toldContents m o fs h.1 (l.part k) indef raw hl).bindOk fun _ => ⟨_, rfl⟩).congr fun e' => by simp [e]
    · rename_i e
      exact ((Variants.toldBer m o r h.2 l (k + 1) id indef raw hl).bindOk fun _ => ⟨_, rfl⟩).congr fun e' => by simp [e]
end

end Bsn1
