import Verif.Lemmas.Work
import Verif.Lemmas.DeSettled
import Verif.Spec.Work
/-!
# Bounds of the octets looked at
-/

namespace Bsn1
open Spec

variable {α β γ δ ρ : Type}

/-- `x` looks at no more than `B` octets; after success `Q` holds of the result and `f` of it is left of `B`. -/
def Work.Uses (x : Work α) (B : Nat) (f : α → Nat) (Q : α → Prop) : Prop :=
  x.octets ≤ B ∧ ∀ a, x.res = .ok a → Q a ∧ x.octets + f a ≤ B

namespace Work.Uses

theorem bind {x : Work α} {k : α → Work β} {B : Nat} {f : α → Nat} {g : β → Nat} {Q : α → Prop} {R : β → Prop} (hx : x.Uses B f Q)
    (hk : ∀ a, x.res = .ok a → Q a → (k a).Uses (f a) g R) : (x >>= k).Uses B g R := by
  show (Work.bind x k).Uses B g R
  unfold Work.bind
  cases e : x.res with
  | ok a =>
    obtain ⟨hq, hb⟩ := hx.2 a e
    obtain ⟨h1, h2⟩ := hk a e hq
    refine ⟨?_, fun b hb' => ?_⟩
    · show x.octets + (k a).octets ≤ B
      omega
    · obtain ⟨h3, h4⟩ := h2 b hb'
      refine ⟨h3, ?_⟩
      show x.octets + (k a).octets + g b ≤ B
      omega
  | err e => exact ⟨hx.1, fun _ h => nomatch h⟩
  | panic => exact ⟨hx.1, fun _ h => nomatch h⟩
  | ub => exact ⟨hx.1, fun _ h => nomatch h⟩

theorem pure {a : α} {B : Nat} {f : α → Nat} {Q : α → Prop} (h : f a ≤ B) (hq : Q a) : (Pure.pure a : Work α).Uses B f Q :=
  ⟨Nat.zero_le _, fun b hb => by cases hb; exact ⟨hq, (Nat.zero_add _).le.trans h⟩⟩

theorem free {r : Res α} {B : Nat} {f : α → Nat} {Q : α → Prop} (h : ∀ a, r = .ok a → Q a ∧ f a ≤ B) : (Work.free r).Uses B f Q :=
  ⟨Nat.zero_le _, fun b hb => ⟨(h b hb).1, (Nat.zero_add _).le.trans (h b hb).2⟩⟩

theorem err {e : Error} {B : Nat} {f : α → Nat} {Q : α → Prop} : (Work.free (.err e) : Work α).Uses B f Q :=
  ⟨Nat.zero_le _, fun _ h => nomatch h⟩

theorem mono {x : Work α} {B B' : Nat} {f g : α → Nat} {Q R : α → Prop} (h : x.Uses B f Q) (hB : B ≤ B') (hf : ∀ a, Q a → g a ≤ f a)
    (hQ : ∀ a, Q a → R a) : x.Uses B' g R :=
  ⟨h.1.trans hB, fun a ha => by
    obtain ⟨h1, h2⟩ := h.2 a ha
    have := hf a h1
    exact ⟨hQ a h1, by omega⟩⟩

theorem context {x : Work α} {B : Nat} {f : α → Nat} {Q : α → Prop} (h : x.Uses B f Q) : x.context.Uses B f Q :=
  ⟨h.1, fun a ha => h.2 a (by
    change mapErrContext x.res = .ok a at ha
    cases e : x.res <;> rw [e] at ha <;> first | exact ha | exact nomatch ha)⟩

theorem ite {c : Prop} [Decidable c] {x y : Work α} {B : Nat} {f : α → Nat} {Q : α → Prop} (hx : c → x.Uses B f Q)
    (hy : ¬ c → y.Uses B f Q) : (if c then x else y).Uses B f Q := by
  split
  · exact hx ‹_›
  · exact hy ‹_›

/-- Only the number matters. -/
theorem of_le {x : Work α} {B C : Nat} (h : x.octets ≤ B) : x.Uses (B + C) (fun _ => C) fun _ => True :=
  ⟨by omega, fun _ _ => ⟨trivial, by show x.octets + C ≤ B + C; omega⟩⟩

end Work.Uses

/-! ### What the parsers look at -/

theorem headerOctets_le (c : Bytes) : headerOctets c ≤ c.length := Nat.sub_le _ _

theorem headerOctets_tlv {id b : Bytes} (h1 : IsId id) (h2 : b.length < 2 ^ 64) (rest : Bytes) :
    headerOctets (tlv id b ++ rest) + b.length = (tlv id b).length := by
  have e := parseIdLength_definite h1 h2 (b ++ rest) []
  rw [show id ++ lenOctets b.length ++ (b ++ rest) = tlv id b ++ rest by simp [tlv]] at e
  rw [headerOctets, e, tlv_length]
  simp only [List.length_append, tlv_length]
  omega

theorem headerOctets_indef {id : Bytes} (h1 : IsId id) (rest : Bytes) : headerOctets (id ++ indefOctets ++ rest) = id.length + 1 := by
  rw [headerOctets, parseIdLength_indefinite h1]
  simp only [List.length_append, indefOctets, List.length_singleton]
  omega

theorem disassembleOctets_value {p id raw : Bytes} {indef : Bool} (h : BerValue p id indef raw) :
    disassembleOctets p = p.length - raw.length := by
  rw [disassembleOctets, berValue_disassemble h]

theorem idOctets_value {p id raw : Bytes} {indef : Bool} (h : BerValue p id indef raw) :
    idOctets p ≤ p.length - raw.length := by
  have e := berValue_disassemble h
  rw [BerRef.disassemble] at e
  obtain ⟨⟨i, bs⟩, h1, h2⟩ := Res.bind_eq_ok.mp e
  simp only [] at h2
  obtain ⟨⟨l, r⟩, h3, h4⟩ := Res.bind_eq_ok.mp h2
  have h5 := Res.ok.inj h4
  simp only [Prod.mk.injEq] at h5
  obtain ⟨rfl, _, _⟩ := h5
  rw [idOctets, h1]
  obtain ⟨hid, h⟩ := h
  cases indef with
  | false =>
    obtain ⟨_, rfl⟩ := h
    rw [tlv_length]
    show List.length _ ≤ _
    omega
  | true =>
    obtain ⟨c, _, rfl, rfl⟩ := h
    simp only [List.length_append]
    omega

theorem doParseOctets_le {bs rest : Bytes} {d : Int} (h : BerRef.doParse bs = (.ok d, rest)) :
    BerRef.doParseOctets bs + rest.length ≤ bs.length := by
  rw [BerRef.doParseOctets]
  have hs := berStep_spec bs
  rw [h] at hs
  cases hs with
  | eoc _ h3 =>
    rw [h3, if_pos]
    · simp [Spec.eoc, BerRef.eoc]; omega
    · simp [Spec.eoc, BerRef.eoc]
  | definite id c _ h1 h2 h3 h4 =>
    subst h4
    have := headerOctets_tlv h1 h2 rest
    have := tlv_length id c
    have := isId_length_pos h1
    have : 0 < (lenOctets c.length).length := List.length_pos_iff.mpr (lenOctets_ne_nil _)
    rw [List.length_append]
    split
    · rw [show BerRef.eoc.length = 2 from rfl]; omega
    · omega
  | indefinite id _ h1 h2 =>
    subst h2
    have := headerOctets_indef h1 rest
    have := isId_length_pos h1
    have hl : (id ++ indefOctets ++ rest).length = id.length + 1 + rest.length := by simp [indefOctets]; omega
    rw [hl]
    split
    · rw [show BerRef.eoc.length = 2 from rfl]; omega
    · omega

theorem doParseOctets_le' (bs : Bytes) : BerRef.doParseOctets bs ≤ bs.length := by
  rw [BerRef.doParseOctets]
  split
  · rename_i h
    exact (List.isPrefixOf_iff_prefix.mp h).length_le
  · exact headerOctets_le bs

theorem parseLoopOctets_le : ∀ (f : Nat) (d : Int) (bs : Bytes), BerRef.parseLoopOctets f d bs ≤ bs.length ∧
    ∀ rest, BerRef.parseLoop f d bs = (.ok (), rest) → BerRef.parseLoopOctets f d bs + rest.length ≤ bs.length := by
  intro f
  induction f with
  | zero => exact fun d bs => ⟨Nat.zero_le _, fun rest h => nomatch h⟩
  | succ f ih =>
    intro d bs
    rw [BerRef.parseLoopOctets, BerRef.parseLoop]
    rcases hdp : BerRef.doParse bs with ⟨r, bs'⟩
    match r with
    | .ok δ =>
      have h1 := doParseOctets_le hdp
      simp only
      split
      · exact ⟨by omega, fun rest h => nomatch h⟩
      · split
        · obtain ⟨h2, h3⟩ := ih (d + δ) bs'
          exact ⟨by omega, fun rest h => by have := h3 rest h; omega⟩
        · exact ⟨by omega, fun rest h => by cases h; exact h1⟩
    | .err e => exact ⟨doParseOctets_le' bs, fun rest h => nomatch h⟩
    | .panic => exact ⟨doParseOctets_le' bs, fun rest h => nomatch h⟩
    | .ub => exact ⟨doParseOctets_le' bs, fun rest h => nomatch h⟩

theorem parseOctets_le (bs : Bytes) : BerRef.parseOctets bs ≤ bs.length := (parseLoopOctets_le _ _ bs).1

theorem parseOctets_value {p rest : Bytes} (h : BerRef.parse (p ++ rest) = (.ok p, rest)) : BerRef.parseOctets (p ++ rest) ≤ p.length := by
  have hl := parseLoopOctets_le ((p ++ rest).length + 1) 0 (p ++ rest)
  rw [BerRef.parse] at h
  rcases hp : BerRef.parseLoop ((p ++ rest).length + 1) 0 (p ++ rest) with ⟨r, rest'⟩
  rw [hp] at h
  match r with
  | .ok () =>
    simp only [Prod.mk.injEq] at h
    obtain ⟨_, rfl⟩ := h
    have := hl.2 _ hp
    have hl := List.length_append (as := p) (bs := rest')
    rw [BerRef.parseOctets]
    omega
  | .err e => simp at h
  | .panic => simp at h
  | .ub => simp at h

theorem parseOctets_definite {id b : Bytes} (h1 : IsId id) (h2 : b.length < 2 ^ 64) (rest : Bytes) :
    BerRef.parseOctets (tlv id b ++ rest) + b.length ≤ (tlv id b).length := by
  rw [BerRef.parseOctets, BerRef.parseLoopOctets]
  have e := headerOctets_tlv h1 h2 rest
  have hd : BerRef.doParseOctets (tlv id b ++ rest) ≤ headerOctets (tlv id b ++ rest) := by
    have := tlv_length id b
    have := isId_length_pos h1
    have : 0 < (lenOctets b.length).length := List.length_pos_iff.mpr (lenOctets_ne_nil _)
    rw [BerRef.doParseOctets]
    split
    · rw [show BerRef.eoc.length = 2 from rfl]; omega
    · exact Nat.le_refl _
  by_cases hne : tlv id b = Spec.eoc
  · rw [hne] at hd e ⊢
    rw [doParse_eoc]
    simp only
    rw [if_neg (by rw [isizeMax_eq]; omega), if_neg (by omega)]
    omega
  · rw [doParse_definite h1 h2 hne]
    simp only
    rw [if_neg (by rw [isizeMax_eq]; omega), if_neg (by omega)]
    omega

/-! ### Budgets -/

/-- How a parser is paid for: of `φ (k + 1) n`, the allowance for `n` octets of contents of a value of level `k + 1`, a value of level `k` at their front is
parsed and its header gone over twice more, and what is left is the allowances for its contents and for the rest. -/
structure Budget where
  parse : Bytes → Res Bytes × Bytes
  octets : Bytes → Nat
  Good : Bytes → Prop
  φ : Nat → Nat → Nat
  le : ∀ k n, n ≤ φ k n
  mono : ∀ {k k' n n' : Nat}, k ≤ k' → n ≤ n' → φ k n ≤ φ k' n'
  take : ∀ {a b : Bytes}, Good (a ++ b) → Good a
  octets_le : ∀ c, octets c ≤ c.length
  step : ∀ {c p rest : Bytes}, Good c → parse c = (.ok p, rest) → ∃ id indef raw, BerValue p id indef raw ∧ Good raw ∧ Good rest ∧
    ∀ k, octets c + 2 * (p.length - raw.length) + φ k raw.length + φ (k + 1) rest.length ≤ φ (k + 1) c.length

namespace Work.Uses

theorem frame {x : Work α} {B : Nat} {f : α → Nat} {Q : α → Prop} (h : x.Uses B f Q) (C : Nat) : x.Uses (B + C) (fun a => f a + C) Q :=
  ⟨h.1.trans (by omega), fun a ha => by
    obtain ⟨h1, h2⟩ := h.2 a ha
    exact ⟨h1, by show x.octets + (f a + C) ≤ B + C; omega⟩⟩

theorem octets {x : Work α} {B : Nat} {f : α → Nat} {Q : α → Prop} (h : x.Uses B f Q) : x.octets ≤ B := h.1

end Work.Uses

theorem mapErrContext_ok' {r : Res α} {d : α} (h : mapErrContext r = .ok d) : r = .ok d := by
  cases r <;> first | exact h | exact nomatch h

/-- A decoder, for BER or DER. -/
abbrev Dec (α : Type) := Bytes → Length → Bytes → Work α

namespace Budget

/-- The decoder keeps to the allowance. -/
def Keeps (P : Budget) (d : Dec α) (k : Nat) : Prop := ∀ id l c, P.Good c → (d id l c).octets ≤ P.φ k c.length

theorem Keeps.mono {P : Budget} {d : Dec α} {k k' : Nat} (h : P.Keeps d k) (hk : k ≤ k') : P.Keeps d k' :=
  fun id l c hc => (h id l c hc).trans (P.mono hk (Nat.le_refl _))

/-- What is left after a value `p` was parsed. -/
def left (P : Budget) (k : Nat) (rest p : Bytes) : Nat :=
  2 * disassembleOctets p + P.φ k (p.length - disassembleOctets p) + P.φ (k + 1) rest.length

/-- A value whose contents, as well as the rest, are good. -/
def Value (P : Budget) (rest p : Bytes) : Prop := ∃ id indef raw, BerValue p id indef raw ∧ P.Good raw ∧ P.Good rest

theorem left_value {P : Budget} {k : Nat} {rest p id raw : Bytes} {indef : Bool} (h : BerValue p id indef raw) :
    P.left k rest p = 2 * (p.length - raw.length) + P.φ k raw.length + P.φ (k + 1) rest.length := by
  have := berValue_length h
  rw [left, disassembleOctets_value h, show p.length - (p.length - raw.length) = raw.length by omega]

theorem parses (P : Budget) {c : Bytes} (hc : P.Good c) (k : Nat) :
    (⟨(P.parse c).1, P.octets c⟩ : Work Bytes).Uses (P.φ (k + 1) c.length) (P.left k (P.parse c).2) (P.Value (P.parse c).2) := by
  refine ⟨(P.octets_le c).trans (P.le _ _), fun p hp => ?_⟩
  obtain ⟨id, indef, raw, h1, h2, h3, h4⟩ := P.step hc (p := p) (rest := (P.parse c).2) (Prod.ext hp rfl)
  refine ⟨⟨id, indef, raw, h1, h2, h3⟩, ?_⟩
  rw [left_value h1]
  have := h4 k
  show P.octets c + _ ≤ _
  omega

theorem parses' (P : Budget) {c : Bytes} (hc : P.Good c) (k : Nat) :
    (⟨mapErrContext (P.parse c).1, P.octets c⟩ : Work Bytes).Uses (P.φ (k + 1) c.length) (P.left k (P.parse c).2)
      (P.Value (P.parse c).2) := by
  obtain ⟨h1, h2⟩ := P.parses hc k
  exact ⟨h1, fun p hp => h2 p (mapErrContext_ok' hp)⟩

/-- `der_to_val` and `ber_to_val`. -/
def toVal (P : Budget) (d : Dec α) (contents : Bytes) : Work (Option (α × Bytes)) :=
  if contents.isEmpty then pure none
  else do
    let p ← ⟨mapErrContext (P.parse contents).1, P.octets contents⟩
    let (id, length, c) ← ⟨BerRef.disassemble p, disassembleOctets p⟩
    let val ← (d id length c).context
    return some (val, (P.parse contents).2)

/-- What is left after an element. -/
def leftNext (P : Budget) (k : Nat) : Option (β × Bytes) → Nat
  | none => 0
  | some (_, rest) => P.φ k rest.length

/-- The rest after an element is good. -/
def GoodNext (P : Budget) : Option (β × Bytes) → Prop
  | none => True
  | some (_, rest) => P.Good rest

theorem Keeps.tmp {P : Budget} {d : Dec α} {k : Nat} (h : P.Keeps d k) {rest p : Bytes} (hp : P.Value rest p) {g : α → β} {l : β → Nat} {Q : β → Prop} (C : Nat)
    (hl : ∀ a, l (g a) ≤ P.φ (k + 1) rest.length + C) (hQ : ∀ a, P.Good rest → Q (g a)) :
    Work.Uses (do
      let (id, length, c) ← (⟨BerRef.disassemble p, disassembleOctets p⟩ : Work _)
      let val ← (d id length c).context
      return g val) (P.left k rest p + C) l Q := by
  obtain ⟨id, indef, raw, h1, h2, h3⟩ := hp
  rw [left_value h1]
  refine Work.Uses.bind (f := fun _ => P.φ k raw.length + (P.φ (k + 1) rest.length + C)) (Q := fun x => x = (id, lenOf indef raw, raw)) ⟨?_, ?_⟩ ?_
  · show disassembleOctets p ≤ _
    rw [disassembleOctets_value h1]
    omega
  · intro x hx
    change BerRef.disassemble p = .ok x at hx
    rw [berValue_disassemble h1] at hx
    refine ⟨(Res.ok.inj hx).symm, ?_⟩
    show disassembleOctets p + (P.φ k raw.length + (P.φ (k + 1) rest.length + C)) ≤ _
    rw [disassembleOctets_value h1]
    omega
  · rintro _ _ rfl
    exact (Work.Uses.of_le (h id (lenOf indef raw) raw h2)).context.bind fun v _ _ => .pure (hl v) (hQ v h3)

theorem Keeps.toVal {P : Budget} {d : Dec α} {k : Nat} (h : P.Keeps d k) {c : Bytes} (hc : P.Good c) :
    (P.toVal d c).Uses (P.φ (k + 1) c.length) (P.leftNext (k + 1)) P.GoodNext := by
  rw [Budget.toVal]
  refine .ite (fun _ => .pure (Nat.zero_le _) trivial) fun _ => ?_
  exact (P.parses' hc k).bind fun p _ hp => h.tmp hp 0 (fun _ => Nat.le_refl _) fun _ h => h

/-- `der_to_key_val` and `ber_to_key_val`. -/
def toKeyVal (P : Budget) (dk : Dec α) (dv : Dec β) (contents : Bytes) : Work (Option ((α × β) × Bytes)) :=
  if contents.isEmpty then pure none
  else do
    let pair ← ⟨mapErrContext (P.parse contents).1, P.octets contents⟩
    let pairId ← ⟨BerRef.id pair, idOctets pair⟩
    if pairId ≠ IdRef.sequence then Work.free (.err (Error.invalidKeyValuePair.context))
    else
      let pairContents ← ⟨BerRef.contents pair, disassembleOctets pair⟩
      let key ← ⟨mapErrContext (P.parse pairContents).1, P.octets pairContents⟩
      let pairContents := (P.parse pairContents).2
      let val ← ⟨mapErrContext (P.parse pairContents).1, P.octets pairContents⟩
      let pairContents := (P.parse pairContents).2
      if pairContents.isEmpty then
        let (id, length, c) ← ⟨BerRef.disassemble key, disassembleOctets key⟩
        let key ← (dk id length c).context
        let (id, length, c) ← ⟨BerRef.disassemble val, disassembleOctets val⟩
        let val ← (dv id length c).context
        return some ((key, val), (P.parse contents).2)
      else Work.free (.err (Error.invalidKeyValuePair.context))

theorem Keeps.toKeyVal {P : Budget} {dk : Dec α} {dv : Dec β} {k : Nat} (hk : P.Keeps dk k) (hv : P.Keeps dv k) {c : Bytes}
    (hc : P.Good c) : (P.toKeyVal dk dv c).Uses (P.φ (k + 2) c.length) (P.leftNext (k + 2)) P.GoodNext := by
  rw [Budget.toKeyVal]
  refine .ite (fun _ => .pure (Nat.zero_le _) trivial) fun _ => ?_
  refine (P.parses' hc (k + 1)).bind fun p _ hp => ?_
  obtain ⟨id, indef, raw, h1, h2, h3⟩ := hp
  rw [left_value h1]
  show Work.Uses _ (2 * (p.length - raw.length) + P.φ (k + 1) raw.length + P.φ (k + 2) (P.parse c).2.length) _ _
  have hi := idOctets_value h1
  refine Work.Uses.bind (f := fun _ => (p.length - raw.length) + (P.φ (k + 1) raw.length + P.φ (k + 2) (P.parse c).2.length)) (Q := fun _ => True)
    ⟨?_, ?_⟩ ?_
  · show idOctets p ≤ _
    omega
  · intro x _
    refine ⟨trivial, ?_⟩
    show idOctets p + (_ + (P.φ (k + 1) raw.length + P.φ (k + 2) (P.parse c).2.length)) ≤ _
    omega
  intro i _ _
  refine .ite (fun _ => .err) fun _ => ?_
  refine Work.Uses.bind (f := fun _ => P.φ (k + 1) raw.length + P.φ (k + 2) (P.parse c).2.length) (Q := fun x => raw = x) ⟨?_, ?_⟩ ?_
  · show disassembleOctets p ≤ _
    rw [disassembleOctets_value h1]
    omega
  · intro x hx
    change BerRef.contents p = .ok x at hx
    rw [berValue_contents h1] at hx
    refine ⟨Res.ok.inj hx, ?_⟩
    show disassembleOctets p + (P.φ (k + 1) raw.length + P.φ (k + 2) (P.parse c).2.length) ≤ _
    rw [disassembleOctets_value h1]
  rintro _ _ rfl
  refine ((P.parses' h2 k).frame _).bind fun key _ hkey => ?_
  obtain ⟨id1, indef1, raw1, k1, k2, k3⟩ := hkey
  rw [left_value k1]
  refine Work.Uses.mono (((P.parses' k3 k).frame
    (2 * (key.length - raw1.length) + P.φ k raw1.length + P.φ (k + 2) (P.parse c).2.length)).bind (g := P.leftNext (k + 2)) (R := P.GoodNext) fun val _ hval => ?_) (by omega)
    (fun _ _ => Nat.le_refl _) fun _ h => h
  refine .ite (fun _ => ?_) fun _ => .err
  have e1 := berValue_disassemble k1
  have l1 := berValue_length k1
  refine Work.Uses.bind (f := fun _ => P.left k (P.parse (P.parse raw).2).2 val + (P.φ k raw1.length + P.φ (k + 2) (P.parse c).2.length))
    (Q := fun x => x = (id1, lenOf indef1 raw1, raw1)) ⟨?_, ?_⟩ ?_
  · show disassembleOctets key ≤ _
    rw [disassembleOctets_value k1]
    omega
  · intro x hx
    change BerRef.disassemble key = .ok x at hx
    rw [e1] at hx
    refine ⟨(Res.ok.inj hx).symm, ?_⟩
    show disassembleOctets key + (P.left k (P.parse (P.parse raw).2).2 val + (P.φ k raw1.length + P.φ (k + 2) (P.parse c).2.length)) ≤ _
    rw [disassembleOctets_value k1]
    omega
  rintro _ _ rfl
  refine Work.Uses.bind (f := fun _ => P.left k (P.parse (P.parse raw).2).2 val + P.φ (k + 2) (P.parse c).2.length) (Q := fun _ => True)
    (Work.Uses.context ⟨?_, fun _ _ => ⟨trivial, ?_⟩⟩) ?_
  · have := hk id1 (lenOf indef1 raw1) raw1 k2
    show (dk id1 (lenOf indef1 raw1) raw1).octets ≤ _
    omega
  · have := hk id1 (lenOf indef1 raw1) raw1 k2
    show (dk id1 (lenOf indef1 raw1) raw1).octets + (P.left k (P.parse (P.parse raw).2).2 val + P.φ (k + 2) (P.parse c).2.length) ≤ _
    omega
  intro kv _ _
  exact hv.tmp hval (g := fun v => (some ((kv, v), (P.parse c).2))) _ (fun _ => Nat.le_add_left _ _) fun _ _ => h3

/-- The loop over the elements. -/
theorem collectLoop (P : Budget) {k : Nat} {next : Bytes → Work (Option (α × Bytes))}
    (h : ∀ c, P.Good c → (next c).Uses (P.φ k c.length) (P.leftNext k) P.GoodNext) (insert : γ → α → γ) :
    ∀ (f : Nat) (c : Bytes) (ret : γ), P.Good c → (Work.collectLoop next insert f c ret).octets ≤ P.φ k c.length := by
  intro f
  induction f with
  | zero => exact fun c ret _ => Nat.zero_le _
  | succ f ih =>
    intro c ret hc
    rw [Work.collectLoop]
    refine ((h c hc).bind (g := fun _ => 0) (R := fun _ => True) fun x _ hx => ?_).octets
    match x with
    | none => exact .pure (Nat.zero_le _) trivial
    | some (t, rest) => exact ⟨ih rest _ hx, fun _ _ => ⟨trivial, ih rest _ hx⟩⟩

theorem collect (P : Budget) {k : Nat} {next : Bytes → Work (Option (α × Bytes))}
    (h : ∀ c, P.Good c → (next c).Uses (P.φ k c.length) (P.leftNext k) P.GoodNext) (insert : List β → α → List β) (order : List β → List β)
    {c : Bytes} (hc : P.Good c) : Work.octets (do
      let ret ← Work.collect next insert c []
      return order ret) ≤ P.φ k c.length := by
  have := P.collectLoop h insert (c.length + 1) c [] hc
  exact (Work.Uses.bind (f := fun _ => 0) (Q := fun _ => True) (g := fun _ => 0) (R := fun _ => True) ⟨this, fun _ _ => ⟨trivial, this⟩⟩
    fun _ _ _ => .pure (Nat.le_refl _) trivial).octets

end Budget

theorem excludeEoc_take {m : Build} {l : Length} {raw c : Bytes} (h : excludeEoc m l raw = .ok c) : ∃ r, raw = c ++ r := by
  cases l with
  | definite n =>
    obtain ⟨_, _, h2⟩ := Res.bind_eq_ok.mp h
    exact ⟨[], by rw [Res.ok.inj h2, List.append_nil]⟩
  | indefinite =>
    rw [excludeEoc] at h
    split at h
    · rw [sliceTo] at h
      split at h
      · exact ⟨raw.drop (raw.length - BerRef.eoc.length), by rw [← Res.ok.inj h, List.take_append_drop]⟩
      · exact nomatch h
    · exact nomatch h

/-- Every decoder in the fields is one of `B`. -/
inductive WField.All (B : {δ : Type} → WDe δ → Prop) : {β : Type} → WField β → Prop
  | skip {β : Type} (d : β) : WField.All B (.skip d)
  | plain {β : Type} {d : WDe β} : B d → WField.All B (.plain d)
  | from_ {β δ : Type} {d : WDe δ} (f : δ → β) : B d → WField.All B (.from_ d f)
  | tryFrom {β δ : Type} {d : WDe δ} (f : δ → Except Chain β) : B d → WField.All B (.tryFrom d f)

inductive WFields.All (B : {δ : Type} → WDe δ → Prop) : {γ : Type} → WFields γ → Prop
  | nil : WFields.All B .nil
  | cons {β γ : Type} {f : WField β} {r : WFields γ} : f.All B → WFields.All B r → WFields.All B (.cons f r)

inductive WVariants.All (B : {δ : Type} → WDe δ → Prop) : {ρ : Type} → WVariants ρ → Prop
  | nil : WVariants.All B .nil
  | cons {γ ρ : Type} (id : Bytes) {f : WFields γ} {r : WVariants ρ} : f.All B → WVariants.All B r → WVariants.All B (.cons id f r)

section
variable {B B' : {δ : Type} → WDe δ → Prop}

theorem WField.All.imp (h : ∀ {δ : Type} (d : WDe δ), B d → B' d) {f : WField β} (hf : f.All B) : f.All B' := by
  cases hf with
  | skip d => exact .skip d
  | plain hd => exact .plain (h _ hd)
  | from_ f hd => exact .from_ f (h _ hd)
  | tryFrom f hd => exact .tryFrom f (h _ hd)

theorem WFields.All.imp (h : ∀ {δ : Type} (d : WDe δ), B d → B' d) : {γ : Type} → {f : WFields γ} → f.All B → f.All B'
  | _, _, .nil => .nil
  | _, _, .cons hf hr => .cons (hf.imp h) (WFields.All.imp h hr)

theorem WVariants.All.imp (h : ∀ {δ : Type} (d : WDe δ), B d → B' d) : {ρ : Type} → {f : WVariants ρ} → f.All B → f.All B'
  | _, _, .nil => .nil
  | _, _, .cons id hf hr => .cons id (hf.imp h) (WVariants.All.imp h hr)

theorem WField.All.uses (P : Budget) {k : Nat} {tmp : {δ : Type} → WDe δ → Bytes → Work (δ × Bytes)}
    (ht : ∀ {δ : Type} (d : WDe δ) (c : Bytes), B d → P.Good c →
      (tmp d c).Uses (P.φ k c.length) (fun x => P.φ k x.2.length) fun x => P.Good x.2) {f : WField β} (h : f.All B) {c : Bytes} (hc : P.Good c) :
    (Work.field tmp f c).Uses (P.φ k c.length) (fun x => P.φ k x.2.length) fun x => P.Good x.2 := by
  cases h with
  | skip d => exact .pure (Nat.le_refl _) hc
  | plain hd => exact ht _ c hd hc
  | from_ f hd => exact (ht _ c hd hc).bind fun x _ hx => .pure (Nat.le_refl _) hx
  | tryFrom f hd =>
    exact (ht _ c hd hc).bind fun x _ hx => Work.Uses.bind (f := fun _ => P.φ k x.2.length) (Q := fun _ => True)
      (.free fun _ _ => ⟨trivial, Nat.le_refl _⟩) fun _ _ _ => .pure (Nat.le_refl _) hx

theorem WFields.All.uses (P : Budget) {k : Nat} {tmp : {δ : Type} → WDe δ → Bytes → Work (δ × Bytes)}
    (ht : ∀ {δ : Type} (d : WDe δ) (c : Bytes), B d → P.Good c →
      (tmp d c).Uses (P.φ k c.length) (fun x => P.φ k x.2.length) fun x => P.Good x.2) : {γ : Type} → {f : WFields γ} → f.All B → {c : Bytes} →
      P.Good c → (Work.fields tmp f c).Uses (P.φ k c.length) (fun x => P.φ k x.2.length) fun x => P.Good x.2
  | _, _, .nil, _, hc => .pure (Nat.le_refl _) hc
  | _, _, .cons hf hr, _, hc => by
    rw [Work.fields]
    exact (hf.uses P ht hc).bind fun x _ hx => (WFields.All.uses P ht hr hx).bind fun y _ hy => .pure (Nat.le_refl _) hy

theorem WField.All.transparent {tmp : {δ : Type} → WDe δ → Work δ} {N : Nat} (ht : ∀ {δ : Type} (d : WDe δ), B d → (tmp d).octets ≤ N)
    {f : WField β} {γ : Type} (r : WFields γ) (h : f.All B) :
    (Work.fieldTransparent tmp f).octets + N * r.deserialized ≤ N * (WFields.cons f r).deserialized := by
  have hN : ∀ {x : Nat}, x ≤ N → x + N * r.deserialized ≤ N * (r.deserialized + 1) := fun h => by rw [Nat.mul_add]; omega
  cases h with
  | skip d => exact (Nat.zero_add _).le
  | plain hd => exact hN (ht _ hd)
  | from_ f hd =>
    refine hN (Work.Uses.bind (f := fun _ => 0) (Q := fun _ => True) (g := fun _ => 0) (R := fun _ => True)
      (Work.Uses.context ⟨ht _ hd, fun _ _ => ⟨trivial, ht _ hd⟩⟩) fun _ _ _ => .pure (Nat.le_refl _) trivial).octets
  | tryFrom f hd =>
    refine hN (Work.Uses.bind (f := fun _ => 0) (Q := fun _ => True) (g := fun _ => 0) (R := fun _ => True)
      (Work.Uses.context ⟨ht _ hd, fun _ _ => ⟨trivial, ht _ hd⟩⟩) fun _ _ _ => .free fun _ _ => ⟨trivial, Nat.le_refl _⟩).octets

theorem WFields.All.transparent {tmp : {δ : Type} → WDe δ → Work δ} {N : Nat} (ht : ∀ {δ : Type} (d : WDe δ), B d → (tmp d).octets ≤ N) :
    {γ : Type} → {f : WFields γ} → f.All B → (Work.fieldsTransparent tmp f).octets ≤ N * f.deserialized
  | _, _, .nil => Nat.zero_le _
  | _, _, .cons (r := r) hf hr => by
    have h1 := hf.transparent ht r
    have h2 := WFields.All.transparent ht hr
    rw [Work.fieldsTransparent]
    refine (Work.Uses.bind (f := fun _ => N * r.deserialized) (Q := fun _ => True) (g := fun _ => 0) (R := fun _ => True)
      ⟨(Nat.le_add_right _ _).trans h1, fun _ _ => ⟨trivial, h1⟩⟩ fun _ _ _ => ?_).octets
    exact Work.Uses.bind (f := fun _ => 0) (Q := fun _ => True) ⟨h2, fun _ _ => ⟨trivial, h2⟩⟩ fun _ _ _ => .pure (Nat.zero_le _) trivial

theorem WVariants.All.pick {k : {γ : Type} → WFields γ → Work γ} {N : Nat} (hk : ∀ {γ : Type} (f : WFields γ), f.All B → (k f).octets ≤ N)
    (id : Bytes) : {ρ : Type} → {v : WVariants ρ} → v.All B → (v.pick id k).octets ≤ N
  | _, _, .nil => Nat.zero_le _
  | _, _, .cons i hf hr => by
    rw [WVariants.pick]
    split
    · exact (Work.Uses.bind (f := fun _ => 0) (Q := fun _ => True) (g := fun _ => 0) (R := fun _ => True)
        ⟨hk _ hf, fun _ _ => ⟨trivial, hk _ hf⟩⟩ fun _ _ _ => .pure (Nat.le_refl _) trivial).octets
    · have h := WVariants.All.pick hk id hr
      exact (Work.Uses.bind (f := fun _ => 0) (Q := fun _ => True) (g := fun _ => 0) (R := fun _ => True)
        ⟨h, fun _ _ => ⟨trivial, h⟩⟩ fun _ _ _ => .pure (Nat.le_refl _) trivial).octets

end

theorem Work.octets_bind_free (x : Work α) (f : α → Res β) : (x >>= fun a => Work.free (f a)).octets = x.octets := by
  show (Work.bind x _).octets = _
  rw [Work.bind]
  cases x.res <;> rfl

namespace Budget

/-- A budget for `DerRef::parse`. -/
structure ForDer (P : Budget) : Prop where
  parse : P.parse = DerRef.parse
  octets : P.octets = DerRef.parseOctets

/-- A budget for `BerRef::parse`. -/
structure ForBer (P : Budget) : Prop where
  parse : P.parse = BerRef.parse
  octets : P.octets = BerRef.parseOctets

/-- `from_der` keeps to the allowance. -/
def Der (P : Budget) (d : WDe α) (k : Nat) : Prop := P.Keeps (fun id _ c => d.fromDer id c) k

/-- `from_ber` keeps to the allowance. -/
def Ber (P : Budget) (d : WDe α) (k : Nat) : Prop := P.Keeps d.fromBer k

variable {P : Budget} {k : Nat}

theorem Der.toVal (hP : P.ForDer) {d : WDe α} (h : P.Der d k) {c : Bytes} (hc : P.Good c) :
    (d.derToVal c).Uses (P.φ (k + 1) c.length) (P.leftNext (k + 1)) P.GoodNext := by
  have e : d.derToVal c = P.toVal (fun id _ c => d.fromDer id c) c := by rw [Budget.toVal, hP.parse, hP.octets]; rfl
  rw [e]
  exact Keeps.toVal h hc

theorem Ber.toVal (hP : P.ForBer) {d : WDe α} (h : P.Ber d k) {c : Bytes} (hc : P.Good c) :
    (d.berToVal c).Uses (P.φ (k + 1) c.length) (P.leftNext (k + 1)) P.GoodNext := by
  have e : d.berToVal c = P.toVal d.fromBer c := by rw [Budget.toVal, hP.parse, hP.octets]; rfl
  rw [e]
  exact Keeps.toVal h hc

theorem Der.toKeyVal (hP : P.ForDer) {dk : WDe α} {dv : WDe β} (hk : P.Der dk k) (hv : P.Der dv k) {c : Bytes} (hc : P.Good c) :
    (dk.derToKeyVal dv c).Uses (P.φ (k + 2) c.length) (P.leftNext (k + 2)) P.GoodNext := by
  have e : dk.derToKeyVal dv c = P.toKeyVal (fun id _ c => dk.fromDer id c) (fun id _ c => dv.fromDer id c) c := by
    rw [Budget.toKeyVal, hP.parse, hP.octets]; rfl
  rw [e]
  exact Keeps.toKeyVal hk hv hc

theorem Ber.toKeyVal (hP : P.ForBer) {dk : WDe α} {dv : WDe β} (hk : P.Ber dk k) (hv : P.Ber dv k) {c : Bytes} (hc : P.Good c) :
    (dk.berToKeyVal dv c).Uses (P.φ (k + 2) c.length) (P.leftNext (k + 2)) P.GoodNext := by
  have e : dk.berToKeyVal dv c = P.toKeyVal dk.fromBer dv.fromBer c := by rw [Budget.toKeyVal, hP.parse, hP.octets]; rfl
  rw [e]
  exact Keeps.toKeyVal hk hv hc

theorem Der.tmp (hP : P.ForDer) {d : WDe α} (h : P.Der d k) {c : Bytes} (hc : P.Good c) :
    (d.derTmpVal c).Uses (P.φ (k + 1) c.length) (fun x => P.φ (k + 1) x.2.length) fun x => P.Good x.2 := by
  have := P.parses' hc k
  rw [hP.parse, hP.octets] at this
  exact this.bind fun p _ hp => Keeps.tmp h hp 0 (fun _ => Nat.le_refl _) fun _ h => h

theorem Ber.tmp (hP : P.ForBer) {d : WDe α} (h : P.Ber d k) {c : Bytes} (hc : P.Good c) :
    (d.berTmpVal c).Uses (P.φ (k + 1) c.length) (fun x => P.φ (k + 1) x.2.length) fun x => P.Good x.2 := by
  have := P.parses' hc k
  rw [hP.parse, hP.octets] at this
  exact this.bind fun p _ hp => Keeps.tmp h hp 0 (fun _ => Nat.le_refl _) fun _ h => h

theorem leaf_der (P : Budget) (d : De α) (k : Nat) : P.Der (.leaf d) k := fun _ _ _ _ => P.le _ _

theorem leaf_ber (P : Budget) (d : De α) (k : Nat) : P.Ber (.leaf d) k := fun _ _ _ _ => P.le _ _

section
variable {m : Build} {seq : Bytes} {nextBer nextDer : Bytes → Work (Option (α × Bytes))} {insert : List β → α → List β} {order : List β → List β}

theorem coll_der (h : ∀ c, P.Good c → (nextDer c).Uses (P.φ k c.length) (P.leftNext k) P.GoodNext) :
    P.Der (.coll m seq nextBer nextDer insert order) k := by
  intro id _ c hc
  show (ite (id ≠ seq) _ _ : Work _).octets ≤ _
  split
  · exact Nat.zero_le _
  · exact P.collect h insert order hc

theorem coll_ber (h : ∀ c, P.Good c → (nextBer c).Uses (P.φ k c.length) (P.leftNext k) P.GoodNext) :
    P.Ber (.coll m seq nextBer nextDer insert order) k := by
  intro id l c hc
  show (ite (id ≠ seq) _ _ : Work _).octets ≤ _
  split
  · exact Nat.zero_le _
  · refine (Work.Uses.bind (f := fun _ => P.φ k c.length) (Q := fun x => ∃ r, c = x ++ r) (g := fun _ => 0) (R := fun _ => True)
      (.free fun x hx => ⟨excludeEoc_take hx, Nat.le_refl _⟩) fun x _ hx => ?_).octets
    obtain ⟨r, rfl⟩ := hx
    have := P.collect h insert order (P.take hc)
    have h2 := P.mono (Nat.le_refl k) (show x.length ≤ (x ++ r).length by rw [List.length_append]; omega)
    exact ⟨this.trans h2, fun _ _ => ⟨trivial, this.trans h2⟩⟩

end

theorem contents_der (hP : P.ForDer) {fs : WFields γ} (h : fs.All fun d => P.Der d k) {c : Bytes} (hc : P.Good c) :
    (Work.fromDerContents fs c).octets ≤ P.φ (k + 1) c.length := by
  rw [Work.fromDerContents, Work.octets_bind_free]
  exact (h.uses P (fun d c hd hc => Der.tmp hP hd hc) hc).octets

theorem contents_ber (hP : P.ForBer) (m : Build) {fs : WFields γ} (h : fs.All fun d => P.Ber d k) (l : Length) {c : Bytes} (hc : P.Good c) :
    (Work.fromBerContents m fs l c).octets ≤ P.φ (k + 1) c.length := by
  rw [Work.fromBerContents, structContents_eq]
  refine (Work.Uses.bind (f := fun _ => P.φ (k + 1) c.length) (Q := fun x => ∃ r, c = x ++ r) (g := fun _ => 0) (R := fun _ => True)
      (.free fun x hx => ⟨excludeEoc_take hx, Nat.le_refl _⟩) fun x _ hx => ?_).octets
  obtain ⟨r, rfl⟩ := hx
  have := (h.uses P (fun d c hd hc => Ber.tmp hP hd hc) (P.take hc)).octets
  rw [← Work.octets_bind_free _ finish] at this
  have h2 := P.mono (Nat.le_refl (k + 1)) (show x.length ≤ (x ++ r).length by rw [List.length_append]; omega)
  exact ⟨this.trans h2, fun _ _ => ⟨trivial, this.trans h2⟩⟩

theorem struct_der (hP : P.ForDer) (m : Build) (id : Bytes) {fs : WFields γ} (h : fs.All fun d => P.Der d k) :
    P.Der (.struct m id fs) (k + 1) := by
  intro i _ c hc
  show (ite (i ≠ id) _ _ : Work _).octets ≤ _
  split
  · exact Nat.zero_le _
  · exact contents_der hP h hc

theorem struct_ber (hP : P.ForBer) (m : Build) (id : Bytes) {fs : WFields γ} (h : fs.All fun d => P.Ber d k) :
    P.Ber (.struct m id fs) (k + 1) := by
  intro i l c hc
  show (ite (i ≠ id) _ _ : Work _).octets ≤ _
  split
  · exact Nat.zero_le _
  · exact contents_ber hP m h l hc

theorem transparent_der (hP : P.ForDer) (m : Build) {fs : WFields γ} (h : fs.All fun d => P.Der d k) :
    P.Der (.transparent m fs) (k + 1) := by
  rw [WDe.transparent]
  split
  · rename_i h1
    intro id l c hc
    have := h.transparent (tmp := fun d => d.fromDer id c) (N := P.φ k c.length) fun d hd => hd id l c hc
    rw [h1, Nat.mul_one] at this
    exact this.trans (P.mono (Nat.le_succ _) (Nat.le_refl _))
  · exact struct_der hP m [] h

theorem transparent_ber (hP : P.ForBer) (m : Build) {fs : WFields γ} (h : fs.All fun d => P.Ber d k) :
    P.Ber (.transparent m fs) (k + 1) := by
  rw [WDe.transparent]
  split
  · rename_i h1
    intro id l c hc
    have := h.transparent (tmp := fun d => d.fromBer id l c) (N := P.φ k c.length) fun d hd => hd id l c hc
    rw [h1, Nat.mul_one] at this
    exact this.trans (P.mono (Nat.le_succ _) (Nat.le_refl _))
  · exact struct_ber hP m [] h

theorem enum_der (hP : P.ForDer) (m : Build) {vs : WVariants ρ} (h : vs.All fun d => P.Der d k) : P.Der (.enum m vs) (k + 1) :=
  fun id _ _ hc => h.pick (fun _ hf => contents_der hP hf hc) id

theorem enum_ber (hP : P.ForBer) (m : Build) {vs : WVariants ρ} (h : vs.All fun d => P.Ber d k) : P.Ber (.enum m vs) (k + 1) :=
  fun id l _ hc => h.pick (fun _ hf => contents_ber hP m hf l hc) id

theorem conv_der {d : WDe β} (h : P.Der d k) (f : β → Res α) : P.Der (d.conv f) k := fun id l c hc =>
  (Work.octets_bind_free _ f).le.trans (h id l c hc)

theorem conv_ber {d : WDe β} (h : P.Ber d k) (f : β → Res α) : P.Ber (d.conv f) k := fun id l c hc =>
  (Work.octets_bind_free _ f).le.trans (h id l c hc)

end Budget

theorem WDe.backField_all {B : {δ : Type} → WDe δ → Prop} {d : WDe δ} (h : B d) (g : Back δ β) : (d.backField g).All B := by
  cases g with
  | from_ g => exact .from_ g h
  | tryFrom g => exact .tryFrom g h

section
variable {P : Budget} (hP : P.ForDer) (m : Build) (o : HashOrder)
include hP

mutual
theorem Ty.work_der : {α : Type} → (t : Ty α) → P.Der (Ty.work m o t) t.levels
  | _, .bool => P.leaf_der _ _
  | _, .int _ => P.leaf_der _ _
  | _, .string => P.leaf_der _ _
  | _, .octetString => P.leaf_der _ _
  | _, .vec t => Budget.coll_der fun _ hc => (Ty.work_der t).toVal hP hc
  | _, .linkedList t => Budget.coll_der fun _ hc => (Ty.work_der t).toVal hP hc
  | _, .vecDeque t => Budget.coll_der fun _ hc => (Ty.work_der t).toVal hP hc
  | _, .btreeSet _ _ _ t => Budget.coll_der fun _ hc => (Ty.work_der t).toVal hP hc
  | _, .btreeMap _ _ _ k t => Budget.coll_der fun _ hc => Budget.Der.toKeyVal hP ((Ty.work_der k).mono (Nat.le_max_left _ _))
      ((Ty.work_der t).mono (Nat.le_max_right _ _)) hc
  | _, .hashSet _ t => Budget.coll_der fun _ hc => (Ty.work_der t).toVal hP hc
  | _, .hashMap _ k t => Budget.coll_der fun _ hc => Budget.Der.toKeyVal hP ((Ty.work_der k).mono (Nat.le_max_left _ _))
      ((Ty.work_der t).mono (Nat.le_max_right _ _)) hc
  | _, .struct id fs => Budget.struct_der hP m id (Fields.work_der fs)
  | _, .enum vs => Budget.enum_der hP m (Variants.work_der vs)
  | _, .transparent fs => Budget.transparent_der hP m (Fields.work_der fs)
  | _, .conv t _ _ => Budget.conv_der (Ty.work_der t) _
  | _, .named t _ _ _ _ => Budget.conv_der (Ty.work_der t) _
  | _, .hole => fun _ _ _ _ => Nat.zero_le _
theorem Fields.work_der : {γ : Type} → (fs : Fields γ) → (Fields.work m o fs).All fun d => P.Der d fs.levels
  | _, .nil => .nil
  | _, .plain t r => .cons (.plain ((Ty.work_der t).mono (Nat.le_max_left _ _)))
      ((Fields.work_der r).imp fun _ h => h.mono (Nat.le_max_right _ _))
  | _, .skip _ r => .cons (.skip _) (Fields.work_der r)
  | _, .skipSer t r => .cons (.plain ((Ty.work_der t).mono (Nat.le_max_left _ _)))
      ((Fields.work_der r).imp fun _ h => h.mono (Nat.le_max_right _ _))
  | _, .skipDe _ _ r => .cons (.skip _) ((Fields.work_der r).imp fun _ h => h.mono (Nat.le_max_right _ _))
  | _, .conv t _ g r => .cons (WDe.backField_all (B := fun d => P.Der d _) ((Ty.work_der t).mono (Nat.le_max_left _ _)) g)
      ((Fields.work_der r).imp fun _ h => h.mono (Nat.le_max_right _ _))
theorem Variants.work_der : {ρ : Type} → (vs : Variants ρ) → (Variants.work m o vs).All fun d => P.Der d vs.levels
  | _, .nil => .nil
  | _, .cons id fs r => .cons id ((Fields.work_der fs).imp fun _ h => h.mono (Nat.le_max_left _ _))
      ((Variants.work_der r).imp fun _ h => h.mono (Nat.le_max_right _ _))
end

end

section
variable {P : Budget} (hP : P.ForBer) (m : Build) (o : HashOrder)
include hP

mutual
theorem Ty.work_ber : {α : Type} → (t : Ty α) → P.Ber (Ty.work m o t) t.levels
  | _, .bool => P.leaf_ber _ _
  | _, .int _ => P.leaf_ber _ _
  | _, .string => P.leaf_ber _ _
  | _, .octetString => P.leaf_ber _ _
  | _, .vec t => Budget.coll_ber fun _ hc => (Ty.work_ber t).toVal hP hc
  | _, .linkedList t => Budget.coll_ber fun _ hc => (Ty.work_ber t).toVal hP hc
  | _, .vecDeque t => Budget.coll_ber fun _ hc => (Ty.work_ber t).toVal hP hc
  | _, .btreeSet _ _ _ t => Budget.coll_ber fun _ hc => (Ty.work_ber t).toVal hP hc
  | _, .btreeMap _ _ _ k t => Budget.coll_ber fun _ hc => Budget.Ber.toKeyVal hP ((Ty.work_ber k).mono (Nat.le_max_left _ _))
      ((Ty.work_ber t).mono (Nat.le_max_right _ _)) hc
  | _, .hashSet _ t => Budget.coll_ber fun _ hc => (Ty.work_ber t).toVal hP hc
  | _, .hashMap _ k t => Budget.coll_ber fun _ hc => Budget.Ber.toKeyVal hP ((Ty.work_ber k).mono (Nat.le_max_left _ _))
      ((Ty.work_ber t).mono (Nat.le_max_right _ _)) hc
  | _, .struct id fs => Budget.struct_ber hP m id (Fields.work_ber fs)
  | _, .enum vs => Budget.enum_ber hP m (Variants.work_ber vs)
  | _, .transparent fs => Budget.transparent_ber hP m (Fields.work_ber fs)
  | _, .conv t _ _ => Budget.conv_ber (Ty.work_ber t) _
  | _, .named t _ _ _ _ => Budget.conv_ber (Ty.work_ber t) _
  | _, .hole => fun _ _ _ _ => Nat.zero_le _
theorem Fields.work_ber : {γ : Type} → (fs : Fields γ) → (Fields.work m o fs).All fun d => P.Ber d fs.levels
  | _, .nil => .nil
  | _, .plain t r => .cons (.plain ((Ty.work_ber t).mono (Nat.le_max_left _ _)))
      ((Fields.work_ber r).imp fun _ h => h.mono (Nat.le_max_right _ _))
  | _, .skip _ r => .cons (.skip _) (Fields.work_ber r)
  | _, .skipSer t r => .cons (.plain ((Ty.work_ber t).mono (Nat.le_max_left _ _)))
      ((Fields.work_ber r).imp fun _ h => h.mono (Nat.le_max_right _ _))
  | _, .skipDe _ _ r => .cons (.skip _) ((Fields.work_ber r).imp fun _ h => h.mono (Nat.le_max_right _ _))
  | _, .conv t _ g r => .cons (WDe.backField_all (B := fun d => P.Ber d _) ((Ty.work_ber t).mono (Nat.le_max_left _ _)) g)
      ((Fields.work_ber r).imp fun _ h => h.mono (Nat.le_max_right _ _))
theorem Variants.work_ber : {ρ : Type} → (vs : Variants ρ) → (Variants.work m o vs).All fun d => P.Ber d vs.levels
  | _, .nil => .nil
  | _, .cons id fs r => .cons id ((Fields.work_ber fs).imp fun _ h => h.mono (Nat.le_max_left _ _))
      ((Variants.work_ber r).imp fun _ h => h.mono (Nat.le_max_right _ _))
end

end

/-! ### The budgets -/

theorem value_infix {p id raw : Bytes} {indef : Bool} (h : BerValue p id indef raw) : raw <:+: p := by
  obtain ⟨hid, h⟩ := h
  cases indef with
  | false => obtain ⟨_, rfl⟩ := h; exact ⟨id ++ lenOctets raw.length, [], by simp [tlv]⟩
  | true => obtain ⟨c, _, _, rfl⟩ := h; exact ⟨id ++ indefOctets, [], by simp⟩

/-- DER: three times everything. -/
def derBudget : Budget where
  parse := DerRef.parse
  octets := DerRef.parseOctets
  Good _ := True
  φ _ n := 3 * n
  le _ n := by omega
  mono _ h := by omega
  take _ := trivial
  octets_le := headerOctets_le
  step := by
    intro c p rest _ h
    obtain ⟨id, b, h1, h2, rfl, rfl⟩ := DerRef_parse_ok h
    refine ⟨id, false, b, ⟨h1, h2, rfl⟩, trivial, trivial, fun _ => ?_⟩
    have := headerOctets_tlv h1 h2 rest
    show headerOctets _ + _ + _ + _ ≤ _
    rw [List.length_append]
    omega

theorem ber_step {c p rest : Bytes} (hc : c.length ≤ isizeMax) (h : BerRef.parse c = (.ok p, rest)) :
    ∃ id indef raw, BerValue p id indef raw ∧ raw.length + 2 ≤ p.length ∧ BerRef.parseOctets c ≤ p.length ∧
      (indef = false → BerRef.parseOctets c + raw.length ≤ p.length) ∧ c = p ++ rest := by
  rcases berParse_cases c hc with ⟨e, r, h'⟩ | ⟨p', id, indef, raw, r, hv, h', hc'⟩
  · rw [h] at h'; exact nomatch h'
  · rw [h] at h'
    obtain ⟨rfl, rfl⟩ : p = p' ∧ rest = r := by simpa using h'
    refine ⟨id, indef, raw, hv, berValue_length hv, ?_, ?_, hc'⟩
    · rw [hc'] at h ⊢
      exact parseOctets_value h
    · rintro rfl
      obtain ⟨h1, h2, rfl⟩ := hv
      rw [hc']
      exact parseOctets_definite h1 h2 rest

/-- BER: as often as there are levels, and twice. -/
def levelsBudget : Budget where
  parse := BerRef.parse
  octets := BerRef.parseOctets
  Good c := c.length ≤ isizeMax
  φ k n := (k + 2) * n
  le k n := Nat.le_mul_of_pos_left n (by omega)
  mono h1 h2 := Nat.mul_le_mul (by omega) h2
  take h := by rw [List.length_append] at h; omega
  octets_le := parseOctets_le
  step := by
    intro c p rest hc h
    obtain ⟨id, indef, raw, h1, h2, h3, _, rfl⟩ := ber_step hc h
    rw [List.length_append] at hc
    refine ⟨id, indef, raw, h1, by omega, by omega, fun k => ?_⟩
    rw [List.length_append, show p.length = raw.length + (p.length - raw.length) by omega] at *
    generalize p.length - raw.length = x at *
    rw [show raw.length + x - raw.length = x by omega]
    have : 0 ≤ k * x := Nat.zero_le _
    nlinarith

/-- BER: for any type. -/
def anyBudget : Budget where
  parse := BerRef.parse
  octets := BerRef.parseOctets
  Good c := c.length ≤ isizeMax
  φ _ n := n * n / 4 + 3 * n
  le _ n := by omega
  mono _ h := Nat.add_le_add (Nat.div_le_div_right (Nat.mul_le_mul h h)) (by omega)
  take h := by rw [List.length_append] at h; omega
  octets_le := parseOctets_le
  step := by
    intro c p rest hc h
    obtain ⟨id, indef, raw, h1, h2, h3, _, rfl⟩ := ber_step hc h
    rw [List.length_append] at hc
    refine ⟨id, indef, raw, h1, by omega, by omega, fun k => ?_⟩
    rw [List.length_append]
    obtain ⟨x, hx⟩ : ∃ x, p.length = raw.length + (x + 2) := ⟨p.length - raw.length - 2, by omega⟩
    rw [hx] at h3 ⊢
    generalize BerRef.parseOctets _ = q at *
    generalize raw.length = r at *
    generalize rest.length = s at *
    rw [show r + (x + 2) - r = x + 2 by omega]
    have e : r * r + s * s + 4 * r ≤ (r + (x + 2) + s) * (r + (x + 2) + s) := by nlinarith [Nat.zero_le (r * x), Nat.zero_le (r * s)]
    omega

/-- BER without indefinite lengths: three times everything. -/
def definiteBudget : Budget where
  parse := BerRef.parse
  octets := BerRef.parseOctets
  Good c := c.length ≤ isizeMax ∧ NoIndefinite c
  φ _ n := 3 * n
  le _ n := by omega
  mono _ h := by omega
  take h := ⟨by have := h.1; rw [List.length_append] at this; omega,
    fun p id raw hp => h.2 p id raw (hp.trans (List.infix_append' [] _ _))⟩
  octets_le := parseOctets_le
  step := by
    intro c p rest hc h
    obtain ⟨hc, hn⟩ := hc
    obtain ⟨id, indef, raw, h1, h2, h3, h4, rfl⟩ := ber_step hc h
    rw [List.length_append] at hc
    have hf : indef = false := by
      cases indef with
      | false => rfl
      | true => exact absurd h1 (hn p id raw ⟨[], rest, by simp⟩)
    have := h4 hf
    refine ⟨id, indef, raw, h1, ⟨by omega, fun p' id' raw' hp => hn p' id' raw' (hp.trans ((value_infix h1).trans ⟨[], rest, by simp⟩))⟩,
      ⟨by omega, fun p' id' raw' hp => hn p' id' raw' (hp.trans ⟨p, [], by simp⟩)⟩, fun k => ?_⟩
    rw [List.length_append]
    omega

end Bsn1
