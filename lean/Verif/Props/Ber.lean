import Verif.Lemmas.Panic
import Verif.Props.Der
/-!
# C21–C23, C27 (indefinite form), C29–C34: BER values
-/

namespace Bsn1
open Spec

/-! ### C21 -/

/-- C21, negation: `DerRef::parse` fails and the caller's slice has lost its two header octets. -/
theorem C21_der_parse_error_violated :
    DerRef.parse [0x02, 0x05, 0x01] = (.err .unterminatedBytes, [0x01]) := by decide +kernel

/-- C21, negation for `BerRef::parse`. -/
theorem C21_ber_parse_error_violated :
    BerRef.parse [0x30, 0x80, 0x02, 0x05, 0x01] = (.err .unterminatedBytes, [0x01]) := by decide +kernel

/-- C21, the part that holds for `DerRef::parse` and `BerRef::parse` (missing: that nothing is consumed): what is left after an error is a
suffix of the input. -/
theorem C21_parse_error_suffix_partial (bs : Bytes) (hlen : bs.length ≤ isizeMax) (e : Error) :
    ((DerRef.parse bs).1 = .err e → ∃ p, bs = p ++ (DerRef.parse bs).2) ∧
    ((BerRef.parse bs).1 = .err e → ∃ p, bs = p ++ (BerRef.parse bs).2) := by
  constructor
  · intro h
    have hspec := doParse_spec bs
    simp only [DerRef.parse] at h ⊢
    generalize DerRef.doParse bs = r at hspec h
    cases hspec with
    | ok id c rest h1 h2 h3 =>
      simp only [sliceTo] at h
      rw [if_pos (by omega)] at h
      simp at h
    | error e p rest h1 => exact ⟨p, h1⟩
  · intro h
    rcases BerRef_parse_cases bs hlen with ⟨v, rest, h1, h2, h3⟩ | ⟨e', p, rest, h1, h2, h3⟩
    · rw [h3] at h; simp at h
    · rw [h2]; exact ⟨p, h1⟩

/-- The input after the failure: what follows the header. -/
example : DerRef.parse ([0x02, 0x05, 0x01] : Bytes) = (.err .unterminatedBytes, [0x01]) ∧
    BerRef.parse ([0x30, 0x80, 0x02, 0x05, 0x01] : Bytes) = (.err .unterminatedBytes, [0x01]) := by decide +kernel

/-- C21, the `_mut` variants keep the caller's slice on every error. -/
theorem C21_parse_mut_error (bs : Bytes) (e : Error) :
    ((DerRef.parseMut bs).1 = .err e → (DerRef.parseMut bs).2 = bs) ∧
    ((BerRef.parseMut bs).1 = .err e → (BerRef.parseMut bs).2 = bs) := by
  constructor
  · simp only [DerRef.parseMut]
    rcases DerRef.doParse bs with ⟨r, rest⟩
    cases r with
    | ok u =>
      simp only
      split <;> simp
    | err e => intro _; rfl
    | panic => intro _; rfl
    | ub => intro _; rfl
  · simp only [BerRef.parseMut]
    rcases BerRef.parseLoop (bs.length + 1) 0 bs with ⟨r, rest⟩
    cases r with
    | ok u =>
      simp only
      split <;> simp
    | err e => intro _; rfl
    | panic => intro _; rfl
    | ub => intro _; rfl

example : (DerRef.parseMut [0x02, 0x05, 0x01]).1 = .err .unterminatedBytes := by decide +kernel

/-! ### C22 -/

/-- `Ok` or `Err`: neither a panic nor undefined behaviour. -/
def Res.Settled {α : Type} (r : Res α) : Prop := (∃ a, r = .ok a) ∨ ∃ e, r = .err e

theorem isBer_disassemble {v : Bytes} (h : IsBer v) :
    ∃ id l c, BerRef.disassemble v = .ok (id, l, c) ∧ IsId id ∧
      ((l = .definite c.length ∧ c.length < 2 ^ 64 ∧ v = tlv id c) ∨
       (l = .indefinite ∧ v = id ++ indefOctets ++ c ∧ ∃ b, BerSeq b ∧ c = b ++ Spec.eoc)) := by
  cases h with
  | definite id c h1 h2 => exact ⟨id, _, c, disassemble_tlv h1 h2, h1, Or.inl ⟨rfl, h2, rfl⟩⟩
  | indefinite id c h1 h2 =>
    refine ⟨id, .indefinite, c ++ Spec.eoc, ?_, h1, Or.inr ⟨rfl, by simp, c, h2, rfl⟩⟩
    rw [List.append_assoc _ c]
    exact berDisassemble_indef h1 _

/-- C22.  `IdRef::parse` and `IdRef::parse_mut`. -/
theorem C22_id_parse_settled (bs : Bytes) : (IdRef.parse bs).1.Settled ∧ (IdRef.parseMut bs).1.Settled := by
  have hspec := parseId_spec bs []
  simp only [IdRef.parse, IdRef.parseMut]
  generalize (parseId (σ := Bytes)).run bs [] = r at hspec
  cases hspec with
  | ok l rest h1 h2 =>
    have hl : l.length ≤ bs.length := by rw [h2]; simp
    simp only [sliceTo, if_pos hl]
    rw [if_neg (by omega)]
    exact ⟨Or.inl ⟨_, rfl⟩, Or.inl ⟨_, rfl⟩⟩
  | redundant b o r h1 _ _ => exact ⟨Or.inr ⟨_, rfl⟩, Or.inr ⟨_, rfl⟩⟩
  | unterminated w' _ _ => exact ⟨Or.inr ⟨_, rfl⟩, Or.inr ⟨_, rfl⟩⟩

example : (IdRef.parse [0x1f, 0x80, 0x01]).1 = .err .redundantBytes ∧ (IdRef.parse [0x1f, 0x81]).1 = .err .unterminatedBytes := by
  decide +kernel

/-- C22.  `DerRef::parse` and `DerRef::parse_mut`, and the accessors on what they return. -/
theorem C22_der_parse_settled (bs : Bytes) :
    (DerRef.parse bs).1.Settled ∧ (DerRef.parseMut bs).1.Settled ∧
    (DerRef.parseMut bs).1 = (DerRef.parse bs).1 ∧
    ∀ d, (DerRef.parse bs).1 = .ok d → (∃ x, DerRef.disassemble d = .ok x) ∧ (∃ x, DerRef.id d = .ok x) ∧
      (∃ x, DerRef.length d = .ok x) ∧ ∃ x, DerRef.contents d = .ok x := by
  have hspec := doParse_spec bs
  have hok : ∀ d rest, DerRef.parse bs = (.ok d, rest) → (∃ x, DerRef.disassemble d = .ok x) ∧ (∃ x, DerRef.id d = .ok x) ∧
      (∃ x, DerRef.length d = .ok x) ∧ ∃ x, DerRef.contents d = .ok x := by
    intro d rest h
    obtain ⟨id, c, h1, h2, rfl, _⟩ := DerRef_parse_ok h
    exact ⟨⟨_, disassemble_tlv h1 h2⟩, ⟨_, DerRef_id_tlv h1 c⟩, ⟨_, DerRef_length_tlv h1 h2⟩,
      ⟨_, DerRef_contents_tlv h1 h2⟩⟩
  have hacc : ∀ d, (DerRef.parse bs).1 = .ok d → (∃ x, DerRef.disassemble d = .ok x) ∧ (∃ x, DerRef.id d = .ok x) ∧
      (∃ x, DerRef.length d = .ok x) ∧ ∃ x, DerRef.contents d = .ok x := by
    intro d h
    exact hok d (DerRef.parse bs).2 (by rw [← h])
  refine ⟨?_, ?_, ?_, hacc⟩
  all_goals
    simp only [DerRef.parse, DerRef.parseMut]
    generalize DerRef.doParse bs = r at hspec
    cases hspec with
    | ok id c rest h1 h2 h3 =>
      simp only [sliceTo]
      first
        | (rw [if_pos (by omega)]; exact Or.inl ⟨_, rfl⟩)
        | (rw [if_neg (by omega)]; exact Or.inl ⟨_, rfl⟩)
        | (rw [if_neg (by omega), if_pos (by omega)])
    | error e p rest h1 => first | exact Or.inr ⟨_, rfl⟩ | rfl

example : (DerRef.parse [0x04, 0x80, 0x00, 0x00]).1 = .err .indefiniteLength ∧ (DerRef.parse [0x04, 0x01, 0x07]).1 = .ok [0x04, 0x01, 0x07] := by
  decide +kernel

/-- C22.  `BerRef::parse` and `BerRef::parse_mut` (a slice has at most `isize::MAX` octets), and the accessors. -/
theorem C22_ber_parse_settled (bs : Bytes) (hlen : bs.length ≤ isizeMax) :
    (BerRef.parse bs).1.Settled ∧ (BerRef.parseMut bs).1 = (BerRef.parse bs).1 ∧
    ∀ d, (BerRef.parse bs).1 = .ok d → (∃ x, BerRef.disassemble d = .ok x) ∧ (∃ x, BerRef.id d = .ok x) ∧
      (∃ x, BerRef.length d = .ok x) ∧ ∃ x, BerRef.contents d = .ok x := by
  have hmut : (BerRef.parseMut bs).1 = (BerRef.parse bs).1 := by
    simp only [BerRef.parseMut, BerRef.parse]
    rcases BerRef.parseLoop (bs.length + 1) 0 bs with ⟨r, rest⟩
    cases r with
    | ok u =>
      simp only [sliceTo]
      rw [if_neg (by omega), if_pos (by omega)]
    | err e => rfl
    | panic => rfl
    | ub => rfl
  rcases BerRef_parse_cases bs hlen with ⟨v, rest, h1, h2, h3⟩ | ⟨e, p, rest, h1, h2, h3⟩
  · refine ⟨by rw [h3]; exact Or.inl ⟨v, rfl⟩, hmut, ?_⟩
    intro d hd
    rw [h3] at hd
    cases hd
    obtain ⟨id, l, c, h4, h5, _⟩ := isBer_disassemble h1
    refine ⟨⟨_, h4⟩, ?_, ?_, ?_⟩
    · have h4' := h4
      simp only [BerRef.disassemble] at h4'
      rcases Res.bind_eq_ok.mp h4' with ⟨⟨i, r⟩, h6, _⟩
      exact ⟨i, by simp only [BerRef.id, h6]; rfl⟩
    · exact ⟨l, by simp only [BerRef.length, h4]; rfl⟩
    · exact ⟨c, by simp only [BerRef.contents, h4]; rfl⟩
  · refine ⟨by rw [h2]; exact Or.inr ⟨e, rfl⟩, hmut, ?_⟩
    intro d hd
    rw [h2] at hd
    cases hd

example : (BerRef.parse [0x30, 0x80, 0x02, 0x01, 0x05, 0x00, 0x00, 0x77]).1 =
    .ok [0x30, 0x80, 0x02, 0x01, 0x05, 0x00, 0x00] := by decide +kernel

/-! ### C23 -/

/-- C23, negation: ten octets make `Der::parse` and `Ber::parse` panic, in each build profile. -/
theorem C23_parse_panic_violated (m : Build) :
    (Der.parse m ([0x02, 0x88, 0xff, 0xff, 0xff, 0xff, 0xff, 0xff, 0xff, 0xff] : Bytes)).1 = .panic ∧
    (Ber.parse m ([0x02, 0x88, 0xff, 0xff, 0xff, 0xff, 0xff, 0xff, 0xff, 0xff] : Bytes)).1 = .panic := by
  cases m <;> decide +kernel

/-- C23, the part that holds for `Der::parse` (missing: oversized announced lengths): whatever the reader answers, including
failures at any point, there is no panic unless the header announces more than memory can hold. -/
theorem C23_der_parse_partial (m : Build) (s : Script)
    (hfit : ∀ id n q, IsId id → n < 2 ^ 64 → scriptData s = id ++ lenOctets n ++ q →
      id.length + (lenOctets n).length + n ≤ isizeMax) :
    (Der.parse m s).1.Settled := by
  have hi := isizeMax_eq
  have hu := usizeSize_eq
  simp only [Der.parse]
  have hspec := scriptHeader_spec s []
  generalize (parseIdLength (σ := Script)).run s [] = r at hspec
  cases hspec with
  | definite id n s' h1 h2 h3 h4 =>
    have hf := hfit id n _ h1 h2 h3
    have hw : ([] ++ id ++ lenOctets n).length = id.length + (lenOctets n).length := by simp
    simp only [hw]
    rw [uadd_ok (by omega)]
    simp only [Res.bind_ok]
    rw [bufReserve_ok (by omega)]
    simp only [Res.bind_ok]
    rw [if_pos (by omega)]
    simp only [Res.pure_eq, Nat.add_sub_cancel_left]
    rcases Script.read_spec n s' with ⟨bs, s'', h5, h6⟩ | ⟨k, s'', h5, h6⟩
    · rw [h5]
      simp only
      by_cases hb : bs.length < n
      · rw [if_pos hb]; exact Or.inr ⟨_, rfl⟩
      · rw [if_neg hb]; exact Or.inl ⟨_, rfl⟩
    · rw [h5]; exact Or.inr ⟨_, rfl⟩
  | indefinite id s' h1 h2 h3 => exact Or.inr ⟨_, rfl⟩
  | error e s' w' => exact Or.inr ⟨_, rfl⟩

/-- An error of the reader between header and contents. -/
example : (Der.parse .release ([.chunk [0x02, 0x02], .fail .unexpectedEof] : Script)).1.Settled :=
  C23_der_parse_partial .release _ fun id n q _ hn e => by
    have hi := isizeMax_eq
    have h1 := congrArg List.length e
    have h2 : (scriptData [.chunk [0x02, 0x02], .fail .unexpectedEof]).length = 2 := by decide
    rw [h2, List.length_append, List.length_append] at h1
    have h3 : id.length = 1 ∧ (lenOctets n).length = 1 := by
      have := IsId.ne_nil ‹IsId id›
      have h4 := List.length_pos_iff.2 this
      have h5 : (lenOctets 0).length ≤ (lenOctets n).length := lenOctets_length_mono (Nat.zero_le n)
      have h0 : (lenOctets 0).length = 1 := by decide +kernel
      omega
    have h6 : n < 128 := by
      by_contra hc
      have h7 : (lenOctets 128).length ≤ (lenOctets n).length := lenOctets_length_mono (by omega)
      have h8 : (lenOctets 128).length = 2 := by decide +kernel
      omega
    omega

/-- C23, the part that holds for `Ber::parse`: no panic unless somewhere in the delivered octets a header announces more than
memory can hold. -/
theorem C23_ber_parse_partial (m : Build) (s : Script) (hlen : (scriptData s).length ≤ isizeMax)
    (hfit : ∀ p id n q, IsId id → n < 2 ^ 64 → scriptData s = p ++ id ++ lenOctets n ++ q →
      (p ++ id ++ lenOctets n).length + n ≤ isizeMax) :
    (Ber.parse m s).1.Settled := by
  have hsz := scriptData_length_le s
  have hsz' : Reader.size s = Script.size s := rfl
  simp only [Ber.parse]
  rcases berParseLoop_script m (scriptData s) hlen (Reader.size s + 1) 0 s [] rfl (by omega) (by simp) with
    ⟨e, s', w', h⟩ | ⟨s', w', h⟩ | ⟨p, id, n, q, h1, h2, h3, h4⟩
  · rw [h]; exact Or.inr ⟨_, rfl⟩
  · rw [h]; exact Or.inl ⟨_, rfl⟩
  · have := hfit p id n q h1 h2 h3
    omega

/-- A reader that is interrupted, then delivers; the hypotheses of the theorems above hold for instance for data without any
header of more than one length octet. -/
example : (Der.parse .debug ([.fail .interrupted, .chunk [0x02, 0x01, 0x05]] : Script)).1 = .err (.io .interrupted) ∧
    (Ber.parse .debug ([.chunk [0x02, 0x02], .fail .interrupted, .chunk [0x05, 0x06]] : Script)).1 =
      .ok [0x02, 0x02, 0x05, 0x06] := by decide +kernel

/-! ### C27, indefinite form -/

theorem withIdLengthIndefinite_ok (m : Build) (junk : Nat → UInt8) (id : Bytes) (n : Nat)
    (h : id.length + 1 + n ≤ isizeMax) :
    Ber.withIdLengthIndefinite m junk id n = .ok (id ++ indefOctets ++ junkCells junk n) := by
  have hi := isizeMax_eq
  have hu := usizeSize_eq
  have h1 : indefOctets.length = 1 := rfl
  simp only [Ber.withIdLengthIndefinite, toBytes_indefinite, Res.bind_ok, h1]
  rw [uadd_ok (by omega)]
  simp only [Res.bind_ok]
  rw [uadd_ok (by omega)]
  simp only [Res.bind_ok]
  rw [bufReserve_ok (by omega)]
  simp only [Res.bind_ok, Nat.zero_add]
  rw [if_neg (by omega)]
  simp only [Res.pure_eq, Res.ok.injEq]
  have e : id.length + 1 + n - (id ++ indefOctets).length = n := by simp [h1]
  rw [e, List.take_of_length_le]
  simp [junkCells_length, h1]; omega

theorem newIndefinite_ok (m : Build) (junk : Nat → UInt8) {id : Bytes} (hid : IsId id) (c : Bytes)
    (h : id.length + 1 + c.length ≤ isizeMax) :
    Ber.newIndefinite m junk id c = .ok (id ++ indefOctets ++ c) := by
  simp only [Ber.newIndefinite, withIdLengthIndefinite_ok m junk id c.length h, Res.bind_ok,
    BerRef.copyContents, berDisassemble_indef hid]
  rw [if_pos (junkCells_length _ _)]
  simp only [Res.pure_eq, Res.ok.injEq]
  have : (id ++ indefOctets ++ junkCells junk c.length).length - (junkCells junk c.length).length =
      (id ++ indefOctets).length := by simp; omega
  rw [this, List.take_left' rfl]

/-- C27.  `Ber::from_id_iterator_indefinite(id, parts)` is `Ber::new_indefinite(id, concatenation)`. -/
theorem C27_from_id_iterator_indefinite (m : Build) (junk : Nat → UInt8) (id : Bytes) (parts : List Bytes)
    (hid : IsId id) (hfit : id.length + 1 + parts.flatten.length ≤ isizeMax) :
    Ber.fromIdIteratorIndefinite m id parts = Ber.newIndefinite m junk id parts.flatten := by
  have hi := isizeMax_eq
  have hu := usizeSize_eq
  rw [newIndefinite_ok m junk hid _ hfit]
  have h1 : indefOctets.length = 1 := rfl
  simp only [Ber.fromIdIteratorIndefinite]
  rw [sumLen_ok m parts 0 (by omega)]
  simp only [Res.bind_ok, Nat.zero_add, toBytes_indefinite, h1]
  rw [uadd_ok (by omega)]
  simp only [Res.bind_ok]
  rw [uadd_ok (by omega)]
  simp only [Res.bind_ok]
  rw [bufReserve_ok (by omega)]
  simp only [Res.bind_ok]
  rw [extendAll_ok]
  · simp
  · rw [List.flatten_cons, List.flatten_cons, List.length_append, List.length_append, h1]
    simp only [List.length_nil]
    omega

example : Ber.fromIdIteratorIndefinite .release [0x30] [[4, 1], [], [3, 0, 0]] = Ber.newIndefinite .release (fun _ => 0xee) [0x30] [4, 1, 3, 0, 0] :=
  C27_from_id_iterator_indefinite .release _ [0x30] [[4, 1], [], [3, 0, 0]] ⟨0, 1, 16, by decide, by decide, by decide +kernel⟩ (by decide +kernel)

/-! ### C29 -/

/-- C29.  `BerRef::parse` succeeds exactly on the grammar, with exactly the value and the rest. -/
theorem C29_ber_parse_iff (bs v rest : Bytes) (hlen : bs.length ≤ isizeMax) :
    BerRef.parse bs = (.ok v, rest) ↔ IsBer v ∧ bs = v ++ rest := by
  constructor
  · exact BerRef_parse_sound hlen
  · rintro ⟨hv, rfl⟩
    exact BerRef_parse_ok hv hlen

example : IsBer [0x30, 0x80, 0x04, 0x00, 0x00, 0x00] :=
  ((C29_ber_parse_iff [0x30, 0x80, 0x04, 0x00, 0x00, 0x00, 0x77] _ [0x77] (by decide +kernel)).1 (by decide +kernel)).1

/-- C29.  `BerRef::parse_mut` accepts the same, and splits off the same. -/
theorem C29_ber_parse_mut_iff (bs v rest : Bytes) (hlen : bs.length ≤ isizeMax) :
    BerRef.parseMut bs = (.ok v, rest) ↔ IsBer v ∧ bs = v ++ rest := by
  have hone := (C22_ber_parse_settled bs hlen).2.1
  constructor
  · intro h
    have h1 : (BerRef.parse bs).1 = .ok v := by rw [← hone, h]
    obtain ⟨h2, h3⟩ := (C29_ber_parse_iff bs v (BerRef.parse bs).2 hlen).mp (by rw [← h1])
    refine ⟨h2, ?_⟩
    simp only [BerRef.parseMut] at h
    rcases hl : BerRef.parseLoop (bs.length + 1) 0 bs with ⟨r, readable⟩
    rw [hl] at h
    cases r with
    | ok u =>
      simp only at h
      rw [if_neg (by omega)] at h
      simp only [Prod.mk.injEq, Res.ok.injEq] at h
      rw [← h.1, ← h.2, List.take_append_drop]
    | err e => simp at h
    | panic => simp at h
    | ub => simp at h
  · rintro ⟨hv, he⟩
    have hp := (C29_ber_parse_iff bs v rest hlen).mpr ⟨hv, he⟩
    simp only [BerRef.parse] at hp
    simp only [BerRef.parseMut]
    rcases hl : BerRef.parseLoop (bs.length + 1) 0 bs with ⟨r, readable⟩
    rw [hl] at hp
    cases r with
    | ok u =>
      simp only [sliceTo] at hp
      rw [if_pos (by omega)] at hp
      simp only [Prod.mk.injEq, Res.ok.injEq] at hp
      obtain ⟨h1, rfl⟩ := hp
      simp only
      rw [if_neg (by omega), h1, he, List.length_append, Nat.add_sub_cancel, List.drop_left' rfl]
    | err e => simp at hp
    | panic => simp at hp
    | ub => simp at hp

example : BerRef.parseMut [0x30, 0x80, 0x02, 0x01, 0x05, 0x00, 0x00, 0x77] =
    (.ok [0x30, 0x80, 0x02, 0x01, 0x05, 0x00, 0x00], [0x77]) := by
  decide +kernel

/-- C29.  On all other inputs it returns an error. -/
theorem C29_ber_parse_err_iff (bs : Bytes) (hlen : bs.length ≤ isizeMax) :
    (∃ e, (BerRef.parse bs).1 = .err e) ↔ ∀ v rest, IsBer v → bs ≠ v ++ rest := by
  rcases BerRef_parse_cases bs hlen with ⟨v, rest, h1, h2, h3⟩ | ⟨e, p, rest, h1, h2, h3⟩
  · rw [h3]
    constructor
    · rintro ⟨e, h⟩; cases h
    · intro h; exact absurd h2 (h v rest h1)
  · rw [h2]
    exact ⟨fun _ => h3, fun _ => ⟨e, rfl⟩⟩

/-- The end-of-contents octets are missing. -/
example (v rest : Bytes) (hv : IsBer v) : [0x30, 0x80, 0x04, 0x00] ≠ v ++ rest :=
  (C29_ber_parse_err_iff _ (by decide +kernel)).1 ⟨.unterminatedBytes, by decide +kernel⟩ v rest hv

/-- C29.  Members of the grammar never start with end-of-contents: `v ≠ eoc` in the grammar says just that. -/
theorem C29_ber_not_eoc_prefix (v : Bytes) (hv : IsBer v) : v ≠ Spec.eoc ↔ ∀ r, v ≠ 0x00 :: 0x00 :: r := by
  constructor
  · intro h r e
    have he : IsBer Spec.eoc := by rw [← tlv_zero_nil]; exact IsBer.definite _ _ isId_zero (by simp)
    have e' : v ++ [] = Spec.eoc ++ r := by rw [e]; simp [Spec.eoc]
    exact h (isBer_prefix_free hv he e').1
  · intro h e
    exact h [] e

/-- A nested indefinite value. -/
example : IsBer [0x30, 0x80, 0x30, 0x80, 0x02, 0x01, 0x05, 0x00, 0x00, 0x04, 0x00, 0x00, 0x00] := by
  exact ((C29_ber_parse_iff
    [0x30, 0x80, 0x30, 0x80, 0x02, 0x01, 0x05, 0x00, 0x00, 0x04, 0x00, 0x00, 0x00] _ [] (by decide +kernel)).mp
      (by decide +kernel)).1

/-! ### C30 -/

/-- C30.  No BER value is a proper prefix of another one. -/
theorem C30_ber_prefix_free (v w rest rest' : Bytes) (hv : IsBer v) (hw : IsBer w)
    (h : v ++ rest = w ++ rest') : v = w ∧ rest = rest' :=
  isBer_prefix_free hv hw h

example (w rest : Bytes) (hw : IsBer w) (h : [0x30, 0x80, 0x00, 0x00] ++ [0x05] = w ++ rest) : w = [0x30, 0x80, 0x00, 0x00] :=
  (C30_ber_prefix_free _ w [0x05] rest ((C29_ber_parse_iff [0x30, 0x80, 0x00, 0x00] _ [] (by decide +kernel)).1 (by decide +kernel)).1
    hw h).1.symm

theorem IsBer.ne_nil {v : Bytes} (h : IsBer v) : v ≠ [] := by
  cases h with
  | definite id c h1 _ => have := IsId.ne_nil h1; simp [tlv, this]
  | indefinite id c h1 _ => have := IsId.ne_nil h1; simp [this]

theorem repeatParse_flatten_le {parse : Bytes → Res Bytes × Bytes} (N : Nat) :
    ∀ {vs : List Bytes}, (∀ v ∈ vs, v ≠ [] ∧ ∀ rest, (v ++ rest).length ≤ N → parse (v ++ rest) = (.ok v, rest)) →
      vs.flatten.length ≤ N → ∀ {k : Nat}, vs.length ≤ k → repeatParse parse k vs.flatten = .ok vs
  | [], _, _, k, _ => by cases k <;> rfl
  | v :: vs, h, hN, k, hk => by
    obtain ⟨hne, hp⟩ := h v (by simp)
    match k with
    | 0 => simp at hk
    | k + 1 =>
      have hp' := hp vs.flatten hN
      match v with
      | [] => exact absurd rfl hne
      | b :: r =>
        simp only [List.flatten_cons, List.cons_append, repeatParse] at hp' ⊢
        rw [hp']
        simp only
        rw [List.flatten_cons, List.length_append] at hN
        rw [repeatParse_flatten_le N (fun v hv => h v (by simp [hv])) (by omega) (by simpa using hk)]
        rfl

/-- C30.  Repeated `BerRef::parse` splits a concatenation of BER values into these values. -/
theorem C30_ber_concat (vs : List Bytes) (h : ∀ v ∈ vs, IsBer v) (hlen : vs.flatten.length ≤ isizeMax)
    (k : Nat) (hk : vs.length ≤ k) : repeatParse BerRef.parse k vs.flatten = .ok vs := by
  refine repeatParse_flatten_le isizeMax (fun v hv => ⟨IsBer.ne_nil (h v hv), fun rest hl => ?_⟩) hlen hk
  exact BerRef_parse_ok (h v hv) hl

example : repeatParse BerRef.parse 2 [0x30, 0x80, 0x00, 0x00, 0x04, 0x00] =
    .ok [[0x30, 0x80, 0x00, 0x00], [0x04, 0x00]] := by decide +kernel

/-! ### C31 -/

/-- C31.  For every reader that delivers `bs` in non-empty pieces: `Ber::parse` succeeds on the reader with value `v`, the
reader then delivering `rest`, iff `BerRef::parse` succeeds on `bs` with `v` and `rest`. -/
theorem C31_ber_parse_chunking {σ : Type} [Reader σ] (R : σ → Bytes → Prop) (hd : Delivers R) (m : Build)
    (s : σ) (bs v : Bytes) (hs : R s bs) (hlen : bs.length ≤ isizeMax) :
    (Ber.parse m s).1 = .ok v ↔ ∃ rest, BerRef.parse bs = (.ok v, rest) := by
  obtain ⟨h1, h2⟩ := sim_berParse hd m hs
  rw [h1]
  rcases Ber_parse_cases m bs hlen with ⟨v', rest, k1, k2, k3⟩ | ⟨r, rest, k1, k2, k3, _⟩
  · have hb := BerRef_parse_ok k1 (rest := rest) (by rw [← k2]; exact hlen)
    rw [← k2] at hb
    rw [k3, hb]
    simp
  · rw [k1]
    constructor
    · intro h; exact absurd h (k2 v)
    · rintro ⟨rest', h⟩
      obtain ⟨h3, h4⟩ := BerRef_parse_sound hlen h
      exact absurd h4 (k3 v rest' h3)

example : (Ber.parse .debug ([.chunk [0x30], .chunk [0x80, 0x00], .chunk [0x00]] : Script)).1 = .ok [0x30, 0x80, 0x00, 0x00] :=
  (C31_ber_parse_chunking Chunks delivers_chunks .debug _ [0x30, 0x80, 0x00, 0x00] _
    (Chunks.cons [0x30] _ _ (by decide) (Chunks.cons [0x80, 0x00] _ _ (by decide) (Chunks.cons [0x00] _ _ (by decide) Chunks.nil)))
    (by decide +kernel)).2 ⟨[], by decide +kernel⟩

/-- C31.  After a success the reader is right behind the value. -/
theorem C31_ber_parse_position {σ : Type} [Reader σ] (R : σ → Bytes → Prop) (hd : Delivers R) (m : Build)
    (s : σ) (bs v rest : Bytes) (hs : R s bs) (hlen : bs.length ≤ isizeMax)
    (h : BerRef.parse bs = (.ok v, rest)) : ∃ s', Ber.parse m s = (.ok v, s') ∧ R s' rest := by
  obtain ⟨h1, h2⟩ := sim_berParse hd m hs
  rcases Ber_parse_cases m bs hlen with ⟨v', rest', k1, k2, k3⟩ | ⟨r, rest', k1, k2, k3, _⟩
  · have hb := BerRef_parse_ok k1 (rest := rest') (by rw [← k2]; exact hlen)
    rw [← k2, h] at hb
    simp only [Prod.mk.injEq, Res.ok.injEq] at hb
    obtain ⟨rfl, rfl⟩ := hb
    rw [k3] at h1 h2
    exact ⟨(Ber.parse m s).2, Prod.ext h1 rfl, h2⟩
  · obtain ⟨h3, h4⟩ := BerRef_parse_sound hlen h
    exact absurd h4 (k3 v rest h3)

/-- `Delivers` holds for slices and for every script of non-empty chunks. -/
example : Delivers Chunks ∧ Delivers (σ := Bytes) (fun s bs => s = bs) := ⟨delivers_chunks, delivers_slice⟩
example : Chunks [.chunk [0x30], .chunk [0x80, 0x00], .chunk [0x00]] [0x30, 0x80, 0x00, 0x00] :=
  Chunks.cons [0x30] _ _ (by decide) (Chunks.cons [0x80, 0x00] _ _ (by decide)
    (Chunks.cons [0x00] _ _ (by decide) Chunks.nil))

/-! ### C32 -/

/-- C32.  What `DerRef::parse` accepts `BerRef::parse` accepts with the same result, and both views have the same parts. -/
theorem C32_der_is_ber (bs d rest : Bytes) (hlen : bs.length ≤ isizeMax) (h : DerRef.parse bs = (.ok d, rest)) :
    BerRef.parse bs = (.ok d, rest) ∧
    ∃ id c, DerRef.disassemble d = .ok (id, .definite c.length, c) ∧
      BerRef.disassemble d = .ok (id, .definite c.length, c) := by
  obtain ⟨id, c, h1, h2, rfl, h4⟩ := DerRef_parse_ok h
  refine ⟨?_, id, c, disassemble_tlv h1 h2, disassemble_tlv h1 h2⟩
  subst h4
  exact BerRef_parse_ok (IsBer.definite id c h1 h2) hlen

example : DerRef.parse [0x04, 0x01, 0x07, 0x99] = (.ok [0x04, 0x01, 0x07], [0x99]) := by decide +kernel

/-! ### C33 -/

/-- The operation on a `Ber`. -/
def ContentsOp.ber (m : Build) (junk : Nat → UInt8) : ContentsOp → Bytes → Res Bytes
  | .push b, d => Ber.push m junk d b
  | .extend bs, d => Ber.extendFromSlice m junk d bs
  | .truncate n, d => Ber.truncate m d n

/-- A history of operations on a `Ber`. -/
def runBer (m : Build) : List ((Nat → UInt8) × ContentsOp) → Bytes → Res Bytes
  | [], d => .ok d
  | (junk, op) :: r, d => (op.ber m junk d).bind (runBer m r)

theorem berLength_tlv {id : Bytes} (hid : IsId id) {c : Bytes} (hc : c.length < 2 ^ 64) :
    BerRef.length (tlv id c) = .ok (.definite c.length) := DerRef_length_tlv hid hc

theorem berLength_indef {id : Bytes} (hid : IsId id) (c : Bytes) :
    BerRef.length (id ++ indefOctets ++ c) = .ok .indefinite := by
  simp only [BerRef.length, berDisassemble_indef hid]; rfl

theorem berContents_indef {id : Bytes} (hid : IsId id) (c : Bytes) :
    BerRef.contents (id ++ indefOctets ++ c) = .ok c := by
  simp only [BerRef.contents, berDisassemble_indef hid]; rfl

theorem ContentsOp.ber_tlv (m : Build) (junk : Nat → UInt8) {id : Bytes} (hid : IsId id) {c : Bytes}
    (hc : c.length < 2 ^ 64) (op : ContentsOp) : op.ber m junk (tlv id c) = op.der m junk (tlv id c) := by
  cases op <;>
    simp only [ContentsOp.ber, ContentsOp.der, Ber.push, Der.push, Ber.extendFromSlice, Ber.truncate,
      berLength_tlv hid hc, Res.bind_ok]

theorem ContentsOp.ber_indef (m : Build) (junk : Nat → UInt8) {id : Bytes} (hid : IsId id) (c : Bytes)
    (op : ContentsOp) (h : id.length + 1 + c.length ≤ isizeMax)
    (h' : id.length + 1 + (op.vec c).length ≤ isizeMax) :
    op.ber m junk (id ++ indefOctets ++ c) = .ok (id ++ indefOctets ++ op.vec c) := by
  have hi := isizeMax_eq
  have hu := usizeSize_eq
  have h1 : indefOctets.length = 1 := rfl
  have hl : (id ++ indefOctets ++ c).length = id.length + 1 + c.length := by simp [h1]; omega
  have hext : ∀ bs, id.length + 1 + (c ++ bs).length ≤ isizeMax →
      Ber.extendFromSlice m junk (id ++ indefOctets ++ c) bs = .ok (id ++ indefOctets ++ (c ++ bs)) := by
    intro bs hb
    rw [List.length_append] at hb
    simp only [Ber.extendFromSlice, berLength_indef hid, Res.bind_ok]
    rw [bufReserve_ok (by omega)]
    simp only [Res.bind_ok]
    rw [uadd_ok (by omega)]
    simp only [Res.bind_ok, Nat.add_sub_cancel_left]
    have := memcpy_at (id ++ indefOctets ++ c) (junkCells junk bs.length) [] bs _ rfl (junkCells_length _ _)
    simpa using this
  cases op with
  | push b => exact hext [b] h'
  | extend bs => exact hext bs h'
  | truncate n =>
    simp only [ContentsOp.ber, ContentsOp.vec, Ber.truncate, berLength_indef hid, berContents_indef hid, Res.bind_ok]
    by_cases hn : c.length ≤ n
    · rw [if_pos hn, List.take_of_length_le hn]; rfl
    · rw [if_neg hn, uadd_ok (by omega)]
      simp only [Res.bind_ok]
      rw [usub_ok (by omega)]
      simp only [Res.bind_ok]
      rw [if_pos (by omega)]
      simp only [Res.pure_eq, Res.ok.injEq]
      have e : (id ++ indefOctets ++ c).length + n - c.length = (id ++ indefOctets).length + n := by
        rw [hl]; simp [h1]; omega
      rw [e, List.take_length_add_append]

theorem runBer_indef (m : Build) {id : Bytes} (hid : IsId id) :
    ∀ (ops : List ((Nat → UInt8) × ContentsOp)) (c : Bytes), Fits (fun c => id.length + 1 + c.length) ops c →
      runBer m ops (id ++ indefOctets ++ c) = .ok (id ++ indefOctets ++ runVec ops c)
  | [], c, _ => rfl
  | (junk, op) :: r, c, h => by
    simp only [runBer, runVec]
    rw [ContentsOp.ber_indef m junk hid c op h.1 h.2.head]
    exact runBer_indef m hid r (op.vec c) h.2

theorem runBer_tlv (m : Build) {id : Bytes} (hid : IsId id) :
    ∀ (ops : List ((Nat → UInt8) × ContentsOp)) (c : Bytes), Fits (fun c => (tlv id c).length) ops c →
      runBer m ops (tlv id c) = .ok (tlv id (runVec ops c))
  | [], c, _ => rfl
  | (junk, op) :: r, c, h => by
    have hi := isizeMax_eq
    have hl : (tlv id c).length ≤ isizeMax := h.1
    rw [tlv_length] at hl
    simp only [runBer, runVec]
    rw [ContentsOp.ber_tlv m junk hid (by omega), ContentsOp.der_tlv m junk hid c op h.1 h.2.head]
    exact runBer_tlv m hid r (op.vec c) h.2

theorem Fits.last {size : Bytes → Nat} : ∀ {ops : List ((Nat → UInt8) × ContentsOp)} {c : Bytes}, Fits size ops c →
    size (runVec ops c) ≤ isizeMax
  | [], _, h => h
  | _ :: r, _, h => Fits.last (ops := r) h.2

/-- C33.  A history on a value of definite length: the result is the value of definite length for the changed contents. -/
theorem C33_ber_history_definite (m : Build) (junk junk' : Nat → UInt8) (id c : Bytes) (hid : IsId id)
    (ops : List ((Nat → UInt8) × ContentsOp)) (hfit : Fits (fun c => (tlv id c).length) ops c) :
    ∃ d, Ber.new m junk id (runVec ops c) = .ok d ∧ (Ber.new m junk' id c).bind (runBer m ops) = .ok d ∧
      BerRef.length d = .ok (.definite (runVec ops c).length) := by
  have hi := isizeMax_eq
  have hend := hfit.last
  have hl := hend
  rw [tlv_length] at hl
  refine ⟨tlv id (runVec ops c), Der_new_ok m junk hid _ hend, ?_, berLength_tlv hid (by omega)⟩
  rw [Ber.new, Der_new_ok m junk' hid c hfit.head]
  exact runBer_tlv m hid ops c hfit

example := C33_ber_history_definite .debug (fun _ => 0) (fun _ => 1) [0x04] [7] ⟨0, 0, 4, by decide, by decide, by decide +kernel⟩
  [(fun _ => 2, .extend (List.replicate 130 9)), (fun _ => 3, .truncate 128), (fun _ => 4, .push 2)] (by simp only [Fits]; decide +kernel)

/-- C33.  A history on a value of indefinite length: it stays indefinite and has the changed contents. -/
theorem C33_ber_history_indefinite (m : Build) (junk junk' : Nat → UInt8) (id c : Bytes) (hid : IsId id)
    (ops : List ((Nat → UInt8) × ContentsOp)) (hfit : Fits (fun c => id.length + 1 + c.length) ops c) :
    ∃ d, Ber.newIndefinite m junk id (runVec ops c) = .ok d ∧
      (Ber.newIndefinite m junk' id c).bind (runBer m ops) = .ok d ∧ BerRef.length d = .ok .indefinite ∧
      BerRef.contents d = .ok (runVec ops c) := by
  refine ⟨id ++ indefOctets ++ runVec ops c, newIndefinite_ok m junk hid _ hfit.last, ?_, berLength_indef hid _,
    berContents_indef hid _⟩
  rw [newIndefinite_ok m junk' hid c hfit.head]
  exact runBer_indef m hid ops c hfit

example : Fits (fun c => ([0x30] : Bytes).length + 1 + c.length)
    [(fun _ => 0xaa, .extend (List.replicate 127 1)), (fun _ => 0xbb, .push 2), (fun _ => 0, .truncate 5)] [9] := by
  simp only [Fits]
  decide +kernel

/-! ### C34 -/

theorem berSeq_flatten : ∀ {vs : List Bytes}, (∀ v ∈ vs, IsBer v ∧ v ≠ Spec.eoc) → BerSeq vs.flatten
  | [], _ => BerSeq.nil
  | v :: vs, h => by
    rw [List.flatten_cons]
    exact BerSeq.cons v _ (h v (by simp)).1 (h v (by simp)).2 (berSeq_flatten fun w hw => h w (by simp [hw]))

/-- C34.  Children accepted by `BerRef::parse`, none of them end-of-contents, followed by end-of-contents: the value of indefinite length
built from them parses to itself and has the expected parts. -/
theorem C34_new_indefinite_roundtrip (m : Build) (junk : Nat → UInt8) (id : Bytes) (hid : IsId id) (vs : List Bytes)
    (rest : Bytes) (hvs : ∀ v ∈ vs, BerRef.parse v = (.ok v, []) ∧ v ≠ BerRef.eoc)
    (hfit : (id ++ indefOctets ++ (vs.flatten ++ BerRef.eoc) ++ rest).length ≤ isizeMax) :
    ∃ d, Ber.newIndefinite m junk id (vs.flatten ++ BerRef.eoc) = .ok d ∧ BerRef.parse (d ++ rest) = (.ok d, rest) ∧
      BerRef.disassemble d = .ok (id, .indefinite, vs.flatten ++ BerRef.eoc) := by
  have h1 : indefOctets.length = 1 := rfl
  have hseq : BerSeq vs.flatten := by
    refine berSeq_flatten fun v hv => ⟨?_, (hvs v hv).2⟩
    refine (BerRef_parse_sound ?_ (hvs v hv).1).1
    have : v.length ≤ vs.flatten.length := by
      obtain ⟨a, b, rfl⟩ := List.append_of_mem hv
      simp; omega
    simp only [List.length_append] at hfit
    omega
  have hv := IsBer.indefinite id vs.flatten hid hseq
  have e : id ++ indefOctets ++ vs.flatten ++ Spec.eoc = id ++ indefOctets ++ (vs.flatten ++ BerRef.eoc) := by
    simp [BerRef.eoc, Spec.eoc]
  rw [e] at hv
  refine ⟨_, newIndefinite_ok m junk hid _ ?_, BerRef_parse_ok hv hfit, berDisassemble_indef hid _⟩
  simp only [List.length_append] at hfit ⊢
  omega

example : ∀ v ∈ [[0x02, 0x01, 0x05], [0x30, 0x80, 0x00, 0x00]], BerRef.parse v = (.ok v, []) ∧ v ≠ BerRef.eoc := by
  decide +kernel

end Bsn1
