import Verif.Props.Panic
import Verif.Props.Decode
/-!
# C51: reading from a reader and parsing a slice, all results compared
-/

namespace Bsn1
open Spec

namespace Spec

/-- Where a header is due, `bs` has one that announces more octets than follow. -/
def Truncated (bs : List UInt8) : Prop :=
  ∃ p d id n q, Due 0 p d ∧ IsId id ∧ n < 2 ^ 64 ∧ bs = p ++ (id ++ lenOctets n ++ q) ∧ q.length < n

end Spec

/-- Result and reader do not depend on what was written before. -/
def Oblivious {α : Type} (x : P Bytes α) : Prop :=
  ∀ s w w', (x.run s w).1 = (x.run s w').1 ∧ (x.run s w).2.1 = (x.run s w').2.1

namespace Oblivious
variable {α β : Type}

theorem pure (a : α) : Oblivious (Pure.pure a : P Bytes α) := fun _ _ _ => ⟨rfl, rfl⟩
theorem throw (e : Error) : Oblivious (P.throw e : P Bytes α) := fun _ _ _ => ⟨rfl, rfl⟩
theorem lift (r : Res α) : Oblivious (P.lift r : P Bytes α) := fun _ _ _ => ⟨rfl, rfl⟩
theorem write (b : UInt8) : Oblivious (writeU8 b) := fun _ _ _ => ⟨rfl, rfl⟩

theorem read : Oblivious (readU8 (σ := Bytes)) := by
  intro s w w'
  cases s with
  | nil => rw [readU8_nil, readU8_nil]; exact ⟨rfl, rfl⟩
  | cons b r => rw [readU8_cons, readU8_cons]; exact ⟨rfl, rfl⟩

theorem bind {x : P Bytes α} {f : α → P Bytes β} (h : Oblivious x) (hf : ∀ a, Oblivious (f a)) : Oblivious (x >>= f) := by
  intro s w w'
  have h1 := h s w w'
  rw [P.bind_def, P.bind_def]
  generalize x.run s w = q at *
  generalize x.run s w' = q' at *
  obtain ⟨r, s1, w1⟩ := q
  obtain ⟨r', s1', w1'⟩ := q'
  obtain ⟨rfl, rfl⟩ := h1
  cases r with
  | ok a => exact hf a _ _ _
  | err e => exact ⟨rfl, rfl⟩
  | panic => exact ⟨rfl, rfl⟩
  | ub => exact ⟨rfl, rfl⟩

theorem ite {c : Prop} [Decidable c] {x y : P Bytes α} (h : Oblivious x) (h' : Oblivious y) : Oblivious (if c then x else y) := by
  split
  · exact h
  · exact h'

theorem idLoop : ∀ (f : Nat) (o : UInt8) (i : Nat), Oblivious (parseIdLoop (σ := Bytes) f o i)
  | 0, _, _ => lift _
  | f + 1, _, _ => bind (write _) fun _ => ite (pure _) (bind read fun _ => idLoop f _ _)

theorem lengthLoop : ∀ (k l : Nat), Oblivious (parseLengthLoop (σ := Bytes) k l)
  | 0, _ => pure _
  | k + 1, _ => bind read fun _ => bind (write _) fun _ => lengthLoop k _

theorem length : Oblivious (parseLength (σ := Bytes)) :=
  bind read fun _ => bind (write _) fun _ => ite (pure _) <| ite (pure _) <| bind read fun _ => ite (throw _) <|
    bind (write _) fun _ => ite (throw _) <| ite (throw _) <| bind (lengthLoop _ _) fun _ => pure _

theorem idLength : Oblivious (parseIdLength (σ := Bytes)) :=
  bind (bind read fun _ => bind (write _) fun _ => ite (pure _) <| bind read fun _ => ite (throw _) <| ite (throw _) <|
    fun s w w' => show _ ∧ _ from idLoop (Reader.size s + 1) _ 2 s w w') fun _ => length

end Oblivious

/-- Reading from a slice never fails with an I/O error. -/
def NoIo {α : Type} (x : P Bytes α) : Prop := ∀ s w k, (x.run s w).1 ≠ .err (.io k)

namespace NoIo
variable {α β : Type}

theorem pure (a : α) : NoIo (Pure.pure a : P Bytes α) := fun _ _ _ => nofun
theorem throw (e : Error) (h : ∀ k, e ≠ .io k) : NoIo (P.throw e : P Bytes α) := fun _ _ k hk => h k (Res.err.inj hk)
theorem panic : NoIo (P.lift .panic : P Bytes α) := fun _ _ _ => nofun
theorem write (b : UInt8) : NoIo (writeU8 b) := fun _ _ _ => nofun

theorem read : NoIo (readU8 (σ := Bytes)) := by
  intro s w k
  cases s with
  | nil => rw [readU8_nil]; nofun
  | cons b r => rw [readU8_cons]; nofun

theorem bind {x : P Bytes α} {f : α → P Bytes β} (h : NoIo x) (hf : ∀ a, NoIo (f a)) : NoIo (x >>= f) := by
  intro s w k
  have h1 := h s w k
  rw [P.bind_def]
  generalize x.run s w = q at *
  obtain ⟨r, s1, w1⟩ := q
  cases r with
  | ok a => exact hf a _ _ _
  | err e => intro h2; exact h1 (congrArg _ (Res.err.inj h2))
  | panic => nofun
  | ub => nofun

theorem ite {c : Prop} [Decidable c] {x y : P Bytes α} (h : NoIo x) (h' : NoIo y) : NoIo (if c then x else y) := by
  split
  · exact h
  · exact h'

theorem idLoop : ∀ (f : Nat) (o : UInt8) (i : Nat), NoIo (parseIdLoop (σ := Bytes) f o i)
  | 0, _, _ => panic
  | f + 1, _, _ => bind (write _) fun _ => ite (pure _) (bind read fun _ => idLoop f _ _)

theorem lengthLoop : ∀ (k l : Nat), NoIo (parseLengthLoop (σ := Bytes) k l)
  | 0, _ => pure _
  | k + 1, _ => bind read fun _ => bind (write _) fun _ => lengthLoop k _

theorem length : NoIo (parseLength (σ := Bytes)) :=
  bind read fun _ => bind (write _) fun _ => ite (pure _) <| ite (pure _) <| bind read fun _ => ite (throw _ nofun) <|
    bind (write _) fun _ => ite (throw _ nofun) <| ite (throw _ nofun) <| bind (lengthLoop _ _) fun _ => pure _

theorem idLength : NoIo (parseIdLength (σ := Bytes)) :=
  bind (bind read fun _ => bind (write _) fun _ => ite (pure _) <| bind read fun _ => ite (throw _ nofun) <| ite (throw _ nofun) <|
    fun s w k => show ¬ _ from idLoop (Reader.size s + 1) _ 2 s w k) fun _ => length

end NoIo

theorem berDoParse_short (m : Build) {id q : Bytes} {n : Nat} (w : Bytes) (hid : IsId id) (hn : n < 2 ^ 64) (hq : q.length < n)
    (ho : ¬ isizeMax < (w ++ id ++ lenOctets n).length + n) :
    (Ber.doParse m).run (id ++ lenOctets n ++ q) w = (.err (.io .unexpectedEof), [], w ++ id ++ lenOctets n) := by
  have hi := isizeMax_eq
  have hu := usizeSize_eq
  simp only [Ber.doParse, parseIdLength_definite hid hn]
  rw [bufReserve_ok (by omega)]
  simp only [Res.bind_ok]
  rw [uadd_ok (by omega)]
  simp only [Res.bind_ok]
  rw [if_pos (by omega)]
  simp only [Res.pure_eq, Nat.add_sub_cancel_left]
  obtain ⟨s', h1, h2⟩ := readExact_slice n q
  rw [h1, if_neg (by omega), h2, List.drop_eq_nil_of_le (by omega)]

/-- One step of the two parsers: they agree, unless contents are missing. -/
theorem berStep_agree (m : Build) (bs w : Bytes) :
    (∃ id n q, IsId id ∧ n < 2 ^ 64 ∧ bs = id ++ lenOctets n ++ q ∧ q.length < n ∧ BerRef.doParse bs = (.err .unterminatedBytes, q) ∧
      ((isizeMax < (w ++ id ++ lenOctets n).length + n ∧ ∃ s' w', (Ber.doParse m).run bs w = (.panic, s', w')) ∨
       (¬ isizeMax < (w ++ id ++ lenOctets n).length + n ∧ ∃ w', (Ber.doParse m).run bs w = (.err (.io .unexpectedEof), [], w')))) ∨
    (∃ id n q s' w', IsId id ∧ n < 2 ^ 64 ∧ bs = id ++ lenOctets n ++ q ∧ n ≤ q.length ∧
      isizeMax < (w ++ id ++ lenOctets n).length + n ∧ (Ber.doParse m).run bs w = (.panic, s', w')) ∨
    (∃ e rest w', (∀ k, e ≠ .io k) ∧ BerRef.doParse bs = (.err e, rest) ∧ (Ber.doParse m).run bs w = (.err e, rest, w')) ∨
    (∃ id c rest, IsId id ∧ c.length < 2 ^ 64 ∧ tlv id c ≠ Spec.eoc ∧ bs = tlv id c ++ rest ∧ BerRef.doParse bs = (.ok 0, rest) ∧
      (Ber.doParse m).run bs w = (.ok 0, rest, w ++ tlv id c)) ∨
    (∃ rest, bs = Spec.eoc ++ rest ∧ BerRef.doParse bs = (.ok (-1), rest) ∧ (Ber.doParse m).run bs w = (.ok (-1), rest, w ++ Spec.eoc)) ∨
    (∃ id rest, IsId id ∧ bs = id ++ indefOctets ++ rest ∧ BerRef.doParse bs = (.ok 1, rest) ∧
      (Ber.doParse m).run bs w = (.ok 1, rest, w ++ (id ++ indefOctets))) := by
  have hi := isizeMax_eq
  have hu := usizeSize_eq
  have hspec := parseIdLength_spec bs w
  have hob := Oblivious.idLength bs w []
  have hio := NoIo.idLength bs w
  generalize hr : (parseIdLength (σ := Bytes)).run bs w = r at hspec hob hio
  cases hspec with
  | definite id n rest hid hn e =>
    by_cases hq : n ≤ rest.length
    · have ht : tlv id (rest.take n) = id ++ lenOctets n ++ rest.take n := by
        rw [tlv, List.length_take, Nat.min_eq_left hq]
      have hbs : bs = tlv id (rest.take n) ++ rest.drop n := by rw [ht, e]; simp
      rcases berDoParse_definite m (q := rest) w hid hn with ⟨ho, s', w', h⟩ | ⟨ho, _, h⟩ | ⟨_, h, _⟩
      · exact .inr (.inl ⟨id, n, rest, s', w', hid, hn, e, hq, ho, e ▸ h⟩)
      · rw [← e] at h
        by_cases heoc : id ++ lenOctets n ++ rest.take n = BerRef.eoc
        · rw [if_pos heoc, List.append_assoc w, List.append_assoc w, heoc] at h
          rw [ht, heoc] at hbs
          have h2 := doParse_eoc (rest.drop n)
          refine .inr (.inr (.inr (.inr (.inl ⟨_, hbs, ?_, h⟩))))
          rw [hbs]; exact h2
        · rw [if_neg heoc, List.append_assoc w, List.append_assoc w, ← ht] at h
          rw [← ht] at heoc
          refine .inr (.inr (.inr (.inl ⟨id, _, _, hid, by simp; omega, heoc, hbs, ?_, h⟩)))
          rw [hbs]; exact doParse_definite hid (by simp; omega) heoc _
      · omega
    · left
      refine ⟨id, n, rest, hid, hn, e, by omega, ?_, ?_⟩
      · have hne : ¬ BerRef.eoc.isPrefixOf bs = true := by
          rw [eoc_prefix]
          rintro ⟨r, e'⟩
          have h1 := parseIdLength_definite hid hn rest []
          have h2 := parseIdLength_definite isId_zero (n := 0) (by decide) r []
          rw [← e, e'] at h1
          have e3 : [0x00] ++ lenOctets 0 ++ r = Spec.eoc ++ r := rfl
          rw [e3, h1] at h2
          simp only [Prod.mk.injEq, Res.ok.injEq, Length.definite.injEq] at h2
          omega
        simp only [BerRef.doParse]
        rw [if_neg hne, e, parseIdLength_definite hid hn]
        simp only
        rw [if_pos (by omega)]
      · by_cases ho : isizeMax < (w ++ id ++ lenOctets n).length + n
        · rcases berDoParse_definite m (q := rest) w hid hn with ⟨ho, s', w', h⟩ | ⟨h, _⟩ | ⟨h, _⟩
          · exact .inl ⟨ho, s', w', e ▸ h⟩
          · exact absurd ho h
          · exact absurd ho h
        · refine .inr ⟨ho, w ++ id ++ lenOctets n, ?_⟩
          rw [e]
          exact berDoParse_short m w hid hn (by omega) ho
  | indefinite id rest hid e =>
    refine .inr (.inr (.inr (.inr (.inr ⟨id, rest, hid, e, ?_, ?_⟩))))
    · rw [e]; exact doParse_indefinite hid rest
    · simp only [Ber.doParse, hr, List.append_assoc]
  | error e p rest w' h =>
    refine .inr (.inr (.inl ⟨e, rest, w', fun k hk => hio k (congrArg _ hk), ?_, by simp only [Ber.doParse, hr]⟩))
    have hne : ¬ BerRef.eoc.isPrefixOf bs = true := by
      rw [eoc_prefix]
      rintro ⟨r, rfl⟩
      have h2 := parseIdLength_definite isId_zero (n := 0) (by decide) r w
      have e3 : [0x00] ++ lenOctets 0 ++ r = Spec.eoc ++ r := rfl
      rw [e3, hr] at h2
      cases h2
    simp only [BerRef.doParse]
    rw [if_neg hne]
    generalize (parseIdLength (σ := Bytes)).run bs [] = q at hob
    obtain ⟨r, s1, w1⟩ := q
    obtain ⟨h1, h2⟩ := hob
    simp only at h1 h2
    rw [← h1, ← h2]

/-- Contents are missing, with `d` values open and `w` read before. -/
def Short (fits : Prop → Prop) (d : Nat) (w bs : Bytes) : Prop :=
  ∃ p d' id n q, Due d p d' ∧ IsId id ∧ n < 2 ^ 64 ∧ bs = p ++ (id ++ lenOctets n ++ q) ∧ q.length < n ∧
    fits (isizeMax < (w ++ p ++ id ++ lenOctets n).length + n)

theorem Short.before {fits : Prop → Prop} {d d1 : Nat} {w p1 bs : Bytes} (h1 : ∀ {p d'}, Due d1 p d' → Due d (p1 ++ p) d')
    (h : Short fits d1 (w ++ p1) bs) : Short fits d w (p1 ++ bs) := by
  obtain ⟨p, d', id, n, q, k1, k2, k3, rfl, k5, k6⟩ := h
  exact ⟨p1 ++ p, d', id, n, q, h1 k1, k2, k3, by simp, k5, by simpa using k6⟩

/-- The loops of the two parsers. -/
theorem berLoop_agree (m : Build) : ∀ (f d : Nat) (bs w : Bytes), bs.length < f → d ≤ w.length → w.length + bs.length ≤ isizeMax →
    (∃ r rest w', ((Ber.parseLoop m f d).run bs w) = (r, rest, w') ∧ BerRef.parseLoop f d bs = (r, rest) ∧ (∀ p, r = .ok p → w' ++ rest = w ++ bs) ∧ ∀ k, r ≠ .err (.io k)) ∨
    (Short id d w bs ∧ ((Ber.parseLoop m f d).run bs w).1 = .panic ∧ ∃ q, BerRef.parseLoop f d bs = (.err .unterminatedBytes, q)) ∨
    (Short Not d w bs ∧ (∃ w', (Ber.parseLoop m f d).run bs w = (.err (.io .unexpectedEof), [], w')) ∧
      ∃ q, BerRef.parseLoop f d bs = (.err .unterminatedBytes, q)) := by
  intro f
  induction f with
  | zero => intro d bs w h; omega
  | succ f ih =>
    intro d bs w hf hd hmax
    have key : ∀ (δ : Int) (p1 rest : Bytes), bs = p1 ++ rest → 2 ≤ p1.length → -1 ≤ δ → δ ≤ 1 → BerRef.doParse bs = (.ok δ, rest) →
        (Ber.doParse m).run bs w = (.ok δ, rest, w ++ p1) →
        (∀ d1 : Nat, (d : Int) + δ = d1 → 0 < d1 → ∀ {p d'}, Due d1 p d' → Due d (p1 ++ p) d') →
        (∃ r rest w', ((Ber.parseLoop m (f + 1) d).run bs w) = (r, rest, w') ∧ BerRef.parseLoop (f + 1) d bs = (r, rest) ∧
          (∀ p, r = .ok p → w' ++ rest = w ++ bs) ∧ ∀ k, r ≠ .err (.io k)) ∨
        (Short id d w bs ∧ ((Ber.parseLoop m (f + 1) d).run bs w).1 = .panic ∧
          ∃ q, BerRef.parseLoop (f + 1) d bs = (.err .unterminatedBytes, q)) ∨
        (Short Not d w bs ∧ (∃ w', (Ber.parseLoop m (f + 1) d).run bs w = (.err (.io .unexpectedEof), [], w')) ∧
          ∃ q, BerRef.parseLoop (f + 1) d bs = (.err .unterminatedBytes, q)) := by
      intro δ p1 rest e hp1 hδ hδ' h1 h2 h3
      have hl : bs.length = p1.length + rest.length := by rw [e, List.length_append]
      simp only [Ber.parseLoop, P.bind_def, h2, P.ite_apply, P.lift_apply, P.pure_apply, BerRef.parseLoop, h1]
      have hno : ¬ (isizeMax : Int) < d + δ := by omega
      simp only [if_neg hno]
      by_cases hp : d + δ > 0
      · simp only [if_pos hp]
        obtain ⟨d', hd'⟩ : ∃ d' : Nat, (d : Int) + δ = d' := ⟨((d : Int) + δ).toNat, by omega⟩
        rw [hd']
        rcases ih d' rest (w ++ p1) (by omega) (by simp; omega) (by simp; omega) with
          ⟨r, rest', w', k1, k2, k3, k4⟩ | ⟨k1, k2, k3⟩ | ⟨k1, k2, k3⟩
        · exact .inl ⟨r, rest', w', k1, k2, fun p hr => by rw [k3 p hr, e, List.append_assoc], k4⟩
        · exact .inr (.inl ⟨e ▸ k1.before (h3 d' hd' (by omega)), k2, k3⟩)
        · exact .inr (.inr ⟨e ▸ k1.before (h3 d' hd' (by omega)), k2, k3⟩)
      · simp only [if_neg hp]
        exact .inl ⟨_, _, _, rfl, rfl, fun _ _ => by rw [e, List.append_assoc], nofun⟩
    rcases berStep_agree m bs w with ⟨id, n, q, hid, hn, e, hq, h1, h2⟩ | ⟨id, n, q, s', w', hid, hn, e, hq, ho, h⟩ | ⟨e, rest, w', h0, h1, h2⟩ |
      ⟨id, c, rest, hid, hc, hne, e, h1, h2⟩ | ⟨rest, e, h1, h2⟩ | ⟨id, rest, hid, e, h1, h2⟩
    · have hs : BerRef.parseLoop (f + 1) d bs = (.err .unterminatedBytes, q) := by simp only [BerRef.parseLoop, h1]
      rcases h2 with ⟨ho, s', w', h2⟩ | ⟨ho, w', h2⟩
      · exact .inr (.inl ⟨⟨[], d, id, n, q, .nil d, hid, hn, e, hq, by simpa using ho⟩, berLoop_panic_of_step h2, q, hs⟩)
      · exact .inr (.inr ⟨⟨[], d, id, n, q, .nil d, hid, hn, e, hq, by simpa using ho⟩, ⟨w', by simp only [Ber.parseLoop, P.bind_def, h2]⟩, q, hs⟩)
    · rw [e] at hmax
      simp only [List.length_append] at hmax ho
      omega
    · exact .inl ⟨.err e, rest, w', by simp only [Ber.parseLoop, P.bind_def, h2], by simp only [BerRef.parseLoop, h1], fun p hp => absurd hp nofun, fun k hk => h0 k (Res.err.inj hk)⟩
    · refine key 0 (tlv id c) rest e ?_ (by omega) (by omega) h1 h2 ?_
      · have := isId_length_pos hid
        have := List.length_pos_iff.mpr (lenOctets_ne_nil c.length)
        rw [tlv_length]; omega
      · intro d1 hd1 hpos p d' hdue
        have : d1 = d := by omega
        subst this
        exact .skip d1 d' id c p hpos hid hc hne hdue
    · refine key (-1) Spec.eoc rest e (by decide) (by omega) (by omega) h1 h2 ?_
      intro d1 hd1 hpos p d' hdue
      have : d = d1 + 1 := by omega
      subst this
      exact .close d1 d' p hpos hdue
    · refine key 1 (id ++ indefOctets) rest e ?_ (by omega) (by omega) h1 h2 ?_
      · have := isId_length_pos hid
        simp [indefOctets]; omega
      · intro d1 hd1 hpos p d' hdue
        have : d1 = d + 1 := by omega
        subst this
        exact .open d d' id p hid hdue

/-- The loop gets to where a header is due. -/
theorem berLoop_due (m : Build) {d d' : Nat} {p : Bytes} (hp : Due d p d') : ∀ (x w : Bytes) (f : Nat), d ≤ w.length →
    w.length + (p ++ x).length ≤ isizeMax → (p ++ x).length < f →
    ∃ f', x.length < f' ∧ d' ≤ (w ++ p).length ∧ (Ber.parseLoop m f d).run (p ++ x) w = (Ber.parseLoop m f' d').run x (w ++ p) := by
  have step : ∀ {d d1 d' : Nat} {δ : Int} {p1 p x w : Bytes} {f : Nat}, d ≤ w.length → (d : Int) + δ = d1 → 0 < d1 → d1 ≤ d + p1.length →
      w.length + (p1 ++ p ++ x).length ≤ isizeMax → (p1 ++ p ++ x).length < f → 0 < p1.length →
      (Ber.doParse m).run (p1 ++ p ++ x) w = (.ok δ, p ++ x, w ++ p1) →
      (∀ f, (p ++ x).length < f → ∃ f', x.length < f' ∧ d' ≤ (w ++ p1 ++ p).length ∧
        (Ber.parseLoop m f d1).run (p ++ x) (w ++ p1) = (Ber.parseLoop m f' d').run x (w ++ p1 ++ p)) →
      ∃ f', x.length < f' ∧ d' ≤ (w ++ (p1 ++ p)).length ∧
        (Ber.parseLoop m f d).run (p1 ++ p ++ x) w = (Ber.parseLoop m f' d').run x (w ++ (p1 ++ p)) := by
    intro d d1 d' δ p1 p x w f hd hδ hd1 hle hmax hf hp1 h ih
    cases f with
    | zero => omega
    | succ f =>
      have e : (Ber.parseLoop m (f + 1) d).run (p1 ++ p ++ x) w = (Ber.parseLoop m f d1).run (p ++ x) (w ++ p1) := by
        simp only [List.length_append] at hmax
        simp only [Ber.parseLoop, P.bind_def, h, P.ite_apply, P.lift_apply]
        rw [if_neg (by omega), if_pos (by omega), hδ]
      rw [e, ← List.append_assoc]
      exact ih f (by simp only [List.length_append] at hf ⊢; omega)
  induction hp with
  | nil d =>
    intro x w f h1 h2 h3
    exact ⟨f, h3, by simpa using h1, by simp⟩
  | skip d d' id c bs hd hid hc hne hdue ih =>
    intro x w f h1 h2 h3
    have hpos := isId_length_pos hid
    have hl : 0 < (tlv id c).length := by rw [tlv_length]; omega
    refine step h1 (δ := 0) (d1 := d) (by omega) hd (by omega) h2 h3 hl ?_ ?_
    · have e : tlv id c ++ bs ++ x = id ++ lenOctets c.length ++ (c ++ (bs ++ x)) := by simp [tlv]
      have hne' : ¬ id ++ lenOctets c.length ++ c = BerRef.eoc := hne
      rw [e] at h2 ⊢
      rcases berDoParse_definite m (q := c ++ (bs ++ x)) w hid hc with ⟨k, _⟩ | ⟨_, _, k⟩ | ⟨_, k, _⟩
      · simp only [List.length_append] at h2 k
        omega
      · rw [List.take_left, List.drop_left, if_neg hne'] at k
        rw [k]
        simp [tlv]
      · simp at k
    · intro f' hf'
      exact ih x (w ++ tlv id c) f' (by rw [List.length_append]; omega)
        (by simp only [List.length_append] at h2 ⊢; omega) hf'
  | «open» d d' id bs hid hdue ih =>
    intro x w f h1 h2 h3
    have hpos := isId_length_pos hid
    have hl : (id ++ indefOctets).length = id.length + 1 := by simp [indefOctets]
    refine step h1 (δ := 1) (d1 := d + 1) (by omega) (by omega) (by omega) h2 h3 (by omega) ?_ ?_
    · rw [List.append_assoc]
      simp only [Ber.doParse, parseIdLength_indefinite hid]
      simp
    · intro f' hf'
      exact ih x (w ++ (id ++ indefOctets)) f' (by rw [List.length_append]; omega)
        (by simp only [List.length_append] at h2 ⊢; omega) hf'
  | close d d' bs hd hdue ih =>
    intro x w f h1 h2 h3
    refine step h1 (δ := -1) (d1 := d) (by omega) hd (by omega) h2 h3 (by decide) ?_ ?_
    · have hl : lenOctets 0 = [0x00] := by decide
      have e : Spec.eoc ++ bs ++ x = [0x00] ++ lenOctets 0 ++ (bs ++ x) := by simp [hl, Spec.eoc]
      rw [e] at h2 ⊢
      rcases berDoParse_definite m (n := 0) (q := bs ++ x) w isId_zero (by decide) with ⟨k, _⟩ | ⟨_, _, k⟩ | ⟨_, k, _⟩
      · simp only [List.length_append] at h2 k
        omega
      · rw [k, List.take_zero, List.drop_zero, hl, if_pos (by decide)]
        simp [Spec.eoc]
      · omega
    · intro f' hf'
      exact ih x (w ++ Spec.eoc) f' (by rw [List.length_append]; omega)
        (by simp only [List.length_append] at h2 ⊢; omega) hf'

/-- Missing contents that would fit make the loop report the end of the file. -/
theorem berLoop_short (m : Build) {d : Nat} {w bs : Bytes} {f : Nat} (h : Short Not d w bs) (hd : d ≤ w.length)
    (hmax : w.length + bs.length ≤ isizeMax) (hf : bs.length < f) :
    ((Ber.parseLoop m f d).run bs w).1 = .err (.io .unexpectedEof) := by
  obtain ⟨p, d', id, n, q, k1, hid, hn, rfl, k5, k6⟩ := h
  obtain ⟨f', h1, h2, h3⟩ := berLoop_due m k1 _ w f hd hmax hf
  rw [h3]
  obtain ⟨f', rfl⟩ : ∃ g, f' = g + 1 := ⟨f' - 1, by omega⟩
  simp only [Ber.parseLoop, P.bind_def, berDoParse_short m (w ++ p) hid hn k5 k6]

/-- **C51, exactly.** Whatever the sizes of the pieces in which a reader delivers `bs`, and for every implementation of `Deserialize`:
`read_ber` gives the result of `parse_ber`, value or error, and is left where the slice is, unless the octets end within contents.
Then `parse_ber` fails with `UnterminatedBytes`, and `read_ber` with an I/O error, or a panic if the contents would not fit in memory. -/
theorem C51_read_ber_exact {α σ : Type} [Reader σ] (R : σ → Bytes → Prop) (hd : Delivers R) (m : Build) (d : De α)
    (s : σ) (bs : Bytes) (hs : R s bs) (hlen : bs.length ≤ isizeMax) :
    (¬ Truncated bs → (readBer m d s).1 = (parseBer d bs).1 ∧ R (readBer m d s).2 (parseBer d bs).2) ∧
    (Truncated bs → (parseBer d bs).1 = .err .unterminatedBytes ∧
      (¬ TooLong isizeMax bs → (readBer m d s).1 = .err (.io .unexpectedEof) ∧ R (readBer m d s).2 []) ∧
      (TooLong isizeMax bs → (readBer m d s).1 = .panic)) := by
  have hz : ((0 : Nat) : Int) = 0 := rfl
  obtain ⟨hsim, hpos⟩ := sim_berParse hd m hs
  have hpanic := (C23_ber_parse_panic_iff hd m hs hlen).1
  have hagree := berLoop_agree m (bs.length + 1) 0 bs [] (by omega) (by simp) (by simpa using hlen)
  rw [hz] at hagree
  have hshort : ∀ {fits : Prop → Prop}, Short fits 0 [] bs → Truncated bs := fun ⟨p, d', id, n, q, k1, k2, k3, k4, k5, _⟩ =>
    ⟨p, d', id, n, q, k1, k2, k3, k4, k5⟩
  have hparts : Truncated bs → ¬ TooLong isizeMax bs → Short Not 0 [] bs := fun ⟨p, d', id, n, q, k1, k2, k3, k4, k5⟩ ht =>
    ⟨p, d', id, n, q, k1, k2, k3, k4, k5, fun ho => ht ⟨p, d', id, n, q, k1, k2, k3, k4, by simpa using ho⟩⟩
  have hread : ∀ r, (Ber.parse m bs).1 = r → (∀ v, r ≠ .ok v) → (readBer m d s).2 = (Ber.parse m s).2 := by
    intro r h1 h2
    rw [readBer]
    rw [h1] at hsim
    rcases hx : Ber.parse m s with ⟨r', s'⟩
    rw [hx] at hsim
    subst hsim
    cases r' with
    | ok v => exact absurd rfl (h2 v)
    | err e => rfl
    | panic => rfl
    | ub => rfl
  have herr : ∀ e, (Ber.parse m bs).1 = .err e → (readBer m d s).1 = .err e := by
    intro e h1
    rw [readBer]
    rw [h1] at hsim
    rcases hx : Ber.parse m s with ⟨r', s'⟩
    rw [hx] at hsim
    subst hsim
    rfl
  have hpan : (Ber.parse m s).1 = .panic → (readBer m d s).1 = .panic := by
    intro h1
    rw [readBer]
    rcases hx : Ber.parse m s with ⟨r', s'⟩
    rw [hx] at h1
    subst h1
    rfl
  have hber : ∀ r rest w', (Ber.parseLoop m (bs.length + 1) 0).run bs [] = (r, rest, w') → (Ber.parse m bs).2 = rest ∧
      (∀ e, r = .err e → (Ber.parse m bs).1 = .err e) := by
    intro r rest w' h
    simp only [Ber.parse, size_bytes, h]
    cases r <;> simp
  have hper : ∀ e q, BerRef.parseLoop (bs.length + 1) 0 bs = (.err e, q) → parseBer d bs = (.err e, q) := by
    intro e q h
    simp only [parseBer, BerRef.parse, h]
  have hnot : ∀ q, BerRef.parseLoop (bs.length + 1) 0 bs ≠ (.panic, q) := by
    intro q h
    rcases parseLoop_spec (bs.length + 1) 0 bs (by omega) (by omega) with ⟨_, h1, _⟩ | ⟨_, _, _, h1, _⟩
    · rw [hz, h] at h1; cases h1
    · rw [hz, h] at h1; cases h1
  rcases hagree with ⟨r, rest, w', h1, h2, h3, h4⟩ | ⟨h1, h2, q, h3⟩ | ⟨h1, ⟨w', h2⟩, q, h3⟩
  · have hnt : ¬ Truncated bs := by
      intro ht
      by_cases hl : TooLong isizeMax bs
      · have k := hpanic.2 hl
        rw [hsim] at k
        simp only [Ber.parse, size_bytes, h1] at k
        cases r with
        | ok _ => cases k
        | err _ => cases k
        | panic => exact hnot _ h2
        | ub => cases k
      · have k := berLoop_short m (hparts ht hl) (by simp) (by simpa using hlen) (f := bs.length + 1) (by omega)
        rw [hz, h1] at k
        exact h4 _ k
    refine ⟨fun _ => ?_, fun ht => absurd ht hnt⟩
    have e1 : ∃ r, Ber.parse m bs = (r, rest) ∧ BerRef.parse bs = (r, rest) := by
      simp only [Ber.parse, BerRef.parse, size_bytes, h1, h2]
      cases r with
      | ok u =>
        have e := h3 u rfl
        rw [List.nil_append] at e
        refine ⟨.ok w', rfl, ?_⟩
        have hs : sliceTo bs (bs.length - rest.length) = .ok w' := by
          rw [sliceTo, if_pos (by omega), ← e, List.length_append, Nat.add_sub_cancel, List.take_left]
        simp only [hs]
      | err e => exact ⟨.err e, rfl, rfl⟩
      | panic => exact ⟨.panic, rfl, rfl⟩
      | ub => exact ⟨.ub, rfl, rfl⟩
    obtain ⟨r', e1, e2⟩ := e1
    rw [e1] at hsim hpos
    rw [readBer, parseBer, e2]
    rcases hx : Ber.parse m s with ⟨r'', s'⟩
    rw [hx] at hsim hpos
    subst hsim
    cases r'' with
    | ok v => exact ⟨rfl, hpos⟩
    | err e => exact ⟨rfl, hpos⟩
    | panic => exact ⟨rfl, hpos⟩
    | ub => exact ⟨rfl, hpos⟩
  · have hpn : (Ber.parse m s).1 = .panic := by
      rw [hsim]
      simp only [Ber.parse, size_bytes]
      generalize (Ber.parseLoop m (bs.length + 1) 0).run bs [] = q at h2
      obtain ⟨r, s', w'⟩ := q
      subst h2
      rfl
    exact ⟨fun ht => absurd (hshort h1) ht, fun _ => ⟨by rw [hper _ _ h3], fun hn => absurd (hpanic.1 hpn) hn, fun _ => hpan hpn⟩⟩
  · have k := hber _ _ _ h2
    have k1 := k.2 _ rfl
    refine ⟨fun ht => absurd (hshort h1) ht, fun _ => ⟨by rw [hper _ _ h3], fun _ => ⟨herr _ k1, ?_⟩, fun hl => ?_⟩⟩
    · rw [hread _ k1 nofun, ← k.1]
      exact hpos
    · have := hpanic.2 hl
      rw [hsim, k1] at this
      cases this

/-- A SEQUENCE of indefinite length that ends within an integer. -/
example : Truncated ([0x30, 0x80, 0x01, 0x01, 0xff, 0x02, 0x02, 0x05] : Bytes) ∧
    ¬ TooLong isizeMax ([0x30, 0x80, 0x01, 0x01, 0xff, 0x02, 0x02, 0x05] : Bytes) := by
  constructor
  · refine ⟨[0x30, 0x80, 0x01, 0x01, 0xff], 1, [0x02], 2, [0x05], ?_, ⟨0, 0, 2, by decide, by decide, by decide⟩, by decide,
      by decide +kernel, by decide⟩
    exact Due.open 0 1 [0x30] [0x01, 0x01, 0xff] ⟨0, 1, 16, by decide, by decide, by decide⟩
      (Due.skip 1 1 [0x01] [0xff] [] (by decide) ⟨0, 0, 1, by decide, by decide, by decide⟩ (by decide) (by decide) (Due.nil 1))
  · intro h
    have := (C23_ber_parse_panic_iff delivers_slice .debug (s := [0x30, 0x80, 0x01, 0x01, 0xff, 0x02, 0x02, 0x05]) rfl
      (by have := isizeMax_eq; simp; omega)).1.2 h
    revert this
    decide +kernel

end Bsn1
