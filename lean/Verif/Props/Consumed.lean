import Verif.Props.Ber
/-!
# C21: exactly when an error leaves the slice untouched
-/

namespace Bsn1
open Spec

/-- Never leaves more input than there was. -/
def Shrinks {α : Type} (x : P Bytes α) : Prop := ∀ s w, (x.run s w).2.1.length ≤ s.length

namespace Shrinks
variable {α β : Type}

theorem pure (a : α) : Shrinks (Pure.pure a : P Bytes α) := fun _ _ => Nat.le_refl _
theorem throw (e : Error) : Shrinks (P.throw e : P Bytes α) := fun _ _ => Nat.le_refl _
theorem lift (r : Res α) : Shrinks (P.lift r : P Bytes α) := fun _ _ => Nat.le_refl _
theorem write (b : UInt8) : Shrinks (writeU8 b) := fun _ _ => Nat.le_refl _

theorem read : Shrinks (readU8 (σ := Bytes)) := by
  intro s w
  cases s with
  | nil => rw [readU8_nil]
  | cons b r => rw [readU8_cons]; exact Nat.le_succ _

theorem bind {x : P Bytes α} {f : α → P Bytes β} (h : Shrinks x) (hf : ∀ a, Shrinks (f a)) : Shrinks (x >>= f) := by
  intro s w
  have h1 := h s w
  rw [P.bind_def]
  generalize x.run s w = q at *
  obtain ⟨r, s', w'⟩ := q
  cases r with
  | ok a => exact (hf a s' w').trans h1
  | err e => exact h1
  | panic => exact h1
  | ub => exact h1

theorem ite {c : Prop} [Decidable c] {x y : P Bytes α} (h : Shrinks x) (h' : Shrinks y) : Shrinks (if c then x else y) := by
  split
  · exact h
  · exact h'

theorem idLoop : ∀ (f : Nat) (o : UInt8) (i : Nat), Shrinks (parseIdLoop (σ := Bytes) f o i)
  | 0, _, _ => lift _
  | f + 1, _, _ => bind (write _) fun _ => ite (pure _) (bind read fun _ => idLoop f _ _)

theorem lengthLoop : ∀ (k l : Nat), Shrinks (parseLengthLoop (σ := Bytes) k l)
  | 0, _ => pure _
  | k + 1, _ => bind read fun _ => bind (write _) fun _ => lengthLoop k _

theorem length : Shrinks (parseLength (σ := Bytes)) :=
  bind read fun _ => bind (write _) fun _ => ite (pure _) <| ite (pure _) <| bind read fun _ => ite (throw _) <|
    bind (write _) fun _ => ite (throw _) <| ite (throw _) <| bind (lengthLoop _ _) fun _ => pure _

end Shrinks

/-- After the first octet of an identifier. -/
theorem parseIdLength_consumes (b : UInt8) (bs w : Bytes) :
    ((parseIdLength (σ := Bytes)).run (b :: bs) w).2.1.length ≤ bs.length := by
  have h : ((parseIdLength (σ := Bytes)).run (b :: bs) w) =
      (((do
        writeU8 b
        if b &&& IdRef.LONG_FLAG ≠ IdRef.LONG_FLAG then return 1
        else
          let octet ← readU8
          if octet ≤ IdRef.MAX_SHORT then P.throw .redundantBytes
          else if octet = IdRef.MORE_FLAG then P.throw .redundantBytes
          else ⟨fun s w => (parseIdLoop (Reader.size s + 1) octet 2).run s w⟩ : P Bytes Nat) >>= fun _ => parseLength).run bs w) := rfl
  rw [h]
  refine Shrinks.bind (Shrinks.bind (Shrinks.write _) fun _ => Shrinks.ite (Shrinks.pure _) <| Shrinks.bind Shrinks.read fun o =>
    Shrinks.ite (Shrinks.throw _) <| Shrinks.ite (Shrinks.throw _) ?_) (fun _ => Shrinks.length) bs w
  exact fun s w => Shrinks.idLoop (Reader.size s + 1) o 2 s w

theorem derDoParse_consumes (b : UInt8) (bs : Bytes) : (DerRef.doParse (b :: bs)).2.length ≤ bs.length := by
  have h := parseIdLength_consumes b bs []
  rw [DerRef.doParse]
  generalize (parseIdLength (σ := Bytes)).run (b :: bs) [] = q at *
  obtain ⟨r, s, w⟩ := q
  match r with
  | .ok .indefinite => exact h
  | .ok (.definite n) =>
    simp only [sliceFrom]
    split
    · exact h
    · rw [if_pos (by omega)]
      exact Nat.le_trans (m := s.length) (by rw [List.length_drop]; omega) h
  | .err e => exact h
  | .panic => exact h
  | .ub => exact h

theorem berDoParse_consumes (b : UInt8) (bs : Bytes) : (BerRef.doParse (b :: bs)).2.length ≤ bs.length := by
  have h := parseIdLength_consumes b bs []
  rw [BerRef.doParse]
  split
  · next he =>
    obtain ⟨r, hr⟩ := (eoc_prefix _).1 he
    rw [hr]
    have h1 : (b :: bs).length = (Spec.eoc ++ r).length := by rw [hr]
    have h2 : sliceFrom (Spec.eoc ++ r) BerRef.eoc.length = .ok r := rfl
    rw [h2]
    simp only [List.length_cons, List.length_append, show Spec.eoc.length = 2 from rfl] at h1 ⊢
    omega
  · generalize (parseIdLength (σ := Bytes)).run (b :: bs) [] = q at *
    obtain ⟨r, s, w⟩ := q
    match r with
    | .ok .indefinite => exact h
    | .ok (.definite n) =>
      simp only [sliceFrom]
      split
      · exact h
      · rw [if_pos (by omega)]
        exact Nat.le_trans (m := s.length) (by rw [List.length_drop]; omega) h
    | .err e => exact h
    | .panic => exact h
    | .ub => exact h

theorem berDoParse_shrinks (bs : Bytes) : (BerRef.doParse bs).2.length ≤ bs.length := by
  cases bs with
  | nil => exact Nat.le_refl 0
  | cons b r => exact (berDoParse_consumes b r).trans (Nat.le_succ _)

theorem berParseLoop_shrinks : ∀ (f : Nat) (d : Int) (bs : Bytes), (BerRef.parseLoop f d bs).2.length ≤ bs.length
  | 0, _, _ => Nat.le_refl _
  | f + 1, d, bs => by
    have h := berDoParse_shrinks bs
    rw [BerRef.parseLoop]
    generalize BerRef.doParse bs = q at *
    obtain ⟨r, s⟩ := q
    cases r with
    | ok δ =>
      simp only
      split
      · exact h
      · split
        · exact (berParseLoop_shrinks f _ s).trans h
        · exact h
    | err e => exact h
    | panic => exact h
    | ub => exact h

theorem berParseLoop_consumes (f : Nat) (d : Int) (b : UInt8) (bs : Bytes) :
    (BerRef.parseLoop (f + 1) d (b :: bs)).2.length ≤ bs.length := by
  have h := berDoParse_consumes b bs
  rw [BerRef.parseLoop]
  generalize BerRef.doParse (b :: bs) = q at *
  obtain ⟨r, s⟩ := q
  cases r with
  | ok δ =>
    simp only
    split
    · exact h
    · split
      · exact (berParseLoop_shrinks f _ s).trans h
      · exact h
  | err e => exact h
  | panic => exact h
  | ub => exact h

theorem derParse_rest (bs : Bytes) : (DerRef.parse bs).2 = (DerRef.doParse bs).2 := by
  rw [DerRef.parse]
  generalize DerRef.doParse bs = q at *
  obtain ⟨r, s⟩ := q
  cases r <;> rfl

theorem berParse_rest (bs : Bytes) : (BerRef.parse bs).2 = (BerRef.parseLoop (bs.length + 1) 0 bs).2 := by
  rw [BerRef.parse]
  generalize BerRef.parseLoop (bs.length + 1) 0 bs = q at *
  obtain ⟨r, s⟩ := q
  cases r <;> rfl

/-- **C21, exactly.** `DerRef::parse` and `BerRef::parse` leave the slice untouched only if it was empty: any other error (and any success)
consumes at least one octet. -/
theorem C21_parse_untouched_iff (bs : Bytes) :
    ((DerRef.parse bs).2 = bs ↔ bs = []) ∧ ((BerRef.parse bs).2 = bs ↔ bs = []) := by
  cases bs with
  | nil => exact ⟨iff_of_true rfl rfl, iff_of_true rfl rfl⟩
  | cons b r =>
    refine ⟨iff_of_false ?_ (nomatch ·), iff_of_false ?_ (nomatch ·)⟩
    · intro h
      have h1 := derDoParse_consumes b r
      rw [← derParse_rest, h, List.length_cons] at h1
      omega
    · intro h
      have h1 := berParseLoop_consumes (b :: r).length 0 b r
      rw [← berParse_rest, h, List.length_cons] at h1
      omega

/-- An error on the first octet already. -/
example : DerRef.parse [0x1f] = (.err .unterminatedBytes, []) ∧ BerRef.parse [] = (.err .unterminatedBytes, []) := by decide +kernel

end Bsn1
