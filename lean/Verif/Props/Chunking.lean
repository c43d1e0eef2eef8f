import Verif.Props.Der
/-!
# C25, exactly which chunkings `Der::parse` accepts
-/

namespace Bsn1
open Spec

namespace Spec

/-- One piece the reader `s` delivers holds all of `c`, which stands behind `front`. -/
def InOnePiece (s : Script) (front c : List UInt8) : Prop :=
  ∃ A x y B, s = A ++ .chunk (x ++ c ++ y) :: B ∧ scriptData A ++ x = front

end Spec

/-- `s` is what is left of `s0`. -/
def LeftOf (s0 s : Script) : Prop :=
  (∃ A, s0 = A ++ s) ∨ ∃ A x z B, s0 = A ++ .chunk (x ++ z) :: B ∧ s = .chunk z :: B

theorem LeftOf.tail {s0 : Script} {c : Bytes} {s : Script} (h : LeftOf s0 (.chunk c :: s)) : LeftOf s0 s := by
  rcases h with ⟨A, rfl⟩ | ⟨A, x, z, B, rfl, e⟩
  · exact .inl ⟨A ++ [.chunk c], by simp⟩
  · cases e
    exact .inl ⟨A ++ [.chunk (x ++ c)], by simp⟩

theorem LeftOf.drop {s0 : Script} {c : Bytes} {s : Script} (n : Nat) (h : LeftOf s0 (.chunk c :: s)) :
    LeftOf s0 (.chunk (c.drop n) :: s) := by
  rcases h with ⟨A, rfl⟩ | ⟨A, x, z, B, rfl, e⟩
  · exact .inr ⟨A, c.take n, c.drop n, s, by simp, rfl⟩
  · cases e
    exact .inr ⟨A, x ++ c.take n, c.drop n, s, by simp, rfl⟩

theorem delivers_leftOf (s0 : Script) : Delivers fun s bs => Chunks s bs ∧ LeftOf s0 s where
  read_pos n s bs hn h := by
    obtain ⟨h, hl⟩ := h
    cases h with
    | nil => exact ⟨0, [], by simp [Reader.read, Script.read], ⟨Chunks.nil, hl⟩, by omega, by simp⟩
    | cons c s bs hc h =>
      simp only [Reader.read, Script.read]
      by_cases hle : c.length ≤ n
      · rw [if_pos hle]
        refine ⟨c.length, s, by simp, ⟨by simpa using h, hl.tail⟩, hle, fun _ => List.length_pos_iff.mpr hc⟩
      · rw [if_neg hle]
        refine ⟨n, .chunk (c.drop n) :: s, ?_, ⟨?_, hl.drop n⟩, Nat.le_refl _, fun _ => hn⟩
        · rw [List.take_append_of_le_length (by omega)]
        · rw [List.drop_append_of_le_length (by omega)]
          exact Chunks.cons _ _ _ (by simp; omega) h
  read_zero s bs h := by
    obtain ⟨h, hl⟩ := h
    cases h with
    | nil => exact ⟨[], by simp [Reader.read, Script.read], Chunks.nil, hl⟩
    | cons c s bs hc h =>
      have : ¬ c.length ≤ 0 := by
        have := List.length_pos_iff.mpr hc; omega
      exact ⟨.chunk c :: s, by simp [Reader.read, Script.read, this], Chunks.cons c s bs hc h, hl⟩
  size_le s bs h := Chunks.size_le h.1

theorem scriptData_append (A B : Script) : scriptData (A ++ B) = scriptData A ++ scriptData B := by
  induction A with
  | nil => rfl
  | cons e A ih => cases e <;> simp [scriptData, ih]

theorem Spec.Chunks.data {s : Script} {bs : Bytes} (h : Chunks s bs) : scriptData s = bs := by
  induction h with
  | nil => rfl
  | cons c s bs _ _ ih => simp [scriptData, ih]

theorem Spec.Chunks.ne_nil {A B : Script} {z bs : Bytes} (h : Chunks (A ++ .chunk z :: B) bs) : z ≠ [] := by
  induction A generalizing bs with
  | nil => cases h with | cons _ _ _ h1 _ => exact h1
  | cons e A ih => cases h with | cons _ _ _ _ h2 => exact ih h2

/-- What is left begins with the rest of the piece in which the front ends. -/
theorem leftOf_piece {s0 s : Script} {front bs : Bytes} (h0 : Chunks s0 (front ++ bs)) (h : Chunks s bs) (hl : LeftOf s0 s)
    (hne : bs ≠ []) : ∃ A x z B, s0 = A ++ .chunk (x ++ z) :: B ∧ scriptData A ++ x = front ∧ s = .chunk z :: B ∧ z ≠ [] := by
  have aux : ∀ A x z B, s0 = A ++ .chunk (x ++ z) :: B → s = .chunk z :: B → scriptData A ++ x = front := by
    intro A x z B e1 e2
    have d0 := h0.data
    have d1 := h.data
    rw [e1, scriptData_append] at d0
    rw [e2] at d1
    simp only [scriptData] at d0 d1
    rw [← d1, List.append_assoc, ← List.append_assoc (scriptData A)] at d0
    exact List.append_cancel_right d0
  cases h with
  | nil => exact absurd rfl hne
  | cons z B bs hz hB =>
    rcases hl with ⟨A, e⟩ | ⟨A, x, z', B', e, e'⟩
    · exact ⟨A, [], z, B, e, aux A [] z B e rfl, rfl, hz⟩
    · cases e'
      exact ⟨A, x, z, B, e, aux A x z B e rfl, rfl, hz⟩

/-- The piece in which the front ends is determined. -/
theorem piece_unique {A A' B B' : Script} {x x' z z' front : Bytes} (hz : z ≠ []) (hz' : z' ≠ [])
    (e : A ++ .chunk (x ++ z) :: B = A' ++ .chunk (x' ++ z') :: B') (h : scriptData A ++ x = front)
    (h' : scriptData A' ++ x' = front) : z = z' := by
  have key : ∀ {A A' B B' : Script} {x x' z z' : Bytes}, z ≠ [] →
      A ++ .chunk (x ++ z) :: B = A' ++ .chunk (x' ++ z') :: B' → scriptData A ++ x = front →
      scriptData A' ++ x' = front → A.length ≤ A'.length → z = z' := by
    intro A A' B B' x x' z z' hz e h h' hle
    rcases List.append_eq_append_iff.mp e with ⟨C, e1, e2⟩ | ⟨C, e1, e2⟩
    · cases C with
      | nil =>
        simp only [List.append_nil] at e1
        subst e1
        simp only [List.nil_append, List.cons.injEq, Event.chunk.injEq] at e2
        have : x = x' := List.append_cancel_left (h.trans h'.symm)
        subst this
        exact List.append_cancel_left e2.1
      | cons ev C =>
        simp only [List.cons_append, List.cons.injEq] at e2
        obtain ⟨rfl, -⟩ := e2
        rw [e1, scriptData_append, ← h] at h'
        simp only [scriptData, List.append_assoc] at h'
        have := congrArg List.length (List.append_cancel_left h')
        simp only [List.length_append] at this
        have := List.length_pos_iff.mpr hz
        omega
    · have hC : C = [] := by
        have := congrArg List.length e1
        rw [List.length_append] at this
        exact List.length_eq_zero_iff.mp (by omega)
      subst hC
      simp only [List.append_nil] at e1
      subst e1
      simp only [List.nil_append, List.cons.injEq, Event.chunk.injEq] at e2
      have : x = x' := List.append_cancel_left (h.trans h'.symm)
      subst this
      exact (List.append_cancel_left e2.1).symm
  rcases Nat.le_total A.length A'.length with hle | hle
  · exact key hz e h h' hle
  · exact (key hz' e.symm h' h hle).symm

/-- **C25, exactly.** A reader delivers one DER value, then other octets, in non-empty pieces: `Der::parse` returns the value if and only
if there are no contents or one piece holds all of them; otherwise it reports `UnterminatedBytes`. -/
theorem C25_der_parse_chunking_iff (m : Build) {s : Script} {id c rest : Bytes} (hid : IsId id)
    (hfit : (tlv id c).length ≤ isizeMax) (hs : Chunks s (tlv id c ++ rest)) :
    ((Der.parse m s).1 = .ok (tlv id c) ↔ c = [] ∨ InOnePiece s (id ++ lenOctets c.length) c) ∧
    (¬ (c = [] ∨ InOnePiece s (id ++ lenOctets c.length) c) → (Der.parse m s).1 = .err .unterminatedBytes) := by
  have hi := isizeMax_eq
  have hu := usizeSize_eq
  have hl := hfit
  rw [tlv_length] at hl
  have e : tlv id c ++ rest = id ++ lenOctets c.length ++ (c ++ rest) := by simp [tlv]
  have hsim := sim_parseIdLength (delivers_leftOf s) s _ [] ⟨hs, .inl ⟨[], rfl⟩⟩
  rw [e, parseIdLength_definite hid (by omega)] at hsim
  rcases hx : (parseIdLength (σ := Script)).run s [] with ⟨r, s1, w1⟩
  rw [hx] at hsim
  simp only at hsim
  obtain ⟨rfl, rfl, hR, hL⟩ := hsim
  have hrun : (Der.parse m s).1 = match Reader.read c.length s1 with
      | (.fail k, _) => .err (.io k)
      | (.data bs, _) => if bs.length < c.length then .err .unterminatedBytes else .ok (id ++ lenOctets c.length ++ bs) := by
    simp only [Der.parse, hx]
    have hw : ([] ++ id ++ lenOctets c.length).length = id.length + (lenOctets c.length).length := by simp
    simp only [hw]
    rw [uadd_ok (by omega)]
    simp only [Res.bind_ok]
    rw [bufReserve_ok (by omega)]
    simp only [Res.bind_ok]
    rw [if_pos (by omega)]
    simp only [Res.pure_eq, Nat.add_sub_cancel_left]
    rcases Reader.read c.length s1 with ⟨(bs | k), s2⟩
    · simp only
      split <;> simp
    · rfl
  by_cases hc : c = []
  · subst hc
    obtain ⟨s2, h1, -⟩ := (delivers_leftOf s).read_zero s1 _ ⟨hR, hL⟩
    rw [hrun]
    simp only [List.length_nil, h1]
    exact ⟨iff_of_true (by simp [tlv]) (.inl trivial), fun h => absurd (.inl trivial) h⟩
  · have hne : c ++ rest ≠ [] := by simp [hc]
    obtain ⟨A, x, z, B, e1, e2, e3, hz⟩ := leftOf_piece (front := id ++ lenOctets c.length) (by rw [← e]; exact hs) hR hL hne
    have hd := hR.data
    rw [e3] at hd
    simp only [scriptData] at hd
    have hin : InOnePiece s (id ++ lenOctets c.length) c ↔ c.length ≤ z.length := by
      constructor
      · rintro ⟨A', x', y', B', f1, f2⟩
        rw [List.append_assoc] at f1
        have hz' : c ++ y' ≠ [] := by simp [hc]
        have := piece_unique hz hz' (e1.symm.trans f1) e2 f2
        rw [this]; simp
      · intro h
        have hp : z = c ++ z.drop c.length := by
          have := congrArg (List.take c.length) hd
          rw [List.take_append_of_le_length h, List.take_left] at this
          conv_lhs => rw [← List.take_append_drop c.length z, this]
        refine ⟨A, x, z.drop c.length, B, ?_, e2⟩
        rw [List.append_assoc, ← hp]; exact e1
    have hor : (c = [] ∨ InOnePiece s (id ++ lenOctets c.length) c) ↔ c.length ≤ z.length := by
      rw [← hin]; simp [hc]
    rw [hor, hrun, e3]
    simp only [Reader.read, Script.read]
    by_cases hlen : z.length ≤ c.length
    · rw [if_pos hlen]
      simp only
      by_cases heq : z.length < c.length
      · rw [if_pos heq]
        exact ⟨iff_of_false (by simp) (by omega), fun _ => rfl⟩
      · rw [if_neg heq]
        have : z = c := List.append_inj_left hd (by omega)
        subst this
        exact ⟨iff_of_true (by simp [tlv]) (Nat.le_refl _), fun h => absurd (Nat.le_refl _) h⟩
    · rw [if_neg hlen]
      simp only
      have hp : z.take c.length = c := by
        have := congrArg (List.take c.length) hd
        rwa [List.take_append_of_le_length (by omega), List.take_left] at this
      rw [hp, if_neg (by omega)]
      exact ⟨iff_of_true (by simp [tlv]) (by omega), fun h => absurd (by omega) h⟩

/-- The header in two pieces, the second of which has the contents and more. -/
example : InOnePiece [.chunk [0x04], .chunk [0x02, 0x07, 0x08, 0x09]] [0x04, 0x02] [0x07, 0x08] :=
  ⟨[.chunk [0x04]], [0x02], [0x09], [], rfl, rfl⟩

end Bsn1
