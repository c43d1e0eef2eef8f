import Verif.Lemmas.Ber
/-!
# Parsing from readers that may fail at any point
-/

set_option linter.unusedSimpArgs false

namespace Bsn1
open Spec

theorem Script.read_spec (n : Nat) (s : Script) :
    (∃ bs s', Reader.read n s = (.data bs, s') ∧ scriptData s = bs ++ scriptData s') ∨
    (∃ k s', Reader.read n s = (.fail k, s') ∧ scriptData s = scriptData s') := by
  match s with
  | [] => exact Or.inl ⟨[], [], rfl, rfl⟩
  | .fail k :: r => exact Or.inr ⟨k, r, rfl, rfl⟩
  | .chunk c :: r =>
    left
    by_cases h : c.length ≤ n
    · exact ⟨c, r, by simp [Reader.read, Script.read, h], rfl⟩
    · refine ⟨c.take n, .chunk (c.drop n) :: r, by simp [Reader.read, Script.read, h], ?_⟩
      simp only [scriptData]
      rw [← List.append_assoc, List.take_append_drop]

/-- `x` on a script neither panics nor leaves memory, and a success is a success of `y` on the consumed octets. -/
def Good {α : Type} (x : P Script α) (y : P Bytes α) : Prop :=
  ∀ s w, (x.run s w).1 ≠ .panic ∧ (x.run s w).1 ≠ .ub ∧
    ∀ a s' w', x.run s w = (.ok a, s', w') → Script.size s' ≤ Script.size s ∧
      ∃ l, scriptData s = l ++ scriptData s' ∧ ∀ rest, y.run (l ++ rest) w = (.ok a, rest, w')

namespace Good
variable {α β : Type}

theorem bind {x : P Script α} {y : P Bytes α} {f : α → P Script β} {g : α → P Bytes β} (h : Good x y)
    (hf : ∀ a, Good (f a) (g a)) : Good (x >>= f) (y >>= g) := by
  intro s w
  obtain ⟨h1, h2, h3⟩ := h s w
  simp only [P.bind_def]
  rcases hx : x.run s w with ⟨r, s1, w1⟩
  rw [hx] at h1 h2 h3
  match r with
  | .ok a =>
    obtain ⟨hsz, l, hl1, hl2⟩ := h3 a s1 w1 rfl
    obtain ⟨k1, k2, k3⟩ := hf a s1 w1
    refine ⟨k1, k2, ?_⟩
    intro b s' w' hb
    obtain ⟨hsz', l', hl1', hl2'⟩ := k3 b s' w' hb
    refine ⟨by omega, l ++ l', by rw [hl1, hl1']; simp, ?_⟩
    intro rest
    rw [List.append_assoc, hl2]
    exact hl2' rest
  | .err e => exact ⟨by simp, by simp, by simp⟩
  | .panic => simp at h1
  | .ub => simp at h2

theorem pure (a : α) : Good (Pure.pure a) (Pure.pure a) := by
  intro s w
  refine ⟨by simp, by simp, ?_⟩
  intro b s' w' h
  simp only [P.pure_apply, Prod.mk.injEq, Res.ok.injEq] at h
  obtain ⟨rfl, rfl, rfl⟩ := h
  exact ⟨by omega, [], by simp, by simp⟩

theorem throw (e : Error) : Good (α := α) (P.throw e) (P.throw e) := by
  intro s w; exact ⟨by simp, by simp, by simp⟩

theorem write (b : UInt8) : Good (writeU8 b) (writeU8 b) := by
  intro s w
  refine ⟨by simp, by simp, ?_⟩
  intro c s' w' h
  simp only [writeU8_apply, Prod.mk.injEq, Res.ok.injEq] at h
  obtain ⟨_, rfl, rfl⟩ := h
  exact ⟨by omega, [], by simp, by simp⟩

theorem ite {c : Prop} [Decidable c] {x x' : P Script α} {y y' : P Bytes α} (h : Good x y) (h' : Good x' y') :
    Good (if c then x else x') (if c then y else y') := by
  by_cases hc : c <;> simp [hc, h, h']

end Good

theorem readU8_script (s : Script) (w : Bytes) :
    (∃ e s', (readU8 (σ := Script)).run s w = (.err e, s', w)) ∨
    (∃ b s', (readU8 (σ := Script)).run s w = (.ok b, s', w) ∧ scriptData s = b :: scriptData s' ∧
      Script.size s' < Script.size s) := by
  rcases Script.read_spec 1 s with ⟨bs, s', h1, h2⟩ | ⟨k, s', h1, h2⟩
  · have hlaw := LawfulReader.read_data 1 s s' bs h1
    match bs with
    | [] => left; exact ⟨.unterminatedBytes, s', by simp only [readU8, h1]⟩
    | [b] =>
      right
      refine ⟨b, s', by simp only [readU8, h1], by simpa using h2, ?_⟩
      have := hlaw.2
      simp only [Reader.size, List.length_singleton] at this
      omega
    | a :: b :: r => simp at hlaw
  · left; exact ⟨.io k, s', by simp only [readU8, h1]⟩

theorem Good.read : Good (readU8 (σ := Script)) readU8 := by
  intro s w
  rcases readU8_script s w with ⟨e, s', h⟩ | ⟨b, s', h, h2, h3⟩
  · rw [h]; exact ⟨by simp, by simp, by simp⟩
  · rw [h]
    refine ⟨by simp, by simp, ?_⟩
    intro a s'' w'' h4
    simp only [Prod.mk.injEq, Res.ok.injEq] at h4
    obtain ⟨rfl, rfl, rfl⟩ := h4
    exact ⟨by omega, [b], by simpa using h2, by simp⟩

theorem good_parseIdLoop : ∀ (f : Nat) (o : UInt8) (i : Nat) (s : Script) (w : Bytes), Script.size s < f →
    ((parseIdLoop f o i).run s w).1 ≠ .panic ∧ ((parseIdLoop f o i).run s w).1 ≠ .ub ∧
    ∀ a s' w', (parseIdLoop f o i).run s w = (.ok a, s', w') → Script.size s' ≤ Script.size s ∧
      ∃ l, scriptData s = l ++ scriptData s' ∧
        ∀ rest g, (l ++ rest).length < g → (parseIdLoop (σ := Bytes) g o i).run (l ++ rest) w = (.ok a, rest, w') := by
  intro f
  induction f with
  | zero => intro o i s w h; omega
  | succ f ih =>
    intro o i s w hf
    simp only [parseIdLoop, P.bind_def, writeU8_apply, P.ite_apply, P.pure_apply]
    by_cases hm : o &&& IdRef.MORE_FLAG ≠ IdRef.MORE_FLAG
    · simp only [if_pos hm]
      refine ⟨by simp, by simp, ?_⟩
      intro a s' w' h
      simp only [Prod.mk.injEq, Res.ok.injEq] at h
      obtain ⟨rfl, rfl, rfl⟩ := h
      refine ⟨by omega, [], by simp, ?_⟩
      intro rest g hg
      match g with
      | 0 => omega
      | g + 1 =>
        simp only [parseIdLoop, P.bind_def, writeU8_apply, P.ite_apply, P.pure_apply]
        simp only [if_pos hm, List.nil_append]
    · simp only [if_neg hm]
      rcases readU8_script s (w ++ [o]) with ⟨e, s', h⟩ | ⟨b, s', h, h2, h3⟩
      · rw [h]; exact ⟨by simp, by simp, by simp⟩
      · rw [h]
        obtain ⟨k1, k2, k3⟩ := ih b (i + 1) s' (w ++ [o]) (by omega)
        refine ⟨k1, k2, ?_⟩
        intro a s'' w'' h4
        obtain ⟨k4, l, k5, k6⟩ := k3 a s'' w'' h4
        refine ⟨by omega, b :: l, by rw [h2, k5]; simp, ?_⟩
        intro rest g hg
        match g with
        | 0 => omega
        | g + 1 =>
          simp only [parseIdLoop, P.bind_def, writeU8_apply, P.ite_apply, P.pure_apply]
          simp only [if_neg hm, List.cons_append, readU8_cons]
          exact k6 rest g (by simpa using hg)

theorem good_parseId : Good (parseId (σ := Script)) parseId := by
  unfold parseId
  refine Good.read.bind fun first => (Good.write first).bind fun _ => ?_
  refine Good.ite (Good.pure 1) (Good.read.bind fun o => ?_)
  refine Good.ite (Good.throw _) (Good.ite (Good.throw _) ?_)
  intro s w
  obtain ⟨h1, h2, h3⟩ := good_parseIdLoop (Script.size s + 1) o 2 s w (by omega)
  refine ⟨h1, h2, ?_⟩
  intro a s' w' h
  obtain ⟨k1, l, k2, k3⟩ := h3 a s' w' h
  refine ⟨k1, l, k2, fun rest => ?_⟩
  exact k3 rest ((l ++ rest).length + 1) (by omega)

theorem good_parseLengthLoop : ∀ k l, Good (parseLengthLoop (σ := Script) k l) (parseLengthLoop k l)
  | 0, l => Good.pure l
  | k + 1, l => Good.read.bind fun b => (Good.write b).bind fun _ => good_parseLengthLoop k _

theorem good_parseLength : Good (parseLength (σ := Script)) parseLength := by
  unfold parseLength
  refine Good.read.bind fun first => (Good.write first).bind fun _ => ?_
  refine Good.ite (Good.pure _) (Good.ite (Good.pure _) (Good.read.bind fun second => ?_))
  refine Good.ite (Good.throw _) ((Good.write _).bind fun _ => ?_)
  refine Good.ite (Good.throw _) (Good.ite (Good.throw _) ?_)
  exact (good_parseLengthLoop _ _).bind fun _ => Good.pure _

theorem good_parseIdLength : Good (parseIdLength (σ := Script)) parseIdLength :=
  good_parseId.bind fun _ => good_parseLength

/-- What a header read from any script looks like. -/
inductive ScriptHeader (s : Script) (w : Bytes) : Res Length × Script × Bytes → Prop
  | definite (id : Bytes) (n : Nat) (s' : Script) : IsId id → n < 2 ^ 64 →
      scriptData s = id ++ lenOctets n ++ scriptData s' → Script.size s' ≤ Script.size s →
      ScriptHeader s w (.ok (.definite n), s', w ++ id ++ lenOctets n)
  | indefinite (id : Bytes) (s' : Script) : IsId id → scriptData s = id ++ indefOctets ++ scriptData s' →
      Script.size s' ≤ Script.size s → ScriptHeader s w (.ok .indefinite, s', w ++ id ++ indefOctets)
  | error (e : Error) (s' : Script) (w' : Bytes) : ScriptHeader s w (.err e, s', w')

theorem scriptHeader_spec (s : Script) (w : Bytes) : ScriptHeader s w ((parseIdLength (σ := Script)).run s w) := by
  obtain ⟨h1, h2, h3⟩ := good_parseIdLength s w
  rcases hx : (parseIdLength (σ := Script)).run s w with ⟨r, s', w'⟩
  rw [hx] at h1 h2 h3
  match r with
  | .ok a =>
    obtain ⟨k1, l, k2, k3⟩ := h3 a s' w' rfl
    have k4 := k3 []
    have hspec := parseIdLength_spec (l ++ []) w
    rw [k4] at hspec
    generalize hL : l ++ ([] : Bytes) = L at hspec
    have hL' : l = L := by simpa using hL
    cases hspec with
    | definite id n _ j1 j2 j3 =>
      exact ScriptHeader.definite id n s' j1 j2 (by rw [k2, hL', j3]; simp) k1
    | indefinite id _ j1 j2 =>
      exact ScriptHeader.indefinite id s' j1 (by rw [k2, hL', j2]; simp) k1
  | .err e => exact ScriptHeader.error e s' w'
  | .panic => simp at h1
  | .ub => simp at h2

theorem readExactLoop_script : ∀ (f n : Nat) (acc : Bytes) (s : Script), Script.size s + n < f →
    (∃ e s', readExactLoop f n acc s = (.err e, s')) ∨
    (∃ bs s', readExactLoop f n acc s = (.ok (acc ++ bs), s') ∧ bs.length = n ∧ scriptData s = bs ++ scriptData s' ∧
      Script.size s' ≤ Script.size s) := by
  intro f
  induction f with
  | zero => intro n acc s h; omega
  | succ f ih =>
    intro n acc s hf
    simp only [readExactLoop]
    by_cases hn : n = 0
    · subst hn
      right
      exact ⟨[], s, by simp, rfl, by simp, by omega⟩
    · rw [if_neg hn]
      rcases Script.read_spec n s with ⟨bs, s', h1, h2⟩ | ⟨k, s', h1, h2⟩
      · have hlaw := LawfulReader.read_data n s s' bs h1
        rw [h1]
        match bs with
        | [] => left; exact ⟨_, _, rfl⟩
        | b :: r =>
          simp only [Reader.size, List.length_cons] at hlaw
          simp only [List.length_cons]
          rcases ih (n - (r.length + 1)) (acc ++ b :: r) s' (by omega) with h | ⟨cs, s'', h3, h4, h5, h6⟩
          · exact Or.inl h
          · right
            refine ⟨(b :: r) ++ cs, s'', by rw [h3]; simp, by simp; omega, by rw [h2, h5]; simp, by omega⟩
      · have hlaw := LawfulReader.read_fail n s s' k h1
        simp only [Reader.size] at hlaw
        rw [h1]
        cases k with
        | interrupted =>
          simp only
          rcases ih n acc s' (by omega) with h | ⟨cs, s'', h3, h4, h5, h6⟩
          · exact Or.inl h
          · right
            exact ⟨cs, s'', h3, h4, by rw [h2, h5], by omega⟩
        | unexpectedEof => left; exact ⟨_, _, rfl⟩
        | writeZero => left; exact ⟨_, _, rfl⟩
        | other c => left; exact ⟨_, _, rfl⟩

theorem readExact_script (n : Nat) (s : Script) :
    (∃ e s', readExact n s = (.err e, s')) ∨
    (∃ bs s', readExact n s = (.ok bs, s') ∧ bs.length = n ∧ scriptData s = bs ++ scriptData s' ∧
      Script.size s' ≤ Script.size s) := by
  have h := readExactLoop_script (Script.size s + n + 1) n [] s (by omega)
  simpa [readExact, Reader.size] using h

/-- A header announcing more than memory can hold, somewhere in the octets. -/
def Oversize (data : Bytes) : Prop :=
  ∃ p id n q, IsId id ∧ n < 2 ^ 64 ∧ data = p ++ id ++ lenOctets n ++ q ∧
    isizeMax < (p ++ id ++ lenOctets n).length + n

theorem berDoParse_script (m : Build) (s : Script) (w data : Bytes) (hdata : data = w ++ scriptData s) :
    (∃ e s' w', (Ber.doParse m).run s w = (.err e, s', w')) ∨
    (∃ δ s' w', (Ber.doParse m).run s w = (.ok δ, s', w') ∧ data = w' ++ scriptData s' ∧ δ ≤ 1 ∧
      w.length + 2 ≤ w'.length) ∨ Oversize data := by
  have hi := isizeMax_eq
  have hu := usizeSize_eq
  simp only [Ber.doParse]
  have hspec := scriptHeader_spec s w
  generalize (parseIdLength (σ := Script)).run s w = r at hspec
  cases hspec with
  | definite id n s' h1 h2 h3 h4 =>
    have := isId_length_pos h1
    have := List.length_pos_iff.mpr (lenOctets_ne_nil n)
    simp only
    by_cases hfit : (w ++ id ++ lenOctets n).length + n ≤ isizeMax
    · rw [bufReserve_ok hfit]
      simp only [Res.bind_ok]
      rw [uadd_ok (by omega)]
      simp only [Res.bind_ok]
      rw [if_pos (by omega)]
      simp only [Res.pure_eq, Nat.add_sub_cancel_left]
      rcases readExact_script n s' with ⟨e, s'', h5⟩ | ⟨bs, s'', h5, h6, h7, h8⟩
      · rw [h5]; exact Or.inl ⟨_, _, _, rfl⟩
      · rw [h5]
        simp only
        have hsl : sliceFrom (w ++ id ++ lenOctets n ++ bs) w.length = .ok (id ++ lenOctets n ++ bs) := by
          rw [sliceFrom, if_pos (by simp)]; simp
        rw [hsl]
        refine Or.inr (Or.inl ⟨_, _, _, rfl, by rw [hdata, h3, h7]; simp, ?_, ?_⟩)
        · split <;> omega
        · simp; omega
    · right; right
      exact ⟨w, id, n, scriptData s', h1, h2, by rw [hdata, h3]; simp, by omega⟩
  | indefinite id s' h1 h2 h3 =>
    have := isId_length_pos h1
    refine Or.inr (Or.inl ⟨1, s', _, rfl, by rw [hdata, h2]; simp, by omega, ?_⟩)
    simp [indefOctets]; omega
  | error e s' w' => exact Or.inl ⟨_, _, _, rfl⟩

theorem berParseLoop_script (m : Build) (data : Bytes) (hmax : data.length ≤ isizeMax) :
    ∀ (f : Nat) (d : Int) (s : Script) (w : Bytes), data = w ++ scriptData s → (scriptData s).length < f →
      d ≤ w.length →
    (∃ e s' w', (Ber.parseLoop m f d).run s w = (.err e, s', w')) ∨
    (∃ s' w', (Ber.parseLoop m f d).run s w = (.ok (), s', w')) ∨ Oversize data := by
  intro f
  induction f with
  | zero => intro d s w _ h; omega
  | succ f ih =>
    intro d s w hdata hf hd
    simp only [Ber.parseLoop, P.bind_def]
    rcases berDoParse_script m s w data hdata with ⟨e, s', w', h⟩ | ⟨δ, s', w', h, h1, h2, h3⟩ | h
    · rw [h]; exact Or.inl ⟨_, _, _, rfl⟩
    · rw [h]
      simp only [P.ite_apply, P.lift_apply, P.pure_apply]
      have hl1 := congrArg List.length h1
      have hl2 := congrArg List.length hdata
      rw [List.length_append] at hl1 hl2
      rw [if_neg (by omega)]
      by_cases hpos : d + δ > 0
      · rw [if_pos hpos]
        exact ih (d + δ) s' w' h1 (by omega) (by omega)
      · rw [if_neg hpos]
        exact Or.inr (Or.inl ⟨_, _, rfl⟩)
    · exact Or.inr (Or.inr h)

theorem scriptData_length_le : ∀ s : Script, (scriptData s).length ≤ Script.size s
  | [] => by simp [scriptData]
  | .chunk c :: s => by have := scriptData_length_le s; simp [scriptData, Script.size]; omega
  | .fail k :: s => by have := scriptData_length_le s; simp [scriptData, Script.size]; omega

end Bsn1
