import Verif.Lemmas.Monad
import Verif.Spec.Reader
import Verif.Model.Ber
/-!
# Readers that deliver the same octets are treated alike
-/

set_option linter.unusedSimpArgs false

namespace Bsn1
open Spec

theorem delivers_slice : Delivers (σ := Bytes) (fun s bs => s = bs) where
  read_pos n s bs hn h := by
    subst h
    refine ⟨n, s.drop n, rfl, rfl, Nat.le_refl _, fun _ => hn⟩
  read_zero s bs h := by subst h; exact ⟨s, by simp, rfl⟩
  size_le s bs h := by subst h; simp

theorem Chunks.size_le {s : Script} {bs : Bytes} (h : Chunks s bs) : bs.length ≤ Script.size s := by
  induction h with
  | nil => simp [Script.size]
  | cons c s bs _ _ ih => simp [Script.size]; omega

theorem delivers_chunks : Delivers Chunks where
  read_pos n s bs hn h := by
    cases h with
    | nil => exact ⟨0, [], by simp [Reader.read, Script.read], Chunks.nil, by omega, by simp⟩
    | cons c s bs hc h =>
      simp only [Reader.read, Script.read]
      by_cases hl : c.length ≤ n
      · rw [if_pos hl]
        refine ⟨c.length, s, by simp, by simpa using h, hl, fun _ => List.length_pos_iff.mpr hc⟩
      · rw [if_neg hl]
        refine ⟨n, .chunk (c.drop n) :: s, ?_, ?_, Nat.le_refl _, fun _ => hn⟩
        · rw [List.take_append_of_le_length (by omega)]
        · rw [List.drop_append_of_le_length (by omega)]
          exact Chunks.cons _ _ _ (by simp; omega) h
  read_zero s bs h := by
    cases h with
    | nil => exact ⟨[], by simp [Reader.read, Script.read], Chunks.nil⟩
    | cons c s bs hc h =>
      have : ¬ c.length ≤ 0 := by
        have := List.length_pos_iff.mpr hc; omega
      exact ⟨.chunk c :: s, by simp [Reader.read, Script.read, this], Chunks.cons c s bs hc h⟩
  size_le s bs h := Chunks.size_le h

/-- `x` on a reader behaves as `y` on the slice of what the reader delivers. -/
def Sim {σ α : Type} (R : σ → Bytes → Prop) (x : P σ α) (y : P Bytes α) : Prop :=
  ∀ s bs w, R s bs → (x.run s w).1 = (y.run bs w).1 ∧ (x.run s w).2.2 = (y.run bs w).2.2 ∧
    R (x.run s w).2.1 (y.run bs w).2.1

namespace Sim
variable {σ α β : Type} {R : σ → Bytes → Prop}

theorem bind {x : P σ α} {y : P Bytes α} {f : α → P σ β} {g : α → P Bytes β} (h : Sim R x y)
    (hf : ∀ a, Sim R (f a) (g a)) : Sim R (x >>= f) (y >>= g) := by
  intro s bs w hR
  have hx := h s bs w hR
  simp only [P.bind_def]
  rcases hxe : x.run s w with ⟨r, s', w'⟩
  rcases hye : y.run bs w with ⟨r2, bs', w2⟩
  simp only [hxe, hye] at hx
  obtain ⟨rfl, rfl, hR'⟩ := hx
  cases r with
  | ok a => exact hf a s' bs' w' hR'
  | err e => exact ⟨rfl, rfl, hR'⟩
  | panic => exact ⟨rfl, rfl, hR'⟩
  | ub => exact ⟨rfl, rfl, hR'⟩

theorem pure (a : α) : Sim R (Pure.pure a) (Pure.pure a) := fun _ _ _ h => ⟨rfl, rfl, h⟩
theorem throw (e : Error) : Sim (α := α) R (P.throw e) (P.throw e) := fun _ _ _ h => ⟨rfl, rfl, h⟩
theorem lift (r : Res α) : Sim R (P.lift r) (P.lift r) := fun _ _ _ h => ⟨rfl, rfl, h⟩
theorem write (b : UInt8) : Sim R (writeU8 b) (writeU8 b) := fun _ _ _ h => ⟨rfl, rfl, h⟩
theorem ite {c : Prop} [Decidable c] {x x' : P σ α} {y y' : P Bytes α} (h : Sim R x y) (h' : Sim R x' y') :
    Sim R (if c then x else x') (if c then y else y') := by
  by_cases hc : c <;> simp [hc, h, h']

end Sim

variable {σ : Type} [Reader σ] {R : σ → Bytes → Prop}

theorem read_one (hd : Delivers R) {s : σ} {bs : Bytes} (h : R s bs) :
    (bs = [] ∧ ∃ s', Reader.read 1 s = (.data [], s') ∧ R s' []) ∨
    (∃ b r s', bs = b :: r ∧ Reader.read 1 s = (.data [b], s') ∧ R s' r) := by
  obtain ⟨k, s', h1, h2, h3, h4⟩ := hd.read_pos 1 s bs (by omega) h
  match bs with
  | [] => left; exact ⟨rfl, s', by simpa using h1, by simpa using h2⟩
  | b :: r =>
    right
    have : k = 1 := by have := h4 (by simp); omega
    subst this
    exact ⟨b, r, s', rfl, by simpa using h1, by simpa using h2⟩

theorem Sim.read (hd : Delivers R) : Sim R (readU8 (σ := σ)) (readU8 (σ := Bytes)) := by
  intro s bs w h
  rcases read_one hd h with ⟨rfl, s', h1, h2⟩ | ⟨b, r, s', rfl, h1, h2⟩
  · simp only [readU8_nil]; simp only [readU8, h1]; exact ⟨trivial, trivial, h2⟩
  · simp only [readU8_cons]; simp only [readU8, h1]; exact ⟨trivial, trivial, h2⟩

theorem sim_parseIdLoop (hd : Delivers R) : ∀ (f g : Nat) (o : UInt8) (i : Nat) (s : σ) (bs w : Bytes), R s bs →
    bs.length < f → bs.length < g →
    ((parseIdLoop f o i).run s w).1 = ((parseIdLoop g o i).run bs w).1 ∧
    ((parseIdLoop f o i).run s w).2.2 = ((parseIdLoop g o i).run bs w).2.2 ∧
    R ((parseIdLoop f o i).run s w).2.1 ((parseIdLoop g o i).run bs w).2.1 := by
  intro f
  induction f with
  | zero => intro g o i s bs w _ h; omega
  | succ f ih =>
    intro g o i s bs w h hf hg
    match g with
    | 0 => omega
    | g + 1 =>
      simp only [parseIdLoop, P.bind_def, writeU8_apply, P.ite_apply, P.pure_apply]
      by_cases hm : o &&& IdRef.MORE_FLAG ≠ IdRef.MORE_FLAG
      · simp only [if_pos hm]; exact ⟨trivial, trivial, h⟩
      · simp only [if_neg hm]
        rcases read_one hd h with ⟨rfl, s', h1, h2⟩ | ⟨b, r, s', rfl, h1, h2⟩
        · simp only [readU8_nil]; simp only [readU8, h1]; exact ⟨trivial, trivial, h2⟩
        · simp only [readU8_cons]; simp only [readU8, h1]
          simp only [List.length_cons] at hf hg
          exact ih g b (i + 1) s' r _ h2 (by omega) (by omega)

theorem sim_parseId (hd : Delivers R) : Sim R (parseId (σ := σ)) parseId := by
  unfold parseId
  refine (Sim.read hd).bind fun first => (Sim.write first).bind fun _ => ?_
  refine Sim.ite (Sim.pure 1) ((Sim.read hd).bind fun o => ?_)
  refine Sim.ite (Sim.throw _) (Sim.ite (Sim.throw _) ?_)
  intro s bs w h
  have hs := hd.size_le s bs h
  exact sim_parseIdLoop hd (Reader.size s + 1) (bs.length + 1) o 2 s bs w h (by omega) (by omega)

theorem sim_parseLengthLoop (hd : Delivers R) : ∀ k l, Sim R (parseLengthLoop (σ := σ) k l) (parseLengthLoop k l)
  | 0, l => Sim.pure l
  | k + 1, l => (Sim.read hd).bind fun b => (Sim.write b).bind fun _ => sim_parseLengthLoop hd k _

theorem sim_parseLength (hd : Delivers R) : Sim R (parseLength (σ := σ)) parseLength := by
  unfold parseLength
  refine (Sim.read hd).bind fun first => (Sim.write first).bind fun _ => ?_
  refine Sim.ite (Sim.pure _) (Sim.ite (Sim.pure _) ((Sim.read hd).bind fun second => ?_))
  refine Sim.ite (Sim.throw _) ((Sim.write _).bind fun _ => ?_)
  refine Sim.ite (Sim.throw _) (Sim.ite (Sim.throw _) ?_)
  exact (sim_parseLengthLoop hd _ _).bind fun _ => Sim.pure _

theorem sim_parseIdLength (hd : Delivers R) : Sim R (parseIdLength (σ := σ)) parseIdLength :=
  (sim_parseId hd).bind fun _ => sim_parseLength hd

/-! ### `read_exact` -/

theorem readExactLoop_spec (hd : Delivers R) : ∀ (f n : Nat) (acc : Bytes) (s : σ) (bs : Bytes), R s bs → n < f →
    ∃ s', readExactLoop f n acc s =
        (if n ≤ bs.length then .ok (acc ++ bs.take n) else .err (.io .unexpectedEof), s') ∧
      R s' (bs.drop n) := by
  intro f
  induction f with
  | zero => intro n acc s bs _ h; omega
  | succ f ih =>
    intro n acc s bs h hf
    simp only [readExactLoop]
    by_cases hn : n = 0
    · subst hn; exact ⟨s, by simp, by simpa using h⟩
    · rw [if_neg hn]
      obtain ⟨k, s', h1, h2, h3, h4⟩ := hd.read_pos n s bs (by omega) h
      rw [h1]
      match bs with
      | [] =>
        simp only [List.take_nil, List.drop_nil] at h2 ⊢
        refine ⟨s', ?_, h2⟩
        rw [if_neg (by simp; omega)]
      | b :: r =>
        have hk := h4 (by simp)
        obtain ⟨k, rfl⟩ : ∃ j, k = j + 1 := ⟨k - 1, by omega⟩
        simp only [List.take_succ_cons]
        by_cases hkl : k ≤ r.length
        · have hl : (b :: r.take k).length = k + 1 := by simp; omega
          obtain ⟨s'', h5, h6⟩ := ih (n - (k + 1)) (acc ++ (b :: r.take k)) s' _ h2 (by omega)
          refine ⟨s'', ?_, ?_⟩
          · rw [hl, h5]
            simp only [List.drop_succ_cons, List.length_drop, List.length_cons, List.append_assoc]
            by_cases hx : n ≤ r.length + 1
            · rw [if_pos (by omega), if_pos hx]
              obtain ⟨q, rfl⟩ : ∃ q, n = q + (k + 1) := ⟨n - (k + 1), by omega⟩
              simp only [Nat.add_sub_cancel, ← Nat.add_assoc, List.take_succ_cons]
              rw [Nat.add_comm q k, List.take_add]
              simp
            · rw [if_neg (by omega), if_neg hx]
          · rw [List.drop_drop] at h6
            have : k + 1 + (n - (k + 1)) = n := by omega
            rwa [this] at h6
        · have hl : (b :: r.take k).length = r.length + 1 := by simp; omega
          obtain ⟨s'', h5, h6⟩ := ih (n - (r.length + 1)) (acc ++ (b :: r.take k)) s' _ h2 (by omega)
          refine ⟨s'', ?_, ?_⟩
          · rw [hl, h5, if_neg, if_neg]
            · simp; omega
            · simp; omega
          · have e1 : (b :: r).drop (k + 1) = [] := by simp; omega
            rw [e1] at h6
            have e2 : (b :: r).drop n = [] := by simp; omega
            rw [e2]; simpa using h6

theorem readExact_spec (hd : Delivers R) (n : Nat) {s : σ} {bs : Bytes} (h : R s bs) :
    ∃ s', readExact n s = (if n ≤ bs.length then .ok (bs.take n) else .err (.io .unexpectedEof), s') ∧
      R s' (bs.drop n) := by
  obtain ⟨s', h1, h2⟩ := readExactLoop_spec hd (Reader.size s + n + 1) n [] s bs h (by omega)
  exact ⟨s', by simpa [readExact] using h1, h2⟩

theorem readExact_slice (n : Nat) (bs : Bytes) : ∃ s', readExact (σ := Bytes) n bs =
    (if n ≤ bs.length then .ok (bs.take n) else .err (.io .unexpectedEof), s') ∧ s' = bs.drop n := by
  obtain ⟨s', h1, h2⟩ := readExact_spec delivers_slice n (s := bs) rfl
  exact ⟨s', h1, h2⟩

/-! ### `Ber::parse` -/

theorem sim_berDoParse (hd : Delivers R) (m : Build) : Sim R (Ber.doParse (σ := σ) m) (Ber.doParse m) := by
  intro s bs w h
  simp only [Ber.doParse]
  have hh := sim_parseIdLength hd s bs w h
  rcases hxe : (parseIdLength (σ := σ)).run s w with ⟨r, s', w'⟩
  rcases hye : (parseIdLength (σ := Bytes)).run bs w with ⟨r2, bs', w2⟩
  simp only [hxe, hye] at hh
  obtain ⟨rfl, rfl, hR⟩ := hh
  match r with
  | .ok (.definite n) =>
    simp only
    generalize (do
      let _ ← bufReserve m w'.length n
      let total ← uadd m w'.length n
      if w'.length ≤ total then return total - w'.length else Res.panic) = q
    match q with
    | .ok k =>
      simp only
      obtain ⟨s1, h1, h2⟩ := readExact_spec hd k hR
      obtain ⟨s2, h3, rfl⟩ := readExact_slice k bs'
      rw [h1, h3]
      by_cases hk : k ≤ bs'.length
      · simp only [if_pos hk]
        generalize sliceFrom (w' ++ bs'.take k) w.length = t
        cases t <;> exact ⟨rfl, rfl, h2⟩
      · simp only [if_neg hk]; exact ⟨trivial, trivial, h2⟩
    | .err e => exact ⟨rfl, rfl, hR⟩
    | .panic => exact ⟨rfl, rfl, hR⟩
    | .ub => exact ⟨rfl, rfl, hR⟩
  | .ok .indefinite => exact ⟨rfl, rfl, hR⟩
  | .err e => exact ⟨rfl, rfl, hR⟩
  | .panic => exact ⟨rfl, rfl, hR⟩
  | .ub => exact ⟨rfl, rfl, hR⟩

end Bsn1
