import Verif.Lemmas.Panic
import Verif.Lemmas.Cut
/-!
# What is read from readers that may fail at any point
-/

set_option linter.unusedSimpArgs false

namespace Bsn1
open Spec

/-- Room for the contents: if the code goes on, it is with the announced length. -/
theorem reserve_contents {m : Build} {a n k : Nat}
    (h : (do
      let _ ← bufReserve m a n
      let total ← uadd m a n
      if a ≤ total then return total - a else .panic : Res Nat) = .ok k) (hn : n < usizeSize) : k = n := by
  by_cases hs : a + n < usizeSize
  · rw [bufReserve, uadd_ok hs] at h
    simp only [Res.bind_ok] at h
    split at h
    · simp only [Res.pure_eq, Res.bind_ok] at h
      rw [if_pos (by omega)] at h
      simp at h
      omega
    · simp at h
  · cases m with
    | debug =>
      have : uadd .debug a n = .panic := by rw [uadd, if_neg hs]
      rw [bufReserve, this] at h
      simp at h
    | release =>
      have e : uadd .release a n = .ok ((a + n) % usizeSize) := by rw [uadd, if_neg hs]
      rw [bufReserve, e] at h
      simp only [Res.bind_ok] at h
      split at h
      · simp only [Res.pure_eq, Res.bind_ok] at h
        have hlt : (a + n) % usizeSize < a ∨ usizeSize ≤ a := by
          by_cases ha : usizeSize ≤ a
          · exact Or.inr ha
          · left
            rw [Nat.mod_eq_sub_mod (by omega), Nat.mod_eq_of_lt (by omega)]
            omega
        rcases hlt with hlt | hlt
        · rw [if_neg (by omega)] at h
          simp at h
        · have : (a + n) % usizeSize < usizeSize := Nat.mod_lt _ (by norm_num [usizeSize])
          rw [if_neg (by omega)] at h
          simp at h
      · simp at h

/-- One step of `Ber::parse` on a script is one of `BerRef::parse` on the octets consumed. -/
theorem berDoParse_script_ok {m : Build} {s s' : Script} {w w' : Bytes} {δ : Int}
    (h : (Ber.doParse m).run s w = (.ok δ, s', w')) :
    ∃ p, w' = w ++ p ∧ scriptData s = p ++ scriptData s' ∧ ∀ rest, BerRef.doParse (p ++ rest) = (.ok δ, rest) := by
  have hu := usizeSize_eq
  simp only [Ber.doParse] at h
  have hspec := scriptHeader_spec s w
  generalize (parseIdLength (σ := Script)).run s w = r at hspec h
  cases hspec with
  | definite id n s1 h1 h2 h3 h4 =>
    simp only at h
    split at h
    · rename_i k hk
      have := reserve_contents hk (by omega)
      subst this
      rcases readExact_script k s1 with ⟨e, s2, h5⟩ | ⟨bs, s2, h5, h6, h7, h8⟩
      · rw [h5] at h; simp at h
      · rw [h5] at h
        simp only at h
        have hsl : sliceFrom (w ++ id ++ lenOctets k ++ bs) w.length = .ok (id ++ lenOctets k ++ bs) := by
          rw [sliceFrom, if_pos (by simp)]; simp
        rw [hsl] at h
        simp only [Prod.mk.injEq, Res.ok.injEq] at h
        obtain ⟨e1, rfl, rfl⟩ := h
        have et : id ++ lenOctets k ++ bs = tlv id bs := by rw [tlv, h6]
        refine ⟨tlv id bs, by rw [← et]; simp, by rw [h3, h7, ← et]; simp, fun rest => ?_⟩
        rw [et] at e1
        have ee : BerRef.eoc = Spec.eoc := rfl
        rw [ee] at e1
        by_cases he : tlv id bs = Spec.eoc
        · rw [if_pos he] at e1
          rw [he, doParse_eoc, e1]
        · rw [if_neg he] at e1
          rw [doParse_definite h1 (by omega) he, e1]
    · simp at h
    · simp at h
    · simp at h
  | indefinite id s1 h1 h2 h3 =>
    simp only [Prod.mk.injEq, Res.ok.injEq] at h
    obtain ⟨rfl, rfl, rfl⟩ := h
    exact ⟨id ++ indefOctets, by simp, h2, fun rest => doParse_indefinite h1 rest⟩
  | error e s1 w1 => simp at h

/-- The loop of `Ber::parse` on a script. -/
theorem berParseLoop_script_ok (m : Build) : ∀ (f d : Nat) (s s' : Script) (w w' : Bytes),
    (Ber.parseLoop m f d).run s w = (.ok (), s', w') →
    ∃ p, w' = w ++ p ∧ scriptData s = p ++ scriptData s' ∧ ∀ rest, Runs d (p ++ rest) rest := by
  intro f
  induction f with
  | zero => intro d s s' w w' h; simp [Ber.parseLoop] at h
  | succ f ih =>
    intro d s s' w w' h
    simp only [Ber.parseLoop, P.bind_def] at h
    rcases hx : (Ber.doParse m).run s w with ⟨r, s1, w1⟩
    rw [hx] at h
    match r with
    | .ok δ =>
      obtain ⟨p, h1, h2, h3⟩ := berDoParse_script_ok hx
      obtain ⟨_, hl2, hl3⟩ := doParse_length (h3 [])
      simp only [P.ite_apply, P.lift_apply, P.pure_apply] at h
      split at h
      · simp at h
      · split at h
        · rename_i hpos
          obtain ⟨d', hd'⟩ : ∃ d' : Nat, (d : Int) + δ = d' := ⟨((d : Int) + δ).toNat, by omega⟩
          rw [hd'] at h
          obtain ⟨q, h4, h5, h6⟩ := ih d' s1 s' w1 w' h
          refine ⟨p ++ q, by rw [h4, h1]; simp, by rw [h2, h5]; simp, fun rest => ?_⟩
          rw [List.append_assoc]
          exact Runs.step d d' δ _ _ rest (h3 (q ++ rest)) hd' (by omega) (h6 rest)
        · simp only [Prod.mk.injEq, true_and] at h
          obtain ⟨rfl, rfl⟩ := h
          exact ⟨p, h1, h2, fun rest => Runs.stop d δ _ _ (h3 rest) (by omega)⟩
    | .err e => simp at h
    | .panic => simp at h
    | .ub => simp at h

/-- `read_exact` does not mind interruptions. -/
theorem readExactLoop_interrupted {tail s : Script} {bs : Bytes} (h : InterruptedThen tail s bs) :
    ∀ (f : Nat) (acc : Bytes), Script.size s + bs.length < f →
      ∃ s1, readExactLoop f bs.length acc s = (.ok (acc ++ bs), s1) ∧ scriptData s1 = scriptData tail := by
  have hz : ∀ {s : Script} {bs : Bytes}, InterruptedThen tail s bs → bs = [] → scriptData s = scriptData tail := by
    intro s bs h
    induction h with
    | nil => intro _; rfl
    | cons c s bs h1 h2 _ => intro e; exact absurd (List.append_eq_nil_iff.mp e).1 h1
    | interrupt s bs h1 ih => intro e; exact ih e
  have hzero : ∀ {s : Script} (f : Nat) (acc : Bytes), InterruptedThen tail s [] → 0 < f →
      ∃ s1, readExactLoop f ([] : Bytes).length acc s = (.ok (acc ++ []), s1) ∧ scriptData s1 = scriptData tail := by
    intro s f acc h hf
    obtain ⟨g, rfl⟩ : ∃ g, f = g + 1 := ⟨f - 1, by omega⟩
    exact ⟨s, by simp [readExactLoop], hz h rfl⟩
  induction h with
  | nil => intro f acc hf; exact hzero f acc InterruptedThen.nil (by omega)
  | cons c s bs hc hr ih =>
    intro f acc hf
    obtain ⟨g, rfl⟩ : ∃ g, f = g + 1 := ⟨f - 1, by omega⟩
    have hcl : 0 < c.length := List.length_pos_iff.mpr hc
    simp only [readExactLoop]
    rw [if_neg (by simp [hc])]
    have hread : Reader.read (c ++ bs).length ((.chunk c :: s : Script)) = (.data c, s) := by
      simp [Reader.read, Script.read]
    rw [hread]
    obtain ⟨x, c', rfl⟩ : ∃ x c', c = x :: c' := by
      cases c with
      | nil => exact absurd rfl hc
      | cons x c' => exact ⟨x, c', rfl⟩
    simp only
    have e : (x :: c' ++ bs).length - (x :: c').length = bs.length := by simp
    rw [e]
    obtain ⟨s1, h1, h2⟩ := ih g (acc ++ x :: c') (by simp [Script.size] at hf ⊢; omega)
    exact ⟨s1, by rw [h1]; simp, h2⟩
  | interrupt s bs hr ih =>
    intro f acc hf
    by_cases hb : bs = []
    · subst hb; exact hzero f acc (InterruptedThen.interrupt _ _ hr) (by omega)
    obtain ⟨g, rfl⟩ : ∃ g, f = g + 1 := ⟨f - 1, by omega⟩
    simp only [readExactLoop]
    have hl : 0 < bs.length := List.length_pos_iff.mpr hb
    rw [if_neg (by omega)]
    have hread : Reader.read bs.length ((.fail .interrupted :: s : Script)) = (.fail .interrupted, s) := rfl
    rw [hread]
    simp only
    exact ih g acc (by simp [Script.size] at hf; omega)

/-! ### Failures are passed on -/

theorem Spec.ChunksThen.size_le {tail s : Script} {bs : Bytes} (h : ChunksThen tail s bs) : bs.length ≤ Script.size s := by
  induction h with
  | nil => simp
  | cons c s bs _ _ ih => simp [Script.size]; omega

theorem Spec.ChunksThen.read {tail s : Script} {bs : Bytes} (h : ChunksThen tail s bs) (hbs : bs ≠ []) (n : Nat) (hn : 0 < n) :
    ∃ k s', 0 < k ∧ k ≤ n ∧ k ≤ bs.length ∧ Reader.read n s = (.data (bs.take k), s') ∧ ChunksThen tail s' (bs.drop k) := by
  cases h with
  | nil => exact absurd rfl hbs
  | cons c s bs hc h =>
    have hcl : 0 < c.length := List.length_pos_iff.mpr hc
    simp only [Reader.read, Script.read]
    by_cases hl : c.length ≤ n
    · rw [if_pos hl]
      exact ⟨c.length, s, hcl, hl, by simp, by simp, by simpa using h⟩
    · rw [if_neg hl]
      refine ⟨n, .chunk (c.drop n) :: s, hn, Nat.le_refl _, by simp; omega, ?_, ?_⟩
      · rw [List.take_append_of_le_length (by omega)]
      · rw [List.drop_append_of_le_length (by omega)]
        exact ChunksThen.cons _ _ _ (by simp; omega) h

/-- `x` on a script that delivers `bs` and goes on with `tail` behaves as `y` on `bs` while these last; a failure after
them is passed on. -/
def Pass {α : Type} (tail : Script) (x : P Script α) (y : P Bytes α) : Prop :=
  ∀ s bs w, ChunksThen tail s bs →
    (∀ a rest w', y.run bs w = (.ok a, rest, w') → ∃ s', x.run s w = (.ok a, s', w') ∧ ChunksThen tail s' rest) ∧
    (∀ rest w', y.run bs w = (.err .unterminatedBytes, rest, w') → ∀ k r, tail = .fail k :: r →
      ∃ w'', x.run s w = (.err (.io k), r, w''))

namespace Pass
variable {α β : Type} {tail : Script}

theorem bind {x : P Script α} {y : P Bytes α} {f : α → P Script β} {g : α → P Bytes β} (h : Pass tail x y)
    (hf : ∀ a, Pass tail (f a) (g a)) : Pass tail (x >>= f) (y >>= g) := by
  intro s bs w hs
  obtain ⟨h1, h2⟩ := h s bs w hs
  simp only [P.bind_def]
  rcases hy : y.run bs w with ⟨r, rest, w'⟩
  match r with
  | .ok a =>
    obtain ⟨s', h3, h4⟩ := h1 a rest w' hy
    rw [h3]
    exact hf a s' rest w' h4
  | .err e =>
    refine ⟨by simp, ?_⟩
    intro rest' w'' h3 k r ht
    simp only [Prod.mk.injEq, Res.err.injEq] at h3
    obtain ⟨rfl, rfl, rfl⟩ := h3
    obtain ⟨w3, h4⟩ := h2 _ _ hy k r ht
    exact ⟨w3, by rw [h4]⟩
  | .panic => exact ⟨by simp, by simp⟩
  | .ub => exact ⟨by simp, by simp⟩

theorem pure (a : α) : Pass tail (Pure.pure a) (Pure.pure a) := by
  intro s bs w hs
  refine ⟨?_, by simp⟩
  intro b rest w' h
  simp only [P.pure_apply, Prod.mk.injEq, Res.ok.injEq] at h
  obtain ⟨rfl, rfl, rfl⟩ := h
  exact ⟨s, by simp, hs⟩

theorem throw {e : Error} (he : e ≠ .unterminatedBytes) : Pass (α := α) tail (P.throw e) (P.throw e) := by
  intro s bs w hs
  refine ⟨by simp [P.throw], ?_⟩
  intro rest w' h
  simp only [P.throw, Prod.mk.injEq, Res.err.injEq] at h
  exact absurd h.1 he

theorem write (b : UInt8) : Pass tail (writeU8 b) (writeU8 b) := by
  intro s bs w hs
  refine ⟨?_, by simp⟩
  intro a rest w' h
  simp only [writeU8_apply, Prod.mk.injEq, Res.ok.injEq] at h
  obtain ⟨_, rfl, rfl⟩ := h
  exact ⟨s, by simp, hs⟩

theorem ite {c : Prop} [Decidable c] {x x' : P Script α} {y y' : P Bytes α} (h : Pass tail x y) (h' : Pass tail x' y') :
    Pass tail (if c then x else x') (if c then y else y') := by
  by_cases hc : c <;> simp [hc, h, h']

theorem read : Pass tail (readU8 (σ := Script)) readU8 := by
  intro s bs w hs
  match bs with
  | [] =>
    rw [readU8_nil]
    refine ⟨by simp, ?_⟩
    intro rest w' _ k r ht
    generalize hB : ([] : Bytes) = B at hs
    cases hs with
    | nil => subst ht; exact ⟨w, by simp [readU8, Reader.read, Script.read]⟩
    | cons c s bs hc _ => exact absurd (List.append_eq_nil_iff.mp hB.symm).1 hc
  | b :: r =>
    rw [readU8_cons]
    refine ⟨?_, by simp⟩
    intro a rest w' h
    simp only [Prod.mk.injEq, Res.ok.injEq] at h
    obtain ⟨rfl, rfl, rfl⟩ := h
    obtain ⟨k, s', h1, h2, _, h3, h4⟩ := hs.read (by simp) 1 (by omega)
    have : k = 1 := by omega
    subst this
    exact ⟨s', by simp only [readU8, h3, List.take_succ_cons, List.take_zero], by simpa using h4⟩

end Pass

theorem pass_parseIdLoop {tail : Script} : ∀ (f g : Nat) (o : UInt8) (i : Nat) (s : Script) (bs w : Bytes),
    ChunksThen tail s bs → bs.length < f → bs.length < g →
    (∀ a rest w', (parseIdLoop g o i).run bs w = (.ok a, rest, w') →
      ∃ s', (parseIdLoop f o i).run s w = (.ok a, s', w') ∧ ChunksThen tail s' rest) ∧
    (∀ rest w', (parseIdLoop g o i).run bs w = (.err .unterminatedBytes, rest, w') → ∀ k r, tail = .fail k :: r →
      ∃ w'', (parseIdLoop f o i).run s w = (.err (.io k), r, w'')) := by
  intro f
  induction f with
  | zero => intro g o i s bs w _ h; omega
  | succ f ih =>
    intro g o i s bs w hs hf hg
    obtain ⟨g, rfl⟩ : ∃ j, g = j + 1 := ⟨g - 1, by omega⟩
    simp only [parseIdLoop, P.bind_def, writeU8_apply, P.ite_apply, P.pure_apply]
    by_cases hm : o &&& IdRef.MORE_FLAG ≠ IdRef.MORE_FLAG
    · simp only [if_pos hm]
      refine ⟨?_, by simp⟩
      intro a rest w' h
      simp only [Prod.mk.injEq, Res.ok.injEq] at h
      obtain ⟨rfl, rfl, rfl⟩ := h
      exact ⟨s, by simp, hs⟩
    · simp only [if_neg hm]
      have hrd := Pass.read (tail := tail) s bs (w ++ [o]) hs
      match bs with
      | [] =>
        simp only [readU8_nil] at hrd ⊢
        refine ⟨by simp, ?_⟩
        intro rest w' _ k r ht
        obtain ⟨w'', h⟩ := hrd.2 _ _ rfl k r ht
        exact ⟨w'', by rw [h]⟩
      | b :: r =>
        simp only [readU8_cons] at hrd ⊢
        obtain ⟨s', h1, h2⟩ := hrd.1 _ _ _ rfl
        rw [h1]
        simp only [List.length_cons] at hf hg
        exact ih g b (i + 1) s' r _ h2 (by omega) (by omega)

theorem pass_parseId {tail : Script} : Pass tail (parseId (σ := Script)) parseId := by
  unfold parseId
  refine Pass.read.bind fun first => (Pass.write first).bind fun _ => ?_
  refine Pass.ite (Pass.pure 1) (Pass.read.bind fun o => ?_)
  refine Pass.ite (Pass.throw (by simp)) (Pass.ite (Pass.throw (by simp)) ?_)
  intro s bs w h
  have hs := h.size_le
  exact pass_parseIdLoop (Script.size s + 1) (bs.length + 1) o 2 s bs w h (by omega) (by omega)

theorem pass_parseLengthLoop {tail : Script} :
    ∀ k l, Pass tail (parseLengthLoop (σ := Script) k l) (parseLengthLoop k l)
  | 0, l => Pass.pure l
  | k + 1, l => Pass.read.bind fun b => (Pass.write b).bind fun _ => pass_parseLengthLoop k _

theorem pass_parseLength {tail : Script} : Pass tail (parseLength (σ := Script)) parseLength := by
  unfold parseLength
  refine Pass.read.bind fun first => (Pass.write first).bind fun _ => ?_
  refine Pass.ite (Pass.pure _) (Pass.ite (Pass.pure _) (Pass.read.bind fun second => ?_))
  refine Pass.ite (Pass.throw (by simp)) ((Pass.write _).bind fun _ => ?_)
  refine Pass.ite (Pass.throw (by simp)) (Pass.ite (Pass.throw (by simp)) ?_)
  exact (pass_parseLengthLoop _ _).bind fun _ => Pass.pure _

theorem pass_parseIdLength {tail : Script} : Pass tail (parseIdLength (σ := Script)) parseIdLength :=
  pass_parseId.bind fun _ => pass_parseLength

/-- `read_exact` on a script that fails after `bs`. -/
theorem readExactLoop_fail {k : IoKind} (hk : k ≠ .interrupted) {r : Script} :
    ∀ (f n : Nat) (acc : Bytes) (s : Script) (bs : Bytes), ChunksThen (.fail k :: r) s bs → n < f →
      (n ≤ bs.length → ∃ s', readExactLoop f n acc s = (.ok (acc ++ bs.take n), s') ∧
        ChunksThen (.fail k :: r) s' (bs.drop n)) ∧
      (bs.length < n → readExactLoop f n acc s = (.err (.io k), r)) := by
  intro f
  induction f with
  | zero => intro n acc s bs _ h; omega
  | succ f ih =>
    intro n acc s bs hs hf
    simp only [readExactLoop]
    by_cases hn : n = 0
    · subst hn
      exact ⟨fun _ => ⟨s, by simp, by simpa using hs⟩, by omega⟩
    · rw [if_neg hn]
      by_cases hb : bs = []
      · subst hb
        refine ⟨by simp; omega, fun _ => ?_⟩
        generalize hB : ([] : Bytes) = B at hs
        cases hs with
        | nil =>
          have hread : Reader.read n ((.fail k :: r : Script)) = (.fail k, r) := rfl
          rw [hread]
          cases k with
          | interrupted => exact absurd rfl hk
          | _ => rfl
        | cons c s bs hc _ => exact absurd (List.append_eq_nil_iff.mp hB.symm).1 hc
      · obtain ⟨j, s', h1, h2, h3, h4, h5⟩ := hs.read hb n (by omega)
        have hl : (bs.take j).length = j := by simp; omega
        obtain ⟨i1, i2⟩ := ih (n - j) (acc ++ bs.take j) s' (bs.drop j) h5 (by omega)
        rw [h4]
        obtain ⟨x, c, hc⟩ : ∃ x c, bs.take j = x :: c := by
          cases hx : bs.take j with
          | nil => rw [hx] at hl; simp at hl; omega
          | cons x c => exact ⟨x, c, rfl⟩
        rw [hc] at hl i1 i2 ⊢
        simp only
        rw [hl]
        constructor
        · intro hle
          obtain ⟨s'', h6, h7⟩ := i1 (by simp; omega)
          refine ⟨s'', ?_, ?_⟩
          · rw [h6, ← hc, List.append_assoc]
            have : bs.take n = bs.take j ++ (bs.drop j).take (n - j) := by
              rw [← List.take_add]; congr 1; omega
            rw [this]
          · rw [List.drop_drop] at h7
            have : j + (n - j) = n := by omega
            rwa [this] at h7
        · intro hlt
          exact i2 (by simp; omega)

theorem readExact_fail {k : IoKind} (hk : k ≠ .interrupted) {r s : Script} {bs : Bytes}
    (h : ChunksThen (.fail k :: r) s bs) (n : Nat) :
    (n ≤ bs.length → ∃ s', readExact n s = (.ok (bs.take n), s') ∧ ChunksThen (.fail k :: r) s' (bs.drop n)) ∧
    (bs.length < n → readExact n s = (.err (.io k), r)) := by
  have := readExactLoop_fail hk (r := r) (Reader.size s + n + 1) n [] s bs h (by omega)
  simpa [readExact] using this

/-- A header of which only the octets `p` are there. -/
theorem header_there {p t mid w w' : Bytes} {l : Length}
    (h : (parseIdLength (σ := Bytes)).run (p ++ t) w = (.ok l, mid, w')) :
    (∃ p', (parseIdLength (σ := Bytes)).run p w = (.ok l, p', w') ∧ mid = p' ++ t) ∨
    (∃ rest w'', (parseIdLength (σ := Bytes)).run p w = (.err .unterminatedBytes, rest, w'')) := by
  have hc := parseIdLength_cut p w
  rcases hr : (parseIdLength (σ := Bytes)).run p w with ⟨r, p', w1⟩
  rw [hr] at hc
  cases hc with
  | definite id n _ _ h1 h2 h3 =>
    left
    have e := parseIdLength_definite h1 h2 p' w
    rw [← h3, hr] at e
    have e2 := parseIdLength_definite h1 h2 (p' ++ t) w
    rw [← List.append_assoc, ← h3, h] at e2
    simp only [Prod.mk.injEq, Res.ok.injEq] at e e2
    exact ⟨p', by rw [e2.1, e2.2.2, e.2.2], e2.2.1⟩
  | indefinite id _ _ h1 h2 =>
    left
    have e := parseIdLength_indefinite h1 p' w
    rw [← h2, hr] at e
    have e2 := parseIdLength_indefinite h1 (p' ++ t) w
    rw [← List.append_assoc, ← h2, h] at e2
    simp only [Prod.mk.injEq, Res.ok.injEq] at e e2
    exact ⟨p', by rw [e2.1, e2.2.2, e.2.2], e2.2.1⟩
  | cut => exact Or.inr ⟨_, _, rfl⟩
  | wide => exact Or.inr ⟨_, _, rfl⟩
  | final e _ _ h1 h2 =>
    have := h2 t w
    rw [h] at this
    simp at this

/-- One step of `Ber::parse` when the reader fails after the octets `p`. -/
theorem berDoParse_fail {m : Build} {k : IoKind} (hk : k ≠ .interrupted) {r s : Script} {p t mid w : Bytes} {δ : Int}
    (hs : ChunksThen (.fail k :: r) s p) (h : BerRef.doParse (p ++ t) = (.ok δ, mid))
    (hmax : w.length + (p ++ t).length ≤ isizeMax) :
    (∃ q p' s', p = q ++ p' ∧ mid = p' ++ t ∧ (Ber.doParse m).run s w = (.ok δ, s', w ++ q) ∧
      ChunksThen (.fail k :: r) s' p') ∨
    (∃ w', (Ber.doParse m).run s w = (.err (.io k), r, w')) := by
  have hi := isizeMax_eq
  have hu := usizeSize_eq
  have hcases : (∃ id c, IsId id ∧ c.length < 2 ^ 64 ∧ p ++ t = tlv id c ++ mid ∧
      δ = if tlv id c = Spec.eoc then -1 else 0) ∨
      (∃ id, IsId id ∧ p ++ t = id ++ indefOctets ++ mid ∧ δ = 1) := by
    have hst := berStep_spec (p ++ t)
    rw [h] at hst
    cases hst with
    | eoc _ h1 =>
      have e : tlv [0] [] = Spec.eoc := by decide
      exact Or.inl ⟨[0], [], ⟨0, 0, 0, by decide, by decide, by decide +kernel⟩, by simp, by rw [e]; exact h1, by rw [if_pos e]⟩
    | definite id c _ h1 h2 h3 h4 => exact Or.inl ⟨id, c, h1, h2, h4, by rw [if_neg h3]⟩
    | indefinite id _ h1 h2 => exact Or.inr ⟨id, h1, h2, rfl⟩
  obtain ⟨hp1, hp2⟩ := pass_parseIdLength (tail := .fail k :: r) s p w hs
  simp only [Ber.doParse]
  rcases hcases with ⟨id, c, h1, h2, h3, h4⟩ | ⟨id, h1, h2, rfl⟩
  · have e : p ++ t = id ++ lenOctets c.length ++ (c ++ mid) := by rw [h3, tlv]; simp
    have hh := parseIdLength_definite h1 h2 (c ++ mid) w
    rw [← e] at hh
    rcases header_there hh with ⟨p', h5, h6⟩ | ⟨rest, w'', h5⟩
    · obtain ⟨s', h7, h8⟩ := hp1 _ _ _ h5
      have hpe : p = id ++ lenOctets c.length ++ p' := by
        have : p ++ t = (id ++ lenOctets c.length ++ p') ++ t := by rw [e, h6]; simp
        exact List.append_cancel_right this
      have hlen : (w ++ id ++ lenOctets c.length).length + c.length ≤ isizeMax := by
        rw [e] at hmax
        simp only [List.length_append] at hmax ⊢
        omega
      rw [h7]
      simp only
      rw [bufReserve, uadd_ok (by omega)]
      simp only [Res.bind_ok, if_pos hlen, Res.pure_eq]
      rw [if_pos (by omega), Nat.add_sub_cancel_left]
      simp only
      obtain ⟨x1, x2⟩ := readExact_fail hk h8 c.length
      by_cases hcl : c.length ≤ p'.length
      · left
        obtain ⟨s'', h9, h10⟩ := x1 hcl
        have htake : p'.take c.length = c := by
          have := congrArg (List.take c.length) h6
          rw [List.take_append_of_le_length hcl] at this
          simpa using this.symm
        have hmid : mid = p'.drop c.length ++ t := by
          have := congrArg (List.drop c.length) h6
          rw [List.drop_append_of_le_length hcl] at this
          simpa using this
        rw [h9, htake]
        simp only
        have hsl : sliceFrom (w ++ id ++ lenOctets c.length ++ c) w.length = .ok (tlv id c) := by
          rw [sliceFrom, if_pos (by simp)]; simp [tlv]
        rw [hsl]
        have ee : BerRef.eoc = Spec.eoc := rfl
        refine ⟨tlv id c, p'.drop c.length, s'', ?_, hmid, ?_, h10⟩
        · rw [hpe, tlv]
          conv_lhs => rw [← List.take_append_drop c.length p', htake]
          simp
        · simp only [ee, ← h4]
          simp [tlv]
      · right
        rw [x2 (by omega)]
        exact ⟨_, rfl⟩
    · obtain ⟨w3, h6⟩ := hp2 _ _ h5 k r rfl
      right
      exact ⟨w3, by rw [h6]⟩
  · have hh := parseIdLength_indefinite h1 mid w
    rw [← h2] at hh
    rcases header_there hh with ⟨p', h5, h6⟩ | ⟨rest, w'', h5⟩
    · obtain ⟨s', h7, h8⟩ := hp1 _ _ _ h5
      left
      refine ⟨id ++ indefOctets, p', s', ?_, h6, by rw [h7]; simp, h8⟩
      have : p ++ t = (id ++ indefOctets ++ p') ++ t := by rw [h2, h6]; simp
      exact List.append_cancel_right this
    · obtain ⟨w3, h6⟩ := hp2 _ _ h5 k r rfl
      right
      exact ⟨w3, by rw [h6]⟩

/-- The loop of `Ber::parse` when the reader fails before the end of the value. -/
theorem berParseLoop_fail {m : Build} {k : IoKind} (hk : k ≠ .interrupted) {r : Script} {d : Nat} {bs rest : Bytes}
    (hr : Runs d bs rest) : ∀ (f : Nat) (s : Script) (p t w : Bytes), bs = p ++ t → rest.length < t.length →
      ChunksThen (.fail k :: r) s p → p.length < f → w.length + bs.length ≤ isizeMax → d + bs.length ≤ isizeMax →
      ∃ w', (Ber.parseLoop m f d).run s w = (.err (.io k), r, w') := by
  induction hr with
  | stop d δ bs rest h1 h2 =>
    intro f s p t w hbs ht hs hf hmax hd
    obtain ⟨f, rfl⟩ : ∃ g, f = g + 1 := ⟨f - 1, by omega⟩
    subst hbs
    simp only [Ber.parseLoop, P.bind_def]
    rcases berDoParse_fail (m := m) hk hs h1 hmax with ⟨q, p', s', h3, h4, _⟩ | ⟨w', h3⟩
    · have := congrArg List.length h4
      rw [List.length_append] at this
      omega
    · exact ⟨w', by rw [h3]⟩
  | step d d' δ bs bs' rest h1 h2 h3 h4 ih =>
    intro f s p t w hbs ht hs hf hmax hd
    obtain ⟨f, rfl⟩ : ∃ g, f = g + 1 := ⟨f - 1, by omega⟩
    subst hbs
    obtain ⟨hl1, hl2, hl3⟩ := doParse_length h1
    simp only [Ber.parseLoop, P.bind_def]
    rcases berDoParse_fail (m := m) hk hs h1 hmax with ⟨q, p', s', h5, h6, h7, h8⟩ | ⟨w', h5⟩
    · rw [h7]
      simp only [P.ite_apply, P.lift_apply, P.pure_apply]
      rw [if_neg (by omega), if_pos (by omega), h2]
      have e5 := congrArg List.length h5
      have e6 := congrArg List.length h6
      simp only [List.length_append] at e5 e6 hl1 hmax hd
      exact ih f s' p' t (w ++ q) h6 ht h8 (by omega) (by rw [List.length_append]; omega) (by omega)
    · exact ⟨w', by rw [h5]⟩

end Bsn1
