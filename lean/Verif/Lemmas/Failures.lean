import Verif.Lemmas.Script
/-!
# Readers that fail anywhere, any number of times
-/

namespace Bsn1
open Spec

variable {α β : Type}

/-- The failure comes `n` octets later. -/
def later (n : Nat) (e : Nat × IoKind) : Nat × IoKind := (e.1 + n, e.2)

theorem later_later (l : List (Nat × IoKind)) (a b : Nat) : (l.map (later a)).map (later b) = l.map (later (a + b)) := by
  simp [later, Nat.add_assoc]

theorem later_zero (l : List (Nat × IoKind)) : l.map (later 0) = l := by
  have : later 0 = id := by funext e; rfl
  simp [this]

theorem failures_chunk (c : Bytes) (s : Script) : failures (.chunk c :: s) = (failures s).map (later c.length) := rfl

theorem steady_cons {e : Event} {s : Script} (h : Steady (e :: s)) : Steady s := fun h' => h (List.mem_cons_of_mem _ h')

theorem steady_chunk {c : Bytes} {s : Script} (h : Steady s) (hc : c ≠ []) : Steady (.chunk c :: s) := by
  intro h'
  rcases List.mem_cons.mp h' with e | e
  · cases e; exact hc rfl
  · exact h e

theorem joint_zero (s : Script) : Joint s 0 := ⟨[], s, rfl, rfl⟩

theorem joint_chunk {c : Bytes} {s : Script} {j : Nat} (hj : 0 < j) : Joint (.chunk c :: s) j ↔ c.length ≤ j ∧ Joint s (j - c.length) := by
  constructor
  · rintro ⟨a, b, h1, h2⟩
    match a with
    | [] => simp [scriptData] at h2; omega
    | e :: a =>
      cases h1
      simp only [scriptData, List.length_append] at h2
      exact ⟨by omega, a, b, rfl, by omega⟩
  · rintro ⟨h1, a, b, rfl, h3⟩
    exact ⟨.chunk c :: a, b, rfl, by simp only [scriptData, List.length_append]; omega⟩

theorem joint_fail {k : IoKind} {s : Script} {j : Nat} : Joint (.fail k :: s) j ↔ Joint s j := by
  constructor
  · rintro ⟨a, b, h1, h2⟩
    match a with
    | [] => simp [scriptData] at h2; rw [← h2]; exact joint_zero s
    | e :: a => cases h1; exact ⟨a, b, rfl, by simpa [scriptData] using h2⟩
  · rintro ⟨a, b, rfl, h3⟩
    exact ⟨.fail k :: a, b, rfl, by simpa [scriptData] using h3⟩

/-- The script `s` becomes `s'` by delivering `n` octets without a failure. -/
structure After (n : Nat) (s s' : Script) : Prop where
  steady : Steady s'
  data : scriptData s' = (scriptData s).drop n
  failures : failures s = (failures s').map (later n)
  joints : ∀ j, 0 < j → (Joint s (n + j) ↔ Joint s' j)

theorem After.refl {s : Script} (h : Steady s) : After 0 s s := ⟨h, rfl, (later_zero _).symm, fun j _ => by rw [Nat.zero_add]⟩

theorem After.trans {a b : Nat} {s s' s'' : Script} (h : After a s s') (h' : After b s' s'') : After (a + b) s s'' :=
  ⟨h'.steady, by rw [h'.data, h.data, List.drop_drop], by rw [h.failures, h'.failures, later_later, Nat.add_comm b a],
    fun j hj => by rw [Nat.add_assoc, h.joints _ (by omega), h'.joints j hj]⟩

/-- `x` on a script does what `y` does on the octets of the script, if that is a success, unless there is a failure before the last of the octets
`y` takes: the first failure of the script is reported. -/
def Meets (x : P Script α) (y : P Bytes α) : Prop :=
  ∀ s bs w, Steady s → scriptData s = bs → ∀ a rest w', y.run bs w = (.ok a, rest, w') →
    (∃ n s', bs.length = n + rest.length ∧ x.run s w = (.ok a, s', w') ∧ After n s s' ∧ scriptData s' = rest) ∨
    ∃ j k l s' w'', failures s = (j, k) :: l ∧ j + rest.length < bs.length ∧ x.run s w = (.err (.io k), s', w'')

namespace Meets

theorem bind {x : P Script α} {y : P Bytes α} {f : α → P Script β} {g : α → P Bytes β} (h : Meets x y)
    (hl : ∀ bs w a rest w', y.run bs w = (.ok a, rest, w') → rest.length ≤ bs.length)
    (hg : ∀ b bs w a rest w', (g b).run bs w = (.ok a, rest, w') → rest.length ≤ bs.length)
    (hf : ∀ a, Meets (f a) (g a)) : Meets (x >>= f) (y >>= g) := by
  intro s bs w hs hd a rest w' hr
  simp only [P.bind_def] at hr ⊢
  rcases hy : y.run bs w with ⟨r, rest1, w1⟩
  rw [hy] at hr
  match r with
  | .ok b =>
    simp only at hr
    have h1 := hl _ _ _ _ _ hy
    have h2 := hg _ _ _ _ _ _ hr
    rcases h s bs w hs hd b rest1 w1 hy with ⟨n, s1, e1, e2, e3, e4⟩ | ⟨j, k, l, s', w'', e1, e2, e3⟩
    · rw [e2]
      simp only
      rcases hf b s1 rest1 w1 e3.steady e4 a rest w' hr with ⟨n', s2, i1, i2, i3, i4⟩ | ⟨j, k, l, s', w'', i1, i2, i3⟩
      · exact .inl ⟨n + n', s2, by omega, i2, e3.trans i3, i4⟩
      · refine .inr ⟨j + n, k, l.map (later n), s', w'', ?_, by omega, i3⟩
        rw [e3.failures, i1]; rfl
    · refine .inr ⟨j, k, l, s', w'', e1, by omega, ?_⟩
      rw [e3]
  | .err e => simp at hr
  | .panic => simp at hr
  | .ub => simp at hr

theorem pure (a : α) : Meets (Pure.pure a) (Pure.pure a) := by
  intro s bs w hs hd b rest w' h
  simp only [P.pure_apply, Prod.mk.injEq, Res.ok.injEq] at h
  obtain ⟨rfl, rfl, rfl⟩ := h
  exact .inl ⟨0, s, by simp, by simp, .refl hs, hd⟩

theorem throw (e : Error) : Meets (α := α) (P.throw e) (P.throw e) := by
  intro s bs w hs hd b rest w' h
  simp [P.throw] at h

theorem write (b : UInt8) : Meets (writeU8 b) (writeU8 b) := by
  intro s bs w hs hd a rest w' h
  simp only [writeU8_apply, Prod.mk.injEq, Res.ok.injEq] at h
  obtain ⟨_, rfl, rfl⟩ := h
  exact .inl ⟨0, s, by simp, by simp, .refl hs, hd⟩

theorem ite {c : Prop} [Decidable c] {x x' : P Script α} {y y' : P Bytes α} (h : Meets x y) (h' : Meets x' y') :
    Meets (if c then x else x') (if c then y else y') := by
  by_cases hc : c <;> simp [hc, h, h']

theorem read : Meets (readU8 (σ := Script)) readU8 := by
  intro s bs w hs hd a rest w' h
  match bs with
  | [] => rw [readU8_nil] at h; simp at h
  | b :: r =>
    rw [readU8_cons] at h
    simp only [Prod.mk.injEq, Res.ok.injEq] at h
    obtain ⟨rfl, rfl, rfl⟩ := h
    match s with
    | [] => cases hd
    | .fail k :: s =>
      refine .inr ⟨0, k, failures s, s, w, rfl, by simp, ?_⟩
      simp [readU8, Reader.read, Script.read]
    | .chunk [] :: s => exact absurd (List.mem_cons_self ..) hs
    | .chunk [c] :: s =>
      have hd' : c :: scriptData s = b :: r := hd
      cases hd'
      refine .inl ⟨1, s, by simp; omega, by simp [readU8, Reader.read, Script.read], ⟨steady_cons hs, rfl, rfl, ?_⟩, rfl⟩
      intro j hj
      rw [joint_chunk (by omega)]
      simp
    | .chunk (c :: c' :: cs) :: s =>
      have hd' : c :: c' :: cs ++ scriptData s = b :: r := hd
      cases hd'
      refine .inl ⟨1, .chunk (c' :: cs) :: s, by simp; omega, by simp [readU8, Reader.read, Script.read], ⟨?_, rfl, ?_, ?_⟩, rfl⟩
      · exact steady_chunk (steady_cons hs) (by simp)
      · rw [failures_chunk, failures_chunk, later_later]; rfl
      · intro j hj
        rw [joint_chunk (by omega), joint_chunk hj]
        simp only [List.length_cons]
        rw [show 1 + j - (cs.length + 1 + 1) = j - (cs.length + 1) by omega, show cs.length + 1 + 1 ≤ 1 + j ↔ cs.length + 1 ≤ j by omega]

end Meets

/-- What `y` leaves is not longer. -/
def Lessens (y : P Bytes α) : Prop := ∀ bs w a rest w', y.run bs w = (.ok a, rest, w') → rest.length ≤ bs.length

namespace Lessens

theorem bind {y : P Bytes α} {g : α → P Bytes β} (h : Lessens y) (hg : ∀ b, Lessens (g b)) : Lessens (y >>= g) := by
  intro bs w a rest w' hr
  simp only [P.bind_def] at hr
  rcases hy : y.run bs w with ⟨r, rest1, w1⟩
  rw [hy] at hr
  match r with
  | .ok b => exact (hg b _ _ _ _ _ hr).trans (h _ _ _ _ _ hy)
  | .err e => simp at hr
  | .panic => simp at hr
  | .ub => simp at hr

theorem pure (a : α) : Lessens (Pure.pure a) := by
  intro bs w b rest w' h
  simp only [P.pure_apply, Prod.mk.injEq] at h
  rw [h.2.1]

theorem throw (e : Error) : Lessens (α := α) (P.throw e) := by
  intro bs w b rest w' h
  simp [P.throw] at h

theorem write (b : UInt8) : Lessens (writeU8 b) := by
  intro bs w a rest w' h
  simp only [writeU8_apply, Prod.mk.injEq] at h
  rw [h.2.1]

theorem ite {c : Prop} [Decidable c] {y y' : P Bytes α} (h : Lessens y) (h' : Lessens y') : Lessens (if c then y else y') := by
  by_cases hc : c <;> simp [hc, h, h']

theorem read : Lessens readU8 := by
  intro bs w a rest w' h
  match bs with
  | [] => rw [readU8_nil] at h; simp at h
  | b :: r =>
    rw [readU8_cons] at h
    simp only [Prod.mk.injEq] at h
    rw [← h.2.1]; simp

end Lessens

/-- Both at once. -/
def MeetsS (x : P Script α) (y : P Bytes α) : Prop := Meets x y ∧ Lessens y

theorem MeetsS.bind {x : P Script α} {y : P Bytes α} {f : α → P Script β} {g : α → P Bytes β} (h : MeetsS x y) (hf : ∀ a, MeetsS (f a) (g a)) :
    MeetsS (x >>= f) (y >>= g) :=
  ⟨h.1.bind h.2 (fun b => (hf b).2) fun b => (hf b).1, h.2.bind fun b => (hf b).2⟩

theorem MeetsS.pure (a : α) : MeetsS (Pure.pure a) (Pure.pure a) := ⟨.pure a, .pure a⟩
theorem MeetsS.throw (e : Error) : MeetsS (α := α) (P.throw e) (P.throw e) := ⟨.throw e, .throw e⟩
theorem MeetsS.write (b : UInt8) : MeetsS (writeU8 b) (writeU8 b) := ⟨.write b, .write b⟩
theorem MeetsS.read : MeetsS (readU8 (σ := Script)) readU8 := ⟨.read, .read⟩
theorem MeetsS.ite {c : Prop} [Decidable c] {x x' : P Script α} {y y' : P Bytes α} (h : MeetsS x y) (h' : MeetsS x' y') :
    MeetsS (if c then x else x') (if c then y else y') := ⟨h.1.ite h'.1, h.2.ite h'.2⟩

theorem size_scriptData (s : Script) : (scriptData s).length ≤ Script.size s := by
  induction s with
  | nil => simp [scriptData]
  | cons e s ih => cases e <;> simp [scriptData, Script.size] <;> omega

theorem meets_parseIdLoop : ∀ (f g : Nat) (o : UInt8) (i : Nat) (s : Script) (bs w : Bytes), Steady s → scriptData s = bs →
    bs.length < f → bs.length < g → ∀ a rest w', (parseIdLoop g o i).run bs w = (.ok a, rest, w') →
    rest.length ≤ bs.length ∧
    ((∃ n s', bs.length = n + rest.length ∧ (parseIdLoop f o i).run s w = (.ok a, s', w') ∧ After n s s' ∧ scriptData s' = rest) ∨
    ∃ j k l s' w'', failures s = (j, k) :: l ∧ j + rest.length < bs.length ∧ (parseIdLoop f o i).run s w = (.err (.io k), s', w'')) := by
  intro f
  induction f with
  | zero => intro g o i s bs w _ _ h; omega
  | succ f ih =>
    intro g o i s bs w hs hd hf hg a rest w' hr
    obtain ⟨g, rfl⟩ : ∃ j, g = j + 1 := ⟨g - 1, by omega⟩
    simp only [parseIdLoop, P.bind_def, writeU8_apply, P.ite_apply, P.pure_apply] at hr ⊢
    by_cases hm : o &&& IdRef.MORE_FLAG ≠ IdRef.MORE_FLAG
    · simp only [if_pos hm, Prod.mk.injEq, Res.ok.injEq] at hr ⊢
      obtain ⟨rfl, rfl, rfl⟩ := hr
      exact ⟨Nat.le_refl _, .inl ⟨0, s, by simp, by simp, .refl hs, hd⟩⟩
    · simp only [if_neg hm] at hr ⊢
      match bs with
      | [] => simp only [readU8_nil] at hr; simp at hr
      | b :: r =>
        simp only [readU8_cons] at hr
        simp only [List.length_cons] at hf hg ⊢
        rcases Meets.read s (b :: r) (w ++ [o]) hs hd b r (w ++ [o]) (readU8_cons ..) with ⟨n, s1, e1, e2, e3, e4⟩ | ⟨j, k, l, s', w'', e1, e2, e3⟩
        · simp only [List.length_cons] at e1
          rw [e2]
          obtain ⟨i0, i1⟩ := ih g b (i + 1) s1 r _ e3.steady e4 (by omega) (by omega) a rest w' hr
          refine ⟨by omega, ?_⟩
          rcases i1 with ⟨n', s2, i1, i2, i3, i4⟩ | ⟨j, k, l, s', w'', i1, i2, i3⟩
          · exact .inl ⟨n + n', s2, by omega, i2, e3.trans i3, i4⟩
          · refine .inr ⟨j + n, k, l.map (later n), s', w'', ?_, by omega, i3⟩
            rw [e3.failures, i1]; rfl
        · have hle : rest.length ≤ r.length := (by
            -- the run on the octets alone, with a script that delivers them in one piece
            have hst : Steady (if r = [] then [] else [.chunk r]) := by
              split
              · exact fun h => nomatch h
              · exact steady_chunk (fun h => nomatch h) ‹_›
            have hdt : scriptData (if r = [] then [] else [.chunk r]) = r := by
              split
              · simp [scriptData, *]
              · simp [scriptData]
            exact (ih g b (i + 1) _ r _ hst hdt (by omega) (by omega) a rest w' hr).1)
          refine ⟨by omega, .inr ⟨j, k, l, s', w'', e1, by simp only [List.length_cons] at e2; omega, ?_⟩⟩
          rw [e3]

theorem meets_parseId : MeetsS (parseId (σ := Script)) parseId := by
  unfold parseId
  refine MeetsS.read.bind fun first => (MeetsS.write first).bind fun _ => ?_
  refine MeetsS.ite (MeetsS.pure 1) (MeetsS.read.bind fun o => ?_)
  refine MeetsS.ite (MeetsS.throw _) (MeetsS.ite (MeetsS.throw _) ⟨?_, ?_⟩)
  · intro s bs w hs hd a rest w' h
    have := size_scriptData s
    have hsz : Reader.size s = Script.size s := rfl
    subst hd
    exact (meets_parseIdLoop (Reader.size s + 1) (Reader.size (scriptData s) + 1) o 2 s _ w hs rfl (by omega) (by simp [size_bytes]) a rest w' h).2
  · intro bs w a rest w' h
    have hst : Steady (if bs = [] then [] else [.chunk bs]) := by
      split
      · exact fun h => nomatch h
      · exact steady_chunk (fun h => nomatch h) ‹_›
    have hdt : scriptData (if bs = [] then [] else [.chunk bs]) = bs := by
      split
      · simp [scriptData, *]
      · simp [scriptData]
    exact (meets_parseIdLoop (bs.length + 1) (Reader.size bs + 1) o 2 _ _ w hst hdt (by omega) (by simp [size_bytes]) a rest w' h).1

theorem meets_parseLengthLoop : ∀ k l, MeetsS (parseLengthLoop (σ := Script) k l) (parseLengthLoop k l)
  | 0, l => MeetsS.pure l
  | k + 1, l => MeetsS.read.bind fun b => (MeetsS.write b).bind fun _ => meets_parseLengthLoop k _

theorem meets_parseLength : MeetsS (parseLength (σ := Script)) parseLength := by
  unfold parseLength
  refine MeetsS.read.bind fun first => (MeetsS.write first).bind fun _ => ?_
  refine MeetsS.ite (MeetsS.pure _) (MeetsS.ite (MeetsS.pure _) (MeetsS.read.bind fun second => ?_))
  refine MeetsS.ite (MeetsS.throw _) ((MeetsS.write _).bind fun _ => ?_)
  refine MeetsS.ite (MeetsS.throw _) (MeetsS.ite (MeetsS.throw _) ?_)
  exact (meets_parseLengthLoop _ _).bind fun _ => MeetsS.pure _

theorem meets_parseIdLength : MeetsS (parseIdLength (σ := Script)) parseIdLength :=
  meets_parseId.bind fun _ => meets_parseLength

/-- `read_exact` minds other failures, not interruptions. -/
theorem readExactLoop_meets : ∀ (f n : Nat) (acc : Bytes) (s : Script), Steady s → Script.size s + n < f → n ≤ (scriptData s).length →
    (∃ L s', readExactLoop f n acc s = (.ok (acc ++ (scriptData s).take n), s') ∧ Steady s' ∧ scriptData s' = (scriptData s).drop n ∧
      failures s = L ++ (failures s').map (later n) ∧ ∀ e ∈ L, e.2 = .interrupted ∧ e.1 < n) ∨
    ∃ L j k R s', readExactLoop f n acc s = (.err (.io k), s') ∧ failures s = L ++ (j, k) :: R ∧ k ≠ .interrupted ∧ j < n ∧
      ∀ e ∈ L, e.2 = .interrupted ∧ e.1 < n := by
  intro f
  induction f with
  | zero => intro n acc s _ h; omega
  | succ f ih =>
    intro n acc s hs hf hn
    simp only [readExactLoop]
    by_cases h0 : n = 0
    · subst h0
      exact .inl ⟨[], s, by simp, hs, by simp, by rw [later_zero]; rfl, nofun⟩
    · rw [if_neg h0]
      match s with
      | [] => simp [scriptData] at hn; omega
      | .fail k :: s =>
        have hread : Reader.read n ((.fail k :: s : Script)) = (.fail k, s) := rfl
        rw [hread]
        by_cases hk : k = .interrupted
        · subst hk
          simp only
          rcases ih n acc s (steady_cons hs) (by simp [Script.size] at hf; omega) hn with ⟨L, s', i1, i2, i3, i4, i5⟩ | ⟨L, j, k, R, s', i1, i2, i3, i4, i5⟩
          · refine .inl ⟨(0, .interrupted) :: L, s', i1, i2, i3, by rw [failures, i4]; rfl, ?_⟩
            intro e he
            rcases List.mem_cons.mp he with rfl | he
            · exact ⟨rfl, by simp only; omega⟩
            · exact i5 e he
          · refine .inr ⟨(0, .interrupted) :: L, j, k, R, s', i1, by rw [failures, i2]; rfl, i3, i4, ?_⟩
            intro e he
            rcases List.mem_cons.mp he with rfl | he
            · exact ⟨rfl, by simp only; omega⟩
            · exact i5 e he
        · refine .inr ⟨[], 0, k, failures s, s, ?_, rfl, hk, by omega, nofun⟩
          cases k with
          | interrupted => exact absurd rfl hk
          | _ => rfl
      | .chunk c :: s =>
        have hc : c ≠ [] := fun h => hs (by rw [h]; exact List.mem_cons_self ..)
        obtain ⟨x, c', rfl⟩ : ∃ x c', c = x :: c' := by
          cases c with
          | nil => exact absurd rfl hc
          | cons x c' => exact ⟨x, c', rfl⟩
        have hdata : scriptData (.chunk (x :: c') :: s) = (x :: c') ++ scriptData s := rfl
        by_cases hl : (x :: c').length ≤ n
        · have hread : Reader.read n ((.chunk (x :: c') :: s : Script)) = (.data (x :: c'), s) := by
            simp only [Reader.read, Script.read, if_pos hl]
          rw [hread]
          simp only
          rw [hdata, List.length_append] at hn
          have ht : ((x :: c') ++ scriptData s).take n = (x :: c') ++ (scriptData s).take (n - (x :: c').length) := by
            rw [List.take_append, List.take_of_length_le hl]
          have hdr : ((x :: c') ++ scriptData s).drop n = (scriptData s).drop (n - (x :: c').length) := by
            rw [List.drop_append, List.drop_eq_nil_of_le hl, List.nil_append]
          rw [hdata, ht, hdr]
          have hpos : 0 < (x :: c').length := by simp
          generalize hcl : (x :: c').length = m at *
          rcases ih (n - m) (acc ++ x :: c') s (steady_cons hs) (by simp [Script.size] at hf hcl; omega) (by omega) with
            ⟨L, s', i1, i2, i3, i4, i5⟩ | ⟨L, j, k, R, s', i1, i2, i3, i4, i5⟩
          · refine .inl ⟨L.map (later m), s', by rw [i1, List.append_assoc], i2, i3, ?_, ?_⟩
            · rw [failures_chunk, hcl, i4, List.map_append, later_later]
              congr 4; omega
            · intro e he
              obtain ⟨e', he', rfl⟩ := List.mem_map.mp he
              have := i5 e' he'
              exact ⟨this.1, by simp only [later]; omega⟩
          · refine .inr ⟨L.map (later m), j + m, k, R.map (later m), s', i1, ?_, i3, by omega, ?_⟩
            · rw [failures_chunk, hcl, i2, List.map_append]; rfl
            · intro e he
              obtain ⟨e', he', rfl⟩ := List.mem_map.mp he
              have := i5 e' he'
              exact ⟨this.1, by simp only [later]; omega⟩
        · have hread : Reader.read n ((.chunk (x :: c') :: s : Script)) = (.data ((x :: c').take n), .chunk ((x :: c').drop n) :: s) := by
            simp only [Reader.read, Script.read, if_neg hl]
          rw [hread]
          have htl : ((x :: c').take n).length = n := by simp only [List.length_take]; omega
          obtain ⟨y, t, hyt⟩ : ∃ y t, (x :: c').take n = y :: t := by
            cases hx : (x :: c').take n with
            | nil => rw [hx] at htl; simp at htl; omega
            | cons y t => exact ⟨y, t, rfl⟩
          rw [hyt] at htl ⊢
          simp only
          rw [htl, Nat.sub_self]
          obtain ⟨f, rfl⟩ : ∃ g, f = g + 1 := ⟨f - 1, by omega⟩
          simp only [readExactLoop, if_pos]
          refine .inl ⟨[], .chunk ((x :: c').drop n) :: s, ?_, steady_chunk (steady_cons hs) ?_, ?_, ?_, nofun⟩
          · rw [hdata, List.take_append_of_le_length (by omega), hyt]
          · intro h
            have := congrArg List.length h
            simp only [List.length_drop, List.length_nil] at this
            omega
          · rw [hdata, List.drop_append_of_le_length (by omega)]; rfl
          · rw [failures_chunk, failures_chunk, later_later, List.nil_append, List.length_drop]
            congr 2; omega

/-! ### The elements of BER octets -/

/-- Identifier and length octets `h` with all of the contents of definite length, or with none; `δ` is what is opened. -/
def Element (h c : Bytes) (δ : Int) : Prop :=
  (∃ id, IsId id ∧ c.length < 2 ^ 64 ∧ h = id ++ lenOctets c.length ∧ δ = if h ++ c = Spec.eoc then -1 else 0) ∨
  (∃ id, IsId id ∧ h = id ++ indefOctets ∧ c = [] ∧ δ = 1)

theorem Element.header {h c : Bytes} {δ : Int} (he : Element h c δ) : IsHeader h := by
  rcases he with ⟨id, h1, h2, h3, _⟩ | ⟨id, h1, h2, _⟩
  · exact ⟨id, _, h1, .inr ⟨_, h2, rfl⟩, h3⟩
  · exact ⟨id, _, h1, .inl rfl, h2⟩

theorem isHeader_run {h : Bytes} (hh : IsHeader h) : ∃ l, ∀ x, (parseIdLength (σ := Bytes)).run (h ++ x) [] = (.ok l, x, h) := by
  obtain ⟨id, l, h1, h2 | ⟨n, h2, h3⟩, rfl⟩ := hh
  · exact ⟨.indefinite, fun x => by rw [h2]; exact parseIdLength_indefinite h1 x []⟩
  · exact ⟨.definite n, fun x => by rw [h3]; exact parseIdLength_definite h1 h2 x []⟩

theorem isHeader_unique {h h' x y : Bytes} (hh : IsHeader h) (hh' : IsHeader h') (e : h ++ x = h' ++ y) : h = h' := by
  obtain ⟨l, h1⟩ := isHeader_run hh
  obtain ⟨l', h2⟩ := isHeader_run hh'
  have := h1 x
  rw [e, h2 y] at this
  simp only [Prod.mk.injEq] at this
  exact this.2.2.symm

theorem element_run {h c : Bytes} {δ : Int} (he : Element h c δ) (x w : Bytes) :
    (parseIdLength (σ := Bytes)).run (h ++ x) w = (.ok (if δ = 1 then .indefinite else .definite c.length), x, w ++ h) := by
  rcases he with ⟨id, h1, h2, rfl, h4⟩ | ⟨id, h1, rfl, h3, h4⟩
  · rw [parseIdLength_definite h1 h2, if_neg (by rw [h4]; split <;> decide), List.append_assoc]
  · rw [parseIdLength_indefinite h1, if_pos h4, List.append_assoc]

theorem element_unique {h c h' c' x y : Bytes} {δ δ' : Int} (he : Element h c δ) (he' : Element h' c' δ')
    (e : h ++ c ++ x = h' ++ c' ++ y) : h = h' ∧ c = c' ∧ δ = δ' ∧ x = y := by
  have e' := e
  rw [List.append_assoc, List.append_assoc] at e'
  have hh := isHeader_unique he.header he'.header e'
  subst hh
  have e2 := List.append_cancel_left e'
  have r1 := element_run he [] []
  rw [element_run he' [] []] at r1
  simp only [Prod.mk.injEq, Res.ok.injEq, and_true] at r1
  by_cases h1 : δ = 1 <;> by_cases h2 : δ' = 1
  · rcases he with ⟨_, _, _, _, h4⟩ | ⟨_, _, _, h3, _⟩
    · rw [h1] at h4; split at h4 <;> cases h4
    · rcases he' with ⟨_, _, _, _, h4⟩ | ⟨_, _, _, h3', _⟩
      · rw [h2] at h4; split at h4 <;> cases h4
      · subst h3 h3'
        exact ⟨rfl, rfl, by rw [h1, h2], e2⟩
  · simp [h1, h2] at r1
  · simp [h1, h2] at r1
  · rw [if_neg h1, if_neg h2] at r1
    have hlen : c'.length = c.length := by simpa using r1
    obtain ⟨e3, e4⟩ := List.append_inj e2 hlen.symm
    subst e3
    refine ⟨rfl, rfl, ?_, e4⟩
    rcases he with ⟨_, _, _, _, h4⟩ | ⟨_, _, _, _, h4⟩
    · rcases he' with ⟨_, _, _, _, h5⟩ | ⟨_, _, _, _, h5⟩
      · rw [h4, h5]
      · exact absurd h5 h2
    · exact absurd h4 h1

theorem element_of_doParse {bs bs' : Bytes} {δ : Int} (h : BerRef.doParse bs = (.ok δ, bs')) :
    ∃ hd c, Element hd c δ ∧ bs = hd ++ c ++ bs' := by
  have hst := berStep_spec bs
  rw [h] at hst
  cases hst with
  | eoc _ h1 => exact ⟨[0, 0], [], .inl ⟨[0], isId_zero, by simp, by decide, rfl⟩, by rw [h1]; rfl⟩
  | definite id c _ h1 h2 h3 h4 =>
    refine ⟨id ++ lenOctets c.length, c, .inl ⟨id, h1, h2, rfl, ?_⟩, by rw [h4, tlv]⟩
    rw [if_neg (by rw [tlv] at h3; exact h3)]
  | indefinite id _ h1 h2 => exact ⟨id ++ indefOctets, [], .inr ⟨id, h1, rfl, rfl, rfl⟩, by rw [h2]; simp⟩

theorem due_cons {hd c p : Bytes} {δ : Int} {d d1 d' : Nat} (he : Element hd c δ) (h1 : (d : Int) + δ = d1) (h2 : 0 < d1) (hp : Due d1 p d') :
    Due d (hd ++ c ++ p) d' := by
  rcases he with ⟨id, i1, i2, rfl, i4⟩ | ⟨id, i1, rfl, rfl, i4⟩
  · split at i4
    · rename_i h
      obtain rfl : d = d1 + 1 := by omega
      rw [h]
      exact .close _ _ _ h2 hp
    · rename_i h
      obtain rfl : d = d1 := by omega
      exact .skip _ _ id c p h2 i1 i2 h hp
  · obtain rfl : d1 = d + 1 := by omega
    rw [List.append_nil]
    exact .open _ _ id p i1 hp

theorem due_inv {p : Bytes} {d d' : Nat} (h : Due d p d') : p = [] ∨ ∃ (hd c : Bytes) (δ : Int) (d1 : Nat) (p1 : Bytes), Element hd c δ ∧ p = hd ++ c ++ p1 ∧ (d : Int) + δ = d1 ∧
    0 < d1 ∧ Due d1 p1 d' := by
  cases h with
  | nil => exact .inl rfl
  | skip _ _ id c bs h1 h2 h3 h4 h5 =>
    refine .inr ⟨id ++ lenOctets c.length, c, 0, d, bs, .inl ⟨id, h2, h3, rfl, ?_⟩, rfl, by omega, h1, h5⟩
    rw [if_neg (by rw [tlv] at h4; exact h4)]
  | «open» _ _ id bs h1 h2 => exact .inr ⟨id ++ indefOctets, [], 1, d + 1, bs, .inr ⟨id, h1, rfl, rfl, rfl⟩, by simp, by omega, by omega, h2⟩
  | close d _ bs h1 h2 => exact .inr ⟨[0, 0], [], -1, d, bs, .inl ⟨[0], isId_zero, by simp, by decide, rfl⟩, rfl, by omega, h1, h2⟩

theorem headerOctet_iff {hd c bs' : Bytes} {δ : Int} {d j : Nat} (he : Element hd c δ) :
    HeaderOctet d (hd ++ c ++ bs') j ↔
      j < hd.length ∨ ∃ d1 i : Nat, (d : Int) + δ = d1 ∧ 0 < d1 ∧ j = (hd ++ c).length + i ∧ HeaderOctet d1 bs' i := by
  constructor
  · rintro ⟨p, d', h, q, h1, h2, h3, h4, h5⟩
    rcases due_inv h1 with rfl | ⟨hd1, c1, δ1, d1, p1, i1, rfl, i3, i4, i5⟩
    · left
      rw [List.append_assoc, List.nil_append] at h3
      rw [isHeader_unique he.header h2 h3]
      simpa using h5
    · rw [List.append_assoc (hd1 ++ c1)] at h3
      obtain ⟨rfl, rfl, rfl, h6⟩ := element_unique he i1 h3
      rw [List.length_append] at h4 h5
      exact .inr ⟨d1, j - (hd ++ c).length, i3, i4, by omega, p1, d', h, q, i5, h2, h6, by omega, by omega⟩
  · rintro (h | ⟨d1, i, h1, h2, h3, p, d', h, q, i1, i2, i3, i4, i5⟩)
    · exact ⟨[], d, hd, c ++ bs', .nil d, he.header, by simp, by simp, by simpa using h⟩
    · refine ⟨hd ++ c ++ p, d', h, q, due_cons he h1 h2 i1, i2, by rw [i3]; simp, ?_, ?_⟩
      · rw [List.length_append]; omega
      · rw [List.length_append]; omega

/-! ### The parsers -/

/-- One step of `Ber::parse`. -/
theorem berDoParse_meets {m : Build} {s : Script} {w bs' hd c : Bytes} {δ : Int} (hs : Steady s) (he : Element hd c δ)
    (hd' : scriptData s = hd ++ c ++ bs') (hmax : w.length + (hd ++ c).length ≤ isizeMax) :
    (∃ L s', (Ber.doParse m).run s w = (.ok δ, s', w ++ (hd ++ c)) ∧ Steady s' ∧ scriptData s' = bs' ∧
      failures s = L ++ (failures s').map (later (hd ++ c).length) ∧ ∀ e ∈ L, e.2 = .interrupted ∧ hd.length ≤ e.1 ∧ e.1 < (hd ++ c).length) ∨
    ∃ L j k R s' w', (Ber.doParse m).run s w = (.err (.io k), s', w') ∧ failures s = L ++ (j, k) :: R ∧ j < (hd ++ c).length ∧
      (j < hd.length ∨ k ≠ .interrupted ∧ hd.length ≤ j) ∧ ∀ e ∈ L, e.2 = .interrupted ∧ hd.length ≤ e.1 ∧ e.1 < (hd ++ c).length := by
  have hi := isizeMax_eq
  have hu := usizeSize_eq
  have hrun := element_run he (c ++ bs') w
  rw [← List.append_assoc] at hrun
  simp only [Ber.doParse]
  rcases meets_parseIdLength.1 s _ w hs hd' _ _ _ hrun with ⟨n, s1, e1, e2, e3, e4⟩ | ⟨j, k, l, s', w'', e1, e2, e3⟩
  · have hn : n = hd.length := by simp only [List.length_append] at e1; omega
    subst hn
    rw [e2]
    by_cases h1 : δ = 1
    · rw [if_pos h1]
      have hc : c = [] := by
        rcases he with ⟨_, _, _, _, h4⟩ | ⟨_, _, _, h3, _⟩
        · rw [h1] at h4; split at h4 <;> cases h4
        · exact h3
      subst hc
      left
      refine ⟨[], s1, by simp [h1], e3.steady, by simpa using e4, by simpa using e3.failures, nofun⟩
    · rw [if_neg h1]
      simp only
      rw [List.length_append] at hmax
      rw [bufReserve, uadd_ok (by simp only [List.length_append]; omega)]
      simp only [Res.bind_ok, Res.pure_eq]
      rw [if_pos (by simp only [List.length_append]; omega)]
      simp only [Res.bind_ok]
      rw [if_pos (by omega), Nat.add_sub_cancel_left]
      simp only [readExact]
      have hsz : Reader.size s1 = Script.size s1 := rfl
      rcases readExactLoop_meets (Reader.size s1 + c.length + 1) c.length [] s1 e3.steady (by omega) (by rw [e4]; simp) with
        ⟨L, s2, i1, i2, i3, i4, i5⟩ | ⟨L, j, k, R, s2, i1, i2, i3, i4, i5⟩
      · left
        rw [i1]
        have ht : (scriptData s1).take c.length = c := by rw [e4]; simp
        rw [ht]
        simp only [List.nil_append]
        have hsl : sliceFrom (w ++ hd ++ c) w.length = .ok (hd ++ c) := by
          rw [sliceFrom, if_pos (by simp)]; simp
        rw [hsl]
        refine ⟨L.map (later hd.length), s2, ?_, i2, ?_, ?_, ?_⟩
        · have ee : BerRef.eoc = Spec.eoc := rfl
          rcases he with ⟨_, _, _, _, h4⟩ | ⟨_, _, _, _, h4⟩
          · simp only [ee, ← h4, List.append_assoc]
          · exact absurd h4 h1
        · rw [i3, e4]; simp
        · rw [e3.failures, i4, List.map_append, later_later, List.length_append, Nat.add_comm c.length]
        · intro e he
          obtain ⟨e', he', rfl⟩ := List.mem_map.mp he
          have := i5 e' he'
          exact ⟨this.1, by simp only [later]; omega, by simp only [later, List.length_append]; omega⟩
      · right
        rw [i1]
        refine ⟨L.map (later hd.length), j + hd.length, k, R.map (later hd.length), s2, _, rfl, ?_, ?_, .inr ⟨i3, by omega⟩, ?_⟩
        · rw [e3.failures, i2, List.map_append]; rfl
        · rw [List.length_append]; omega
        · intro e he
          obtain ⟨e', he', rfl⟩ := List.mem_map.mp he
          have := i5 e' he'
          exact ⟨this.1, by simp only [later]; omega, by simp only [later, List.length_append]; omega⟩
  · right
    rw [e3]
    simp only [List.length_append] at e2
    exact ⟨[], j, k, l, s', w'', rfl, e1, by rw [List.length_append]; omega, .inl (by omega), nofun⟩

/-- The failures `Ber::parse` does not survive. -/
def Fatal (d : Nat) (bs rest : Bytes) (e : Nat × IoKind) : Prop :=
  e.1 + rest.length < bs.length ∧ (e.2 ≠ .interrupted ∨ HeaderOctet d bs e.1)

theorem Runs.length_le {d : Nat} {bs rest : Bytes} (h : Runs d bs rest) : rest.length ≤ bs.length := by
  induction h with
  | stop d δ bs rest h1 _ => have := doParse_length h1; omega
  | step d d' δ bs bs' rest h1 _ _ _ ih => have := doParse_length h1; omega

theorem Runs.suffix {d : Nat} {bs rest : Bytes} (h : Runs d bs rest) : ∃ v, bs = v ++ rest := by
  induction h with
  | stop d δ bs rest h1 _ =>
    obtain ⟨hd, c, _, h⟩ := element_of_doParse h1
    exact ⟨_, h⟩
  | step d d' δ bs bs' rest h1 _ _ _ ih =>
    obtain ⟨hd, c, _, h⟩ := element_of_doParse h1
    obtain ⟨v, rfl⟩ := ih
    exact ⟨hd ++ c ++ v, by rw [h]; simp⟩

/-- Whether an octet belongs to a header does not depend on what follows the value. -/
theorem headerOctet_within {d : Nat} {bs rest : Bytes} (h : Runs d bs rest) : ∀ (v : Bytes) (j : Nat), bs = v ++ rest → j < v.length →
    HeaderOctet d bs j → HeaderOctet d v j := by
  induction h with
  | stop d δ bs rest h1 _ =>
    intro v j hv hj hh
    obtain ⟨hd, c, he, rfl⟩ := element_of_doParse h1
    have := List.append_cancel_right hv
    subst this
    rw [headerOctet_iff he] at hh
    rw [← List.append_nil (hd ++ c), headerOctet_iff he]
    rcases hh with hh | ⟨d1, i, _, _, h5, _⟩
    · exact .inl hh
    · omega
  | step d d' δ bs bs' rest h1 h2 h3 h4 ih =>
    intro v j hv hj hh
    obtain ⟨hd, c, he, rfl⟩ := element_of_doParse h1
    obtain ⟨v', rfl⟩ := h4.suffix
    rw [← List.append_assoc] at hv
    have := List.append_cancel_right hv
    subst this
    rw [headerOctet_iff he] at hh ⊢
    rcases hh with hh | ⟨d1, i, i1, i2, i3, i4⟩
    · exact .inl hh
    · obtain rfl : d1 = d' := by omega
      rw [List.length_append (as := hd ++ c)] at hj
      exact .inr ⟨d1, i, i1, i2, i3, ih v' i rfl (by omega) i4⟩

/-- The loop of `Ber::parse` with any failures. -/
theorem berParseLoop_meets {m : Build} {d : Nat} {bs rest : Bytes} (hr : Runs d bs rest) : ∀ (f : Nat) (s : Script) (w : Bytes), Steady s →
    scriptData s = bs → bs.length < f → w.length + bs.length ≤ isizeMax + rest.length → d + bs.length ≤ isizeMax + rest.length →
    ((∃ s' w', (Ber.parseLoop m f d).run s w = (.ok (), s', w')) ∧ ∀ e ∈ failures s, ¬ Fatal d bs rest e) ∨
    ∃ e s' w', (Ber.parseLoop m f d).run s w = (.err (.io e.2), s', w') ∧ First (Fatal d bs rest) (failures s) e := by
  have inner : ∀ {d : Nat} {hd c bs' rest : Bytes} {δ : Int} {e : Nat × IoKind}, Element hd c δ → e.2 = .interrupted → hd.length ≤ e.1 →
      e.1 < (hd ++ c).length → ¬ Fatal d (hd ++ c ++ bs') rest e := by
    intro d hd c bs' rest δ e he h1 h2 h3 h
    rcases h.2 with h4 | h4
    · exact h4 h1
    · rcases (headerOctet_iff he).mp h4 with h5 | ⟨d1, i, _, _, h5, _⟩ <;> omega
  have fatal : ∀ {d : Nat} {hd c bs' rest : Bytes} {δ : Int} {j : Nat} {k : IoKind}, Element hd c δ → j < (hd ++ c).length → rest.length ≤ bs'.length →
      (j < hd.length ∨ k ≠ .interrupted ∧ hd.length ≤ j) → Fatal d (hd ++ c ++ bs') rest (j, k) := by
    intro d hd c bs' rest δ j k he h1 h2 h3
    refine ⟨by rw [List.length_append]; simp only; omega, ?_⟩
    rcases h3 with h3 | h3
    · exact .inr ((headerOctet_iff he).mpr (.inl h3))
    · exact .inl h3.1
  induction hr with
  | stop d δ bs rest h1 h2 =>
    intro f s w hs hdata hf hmax hd0
    obtain ⟨f, rfl⟩ : ∃ g, f = g + 1 := ⟨f - 1, by omega⟩
    obtain ⟨hl1, hl2, hl3⟩ := doParse_length h1
    obtain ⟨hd, c, he, rfl⟩ := element_of_doParse h1
    simp only [Ber.parseLoop, P.bind_def]
    rcases berDoParse_meets (m := m) (w := w) hs he hdata (by rw [List.length_append (as := hd ++ c)] at hmax; omega) with
      ⟨L, s1, i1, i2, i3, i4, i5⟩ | ⟨L, j, k, R, s1, w1, i1, i2, i3, i4, i5⟩
    · left
      rw [i1]
      simp only [P.ite_apply, P.lift_apply, P.pure_apply]
      have hi := isizeMax_eq
      rw [if_neg (by omega), if_neg (by omega)]
      refine ⟨⟨_, _, rfl⟩, ?_⟩
      intro e hm
      rw [i4] at hm
      rcases List.mem_append.mp hm with hm | hm
      · obtain ⟨x1, x2, x3⟩ := i5 e hm
        exact inner he x1 x2 x3
      · obtain ⟨e', _, rfl⟩ := List.mem_map.mp hm
        intro h
        have := h.1
        simp only [later, List.length_append] at this
        omega
    · right
      rw [i1]
      refine ⟨(j, k), s1, w1, rfl, L, R, i2, fatal he i3 (Nat.le_refl _) i4, ?_⟩
      intro e hm
      obtain ⟨x1, x2, x3⟩ := i5 e hm
      exact inner he x1 x2 x3
  | step d d' δ bs bs' rest h1 h2 h3 h4 ih =>
    intro f s w hs hdata hf hmax hd0
    obtain ⟨f, rfl⟩ : ∃ g, f = g + 1 := ⟨f - 1, by omega⟩
    obtain ⟨hl1, hl2, hl3⟩ := doParse_length h1
    obtain ⟨hd, c, he, rfl⟩ := element_of_doParse h1
    have hrl := h4.length_le
    rw [List.length_append (as := hd ++ c)] at hmax hd0 hf hl1
    simp only [Ber.parseLoop, P.bind_def]
    have shift : ∀ e, Fatal d (hd ++ c ++ bs') rest (later (hd ++ c).length e) ↔ Fatal d' bs' rest e := by
      intro e
      simp only [Fatal, later, headerOctet_iff he]
      rw [List.length_append (as := hd ++ c)]
      constructor
      · rintro ⟨y1, y2⟩
        refine ⟨by omega, ?_⟩
        rcases y2 with y2 | y2 | ⟨d1, i, z1, z2, z3, z4⟩
        · exact .inl y2
        · rw [List.length_append] at y2; omega
        · obtain rfl : d1 = d' := by omega
          obtain rfl : e.1 = i := by omega
          exact .inr z4
      · rintro ⟨y1, y2⟩
        refine ⟨by omega, ?_⟩
        rcases y2 with y2 | y2
        · exact .inl y2
        · exact .inr (.inr ⟨d', e.1, h2, h3, by omega, y2⟩)
    rcases berDoParse_meets (m := m) (w := w) hs he hdata (by omega) with
      ⟨L, s1, i1, i2, i3, i4, i5⟩ | ⟨L, j, k, R, s1, w1, i1, i2, i3, i4, i5⟩
    · rw [i1]
      simp only [P.ite_apply, P.lift_apply, P.pure_apply]
      rw [if_neg (by omega), if_pos (by omega), h2]
      have hL : ∀ e ∈ L, ¬ Fatal d (hd ++ c ++ bs') rest e := by
        intro e hm
        obtain ⟨x1, x2, x3⟩ := i5 e hm
        exact inner he x1 x2 x3
      rcases ih f s1 (w ++ (hd ++ c)) i2 i3 (by omega) (by rw [List.length_append]; omega) (by omega) with
        ⟨j1, j2⟩ | ⟨e, s2, w2, j1, A, B, j2, j3, j4⟩
      · left
        refine ⟨j1, ?_⟩
        intro e hm
        rw [i4] at hm
        rcases List.mem_append.mp hm with hm | hm
        · exact hL e hm
        · obtain ⟨e', he', rfl⟩ := List.mem_map.mp hm
          rw [shift]
          exact j2 e' he'
      · right
        refine ⟨later (hd ++ c).length e, s2, w2, j1, L ++ A.map (later (hd ++ c).length), B.map (later (hd ++ c).length), ?_, (shift e).mpr j3, ?_⟩
        · rw [i4, j2]; simp
        · intro x hm
          rcases List.mem_append.mp hm with hm | hm
          · exact hL x hm
          · obtain ⟨e', he', rfl⟩ := List.mem_map.mp hm
            rw [shift]
            exact j4 e' he'
    · right
      rw [i1]
      refine ⟨(j, k), s1, w1, rfl, L, R, i2, fatal he i3 hrl i4, ?_⟩
      intro e hm
      obtain ⟨x1, x2, x3⟩ := i5 e hm
      exact inner he x1 x2 x3

end Bsn1
