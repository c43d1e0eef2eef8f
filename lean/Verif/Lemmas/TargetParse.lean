import Verif.Lemmas.Target
import Verif.Lemmas.RawParse
/-!
# Lemmas on other word sizes: the parsers
-/

set_option linter.unusedSimpArgs false
set_option linter.unusedVariables false

namespace Bsn1
open Spec

namespace Target
variable {t : Target}

/-! ### Slices -/

theorem plainLoop_slice (k len : Nat) (r w : Bytes) :
    (∃ n rest w', (plainLoop (σ := Bytes) k len).run r w = (.ok n, rest, w')) ∨
    ∃ rest w', (plainLoop (σ := Bytes) k len).run r w = (.err .unterminatedBytes, rest, w') := by
  induction k generalizing len r w with
  | zero => exact .inl ⟨_, _, _, rfl⟩
  | succ k ih =>
    cases r with
    | nil => exact .inr ⟨[], w, rfl⟩
    | cons b r =>
      simp only [plainLoop, P.bind_def, readU8_cons, writeU8_apply]
      exact ih _ _ _

/-- Reading a header from a slice of the target: as in the main model, or an overflow where the main model finds the octets cut off, in the header
or in the contents. -/
theorem header_slice (hw : 1 ≤ t.word) (hw' : t.word ≤ 8) (bs w : Bytes) (hb : bs.length ≤ t.isizeMax) :
    (t.parseIdLength (σ := Bytes)).run bs w = (Bsn1.parseIdLength (σ := Bytes)).run bs w ∨
    (∃ rest w', (t.parseIdLength (σ := Bytes)).run bs w = (.err .overFlow, rest, w')) ∧
      ((∃ rest w', (Bsn1.parseIdLength (σ := Bytes)).run bs w = (.err .unterminatedBytes, rest, w')) ∨
       ∃ n rest w', (Bsn1.parseIdLength (σ := Bytes)).run bs w = (.ok (.definite n), rest, w') ∧ rest.length < n) := by
  rcases parseIdLength_cases hw hw' bs w with ⟨h, _⟩ | ⟨h1, k, c, s', w1, h2, h3⟩
  · exact .inl h
  · right
    refine ⟨⟨_, _, Prod.ext h1 rfl⟩, ?_⟩
    have hs := parseIdLength_spec bs w
    rw [h2, P.bind_def] at hs ⊢
    rcases plainLoop_slice k c s' w1 with ⟨n, rest, w2, hp⟩ | ⟨rest, w2, hp⟩
    · right
      rw [hp] at hs ⊢
      refine ⟨n, rest, w2, rfl, ?_⟩
      have hn := (plainLoop_bounds _ _ hp).1
      have hi := (isizeMax_lt hw).1
      simp only [P.pure_apply] at hs
      have hlen : rest.length ≤ bs.length := by
        generalize hr : (Res.ok (Length.definite n), rest, w2) = r at hs
        cases hs with
        | definite id n rest' _ _ e => simp at hr; rw [e, hr.2.1]; simp; omega
        | indefinite id rest' _ e => simp at hr
        | error e p rest' w' e' => simp at hr
      omega
    · left
      rw [hp]
      exact ⟨_, _, rfl⟩

theorem derDoParse_cases (hw : 1 ≤ t.word) (hw' : t.word ≤ 8) (bs : Bytes) (hb : bs.length ≤ t.isizeMax) :
    t.derDoParse bs = DerRef.doParse bs ∨
    (t.derDoParse bs).1 = .err .overFlow ∧ (DerRef.doParse bs).1 = .err .unterminatedBytes := by
  simp only [derDoParse, DerRef.doParse]
  rcases header_slice hw hw' bs [] hb with h | ⟨⟨rest, w', h1⟩, ⟨rest2, w2, h2⟩ | ⟨n, rest2, w2, h2, h3⟩⟩
  · left; rw [h]; rfl
  · right; rw [h1, h2]; exact ⟨rfl, rfl⟩
  · right; rw [h1, h2]; refine ⟨rfl, ?_⟩; simp only; rw [if_pos h3]

theorem derRefParse_cases (hw : 1 ≤ t.word) (hw' : t.word ≤ 8) (bs : Bytes) (hb : bs.length ≤ t.isizeMax) :
    t.derRefParse bs = DerRef.parse bs ∨
    (t.derRefParse bs).1 = .err .overFlow ∧ (DerRef.parse bs).1 = .err .unterminatedBytes := by
  simp only [derRefParse, DerRef.parse]
  rcases derDoParse_cases hw hw' bs hb with h | ⟨h1, h2⟩
  · left; rw [h]; rfl
  · right
    rcases h3 : t.derDoParse bs with ⟨r, rest⟩
    rcases h4 : DerRef.doParse bs with ⟨r', rest'⟩
    rw [h3] at h1; rw [h4] at h2
    simp only at h1 h2
    subst h1 h2
    exact ⟨rfl, rfl⟩

theorem berDoParse_cases (hw : 1 ≤ t.word) (hw' : t.word ≤ 8) (bs : Bytes) (hb : bs.length ≤ t.isizeMax) :
    t.berDoParse bs = BerRef.doParse bs ∨
    (t.berDoParse bs).1 = .err .overFlow ∧ (BerRef.doParse bs).1 = .err .unterminatedBytes := by
  simp only [berDoParse, BerRef.doParse]
  by_cases he : BerRef.eoc.isPrefixOf bs
  · left; rw [if_pos he, if_pos he]; rfl
  rw [if_neg he, if_neg he]
  rcases header_slice hw hw' bs [] hb with h | ⟨⟨rest, w', h1⟩, ⟨rest2, w2, h2⟩ | ⟨n, rest2, w2, h2, h3⟩⟩
  · left; rw [h]; rfl
  · right; rw [h1, h2]; exact ⟨rfl, rfl⟩
  · right; rw [h1, h2]; refine ⟨rfl, ?_⟩; simp only; rw [if_pos h3]

theorem berParseLoop_cases (hw : 1 ≤ t.word) (hw' : t.word ≤ 8) : ∀ (f : Nat) (d : Int) (bs : Bytes), d + bs.length ≤ t.isizeMax → 0 ≤ d →
    t.berParseLoop f d bs = BerRef.parseLoop f d bs ∨
    (t.berParseLoop f d bs).1 = .err .overFlow ∧ (BerRef.parseLoop f d bs).1 = .err .unterminatedBytes := by
  intro f
  induction f with
  | zero => intro d bs _ _; exact .inl rfl
  | succ f ih =>
    intro d bs hd h0
    simp only [berParseLoop, BerRef.parseLoop]
    rcases berDoParse_cases hw hw' bs (by omega) with h | ⟨h1, h2⟩
    · rw [h]
      rcases hp : BerRef.doParse bs with ⟨r, rest⟩
      cases r with
      | ok δ =>
        obtain ⟨hl1, hl2, hl3⟩ := doParse_length hp
        have hm := isizeMax_le hw'
        simp only
        rw [if_neg (show ¬ ((t.isizeMax : Int) < d + δ) by omega), if_neg (show ¬ ((Bsn1.isizeMax : Int) < d + δ) by omega)]
        by_cases hpos : d + δ > 0
        · rw [if_pos hpos, if_pos hpos]
          exact ih _ _ (by omega) (by omega)
        · rw [if_neg hpos, if_neg hpos]; exact .inl rfl
      | err e => exact .inl rfl
      | panic => exact .inl rfl
      | ub => exact .inl rfl
    · right
      rcases h3 : t.berDoParse bs with ⟨r, rest⟩
      rcases h4 : BerRef.doParse bs with ⟨r', rest'⟩
      rw [h3] at h1; rw [h4] at h2
      simp only at h1 h2
      subst h1 h2
      exact ⟨rfl, rfl⟩

theorem berRefParse_cases (hw : 1 ≤ t.word) (hw' : t.word ≤ 8) (bs : Bytes) (hb : bs.length ≤ t.isizeMax) :
    t.berRefParse bs = BerRef.parse bs ∨
    (t.berRefParse bs).1 = .err .overFlow ∧ (BerRef.parse bs).1 = .err .unterminatedBytes := by
  simp only [berRefParse, BerRef.parse]
  rcases berParseLoop_cases hw hw' (bs.length + 1) 0 bs (by omega) (by omega) with h | ⟨h1, h2⟩
  · left; rw [h]; rfl
  · right
    rcases h3 : t.berParseLoop (bs.length + 1) 0 bs with ⟨r, rest⟩
    rcases h4 : BerRef.parseLoop (bs.length + 1) 0 bs with ⟨r', rest'⟩
    rw [h3] at h1; rw [h4] at h2
    simp only at h1 h2
    subst h1 h2
    exact ⟨rfl, rfl⟩

/-! ### Room for the contents -/

theorem uadd_ok {m : Build} {a b : Nat} (h : a + b < t.usizeSize) : t.uadd m a b = .ok (a + b) := if_pos h

theorem bufReserve_ok (hw : 1 ≤ t.word) {m : Build} {a b : Nat} (h : a + b ≤ t.isizeMax) : t.bufReserve m a b = .ok (a + b) := by
  have := (isizeMax_lt hw).1
  rw [bufReserve, uadd_ok (by omega), Res.bind_ok, if_pos h]; rfl

theorem uadd_over {m : Build} {a n : Nat} (h : t.usizeSize ≤ a + n) (hn : n < t.usizeSize) :
    t.uadd m a n = .panic ∨ ∃ k, t.uadd m a n = .ok k ∧ k < a := by
  cases m with
  | debug => exact .inl (by rw [uadd, if_neg (by omega)])
  | release =>
    refine .inr ⟨(a + n) % t.usizeSize, by rw [uadd, if_neg (by omega)], ?_⟩
    have h0 : (a + n) % t.usizeSize < t.usizeSize := Nat.mod_lt _ (by omega)
    rcases Nat.lt_or_ge a t.usizeSize with ha | ha
    · rw [Nat.mod_eq_sub_mod (by omega), Nat.mod_eq_of_lt (by omega)]
      omega
    · omega

theorem der_room {m : Build} {a n k : Nat} (hn : n < t.usizeSize) (e : (do
      let totalLength ← t.uadd m a n
      let _ ← t.bufReserve m a n
      if a ≤ totalLength then return totalLength - a else .panic : Res Nat) = .ok k) : a + n ≤ t.isizeMax ∧ k = n := by
  obtain ⟨u, e1, e⟩ := Res.bind_eq_ok.mp e
  obtain ⟨u', e2, e⟩ := Res.bind_eq_ok.mp e
  rcases Nat.lt_or_ge (a + n) t.usizeSize with h | h
  · rw [uadd_ok h] at e1
    simp only [Res.ok.injEq] at e1
    subst e1
    rw [if_pos (by omega)] at e
    simp at e
    refine ⟨?_, by omega⟩
    rw [bufReserve, uadd_ok h, Res.bind_ok] at e2
    by_contra hi
    rw [if_neg hi] at e2
    simp at e2
  · rcases uadd_over (m := m) h hn with h1 | ⟨t1, h1, h2⟩
    · rw [h1] at e1; simp at e1
    · rw [h1] at e1
      simp only [Res.ok.injEq] at e1
      subst e1
      rw [if_neg (by omega)] at e
      simp at e

theorem ber_room {m : Build} {a n k : Nat} (hn : n < t.usizeSize) (e : (do
      let _ ← t.bufReserve m a n
      let totalLength ← t.uadd m a n
      if a ≤ totalLength then return totalLength - a else .panic : Res Nat) = .ok k) : a + n ≤ t.isizeMax ∧ k = n := by
  obtain ⟨u', e2, e⟩ := Res.bind_eq_ok.mp e
  obtain ⟨u, e1, e⟩ := Res.bind_eq_ok.mp e
  exact der_room (m := m) hn (by rw [e1, Res.bind_ok, e2, Res.bind_ok]; exact e)

theorem der_room_ok (hw : 1 ≤ t.word) {m : Build} {a n : Nat} (h : a + n ≤ t.isizeMax) : (do
      let totalLength ← t.uadd m a n
      let _ ← t.bufReserve m a n
      if a ≤ totalLength then return totalLength - a else .panic : Res Nat) = .ok n := by
  have := (isizeMax_lt hw).1
  rw [uadd_ok (by omega), Res.bind_ok, bufReserve_ok hw h, Res.bind_ok, if_pos (by omega)]
  simp

theorem ber_room_ok (hw : 1 ≤ t.word) {m : Build} {a n : Nat} (h : a + n ≤ t.isizeMax) : (do
      let _ ← t.bufReserve m a n
      let totalLength ← t.uadd m a n
      if a ≤ totalLength then return totalLength - a else .panic : Res Nat) = .ok n := by
  have := (isizeMax_lt hw).1
  rw [bufReserve_ok hw h, Res.bind_ok, uadd_ok (by omega), Res.bind_ok, if_pos (by omega)]
  simp

theorem main_der_room_ok {m : Build} {a n : Nat} (h : a + n ≤ Bsn1.isizeMax) : (do
      let totalLength ← Bsn1.uadd m a n
      let _ ← Bsn1.bufReserve m a n
      if a ≤ totalLength then return totalLength - a else .panic : Res Nat) = .ok n := by
  have := Bsn1.isizeMax_lt
  rw [Bsn1.uadd_ok (by omega), Res.bind_ok, Bsn1.bufReserve_ok h, Res.bind_ok, if_pos (by omega)]
  simp

theorem main_ber_room_ok {m : Build} {a n : Nat} (h : a + n ≤ Bsn1.isizeMax) : (do
      let _ ← Bsn1.bufReserve m a n
      let totalLength ← Bsn1.uadd m a n
      if a ≤ totalLength then return totalLength - a else .panic : Res Nat) = .ok n := by
  have := Bsn1.isizeMax_lt
  rw [Bsn1.bufReserve_ok h, Res.bind_ok, Bsn1.uadd_ok (by omega), Res.bind_ok, if_pos (by omega)]
  simp

end Target
end Bsn1
