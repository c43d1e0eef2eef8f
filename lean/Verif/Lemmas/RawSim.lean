import Verif.Lemmas.RawExact
import Verif.Lemmas.RawGrowthParse
/-!
# The parsers on storage do the same with every reader that delivers the same octets
-/

namespace Bsn1
open Buf Spec

namespace Raw

variable {σ : Type} {α : Type}

/-- The same outcome, the same value and the same memory; the readers are related. -/
inductive Alike (R : α → σ → Bytes → Prop) : Out (α × σ) → Out (α × Bytes) → Prop
  | ok (a : α) (s : σ) (bs : Bytes) (h : Heap) : R a s bs → Alike R (.ok (a, s) h) (.ok (a, bs) h)
  | panic : Alike R .panic .panic
  | abort : Alike R .abort .abort
  | ub : Alike R .ub .ub

theorem Alike.of_bind {β : Type} {R : α → σ → Bytes → Prop} {x : M β} {f : β → M (α × σ)} {g : β → M (α × Bytes)}
    (hfg : ∀ b h, Alike R (f b h) (g b h)) (h : Heap) : Alike R ((x >>= f) h) ((x >>= g) h) := by
  rcases e : x h with ⟨b, h'⟩ | _ | _ | _
  · rw [bind_ok e, bind_ok e]; exact hfg b h'
  · rw [bind_panic e, bind_panic e]; exact .panic
  · rw [bind_abort e, bind_abort e]; exact .abort
  · rw [bind_ub e, bind_ub e]; exact .ub

/-- Without the readers they are the same. -/
theorem Alike.fst {R : α → σ → Bytes → Prop} {x : M (α × σ)} {y : M (α × Bytes)} {h : Heap} (hxy : Alike R (x h) (y h)) :
    (Prod.fst <$> x) h = (Prod.fst <$> y) h := by
  show (x >>= fun a => pure a.1) h = (y >>= fun a => pure a.1) h
  generalize ex : x h = ox at hxy
  generalize ey : y h = oy at hxy
  cases hxy with
  | ok a s bs h => rw [bind_ok ex, bind_ok ey]
  | panic => rw [bind_panic ex, bind_panic ey]
  | abort => rw [bind_abort ex, bind_abort ey]
  | ub => rw [bind_ub ex, bind_ub ey]

variable [Reader σ] {R : σ → Bytes → Prop} {I : Impl} {m : Build} {al : Allocator}

/-- A step that does not fail shortens what the reader has. -/
theorem alike_doParse (hd : Delivers R) (b : I.B) {s : σ} {bs : Bytes} (hR : R s bs) (h : Heap) :
    Alike (fun a s' bs' => R s' bs' ∧ ∀ v, a = Except.ok v → bs'.length < bs.length)
      (Ber.doParse I m al honestReadExact b s h) (Ber.doParse I m al honestReadExact b bs h) := by
  have hh := sim_parseIdLength hd s bs [] hR
  have hspec := parseIdLength_spec bs []
  unfold Ber.doParse
  rcases hxe : (parseIdLength (σ := σ)).run s [] with ⟨r, s', w'⟩
  rcases hye : (parseIdLength (σ := Bytes)).run bs [] with ⟨r2, bs', w2⟩
  simp only [hxe, hye] at hh
  rw [hye] at hspec
  obtain ⟨rfl, rfl, hR'⟩ := hh
  simp only
  refine Alike.of_bind (fun b h => ?_) h
  match r with
  | .ok (.definite n) =>
    have hlt : bs'.length < bs.length := by
      cases hspec with
      | definite id _ rest hid hn e =>
        have := isId_length_pos hid
        rw [e]; simp; omega
    simp only
    refine Alike.of_bind (fun b h => ?_) h
    refine Alike.of_bind (fun t h => ?_) h
    refine Alike.of_bind (fun b h => ?_) h
    split
    · exact .panic
    · generalize I.len b - _ = k
      obtain ⟨s1, h1, h2⟩ := readExact_spec hd k hR'
      obtain ⟨s2, h3, rfl⟩ := readExact_slice k bs'
      by_cases hk : k ≤ bs'.length
      · rw [if_pos hk] at h1 h3
        simp only [honestReadExact, h1, h3]
        refine Alike.of_bind (fun b h => ?_) h
        refine Alike.of_bind (fun e h => ?_) h
        exact .ok _ _ _ _ ⟨h2, fun _ _ => by simp; omega⟩
      · rw [if_neg hk] at h1 h3
        simp only [honestReadExact, h1, h3]
        refine Alike.of_bind (fun b h => ?_) h
        refine Alike.of_bind (fun e h => ?_) h
        exact .ok _ _ _ _ ⟨h2, nofun⟩
  | .ok .indefinite =>
    have hlt : bs'.length < bs.length := by
      cases hspec with
      | indefinite id rest hid e =>
        have := isId_length_pos hid
        rw [e]; simp; omega
    exact .ok _ _ _ _ ⟨hR', fun _ _ => hlt⟩
  | .err e =>
    refine Alike.of_bind (fun e h => ?_) h
    exact .ok _ _ _ _ ⟨hR', nofun⟩
  | .panic => exact .panic
  | .ub => exact .ub

theorem alike_parseLoop (hd : Delivers R) : ∀ (f g : Nat) (d : Int) (b : I.B) (s : σ) (bs : Bytes) (h : Heap), R s bs → bs.length < f → bs.length < g →
    Alike (fun _ => R) (Ber.parseLoop I m al honestReadExact f d b s h) (Ber.parseLoop I m al honestReadExact g d b bs h) := by
  intro f
  induction f with
  | zero => intro g d b s bs h _ hf; omega
  | succ f ih =>
    intro g d b s bs h hR hf hg
    match g with
    | 0 => omega
    | g + 1 =>
      have hdo := alike_doParse (m := m) (al := al) hd b hR h
      unfold Ber.parseLoop
      generalize ex : Ber.doParse I m al honestReadExact b s h = ox at hdo
      generalize ey : Ber.doParse I m al honestReadExact b bs h = oy at hdo
      cases hdo with
      | ok a s' bs' h' hr =>
        rw [bind_ok ex, bind_ok ey]
        match a with
        | .error e => exact .ok _ _ _ _ hr.1
        | .ok (δ, b') =>
          have := hr.2 _ rfl
          simp only
          by_cases h1 : (isizeMax : Int) < d + δ
          · rw [if_pos h1, if_pos h1]; exact .panic
          · rw [if_neg h1, if_neg h1]
            by_cases h2 : d + δ > 0
            · rw [if_pos h2, if_pos h2]
              exact ih g (d + δ) b' s' bs' h' hr.1 (by omega) (by omega)
            · rw [if_neg h2, if_neg h2]; exact .ok _ _ _ _ hr.1
      | panic => rw [bind_panic ex, bind_panic ey]; exact .panic
      | abort => rw [bind_abort ex, bind_abort ey]; exact .abort
      | ub => rw [bind_ub ex, bind_ub ey]; exact .ub

/-- `Ber::parse`: all readers that deliver these octets are like the slice. -/
theorem alike_Ber_parse (hd : Delivers R) {s : σ} {bs : Bytes} (hR : R s bs) (h : Heap) :
    Alike (fun _ => R) (Ber.parse I m al honestReadExact s h) (Ber.parse I m al honestReadExact bs h) := by
  have hsz := hd.size_le s bs hR
  unfold Ber.parse
  exact alike_parseLoop hd _ _ 0 I.new s bs h hR (by omega) (by rw [size_bytes]; omega)

/-- `Id::parse`, likewise. -/
theorem alike_Id_parse (hd : Delivers R) {s : σ} {bs : Bytes} (hR : R s bs) (h : Heap) :
    Alike (fun _ => R) (Id.parse I m al s h) (Id.parse I m al bs h) := by
  have hh := sim_parseId hd s bs [] hR
  unfold Id.parse
  rcases hxe : (parseId (σ := σ)).run s [] with ⟨r, s', w'⟩
  rcases hye : (parseId (σ := Bytes)).run bs [] with ⟨r2, bs', w2⟩
  simp only [hxe, hye] at hh
  obtain ⟨rfl, rfl, hR'⟩ := hh
  simp only
  refine Alike.of_bind (fun b h => ?_) h
  match r with
  | .ok _ => exact .ok _ _ _ _ hR'
  | .err e =>
    refine Alike.of_bind (fun e h => ?_) h
    exact .ok _ _ _ _ hR'
  | .panic => exact .panic
  | .ub => exact .ub

/-- A `read` of the slice that gives a piece of `k` octets. -/
def pieceRead (k : Nat → Nat) (n : Nat) (bs : Bytes) : ReadEffect Bytes := ⟨bs.take (k n), .ok (bs.take (k n)).length, bs.drop (k n)⟩

/-- `Der::parse`: all readers that deliver these octets are like the slice, except that the one `read` of the contents gives a piece of which the
length is up to the reader. -/
theorem alike_Der_parse (hd : Delivers R) {s : σ} {bs : Bytes} (hR : R s bs) :
    ∃ k : Nat → Nat, (∀ n, k n ≤ n) ∧ (∀ id n q, IsId id → n < 2 ^ 64 → bs = id ++ lenOctets n ++ q →
        ∃ s1, ((parseIdLength (σ := σ)).run s []).2.1 = s1 ∧ ∃ s2, Reader.read n s1 = (.data (q.take (k n)), s2)) ∧
      ∀ al (h : Heap), Alike (fun _ => R) (Der.parse I m al honestRead s h) (Der.parse I m al (pieceRead k) bs h) := by
  have hh := sim_parseIdLength hd s bs [] hR
  rcases hxe : (parseIdLength (σ := σ)).run s [] with ⟨r, s', w'⟩
  rcases hye : (parseIdLength (σ := Bytes)).run bs [] with ⟨r2, bs', w2⟩
  simp only [hxe, hye] at hh
  obtain ⟨rfl, rfl, hR'⟩ := hh
  have hread : ∀ n, ∃ k s'', Reader.read n s' = (.data (bs'.take k), s'') ∧ R s'' (bs'.drop k) ∧ k ≤ n := by
    intro n
    rcases Nat.eq_zero_or_pos n with rfl | hn
    · obtain ⟨s'', h1, h2⟩ := hd.read_zero s' bs' hR'
      exact ⟨0, s'', by simpa using h1, by simpa using h2, Nat.le_refl _⟩
    · obtain ⟨k, s'', h1, h2, h3, _⟩ := hd.read_pos n s' bs' hn hR'
      exact ⟨k, s'', h1, h2, h3⟩
  choose k s2 hk using hread
  refine ⟨k, fun n => (hk n).2.2, ?_, fun al h => ?_⟩
  · rintro id n q hid hn rfl
    rw [parseIdLength_definite hid hn] at hye
    cases hye
    exact ⟨s', rfl, s2 n, (hk n).1⟩
  unfold Der.parse
  rw [hxe, hye]
  simp only
  refine Alike.of_bind (fun b h => ?_) h
  match r with
  | .ok .indefinite =>
    refine Alike.of_bind (fun b h => ?_) h
    exact .ok _ _ _ _ hR'
  | .ok (.definite n) =>
    simp only
    refine Alike.of_bind (fun t h => ?_) h
    refine Alike.of_bind (fun b h => ?_) h
    refine Alike.of_bind (fun b h => ?_) h
    split
    · exact .panic
    · generalize I.len b - _ = j
      simp only [honestRead, (hk j).1, pieceRead]
      refine Alike.of_bind (fun b h => ?_) h
      split
      · refine Alike.of_bind (fun b h => ?_) h
        exact .ok _ _ _ _ (hk j).2.1
      · exact .ok _ _ _ _ (hk j).2.1
  | .err e =>
    refine Alike.of_bind (fun e h => ?_) h
    exact .ok _ _ _ _ hR'
  | .panic => exact .panic
  | .ub => exact .ub

end Raw

end Bsn1
