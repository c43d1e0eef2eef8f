import Verif.Lemmas.RawGrowthParse
import Verif.Lemmas.RawExact
/-!
# How often parsing calls the allocator, whatever the input
-/

namespace Bsn1.Raw
open Bsn1.Buf Bsn1.Spec

/-- If this call returns, then so. -/
def Upon {α : Type} (x : M α) (h : Heap) (Q : α → Heap → Prop) : Prop := ∀ a h', x h = .ok a h' → Q a h'

/-- One for an error. -/
def oneMore {ε α : Type} : Except ε α → Nat
  | .ok _ => 0
  | .error _ => 1

section upon
variable {α β : Type} {x : M α} {f : α → M β} {h : Heap} {Q Q' : α → Heap → Prop} {R : β → Heap → Prop}

theorem Upon.bind (hx : Upon x h Q) (hf : ∀ a h', Q a h' → Upon (f a) h' R) : Upon (x >>= f) h R := by
  intro b h' e
  have e' : (match x h with | .ok a h => f a h | .panic => .panic | .abort => .abort | .ub => .ub : Out β) = .ok b h' := e
  rcases hxh : x h with ⟨a, h1⟩ | _ | _ | _
  · rw [hxh] at e'
    exact hf a h1 (hx a h1 hxh) b h' e'
  all_goals rw [hxh] at e'; exact nomatch e'

theorem Upon.pure {a : α} (hq : Q a h) : Upon (Pure.pure a) h Q := by
  intro a' h' e
  have : Out.ok a h = .ok a' h' := e
  cases this
  exact hq

theorem Upon.never (hx : ∀ a h', x h ≠ .ok a h') : Upon x h Q := fun a h' e => absurd e (hx a h')

theorem Upon.panic : Upon (M.panic : M α) h Q := fun _ _ e => nomatch e
theorem Upon.ub : Upon (M.ub : M α) h Q := fun _ _ e => nomatch e

theorem Upon.same {a : α} (e : x h = .ok a h) (hf : Upon (f a) h R) : Upon (x >>= f) h R := by
  rw [Upon, bind_ok e]; exact hf

theorem Cost.upon {fp : Option Nat} {k : Nat} {P : α → Heap → Option Nat → Prop} (hc : Cost x h fp k P) :
    Upon x h (fun a h' => ∃ fp', P a h' fp' ∧ h'.clock = h.clock + k) := by
  intro a h' e
  rcases hc with e' | ⟨a', h1, fp', e', q, _⟩
  · rw [e] at e'; cases e'
  · rw [e] at e'; cases e'; exact ⟨fp', q⟩

end upon

theorem readExactLoop_size {σ : Type} [Reader σ] [LawfulReader σ] : ∀ (f n : Nat) (acc : Bytes) (s : σ),
    Reader.size (readExactLoop f n acc s).2 ≤ Reader.size s := by
  intro f
  induction f with
  | zero => intro n acc s; exact Nat.le_refl _
  | succ f ih =>
    intro n acc s
    rw [readExactLoop]
    by_cases hn : n = 0
    · rw [if_pos hn]
    · rw [if_neg hn]
      rcases he : Reader.read n s with ⟨o, s1⟩
      cases o with
      | fail k =>
        have hl := LawfulReader.read_fail n s s1 k he
        cases k <;> (have := ih n acc s1; simp only; omega)
      | data c =>
        have hl := LawfulReader.read_data n s s1 c he
        cases c with
        | nil => simp only; omega
        | cons x r => have := ih (n - (x :: r).length) (acc ++ x :: r) s1; simp only at this ⊢; omega

theorem readExact_size {σ : Type} [Reader σ] [LawfulReader σ] (n : Nat) (s : σ) : Reader.size (readExact n s).2 ≤ Reader.size s :=
  readExactLoop_size _ _ _ _

variable {I : Impl} {Rep : I.B → Heap → List Cell → Nat → Option Nat → Prop} {m : Build} {al : Allocator} {init : Nat} {h : Heap} {b : I.B}
variable {σ : Type} [Reader σ] [LawfulReader σ]

/-- The buffer has these octets and no more room than needed, and since the time `c` each octet beyond the room there was took one call. -/
def Kept (Rep : I.B → Heap → List Cell → Nat → Option Nat → Prop) (init c : Nat) (b : I.B) (h : Heap) (w : Bytes) : Prop :=
  ∃ fp, Room Rep b h w (max init w.length) fp ∧ h.clock + init ≤ c + max init w.length

theorem upon_writeAll (hx : Exact I Rep init) (hv : al.Valid) {c : Nat} {w w1 : Bytes} (hb : Kept Rep init c b h w)
    (hn : w.length + w1.length ≤ isizeMax) : Upon (writeAll I m al w1 b) h (fun b h => Kept Rep init c b h (w ++ w1)) := by
  obtain ⟨fp, hr, hk⟩ := hb
  intro b' h' e
  obtain ⟨fp', h1, h2⟩ := (cost_writeAll (m := m) hx hv w1 w b h fp _ hr hn).upon b' h' e
  rw [grown_ticks _ _ _ (by omega)] at h2
  have e1 : max (max init w.length) (w.length + w1.length) = max init (w ++ w1).length := by simp only [List.length_append]; omega
  rw [e1] at h1
  refine ⟨fp', h1, ?_⟩
  rw [List.length_append]
  omega

/-- A request for more than there can be does not return with room. -/
theorem upon_over (hx : Exact I Rep init) {w : Bytes} {fp : Option Nat} {cap : Nat} (hb : Room Rep b h w cap fp) {n : Nat} (hn : n < usizeSize)
    (ho : isizeMax < w.length + n) {β : Type} {Q : β → Heap → Prop} {f : I.B → M β}
    (hf : m = .release → usizeSize ≤ w.length + n → Upon (f b) h Q) : Upon (I.reserve m al b n >>= f) h Q := by
  obtain ⟨R, hr, _⟩ := hb
  have e := hx.inline.beyond m al hr n hn ho
  by_cases h2 : usizeSize ≤ w.length + n
  · rw [if_pos h2] at e
    cases m with
    | debug => rw [Upon, bind_panic (by rw [e]; rfl)]; exact fun _ _ e => nomatch e
    | release =>
      rw [if_neg (nomatch ·)] at e
      exact .same e (hf rfl h2)
  · rw [if_neg h2] at e
    split at e
    · rw [Upon, bind_panic e]; exact fun _ _ e => nomatch e
    · rw [Upon, bind_ub e]; exact fun _ _ e => nomatch e

theorem upon_Ber_doParse (hx : Exact I Rep init) (hv : al.Valid) {c : Nat} {w : Bytes} {s : σ} (hb : Kept Rep init c b h w)
    (hs : w.length + Reader.size s ≤ isizeMax) :
    Upon (Ber.doParse I m al honestReadExact b s) h (fun a h' => match a.1 with
      | .ok (_, b') => ∃ w', Kept Rep init c b' h' w' ∧ w'.length + Reader.size a.2 ≤ w.length + Reader.size s
      | .error _ => Reader.size a.2 ≤ Reader.size s ∧ h'.clock + init ≤ c + max init (w.length + (Reader.size s - Reader.size a.2)) + 1) := by
  have hc := hx.correct
  have hmax := isizeMax_lt
  have hu := usizeSize_eq
  obtain ⟨q, s1, w1, hq, hw⟩ := logs_parseIdLength s
  have hq0 := hq []
  rw [List.nil_append] at hq0
  have hsm := yields_parseIdLength (σ := σ) s []
  unfold Ber.doParse
  rw [hq0] at hsm ⊢
  have hlen0 : I.len b = w.length := by obtain ⟨fp, hr, _⟩ := hb; exact hr.has.len hc
  simp only [hlen0]
  refine .bind (upon_writeAll hx hv hb (by omega)) ?_
  intro b h hb
  match q with
  | .err e =>
    obtain ⟨fp, hr, hk⟩ := hb
    obtain ⟨R, hr, _⟩ := hr
    refine .bind (cost_drop hx hr).upon ?_
    rintro _ h' ⟨_, _, hk'⟩
    refine .pure ⟨by simp only; omega, ?_⟩
    simp only [List.length_append] at hk ⊢
    omega
  | .panic => exact .panic
  | .ub => exact .ub
  | .ok .indefinite => exact .pure ⟨w ++ w1, hb, by simp only [List.length_append]; omega⟩
  | .ok (.definite n) =>
    have hn : n < usizeSize := hsm _ _ _ rfl
    obtain ⟨fp, hr, hk⟩ := hb
    by_cases hi : (w ++ w1).length + n ≤ isizeMax
    · refine .bind (cost_room hx hv hr hi).upon ?_
      rintro b h' ⟨fp, hr, hk'⟩
      have hg : (grown (max init (w ++ w1).length) [(w ++ w1).length + n]) ≤ 1 := grown_le_length _ _
      have hg2 := grown_le_room (max init (w ++ w1).length) [(w ++ w1).length + n]
      simp only [roomAfter, List.foldl_cons, List.foldl_nil] at hg2
      generalize grown (max init (w ++ w1).length) [(w ++ w1).length + n] = g at hk' hg hg2
      obtain ⟨S, hr, hS⟩ := hr
      rw [hc.len hr]
      refine .same (usizeAdd_ok m (by omega) h') ?_
      refine .bind (cost_setLen hx hr (by simp only [List.length_append, List.length_map] at hS ⊢; omega)).upon ?_
      rintro b h2 ⟨fp, hr, hk2⟩
      rw [hc.len hr, if_neg (by omega), Nat.add_sub_cancel_left]
      simp only [honestReadExact]
      have hsz := readExact_size n s1
      rcases hre : readExact n s1 with ⟨o, s2⟩
      rw [hre] at hsz
      simp only at hsz
      have hpk : (w ++ w1).length + n ≤ ((w ++ w1).map some ++ S).length := by simp only [List.length_append, List.length_map] at hS ⊢; omega
      cases o with
      | err e =>
        simp only [List.take_nil]
        refine .bind (cost_poke hx hr (vals := []) (by simp only [List.length_nil]; omega)).upon ?_
        rintro b h3 ⟨fp, hr, hk3⟩
        refine .bind (cost_drop hx hr).upon ?_
        rintro _ h4 ⟨_, _, hk4⟩
        refine .pure ⟨by simp only; omega, ?_⟩
        simp only [List.length_append] at hk hk' ⊢
        omega
      | panic =>
        exact .bind (Q := fun _ _ => True) (fun _ _ _ => trivial) fun _ _ _ => .panic
      | ub =>
        exact .bind (Q := fun _ _ => True) (fun _ _ _ => trivial) fun _ _ _ => .ub
      | ok bs =>
        obtain ⟨hl, hl2⟩ := readExact_ok hre
        simp only []
        rw [List.take_of_length_le (by omega)]
        refine .bind (cost_poke hx hr (by omega)).upon ?_
        rintro b h3 ⟨fp, hr, hk3⟩
        have e := patch_append ((w ++ w1).map some) S (bs.map some)
        rw [List.length_map] at e
        rw [e] at hr
        have hb2 : Room Rep b h3 (w ++ (w1 ++ bs)) (max init (w ++ (w1 ++ bs)).length) fp :=
          Room.of_append (R := S.drop (bs.map some).length) hr (by simp) (by simp; omega)
            (by simp only [List.length_append, List.length_map, List.length_drop] at hS ⊢; omega)
        refine .same (isEoc_ok hc hb2.has) ?_
        refine .pure ⟨_, ⟨fp, hb2, ?_⟩, ?_⟩
        · simp only [List.length_append] at hk hk' hg2 ⊢
          omega
        · simp only [List.length_append]
          omega
    · refine upon_over hx hr hn (by omega) fun hm ho => ?_
      subst hm
      obtain ⟨t, ht, hlt⟩ := (usizeAdd_over ho hn h).2
      rw [hr.has.len hc]
      refine .same ht ?_
      obtain ⟨b', hb', hl'⟩ := setLen_short (m := .release) hc hr.has hlt
      refine .same hb' ?_
      rw [hl', if_pos (by omega)]
      exact .panic

theorem upon_Ber_parseLoop (hx : Exact I Rep init) (hv : al.Valid) {c : Nat} : ∀ (f : Nat) (d : Int) (b : I.B) (h : Heap) (w : Bytes) (s : σ),
    Kept Rep init c b h w → w.length + Reader.size s ≤ isizeMax →
    Upon (Ber.parseLoop I m al honestReadExact f d b s) h (fun a h' => Reader.size a.2 ≤ w.length + Reader.size s ∧
      h'.clock + init ≤ c + max init (w.length + Reader.size s - Reader.size a.2) + oneMore a.1)
  | 0, _, _, _, _, _, _, _ => .panic
  | f + 1, d, b, h, w, s, hb, hs => by
    unfold Ber.parseLoop
    refine .bind (upon_Ber_doParse hx hv hb hs) ?_
    rintro ⟨r, s1⟩ h1 hp
    cases r with
    | error e =>
      obtain ⟨h2, h3⟩ := hp
      refine .pure ⟨by simp only at h2 ⊢; omega, ?_⟩
      simp only [oneMore] at h2 h3 ⊢
      omega
    | ok r =>
      obtain ⟨δ, b1⟩ := r
      obtain ⟨w', hk, hle⟩ := hp
      simp only at hk hle ⊢
      split
      · exact .panic
      · split
        · intro a h' e
          obtain ⟨h2, h3⟩ := upon_Ber_parseLoop hx hv f _ b1 h1 w' s1 hk (by omega) a h' e
          exact ⟨by omega, by omega⟩
        · obtain ⟨fp, _, hk⟩ := hk
          refine .pure ⟨by simp only; omega, ?_⟩
          simp only
          omega

theorem kept_new (hx : Exact I Rep init) (h : Heap) : Kept Rep init h.clock I.new h [] :=
  ⟨none, by simpa using room_new hx h, by simp⟩

theorem upon_Ber_parse (hx : Exact I Rep init) (hv : al.Valid) (h : Heap) (s : σ) (hs : Reader.size s ≤ isizeMax) :
    Upon (Ber.parse I m al honestReadExact s) h (fun a h' =>
      h'.clock ≤ h.clock + (Reader.size s - Reader.size a.2 - init) + oneMore a.1) := by
  intro a h' e
  obtain ⟨h1, h2⟩ := upon_Ber_parseLoop hx hv _ 0 I.new h [] s (kept_new hx h) (by simpa using hs) a h' e
  simp only [List.length_nil, Nat.zero_add] at h1 h2
  omega

/-- `Der::parse`, whatever the reader does with the contents. -/
theorem upon_Der_parse (hx : Exact I Rep init) (hv : al.Valid) (h : Heap) (rd : Nat → σ → ReadEffect σ)
    (hrd : ∀ n s, Reader.size (rd n s).next ≤ Reader.size s) (s : σ) (hs : Reader.size s ≤ isizeMax) :
    Upon (Der.parse I m al rd s) h (fun a h' => h'.clock ≤ h.clock + (Reader.size s - Reader.size a.2 - init) + 1) := by
  have hc := hx.correct
  have hmax := isizeMax_lt
  have hu := usizeSize_eq
  obtain ⟨q, s1, w1, hq, hw⟩ := logs_parseIdLength s
  have hq0 := hq []
  rw [List.nil_append] at hq0
  have hsm := yields_parseIdLength (σ := σ) s []
  unfold Der.parse
  rw [hq0] at hsm ⊢
  simp only
  refine .bind (upon_writeAll hx hv (kept_new hx h) (by simp only [List.length_nil]; omega)) ?_
  intro b h1 hb
  rw [List.nil_append] at hb
  obtain ⟨fp, hr, hk⟩ := hb
  match q with
  | .err e =>
    obtain ⟨R, hr, _⟩ := hr
    refine .bind (cost_drop hx hr).upon ?_
    rintro _ h' ⟨_, _, hk'⟩
    exact .pure (by simp only; omega)
  | .panic => exact .panic
  | .ub => exact .ub
  | .ok .indefinite =>
    obtain ⟨R, hr, _⟩ := hr
    refine .bind (cost_drop hx hr).upon ?_
    rintro _ h' ⟨_, _, hk'⟩
    exact .pure (by simp only; omega)
  | .ok (.definite n) =>
    have hn : n < usizeSize := hsm _ _ _ rfl
    simp only [hr.has.len hc]
    by_cases hi : w1.length + n ≤ isizeMax
    · refine .same (usizeAdd_ok m (by omega) h1) ?_
      refine .bind (cost_room hx hv hr hi).upon ?_
      rintro b h' ⟨fp, hr, hk'⟩
      have hg : (grown (max init w1.length) [w1.length + n]) ≤ 1 := grown_le_length _ _
      generalize grown (max init w1.length) [w1.length + n] = g at hk' hg
      obtain ⟨S, hr, hS⟩ := hr
      refine .bind (cost_setLen hx hr (by simp only [List.length_append, List.length_map] at hS ⊢; omega)).upon ?_
      rintro b h2 ⟨fp, hr, hk2⟩
      rw [hc.len hr, if_neg (by omega), Nat.add_sub_cancel_left]
      have hsz := hrd n s1
      generalize rd n s1 = e at hsz
      refine .bind (cost_poke hx hr (by simp only [List.length_append, List.length_map, List.length_take] at hS ⊢; omega)).upon ?_
      rintro b h3 ⟨fp, hr, hk3⟩
      match e.result with
      | .ok read =>
        simp only
        split
        · refine .bind (cost_drop hx hr).upon ?_
          rintro _ h4 ⟨_, _, hk4⟩
          exact .pure (by simp only; omega)
        · exact .pure (by simp only; omega)
      | .err er =>
        refine .bind (cost_drop hx hr).upon ?_
        rintro _ h4 ⟨_, _, hk4⟩
        exact .pure (by simp only; omega)
      | .panic => exact .panic
      | .ub => exact .ub
    · by_cases ho : usizeSize ≤ w1.length + n
      · cases m with
        | debug => rw [Upon, bind_panic (usizeAdd_over ho hn h1).1]; exact fun _ _ e => nomatch e
        | release =>
          obtain ⟨t, ht, hlt⟩ := (usizeAdd_over ho hn h1).2
          refine .same ht (upon_over hx hr hn (by omega) fun _ _ => ?_)
          obtain ⟨b', hb', hl'⟩ := setLen_short (m := .release) hc hr.has hlt
          refine .same hb' ?_
          rw [hl', if_pos (by omega)]
          exact .panic
      · refine .same (usizeAdd_ok m (by omega) h1) (upon_over hx hr hn (by omega) fun _ h2 => absurd h2 ho)

end Bsn1.Raw
