import Verif.Lemmas.RawDer
import Verif.Lemmas.Monad
/-!
# `Der::parse`, `Ber::parse` and `Id::parse` on real storage
-/

set_option linter.unusedSimpArgs false
set_option linter.unusedVariables false

namespace Bsn1.Raw
open Bsn1.Buf Bsn1.Spec

/-! ### What is written was read -/

/-- `x` only appends to the log, whatever was there, at most `c` octets more than it reads. -/
def Logs {σ α : Type} [Reader σ] (c : Nat) (x : P σ α) : Prop :=
  ∀ s, ∃ r s' w1, (∀ w, x.run s w = (r, s', w ++ w1)) ∧ w1.length + Reader.size s' ≤ Reader.size s + c

namespace Logs
variable {σ α β : Type} [Reader σ] {c c' : Nat}

theorem pure (a : α) : Logs (σ := σ) c (Pure.pure a) := fun s => ⟨.ok a, s, [], fun w => by rw [List.append_nil]; rfl, by simp⟩
theorem throw (e : Error) : Logs (σ := σ) (α := α) c (P.throw e) := fun s => ⟨.err e, s, [], fun w => by rw [List.append_nil]; rfl, by simp⟩
theorem lift (r : Res α) : Logs (σ := σ) c (P.lift r) := fun s => ⟨r, s, [], fun w => by rw [List.append_nil]; rfl, by simp⟩
theorem ite {p : Prop} [Decidable p] {x y : P σ α} (hx : Logs c x) (hy : Logs c y) : Logs c (if p then x else y) := by
  split
  · exact hx
  · exact hy

theorem bind {x : P σ α} {f : α → P σ β} (hx : Logs c x) (hf : ∀ a, Logs c' (f a)) : Logs (c + c') (x >>= f) := by
  intro s
  obtain ⟨r, s', w1, h1, h2⟩ := hx s
  cases r with
  | ok a =>
    obtain ⟨r, s'', w2, h3, h4⟩ := hf a s'
    exact ⟨r, s'', w1 ++ w2, fun w => by rw [P.bind_def, h1]; simp only [h3, List.append_assoc], by simp; omega⟩
  | err e => exact ⟨.err e, s', w1, fun w => by rw [P.bind_def, h1], by omega⟩
  | panic => exact ⟨.panic, s', w1, fun w => by rw [P.bind_def, h1], by omega⟩
  | ub => exact ⟨.ub, s', w1, fun w => by rw [P.bind_def, h1], by omega⟩

theorem write {b : UInt8} {f : Unit → P σ α} (hf : Logs c (f ())) : Logs (c + 1) (writeU8 b >>= f) := by
  intro s
  obtain ⟨r, s', w1, h1, h2⟩ := hf s
  exact ⟨r, s', b :: w1, fun w => by rw [P.bind_def]; simp [writeU8, h1], by simp; omega⟩

theorem read [LawfulReader σ] {f : UInt8 → P σ α} (hf : ∀ b, Logs (c + 1) (f b)) : Logs c (readU8 >>= f) := by
  intro s
  rcases he : Reader.read 1 s with ⟨o, s1⟩
  cases o with
  | fail k =>
    have := LawfulReader.read_fail 1 s s1 k he
    exact ⟨.err (.io k), s1, [], fun w => by rw [P.bind_def]; simp [readU8, he], by simp; omega⟩
  | data bs =>
    have hl := LawfulReader.read_data 1 s s1 bs he
    match bs with
    | [] => exact ⟨.err .unterminatedBytes, s1, [], fun w => by rw [P.bind_def]; simp [readU8, he], by simp at hl ⊢; omega⟩
    | [b] =>
      obtain ⟨r, s', w1, h1, h2⟩ := hf b s1
      exact ⟨r, s', w1, fun w => by rw [P.bind_def]; simp [readU8, he, h1], by simp at hl; omega⟩
    | _ :: _ :: _ => simp at hl

end Logs

theorem logs_parseIdLoop {σ : Type} [Reader σ] [LawfulReader σ] : ∀ (f : Nat) (o : UInt8) (i : Nat), Logs 1 (parseIdLoop (σ := σ) f o i)
  | 0, o, i => .lift _
  | f + 1, o, i => .write (.ite (.pure _) (.read fun b => logs_parseIdLoop f b (i + 1)))

theorem logs_parseId {σ : Type} [Reader σ] [LawfulReader σ] : Logs 0 (parseId (σ := σ)) := by
  refine .read fun first => .write (.ite (.pure _) (.read fun o => .ite (.throw _) (.ite (.throw _) ?_)))
  exact fun s => logs_parseIdLoop (Reader.size s + 1) o 2 s

theorem logs_parseLengthLoop {σ : Type} [Reader σ] [LawfulReader σ] : ∀ (k n : Nat), Logs 0 (parseLengthLoop (σ := σ) k n)
  | 0, n => .pure _
  | k + 1, n => .read fun b => .write (logs_parseLengthLoop k _)

theorem logs_parseLength {σ : Type} [Reader σ] [LawfulReader σ] : Logs 0 (parseLength (σ := σ)) := by
  refine .read fun first => .write (.ite (.pure _) (.ite (.pure _) (.read fun second => .ite (.throw _) (.write ?_))))
  exact .ite (.throw _) (.ite (.throw _) (.bind (c := 0) (c' := 0) (logs_parseLengthLoop _ _) fun _ => .pure _))

theorem logs_parseIdLength {σ : Type} [Reader σ] [LawfulReader σ] : Logs 0 (parseIdLength (σ := σ)) :=
  .bind (c := 0) (c' := 0) logs_parseId fun _ => logs_parseLength

theorem readExactLoop_ok {σ : Type} [Reader σ] [LawfulReader σ] : ∀ (f n : Nat) (acc : Bytes) (s s' : σ) (bs : Bytes),
    readExactLoop f n acc s = (.ok bs, s') → bs.length = acc.length + n ∧ bs.length + Reader.size s' ≤ acc.length + Reader.size s := by
  intro f
  induction f with
  | zero => intro n acc s s' bs h; simp [readExactLoop] at h
  | succ f ih =>
    intro n acc s s' bs h
    rw [readExactLoop] at h
    by_cases hn : n = 0
    · rw [if_pos hn] at h
      simp only [Prod.mk.injEq, Res.ok.injEq] at h
      obtain ⟨rfl, rfl⟩ := h
      omega
    · rw [if_neg hn] at h
      rcases he : Reader.read n s with ⟨o, s1⟩
      rw [he] at h
      cases o with
      | fail k =>
        have := LawfulReader.read_fail n s s1 k he
        cases k <;> first | (have := ih _ _ _ _ _ h; omega) | simp at h
      | data c =>
        have hl := LawfulReader.read_data n s s1 c he
        cases c with
        | nil => simp at h
        | cons x r =>
          have := ih _ _ _ _ _ h
          simp only [List.length_append] at this
          omega

theorem readExact_ok {σ : Type} [Reader σ] [LawfulReader σ] {n : Nat} {s s' : σ} {bs : Bytes} (h : readExact n s = (.ok bs, s')) :
    bs.length = n ∧ bs.length + Reader.size s' ≤ Reader.size s := by
  simpa using readExactLoop_ok _ _ _ _ _ _ h

/-! ### The functions -/

variable {I : Impl} {Rep : I.B → Heap → List Cell → Nat → Option Nat → Prop} {m : Build} {al : Allocator}
variable {b : I.B} {h : Heap} {fp : Option Nat} {l : Nat}

theorem has_new (hc : Correct I Rep) (h : Heap) : Has Rep I.new h [] none := by
  obtain ⟨s, hr, _⟩ := hc.new h
  exact ⟨s, by simpa using hr⟩

theorem Has.len (hc : Correct I Rep) {w : Bytes} (hb : Has Rep b h w fp) : I.len b = w.length := by
  obtain ⟨R, hr⟩ := hb
  exact hc.len hr

theorem Has.cells (hc : Correct I Rep) {w : Bytes} (hb : Has Rep b h w fp) : I.cells b h = .ok (w.map some) h := by
  obtain ⟨R, hr⟩ := hb
  rw [hc.cells hr, take_of_append (by simp)]

theorem Has.drop (hc : Correct I Rep) {w : Bytes} (hb : Has Rep b h w fp) : Step (I.drop b) h fp (fun _ _ fp' => fp' = none) := by
  obtain ⟨R, hr⟩ := hb
  exact step_drop hc hr

theorem step_writeAll (hc : Correct I Rep) (hv : al.Valid) : ∀ (w w0 : Bytes) (b : I.B) (h : Heap) (fp : Option Nat),
    Has Rep b h w0 fp → w0.length + w.length ≤ isizeMax →
    Step (writeAll I m al w b) h fp (fun b h fp => Has Rep b h (w0 ++ w) fp)
  | [], w0, b, h, fp, hb, _ => .pure (by simpa using hb)
  | o :: r, w0, b, h, fp, hb, hl => by
    obtain ⟨R, hr⟩ := hb
    simp only [List.length_cons] at hl
    unfold writeAll
    refine .bind (Q := fun b h fp => Has Rep b h (w0 ++ [o]) fp) ?_ ?_
    · unfold Impl.write
      refine .bind (step_reserve hc hv hr (by simp; omega)) ?_
      rintro b h fp ⟨s, hr, hs1, hs2, hs3⟩
      rw [take_of_append (by simp)] at hs3
      obtain ⟨S, rfl⟩ : ∃ S, s = w0.map some ++ S := ⟨s.drop w0.length, by rw [← hs3, List.take_append_drop]⟩
      refine (step_extend hc hr hs1).mono ?_
      intro b h fp hr
      have e := patch_append (w0.map some) S ([o].map some)
      rw [List.length_map] at e
      rw [e] at hr
      exact Has.of_append (R := _) hr (by rw [List.map_append]) (by simp)
    · intro b h fp hb
      have := step_writeAll hc hv r (w0 ++ [o]) b h fp hb (by simp; omega)
      simpa using this

/-- What a parser on storage ends with, given what the parser on lists ends with. -/
def Parsed (Rep : I.B → Heap → List Cell → Nat → Option Nat → Prop) {σ : Type} (r : Res Bytes) (s' : σ) (a : Except Error I.B × σ)
    (h : Heap) (fp : Option Nat) : Prop :=
  a.2 = s' ∧ match r with
    | .ok v => ∃ b, a.1 = .ok b ∧ Has Rep b h v fp
    | .err e => a.1 = .error e ∧ fp = none
    | _ => True

section
variable {σ : Type} [Reader σ] [LawfulReader σ]

theorem step_fail (hc : Correct I Rep) {w : Bytes} (hb : Has Rep b h w fp) (e : Error) (s : σ) :
    Step (do I.drop b; return (.error e, s)) h fp (Parsed Rep (.err e) s) :=
  .bind (hb.drop hc) fun _ h fp hn => .pure ⟨rfl, rfl, hn⟩

theorem step_Id_parse (hc : Correct I Rep) (hv : al.Valid) {s s' : σ} (hs : Reader.size s ≤ isizeMax) {r : Res Bytes}
    (hp : Bsn1.Id.parse s = (r, s')) (h1 : r ≠ .panic) (h2 : r ≠ .ub) :
    Step (Id.parse I m al s) h none (Parsed Rep r s') := by
  obtain ⟨q, s1, w, hq, hw⟩ := logs_parseId s
  have hq := hq []
  rw [List.nil_append] at hq
  unfold Id.parse
  rw [Bsn1.Id.parse, hq] at hp
  rw [hq]
  simp only []
  refine .bind (step_writeAll hc hv w [] I.new h none (has_new hc h) (by simp; omega)) ?_
  intro b h fp hb
  rw [List.nil_append] at hb
  cases q with
  | ok n =>
    obtain ⟨rfl, rfl⟩ : _ = r ∧ _ = s' := by simpa using hp
    exact .pure ⟨rfl, b, rfl, hb⟩
  | err e =>
    obtain ⟨rfl, rfl⟩ : _ = r ∧ _ = s' := by simpa using hp
    exact step_fail hc hb e _
  | panic =>
    obtain ⟨rfl, rfl⟩ : _ = r ∧ _ = s' := by simpa using hp
    exact absurd rfl h1
  | ub =>
    obtain ⟨rfl, rfl⟩ : _ = r ∧ _ = s' := by simpa using hp
    exact absurd rfl h2

/-- Reserving room for the contents and reading them into it. -/
theorem step_room (hc : Correct I Rep) (hv : al.Valid) {w : Bytes} {n : Nat} (hb : Has Rep b h w fp) (hn : w.length + n ≤ isizeMax)
    {β : Type} {f : I.B → M β} {Q : β → Heap → Option Nat → Prop}
    (hf : ∀ b h fp R, Rep b h (w.map some ++ R) (w.length + n) fp → n ≤ R.length → Step (f b) h fp Q) :
    Step (do
      let b ← I.reserve m al b n
      let b ← I.setLenChecked m b (w.length + n)
      f b) h fp Q := by
  obtain ⟨R, hr⟩ := hb
  refine .bind (step_reserve hc hv hr hn) ?_
  rintro b h fp ⟨s, hr, hs1, hs2, hs3⟩
  rw [take_of_append (by simp)] at hs3
  obtain ⟨S, rfl⟩ : ∃ S, s = w.map some ++ S := ⟨s.drop w.length, by rw [← hs3, List.take_append_drop]⟩
  refine .bind (step_setLen hc hr hs1) ?_
  intro b h fp hr
  exact hf b h fp S hr (by simp only [List.length_append, List.length_map] at hs1; omega)

theorem step_poke_contents (hc : Correct I Rep) {w bs : Bytes} {R : List Cell} {n : Nat} (hr : Rep b h (w.map some ++ R) (w.length + n) fp)
    (hbs : bs.length ≤ n) (hn : n ≤ R.length) :
    Step (I.poke b w.length bs) h fp (fun b h fp =>
      Rep b h (w.map some ++ bs.map some ++ R.drop bs.length) (w.length + n) fp) := by
  refine (step_poke hc hr (by simp; omega)).mono ?_
  intro b h fp hr
  have e := patch_append (w.map some) R (bs.map some)
  rw [List.length_map] at e
  rw [e, List.length_map] at hr
  exact hr

omit [LawfulReader σ] in
theorem uadd_over {m : Build} {a n : Nat} (h : usizeSize ≤ a + n) (hn : n < usizeSize) :
    uadd m a n = .panic ∨ ∃ t, uadd m a n = .ok t ∧ t < a := by
  cases m with
  | debug => exact .inl (by rw [uadd, if_neg (by omega)])
  | release =>
    refine .inr ⟨(a + n) % usizeSize, by rw [uadd, if_neg (by omega)], ?_⟩
    have h0 : (a + n) % usizeSize < usizeSize := Nat.mod_lt _ (by omega)
    rcases Nat.lt_or_ge a usizeSize with ha | ha
    · rw [Nat.mod_eq_sub_mod (by omega), Nat.mod_eq_of_lt (by omega)]
      omega
    · omega

theorem bufReserve_bound {m : Build} {a n k : Nat} (h : a + n < usizeSize) (e : bufReserve m a n = .ok k) : a + n ≤ isizeMax := by
  rw [bufReserve, uadd_ok h, Res.bind_ok] at e
  by_contra hi
  rw [if_neg hi] at e
  simp at e

theorem der_room {m : Build} {a n k : Nat} (hn : n < usizeSize) (e : (do
      let totalLength ← uadd m a n
      let _ ← bufReserve m a n
      if a ≤ totalLength then return totalLength - a else .panic : Res Nat) = .ok k) : a + n ≤ isizeMax ∧ k = n := by
  obtain ⟨t, e1, e⟩ := Res.bind_eq_ok.mp e
  obtain ⟨t', e2, e⟩ := Res.bind_eq_ok.mp e
  rcases Nat.lt_or_ge (a + n) usizeSize with h | h
  · rw [uadd_ok h] at e1
    simp only [Res.ok.injEq] at e1
    subst e1
    rw [if_pos (by omega)] at e
    simp at e
    exact ⟨bufReserve_bound h e2, by omega⟩
  · rcases uadd_over (m := m) h hn with h1 | ⟨t1, h1, h2⟩
    · rw [h1] at e1; simp at e1
    · rw [h1] at e1
      simp only [Res.ok.injEq] at e1
      subst e1
      rw [if_neg (by omega)] at e
      simp at e

theorem ber_room {m : Build} {a n k : Nat} (hn : n < usizeSize) (e : (do
      let _ ← bufReserve m a n
      let totalLength ← uadd m a n
      if a ≤ totalLength then return totalLength - a else .panic : Res Nat) = .ok k) : a + n ≤ isizeMax ∧ k = n := by
  obtain ⟨t', e2, e⟩ := Res.bind_eq_ok.mp e
  obtain ⟨t, e1, e⟩ := Res.bind_eq_ok.mp e
  exact der_room (m := m) hn (by rw [e1, Res.bind_ok, e2, Res.bind_ok]; exact e)

theorem uadd_ne_err {m : Build} {a n : Nat} {e : Error} : uadd m a n ≠ .err e := by
  unfold uadd
  split
  · simp
  · cases m <;> simp

theorem bufReserve_ne_err {m : Build} {a n : Nat} {e : Error} : bufReserve m a n ≠ .err e := by
  unfold bufReserve
  rcases h : uadd m a n with k | e' | _ | _
  · rw [Res.bind_ok]
    split <;> simp
  · exact absurd h uadd_ne_err
  · simp
  · simp

theorem der_room_ne_err {m : Build} {a n : Nat} {e : Error} : (do
      let totalLength ← uadd m a n
      let _ ← bufReserve m a n
      if a ≤ totalLength then return totalLength - a else .panic : Res Nat) ≠ .err e := by
  rcases h : uadd m a n with k | e' | _ | _
  · rw [Res.bind_ok]
    rcases h' : bufReserve m a n with k | e' | _ | _
    · rw [Res.bind_ok]
      split <;> simp
    · exact absurd h' bufReserve_ne_err
    · simp
    · simp
  · exact absurd h uadd_ne_err
  · simp
  · simp

theorem ber_room_ne_err {m : Build} {a n : Nat} {e : Error} : (do
      let _ ← bufReserve m a n
      let totalLength ← uadd m a n
      if a ≤ totalLength then return totalLength - a else .panic : Res Nat) ≠ .err e := by
  rcases h' : bufReserve m a n with k | e' | _ | _
  · rw [Res.bind_ok]
    rcases h : uadd m a n with k | e' | _ | _
    · rw [Res.bind_ok]
      split <;> simp
    · exact absurd h uadd_ne_err
    · simp
    · simp
  · exact absurd h' bufReserve_ne_err
  · simp
  · simp

/-! Lengths are less than `2 ^ 64`. -/

/-- Whatever `x` returns is as told. -/
def Yields {α : Type} (p : α → Prop) (x : P σ α) : Prop := ∀ s w a s' w', x.run s w = (.ok a, s', w') → p a

omit [LawfulReader σ] in
theorem Yields.bind {α β : Type} {p : β → Prop} {x : P σ α} {q : α → Prop} {f : α → P σ β} (hx : Yields q x) (hf : ∀ a, q a → Yields p (f a)) :
    Yields p (x >>= f) := by
  intro s w a s' w' h
  rw [P.bind_def] at h
  rcases he : x.run s w with ⟨r, s1, w1⟩
  rw [he] at h
  cases r with
  | ok c => exact hf c (hx _ _ _ _ _ he) _ _ _ _ _ h
  | err e => simp at h
  | panic => simp at h
  | ub => simp at h

omit [LawfulReader σ] in
theorem Yields.any {α : Type} (x : P σ α) : Yields (fun _ => True) x := fun _ _ _ _ _ _ => trivial

omit [LawfulReader σ] in
theorem Yields.pure {α : Type} {p : α → Prop} {a : α} (h : p a) : Yields (σ := σ) p (Pure.pure a) := by
  intro s w a' s' w' e
  have : (Res.ok a, s, w) = (Res.ok a', s', w') := e
  simp at this
  exact this.1 ▸ h

omit [LawfulReader σ] in
theorem Yields.throw {α : Type} {p : α → Prop} (e : Error) : Yields (σ := σ) p (P.throw e) := by
  intro s w a' s' w' he
  have : ((Res.err e : Res α), s, w) = (Res.ok a', s', w') := he
  simp at this

omit [LawfulReader σ] in
theorem Yields.ite {α : Type} {p : α → Prop} {c : Prop} [Decidable c] {x y : P σ α} (hx : Yields p x) (hy : Yields p y) :
    Yields p (if c then x else y) := by
  split
  · exact hx
  · exact hy

/-- A definite length is less than `2 ^ 64`. -/
def Small : Length → Prop
  | .definite n => n < usizeSize
  | .indefinite => True

omit [LawfulReader σ] in
theorem yields_parseLengthLoop : ∀ (k n : Nat), n < usizeSize → Yields (σ := σ) (· < usizeSize) (parseLengthLoop k n)
  | 0, n, h => .pure h
  | k + 1, n, h => .bind (.any _) fun b _ => .bind (.any _) fun _ _ => yields_parseLengthLoop k _ (by
      have h1 := b.toNat_lt
      have hu : usizeSize = 256 * 2 ^ 56 := by decide
      rw [hu, Nat.mul_comm n 256, Nat.mul_mod_mul_left]
      have := Nat.mod_lt n (show 0 < 2 ^ 56 by decide)
      omega)

omit [LawfulReader σ] in
theorem yields_parseIdLength : Yields (σ := σ) Small parseIdLength := by
  have hu : (256 : Nat) < usizeSize := by decide
  refine .bind (.any _) fun _ _ => .bind (.any _) fun first _ => .bind (.any _) fun _ _ => .ite (.pure trivial) (.ite (.pure ?_) ?_)
  · have := first.toNat_lt
    show _ < _
    omega
  refine .bind (.any _) fun second _ => .ite (.throw _) (.bind (.any _) fun _ _ => .ite (.throw _) (.ite (.throw _) ?_))
  refine .bind (yields_parseLengthLoop _ _ ?_) fun n hn => .pure hn
  have := second.toNat_lt
  omega

/-! ### The parsers -/

/-- `Der::parse`. -/
theorem step_Der_parse (hc : Correct I Rep) (hv : al.Valid) {s s' : σ} (hs : Reader.size s ≤ isizeMax) {r : Res Bytes}
    (hp : Bsn1.Der.parse m s = (r, s')) (h1 : r ≠ .panic) (h2 : r ≠ .ub) :
    Step (Der.parse I m al honestRead s) h none (Parsed Rep r s') := by
  obtain ⟨q, s1, w, hq, hw⟩ := logs_parseIdLength s
  have hq := hq []
  rw [List.nil_append] at hq
  have hsm := yields_parseIdLength (σ := σ) s []
  unfold Der.parse
  rw [Bsn1.Der.parse, hq] at hp
  rw [hq] at hsm ⊢
  simp only []
  have hmax := isizeMax_lt
  refine .bind (step_writeAll hc hv w [] I.new h none (has_new hc h) (by simp; omega)) ?_
  intro b h fp hb
  rw [List.nil_append] at hb
  match q with
  | .err e =>
    obtain ⟨rfl, rfl⟩ : _ = r ∧ _ = s' := by simpa using hp
    exact step_fail hc hb e _
  | .panic =>
    obtain ⟨rfl, rfl⟩ : _ = r ∧ _ = s' := by simpa using hp
    exact absurd rfl h1
  | .ub =>
    obtain ⟨rfl, rfl⟩ : _ = r ∧ _ = s' := by simpa using hp
    exact absurd rfl h2
  | .ok .indefinite =>
    obtain ⟨rfl, rfl⟩ : _ = r ∧ _ = s' := by simpa using hp
    exact step_fail hc hb _ _
  | .ok (.definite n) =>
    have hn : n < usizeSize := hsm _ _ _ rfl
    simp only at hp
    rcases he : (do
      let totalLength ← uadd m w.length n
      let _ ← bufReserve m w.length n
      if w.length ≤ totalLength then return totalLength - w.length else .panic : Res Nat) with k | e | _ | _
    · rw [he] at hp
      obtain ⟨hi, rfl⟩ := der_room hn he
      simp only [hb.len hc]
      refine .same (usizeAdd_ok m (by omega) h) ?_
      refine step_room hc hv hb hi ?_
      intro b h fp R hr hR
      rw [hc.len hr, if_neg (by omega), Nat.add_sub_cancel_left]
      simp only [honestRead]
      rcases hre : Reader.read k s1 with ⟨o, s2⟩
      simp only [hre] at hp
      cases o with
      | fail kk =>
        obtain ⟨rfl, rfl⟩ : _ = r ∧ _ = s' := by simpa using hp
        simp only []
        refine .bind (step_poke_contents hc hr (by simp) hR) ?_
        intro b h fp hr
        exact .bind (step_drop hc hr) fun _ h fp hn => .pure ⟨rfl, rfl, hn⟩
      | data bs =>
        have hl := (LawfulReader.read_data k s1 s2 bs hre).1
        simp only [] at hp ⊢
        rw [List.take_of_length_le hl]
        refine .bind (step_poke_contents hc hr hl hR) ?_
        intro b h fp hr
        refine .ite (fun hlt => ?_) (fun hge => ?_)
        · rw [if_pos hlt] at hp
          obtain ⟨rfl, rfl⟩ : _ = r ∧ _ = s' := by simpa using hp
          exact .bind (step_drop hc hr) fun _ h fp hn => .pure ⟨rfl, rfl, hn⟩
        · rw [if_neg hge] at hp
          obtain ⟨rfl, rfl⟩ : _ = r ∧ _ = s' := by simpa using hp
          refine .pure ⟨rfl, b, rfl, ?_⟩
          exact Has.of_append (R := _) hr (by rw [List.map_append]) (by simp; omega)
    · exact absurd he der_room_ne_err
    · rw [he] at hp
      obtain ⟨rfl, rfl⟩ : _ = r ∧ _ = s' := by simpa using hp
      exact absurd rfl h1
    · rw [he] at hp
      obtain ⟨rfl, rfl⟩ : _ = r ∧ _ = s' := by simpa using hp
      exact absurd rfl h2

/-- What one step of `Ber::parse` on storage ends with. -/
def Stepped (Rep : I.B → Heap → List Cell → Nat → Option Nat → Prop) (r : Res Int) (s' : σ) (w' : Bytes)
    (a : Except Error (Int × I.B) × σ) (h : Heap) (fp : Option Nat) : Prop :=
  a.2 = s' ∧ match r with
    | .ok d => w'.length + Reader.size s' ≤ isizeMax ∧ ∃ b, a.1 = .ok (d, b) ∧ Has Rep b h w' fp
    | .err e => a.1 = .error e ∧ fp = none
    | _ => True

theorem isEoc_ok (hc : Correct I Rep) {w bs : Bytes} (hb : Has Rep b h (w ++ bs) fp) :
    Ber.isEoc I b w.length h = .ok (decide (bs = BerRef.eoc)) h := by
  rw [Ber.isEoc, bind_ok (hb.cells hc), if_neg (by simp)]
  have e : ((w ++ bs).map some).drop w.length = bs.map some := by
    rw [List.map_append, drop_of_append (by simp)]
  simp only [e, List.length_map]
  split
  · rw [bind_ok (assumeInit_ok bs h), pure_run]
  · rename_i hne
    have : bs ≠ BerRef.eoc := fun hh => hne (by rw [hh])
    rw [pure_run]
    simp [this]

theorem step_Ber_doParse (hc : Correct I Rep) (hv : al.Valid) {s s' : σ} {w w' : Bytes} (hs : w.length + Reader.size s ≤ isizeMax)
    (hb : Has Rep b h w fp) {r : Res Int} (hp : (Bsn1.Ber.doParse m).run s w = (r, s', w')) (h1 : r ≠ .panic) (h2 : r ≠ .ub) :
    Step (Ber.doParse I m al honestReadExact b s) h fp (Stepped Rep r s' w') := by
  obtain ⟨q, s1, w1, hq, hw⟩ := logs_parseIdLength s
  have hq0 := hq []
  have hqw := hq w
  rw [List.nil_append] at hq0
  have hsm := yields_parseIdLength (σ := σ) s []
  unfold Ber.doParse
  rw [Bsn1.Ber.doParse] at hp
  simp only [hqw] at hp
  rw [hq0] at hsm ⊢
  simp only [hb.len hc]
  have hmax := isizeMax_lt
  refine .bind (step_writeAll hc hv w1 w b h fp hb (by omega)) ?_
  intro b h fp hb
  match q with
  | .err e =>
    obtain ⟨rfl, rfl, rfl⟩ : _ = r ∧ _ = s' ∧ _ = w' := by simpa using hp
    exact .bind (hb.drop hc) fun _ h fp hn => .pure ⟨rfl, rfl, hn⟩
  | .panic =>
    obtain ⟨rfl, rfl, rfl⟩ : _ = r ∧ _ = s' ∧ _ = w' := by simpa using hp
    exact absurd rfl h1
  | .ub =>
    obtain ⟨rfl, rfl, rfl⟩ : _ = r ∧ _ = s' ∧ _ = w' := by simpa using hp
    exact absurd rfl h2
  | .ok .indefinite =>
    obtain ⟨rfl, rfl, rfl⟩ : _ = r ∧ _ = s' ∧ _ = w' := by simpa using hp
    exact .pure ⟨rfl, by simp; omega, b, rfl, hb⟩
  | .ok (.definite n) =>
    have hn : n < usizeSize := hsm _ _ _ rfl
    simp only at hp
    rcases he : (do
      let _ ← bufReserve m (w ++ w1).length n
      let total ← uadd m (w ++ w1).length n
      if (w ++ w1).length ≤ total then return total - (w ++ w1).length else .panic : Res Nat) with k | e | _ | _
    · rw [he] at hp
      obtain ⟨hi, rfl⟩ := ber_room hn he
      simp only at hp
      obtain ⟨R, hr⟩ := hb
      refine .bind (step_reserve hc hv hr hi) ?_
      rintro b h fp ⟨s, hr, hs1, hs2, hs3⟩
      rw [take_of_append (by simp)] at hs3
      obtain ⟨S, rfl⟩ : ∃ S, s = (w ++ w1).map some ++ S := ⟨s.drop (w ++ w1).length, by rw [← hs3, List.take_append_drop]⟩
      rw [hc.len hr]
      refine .same (usizeAdd_ok m (by omega) h) ?_
      refine .bind (step_setLen hc hr hs1) ?_
      intro b h fp hr
      have hR : k ≤ S.length := by simp only [List.length_append, List.length_map] at hs1; omega
      rw [hc.len hr, if_neg (by omega), Nat.add_sub_cancel_left]
      simp only [honestReadExact]
      rcases hre : readExact k s1 with ⟨o, s2⟩
      simp only [hre] at hp
      cases o with
      | err e =>
        obtain ⟨rfl, rfl, rfl⟩ : _ = r ∧ _ = s' ∧ _ = w' := by simpa using hp
        simp only []
        refine .bind (step_poke_contents hc hr (by simp) hR) ?_
        intro b h fp hr
        exact .bind (step_drop hc hr) fun _ h fp hn => .pure ⟨rfl, rfl, hn⟩
      | panic =>
        obtain ⟨rfl, rfl, rfl⟩ : _ = r ∧ _ = s' ∧ _ = w' := by simpa using hp
        exact absurd rfl h1
      | ub =>
        obtain ⟨rfl, rfl, rfl⟩ : _ = r ∧ _ = s' ∧ _ = w' := by simpa using hp
        exact absurd rfl h2
      | ok bs =>
        obtain ⟨hl, hl2⟩ := readExact_ok hre
        have hsl : sliceFrom (w ++ w1 ++ bs) w.length = .ok (w1 ++ bs) := by
          rw [sliceFrom, if_pos (by simp)]; simp
        simp only [hsl] at hp
        obtain ⟨rfl, rfl, rfl⟩ : _ = r ∧ _ = s' ∧ _ = w' := by simpa using hp
        simp only []
        rw [List.take_of_length_le (by omega)]
        refine .bind (step_poke_contents hc hr (by omega) hR) ?_
        intro b h fp hr
        have hb : Has Rep b h (w ++ (w1 ++ bs)) fp :=
          Has.of_append (R := S.drop bs.length) hr (by simp) (by simp; omega)
        refine .same (isEoc_ok hc hb) ?_
        refine .pure ⟨rfl, ?_, b, ?_, ?_⟩
        · simp only [List.length_append] at hi ⊢; omega
        · by_cases hh : w1 ++ bs = BerRef.eoc <;> simp [hh]
        · simpa using hb
    · exact absurd he ber_room_ne_err
    · rw [he] at hp
      obtain ⟨rfl, rfl, rfl⟩ : _ = r ∧ _ = s' ∧ _ = w' := by simpa using hp
      exact absurd rfl h1
    · rw [he] at hp
      obtain ⟨rfl, rfl, rfl⟩ : _ = r ∧ _ = s' ∧ _ = w' := by simpa using hp
      exact absurd rfl h2

/-- What the loop on lists leaves. -/
def logged (r : Res Unit) (w : Bytes) : Res Bytes := r.bind fun _ => .ok w

theorem step_Ber_parseLoop (hc : Correct I Rep) (hv : al.Valid) : ∀ (f : Nat) (d : Int) (b : I.B) (h : Heap) (fp : Option Nat) (s s' : σ)
    (w w' : Bytes) (r : Res Unit), w.length + Reader.size s ≤ isizeMax → Has Rep b h w fp →
    (Bsn1.Ber.parseLoop m f d).run s w = (r, s', w') → r ≠ .panic → r ≠ .ub →
    Step (Ber.parseLoop I m al honestReadExact f d b s) h fp (Parsed Rep (logged r w') s') := by
  intro f
  induction f with
  | zero =>
    intro d b h fp s s' w w' r _ _ hp h1
    have : ((Res.panic : Res Unit), s, w) = (r, s', w') := hp
    simp only [Prod.mk.injEq] at this
    exact absurd this.1.symm h1
  | succ f ih =>
    intro d b h fp s s' w w' r hs hb hp h1 h2
    rw [Bsn1.Ber.parseLoop, P.bind_def] at hp
    unfold Ber.parseLoop
    rcases hd : (Bsn1.Ber.doParse m).run s w with ⟨q, s1, w1⟩
    rw [hd] at hp
    have hst : q ≠ .panic → q ≠ .ub → _ := step_Ber_doParse (h := h) hc hv hs hb hd
    match q with
    | .err e =>
      obtain ⟨rfl, rfl, rfl⟩ : _ = r ∧ _ = s' ∧ _ = w' := by simpa using hp
      refine .bind (hst (by simp) (by simp)) ?_
      rintro ⟨a, s2⟩ h fp ⟨rfl, ha⟩
      simp only [] at ha
      obtain ⟨rfl, hn⟩ := ha
      exact .pure ⟨rfl, rfl, hn⟩
    | .panic =>
      obtain ⟨rfl, rfl, rfl⟩ : _ = r ∧ _ = s' ∧ _ = w' := by simpa using hp
      exact absurd rfl h1
    | .ub =>
      obtain ⟨rfl, rfl, rfl⟩ : _ = r ∧ _ = s' ∧ _ = w' := by simpa using hp
      exact absurd rfl h2
    | .ok d' =>
      refine .bind (hst (by simp) (by simp)) ?_
      rintro ⟨a, s2⟩ h fp ⟨rfl, hsz, b, ha, hb⟩
      simp only at ha
      subst ha
      simp only at hp ⊢
      by_cases hm : (isizeMax : Int) < d + d'
      · rw [if_pos hm] at hp
        have : ((Res.panic : Res Unit), s2, w1) = (r, s', w') := hp
        simp only [Prod.mk.injEq] at this
        exact absurd this.1.symm h1
      · rw [if_neg hm] at hp ⊢
        by_cases hp0 : d + d' > 0
        · rw [if_pos hp0] at hp ⊢
          exact ih _ b h fp s2 s' w1 w' r hsz hb hp h1 h2
        · rw [if_neg hp0] at hp ⊢
          have : ((Res.ok () : Res Unit), s2, w1) = (r, s', w') := hp
          simp only [Prod.mk.injEq] at this
          obtain ⟨rfl, rfl, rfl⟩ := this
          exact .pure ⟨rfl, b, rfl, hb⟩

/-- `Ber::parse`. -/
theorem step_Ber_parse (hc : Correct I Rep) (hv : al.Valid) {s s' : σ} (hs : Reader.size s ≤ isizeMax) {r : Res Bytes}
    (hp : Bsn1.Ber.parse m s = (r, s')) (h1 : r ≠ .panic) (h2 : r ≠ .ub) :
    Step (Ber.parse I m al honestReadExact s) h none (Parsed Rep r s') := by
  rcases he : (Bsn1.Ber.parseLoop m (Reader.size s + 1) 0).run s [] with ⟨q, s1, w⟩
  rw [Bsn1.Ber.parse, he] at hp
  have hr : r = logged q w ∧ s' = s1 := by
    cases q <;> simp at hp <;> obtain ⟨rfl, rfl⟩ := hp <;> exact ⟨rfl, rfl⟩
  obtain ⟨rfl, rfl⟩ := hr
  unfold Ber.parse
  refine step_Ber_parseLoop hc hv _ _ _ _ _ _ _ _ _ _ (by simpa using hs) (has_new hc h) he ?_ ?_
  · rintro rfl; exact h1 rfl
  · rintro rfl; exact h2 rfl

end

end Bsn1.Raw
