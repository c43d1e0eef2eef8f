import Verif.Lemmas.RawParse
/-!
# What the unsafe code asks the allocator for
-/

set_option linter.unusedSimpArgs false
set_option linter.unusedVariables false

namespace Bsn1.Raw
open Bsn1.Buf Bsn1.Spec

/-- The two allocators answer alike for sizes up to `k`. -/
def Agree (k : Nat) (al al' : Allocator) : Prop := ∀ clock bl size, size ≤ k → al clock bl size = al' clock bl size

theorem alloc_agree {k n : Nat} {al al' : Allocator} (ha : Agree k al al') (hn : n ≤ k) : alloc al n = alloc al' n := by
  funext h
  simp only [alloc, ha _ _ _ hn]

theorem realloc_agree {k p s n : Nat} {al al' : Allocator} (ha : Agree k al al') (hn : n ≤ k) : realloc al p s n = realloc al' p s n := by
  funext h
  simp only [realloc, ha _ _ _ hn]

theorem bind_congr' {α β : Type} {x : M α} {f g : α → M β} {h : Heap} (e : ∀ a h', x h = .ok a h' → f a h' = g a h') :
    (x >>= f) h = (x >>= g) h := by
  show (match x h with | .ok a h => f a h | .panic => .panic | .abort => .abort | .ub => .ub) =
    (match x h with | .ok a h => g a h | .panic => .panic | .abort => .abort | .ub => .ub)
  cases hx : x h with
  | ok a h' => exact e a h' hx
  | panic => rfl
  | abort => rfl
  | ub => rfl

/-- The result of an addition is at most the sum. -/
theorem usizeAdd_le {m : Build} {a b c : Nat} {h h' : Heap} (e : usizeAdd m a b h = .ok c h') : c ≤ a + b := by
  unfold usizeAdd at e
  split at e
  · cases e; exact Nat.le_refl _
  · cases m with
    | debug => cases e
    | release => cases e; exact Nat.mod_le _ _

/-- A layout whose `reserve` asks for no more than is needed, and only if there is too little room. -/
structure Frugal (I : Impl) (Rep : I.B → Heap → List Cell → Nat → Option Nat → Prop) : Prop where
  reserve : ∀ m {al al' : Allocator} {k : Nat} b n h, Agree k al al' → I.len b + n ≤ k → I.reserve m al b n h = I.reserve m al' b n h
  withCapacity : ∀ m {al al' : Allocator} {k : Nat} n h, Agree k al al' → n ≤ k → I.withCapacity m al n h = I.withCapacity m al' n h
  enough : ∀ m (al : Allocator) {b h s l fp} n, Rep b h s l fp → l + n ≤ s.length → I.reserve m al b n h = .ok b h
  refused : ∀ m (al : Allocator) {b h s l fp} n, Rep b h s l fp → s.length < l + n → l + n ≤ isizeMax →
    (∀ clock bl, al clock bl (l + n) = none) → I.reserve m al b n h = .abort
  init : ∀ h, ∃ s, Rep I.new h s 0 none ∧ 16 ≤ s.length ∧ s.length ≤ 23

theorem le_reserve_agree (m : Build) {al al' : Allocator} {k : Nat} (b : LE) (n : Nat) (h : Heap) (ha : Agree k al al') (hn : b.len + n ≤ k) :
    b.reserve m al n h = b.reserve m al' n h := by
  unfold LE.reserve
  refine bind_congr' fun c h' e => ?_
  have hc : c ≤ k := by have := usizeAdd_le e; omega
  rw [alloc_agree ha hc, realloc_agree ha hc]

theorem ue_heapNew_agree (m : Build) {al al' : Allocator} {k c : Nat} (ha : Agree k al al') (hc : c ≤ k) :
    UE.heapNew m al c = UE.heapNew m al' c := by
  unfold UE.heapNew
  rw [alloc_agree ha hc]

theorem ue_reserve_agree (m : Build) {al al' : Allocator} {k : Nat} (b : UE) (n : Nat) (h : Heap) (ha : Agree k al al') (hn : b.len + n ≤ k) :
    b.reserve m al n h = b.reserve m al' n h := by
  unfold UE.reserve
  refine bind_congr' fun c h' e => ?_
  have hc : c ≤ k := by have := usizeAdd_le e; omega
  have h2 : ∀ x, UE.heapRealloc al x c = UE.heapRealloc al' x c := fun x => by
    unfold UE.heapRealloc
    rw [realloc_agree ha hc]
  rw [ue_heapNew_agree m ha hc]
  simp only [h2]

theorem alloc_refused {al : Allocator} {n : Nat} (h0 : 0 < n) (hn : n ≤ isizeMax) (hr : ∀ clock bl, al clock bl n = none) (h : Heap) :
    ∃ h', alloc al n h = .ok 0 h' := by
  refine ⟨⟨h.blocks, h.clock + 1⟩, ?_⟩
  rw [alloc, if_neg (by omega), hr]

theorem realloc_refused {al : Allocator} {p n : Nat} {s : List Cell} (h0 : 0 < n) (hn : n ≤ isizeMax)
    (hr : ∀ clock bl, al clock bl n = none) (h : Heap) (hp : h.blocks p = some s) :
    ∃ h', realloc al p s.length n h = .ok 0 h' := by
  refine ⟨⟨h.blocks, h.clock + 1⟩, ?_⟩
  simp only [realloc, hp]
  rw [if_pos ⟨trivial, by omega, hn⟩, hr]

theorem le_enough (m : Build) (al : Allocator) {b : LE} {h : Heap} {s : List Cell} {l : Nat} {fp : Option Nat} (n : Nat)
    (hr : LE.Rep b h s l fp) (hn : l + n ≤ s.length) : b.reserve m al n h = .ok b h := by
  have hb := (LE.correct.bound hr).2
  have hu : isizeMax < usizeSize := by decide
  rw [LE.reserve, LE.rep_len hr, bind_ok (usizeAdd_ok m (by omega) h), LE.rep_capacity hr, if_pos hn]
  rfl

theorem le_refused (m : Build) (al : Allocator) {b : LE} {h : Heap} {s : List Cell} {l : Nat} {fp : Option Nat} (n : Nat)
    (hr : LE.Rep b h s l fp) (hs : s.length < l + n) (hn : l + n ≤ isizeMax) (hal : ∀ clock bl, al clock bl (l + n) = none) :
    b.reserve m al n h = .abort := by
  have hu : isizeMax < usizeSize := by decide
  rw [LE.reserve, LE.rep_len hr, bind_ok (usizeAdd_ok m (by omega) h), LE.rep_capacity hr, if_neg (by omega)]
  obtain ⟨v, hi, hh⟩ := hr
  cases hh with
  | @inline data len _ h1 h2 =>
    obtain ⟨h', e⟩ := alloc_refused (by omega) hn hal h
    rw [LE.InlineAt.isStack hi, if_pos rfl, bind_ok (layoutArray_ok hn h), bind_ok e, if_pos rfl]
    rfl
  | @heap p len _ cells h1 h2 h3 h4 h5 h6 =>
    obtain ⟨h', e⟩ := realloc_refused (by omega) hn hal h h3
    rw [LE.HeapAt.isStack hi, if_neg (by decide), bind_ok (layoutArray_ok h5 h), LE.HeapAt.data_ hi, bind_ok e, if_pos rfl,
      bind_ok (layoutArray_ok hn h')]
    rfl

theorem ue_enough (m : Build) (al : Allocator) {b : UE} {h : Heap} {s : List Cell} {l : Nat} {fp : Option Nat} (n : Nat)
    (hr : UE.Rep b h s l fp) (hn : l + n ≤ s.length) : b.reserve m al n h = .ok b h := by
  have hb := (UE.correct.bound hr).2
  have hu : isizeMax < usizeSize := by decide
  rw [UE.reserve, UE.rep_len hr, bind_ok (usizeAdd_ok m (by omega) h), bind_ok (UE.rep_capacity hr), if_pos hn]
  rfl

theorem ue_refused (m : Build) (al : Allocator) {b : UE} {h : Heap} {s : List Cell} {l : Nat} {fp : Option Nat} (n : Nat)
    (hr : UE.Rep b h s l fp) (hs : s.length < l + n) (hn : l + n ≤ isizeMax) (hal : ∀ clock bl, al clock bl (l + n) = none) :
    b.reserve m al n h = .abort := by
  have hu : isizeMax < usizeSize := by decide
  rw [UE.reserve, UE.rep_len hr, bind_ok (usizeAdd_ok m (by omega) h), bind_ok (UE.rep_capacity hr), if_neg (by omega)]
  obtain ⟨v, hi, hh⟩ := hr
  cases hh with
  | @inline data len _ h1 h2 =>
    obtain ⟨h', e⟩ := alloc_refused (by omega) hn hal h
    rw [hi.1, UE.inline_isStack hi.2, if_pos rfl]
    apply bind_abort
    rw [UE.heapNew, bind_ok (debugAssert_ok m (by omega) h), bind_ok (layoutArray_ok hn h), bind_ok e, if_pos rfl]
    rfl
  | @heap p len _ cells h1 h2 h3 h4 h5 h6 =>
    obtain ⟨h', e⟩ := realloc_refused (by omega) hn hal h h3
    rw [hi.1, UE.heap_isStack hi.2, if_neg (by decide), bind_ok (UE.heapField_run _ p s.length h)]
    apply bind_abort
    rw [UE.heapRealloc, bind_ok (layoutArray_ok h5 h), bind_ok e, if_pos rfl, bind_ok (layoutArray_ok hn h')]
    rfl

theorem le_frugal : Frugal little LE.Rep where
  reserve m _ _ _ b n h ha hn := le_reserve_agree m b n h ha hn
  withCapacity m _ _ _ n h ha hn := le_reserve_agree m LE.new n h ha (by
    have := LE.rep_len (LE.rep_new h)
    omega)
  enough m al _ _ _ _ _ n := le_enough m al n
  refused m al _ _ _ _ _ n := le_refused m al n
  init h := ⟨_, LE.rep_new h, by simp, by simp⟩

theorem ue_frugal : Frugal universal UE.Rep where
  reserve m _ _ _ b n h ha hn := ue_reserve_agree m b n h ha hn
  withCapacity m _ _ _ n h ha hn := by
    show UE.withCapacity m _ n h = UE.withCapacity m _ n h
    unfold UE.withCapacity
    rw [ue_heapNew_agree m ha hn]
  enough m al _ _ _ _ _ n := ue_enough m al n
  refused m al _ _ _ _ _ n := ue_refused m al n
  init h := ⟨_, UE.rep_new h, by simp, by simp⟩

variable {I : Impl} {Rep : I.B → Heap → List Cell → Nat → Option Nat → Prop} {m : Build} {al al' : Allocator} {k : Nat}
variable {b : I.B} {h : Heap} {fp : Option Nat}

/-- Equal calls followed by calls that are equal wherever the first may end. -/
theorem eq_bind {α β : Type} {x x' : M α} {f f' : α → M β} {Q : α → Heap → Option Nat → Prop} (hx : x h = x' h) (hs : Step x h fp Q)
    (hf : ∀ a h' fp', Q a h' fp' → f a h' = f' a h') : (x >>= f) h = (x' >>= f') h := by
  rcases hs with e | ⟨a, h', fp', e, q, _⟩
  · rw [bind_abort e, bind_abort (hx ▸ e)]
  · rw [bind_ok e, bind_ok (hx ▸ e), hf a h' fp' q]

theorem agree_writeAll (hc : Correct I Rep) (hf : Frugal I Rep) (hv : al.Valid) (ha : Agree k al al') (hk : k ≤ isizeMax) :
    ∀ (w w0 : Bytes) (b : I.B) (h : Heap) (fp : Option Nat), Has Rep b h w0 fp → w0.length + w.length ≤ k →
    writeAll I m al w b h = writeAll I m al' w b h
  | [], w0, b, h, fp, hb, _ => rfl
  | o :: r, w0, b, h, fp, hb, hl => by
    simp only [List.length_cons] at hl
    have e1 : Impl.write I m al b [o] h = Impl.write I m al' b [o] h := by
      unfold Impl.write
      show (I.reserve m al b 1 >>= _) h = (I.reserve m al' b 1 >>= _) h
      have := hf.reserve m b 1 h ha (by rw [hb.len hc]; omega)
      simp only [bind] at this ⊢
      rw [this]
    have hs := step_writeAll (m := m) hc hv [o] w0 b h fp hb (by simp; omega)
    rw [writeAll, writeAll]
    have hs' : Step (Impl.write I m al b [o]) h fp (fun b h fp => Has Rep b h (w0 ++ [o]) fp) := by
      rcases hs with e | ⟨a, h', fp', e, q, fr⟩
      · left
        rw [writeAll] at e
        cases hx : Impl.write I m al b [o] h with
        | ok a h' => rw [bind_ok hx] at e; cases e
        | abort => rfl
        | panic => simp only [bind, hx] at e; cases e
        | ub => simp only [bind, hx] at e; cases e
      · right
        rw [writeAll] at e
        cases hx : Impl.write I m al b [o] h with
        | ok a' h'' =>
          rw [bind_ok hx] at e
          cases e
          exact ⟨_, _, fp', rfl, q, fr⟩
        | abort => simp only [bind, hx] at e; cases e
        | panic => simp only [bind, hx] at e; cases e
        | ub => simp only [bind, hx] at e; cases e
    exact eq_bind e1 hs' fun b h fp hb => agree_writeAll hc hf hv ha hk r (w0 ++ [o]) b h fp hb (by simp; omega)

section
variable {σ : Type} [Reader σ] [LawfulReader σ]

theorem agree_Id_parse (hc : Correct I Rep) (hf : Frugal I Rep) (hv : al.Valid) (ha : Agree k al al') (hk : k ≤ isizeMax) {s : σ}
    (hs : Reader.size s ≤ k) : Id.parse I m al s h = Id.parse I m al' s h := by
  obtain ⟨q, s1, w, hq, hw⟩ := logs_parseId s
  have hq := hq []
  rw [List.nil_append] at hq
  unfold Id.parse
  rw [hq]
  simp only []
  refine eq_bind (agree_writeAll hc hf hv ha hk w [] I.new h none (has_new hc h) (by simp; omega))
    (step_writeAll hc hv w [] I.new h none (has_new hc h) (by simp; omega)) fun b h fp hb => ?_
  rfl

theorem agree_Der_parse (hc : Correct I Rep) (hf : Frugal I Rep) (hv : al.Valid) (ha : Agree k al al') (hk : k ≤ isizeMax) {s s' : σ}
    {v : Bytes} (hp : Bsn1.Der.parse m s = (.ok v, s')) (hl : v.length ≤ k) :
    Der.parse I m al honestRead s h = Der.parse I m al' honestRead s h := by
  obtain ⟨q, s1, w, hq, hw⟩ := logs_parseIdLength s
  have hq := hq []
  rw [List.nil_append] at hq
  have hsm := yields_parseIdLength (σ := σ) s []
  unfold Der.parse
  rw [Bsn1.Der.parse, hq] at hp
  rw [hq] at hsm ⊢
  simp only []
  have hmax := isizeMax_lt
  match q with
  | .err e => simp at hp
  | .panic => simp at hp
  | .ub => simp at hp
  | .ok .indefinite => simp at hp
  | .ok (.definite n) =>
    have hn : n < usizeSize := hsm _ _ _ rfl
    simp only at hp
    rcases he : (do
      let totalLength ← uadd m w.length n
      let _ ← bufReserve m w.length n
      if w.length ≤ totalLength then return totalLength - w.length else .panic : Res Nat) with k' | e | _ | _
    · rw [he] at hp
      obtain ⟨hi, rfl⟩ := der_room hn he
      have hvl : w.length + k' ≤ k := by
        rcases hre : Reader.read k' s1 with ⟨o, s2⟩
        simp only [hre] at hp
        cases o with
        | fail kk => simp at hp
        | data bs =>
          have hl := (LawfulReader.read_data k' s1 s2 bs hre).1
          simp only [] at hp
          split at hp
          · simp at hp
          · rename_i hge
            obtain ⟨rfl, rfl⟩ : _ = v ∧ _ = s' := by simpa using hp
            simp only [List.length_append] at *
            omega
      refine eq_bind (agree_writeAll hc hf hv ha hk w [] I.new h none (has_new hc h) (by simp; omega))
        (step_writeAll hc hv w [] I.new h none (has_new hc h) (by simp; omega)) fun b h fp hb => ?_
      rw [List.nil_append] at hb
      simp only [hb.len hc]
      rw [bind_ok (usizeAdd_ok m (by omega) h), bind_ok (usizeAdd_ok m (by omega) h)]
      have := hf.reserve m b k' h ha (by rw [hb.len hc]; omega)
      simp only [bind] at this ⊢
      rw [this]
    · rw [he] at hp; simp at hp
    · rw [he] at hp; simp at hp
    · rw [he] at hp; simp at hp

theorem agree_Ber_doParse (hc : Correct I Rep) (hf : Frugal I Rep) (hv : al.Valid) (ha : Agree k al al') (hk : k ≤ isizeMax) {s s' : σ}
    {w w' : Bytes} (hb : Has Rep b h w fp) {d : Int} (hp : (Bsn1.Ber.doParse m).run s w = (.ok d, s', w')) (hl : w'.length ≤ k) :
    Ber.doParse I m al honestReadExact b s h = Ber.doParse I m al' honestReadExact b s h ∧ w.length ≤ w'.length := by
  obtain ⟨q, s1, w1, hq, hw⟩ := logs_parseIdLength s
  have hq0 := hq []
  have hqw := hq w
  rw [List.nil_append] at hq0
  have hsm := yields_parseIdLength (σ := σ) s []
  unfold Ber.doParse
  rw [Bsn1.Ber.doParse] at hp
  simp only [hqw] at hp
  rw [hq0] at hsm ⊢
  have hmax := isizeMax_lt
  simp only []
  match q with
  | .err e => simp at hp
  | .panic => simp at hp
  | .ub => simp at hp
  | .ok .indefinite =>
    obtain ⟨rfl, rfl, rfl⟩ : _ = d ∧ _ = s' ∧ _ = w' := by simpa using hp
    simp only [List.length_append] at hl ⊢
    refine ⟨?_, by omega⟩
    refine eq_bind (agree_writeAll hc hf hv ha hk w1 w b h fp hb (by omega))
        (step_writeAll hc hv w1 w b h fp hb (by omega)) fun b h fp hb => rfl
  | .ok (.definite n) =>
    have hn : n < usizeSize := hsm _ _ _ rfl
    simp only at hp
    rcases he : (do
      let _ ← bufReserve m (w ++ w1).length n
      let total ← uadd m (w ++ w1).length n
      if (w ++ w1).length ≤ total then return total - (w ++ w1).length else .panic : Res Nat) with k' | e | _ | _
    · rw [he] at hp
      obtain ⟨hi, rfl⟩ := ber_room hn he
      simp only at hp
      have hvl : w.length + w1.length + k' ≤ w'.length := by
        rcases hre : readExact k' s1 with ⟨o, s2⟩
        simp only [hre] at hp
        cases o with
        | err e => simp at hp
        | panic => simp at hp
        | ub => simp at hp
        | ok bs =>
          obtain ⟨hl, hl2⟩ := readExact_ok hre
          have hsl : sliceFrom (w ++ w1 ++ bs) w.length = .ok (w1 ++ bs) := by
            rw [sliceFrom, if_pos (by simp)]; simp
          simp only [hsl] at hp
          obtain ⟨_, _, rfl⟩ : _ = d ∧ _ = s' ∧ _ = w' := by simpa using hp
          simp only [List.length_append]
          omega
      refine ⟨?_, by omega⟩
      refine eq_bind (agree_writeAll hc hf hv ha hk w1 w b h fp hb (by omega))
        (step_writeAll hc hv w1 w b h fp hb (by omega)) fun b h fp hb => ?_
      have := hf.reserve m b k' h ha (by rw [hb.len hc]; simp; omega)
      simp only [bind] at this ⊢
      rw [this]
    · rw [he] at hp; simp at hp
    · rw [he] at hp; simp at hp
    · rw [he] at hp; simp at hp

/-- The octets read so far only grow. -/
theorem Ber_parseLoop_grows : ∀ (f : Nat) (d : Int) (s s' : σ) (w w' : Bytes),
    (Bsn1.Ber.parseLoop m f d).run s w = (.ok (), s', w') → w.length ≤ w'.length := by
  intro f
  induction f with
  | zero => intro d s s' w w' hp; cases hp
  | succ f ih =>
    intro d s s' w w' hp
    rw [Bsn1.Ber.parseLoop, P.bind_def] at hp
    rcases hd : (Bsn1.Ber.doParse m).run s w with ⟨q, s1, w1⟩
    rw [hd] at hp
    match q with
    | .err e => simp at hp
    | .panic => simp at hp
    | .ub => simp at hp
    | .ok d' =>
      have hw1 : w.length ≤ w1.length := by
        obtain ⟨q, t, u, hq, _⟩ := logs_parseIdLength s
        rw [Bsn1.Ber.doParse] at hd
        simp only [hq w] at hd
        match q with
        | .err e => simp at hd
        | .panic => simp at hd
        | .ub => simp at hd
        | .ok .indefinite =>
          obtain ⟨_, _, rfl⟩ : _ = d' ∧ _ = s1 ∧ _ = w1 := by simpa using hd
          simp
        | .ok (.definite n) =>
          simp only at hd
          split at hd
          · rename_i n' _
            rcases hre : readExact n' t with ⟨o, s2⟩
            simp only [hre] at hd
            cases o with
            | ok bs =>
              simp only [] at hd
              split at hd
              · obtain ⟨_, _, rfl⟩ : _ = d' ∧ _ = s1 ∧ _ = w1 := by simpa using hd
                simp
              · simp at hd
              · simp at hd
              · simp at hd
            | err e => simp at hd
            | panic => simp at hd
            | ub => simp at hd
          · simp at hd
          · simp at hd
          · simp at hd
      simp only at hp
      by_cases hm : (isizeMax : Int) < d + d'
      · rw [if_pos hm] at hp; cases hp
      · rw [if_neg hm] at hp
        by_cases hp0 : d + d' > 0
        · rw [if_pos hp0] at hp
          exact Nat.le_trans hw1 (ih _ _ _ _ _ hp)
        · rw [if_neg hp0] at hp
          have : ((Res.ok () : Res Unit), s1, w1) = (.ok (), s', w') := hp
          simp only [Prod.mk.injEq] at this
          rw [← this.2.2]
          exact hw1

theorem agree_Ber_parseLoop (hc : Correct I Rep) (hf : Frugal I Rep) (hv : al.Valid) (ha : Agree k al al') (hk : k ≤ isizeMax) :
    ∀ (f : Nat) (d : Int) (b : I.B) (h : Heap) (fp : Option Nat) (s s' : σ) (w w' : Bytes), w.length + Reader.size s ≤ isizeMax →
    Has Rep b h w fp → (Bsn1.Ber.parseLoop m f d).run s w = (.ok (), s', w') → w'.length ≤ k →
    Ber.parseLoop I m al honestReadExact f d b s h = Ber.parseLoop I m al' honestReadExact f d b s h := by
  intro f
  induction f with
  | zero => intro d b h fp s s' w w' _ _ hp; cases hp
  | succ f ih =>
    intro d b h fp s s' w w' hs hb hp hl
    rw [Bsn1.Ber.parseLoop, P.bind_def] at hp
    unfold Ber.parseLoop
    rcases hd : (Bsn1.Ber.doParse m).run s w with ⟨q, s1, w1⟩
    rw [hd] at hp
    match q with
    | .err e => simp at hp
    | .panic => simp at hp
    | .ub => simp at hp
    | .ok d' =>
      simp only at hp
      have hw1 : w1.length ≤ w'.length := by
        by_cases hm : (isizeMax : Int) < d + d'
        · rw [if_pos hm] at hp; cases hp
        · rw [if_neg hm] at hp
          by_cases hp0 : d + d' > 0
          · rw [if_pos hp0] at hp
            exact Ber_parseLoop_grows _ _ _ _ _ _ hp
          · rw [if_neg hp0] at hp
            have : ((Res.ok () : Res Unit), s1, w1) = (.ok (), s', w') := hp
            simp only [Prod.mk.injEq] at this
            rw [← this.2.2]
      refine eq_bind (agree_Ber_doParse hc hf hv ha hk hb hd (by omega)).1
        (step_Ber_doParse hc hv hs hb hd (by simp) (by simp)) ?_
      rintro ⟨a, s2⟩ h fp ⟨rfl, hsz, b, e, hb⟩
      simp only at e
      subst e
      simp only
      by_cases hm : (isizeMax : Int) < d + d'
      · rw [if_pos hm, if_pos hm]
      · rw [if_neg hm] at hp ⊢
        rw [if_neg hm]
        by_cases hp0 : d + d' > 0
        · rw [if_pos hp0] at hp ⊢
          rw [if_pos hp0]
          exact ih _ b h fp _ s' w1 w' hsz hb hp hl
        · rw [if_neg hp0, if_neg hp0]

theorem agree_Ber_parse (hc : Correct I Rep) (hf : Frugal I Rep) (hv : al.Valid) (ha : Agree k al al') (hk : k ≤ isizeMax) {s s' : σ}
    (hs : Reader.size s ≤ isizeMax) {v : Bytes} (hp : Bsn1.Ber.parse m s = (.ok v, s')) (hl : v.length ≤ k) :
    Ber.parse I m al honestReadExact s h = Ber.parse I m al' honestReadExact s h := by
  rcases he : (Bsn1.Ber.parseLoop m (Reader.size s + 1) 0).run s [] with ⟨q, s1, w⟩
  rw [Bsn1.Ber.parse, he] at hp
  cases q with
  | ok u =>
    obtain ⟨rfl, rfl⟩ : _ = v ∧ _ = s' := by simpa using hp
    unfold Ber.parse
    exact agree_Ber_parseLoop hc hf hv ha hk _ _ _ _ _ _ _ _ _ (by simpa using hs) (has_new hc h) he hl
  | err e => simp at hp
  | panic => simp at hp
  | ub => simp at hp

end

theorem agree_bind_left {α β : Type} {x x' : M α} {f : α → M β} (e : x h = x' h) : (x >>= f) h = (x' >>= f) h := by
  simp only [bind]
  rw [e]

theorem agree_withIdLength (hf : Frugal I Rep) (ha : Agree k al al') {id : Bytes} {n : Nat} (hn : n < 2 ^ 64)
    (hl : id.length + (lenOctets n).length + n ≤ k) : Der.withIdLength I m al id n h = Der.withIdLength I m al' id n h := by
  unfold Der.withIdLength
  rw [toBytes_definite hn]
  show Der.withHeader I m al id (lenOctets n) n h = Der.withHeader I m al' id (lenOctets n) n h
  unfold Der.withHeader
  refine bind_congr' fun t h1 e1 => bind_congr' fun u h2 e2 => ?_
  have := usizeAdd_le e1
  have := usizeAdd_le e2
  exact agree_bind_left (hf.withCapacity m u h2 ha (by omega))

theorem agree_Der_new (hf : Frugal I Rep) (ha : Agree k al al') {id c : Bytes} (hn : c.length < 2 ^ 64)
    (hl : (tlv id c).length ≤ k) : Der.new I m al id c h = Der.new I m al' id c h := by
  unfold Der.new
  refine agree_bind_left (agree_withIdLength hf ha hn ?_)
  simpa [tlv, Nat.add_assoc] using hl

/-! ### Refusals -/

/-- Writing within the room there is. -/
theorem writeAll_room (hc : Correct I Rep) (hf : Frugal I Rep) : ∀ (w : Bytes) (b : I.B) (h : Heap) (s : List Cell) (l : Nat),
    Rep b h s l fp → l + w.length ≤ s.length →
    ∃ b' h' s', writeAll I m al w b h = .ok b' h' ∧ Rep b' h' s' (l + w.length) fp ∧ s'.length = s.length
  | [], b, h, s, l, hr, _ => ⟨b, h, s, rfl, hr, rfl⟩
  | o :: r, b, h, s, l, hr, hl => by
    simp only [List.length_cons] at hl
    obtain ⟨b1, h1, e1, hr1, _⟩ := hc.extend m [o] hr (by simp; omega)
    have e2 : Impl.write I m al b [o] h = .ok b1 h1 := by
      unfold Impl.write
      rw [bind_ok (hf.enough m al [o].length hr (by simp; omega)), e1]
    have hpl : (patch s l ([o].map some)).length = s.length := patch_length _ _ _ (by simp; omega)
    obtain ⟨b', h', s', e3, hr3, h3⟩ := writeAll_room hc hf r b1 h1 _ _ hr1 (by rw [hpl]; simp; omega)
    refine ⟨b', h', s', by rw [writeAll, bind_ok e2, e3], ?_, by rw [h3, hpl]⟩
    simpa [Nat.add_assoc, Nat.add_comm 1] using hr3

/-- A header that announces more than the allocator gives ends the process. -/
theorem parse_refused (hc : Correct I Rep) (hf : Frugal I Rep) {n : Nat} (h1 : 23 < n) (h2 : n + 16 ≤ isizeMax)
    (hal : ∀ clock bl size, n ≤ size → al clock bl size = none) (rest : Bytes) (rd : Nat → Bytes → ReadEffect Bytes) :
    Der.parse I m al rd ([0x04] ++ lenOctets n ++ rest) h = .abort ∧ Ber.parse I m al rd ([0x04] ++ lenOctets n ++ rest) h = .abort := by
  have hu : isizeMax < usizeSize := by decide
  have hu2 : usizeSize = 2 ^ 64 := rfl
  have hid : IsId [0x04] := ⟨0, 0, 4, by decide, by decide, by decide +kernel⟩
  have hh := parseIdLength_definite hid (n := n) (by omega) rest []
  have hlen := lenOctets_length_le (n := n) (by omega)
  obtain ⟨s0, hr0, hs0, hs1⟩ := hf.init h
  obtain ⟨b, h', s, e, hr, hs⟩ := writeAll_room (m := m) (al := al) hc hf ([] ++ [0x04] ++ lenOctets n) I.new h s0 0 hr0
    (by simp; omega)
  have hw : ([] ++ [0x04] ++ lenOctets n : Bytes).length = 1 + (lenOctets n).length := by simp; omega
  rw [hw, Nat.zero_add] at hr
  have ha := hf.refused m al n hr (by omega) (by omega) (fun c bl => hal c bl _ (by omega))
  constructor
  · unfold Der.parse
    rw [hh]
    simp only []
    rw [bind_ok e]
    rw [hc.len hr, bind_ok (usizeAdd_ok m (by omega) h'), bind_abort ha]
  · unfold Ber.parse Ber.parseLoop
    apply bind_abort
    unfold Ber.doParse
    rw [hh]
    simp only []
    rw [bind_ok e, bind_abort ha]

end Bsn1.Raw
