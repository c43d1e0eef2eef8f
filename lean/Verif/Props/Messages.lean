import Verif.Props.ReadBer
import Verif.Props.Failing
import Verif.Props.Stream
/-!
# C104: values that follow one another in a stream are read one by one
-/

universe u

namespace Bsn1
open Spec

namespace Spec

/-- What the calls `fs` give, made one after another on the same reader, and the reader afterwards. -/
def calls {α σ : Type} : List (σ → α × σ) → σ → List α × σ
  | [], s => ([], s)
  | f :: fs, s => ((f s).1 :: (calls fs (f s).2).1, (calls fs (f s).2).2)

/-- A reader that delivers as many octets as there is room for, as long as it has them (a slice, a file, `BufReader` with enough in it). -/
def Fills {σ : Type} [Reader σ] (R : σ → List UInt8 → Prop) : Prop :=
  ∀ (n : Nat) (s : σ) (bs : List UInt8), R s bs → n ≤ bs.length →
    ∃ s', Reader.read n s = (.data (bs.take n), s') ∧ R s' (bs.drop n)

end Spec

theorem fills_slice : Fills (σ := Bytes) (fun s bs => s = bs) := by
  rintro n s bs rfl hn
  exact ⟨s.drop n, rfl, rfl⟩

/-- One call after another, each of which takes its own octets and leaves the others. -/
theorem calls_ok {α σ : Type} {β : Type u} (R : σ → Bytes → Prop) (octets : β → Bytes) (val : β → α) (call : β → σ → α × σ) :
    ∀ (xs : List β) (s : σ) (q : Bytes),
      (∀ x ∈ xs, ∀ s rest, R s (octets x ++ rest) → ∃ s', call x s = (val x, s') ∧ R s' rest) →
      R s ((xs.map octets).flatten ++ q) →
      ∃ s', calls (xs.map call) s = (xs.map val, s') ∧ R s' q
  | [], s, q, _, hs => ⟨s, rfl, hs⟩
  | x :: xs, s, q, h, hs => by
    simp only [List.map_cons, List.flatten_cons, List.append_assoc] at hs
    obtain ⟨s1, h1, h2⟩ := h x (by simp) s _ hs
    obtain ⟨s2, h3, h4⟩ := calls_ok R octets val call xs s1 q (fun y hy => h y (by simp [hy])) h2
    exact ⟨s2, by simp only [List.map_cons, calls, h1, h3], h4⟩

theorem chunks_all : ∀ p : Bytes, ∃ s, Chunks s p
  | [] => ⟨[], .nil⟩
  | b :: p => ⟨[.chunk (b :: p)], by simpa using Chunks.cons (b :: p) [] [] (by simp) .nil⟩

theorem chunks_octets {s : Script} {p : Bytes} (h : Chunks s p) : scriptData s = p := by
  induction h with
  | nil => rfl
  | cons c s bs _ _ ih => simp [scriptData, ih]

theorem chunks_append {s s' : Script} {p q : Bytes} (h : Chunks s p) (h' : Chunks s' q) : Chunks (s ++ s') (p ++ q) := by
  induction h with
  | nil => exact h'
  | cons c s bs hc _ ih => rw [List.cons_append, List.append_assoc]; exact .cons c _ _ hc ih

/-- One value at the beginning of a stream of any length. -/
theorem berParse_delivers {σ : Type} [Reader σ] {R : σ → Bytes → Prop} (hd : Delivers R) (m : Build) {v rest : Bytes} (hv : IsBer v)
    (hl : v.length ≤ isizeMax) {s : σ} (hs : R s (v ++ rest)) : ∃ s', Ber.parse m s = (.ok v, s') ∧ R s' rest := by
  obtain ⟨c, hc⟩ := chunks_all v
  obtain ⟨t, ht⟩ := chunks_all rest
  have h1 := (C102_returns_with_last_octet m hc t).2.2.2 hv hl
  obtain ⟨h2, h3⟩ := sim_berParse delivers_chunks m (chunks_append hc ht)
  rw [h1] at h2 h3
  have h4 : (Ber.parse m (v ++ rest)).2 = rest := (chunks_octets h3).symm.trans ((chunks_octets ht))
  obtain ⟨h5, h6⟩ := sim_berParse hd m hs
  rw [h4] at h6
  exact ⟨_, Prod.ext (h5.trans h2.symm) rfl, h6⟩

/-- What is returned is a value at the beginning of the stream. -/
theorem berParse_delivers_sound {σ : Type} [Reader σ] {R : σ → Bytes → Prop} (hd : Delivers R) (m : Build) {v bs : Bytes} {s : σ} (hs : R s bs)
    (h : (Ber.parse m s).1 = .ok v) : IsBer v ∧ ∃ rest, bs = v ++ rest := by
  obtain ⟨c, hc⟩ := chunks_all bs
  obtain ⟨h2, h3⟩ := sim_berParse delivers_chunks m hc
  rw [← (sim_berParse hd m hs).1, h] at h2
  obtain ⟨h4, h5⟩ := C76_ber_sound m c _ v (Prod.ext h2 rfl)
  exact ⟨h4, _, by rw [← chunks_octets hc]; exact h5⟩

/-! ### Values -/

/-- **C104.** However long a stream is, and whatever the pieces in which a reader delivers its octets: `k` calls of `Ber::parse` all succeed, with these values,
exactly if the values follow one another at the beginning of the stream; the reader is left right behind the last. -/
theorem C104_ber_iff {σ : Type} [Reader σ] (R : σ → Bytes → Prop) (hd : Delivers R) (m : Build) :
    ∀ (vs : List Bytes) (s : σ) (bs : Bytes), R s bs → (∀ v ∈ vs, v.length ≤ isizeMax) →
      ((calls (List.replicate vs.length (Ber.parse m)) s).1 = vs.map .ok ↔ (∀ v ∈ vs, IsBer v) ∧ ∃ q, bs = vs.flatten ++ q) ∧
      ∀ q, (∀ v ∈ vs, IsBer v) → bs = vs.flatten ++ q → R (calls (List.replicate vs.length (Ber.parse m)) s).2 q
  | [], s, bs, hs, _ => by
    refine ⟨iff_of_true rfl ⟨by simp, bs, rfl⟩, fun q _ h => ?_⟩
    simp only [List.flatten_nil, List.nil_append] at h
    subst h
    exact hs
  | v :: vs, s, bs, hs, hl => by
    have hl' : ∀ x ∈ vs, x.length ≤ isizeMax := fun x hx => hl x (by simp [hx])
    have step : ∀ rest, IsBer v → bs = v ++ rest → (Ber.parse m s).1 = .ok v ∧ R (Ber.parse m s).2 rest := by
      rintro rest hv rfl
      obtain ⟨s', h1, h2⟩ := berParse_delivers hd m hv (hl v (by simp)) hs
      rw [h1]
      exact ⟨rfl, h2⟩
    simp only [List.length_cons, List.replicate_succ, calls, List.map_cons, List.cons.injEq, List.flatten_cons, List.forall_mem_cons]
    constructor
    · constructor
      · rintro ⟨h1, h2⟩
        obtain ⟨hv, rest, rfl⟩ := berParse_delivers_sound hd m hs h1
        obtain ⟨-, h4⟩ := step rest hv rfl
        obtain ⟨h5, q, rfl⟩ := (C104_ber_iff R hd m vs _ rest h4 hl').1.1 h2
        exact ⟨⟨hv, h5⟩, q, by simp⟩
      · rintro ⟨⟨hv, hvs⟩, q, rfl⟩
        obtain ⟨h1, h2⟩ := step (vs.flatten ++ q) hv (by simp)
        exact ⟨h1, (C104_ber_iff R hd m vs _ _ h2 hl').1.2 ⟨hvs, q, rfl⟩⟩
    · rintro q ⟨hv, hvs⟩ rfl
      obtain ⟨h1, h2⟩ := step (vs.flatten ++ q) hv (by simp)
      exact (C104_ber_iff R hd m vs _ _ h2 hl').2 q hvs rfl

/-- Two values, in pieces that have nothing to do with them, and the beginning of a third. -/
example : calls (List.replicate 2 (Ber.parse (σ := Script) .release)) [.chunk [0x30, 0x80], .chunk [0x00, 0x00, 0x04], .chunk [0x01, 0x07, 0x05]] =
    ([.ok [0x30, 0x80, 0x00, 0x00], .ok [0x04, 0x01, 0x07]], [.chunk [0x05]]) := by decide +kernel

example : (calls (List.replicate 2 (Ber.parse .debug)) ([0x30, 0x80, 0x00, 0x00, 0x04, 0x01, 0x07, 0x05] : Bytes)).1 =
    [.ok [0x30, 0x80, 0x00, 0x00], .ok [0x04, 0x01, 0x07]] :=
  (C104_ber_iff (fun s bs => s = bs) delivers_slice .debug [[0x30, 0x80, 0x00, 0x00], [0x04, 0x01, 0x07]] _ _ rfl (by decide +kernel)).1.2
    ⟨by
      simp only [List.forall_mem_cons, List.not_mem_nil, false_imp_iff, implies_true, and_true]
      exact ⟨((C29_ber_parse_iff [0x30, 0x80, 0x00, 0x00] _ [] (by decide +kernel)).1 (by decide +kernel)).1,
        ((C29_ber_parse_iff [0x04, 0x01, 0x07] _ [] (by decide +kernel)).1 (by decide +kernel)).1⟩, [0x05], rfl⟩

/-- One value, with a reader that delivers what is asked for. -/
theorem derParse_fills {σ : Type} [Reader σ] {R : σ → Bytes → Prop} (hd : Delivers R) (hf : Fills R) (m : Build) {v rest : Bytes}
    (hv : IsDer v) (hl : v.length ≤ isizeMax) {s : σ} (hs : R s (v ++ rest)) : ∃ s', Der.parse m s = (.ok v, s') ∧ R s' rest := by
  obtain ⟨id, c, h1, h2, rfl⟩ := hv
  refine C25_der_parse_chunking_partial R hd m id c rest h1 hl (fun s hs => ?_) s hs
  obtain ⟨s', h3, h4⟩ := hf c.length s _ hs (by simp)
  exact ⟨s', by rw [h3, List.take_left' rfl], by simpa using h4⟩

/-- **C104.** The same for `Der::parse`, with a reader that delivers as many octets as asked for: DER values that follow one another are
returned in order, and the reader is left right behind the last. -/
theorem C104_der {σ : Type} [Reader σ] (R : σ → Bytes → Prop) (hd : Delivers R) (hf : Fills R) (m : Build) (vs : List Bytes) (q : Bytes)
    (hv : ∀ v ∈ vs, IsDer v) (s : σ) (hs : R s (vs.flatten ++ q)) (hl : ∀ v ∈ vs, v.length ≤ isizeMax) :
    ∃ s', calls (List.replicate vs.length (Der.parse m)) s = (vs.map .ok, s') ∧ R s' q := by
  have e : List.replicate vs.length (Der.parse (σ := σ) m) = vs.map fun _ => Der.parse m := by simp
  rw [e]
  refine calls_ok R id .ok (fun _ => Der.parse m) vs s q (fun v hm s rest h => ?_) (by simpa using hs)
  exact derParse_fills hd hf m (hv v hm) (hl v hm) h

example : ∃ s', calls (List.replicate 2 (Der.parse .release)) ([0x04, 0x01, 0x07, 0x05, 0x00, 0x02] : Bytes) =
    ([.ok [0x04, 0x01, 0x07], .ok [0x05, 0x00]], s') ∧ s' = [0x02] :=
  C104_der (fun s bs => s = bs) delivers_slice fills_slice .release [[0x04, 0x01, 0x07], [0x05, 0x00]] [0x02] (by
      simp only [List.forall_mem_cons, List.not_mem_nil, false_imp_iff, implies_true, and_true]
      exact ⟨((C19_der_parse_iff [0x04, 0x01, 0x07] _ []).1 (by decide +kernel)).1, ((C19_der_parse_iff [0x05, 0x00] _ []).1 (by decide +kernel)).1⟩)
    _ rfl (by decide +kernel)

/-- What `Der::parse` returns from a slice is a DER value, and what was consumed. -/
theorem derParse_slice_sound (m : Build) {bs v rest : Bytes} (h : Der.parse m bs = (.ok v, rest)) : IsDer v ∧ bs = v ++ rest := by
  have hu := usizeSize_eq
  simp only [Der.parse] at h
  have hspec := parseIdLength_spec bs []
  generalize (parseIdLength (σ := Bytes)).run bs [] = r at hspec h
  cases hspec with
  | definite id n s1 h1 h2 h3 =>
    simp only at h
    split at h
    · rename_i k hk
      have hkn : k = n := by
        rcases ha : uadd m ([] ++ id ++ lenOctets n).length n with total | e | _ | _
        · apply reserve_contents (m := m) (a := ([] ++ id ++ lenOctets n).length) _ (by omega)
          rw [ha] at hk ⊢
          simp only [Res.bind_ok] at hk ⊢
          exact hk
        all_goals (rw [ha] at hk; simp at hk)
      subst hkn
      simp only [read_bytes] at h
      split at h
      · simp at h
      · rename_i hn
        simp only [Prod.mk.injEq, Res.ok.injEq] at h
        obtain ⟨rfl, rfl⟩ := h
        have hb : (s1.take k).length = k := by
          rw [List.length_take] at hn ⊢
          omega
        refine ⟨⟨id, s1.take k, h1, by omega, by rw [tlv, hb]; simp⟩, by rw [h3]; simp⟩
    · simp at h
    · simp at h
    · simp at h
  | indefinite => simp at h
  | error => simp at h

/-- **C104.** From a slice `k` calls of `Der::parse` all succeed exactly if `k` DER values follow one another at the beginning. -/
theorem C104_der_slice_iff (m : Build) : ∀ (vs : List Bytes) (bs q : Bytes), bs.length ≤ isizeMax →
    (calls (List.replicate vs.length (Der.parse m)) bs = (vs.map .ok, q) ↔ (∀ v ∈ vs, IsDer v) ∧ bs = vs.flatten ++ q)
  | [], bs, q, _ => by simp [calls]
  | v :: vs, bs, q, hl => by
    constructor
    · intro h
      simp only [List.length_cons, List.replicate_succ, calls, List.map_cons, Prod.mk.injEq, List.cons.injEq] at h
      obtain ⟨⟨h1, h2⟩, h3⟩ := h
      rcases hx : Der.parse m bs with ⟨r, rest⟩
      rw [hx] at h1 h2 h3
      simp only at h1 h2 h3
      subst h1
      obtain ⟨h4, h5⟩ := derParse_slice_sound m hx
      subst h5
      obtain ⟨h6, h7⟩ := (C104_der_slice_iff m vs rest q (by rw [List.length_append] at hl; omega)).1 (Prod.ext h2 h3)
      exact ⟨by simpa using ⟨h4, h6⟩, by rw [h7]; simp⟩
    · rintro ⟨h1, rfl⟩
      obtain ⟨s', h2, h3⟩ := C104_der (fun s bs => s = bs) delivers_slice fills_slice m (v :: vs) q h1 _ rfl (fun x hx => by
        obtain ⟨a, b, hab⟩ := List.append_of_mem hx
        rw [hab] at hl
        simp only [List.flatten_append, List.flatten_cons, List.length_append] at hl
        omega)
      rw [h2, h3]

example : ¬ ∃ q, calls (List.replicate 2 (Der.parse .debug)) ([0x04, 0x01, 0x07, 0x30, 0x80, 0x00, 0x00] : Bytes) =
    ([[0x04, 0x01, 0x07], [0x30, 0x80, 0x00, 0x00]].map .ok, q) := by
  rintro ⟨q, h⟩
  have h1 : (calls (List.replicate 2 (Der.parse .debug)) ([0x04, 0x01, 0x07, 0x30, 0x80, 0x00, 0x00] : Bytes)).1 ≠
      [[0x04, 0x01, 0x07], [0x30, 0x80, 0x00, 0x00]].map .ok := by decide +kernel
  exact h1 (congrArg Prod.fst h)

/-- **C104.** Whatever a reader answers, failures included: values that calls of `Der::parse` and `Ber::parse`, in any order, return without a
failure in between are one after another exactly the octets that were consumed. -/
theorem C104_sound (m : Build) : ∀ (der : List Bool) (vs : List Bytes) (s s' : Script),
    calls (der.map fun b => if b then Der.parse m else Ber.parse m) s = (vs.map .ok, s') →
      scriptData s = vs.flatten ++ scriptData s' ∧ List.Forall₂ (fun b v => if b then IsDer v else IsBer v) der vs
  | [], vs, s, s', h => by
    simp only [List.map_nil, calls, Prod.mk.injEq, List.nil_eq, List.map_eq_nil_iff] at h
    obtain ⟨rfl, rfl⟩ := h
    exact ⟨rfl, .nil⟩
  | b :: der, vs, s, s', h => by
    simp only [List.map_cons, calls, Prod.mk.injEq] at h
    obtain ⟨h1, h2⟩ := h
    cases vs with
    | nil => cases h1
    | cons v vs =>
      simp only [List.map_cons, List.cons.injEq] at h1
      obtain ⟨h3, h4⟩ := h1
      obtain ⟨h5, h6⟩ := C104_sound m der vs _ s' (Prod.ext h4 h2)
      have key : (if b then IsDer v else IsBer v) ∧ scriptData s = v ++ scriptData ((if b then Der.parse m else Ber.parse m) s).2 := by
        cases b
        · exact C76_ber_sound m s _ v (Prod.ext h3 rfl)
        · exact C76_der_sound m s _ v (Prod.ext h3 rfl)
      exact ⟨by rw [key.2, h5]; simp, .cons key.1 h6⟩

example : calls ([true, false].map fun b => if b then Der.parse .debug else Ber.parse (σ := Script) .debug)
    [.chunk [0x04, 0x01], .chunk [0x07, 0x30], .chunk [0x80, 0x00, 0x00], .fail (.other 3)] =
      ([[0x04, 0x01, 0x07], [0x30, 0x80, 0x00, 0x00]].map .ok, [.fail (.other 3)]) := by decide +kernel

/-! ### Values of types -/

/-- **C104.** `read_ber`, with any readers and any implementations of `Deserialize`, a different one for each value: each call gives what
`from_ber` gives for its value, be it a value or an error, and takes exactly this value from the reader. -/
theorem C104_read_ber {α σ : Type} [Reader σ] (R : σ → Bytes → Prop) (hd : Delivers R) (m : Build) (xs : List (De α × Bytes)) (q : Bytes)
    (hv : ∀ x ∈ xs, IsBer x.2) (s : σ) (hs : R s ((xs.map Prod.snd).flatten ++ q)) (hl : ∀ x ∈ xs, x.2.length ≤ isizeMax) :
    ∃ s', calls (xs.map fun x => readBer m x.1) s = (xs.map fun x => fromBer x.1 x.2, s') ∧ R s' q := by
  refine calls_ok R Prod.snd (fun x => fromBer x.1 x.2) (fun x => readBer m x.1) xs s q (fun x hm s rest h => ?_) hs
  obtain ⟨s', h1, h2⟩ := berParse_delivers hd m (hv x hm) (hl x hm) h
  exact ⟨s', by rw [readBer, h1], h2⟩

/-- The boolean in the middle is an integer; the values around it are not disturbed. -/
example (m : Build) : ∃ s', calls [readBer m (De.bool m), readBer m (De.bool m), readBer m (De.bool m)]
    ([0x01, 0x01, 0xff, 0x02, 0x01, 0x07, 0x01, 0x01, 0x00, 0x99] : Bytes) = ([.ok true, .err .unmatchedId, .ok false], s') ∧ s' = [0x99] := by
  have h := C104_read_ber (fun s bs => s = bs) delivers_slice m
    [(De.bool m, [0x01, 0x01, 0xff]), (De.bool m, [0x02, 0x01, 0x07]), (De.bool m, [0x01, 0x01, 0x00])] [0x99] (by
      have h1 : IsId [0x01] := ⟨0, 0, 1, by decide, by decide, by decide +kernel⟩
      have h2 : IsId [0x02] := ⟨0, 0, 2, by decide, by decide, by decide +kernel⟩
      simp only [List.forall_mem_cons, List.not_mem_nil, false_imp_iff, implies_true, and_true]
      exact ⟨.definite [0x01] [0xff] h1 (by decide), .definite [0x02] [0x07] h2 (by decide), .definite [0x01] [0x00] h1 (by decide)⟩)
    _ rfl (by cases m <;> decide +kernel)
  cases m <;> exact h

/-- **C104.** The same for `read_der` with a reader that delivers as many octets as asked for. -/
theorem C104_read_der {α σ : Type} [Reader σ] (R : σ → Bytes → Prop) (hd : Delivers R) (hf : Fills R) (m : Build) (xs : List (De α × Bytes))
    (q : Bytes) (hv : ∀ x ∈ xs, IsDer x.2) (s : σ) (hs : R s ((xs.map Prod.snd).flatten ++ q))
    (hl : ∀ x ∈ xs, x.2.length ≤ isizeMax) :
    ∃ s', calls (xs.map fun x => readDer m x.1) s = (xs.map fun x => fromDer x.1 x.2, s') ∧ R s' q := by
  refine calls_ok R Prod.snd (fun x => fromDer x.1 x.2) (fun x => readDer m x.1) xs s q (fun x hm s rest h => ?_) hs
  obtain ⟨s', h1, h2⟩ := derParse_fills hd hf m (hv x hm) (hl x hm) h
  exact ⟨s', by rw [readDer, h1], h2⟩

/-- The boolean in the middle is not DER; the values around it are not disturbed. -/
example (m : Build) : ∃ s', calls [readDer m (De.bool m), readDer m (De.bool m), readDer m (De.bool m)]
    ([0x01, 0x01, 0xff, 0x01, 0x01, 0x07, 0x01, 0x01, 0x00, 0x99] : Bytes) =
      ([.ok true, .err .invalidDerBooleanContents, .ok false], s') ∧ s' = [0x99] := by
  have h := C104_read_der (fun s bs => s = bs) delivers_slice fills_slice m
    [(De.bool m, [0x01, 0x01, 0xff]), (De.bool m, [0x01, 0x01, 0x07]), (De.bool m, [0x01, 0x01, 0x00])] [0x99] (by
      simp only [List.forall_mem_cons, List.not_mem_nil, false_imp_iff, implies_true, and_true]
      exact ⟨((C19_der_parse_iff [0x01, 0x01, 0xff] _ []).1 (by decide +kernel)).1,
        ((C19_der_parse_iff [0x01, 0x01, 0x07] _ []).1 (by decide +kernel)).1, ((C19_der_parse_iff [0x01, 0x01, 0x00] _ []).1 (by decide +kernel)).1⟩)
    _ rfl (by cases m <;> decide +kernel)
  cases m <;> exact h

/-- The same with `read_ber`, which takes any octet but zero for true. -/
example : calls (List.replicate 3 (readBer (σ := Script) .release (De.bool .release)))
    [.chunk [0x01], .chunk [0x01, 0xff, 0x02], .chunk [0x01, 0x07, 0x01, 0x01], .chunk [0x00, 0x99]] =
      ([.ok true, .err .unmatchedId, .ok false], [.chunk [0x99]]) := by decide +kernel

/-- **C104.** Values of a type that are written one after another with `write_der` are read back one after another, with `read_ber` from any reader and
with `read_der` from one that delivers as many octets as asked for. -/
theorem C104_round_trip {α σ : Type} [Reader σ] (R : σ → Bytes → Prop) (hd : Delivers R) (m m' : Build) (o : HashOrder) (t : Ty α)
    (ht : t.serializable ∧ t.deserializable ∧ t.restorable ∧ t.exact) (vs : List α) (hv : ∀ v ∈ vs, t.ok v ∧ t.convertible v) (q : Bytes)
    (s : σ) (hs : R s ((vs.map fun v => written (writeDer m (Ty.ser m t) v)).flatten ++ q)) (hle : ∀ v ∈ vs, (t.der v).length ≤ isizeMax) :
    (∃ s', calls (vs.map fun _ => readBer m' (Ty.de m' o t)) s = (vs.map .ok, s') ∧ R s' q) ∧
    (Fills R → ∃ s', calls (vs.map fun _ => readDer m' (Ty.de m' o t)) s = (vs.map .ok, s') ∧ R s' q) := by
  obtain ⟨h1, h2, h3, h4⟩ := ht
  have hw : (vs.map fun v => written (writeDer m (Ty.ser m t) v)) = vs.map t.der := by
    refine List.map_congr_left fun v hm => ?_
    have h5 := hle v hm
    rw [Ty.der, tlvOf, tlv_length] at h5
    exact (writeDer_writes m (Ty.serializes m t h1 v (hv v hm).1 (hle v hm)) (by omega)).2
  have hder : ∀ v ∈ vs, toDer m (Ty.ser m t) v = .ok (t.der v) := fun v hm => (C41_to_der m t h1 v (hv v hm).1 (hle v hm)).1
  have hisd : ∀ v ∈ vs, IsDer (t.der v) := by
    intro v hm
    have h5 := (C41_to_der m t h1 v (hv v hm).1 (hle v hm)).2.2 []
    exact ((C19_der_parse_iff _ _ _).1 h5).1
  have hisb : ∀ v ∈ vs, IsBer (t.der v) := by
    intro v hm
    obtain ⟨id, c, h5, h6, h7⟩ := hisd v hm
    exact berValue_isBer (indef := false) ⟨h5, h6, h7⟩
  have hd1 : ∀ v ∈ vs, fromDer (Ty.de m' o t) (t.der v) = .ok v := by
    intro v hm
    have h5 := C43_der_round_trip_exact m m' o t h1 h2 h3 h4 v (hv v hm).1 (hv v hm).2 (hle v hm)
    rwa [hder v hm, Res.bind_ok] at h5
  have hb1 : ∀ v ∈ vs, fromBer (Ty.de m' o t) (t.der v) = .ok v := by
    intro v hm
    have h5 := C44_ber_round_trip_exact m m' o t h1 h2 h3 h4 v (hv v hm).1 (hv v hm).2 (hle v hm)
    rwa [(C41_to_der m t h1 v (hv v hm).1 (hle v hm)).2.1, Res.bind_ok] at h5
  rw [hw] at hs
  constructor
  · refine calls_ok R t.der .ok (fun _ => readBer m' (Ty.de m' o t)) vs s q (fun v hm s rest h => ?_) hs
    obtain ⟨s', h5, h6⟩ := berParse_delivers hd m' (hisb v hm) (hle v hm) h
    exact ⟨s', by rw [readBer, h5]; simp only [hb1 v hm], h6⟩
  · intro hf
    refine calls_ok R t.der .ok (fun _ => readDer m' (Ty.de m' o t)) vs s q (fun v hm s rest h => ?_) hs
    obtain ⟨s', h5, h6⟩ := derParse_fills hd hf m' (hisd v hm) (hle v hm) h
    exact ⟨s', by rw [readDer, h5]; simp only [hd1 v hm], h6⟩

/-- Three vectors, written by `write_der` and read by `read_ber` in two pieces. -/
example (m : Build) (o : HashOrder) : ∃ s', calls (List.replicate 3 (readBer m (Ty.de m o (.vec (.int .u8)))))
    ([0x30, 0x03, 0x02, 0x01, 0x05, 0x30, 0x00, 0x30, 0x04, 0x02, 0x02, 0x00, 0xc8, 0x99] : Bytes) = ([.ok [5], .ok [], .ok [200]], s') ∧ s' = [0x99] := by
  have hu : ∀ x : Int, 0 ≤ x → x ≤ 255 → IntTy.InRange .u8 x := by
    intro x h1 h2
    simp [IntTy.InRange, IntTy.minVal, IntTy.maxVal, IntTy.signed, IntTy.size]
    omega
  have hw : ∀ m, ((([[5], [], [200]] : List (List Int)).map fun v => written (writeDer m (Ty.ser m (.vec (.int .u8))) v)).flatten ++ [0x99]) =
      [0x30, 0x03, 0x02, 0x01, 0x05, 0x30, 0x00, 0x30, 0x04, 0x02, 0x02, 0x00, 0xc8, 0x99] := by
    intro m
    cases m <;> decide +kernel
  exact (C104_round_trip (fun s bs => s = bs) delivers_slice m m o (.vec (.int .u8)) ⟨trivial, trivial, trivial, trivial⟩ [[5], [], [200]]
    (by
      simp only [List.forall_mem_cons, List.not_mem_nil, false_imp_iff, implies_true, and_true]
      refine ⟨⟨?_, fun _ _ => trivial⟩, ⟨?_, fun _ _ => trivial⟩, ?_, fun _ _ => trivial⟩ <;> simp [Ty.ok, hu])
    [0x99] _ (hw m).symm (by decide +kernel)).1

/-! ### The end -/

/-- **C104.** After the last value every call reports `UnterminatedBytes`, again and again. -/
theorem C104_end {α σ : Type} [Reader σ] (R : σ → Bytes → Prop) (hd : Delivers R) (m : Build) (d : De α) (k : Nat) (s : σ) (hs : R s []) :
    (calls (List.replicate k (Ber.parse m)) s).1 = List.replicate k (.err .unterminatedBytes) ∧
    (calls (List.replicate k (Der.parse m)) s).1 = List.replicate k (.err .unterminatedBytes) ∧
    (calls (List.replicate k (readBer m d)) s).1 = List.replicate k (.err .unterminatedBytes) ∧
    (calls (List.replicate k (readDer m d)) s).1 = List.replicate k (.err .unterminatedBytes) := by
  have key : ∀ {β : Type} (f : σ → Res β × σ), (∀ s, R s [] → (f s).1 = .err .unterminatedBytes ∧ R (f s).2 []) →
      ∀ k s, R s [] → (calls (List.replicate k f) s).1 = List.replicate k (.err .unterminatedBytes) := by
    intro β f hf k
    induction k with
    | zero => exact fun s _ => rfl
    | succ k ih =>
      intro s hs
      obtain ⟨h1, h2⟩ := hf s hs
      simp only [List.replicate_succ, calls, h1, ih _ h2]
  have hber : ∀ s, R s [] → (Ber.parse m s).1 = .err .unterminatedBytes ∧ R (Ber.parse m s).2 [] := by
    intro s hs
    obtain ⟨h1, h2⟩ := sim_berParse hd m hs
    have e : Ber.parse m ([] : Bytes) = (.err .unterminatedBytes, []) := by cases m <;> decide +kernel
    rw [e] at h1 h2
    exact ⟨h1, h2⟩
  have hder : ∀ s, R s [] → (Der.parse m s).1 = .err .unterminatedBytes ∧ R (Der.parse m s).2 [] := by
    intro s hs
    have h1 := sim_parseIdLength hd s _ [] hs
    have e : (parseIdLength (σ := Bytes)).run [] [] = (.err .unterminatedBytes, [], []) := by decide +kernel
    rw [e] at h1
    rcases hx : (parseIdLength (σ := σ)).run s [] with ⟨r, s1, w1⟩
    rw [hx] at h1
    simp only at h1
    obtain ⟨rfl, rfl, h3⟩ := h1
    simp only [Der.parse, hx]
    exact ⟨trivial, h3⟩
  refine ⟨key _ hber k s hs, key _ hder k s hs, key _ (fun s hs => ?_) k s hs, key _ (fun s hs => ?_) k s hs⟩
  · obtain ⟨h1, h2⟩ := hber s hs
    rcases hx : Ber.parse m s with ⟨r, s'⟩
    rw [hx] at h1 h2
    simp only at h1 h2
    subst h1
    simp only [readBer, hx]
    exact ⟨trivial, h2⟩
  · obtain ⟨h1, h2⟩ := hder s hs
    rcases hx : Der.parse m s with ⟨r, s'⟩
    rw [hx] at h1 h2
    simp only at h1 h2
    subst h1
    simp only [readDer, hx]
    exact ⟨trivial, h2⟩

example (m : Build) (d : De Bool) : (calls (List.replicate 2 (readBer m d)) ([] : Bytes)).1 = [.err .unterminatedBytes, .err .unterminatedBytes] :=
  (C104_end (fun s bs => s = bs) delivers_slice m d 2 [] rfl).2.2.1

/-- **C104, violated.** A stream that ends after a value cannot be told from one that breaks off within the header of the next: two calls give
the same results on both, and leave nothing behind. -/
theorem C104_end_violated (m : Build) (o : HashOrder) :
    ∃ whole cut : Bytes, IsDer whole ∧ ¬ (∃ v, IsBer v ∧ cut = whole ++ v) ∧ cut ≠ whole ∧
      calls (List.replicate 2 (Ber.parse m)) cut = calls (List.replicate 2 (Ber.parse m)) whole ∧
      calls (List.replicate 2 (Der.parse m)) cut = calls (List.replicate 2 (Der.parse m)) whole ∧
      calls (List.replicate 2 (readBer m (Ty.de m o .octetString))) cut = calls (List.replicate 2 (readBer m (Ty.de m o .octetString))) whole ∧
      calls (List.replicate 2 (readDer m (Ty.de m o .octetString))) cut = calls (List.replicate 2 (readDer m (Ty.de m o .octetString))) whole := by
  refine ⟨[0x04, 0x01, 0x07], [0x04, 0x01, 0x07, 0x04], ((C19_der_parse_iff [0x04, 0x01, 0x07] _ []).1 (by decide +kernel)).1, ?_, by decide,
    by cases m <;> decide +kernel, by cases m <;> decide +kernel, ?_, ?_⟩
  · rintro ⟨v, hv, h⟩
    have h1 : v = [0x04] := by simpa using h.symm
    subst h1
    have := (C29_ber_parse_iff [0x04] [0x04] [] (by decide +kernel)).2 ⟨hv, rfl⟩
    exact absurd this (by decide +kernel)
  · change calls (List.replicate 2 (readBer m De.octetString)) _ = calls (List.replicate 2 (readBer m De.octetString)) _
    cases m <;> decide +kernel
  · change calls (List.replicate 2 (readDer m De.octetString)) _ = calls (List.replicate 2 (readDer m De.octetString)) _
    cases m <;> decide +kernel

end Bsn1
