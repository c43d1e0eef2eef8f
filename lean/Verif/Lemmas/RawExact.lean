import Verif.Lemmas.RawMemory
import Verif.Lemmas.Cut
import Verif.Props.Reserve
import Verif.Props.Panic
/-!
# The parsers on storage: when the buffer moves to the heap, and what lengths beyond the limit do
-/

namespace Bsn1
open Buf Spec

namespace Raw

/-- A layout with room for `init` octets inline, whose `reserve` treats sizes beyond the limit in this way. -/
structure Inline (I : Impl) (Rep : I.B → Heap → List Cell → Nat → Option Nat → Prop) (init : Nat) : Prop where
  inline : ∀ {b h s l}, Rep b h s l none → s.length = init
  beyond : ∀ m (al : Allocator) {b h s l fp}, Rep b h s l fp → ∀ n, n < usizeSize → isizeMax < l + n →
    I.reserve m al b n h = if usizeSize ≤ l + n then (if m = .debug then .panic else .ok b h) else if fp = none then .panic else .ub
  exact : ∀ m {al : Allocator} {b h s l fp} n, al.Valid → Rep b h s l fp → l + n ≤ isizeMax →
    I.reserve m al b n h = .abort ∨
    ∃ b' h' fp' s', I.reserve m al b n h = .ok b' h' ∧ Rep b' h' s' l fp' ∧ l + n ≤ s'.length ∧ s.length ≤ s'.length ∧
      s'.take l = s.take l ∧ Frame h h' fp fp' ∧ s'.length = max s.length (l + n)

theorem le_inline : Inline little LE.Rep 23 where
  inline hr := by
    obtain ⟨v, _, hh⟩ := hr
    cases hh with
    | inline h1 h2 => simpa using h1
  beyond m al _ _ _ _ _ hr n := LE.reserve_beyond m al hr n
  exact m _ _ _ _ _ _ n := LE.rep_reserve_exact m n

theorem ue_inline : Inline universal UE.Rep 16 where
  inline hr := by
    obtain ⟨v, _, hh⟩ := hr
    cases hh with
    | inline h1 h2 => simpa using h1
  beyond m al _ _ _ _ _ hr n := UE.reserve_beyond m al hr n
  exact m _ _ _ _ _ _ n := UE.rep_reserve_exact m n

variable {I : Impl} {Rep : I.B → Heap → List Cell → Nat → Option Nat → Prop} {m : Build} {al : Allocator} {init : Nat}

/-- The allocator gives no block larger than `cap`. -/
def Caps (cap : Nat) (al : Allocator) : Prop := ∀ clock bl size, cap < size → size ≤ isizeMax → al clock bl size = none

theorem caps_max (al : Allocator) : Caps isizeMax al := fun _ _ _ h1 h2 => absurd h2 (by omega)

/-- The buffer has these octets, with no more room than they need beyond what is inline, and on the heap only if they do not fit inline; and the
allocator has allowed that. -/
def Fits (Rep : I.B → Heap → List Cell → Nat → Option Nat → Prop) (init cap : Nat) (b : I.B) (h : Heap) (w : Bytes) (fp : Option Nat) : Prop :=
  ∃ R, Rep b h (w.map some ++ R) w.length fp ∧ w.length + R.length = max init w.length ∧ (fp ≠ none → init < w.length) ∧
    w.length ≤ max init cap

theorem Fits.has {cap : Nat} {b : I.B} {h : Heap} {w : Bytes} {fp : Option Nat} (hb : Fits Rep init cap b h w fp) : Has Rep b h w fp := by
  obtain ⟨R, hr, _⟩ := hb
  exact ⟨R, hr⟩

theorem Fits.inline {cap : Nat} {b : I.B} {h : Heap} {w : Bytes} {fp : Option Nat} (hi : Inline I Rep init) (hb : Fits Rep init cap b h w fp) :
    fp = none ↔ w.length ≤ init := by
  obtain ⟨R, hr, h1, h2, h3⟩ := hb
  constructor
  · rintro rfl
    have := hi.inline hr
    simp only [List.length_append, List.length_map] at this
    omega
  · intro hl
    by_contra h0
    have := h2 h0; omega

/-- A call goes well, or the allocator refuses; but the allocator is asked only if `N` octets do not fit inline. -/
def Goes {α : Type} (init N : Nat) (x : M α) (h : Heap) (Q : α → Heap → Option Nat → Prop) : Prop :=
  (x h = .abort ∧ init < N) ∨ ∃ a h' fp', x h = .ok a h' ∧ Q a h' fp'

section goes
variable {α β : Type} {x : M α} {f : α → M β} {h : Heap} {Q Q' : α → Heap → Option Nat → Prop} {R : β → Heap → Option Nat → Prop} {N N' : Nat}

theorem Goes.bind (hx : Goes init N x h Q) (hN : N ≤ N') (hf : ∀ a h' fp', Q a h' fp' → Goes init N' (f a) h' R) : Goes init N' (x >>= f) h R := by
  rcases hx with ⟨e, hi⟩ | ⟨a, h', fp', e, q⟩
  · exact .inl ⟨bind_abort e, by omega⟩
  · rcases hf a h' fp' q with ⟨e2, hi⟩ | ⟨b, h'', fp'', e2, q2⟩
    · exact .inl ⟨by rw [bind_ok e, e2], hi⟩
    · exact .inr ⟨b, h'', fp'', by rw [bind_ok e, e2], q2⟩

theorem Goes.of_run {a : α} {h' : Heap} {fp : Option Nat} (e : x h = .ok a h') (q : Q a h' fp) : Goes init N x h Q := .inr ⟨a, h', fp, e, q⟩

theorem Goes.same {a : α} (e : x h = .ok a h) (s : Goes init N (f a) h R) : Goes init N (x >>= f) h R := by
  rcases s with ⟨e2, hi⟩ | ⟨b, h', fp', e2, q⟩
  · exact .inl ⟨by rw [bind_ok e, e2], hi⟩
  · exact .inr ⟨b, h', fp', by rw [bind_ok e, e2], q⟩

theorem Goes.mono (hx : Goes init N x h Q) (hN : N ≤ N') (hq : ∀ a h' fp', Q a h' fp' → Q' a h' fp') : Goes init N' x h Q' := by
  rcases hx with ⟨e, hi⟩ | ⟨a, h', fp', e, q⟩
  · exact .inl ⟨e, by omega⟩
  · exact .inr ⟨a, h', fp', e, hq _ _ _ q⟩

end goes

variable {cap : Nat}

theorem fits_new (hf : Frugal I Rep) (hi : Inline I Rep init) (h : Heap) : Fits Rep init cap I.new h [] none := by
  obtain ⟨s, hr, _⟩ := hf.init h
  have := hi.inline hr
  exact ⟨s, by simpa using hr, by simpa using this, fun hh => absurd rfl hh, by simp⟩

theorem goes_reserve (hc : Correct I Rep) (hf : Frugal I Rep) (hi : Inline I Rep init) (hv : al.Valid) (hcap : Caps cap al) {b : I.B} {h : Heap}
    {w : Bytes} {fp : Option Nat} (hb : Fits Rep init cap b h w fp) (n : Nat) (hn : w.length + n ≤ isizeMax) :
    Goes init (w.length + n) (I.reserve m al b n) h (fun b h fp => ∃ R, Rep b h (w.map some ++ R) w.length fp ∧
      w.length + R.length = max init (w.length + n) ∧ (fp ≠ none → init < w.length + n) ∧ w.length + n ≤ max init cap) := by
  obtain ⟨R, hr, hR, hfp, hle⟩ := hb
  have hsl : (w.map some ++ R).length = max init w.length := by simpa using hR
  by_cases he : w.length + n ≤ (w.map some ++ R).length
  · refine .of_run (hf.enough m al n hr he) ⟨R, hr, by omega, fun hh => Nat.lt_of_lt_of_le (hfp hh) (Nat.le_add_right _ _), by omega⟩
  · have hlt : init < w.length + n := by omega
    by_cases hall : w.length + n ≤ max init cap
    · rcases hi.exact m n hv hr hn with e | ⟨b', h', fp', s, e, hr', hs1, hs2, hs3, _, hs4⟩
      · exact .inl ⟨e, hlt⟩
      · rw [take_of_append (by simp)] at hs3
        obtain ⟨S, rfl⟩ : ∃ S, s = w.map some ++ S := ⟨s.drop w.length, by rw [← hs3, List.take_append_drop]⟩
        refine .of_run e ⟨S, hr', ?_, fun _ => hlt, hall⟩
        rw [hsl] at hs4
        simp only [List.length_append, List.length_map] at hs4
        omega
    · exact .inl ⟨hf.refused m al n hr (by omega) hn (fun c bl => hcap c bl _ (by omega) hn), hlt⟩

theorem goes_writeAll (hc : Correct I Rep) (hf : Frugal I Rep) (hi : Inline I Rep init) (hv : al.Valid) (hcap : Caps cap al) :
    ∀ (w w0 : Bytes) (b : I.B) (h : Heap) (fp : Option Nat), Fits Rep init cap b h w0 fp → w0.length + w.length ≤ isizeMax →
    Goes init (w0.length + w.length) (writeAll I m al w b) h (fun b h fp => Fits Rep init cap b h (w0 ++ w) fp)
  | [], w0, b, h, fp, hb, _ => .of_run (fp := fp) rfl (by simpa using hb)
  | o :: r, w0, b, h, fp, hb, hl => by
    simp only [List.length_cons] at hl
    unfold writeAll
    refine Goes.bind (N := w0.length + 1) (Q := fun b h fp => Fits Rep init cap b h (w0 ++ [o]) fp) ?_ (by simp) ?_
    · unfold Impl.write
      refine (goes_reserve hc hf hi hv hcap hb [o].length (by simp; omega)).bind (Nat.le_refl _) ?_
      rintro b h fp ⟨R, hr, hR, hfp, hle⟩
      simp only [List.length_singleton] at hR hfp hle
      obtain ⟨b', h', e, hr', _⟩ := hc.extend m [o] hr (by simp; omega)
      have e2 := patch_append (w0.map some) R ([o].map some)
      rw [List.length_map] at e2
      rw [e2] at hr'
      refine .of_run (fp := fp) e ⟨R.drop 1, by simpa using hr', ?_, by simpa using hfp, by simpa using hle⟩
      simp
      omega
    · intro b h fp hb
      have := goes_writeAll hc hf hi hv hcap r (w0 ++ [o]) b h fp hb (by simp; omega)
      refine this.mono (by simp; omega) ?_
      intro b h fp hq
      simpa using hq

/-- How a call ends that makes room for `n` octets behind the `L` of the buffer where `L + n` is beyond the limit. -/
def Overflows {α : Type} (init L n : Nat) (o : Out α) : Prop :=
  if L ≤ init then o = .panic else o = .abort ∨ o = if L + n < 2 ^ 64 then .ub else .panic

theorem Overflows.bind_of_ok {α β : Type} {x : M α} {f : α → M β} {a : α} {h h' : Heap} {L n : Nat} (e : x h = .ok a h')
    (hf : Overflows init L n (f a h')) : Overflows init L n ((x >>= f) h) := by
  rw [bind_ok e]; exact hf

theorem Overflows.of_goes {α β : Type} {x : M α} {f : α → M β} {h : Heap} {L n N : Nat} {Q : α → Heap → Option Nat → Prop}
    (hx : Goes init N x h Q) (hN : N ≤ L) (hf : ∀ a h' fp', Q a h' fp' → Overflows init L n (f a h')) : Overflows init L n ((x >>= f) h) := by
  rcases hx with ⟨e, hi⟩ | ⟨a, h', fp', e, q⟩
  · rw [Overflows, if_neg (by omega)]
    exact .inl (bind_abort e)
  · exact .bind_of_ok e (hf a h' fp' q)

/-- The wrapped sum. -/
theorem usizeAdd_over {a n : Nat} (h : usizeSize ≤ a + n) (hn : n < usizeSize) (hp : Heap) :
    usizeAdd .debug a n hp = .panic ∧ ∃ t, usizeAdd .release a n hp = .ok t hp ∧ t < a := by
  refine ⟨by rw [usizeAdd, if_neg (by omega)]; rfl, (a + n) % usizeSize, by rw [usizeAdd, if_neg (by omega)]; rfl, ?_⟩
  have h0 : (a + n) % usizeSize < usizeSize := Nat.mod_lt _ (by omega)
  rcases Nat.lt_or_ge a usizeSize with ha | ha
  · rw [Nat.mod_eq_sub_mod (by omega), Nat.mod_eq_of_lt (by omega)]
    omega
  · omega

theorem setLen_short (hc : Correct I Rep) {b : I.B} {h : Heap} {w : Bytes} {fp : Option Nat} (hb : Has Rep b h w fp) {t : Nat} (ht : t < w.length) :
    ∃ b', I.setLenChecked m b t h = .ok b' h ∧ I.len b' = t := by
  obtain ⟨R, hr⟩ := hb
  have ht' : t ≤ (w.map some ++ R).length := by simp; omega
  obtain ⟨b', e, h1⟩ := hc.setLen m t hr ht'
  exact ⟨b', by rw [Impl.setLenChecked, bind_ok (hc.capacity hr), bind_ok (debugAssert_ok m ht' h), e], hc.len h1⟩

theorem setLen_ok (hc : Correct I Rep) {b : I.B} {h : Heap} {s : List Cell} {l : Nat} {fp : Option Nat} (hr : Rep b h s l fp) {n : Nat}
    (hn : n ≤ s.length) : ∃ b', I.setLenChecked m b n h = .ok b' h ∧ Rep b' h s n fp := by
  obtain ⟨b', e, h1⟩ := hc.setLen m n hr hn
  exact ⟨b', by rw [Impl.setLenChecked, bind_ok (hc.capacity hr), bind_ok (debugAssert_ok m hn h), e], h1⟩

/-- `reserve` alone: all that is left to do panics if it returns. -/
theorem reserve_over (hc : Correct I Rep) (hi : Inline I Rep init) {b : I.B} {h : Heap} {w : Bytes} {fp : Option Nat}
    (hb : Fits Rep init cap b h w fp) {n : Nat} (hn : n < 2 ^ 64) (ho : isizeMax < w.length + n) {β : Type} {f : I.B → M β}
    (hf : m = .release → usizeSize ≤ w.length + n → f b h = .panic) :
    Overflows init w.length n ((I.reserve m al b n >>= f) h) := by
  have hin := hb.inline hi
  obtain ⟨R, hr, _⟩ := hb
  have hu := usizeSize_eq
  have e := hi.beyond m al hr n (by omega) ho
  have hout : ∀ o : Out β, (I.reserve m al b n >>= f) h = o →
      (o = if usizeSize ≤ w.length + n then .panic else if w.length ≤ init then .panic else .ub) → Overflows init w.length n o := by
    intro o _ ho
    unfold Overflows
    by_cases h1 : w.length ≤ init
    · rw [if_pos h1]; rw [ho]; split
      · rfl
      · rfl
    · rw [if_neg h1]; right
      rw [ho]
      by_cases h2 : usizeSize ≤ w.length + n
      · rw [if_pos h2, if_neg (by omega)]
      · rw [if_neg h2, if_neg h1, if_pos (by omega)]
  refine hout _ rfl ?_
  by_cases h2 : usizeSize ≤ w.length + n
  · rw [if_pos h2] at e ⊢
    cases m with
    | debug => exact bind_panic (by rw [e]; rfl)
    | release =>
      rw [if_neg (nomatch ·)] at e
      rw [bind_ok e]
      exact hf rfl h2
  · rw [if_neg h2] at e ⊢
    by_cases h3 : w.length ≤ init
    · rw [if_pos h3]
      rw [if_pos (hin.mpr h3)] at e
      exact bind_panic e
    · rw [if_neg h3]
      rw [if_neg (fun h => h3 (hin.mp h))] at e
      exact bind_ub e

/-- `Der::parse` of a header that announces too much. -/
theorem der_over {rd : Nat → Bytes → ReadEffect Bytes} (hc : Correct I Rep) (hf : Frugal I Rep) (hi : Inline I Rep init) (hv : al.Valid) (hcap : Caps cap al) (h : Heap) {id q : Bytes} {n : Nat}
    (hid : IsId id) (hn : n < 2 ^ 64) (hl : (id ++ lenOctets n ++ q).length ≤ isizeMax) (ho : isizeMax < (id ++ lenOctets n).length + n) :
    Overflows init (id ++ lenOctets n).length n (Der.parse I m al rd (id ++ lenOctets n ++ q) h) := by
  have hu := usizeSize_eq
  unfold Der.parse
  rw [parseIdLength_definite hid hn]
  simp only [List.nil_append]
  generalize hw : id ++ lenOctets n = w at *
  have hl' : w.length ≤ isizeMax := by rw [List.length_append] at hl; omega
  refine Overflows.of_goes (goes_writeAll hc hf hi hv hcap w [] I.new h none (fits_new hf hi h) (by simpa using hl')) (by simp) ?_
  intro b h fp hb
  rw [List.nil_append] at hb
  simp only [hb.has.len hc]
  by_cases h2 : usizeSize ≤ w.length + n
  · obtain ⟨h3, t, h4, ht⟩ := usizeAdd_over h2 (by omega) h
    cases m with
    | debug =>
      rw [bind_panic h3, Overflows]
      split
      · rfl
      · right; rw [if_neg (by omega)]
    | release =>
      refine .bind_of_ok h4 ?_
      refine reserve_over hc hi hb hn ho fun _ _ => ?_
      obtain ⟨b', e, hlen⟩ := setLen_short (m := .release) hc hb.has ht
      rw [bind_ok e, hlen, if_pos ht]
      rfl
  · refine .bind_of_ok (usizeAdd_ok m (by omega) h) ?_
    exact reserve_over hc hi hb hn ho fun _ h3 => absurd h3 h2

/-- A step of `Ber::parse` on such a header. -/
theorem berDo_over (hc : Correct I Rep) (hf : Frugal I Rep) (hi : Inline I Rep init) (hv : al.Valid) (hcap : Caps cap al) {b : I.B} {h : Heap} {w : Bytes}
    {fp : Option Nat} (hb : Fits Rep init cap b h w fp) {id q : Bytes} {n : Nat} (hid : IsId id) (hn : n < 2 ^ 64)
    (hl : w.length + (id ++ lenOctets n ++ q).length ≤ isizeMax) (ho : isizeMax < (w ++ id ++ lenOctets n).length + n) {β : Type}
    {f : Except Error (Int × I.B) × Bytes → M β} :
    Overflows init (w ++ id ++ lenOctets n).length n ((Ber.doParse I m al honestReadExact b (id ++ lenOctets n ++ q) >>= f) h) := by
  have hu := usizeSize_eq
  have key : Overflows (α := Except Error (Int × I.B) × Bytes) init (w ++ id ++ lenOctets n).length n
      (Ber.doParse I m al honestReadExact b (id ++ lenOctets n ++ q) h) := by
    unfold Ber.doParse
    rw [parseIdLength_definite hid hn]
    simp only [List.nil_append]
    rw [List.append_assoc w] at ho ⊢
    generalize hw : id ++ lenOctets n = w1 at *
    have hl' : w.length + w1.length ≤ isizeMax := by rw [List.length_append] at hl; omega
    refine Overflows.of_goes (goes_writeAll hc hf hi hv hcap w1 w b h fp hb hl') (by simp) ?_
    intro b h fp hb
    refine reserve_over hc hi hb hn ho fun hm h2 => ?_
    subst hm
    simp only [hb.has.len hc]
    obtain ⟨_, t, h4, ht⟩ := usizeAdd_over h2 (by omega) h
    obtain ⟨b', e, hlen⟩ := setLen_short (m := .release) hc hb.has ht
    rw [bind_ok h4, bind_ok e, hlen, if_pos ht]
    rfl
  unfold Overflows at key ⊢
  split at key
  · rw [if_pos ‹_›]; exact bind_panic key
  · rw [if_neg ‹_›]
    rcases key with e | e
    · exact .inl (bind_abort e)
    · right
      split at e
      · rw [if_pos ‹_›]; exact bind_ub e
      · rw [if_neg ‹_›]; exact bind_panic e

/-- A step on an element that is there. -/
theorem berDo_goes (hc : Correct I Rep) (hf : Frugal I Rep) (hi : Inline I Rep init) (hv : al.Valid) (hcap : Caps cap al) {b : I.B} {h : Heap} {w : Bytes}
    {fp : Option Nat} (hb : Fits Rep init cap b h w fp) {id c q : Bytes} (hid : IsId id) (hn : c.length < 2 ^ 64)
    (hl : w.length + (tlv id c ++ q).length ≤ isizeMax) :
    Goes init (w ++ tlv id c).length (Ber.doParse I m al honestReadExact b (tlv id c ++ q)) h (fun a h fp =>
      ∃ b, a = (.ok (if tlv id c = BerRef.eoc then -1 else 0, b), q) ∧ Fits Rep init cap b h (w ++ tlv id c) fp) := by
  have hu := usizeSize_eq
  have hmax := isizeMax_lt
  have et : tlv id c ++ q = id ++ lenOctets c.length ++ (c ++ q) := by simp [tlv]
  rw [et] at hl ⊢
  unfold Ber.doParse
  rw [parseIdLength_definite hid hn]
  simp only [List.nil_append]
  have et2 : tlv id c = id ++ lenOctets c.length ++ c := rfl
  rw [et2]
  generalize hw : id ++ lenOctets c.length = w1 at *
  simp only [List.length_append] at hl
  refine (goes_writeAll hc hf hi hv hcap w1 w b h fp hb (by omega)).bind (by simp) ?_
  have h0 := hb.has.len hc
  intro b h fp hb
  rw [h0]
  refine (goes_reserve hc hf hi hv hcap hb c.length (by simp; omega)).bind (by simp; omega) ?_
  rintro b h fp ⟨R, hr, hR', hfp, hle'⟩
  have hR : c.length ≤ R.length := by omega
  have hlen := hc.len hr
  rw [hlen]
  refine .same (usizeAdd_ok m (by simp; omega) h) ?_
  obtain ⟨b1, e1, hr1⟩ := setLen_ok (m := m) hc hr (n := (w ++ w1).length + c.length)
    (by simp only [List.length_append, List.length_map]; omega)
  refine .same e1 ?_
  rw [hc.len hr1, if_neg (by omega), Nat.add_sub_cancel_left]
  simp only [honestReadExact]
  obtain ⟨s', j1, j2⟩ := readExact_slice c.length (c ++ q)
  have hle : c.length ≤ (c ++ q).length := by simp
  rw [j1, if_pos hle]
  rw [List.drop_left] at j2
  subst j2
  simp only [List.take_left, List.take_length]
  obtain ⟨b2, h2, e2, hr2, _⟩ := hc.poke (w ++ w1).length c hr1 (by simp only [List.length_append, List.length_map]; omega)
  have e3 := patch_append ((w ++ w1).map some) R (c.map some)
  rw [List.length_map] at e3
  rw [e3] at hr2
  have hb2 : Has Rep b2 h2 (w ++ (w1 ++ c)) fp := Has.of_append (R := R.drop c.length) hr2 (by simp [List.map_append]) (by simp; omega)
  have e4 := isEoc_ok hc hb2
  refine .of_run (fp := fp) (a := (.ok (if w1 ++ c = BerRef.eoc then -1 else 0, b2), s')) (h' := h2) ?_ ⟨b2, rfl, R.drop c.length, by simpa [Nat.add_assoc] using hr2, ?_, fun hh => ?_, ?_⟩
  · rw [bind_ok e2, bind_ok e4, pure_run]
    by_cases hh : w1 ++ c = BerRef.eoc <;> simp [hh]
  · simp only [List.length_append, List.length_drop] at hR' ⊢
    omega
  · have := hfp hh
    simp only [List.length_append] at this ⊢
    omega
  · simp only [List.length_append] at hle' ⊢
    omega

theorem berDo_goes_indef (hc : Correct I Rep) (hf : Frugal I Rep) (hi : Inline I Rep init) (hv : al.Valid) (hcap : Caps cap al) {b : I.B} {h : Heap} {w : Bytes}
    {fp : Option Nat} (hb : Fits Rep init cap b h w fp) {id q : Bytes} (hid : IsId id)
    (hl : w.length + (id ++ indefOctets ++ q).length ≤ isizeMax) :
    Goes init (w ++ id ++ indefOctets).length (Ber.doParse I m al honestReadExact b (id ++ indefOctets ++ q)) h (fun a h fp =>
      ∃ b, a = (.ok (1, b), q) ∧ Fits Rep init cap b h (w ++ id ++ indefOctets) fp) := by
  unfold Ber.doParse
  rw [parseIdLength_indefinite hid]
  simp only [List.nil_append]
  rw [List.append_assoc w]
  generalize hw : id ++ indefOctets = w1 at *
  simp only [List.length_append] at hl
  refine (goes_writeAll hc hf hi hv hcap w1 w b h fp hb (by omega)).bind (by simp) ?_
  intro b h fp hb
  exact .of_run (fp := fp) rfl ⟨b, rfl, hb⟩

/-- The loop on such a header where one is due. -/
theorem berLoop_overflows (hc : Correct I Rep) (hf : Frugal I Rep) (hi : Inline I Rep init) (hv : al.Valid) (hcap : Caps cap al) {d d' : Nat} {p : Bytes}
    (hp : Due d p d') : ∀ {id q : Bytes} {n : Nat} (w : Bytes) (b : I.B) (h : Heap) (fp : Option Nat) (f : Nat), Fits Rep init cap b h w fp →
    IsId id → n < 2 ^ 64 → w.length + (p ++ (id ++ lenOctets n ++ q)).length ≤ isizeMax →
    (p ++ (id ++ lenOctets n ++ q)).length < f → d ≤ w.length → isizeMax < (w ++ p ++ id ++ lenOctets n).length + n →
    Overflows init (w ++ p ++ id ++ lenOctets n).length n
      (Ber.parseLoop I m al honestReadExact f d b (p ++ (id ++ lenOctets n ++ q)) h) := by
  have next : ∀ {d δ : Int} {b : I.B} {h : Heap} {s s' : Bytes} {L n N f : Nat} {w' : Bytes},
      Goes init N (Ber.doParse I m al honestReadExact b s) h (fun a h fp => ∃ b, a = (.ok (δ, b), s') ∧ Fits Rep init cap b h w' fp) →
      N ≤ L → 0 < d + δ → d + δ ≤ isizeMax →
      (∀ b h fp, Fits Rep init cap b h w' fp → Overflows init L n (Ber.parseLoop I m al honestReadExact f (d + δ) b s' h)) →
      Overflows init L n (Ber.parseLoop I m al honestReadExact (f + 1) d b s h) := by
    intro d δ b h s s' L n N f w' hg hN h1 h2 hk
    unfold Ber.parseLoop
    refine Overflows.of_goes hg hN ?_
    rintro _ h fp ⟨b, rfl, hb⟩
    simp only
    rw [if_neg (by omega), if_pos h1]
    exact hk b h fp hb
  induction hp with
  | nil d =>
    intro id q n w b h fp f hb hid hn hl hfu hd ho
    obtain ⟨f, rfl⟩ : ∃ k, f = k + 1 := ⟨f - 1, by omega⟩
    simp only [List.append_nil, List.nil_append] at ho hl ⊢
    unfold Ber.parseLoop
    exact berDo_over hc hf hi hv hcap hb hid hn hl ho
  | skip d d' id' c bs hd0 hid' hcl hne hdue ih =>
    intro id q n w b h fp f hb hid hn hl hfu hd ho
    obtain ⟨f, rfl⟩ : ∃ k, f = k + 1 := ⟨f - 1, by omega⟩
    rw [List.append_assoc (tlv id' c)] at hl hfu ⊢
    have hg := berDo_goes (m := m) hc hf hi hv hcap hb (q := bs ++ (id ++ lenOctets n ++ q)) hid' hcl hl
    have hne' : ¬ tlv id' c = BerRef.eoc := hne
    rw [if_neg hne'] at hg
    have hpos := isId_length_pos hid'
    have htl := tlv_length id' c
    refine next hg (by simp) (by omega) ?_ ?_
    · simp only [List.length_append] at hl; omega
    · intro b h fp hb
      rw [Int.add_zero]
      have := ih (q := q) (w ++ tlv id' c) b h fp f hb hid hn (by simp only [List.length_append] at hl ⊢; omega)
        (by simp only [List.length_append] at hfu ⊢; omega) (by simp; omega) (by simpa using ho)
      simpa using this
  | «open» d d' id' bs hid' hdue ih =>
    intro id q n w b h fp f hb hid hn hl hfu hd ho
    obtain ⟨f, rfl⟩ : ∃ k, f = k + 1 := ⟨f - 1, by omega⟩
    rw [List.append_assoc (id' ++ indefOctets)] at hl hfu ⊢
    have hg := berDo_goes_indef (m := m) hc hf hi hv hcap hb (q := bs ++ (id ++ lenOctets n ++ q)) hid' hl
    have hpos := isId_length_pos hid'
    have hil : indefOctets.length = 1 := rfl
    refine next hg (by simp) (by omega) ?_ ?_
    · simp only [List.length_append] at hl; omega
    · intro b h fp hb
      have := ih (q := q) (w ++ id' ++ indefOctets) b h fp f hb hid hn (by simp only [List.length_append] at hl ⊢; omega)
        (by simp only [List.length_append] at hfu ⊢; omega) (by simp; omega) (by simpa using ho)
      simpa using this
  | close d d' bs hd0 hdue ih =>
    intro id q n w b h fp f hb hid hn hl hfu hd ho
    obtain ⟨f, rfl⟩ : ∃ k, f = k + 1 := ⟨f - 1, by omega⟩
    have hid0 : IsId [0x00] := ⟨0, 0, 0, by decide, by decide, by decide⟩
    have et : Spec.eoc = tlv [0x00] [] := by decide
    rw [et] at hl hfu ho ⊢
    rw [List.append_assoc (tlv [0x00] [])] at hl hfu ⊢
    have hg := berDo_goes (m := m) hc hf hi hv hcap hb (q := bs ++ (id ++ lenOctets n ++ q)) hid0 (by decide) hl
    rw [if_pos (by decide)] at hg
    have htl : (tlv [0x00] []).length = 2 := by decide
    refine next hg (by simp) (by omega) ?_ ?_
    · simp only [List.length_append] at hl; omega
    · intro b h fp hb
      have e2 : ((d + 1 : Nat) : Int) + -1 = (d : Int) := by omega
      rw [e2]
      have := ih (q := q) (w ++ tlv [0x00] []) b h fp f hb hid hn (by simp only [List.length_append] at hl ⊢; omega)
        (by simp only [List.length_append] at hfu ⊢; omega) (by simp; omega) (by simpa using ho)
      simpa using this

theorem ber_over (hc : Correct I Rep) (hf : Frugal I Rep) (hi : Inline I Rep init) (hv : al.Valid) (hcap : Caps cap al) (h : Heap) {d : Nat} {p id q : Bytes} {n : Nat}
    (hp : Due 0 p d) (hid : IsId id) (hn : n < 2 ^ 64) (hl : (p ++ (id ++ lenOctets n ++ q)).length ≤ isizeMax)
    (ho : isizeMax < (p ++ id ++ lenOctets n).length + n) :
    Overflows init (p ++ id ++ lenOctets n).length n (Ber.parse I m al honestReadExact (p ++ (id ++ lenOctets n ++ q)) h) := by
  have := berLoop_overflows (m := m) hc hf hi hv hcap hp (q := q) [] I.new h none (Reader.size (p ++ (id ++ lenOctets n ++ q)) + 1)
    (fits_new hf hi h) hid hn (by simpa using hl) (by simp [size_bytes]) (by simp) (by simpa using ho)
  simpa [Ber.parse] using this

/-! ### Requests -/

/-- What follows a call that is refused or does what cannot be. -/
theorem Goes.abort {α β : Type} {x : M α} {f : α → M β} {h : Heap} {N : Nat} {Q : α → Heap → Option Nat → Prop} (hx : Goes init N x h Q)
    (hf : ∀ a h' fp', Q a h' fp' → f a h' = .abort) : (x >>= f) h = .abort := by
  rcases hx with ⟨e, _⟩ | ⟨a, h', fp', e, q⟩
  · exact bind_abort e
  · rw [bind_ok e]; exact hf _ _ _ q

/-- A header that announces more than the allocator gives ends `Der::parse`. -/
theorem der_refused {rd : Nat → Bytes → ReadEffect Bytes} (hc : Correct I Rep) (hf : Frugal I Rep) (hi : Inline I Rep init) (hv : al.Valid) (hcap : Caps cap al) (h : Heap)
    {id q : Bytes} {n : Nat} (hid : IsId id) (hn : n < 2 ^ 64) (hl : (id ++ lenOctets n).length + n ≤ isizeMax)
    (ho : max init cap < (id ++ lenOctets n).length + n) : Der.parse I m al rd (id ++ lenOctets n ++ q) h = .abort := by
  have hu := usizeSize_eq
  have hmax := isizeMax_lt
  unfold Der.parse
  rw [parseIdLength_definite hid hn]
  simp only [List.nil_append]
  generalize hw : id ++ lenOctets n = w at *
  refine (goes_writeAll hc hf hi hv hcap w [] I.new h none (fits_new hf hi h) (by simp; omega)).abort ?_
  intro b h fp hb
  rw [List.nil_append] at hb
  simp only [hb.has.len hc]
  rw [bind_ok (usizeAdd_ok m (by omega) h)]
  refine (goes_reserve hc hf hi hv hcap hb n hl).abort ?_
  rintro b h fp ⟨_, _, _, _, hle⟩
  omega

/-- The same in a step of `Ber::parse`. -/
theorem berDo_refused (hc : Correct I Rep) (hf : Frugal I Rep) (hi : Inline I Rep init) (hv : al.Valid) (hcap : Caps cap al) {b : I.B} {h : Heap}
    {w : Bytes} {fp : Option Nat} (hb : Fits Rep init cap b h w fp) {id q : Bytes} {n : Nat} (hid : IsId id) (hn : n < 2 ^ 64)
    (hl : (w ++ id ++ lenOctets n).length + n ≤ isizeMax) (ho : max init cap < (w ++ id ++ lenOctets n).length + n) :
    Ber.doParse I m al honestReadExact b (id ++ lenOctets n ++ q) h = .abort := by
  unfold Ber.doParse
  rw [parseIdLength_definite hid hn]
  simp only [List.nil_append]
  rw [List.append_assoc w] at hl ho
  generalize hw : id ++ lenOctets n = w1 at *
  have hl1 : w.length + w1.length ≤ isizeMax := by rw [List.length_append] at hl; omega
  refine (goes_writeAll hc hf hi hv hcap w1 w b h fp hb hl1).abort ?_
  intro b h fp hb
  refine (goes_reserve hc hf hi hv hcap hb n hl).abort ?_
  rintro b h fp ⟨_, _, _, _, hle⟩
  omega

theorem berLoop_refused (hc : Correct I Rep) (hf : Frugal I Rep) (hi : Inline I Rep init) (hv : al.Valid) (hcap : Caps cap al) {d d' : Nat}
    {p : Bytes} (hp : Due d p d') : ∀ {id q : Bytes} {n : Nat} (w : Bytes) (b : I.B) (h : Heap) (fp : Option Nat) (f : Nat),
    Fits Rep init cap b h w fp → IsId id → n < 2 ^ 64 → w.length + (p ++ (id ++ lenOctets n ++ q)).length ≤ isizeMax →
    (p ++ (id ++ lenOctets n ++ q)).length < f → d ≤ w.length → (w ++ p ++ id ++ lenOctets n).length + n ≤ isizeMax →
    max init cap < (w ++ p ++ id ++ lenOctets n).length + n →
    Ber.parseLoop I m al honestReadExact f d b (p ++ (id ++ lenOctets n ++ q)) h = .abort := by
  have next : ∀ {d δ : Int} {b : I.B} {h : Heap} {s s' : Bytes} {N f : Nat} {w' : Bytes},
      Goes init N (Ber.doParse I m al honestReadExact b s) h (fun a h fp => ∃ b, a = (.ok (δ, b), s') ∧ Fits Rep init cap b h w' fp) →
      0 < d + δ → d + δ ≤ isizeMax →
      (∀ b h fp, Fits Rep init cap b h w' fp → Ber.parseLoop I m al honestReadExact f (d + δ) b s' h = .abort) →
      Ber.parseLoop I m al honestReadExact (f + 1) d b s h = .abort := by
    intro d δ b h s s' N f w' hg h1 h2 hk
    unfold Ber.parseLoop
    refine hg.abort ?_
    rintro _ h fp ⟨b, rfl, hb⟩
    simp only
    rw [if_neg (by omega), if_pos h1]
    exact hk b h fp hb
  induction hp with
  | nil d =>
    intro id q n w b h fp f hb hid hn hl hfu hd hl2 ho
    obtain ⟨f, rfl⟩ : ∃ k, f = k + 1 := ⟨f - 1, by omega⟩
    simp only [List.append_nil, List.nil_append] at ho hl hl2 ⊢
    unfold Ber.parseLoop
    exact bind_abort (berDo_refused hc hf hi hv hcap hb hid hn hl2 ho)
  | skip d d' id' c bs hd0 hid' hcl hne hdue ih =>
    intro id q n w b h fp f hb hid hn hl hfu hd hl2 ho
    obtain ⟨f, rfl⟩ : ∃ k, f = k + 1 := ⟨f - 1, by omega⟩
    rw [List.append_assoc (tlv id' c)] at hl hfu ⊢
    have hg := berDo_goes (m := m) hc hf hi hv hcap hb (q := bs ++ (id ++ lenOctets n ++ q)) hid' hcl hl
    have hne' : ¬ tlv id' c = BerRef.eoc := hne
    rw [if_neg hne'] at hg
    have hpos := isId_length_pos hid'
    have htl := tlv_length id' c
    refine next hg (by omega) ?_ ?_
    · simp only [List.length_append] at hl; omega
    · intro b h fp hb
      rw [Int.add_zero]
      exact ih (q := q) (w ++ tlv id' c) b h fp f hb hid hn (by simp only [List.length_append] at hl ⊢; omega)
        (by simp only [List.length_append] at hfu ⊢; omega) (by simp; omega) (by simpa using hl2) (by simpa using ho)
  | «open» d d' id' bs hid' hdue ih =>
    intro id q n w b h fp f hb hid hn hl hfu hd hl2 ho
    obtain ⟨f, rfl⟩ : ∃ k, f = k + 1 := ⟨f - 1, by omega⟩
    rw [List.append_assoc (id' ++ indefOctets)] at hl hfu ⊢
    have hg := berDo_goes_indef (m := m) hc hf hi hv hcap hb (q := bs ++ (id ++ lenOctets n ++ q)) hid' hl
    have hpos := isId_length_pos hid'
    have hil : indefOctets.length = 1 := rfl
    refine next hg (by omega) ?_ ?_
    · simp only [List.length_append] at hl; omega
    · intro b h fp hb
      exact ih (q := q) (w ++ id' ++ indefOctets) b h fp f hb hid hn (by simp only [List.length_append] at hl ⊢; omega)
        (by simp only [List.length_append] at hfu ⊢; omega) (by simp; omega) (by simpa using hl2) (by simpa using ho)
  | close d d' bs hd0 hdue ih =>
    intro id q n w b h fp f hb hid hn hl hfu hd hl2 ho
    obtain ⟨f, rfl⟩ : ∃ k, f = k + 1 := ⟨f - 1, by omega⟩
    have hid0 : IsId [0x00] := ⟨0, 0, 0, by decide, by decide, by decide⟩
    have et : Spec.eoc = tlv [0x00] [] := by decide
    rw [et] at hl hfu ho hl2 ⊢
    rw [List.append_assoc (tlv [0x00] [])] at hl hfu ⊢
    have hg := berDo_goes (m := m) hc hf hi hv hcap hb (q := bs ++ (id ++ lenOctets n ++ q)) hid0 (by decide) hl
    rw [if_pos (by decide)] at hg
    have htl : (tlv [0x00] []).length = 2 := by decide
    refine next hg (by omega) ?_ ?_
    · simp only [List.length_append] at hl; omega
    · intro b h fp hb
      have e2 : ((d + 1 : Nat) : Int) + -1 = (d : Int) := by omega
      rw [e2]
      exact ih (q := q) (w ++ tlv [0x00] []) b h fp f hb hid hn (by simp only [List.length_append] at hl ⊢; omega)
        (by simp only [List.length_append] at hfu ⊢; omega) (by simp; omega) (by simpa using hl2) (by simpa using ho)

theorem ber_refused (hc : Correct I Rep) (hf : Frugal I Rep) (hi : Inline I Rep init) (hv : al.Valid) (hcap : Caps cap al) (h : Heap) {d : Nat}
    {p id q : Bytes} {n : Nat} (hp : Due 0 p d) (hid : IsId id) (hn : n < 2 ^ 64) (hl : (p ++ (id ++ lenOctets n ++ q)).length ≤ isizeMax)
    (hl2 : (p ++ id ++ lenOctets n).length + n ≤ isizeMax) (ho : max init cap < (p ++ id ++ lenOctets n).length + n) :
    Ber.parse I m al honestReadExact (p ++ (id ++ lenOctets n ++ q)) h = .abort := by
  have := berLoop_refused (m := m) hc hf hi hv hcap hp (q := q) [] I.new h none (Reader.size (p ++ (id ++ lenOctets n ++ q)) + 1)
    (fits_new hf hi h) hid hn (by simpa using hl) (by simp [size_bytes]) (by simp) (by simpa using hl2) (by simpa using ho)
  simpa [Ber.parse] using this

variable {al' : Allocator} {k : Nat}

/-- Reserving beyond the limit does not ask the allocator. -/
theorem agree_beyond (hi : Inline I Rep init) {b : I.B} {h : Heap} {w : Bytes} {fp : Option Nat} (hb : Has Rep b h w fp) {n : Nat} (hn : n < 2 ^ 64)
    (ho : isizeMax < w.length + n) : I.reserve m al b n h = I.reserve m al' b n h := by
  obtain ⟨R, hr⟩ := hb
  have hu := usizeSize_eq
  rw [hi.beyond m al hr n (by omega) ho, hi.beyond m al' hr n (by omega) ho]

theorem agree_reserve (hc : Correct I Rep) (hf : Frugal I Rep) (hi : Inline I Rep init) (ha : Agree k al al') {b : I.B} {h : Heap} {w : Bytes}
    {fp : Option Nat} (hb : Has Rep b h w fp) {n : Nat} (hn : n < 2 ^ 64) (ho : w.length + n ≤ isizeMax → w.length + n ≤ k) :
    I.reserve m al b n h = I.reserve m al' b n h := by
  by_cases h1 : w.length + n ≤ isizeMax
  · exact hf.reserve m b n h ha (by rw [hb.len hc]; exact ho h1)
  · exact agree_beyond hi hb hn (by omega)

/-- `Der::parse` of a slice asks for what the header announces, and no more. -/
theorem agree_Der_slice {rd : Nat → Bytes → ReadEffect Bytes} (hc : Correct I Rep) (hf : Frugal I Rep) (hi : Inline I Rep init) (hv : al.Valid) (ha : Agree k al al') (hk : k ≤ isizeMax)
    {h : Heap} {bs : Bytes} (hl : bs.length ≤ k)
    (ho : ∀ id n q, IsId id → n < 2 ^ 64 → bs = id ++ lenOctets n ++ q → (id ++ lenOctets n).length + n ≤ isizeMax →
      (id ++ lenOctets n).length + n ≤ k) : Der.parse I m al rd bs h = Der.parse I m al' rd bs h := by
  have hu := usizeSize_eq
  have hspec := parseIdLength_spec bs []
  obtain ⟨q', s1, w, hq, hw⟩ := logs_parseIdLength bs
  have hq := hq []
  rw [hq] at hspec
  rw [List.nil_append] at hq
  rw [size_bytes, size_bytes] at hw
  unfold Der.parse
  rw [hq]
  simp only []
  refine eq_bind (agree_writeAll hc hf hv ha hk w [] I.new h none (has_new hc h) (by simp; omega))
    (step_writeAll hc hv w [] I.new h none (has_new hc h) (by simp; omega)) fun b h fp hb => ?_
  rw [List.nil_append] at hb
  match q' with
  | .err e => rfl
  | .panic => rfl
  | .ub => rfl
  | .ok .indefinite => rfl
  | .ok (.definite n) =>
    simp only []
    cases hspec with
    | definite id _ rest hid hn e =>
      refine bind_congr' fun t h1 e1 => ?_
      refine agree_bind_left ?_
      have hh : h1 = h := by
        unfold usizeAdd at e1
        split at e1
        · cases e1; rfl
        · cases m <;> cases e1; rfl
      subst hh
      rename_i hweq
      exact agree_reserve hc hf hi ha hb hn fun h5 => ho _ _ _ hid hn e h5

/-- One step of `Ber::parse` on a slice asks for what its header announces, and no more. -/
theorem agree_berDo_slice (hc : Correct I Rep) (hf : Frugal I Rep) (hi : Inline I Rep init) (hv : al.Valid) (ha : Agree k al al') (hk : k ≤ isizeMax)
    {b : I.B} {h : Heap} {fp : Option Nat} {bs w : Bytes} (hb : Has Rep b h w fp) (hl : w.length + bs.length ≤ k)
    (ho : ∀ id n q, IsId id → n < 2 ^ 64 → bs = id ++ lenOctets n ++ q → (w ++ id ++ lenOctets n).length + n ≤ isizeMax →
      (w ++ id ++ lenOctets n).length + n ≤ k) : Ber.doParse I m al honestReadExact b bs h = Ber.doParse I m al' honestReadExact b bs h := by
  have hspec := parseIdLength_spec bs []
  obtain ⟨q', s1, w1, hq, hw⟩ := logs_parseIdLength bs
  have hq := hq []
  rw [hq] at hspec
  rw [List.nil_append] at hq
  rw [size_bytes, size_bytes] at hw
  unfold Ber.doParse
  rw [hq]
  simp only []
  refine eq_bind (agree_writeAll hc hf hv ha hk w1 w b h fp hb (by omega))
    (step_writeAll hc hv w1 w b h fp hb (by omega)) fun b h fp hb => ?_
  match q' with
  | .err e => rfl
  | .panic => rfl
  | .ub => rfl
  | .ok .indefinite => rfl
  | .ok (.definite n) =>
    simp only []
    cases hspec with
    | definite id _ rest hid hn e =>
      refine agree_bind_left (agree_reserve hc hf hi ha hb hn fun h5 => ?_)
      have := ho _ _ _ hid hn e
      rw [List.append_assoc w] at this
      exact this h5

theorem agree_berLoop_slice (hc : Correct I Rep) (hf : Frugal I Rep) (hi : Inline I Rep init) (hv : al.Valid) (ha : Agree k al al')
    (hk : k ≤ isizeMax) : ∀ (f d : Nat) (bs w : Bytes) (b : I.B) (h : Heap) (fp : Option Nat), bs.length < f → d ≤ w.length →
    Fits Rep init isizeMax b h w fp → w.length + bs.length ≤ k →
    (∀ p d' id n q, Due d p d' → IsId id → n < 2 ^ 64 → bs = p ++ (id ++ lenOctets n ++ q) →
      (w ++ p ++ id ++ lenOctets n).length + n ≤ isizeMax → (w ++ p ++ id ++ lenOctets n).length + n ≤ k) →
    Ber.parseLoop I m al honestReadExact f d b bs h = Ber.parseLoop I m al' honestReadExact f d b bs h := by
  intro f
  induction f with
  | zero => intro d bs w b h fp h1; omega
  | succ f ih =>
    intro d bs w b h fp hfu hd hb hl ho
    have hcap := caps_max al
    have hag := agree_berDo_slice (m := m) hc hf hi hv ha hk hb.has hl fun id n q hid hn e h5 =>
      (by simpa using ho [] d id n q (.nil d) hid hn (by simpa using e) (by simpa using h5))
    have key : ∀ {N : Nat} {δ : Int} {s' w' : Bytes}, Goes init N (Ber.doParse I m al honestReadExact b bs) h (fun a h fp =>
          ∃ b, a = (.ok (δ, b), s') ∧ Fits Rep init isizeMax b h w' fp) → s'.length < bs.length → δ ≤ 1 →
        w.length + 1 ≤ w'.length → w'.length + s'.length = w.length + bs.length →
        (∀ d' : Nat, (d : Int) + δ = d' → 0 < d' → ∀ p d'' id n q, Due d' p d'' → IsId id → n < 2 ^ 64 → s' = p ++ (id ++ lenOctets n ++ q) →
          (w' ++ p ++ id ++ lenOctets n).length + n ≤ isizeMax → (w' ++ p ++ id ++ lenOctets n).length + n ≤ k) →
        Ber.parseLoop I m al honestReadExact (f + 1) d b bs h = Ber.parseLoop I m al' honestReadExact (f + 1) d b bs h := by
      intro N δ s' w' hg h1 h2 h3 h4 h5
      unfold Ber.parseLoop
      rcases hg with ⟨e, _⟩ | ⟨a, h', fp', e, b', rfl, hb'⟩
      · rw [bind_abort e, bind_abort (hag ▸ e)]
      rw [bind_ok e, bind_ok (hag ▸ e)]
      simp only
      have hm : ¬ (isizeMax : Int) < (d : Int) + δ := by omega
      rw [if_neg hm, if_neg hm]
      by_cases hp : (d : Int) + δ > 0
      · rw [if_pos hp, if_pos hp]
        obtain ⟨d', hd'⟩ : ∃ d' : Nat, (d : Int) + δ = d' := ⟨((d : Int) + δ).toNat, by omega⟩
        rw [hd']
        exact ih d' s' w' b' h' fp' (by omega) (by omega) hb' (by omega) (h5 d' hd' (by omega))
      · rw [if_neg hp, if_neg hp]
    have kerr : ∀ {e : Error} {s' w' : Bytes}, (Bsn1.Ber.doParse m).run bs w = (.err e, s', w') →
        Ber.parseLoop I m al honestReadExact (f + 1) d b bs h = Ber.parseLoop I m al' honestReadExact (f + 1) d b bs h := by
      intro e s' w' he
      unfold Ber.parseLoop
      refine eq_bind hag (step_Ber_doParse hc hv (by rw [size_bytes]; omega) hb.has he nofun nofun) ?_
      rintro ⟨a, s2⟩ h fp ⟨_, e, _⟩
      simp only at e
      subst e
      rfl
    have hspec := parseIdLength_spec bs w
    generalize hr : (parseIdLength (σ := Bytes)).run bs w = r at hspec
    cases hspec with
    | definite id n rest hid hn e =>
      subst e
      have hpos := isId_length_pos hid
      have hlpos := List.length_pos_iff.mpr (lenOctets_ne_nil n)
      rcases berDoParse_definite m (q := rest) w hid hn with ⟨hov, _⟩ | ⟨hov, hq, _⟩ | ⟨hov, hq, e, s', w', h⟩
      · unfold Ber.parseLoop
        have hno := berDo_over (m := m) hc hf hi hv hcap hb (q := rest) hid hn (by omega) hov (f := fun a => pure a)
        rw [bind_congr' (g := _) fun a h' e => ?_]
        · exact agree_bind_left hag
        · rw [bind_ok e] at hno
          unfold Overflows at hno
          split at hno
          · cases hno
          · rcases hno with e | e
            · cases e
            · split at e <;> cases e
      · have ht : tlv id (rest.take n) = id ++ lenOctets n ++ rest.take n := by
          rw [tlv, List.length_take, Nat.min_eq_left hq]
        have hbs : id ++ lenOctets n ++ rest = tlv id (rest.take n) ++ rest.drop n := by
          rw [ht, List.append_assoc _ (rest.take n), List.take_append_drop]
        have hg := berDo_goes (m := m) hc hf hi hv hcap hb (c := rest.take n) (q := rest.drop n) hid (by simp; omega) (by rw [← hbs]; omega)
        rw [← hbs] at hg
        have htl : (tlv id (rest.take n)).length = id.length + (lenOctets n).length + n := by rw [ht]; simp only [List.length_append, List.length_take]; omega
        refine key hg (by simp only [List.length_append, List.length_drop]; omega) (by split <;> omega) (by rw [List.length_append]; omega)
          (by simp only [List.length_append, List.length_drop]; omega) ?_
        intro d' hd' hpos' p d'' id' n' q' h1 h2 h3 h4 h5
        have hb : id ++ lenOctets n ++ rest = tlv id (rest.take n) ++ p ++ (id' ++ lenOctets n' ++ q') := by
          rw [hbs, h4]; simp only [List.append_assoc]
        rw [← List.append_assoc, ← List.append_assoc] at hb
        have hh := fun hd => ho (tlv id (rest.take n) ++ p) d'' id' n' q' hd h2 h3 (by rw [hb]; simp)
        rw [← List.append_assoc w] at hh
        refine hh ?_ h5
        by_cases heoc : tlv id (rest.take n) = BerRef.eoc
        · rw [if_pos heoc] at hd'
          obtain ⟨k, rfl⟩ : ∃ k, d = k + 1 := ⟨d - 1, by omega⟩
          have : d' = k := by omega
          subst this
          rw [heoc]
          exact Due.close d' d'' p hpos' h1
        · rw [if_neg heoc] at hd'
          have : d' = d := by omega
          subst this
          exact Due.skip d' d'' id (rest.take n) p hpos' hid (by simp; omega) heoc h1
      · exact kerr h
    | indefinite id rest hid e =>
      have hpos := isId_length_pos hid
      subst e
      have hg := berDo_goes_indef (m := m) hc hf hi hv hcap hb (q := rest) hid (by omega)
      refine key hg (by simp [indefOctets]; omega) (by omega) (by simp [indefOctets]) (by simp [indefOctets]; omega) ?_
      intro d' hd' hpos' p d'' id' n' q' h1 h2 h3 h4 h5
      have : d' = d + 1 := by omega
      subst this
      exact (by simpa using ho (id ++ indefOctets ++ p) d'' id' n' q' (Due.open d d'' id p hid h1) h2 h3 (by rw [h4]; simp) (by simpa using h5))
    | error e p rest w' _ =>
      refine kerr (e := e) (s' := rest) (w' := w') ?_
      simp only [Bsn1.Ber.doParse, hr]

theorem agree_Ber_slice (hc : Correct I Rep) (hf : Frugal I Rep) (hi : Inline I Rep init) (hv : al.Valid) (ha : Agree k al al')
    (hk : k ≤ isizeMax) {h : Heap} {bs : Bytes} (hl : bs.length ≤ k)
    (ho : ∀ p d' id n q, Due 0 p d' → IsId id → n < 2 ^ 64 → bs = p ++ (id ++ lenOctets n ++ q) →
      (p ++ id ++ lenOctets n).length + n ≤ isizeMax → (p ++ id ++ lenOctets n).length + n ≤ k) :
    Ber.parse I m al honestReadExact bs h = Ber.parse I m al' honestReadExact bs h := by
  have := agree_berLoop_slice (m := m) hc hf hi hv ha hk (Reader.size bs + 1) 0 bs [] I.new h none (by simp [size_bytes]) (by simp)
    (fits_new hf hi h) (by simpa using hl) (by simpa using ho)
  exact this

end Raw

end Bsn1
