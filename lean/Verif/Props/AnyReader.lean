import Verif.Props.Raw
/-!
# C79: the parsers with readers that do anything
-/

namespace Bsn1
open Buf Spec Raw

/-- How a parser ends that has read the header `hdr`, which announces `n` octets, and whose reader then has written `written`, answered `result` and is
left as `next`. `trusting` tells whether the parser trusts any `Ok`. The `shown` octets are those that the reader did not write, if it said it had. -/
def ReadsAnything {I : Impl} (trusting : Bool) (hdr : Bytes) (n : Nat) (e : ReadEffect Bytes) (x : M (Except Error I.B × Bytes)) (h : Heap) : Prop :=
  x h = .abort ∨ match e.result with
    | .ok k =>
      if trusting = false ∧ k < n then ∃ h', x h = .ok (.error .unterminatedBytes, e.next) h' ∧ h'.blocks = h.blocks
      else ∃ b h' shown, x h = .ok (.ok b, e.next) h' ∧ shown.length = n - e.written.length ∧
        I.cells b h' = .ok ((hdr ++ e.written.take n).map some ++ shown) h' ∧ ∃ h'', I.drop b h' = .ok () h'' ∧ h''.blocks = h.blocks
    | .err er => ∃ h', x h = .ok (.error er, e.next) h' ∧ h'.blocks = h.blocks
    | .panic => x h = .panic
    | .ub => x h = .ub

section
variable {I : Impl} {Rep : I.B → Heap → List Cell → Nat → Option Nat → Prop} {m : Build} {al : Allocator}

/-- The same, of the steps of a proof. -/
def Anything (Rep : I.B → Heap → List Cell → Nat → Option Nat → Prop) (trusting : Bool) (hdr : Bytes) (n : Nat) (e : ReadEffect Bytes)
    (a : Except Error I.B × Bytes) (h : Heap) (fp : Option Nat) : Prop :=
  a.2 = e.next ∧ match e.result with
    | .ok k =>
      if trusting = false ∧ k < n then a.1 = .error .unterminatedBytes ∧ fp = none
      else ∃ b shown R, a.1 = .ok b ∧ shown.length = n - e.written.length ∧
        Rep b h ((hdr ++ e.written.take n).map some ++ shown ++ R) (hdr.length + n) fp
    | .err er => a.1 = .error er ∧ fp = none
    | _ => True

theorem readsAnything_of (hc : Correct I Rep) {trusting : Bool} {hdr : Bytes} {n : Nat} {e : ReadEffect Bytes}
    {x : M (Except Error I.B × Bytes)} {h : Heap} (h1 : e.result ≠ .panic) (h2 : e.result ≠ .ub)
    (hx : Step x h none (Anything Rep trusting hdr n e)) : ReadsAnything trusting hdr n e x h := by
  have done : ∀ {h' : Heap}, Frame h h' none none → h'.blocks = h.blocks := by
    intro h' f
    rw [Frame, erase_none, erase_none] at f
    exact f.symm
  rcases hx with hx | ⟨⟨a, s⟩, h', fp', ex, ⟨hs, q⟩, f⟩
  · exact .inl hx
  · right
    simp only at hs
    subst hs
    revert q h1 h2
    rcases e.result with k | er | _ | _
    · intro _ _ q
      simp only at q ⊢
      split
      · rw [if_pos ‹_›] at q
        obtain ⟨rfl, rfl⟩ := q
        exact ⟨h', ex, done f⟩
      · rw [if_neg ‹_›] at q
        obtain ⟨b, shown, R, rfl, hl, hr⟩ := q
        obtain ⟨h'', e2, f2⟩ := hc.drop hr
        refine ⟨b, h', shown, ex, hl, ?_, h'', e2, done (f.trans f2)⟩
        rw [hc.cells hr, take_of_append]
        simp; omega
    · rintro _ _ ⟨rfl, rfl⟩
      exact ⟨h', ex, done f⟩
    · intro h1; exact absurd rfl h1
    · intro _ h2; exact absurd rfl h2

/-- The contents as a reader has left them. -/
theorem left_as {b : I.B} {h : Heap} {fp : Option Nat} {hdr : Bytes} {n : Nat} {w : Bytes} {R : List Cell} (hR : n ≤ R.length)
    (hr : Rep b h (hdr.map some ++ (w.take n).map some ++ R.drop (w.take n).length) (hdr.length + n) fp) :
    ∃ shown R', shown.length = n - w.length ∧ Rep b h ((hdr ++ w.take n).map some ++ shown ++ R') (hdr.length + n) fp := by
  refine ⟨(R.drop (w.take n).length).take (n - w.length), (R.drop (w.take n).length).drop (n - w.length), ?_, ?_⟩
  · simp only [List.length_take, List.length_drop]; omega
  · rw [List.append_assoc, List.take_append_drop, List.map_append]
    exact hr

theorem step_Der_parse_any (hc : Correct I Rep) (hv : al.Valid) (rd : Nat → Bytes → ReadEffect Bytes) {id : Bytes} (hid : IsId id) {n : Nat}
    (hn : id.length + (lenOctets n).length + n ≤ isizeMax) (rest : Bytes) (h1 : (rd n rest).result ≠ .panic) (h2 : (rd n rest).result ≠ .ub)
    (h : Heap) :
    Step (Raw.Der.parse I m al rd (id ++ lenOctets n ++ rest)) h none (Anything Rep false (id ++ lenOctets n) n (rd n rest)) := by
  have hm := isizeMax_lt
  have hu := usizeSize_eq
  unfold Raw.Der.parse
  rw [parseIdLength_definite hid (by omega : n < 2 ^ 64)]
  simp only [List.nil_append]
  refine .bind (step_writeAll hc hv (id ++ lenOctets n) [] I.new h none (has_new hc h) (by simp; omega)) ?_
  intro b h fp hb
  rw [List.nil_append] at hb
  simp only [hb.len hc]
  refine .same (usizeAdd_ok m (by simp; omega) h) ?_
  refine step_room hc hv hb (by simp; omega) ?_
  intro b h fp R hr hR
  rw [hc.len hr, if_neg (by omega), Nat.add_sub_cancel_left]
  refine .bind (step_poke_contents hc hr (by simp) hR) ?_
  intro b h fp hr
  unfold Anything
  revert h1 h2
  rcases (rd n rest).result with k | er | _ | _
  · intro _ _
    refine .ite (fun hlt => ?_) (fun hge => ?_)
    · refine .bind (step_drop hc hr) fun _ h fp hn => .pure ⟨rfl, ?_⟩
      simp only
      rw [if_pos ⟨trivial, hlt⟩]
      exact ⟨trivial, hn⟩
    · refine .pure ⟨rfl, ?_⟩
      simp only
      rw [if_neg (fun hh => hge hh.2)]
      obtain ⟨shown, R', hl, hr'⟩ := left_as hR hr
      exact ⟨b, shown, R', rfl, hl, hr'⟩
  · intro _ _
    exact .bind (step_drop hc hr) fun _ h fp hn => .pure ⟨rfl, rfl, hn⟩
  · intro h1; exact absurd rfl h1
  · intro _ h2; exact absurd rfl h2

theorem step_Ber_parse_any (hc : Correct I Rep) (hv : al.Valid) (rd : Nat → Bytes → ReadEffect Bytes) {id : Bytes} (hid : IsId id) {n : Nat}
    (hn : id.length + (lenOctets n).length + n ≤ isizeMax) (rest : Bytes) (h1 : (rd n rest).result ≠ .panic) (h2 : (rd n rest).result ≠ .ub)
    (h : Heap) :
    Step (Raw.Ber.parse I m al rd (id ++ lenOctets n ++ rest)) h none (Anything Rep true (id ++ lenOctets n) n (rd n rest)) := by
  have hm := isizeMax_lt
  have hu := usizeSize_eq
  have hid1 : 1 ≤ id.length := by
    have := IsId.ne_nil hid
    cases id with
    | nil => exact absurd rfl this
    | cons => simp
  have hlo1 : 1 ≤ (lenOctets n).length := by
    have := lenOctets_ne_nil n
    cases hq : lenOctets n with
    | nil => exact absurd hq this
    | cons => simp
  unfold Raw.Ber.parse Raw.Ber.parseLoop Raw.Ber.doParse
  rw [parseIdLength_definite hid (by omega : n < 2 ^ 64)]
  simp only [List.nil_append]
  rw [(has_new hc h).len hc]
  refine .bind (Q := fun a h fp => a.2 = (rd n rest).next ∧ match (rd n rest).result with
    | .ok _ => ∃ d b shown R, a.1 = .ok (d, b) ∧ (d = 0 ∨ d = -1) ∧ shown.length = n - (rd n rest).written.length ∧
        Rep b h ((id ++ lenOctets n ++ (rd n rest).written.take n).map some ++ shown ++ R) ((id ++ lenOctets n).length + n) fp
    | .err er => a.1 = .error er ∧ fp = none
    | _ => True) ?_ ?_
  · refine .bind (step_writeAll hc hv (id ++ lenOctets n) [] I.new h none (has_new hc h) (by simp; omega)) ?_
    intro b h fp hb
    rw [List.nil_append] at hb
    obtain ⟨R, hr⟩ := hb
    refine .bind (step_reserve hc hv hr (by simp; omega)) ?_
    rintro b h fp ⟨s, hr, hs1, hs2, hs3⟩
    rw [take_of_append (by simp)] at hs3
    obtain ⟨S, rfl⟩ : ∃ S, s = (id ++ lenOctets n).map some ++ S := ⟨s.drop (id ++ lenOctets n).length, by rw [← hs3, List.take_append_drop]⟩
    rw [hc.len hr]
    refine .same (usizeAdd_ok m (by simp; omega) h) ?_
    refine .bind (step_setLen hc hr hs1) ?_
    intro b h fp hr
    have hR : n ≤ S.length := by simp only [List.length_append, List.length_map] at hs1; omega
    rw [hc.len hr, if_neg (by omega), Nat.add_sub_cancel_left]
    refine .bind (step_poke_contents hc hr (by simp) hR) ?_
    intro b h fp hr
    revert h1 h2
    rcases (rd n rest).result with k | er | _ | _
    · intro _ _
      obtain ⟨shown, R', hl, hr'⟩ := left_as hR hr
      have hec : ∃ c, Raw.Ber.isEoc I b 0 h = .ok c h := by
        rw [Raw.Ber.isEoc, bind_ok (hc.cells hr'), if_neg (by omega)]
        rw [List.drop_zero]
        split
        · rename_i h2
          have hn0 : n = 0 := by
            simp only [List.length_take, List.length_append, List.length_map, BerRef.eoc, List.length_cons, List.length_nil] at h2
            omega
          subst hn0
          have : shown = [] := List.eq_nil_of_length_eq_zero (by omega)
          subst this
          rw [take_of_append (by simp)]
          simp only [List.take_zero, List.append_nil]
          rw [bind_ok (assumeInit_ok _ h)]
          exact ⟨_, rfl⟩
        · exact ⟨_, rfl⟩
      obtain ⟨c, hec⟩ := hec
      refine .same hec (.pure ⟨rfl, _, b, shown, R', rfl, ?_, hl, hr'⟩)
      cases c <;> simp
    · intro _ _
      exact .bind (step_drop hc hr) fun _ h fp hn => .pure ⟨rfl, rfl, hn⟩
    · intro h1; exact absurd rfl h1
    · intro _ h2; exact absurd rfl h2
  · rintro ⟨a, s⟩ h fp ⟨hs, q⟩
    simp only at hs
    subst hs
    unfold Anything
    revert h1 h2 q
    rcases (rd n rest).result with k | er | _ | _
    · rintro _ _ ⟨d, b, shown, R, ha, hd, hl, hr⟩
      simp only at ha
      subst ha
      simp only
      rw [if_neg (by have := isizeMax_eq; omega), if_neg (by omega)]
      refine .pure ⟨rfl, ?_⟩
      rw [if_neg (fun hh => nomatch hh.1)]
      exact ⟨b, shown, R, rfl, hl, hr⟩
    · rintro _ _ ⟨ha, hf⟩
      simp only at ha
      subst ha
      exact .pure ⟨rfl, rfl, hf⟩
    · intro h1; exact absurd rfl h1
    · intro _ h2; exact absurd rfl h2
end

/-- **C79 (partial).** Whatever the reader writes and answers when asked for the contents, be it untrue, `Der::parse` and `Ber::parse` do nothing
undefined and leave nothing behind on an error. The value they return has the header and what the reader wrote, cut to the announced length, and
behind it as many octets of the storage as the reader did not write; those need not be initialised (`C79_lying_reader_violated`). `Der::parse` checks the
number that the reader returned, `Ber::parse` has none. -/
theorem C79_any_reader_partial (m : Build) (al : Allocator) (hv : al.Valid) (h : Heap) (rd : Nat → Bytes → ReadEffect Bytes) {id : Bytes} (hid : IsId id)
    (n : Nat) (hn : id.length + (lenOctets n).length + n ≤ isizeMax) (rest : Bytes) (h1 : (rd n rest).result ≠ .panic)
    (h2 : (rd n rest).result ≠ .ub) :
    ReadsAnything false (id ++ lenOctets n) n (rd n rest) (Raw.Der.parse little m al rd (id ++ lenOctets n ++ rest)) h ∧
    ReadsAnything false (id ++ lenOctets n) n (rd n rest) (Raw.Der.parse universal m al rd (id ++ lenOctets n ++ rest)) h ∧
    ReadsAnything true (id ++ lenOctets n) n (rd n rest) (Raw.Ber.parse little m al rd (id ++ lenOctets n ++ rest)) h ∧
    ReadsAnything true (id ++ lenOctets n) n (rd n rest) (Raw.Ber.parse universal m al rd (id ++ lenOctets n ++ rest)) h :=
  ⟨readsAnything_of LE.correct h1 h2 (step_Der_parse_any LE.correct hv rd hid hn rest h1 h2 h),
    readsAnything_of UE.correct h1 h2 (step_Der_parse_any UE.correct hv rd hid hn rest h1 h2 h),
    readsAnything_of LE.correct h1 h2 (step_Ber_parse_any LE.correct hv rd hid hn rest h1 h2 h),
    readsAnything_of UE.correct h1 h2 (step_Ber_parse_any UE.correct hv rd hid hn rest h1 h2 h)⟩

/-- **C79.** So all octets are initialised if the reader wrote at least as many as were asked for, whatever else it does. -/
theorem C79_filled {I : Impl} {trusting : Bool} {hdr : Bytes} {n k : Nat} {e : ReadEffect Bytes} {x : M (Except Error I.B × Bytes)} {h : Heap}
    (hx : ReadsAnything trusting hdr n e x h) (hr : e.result = .ok k) (hk : n ≤ k) (hw : n ≤ e.written.length) :
    x h = .abort ∨ ∃ b h', x h = .ok (.ok b, e.next) h' ∧ I.cells b h' = .ok ((hdr ++ e.written.take n).map some) h' := by
  rcases hx with hx | hx
  · exact .inl hx
  · right
    rw [hr] at hx
    simp only at hx
    rw [if_neg (by omega)] at hx
    obtain ⟨b, h', shown, e1, e2, e3, _⟩ := hx
    have : shown = [] := List.eq_nil_of_length_eq_zero (by omega)
    subst this
    exact ⟨b, h', e1, by rw [e3, List.append_nil]⟩

/-- A reader that writes one octet less than it says, on `04 03 ..`, and one that writes more than it was asked for. -/
example (m : Build) : bump.Valid ∧
    (Raw.Der.parse little m bump (fun n s => ⟨List.replicate (n - 1) 7, .ok n, s⟩) ([0x04, 0x03] : Bytes) noHeap = .abort ∨
      ∃ b h' c, Raw.Der.parse little m bump (fun n s => ⟨List.replicate (n - 1) 7, .ok n, s⟩) ([0x04, 0x03] : Bytes) noHeap = .ok (.ok b, []) h' ∧
        little.cells b h' = .ok [some 0x04, some 0x03, some 7, some 7, c] h') ∧
    (Raw.Der.parse little m bump (fun n s => ⟨List.replicate (n + 9) 7, .ok (n + 9), s⟩) ([0x04, 0x03] : Bytes) noHeap = .abort ∨
      ∃ b h', Raw.Der.parse little m bump (fun n s => ⟨List.replicate (n + 9) 7, .ok (n + 9), s⟩) ([0x04, 0x03] : Bytes) noHeap = .ok (.ok b, []) h' ∧
        little.cells b h' = .ok [some 0x04, some 0x03, some 7, some 7, some 7] h') := by
  have hid : IsId [0x04] := ⟨0, 0, 4, by decide, by decide, by decide +kernel⟩
  refine ⟨bump_valid, ?_, ?_⟩
  · rcases (C79_any_reader_partial m bump bump_valid noHeap (fun n s => ⟨List.replicate (n - 1) 7, .ok n, s⟩) hid 3 (by decide +kernel) []
      (by simp) (by simp)).1 with e | e
    · exact .inl e
    · right
      simp only at e
      rw [if_neg (by simp)] at e
      obtain ⟨b, h', shown, e1, e2, e3, _⟩ := e
      match shown, e2 with
      | [c], _ => exact ⟨b, h', c, e1, e3⟩
  · exact C79_filled (C79_any_reader_partial m bump bump_valid noHeap (fun n s => ⟨List.replicate (n + 9) 7, .ok (n + 9), s⟩) hid 3
      (by decide +kernel) [] (by simp) (by simp)).1 rfl (by decide) (by decide)

end Bsn1
