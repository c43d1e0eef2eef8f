import Verif.Lemmas.RawSim
import Verif.Props.RawExact
import Verif.Props.AnyReader
import Verif.Props.Growth
/-!
# C78, C82 and C96 for readers: what parsing does to memory, in whatever pieces the octets come
-/

namespace Bsn1
open Bsn1.Spec Bsn1.Buf Bsn1.Raw

variable {σ : Type} [Reader σ] {R : σ → Bytes → Prop}

section transfer
variable {α : Type} {Q : α → σ → Bytes → Prop} {x : Out (α × σ)} {y : Out (α × Bytes)}

theorem Raw.Alike.abort_iff (h : Alike Q x y) : x = .abort ↔ y = .abort := by
  cases h <;> simp

theorem Raw.Alike.ub_iff (h : Alike Q x y) : x = .ub ↔ y = .ub := by
  cases h <;> simp

theorem Raw.Alike.panic_iff (h : Alike Q x y) : x = .panic ↔ y = .panic := by
  cases h <;> simp

theorem Raw.Alike.overflows {init L n : Nat} (h : Alike Q x y) (ho : Overflows init L n y) : Overflows init L n x := by
  unfold Overflows at ho ⊢
  split
  · rw [if_pos ‹_›] at ho; exact h.panic_iff.mpr ho
  · rw [if_neg ‹_›] at ho
    rcases ho with ho | ho
    · exact .inl (h.abort_iff.mpr ho)
    · right
      split
      · rw [if_pos ‹_›] at ho; exact h.ub_iff.mpr ho
      · rw [if_neg ‹_›] at ho; exact h.panic_iff.mpr ho

end transfer

/-- **C78, exactly.** `C78_der_parse_exact` and `C78_ber_parse_exact` for every reader that delivers the octets, in whatever pieces. -/
theorem C78_reader_exact (hd : Delivers R) (m : Build) (al : Allocator) (hv : al.Valid) (h : Heap) {s : σ} {bs : Bytes} (hR : R s bs)
    (hl : bs.length ≤ isizeMax) :
    (∀ id n q, IsId id → n < 2 ^ 64 → bs = id ++ lenOctets n ++ q → isizeMax < (id ++ lenOctets n).length + n →
      (if (id ++ lenOctets n).length ≤ 23 then Raw.Der.parse little m al honestRead s h = .panic
        else Raw.Der.parse little m al honestRead s h = .abort ∨
          Raw.Der.parse little m al honestRead s h = if (id ++ lenOctets n).length + n < 2 ^ 64 then .ub else .panic) ∧
      (if (id ++ lenOctets n).length ≤ 16 then Raw.Der.parse universal m al honestRead s h = .panic
        else Raw.Der.parse universal m al honestRead s h = .abort ∨
          Raw.Der.parse universal m al honestRead s h = if (id ++ lenOctets n).length + n < 2 ^ 64 then .ub else .panic)) ∧
    (∀ p d id n q, Due 0 p d → IsId id → n < 2 ^ 64 → bs = p ++ (id ++ lenOctets n ++ q) → isizeMax < (p ++ id ++ lenOctets n).length + n →
      (if (p ++ id ++ lenOctets n).length ≤ 23 then Raw.Ber.parse little m al honestReadExact s h = .panic
        else Raw.Ber.parse little m al honestReadExact s h = .abort ∨
          Raw.Ber.parse little m al honestReadExact s h = if (p ++ id ++ lenOctets n).length + n < 2 ^ 64 then .ub else .panic) ∧
      (if (p ++ id ++ lenOctets n).length ≤ 16 then Raw.Ber.parse universal m al honestReadExact s h = .panic
        else Raw.Ber.parse universal m al honestReadExact s h = .abort ∨
          Raw.Ber.parse universal m al honestReadExact s h = if (p ++ id ++ lenOctets n).length + n < 2 ^ 64 then .ub else .panic)) := by
  constructor
  · rintro id n q hid hn rfl ho
    obtain ⟨k, _, _, hk⟩ := alike_Der_parse (I := little) (m := m) hd hR
    obtain ⟨k', _, _, hk'⟩ := alike_Der_parse (I := universal) (m := m) hd hR
    exact ⟨(hk al h).overflows (der_over LE.correct le_frugal le_inline hv (caps_max al) h hid hn hl ho),
      (hk' al h).overflows (der_over UE.correct ue_frugal ue_inline hv (caps_max al) h hid hn hl ho)⟩
  · rintro p d id n q hp hid hn rfl ho
    exact ⟨(alike_Ber_parse hd hR h).overflows (ber_over LE.correct le_frugal le_inline hv (caps_max al) h hp hid hn hl ho),
      (alike_Ber_parse hd hR h).overflows (ber_over UE.correct ue_frugal ue_inline hv (caps_max al) h hp hid hn hl ho)⟩

/-- Where the header does not announce contents, the contents are not read. -/
theorem der_parse_unread {I : Impl} {m : Build} {al : Allocator} {bs : Bytes} (hno : ∀ id n q, IsId id → n < 2 ^ 64 → bs ≠ id ++ lenOctets n ++ q)
    (rd rd' : Nat → Bytes → ReadEffect Bytes) (h : Heap) : Raw.Der.parse I m al rd bs h = Raw.Der.parse I m al rd' bs h := by
  have hspec := parseIdLength_spec bs []
  unfold Raw.Der.parse
  generalize (parseIdLength (σ := Bytes)).run bs [] = r at hspec
  cases hspec with
  | definite id n rest hid hn e => exact absurd e (hno _ _ _ hid hn)
  | indefinite id rest hid e => rfl
  | error e p rest w' _ => rfl

theorem ReadsAnything.not_ub {I : Impl} {trusting : Bool} {hdr : Bytes} {n : Nat} {e : ReadEffect Bytes} {x : M (Except Error I.B × Bytes)} {h : Heap}
    (hx : ReadsAnything trusting hdr n e x h) {k : Nat} (he : e.result = .ok k) : x h ≠ .ub := by
  rcases hx with hx | hx
  · rw [hx]; exact nofun
  · rw [he] at hx
    simp only at hx
    split at hx
    · obtain ⟨h', e, _⟩ := hx; rw [e]; exact nofun
    · obtain ⟨b, h', _, e, _⟩ := hx; rw [e]; exact nofun

/-- **C78, exactly.** Which octets make `Der::parse` and `Ber::parse` break the rules of the memory, in whatever pieces they come, unless the
allocator refuses before. -/
theorem C78_reader_ub_iff (hd : Delivers R) (m : Build) (al : Allocator) (hv : al.Valid) (h : Heap) {s : σ} {bs : Bytes} (hR : R s bs)
    (hl : bs.length ≤ isizeMax) :
    (Raw.Der.parse little m al honestRead s h ≠ .abort →
      (Raw.Der.parse little m al honestRead s h = .ub ↔ ∃ id n q, IsId id ∧ n < 2 ^ 64 ∧ bs = id ++ lenOctets n ++ q ∧
        23 < (id ++ lenOctets n).length ∧ isizeMax < (id ++ lenOctets n).length + n ∧ (id ++ lenOctets n).length + n < 2 ^ 64)) ∧
    (Raw.Der.parse universal m al honestRead s h ≠ .abort →
      (Raw.Der.parse universal m al honestRead s h = .ub ↔ ∃ id n q, IsId id ∧ n < 2 ^ 64 ∧ bs = id ++ lenOctets n ++ q ∧
        16 < (id ++ lenOctets n).length ∧ isizeMax < (id ++ lenOctets n).length + n ∧ (id ++ lenOctets n).length + n < 2 ^ 64)) ∧
    (Raw.Ber.parse little m al honestReadExact s h ≠ .abort → (Raw.Ber.parse little m al honestReadExact s h = .ub ↔ Hostile 23 bs)) ∧
    (Raw.Ber.parse universal m al honestReadExact s h ≠ .abort → (Raw.Ber.parse universal m al honestReadExact s h = .ub ↔ Hostile 16 bs)) := by
  obtain ⟨e1, e2⟩ := C78_der_parse_ub_iff m al hv h bs hl
  obtain ⟨e3, e4⟩ := C78_ber_parse_ub_iff m al hv h bs hl
  refine ⟨fun ha => ?_, fun ha => ?_, fun ha => ?_, fun ha => ?_⟩
  · obtain ⟨k, _, _, hk⟩ := alike_Der_parse (I := little) (m := m) hd hR
    have hk := hk al h
    by_cases hno : ∀ id n q, IsId id → n < 2 ^ 64 → bs ≠ id ++ lenOctets n ++ q
    · rw [der_parse_unread hno _ honestRead] at hk
      rw [hk.ub_iff]
      exact e1 (fun e => ha (hk.abort_iff.mpr e))
    · simp only [not_forall, not_not] at hno
      obtain ⟨id, n, q, hid, hn, rfl⟩ := hno
      constructor
      · intro hub
        refine ⟨id, n, q, hid, hn, rfl, ?_⟩
        by_cases ho : isizeMax < (id ++ lenOctets n).length + n
        · have hx := (C78_reader_exact hd m al hv h hR hl).1 id n q hid hn rfl ho |>.1
          split at hx
          · rw [hub] at hx; cases hx
          · rcases hx with hx | hx
            · rw [hub] at hx; cases hx
            · split at hx
              · exact ⟨by omega, ho, ‹_›⟩
              · rw [hub] at hx; cases hx
        · have hx := (C79_any_reader_partial m al hv h (pieceRead k) hid n (by simp at ho; omega) q (by simp [pieceRead]) (by simp [pieceRead])).1
          exact absurd (hk.ub_iff.mp hub) (hx.not_ub rfl)
      · rintro ⟨id', n', q', hid', hn', e, h1, h2, h3⟩
        have hx := (C78_reader_exact hd m al hv h hR hl).1 id' n' q' hid' hn' e h2 |>.1
        rw [if_neg (by omega), if_pos h3] at hx
        exact hx.resolve_left ha
  · obtain ⟨k, _, _, hk⟩ := alike_Der_parse (I := universal) (m := m) hd hR
    have hk := hk al h
    by_cases hno : ∀ id n q, IsId id → n < 2 ^ 64 → bs ≠ id ++ lenOctets n ++ q
    · rw [der_parse_unread hno _ honestRead] at hk
      rw [hk.ub_iff]
      exact e2 (fun e => ha (hk.abort_iff.mpr e))
    · simp only [not_forall, not_not] at hno
      obtain ⟨id, n, q, hid, hn, rfl⟩ := hno
      constructor
      · intro hub
        refine ⟨id, n, q, hid, hn, rfl, ?_⟩
        by_cases ho : isizeMax < (id ++ lenOctets n).length + n
        · have hx := (C78_reader_exact hd m al hv h hR hl).1 id n q hid hn rfl ho |>.2
          split at hx
          · rw [hub] at hx; cases hx
          · rcases hx with hx | hx
            · rw [hub] at hx; cases hx
            · split at hx
              · exact ⟨by omega, ho, ‹_›⟩
              · rw [hub] at hx; cases hx
        · have hx := (C79_any_reader_partial m al hv h (pieceRead k) hid n (by simp at ho; omega) q (by simp [pieceRead]) (by simp [pieceRead])).2.1
          exact absurd (hk.ub_iff.mp hub) (hx.not_ub rfl)
      · rintro ⟨id', n', q', hid', hn', e, h1, h2, h3⟩
        have hx := (C78_reader_exact hd m al hv h hR hl).1 id' n' q' hid' hn' e h2 |>.2
        rw [if_neg (by omega), if_pos h3] at hx
        exact hx.resolve_left ha
  · have hk := alike_Ber_parse (I := little) (m := m) (al := al) hd hR h
    rw [hk.ub_iff]
    exact e3 (fun e => ha (hk.abort_iff.mpr e))
  · have hk := alike_Ber_parse (I := universal) (m := m) (al := al) hd hR h
    rw [hk.ub_iff]
    exact e4 (fun e => ha (hk.abort_iff.mpr e))

/-- The octets of `C78_ber_parse_violated` in two pieces. -/
example (m : Build) :
    Raw.Ber.parse little m bump honestReadExact ([.chunk (hostileBer.take 17), .chunk (hostileBer.drop 17)] : Script) noHeap = .ub := by
  have hR : Chunks [.chunk (hostileBer.take 17), .chunk (hostileBer.drop 17)] hostileBer := by
    have := Chunks.cons (hostileBer.take 17) _ _ (by decide +kernel) (.cons (hostileBer.drop 17) [] [] (by decide +kernel) .nil)
    simpa using this
  have hk := alike_Ber_parse (I := little) (m := m) (al := bump) delivers_chunks hR noHeap
  exact hk.ub_iff.mpr (C78_ber_parse_violated m).2.2.1

/-- Contents of `isize::MAX` octets announced in the second piece: a panic, as the header is in line. -/
example (m : Build) (al : Allocator) (hv : al.Valid) (h : Heap) :
    Raw.Der.parse little m al honestRead ([.chunk [0x04, 0x88, 0x7f], .chunk (List.replicate 7 0xff)] : Script) h = .panic := by
  have hR : Chunks [.chunk [0x04, 0x88, 0x7f], .chunk (List.replicate 7 0xff)] ([0x04] ++ lenOctets isizeMax ++ []) := by
    rw [show ([0x04] ++ lenOctets isizeMax ++ [] : Bytes) = [0x04, 0x88, 0x7f] ++ (List.replicate 7 0xff ++ []) by decide +kernel]
    exact .cons [0x04, 0x88, 0x7f] _ _ (by decide) (.cons (List.replicate 7 0xff) [] [] (by decide) .nil)
  have := ((C78_reader_exact delivers_chunks m al hv h hR (by decide +kernel)).1 [0x04] isizeMax [] ⟨0, 0, 4, by decide, by decide, by decide⟩
    (by decide +kernel) rfl (by decide +kernel)).1
  rwa [if_pos (by decide +kernel)] at this

/-- **C82, exactly, upper bound.** `C82_slice_requests_exact` for every reader that delivers the octets, in whatever pieces, and whatever is
returned. (`Prod.fst`: the value, or the error; the reader is left out.) -/
theorem C82_reader_requests_exact (hd : Delivers R) (m : Build) (h : Heap) {s : σ} {bs : Bytes} (hR : R s bs) (k : Nat) (hk : k ≤ isizeMax)
    (hl : bs.length ≤ k) :
    ((∀ id n q, IsId id → n < 2 ^ 64 → bs = id ++ lenOctets n ++ q → (id ++ lenOctets n).length + n ≤ isizeMax →
        (id ++ lenOctets n).length + n ≤ k) →
      AsksAtMost k (fun al => Prod.fst <$> Raw.Der.parse little m al honestRead s) h ∧
      AsksAtMost k (fun al => Prod.fst <$> Raw.Der.parse universal m al honestRead s) h) ∧
    ((∀ t, Announces bs t → t ≤ isizeMax → t ≤ k) →
      AsksAtMost k (fun al => Prod.fst <$> Raw.Ber.parse little m al honestReadExact s) h ∧
      AsksAtMost k (fun al => Prod.fst <$> Raw.Ber.parse universal m al honestReadExact s) h) := by
  have cong : ∀ {α β : Type} {f : α → β} {x y : M α}, x h = y h → (f <$> x) h = (f <$> y) h := by
    intro α β f x y e
    show (x >>= fun a => pure (f a)) h = (y >>= fun a => pure (f a)) h
    rcases ex : x h with ⟨b, h'⟩ | _ | _ | _
    · rw [bind_ok ex, bind_ok (e ▸ ex)]
    · rw [bind_panic ex, bind_panic (e ▸ ex)]
    · rw [bind_abort ex, bind_abort (e ▸ ex)]
    · rw [bind_ub ex, bind_ub (e ▸ ex)]
  refine ⟨fun ho => ⟨?_, ?_⟩, fun ho => ⟨?_, ?_⟩⟩
  · intro al al' hv _ ha
    obtain ⟨j, _, _, hj⟩ := alike_Der_parse (I := little) (m := m) hd hR
    exact ((hj al h).fst.trans <| cong <| (agree_Der_slice LE.correct le_frugal le_inline hv ha hk hl ho)).trans (hj al' h).fst.symm
  · intro al al' hv _ ha
    obtain ⟨j, _, _, hj⟩ := alike_Der_parse (I := universal) (m := m) hd hR
    exact ((hj al h).fst.trans <| cong <| (agree_Der_slice UE.correct ue_frugal ue_inline hv ha hk hl ho)).trans (hj al' h).fst.symm
  · intro al al' hv _ ha
    exact ((alike_Ber_parse hd hR h).fst.trans <| cong <| (agree_Ber_slice LE.correct le_frugal le_inline hv ha hk hl fun p d id n q h1 h2 h3 h4 => ho _ ⟨p, d, id, n, q, h1, h2, h3, h4, rfl⟩)).trans (alike_Ber_parse hd hR h).fst.symm
  · intro al al' hv _ ha
    exact ((alike_Ber_parse hd hR h).fst.trans <| cong <| (agree_Ber_slice UE.correct ue_frugal ue_inline hv ha hk hl fun p d id n q h1 h2 h3 h4 => ho _ ⟨p, d, id, n, q, h1, h2, h3, h4, rfl⟩)).trans (alike_Ber_parse hd hR h).fst.symm

/-- **C82, exactly, lower bound.** `C82_slice_refused_exact` for every reader that delivers the octets, in whatever pieces. -/
theorem C82_reader_refused_exact (hd : Delivers R) (m : Build) (al : Allocator) (hv : al.Valid) (h : Heap) {s : σ} {bs : Bytes} (hR : R s bs)
    (hl : bs.length ≤ isizeMax) (k : Nat) :
    (∀ id n q, IsId id → n < 2 ^ 64 → bs = id ++ lenOctets n ++ q → (id ++ lenOctets n).length + n ≤ isizeMax →
      (max 23 k < (id ++ lenOctets n).length + n → Raw.Der.parse little m (limited k al) honestRead s h = .abort) ∧
      (max 16 k < (id ++ lenOctets n).length + n → Raw.Der.parse universal m (limited k al) honestRead s h = .abort)) ∧
    (∀ t, Announces bs t → t ≤ isizeMax →
      (max 23 k < t → Raw.Ber.parse little m (limited k al) honestReadExact s h = .abort) ∧
      (max 16 k < t → Raw.Ber.parse universal m (limited k al) honestReadExact s h = .abort)) := by
  have hv' := limited_valid (limit := k) hv
  have hcap := caps_limited k al
  constructor
  · rintro id n q hid hn rfl h1
    obtain ⟨j, _, _, hj⟩ := alike_Der_parse (I := little) (m := m) hd hR
    obtain ⟨j', _, _, hj'⟩ := alike_Der_parse (I := universal) (m := m) hd hR
    exact ⟨fun h2 => (hj _ h).abort_iff.mpr (der_refused LE.correct le_frugal le_inline hv' hcap h hid hn h1 h2),
      fun h2 => (hj' _ h).abort_iff.mpr (der_refused UE.correct ue_frugal ue_inline hv' hcap h hid hn h1 h2)⟩
  · intro t ht h1
    obtain ⟨e1, e2⟩ := (C82_slice_refused_exact m al hv h bs hl k).2 t ht h1
    exact ⟨fun h2 => (alike_Ber_parse hd hR h).abort_iff.mpr (e1 h2), fun h2 => (alike_Ber_parse hd hR h).abort_iff.mpr (e2 h2)⟩

/-- A stream that has announced 2 GiB and has not delivered any of it: `Der::parse` asks for them now. -/
example (m : Build) (al : Allocator) (hv : al.Valid) (h : Heap) :
    Raw.Der.parse little m (limited (2 ^ 30) al) honestRead ([.chunk [0x04, 0x84], .chunk [0x80, 0x00, 0x00, 0x00]] : Script) h = .abort := by
  have hR : Chunks [.chunk [0x04, 0x84], .chunk [0x80, 0x00, 0x00, 0x00]] ([0x04] ++ lenOctets (2 ^ 31) ++ []) :=
    .cons [0x04, 0x84] _ _ (by simp) (.cons [0x80, 0x00, 0x00, 0x00] _ _ (by simp) .nil)
  exact ((C82_reader_refused_exact delivers_chunks m al hv h hR (by decide +kernel) (2 ^ 30)).1 [0x04] (2 ^ 31) []
    ⟨0, 0, 4, by decide, by decide, by decide⟩ (by decide) rfl (by decide +kernel)).1 (by decide +kernel)

/-- `Der::parse` where the header announces `n` octets, whatever comes then. -/
theorem cost_Der_header {I : Impl} {Rep : I.B → Heap → List Cell → Nat → Option Nat → Prop} {init : Nat} {m : Build} {al : Allocator}
    (hx : Exact I Rep init) (hv : al.Valid) {rd : Nat → Bytes → ReadEffect Bytes} {id q : Bytes} {n : Nat} (hid : IsId id)
    (hn : (id ++ lenOctets n).length + n ≤ isizeMax) (h1 : (rd n q).result ≠ .panic) (h2 : (rd n q).result ≠ .ub) (h : Heap) :
    Cost (Raw.Der.parse I m al rd (id ++ lenOctets n ++ q)) h none (grown init (ticks 0 (id ++ lenOctets n).length ++ [(id ++ lenOctets n).length + n]))
      (fun _ _ _ => True) := by
  have hu := usizeSize_eq
  have hmax := isizeMax_lt
  have hc := hx.correct
  unfold Raw.Der.parse
  rw [parseIdLength_definite hid (by omega)]
  simp only [List.nil_append]
  generalize hw : id ++ lenOctets n = w1 at *
  rw [grown_append, roomAfter_ticks _ _ _ (Nat.zero_le _), Nat.zero_add]
  refine (cost_writeAll hx hv w1 [] I.new h none init (room_new hx h) (by simp; omega)).bind ?_
  intro b h fp hb
  simp only [List.nil_append, List.length_nil, Nat.zero_add] at hb
  rw [hb.has.len hc]
  refine .same (usizeAdd_ok m (by omega) h) ?_
  refine Cost.last (cost_room hx hv hb hn) ?_
  intro b h fp hb
  obtain ⟨R, hr, hR⟩ := hb
  refine .first (cost_setLen hx hr (by simp; omega)) ?_
  intro b h fp hr
  rw [hc.len hr, if_neg (by omega), Nat.add_sub_cancel_left]
  refine .first (cost_poke hx hr (by simp; omega)) ?_
  intro b h fp hr
  revert h1 h2
  rcases (rd n q).result with k | er | _ | _
  · intro _ _
    exact .ite (fun _ => .first (cost_drop hx hr) fun _ _ _ _ => .pure trivial) fun _ => .pure trivial
  · intro _ _
    exact .first (cost_drop hx hr) fun _ _ _ _ => .pure trivial
  · intro h1; exact absurd rfl h1
  · intro _ h2; exact absurd rfl h2

/-- `Der::parse` of an indefinite length. -/
theorem cost_Der_indefinite {I : Impl} {Rep : I.B → Heap → List Cell → Nat → Option Nat → Prop} {init : Nat} {m : Build} {al : Allocator}
    (hx : Exact I Rep init) (hv : al.Valid) {rd : Nat → Bytes → ReadEffect Bytes} {id q : Bytes} (hid : IsId id)
    (hn : (id ++ indefOctets).length ≤ isizeMax) (h : Heap) :
    Cost (Raw.Der.parse I m al rd (id ++ indefOctets ++ q)) h none (grown init (ticks 0 (id ++ indefOctets).length)) (fun _ _ _ => True) := by
  unfold Raw.Der.parse
  rw [parseIdLength_indefinite hid]
  simp only [List.nil_append]
  generalize hw : id ++ indefOctets = w1 at *
  refine Cost.last (cost_writeAll hx hv w1 [] I.new h none init (room_new hx h) (by simp; omega)) ?_
  rintro b h fp ⟨R, hr, _⟩
  exact .first (cost_drop hx hr) fun _ _ _ _ => .pure trivial

namespace Raw

/-- What this call returns, be it an error, it has called the allocator `k` times; unless the allocator refuses. -/
def Calls {α : Type} (x : M α) (h : Heap) (k : Nat) : Prop := x h = .abort ∨ ∃ a h', x h = .ok a h' ∧ h'.clock = h.clock + k

theorem Cost.calls {α : Type} {x : M α} {h : Heap} {k : Nat} {Q : α → Heap → Option Nat → Prop} (hc : Cost x h none k Q) : Calls x h k := by
  rcases hc with e | ⟨a, h', fp, e, ⟨_, ek⟩, _⟩
  · exact .inl e
  · exact .inr ⟨a, h', e, ek⟩

theorem Alike.calls {α : Type} {Q : α → σ → Bytes → Prop} {x : M (α × σ)} {y : M (α × Bytes)} {h : Heap} {k : Nat} (hxy : Alike Q (x h) (y h))
    (hy : Calls y h k) : Calls x h k := by
  rcases hy with e | ⟨a, h', e, ek⟩
  · exact .inl (hxy.abort_iff.mpr e)
  · rw [e] at hxy
    generalize ex : x h = ox at hxy
    cases hxy with
    | ok a s bs h' _ => exact .inr ⟨_, h', ex, ek⟩

end Raw

/-- **C96, exactly.** In whatever pieces the octets come: `Der::parse` that has got a header calls the allocator where an octet of the header does
not fit in the buffer, and once more if what the header announces does not; then it does not matter whether the contents come. `Ber::parse` of a
value that is there calls it as if the octets were in a slice, and leaves the octets behind the value. -/
theorem C96_reader_exact (hd : Delivers R) (m : Build) (al : Allocator) (hv : al.Valid) (h : Heap) {s : σ} {bs : Bytes} (hR : R s bs) :
    (∀ id n q, IsId id → bs = id ++ lenOctets n ++ q → (id ++ lenOctets n).length + n ≤ isizeMax →
      Calls (Raw.Der.parse little m al honestRead s) h (grown 23 (ticks 0 (id ++ lenOctets n).length ++ [(id ++ lenOctets n).length + n])) ∧
      Calls (Raw.Der.parse universal m al honestRead s) h (grown 16 (ticks 0 (id ++ lenOctets n).length ++ [(id ++ lenOctets n).length + n]))) ∧
    (∀ id q, IsId id → bs = id ++ indefOctets ++ q → (id ++ indefOctets).length ≤ isizeMax →
      Calls (Raw.Der.parse little m al honestRead s) h (grown 23 (ticks 0 (id ++ indefOctets).length)) ∧
      Calls (Raw.Der.parse universal m al honestRead s) h (grown 16 (ticks 0 (id ++ indefOctets).length))) ∧
    (∀ v st q, BerStops 0 v st → bs = v ++ q → bs.length ≤ isizeMax →
      (Raw.Ber.parse little m al honestReadExact s h = .abort ∨ ∃ b s' h', Raw.Ber.parse little m al honestReadExact s h = .ok (.ok b, s') h' ∧
        R s' q ∧ little.cells b h' = .ok (v.map some) h' ∧ h'.clock = h.clock + grown 23 st) ∧
      (Raw.Ber.parse universal m al honestReadExact s h = .abort ∨ ∃ b s' h', Raw.Ber.parse universal m al honestReadExact s h = .ok (.ok b, s') h' ∧
        R s' q ∧ universal.cells b h' = .ok (v.map some) h' ∧ h'.clock = h.clock + grown 16 st)) := by
  refine ⟨?_, ?_, ?_⟩
  · rintro id n q hid rfl hn
    obtain ⟨k, _, _, hk⟩ := alike_Der_parse (I := little) (m := m) hd hR
    obtain ⟨k', _, _, hk'⟩ := alike_Der_parse (I := universal) (m := m) hd hR
    exact ⟨(hk al h).calls (cost_Der_header le_exact hv hid hn (by simp [pieceRead]) (by simp [pieceRead]) h).calls,
      (hk' al h).calls (cost_Der_header ue_exact hv hid hn (by simp [pieceRead]) (by simp [pieceRead]) h).calls⟩
  · rintro id q hid rfl hn
    obtain ⟨k, _, _, hk⟩ := alike_Der_parse (I := little) (m := m) hd hR
    obtain ⟨k', _, _, hk'⟩ := alike_Der_parse (I := universal) (m := m) hd hR
    exact ⟨(hk al h).calls (cost_Der_indefinite le_exact hv hid hn h).calls, (hk' al h).calls (cost_Der_indefinite ue_exact hv hid hn h).calls⟩
  · rintro v st q hs rfl hn
    have key : ∀ {I : Impl} {k : Nat}, Reads I (Raw.Ber.parse I m al honestReadExact (v ++ q)) h v q k →
        (Raw.Ber.parse I m al honestReadExact s h = .abort ∨ ∃ b s' h', Raw.Ber.parse I m al honestReadExact s h = .ok (.ok b, s') h' ∧
          R s' q ∧ I.cells b h' = .ok (v.map some) h' ∧ h'.clock = h.clock + k) := by
      intro I k hr
      have ha := alike_Ber_parse (I := I) (m := m) (al := al) hd hR h
      rcases hr with e | ⟨b, h', e, h1, h2⟩
      · exact .inl (ha.abort_iff.mpr e)
      · rw [e] at ha
        generalize ex : Raw.Ber.parse I m al honestReadExact s h = ox at ha
        cases ha with
        | ok a s' bs' h' hq => exact .inr ⟨b, s', h', rfl, hq, h1, h2⟩
    obtain ⟨h1, h2⟩ := (C96_parse_exact m al hv h q).2 v st hs hn
    exact ⟨key h1, key h2⟩

/-- The 300 octets that are announced do not come: one call all the same. -/
example (m : Build) (al : Allocator) (hv : al.Valid) (h : Heap) :
    Calls (Raw.Der.parse little m al honestRead ([.chunk [0x04], .chunk [0x82, 0x01, 0x2c], .chunk [0x07]] : Script)) h 1 := by
  have hR : Chunks [.chunk [0x04], .chunk [0x82, 0x01, 0x2c], .chunk [0x07]] ([0x04] ++ lenOctets 300 ++ [0x07]) :=
    .cons [0x04] _ _ (by simp) (.cons [0x82, 0x01, 0x2c] _ _ (by simp) (.cons [0x07] _ _ (by simp) .nil))
  have := ((C96_reader_exact delivers_chunks m al hv h hR).1 [0x04] 300 [0x07] ⟨0, 0, 4, by decide, by decide, by decide⟩ rfl (by decide +kernel)).1
  have e : grown 23 (ticks 0 ([0x04] ++ lenOctets 300).length ++ [([0x04] ++ lenOctets 300).length + 300]) = 1 := by decide +kernel
  rwa [e] at this

end Bsn1
