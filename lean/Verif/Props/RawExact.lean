import Verif.Props.Raw
import Verif.Props.Memory
import Verif.Lemmas.RawExact
/-!
# C78, C82: what announced lengths do to memory, exactly
-/

namespace Bsn1
open Buf Spec

open Raw

/-- **C78, exactly, for `Der::parse`.** A header that announces more than fits: as long as its octets are in the buffer itself (23 or 16), it is
a panic. Beyond, the header has moved to the heap (unless the allocator refused that), and the call breaks the contract of `realloc`, except
where the sum does not even fit `usize`: then it panics. `C78_parse_partial` is about all other input. -/
theorem C78_der_parse_exact (m : Build) (al : Allocator) (hv : al.Valid) (h : Heap) {id q : Bytes} {n : Nat} (hid : IsId id) (hn : n < 2 ^ 64)
    (hl : (id ++ lenOctets n ++ q).length ≤ isizeMax) (ho : isizeMax < (id ++ lenOctets n).length + n) :
    (if (id ++ lenOctets n).length ≤ 23 then Raw.Der.parse little m al honestRead (id ++ lenOctets n ++ q) h = .panic
      else Raw.Der.parse little m al honestRead (id ++ lenOctets n ++ q) h = .abort ∨
        Raw.Der.parse little m al honestRead (id ++ lenOctets n ++ q) h =
          if (id ++ lenOctets n).length + n < 2 ^ 64 then .ub else .panic) ∧
    (if (id ++ lenOctets n).length ≤ 16 then Raw.Der.parse universal m al honestRead (id ++ lenOctets n ++ q) h = .panic
      else Raw.Der.parse universal m al honestRead (id ++ lenOctets n ++ q) h = .abort ∨
        Raw.Der.parse universal m al honestRead (id ++ lenOctets n ++ q) h =
          if (id ++ lenOctets n).length + n < 2 ^ 64 then .ub else .panic) :=
  ⟨der_over LE.correct le_frugal le_inline hv (caps_max al) h hid hn hl ho, der_over UE.correct ue_frugal ue_inline hv (caps_max al) h hid hn hl ho⟩

/-- A header of six octets that announces 2⁶³ - 1. -/
example (m : Build) (al : Allocator) (hv : al.Valid) (h : Heap) := C78_der_parse_exact m al hv h (id := [0x04]) (q := [0x07]) (n := isizeMax)
  ⟨0, 0, 4, by decide, by decide, by decide +kernel⟩ (by decide +kernel) (by decide +kernel) (by decide +kernel)

/-- **C78, exactly, for `Ber::parse`.** The same where a header is due behind the octets `p` of an indefinite value; what counts is how much has
been read up to the end of that header. -/
theorem C78_ber_parse_exact (m : Build) (al : Allocator) (hv : al.Valid) (h : Heap) {d : Nat} {p id q : Bytes} {n : Nat} (hp : Due 0 p d)
    (hid : IsId id) (hn : n < 2 ^ 64) (hl : (p ++ (id ++ lenOctets n ++ q)).length ≤ isizeMax)
    (ho : isizeMax < (p ++ id ++ lenOctets n).length + n) :
    (if (p ++ id ++ lenOctets n).length ≤ 23 then Raw.Ber.parse little m al honestReadExact (p ++ (id ++ lenOctets n ++ q)) h = .panic
      else Raw.Ber.parse little m al honestReadExact (p ++ (id ++ lenOctets n ++ q)) h = .abort ∨
        Raw.Ber.parse little m al honestReadExact (p ++ (id ++ lenOctets n ++ q)) h =
          if (p ++ id ++ lenOctets n).length + n < 2 ^ 64 then .ub else .panic) ∧
    (if (p ++ id ++ lenOctets n).length ≤ 16 then Raw.Ber.parse universal m al honestReadExact (p ++ (id ++ lenOctets n ++ q)) h = .panic
      else Raw.Ber.parse universal m al honestReadExact (p ++ (id ++ lenOctets n ++ q)) h = .abort ∨
        Raw.Ber.parse universal m al honestReadExact (p ++ (id ++ lenOctets n ++ q)) h =
          if (p ++ id ++ lenOctets n).length + n < 2 ^ 64 then .ub else .panic) :=
  ⟨ber_over LE.correct le_frugal le_inline hv (caps_max al) h hp hid hn hl ho, ber_over UE.correct ue_frugal ue_inline hv (caps_max al) h hp hid hn hl ho⟩

namespace Spec

/-- Where a header is due, `bs` has one that ends behind the first `init` octets and announces a total between `isize::MAX` and `usize::MAX`. -/
def Hostile (init : Nat) (bs : List UInt8) : Prop :=
  ∃ p d id n q, Due 0 p d ∧ IsId id ∧ n < 2 ^ 64 ∧ bs = p ++ (id ++ lenOctets n ++ q) ∧ init < (p ++ id ++ lenOctets n).length ∧
    isizeMax < (p ++ id ++ lenOctets n).length + n ∧ (p ++ id ++ lenOctets n).length + n < 2 ^ 64

end Spec

/-- A parser on storage where the allocator does not refuse. -/
theorem ParsesTo.not_ub {I : Impl} {σ : Type} {x : M (Except Error I.B × σ)} {h : Heap} {r : Res Bytes} {s' : σ} (hp : ParsesTo x h r s')
    : x h ≠ .ub ∧ x h ≠ .panic := by
  rcases hp with e | hp
  · rw [e]; exact ⟨nofun, nofun⟩
  · cases r with
    | ok v => obtain ⟨b, h', e, _⟩ := hp; rw [e]; exact ⟨nofun, nofun⟩
    | err e' => obtain ⟨h', e, _⟩ := hp; rw [e]; exact ⟨nofun, nofun⟩
    | panic => exact hp.elim
    | ub => exact hp.elim

/-- **C78, exactly.** Which slices make `Ber::parse` break the rules of the memory, unless the allocator refuses before. -/
theorem C78_ber_parse_ub_iff (m : Build) (al : Allocator) (hv : al.Valid) (h : Heap) (bs : Bytes) (hl : bs.length ≤ isizeMax) :
    (Raw.Ber.parse little m al honestReadExact bs h ≠ .abort →
      (Raw.Ber.parse little m al honestReadExact bs h = .ub ↔ Hostile 23 bs)) ∧
    (Raw.Ber.parse universal m al honestReadExact bs h ≠ .abort →
      (Raw.Ber.parse universal m al honestReadExact bs h = .ub ↔ Hostile 16 bs)) := by
  have key : ∀ {I : Impl} (init : Nat) (x : Out (Except Error I.B × Bytes)), x ≠ .abort →
      (∀ p d id n q, Due 0 p d → IsId id → n < 2 ^ 64 → bs = p ++ (id ++ lenOctets n ++ q) →
        isizeMax < (p ++ id ++ lenOctets n).length + n → Overflows init (p ++ id ++ lenOctets n).length n x) →
      (¬ TooLong isizeMax bs → x ≠ .ub) → (x = .ub ↔ Hostile init bs) := by
    intro I init x ha h1 h2
    constructor
    · intro hx
      by_cases ht : TooLong isizeMax bs
      · obtain ⟨p, d, id, n, q, j1, j2, j3, j4, j5⟩ := ht
        have := h1 p d id n q j1 j2 j3 j4 j5
        unfold Overflows at this
        split at this
        · rw [hx] at this; cases this
        · rcases this with e | e
          · exact absurd e ha
          · split at e
            · exact ⟨p, d, id, n, q, j1, j2, j3, j4, by omega, j5, ‹_›⟩
            · rw [hx] at e; cases e
      · exact absurd hx (h2 ht)
    · rintro ⟨p, d, id, n, q, j1, j2, j3, j4, j5, j6, j7⟩
      have := h1 p d id n q j1 j2 j3 j4 j6
      rw [Overflows, if_neg (by omega), if_pos j7] at this
      exact this.resolve_left ha
  have hsettled : ¬ TooLong isizeMax bs → ∃ r s', Ber.parse m bs = (r, s') ∧ r ≠ .panic ∧ r ≠ .ub := by
    intro ht
    have := (C23_ber_parse_panic_iff delivers_slice m (s := bs) rfl hl).2 ht
    rcases hx : Ber.parse m bs with ⟨r, s'⟩
    rw [hx] at this
    exact ⟨r, s', rfl, by rintro rfl; simp [Res.Settled] at this, by rintro rfl; simp [Res.Settled] at this⟩
  constructor
  · intro ha
    refine key 23 _ ha (fun p d id n q j1 j2 j3 j4 j5 => ?_) fun ht => ?_
    · subst j4; exact (C78_ber_parse_exact m al hv h j1 j2 j3 hl j5).1
    · obtain ⟨r, s', e, h1, h2⟩ := hsettled ht
      exact (((C78_parse_partial m al hv h bs s' r (by simpa [size_bytes] using hl) h1 h2).2.1 e).1.not_ub).1
  · intro ha
    refine key 16 _ ha (fun p d id n q j1 j2 j3 j4 j5 => ?_) fun ht => ?_
    · subst j4; exact (C78_ber_parse_exact m al hv h j1 j2 j3 hl j5).2
    · obtain ⟨r, s', e, h1, h2⟩ := hsettled ht
      exact (((C78_parse_partial m al hv h bs s' r (by simpa [size_bytes] using hl) h1 h2).2.1 e).2.not_ub).1

/-- **C78, exactly.** Which slices make `Der::parse` break the rules of the memory, unless the allocator refuses before. -/
theorem C78_der_parse_ub_iff (m : Build) (al : Allocator) (hv : al.Valid) (h : Heap) (bs : Bytes) (hl : bs.length ≤ isizeMax) :
    (Raw.Der.parse little m al honestRead bs h ≠ .abort →
      (Raw.Der.parse little m al honestRead bs h = .ub ↔ ∃ id n q, IsId id ∧ n < 2 ^ 64 ∧ bs = id ++ lenOctets n ++ q ∧
        23 < (id ++ lenOctets n).length ∧ isizeMax < (id ++ lenOctets n).length + n ∧ (id ++ lenOctets n).length + n < 2 ^ 64)) ∧
    (Raw.Der.parse universal m al honestRead bs h ≠ .abort →
      (Raw.Der.parse universal m al honestRead bs h = .ub ↔ ∃ id n q, IsId id ∧ n < 2 ^ 64 ∧ bs = id ++ lenOctets n ++ q ∧
        16 < (id ++ lenOctets n).length ∧ isizeMax < (id ++ lenOctets n).length + n ∧ (id ++ lenOctets n).length + n < 2 ^ 64)) := by
  have hpan := C23_der_parse_panic_iff delivers_slice m (s := bs) rfl
  have key : ∀ {I : Impl} (init : Nat) (x : Out (Except Error I.B × Bytes)), x ≠ .abort →
      (∀ id n q, IsId id → n < 2 ^ 64 → bs = id ++ lenOctets n ++ q →
        isizeMax < (id ++ lenOctets n).length + n → Overflows init (id ++ lenOctets n).length n x) →
      ((Der.parse m bs).1 ≠ .panic → x ≠ .ub) → (x = .ub ↔ ∃ id n q, IsId id ∧ n < 2 ^ 64 ∧ bs = id ++ lenOctets n ++ q ∧
        init < (id ++ lenOctets n).length ∧ isizeMax < (id ++ lenOctets n).length + n ∧ (id ++ lenOctets n).length + n < 2 ^ 64) := by
    intro I init x ha h1 h2
    constructor
    · intro hx
      by_cases ht : (Der.parse m bs).1 = .panic
      · obtain ⟨id, n, q, j2, j3, j4, j5⟩ := hpan.1.mp ht
        have := h1 id n q j2 j3 j4 j5
        unfold Overflows at this
        split at this
        · rw [hx] at this; cases this
        · rcases this with e | e
          · exact absurd e ha
          · split at e
            · exact ⟨id, n, q, j2, j3, j4, by omega, j5, ‹_›⟩
            · rw [hx] at e; cases e
      · exact absurd hx (h2 ht)
    · rintro ⟨id, n, q, j2, j3, j4, j5, j6, j7⟩
      have := h1 id n q j2 j3 j4 j6
      rw [Overflows, if_neg (by omega), if_pos j7] at this
      exact this.resolve_left ha
  have hsettled : (Der.parse m bs).1 ≠ .panic → ∃ r s', Der.parse m bs = (r, s') ∧ r ≠ .panic ∧ r ≠ .ub := by
    intro ht
    have := hpan.2.resolve_left ht
    rcases hx : Der.parse m bs with ⟨r, s'⟩
    rw [hx] at this
    exact ⟨r, s', rfl, by rintro rfl; simp [Res.Settled] at this, by rintro rfl; simp [Res.Settled] at this⟩
  constructor
  · intro ha
    refine key 23 _ ha (fun id n q j2 j3 j4 j5 => ?_) fun ht => ?_
    · subst j4; exact (C78_der_parse_exact m al hv h j2 j3 hl j5).1
    · obtain ⟨r, s', e, h1, h2⟩ := hsettled ht
      exact (((C78_parse_partial m al hv h bs s' r (by simpa [size_bytes] using hl) h1 h2).1 e).1.not_ub).1
  · intro ha
    refine key 16 _ ha (fun id n q j2 j3 j4 j5 => ?_) fun ht => ?_
    · subst j4; exact (C78_der_parse_exact m al hv h j2 j3 hl j5).2
    · obtain ⟨r, s', e, h1, h2⟩ := hsettled ht
      exact (((C78_parse_partial m al hv h bs s' r (by simpa [size_bytes] using hl) h1 h2).1 e).2.not_ub).1

/-- The input of `C78_ber_parse_violated` is such a slice: the header behind the octet string is due, and it announces `isize::MAX` octets. -/
example : Hostile 23 hostileBer := by
  have hi := isizeMax_eq
  refine ⟨[0x30, 0x80, 0x04, 0x20] ++ List.replicate 32 0, 1, [0x04], isizeMax, [], ?_, ⟨0, 0, 4, by decide, by decide, by decide⟩, by omega,
    by decide +kernel, by decide +kernel, by decide +kernel, by decide +kernel⟩
  exact Due.open 0 1 [0x30] _ ⟨0, 1, 16, by decide, by decide, by decide⟩
    (Due.skip 1 1 [0x04] (List.replicate 32 0) [] (by decide) ⟨0, 0, 4, by decide, by decide, by decide⟩ (by decide) (by decide +kernel) (Due.nil 1))

/-- Without the octet string the header is still in the buffer itself: a panic, for all allocators. -/
example (m : Build) (al : Allocator) (hv : al.Valid) (h : Heap) :
    Raw.Ber.parse little m al honestReadExact ([0x30, 0x80, 0x04, 0x88, 0x7f, 0xff, 0xff, 0xff, 0xff, 0xff, 0xff, 0xff] : Bytes) h = .panic := by
  have hi := isizeMax_eq
  have e : ([0x30, 0x80, 0x04, 0x88, 0x7f, 0xff, 0xff, 0xff, 0xff, 0xff, 0xff, 0xff] : Bytes) =
      [0x30, 0x80] ++ ([0x04] ++ lenOctets isizeMax ++ []) := by decide +kernel
  rw [e]
  have := (C78_ber_parse_exact m al hv h (d := 1) (p := [0x30, 0x80]) (id := [0x04]) (q := []) (n := isizeMax)
    (Due.open 0 1 [0x30] [] ⟨0, 1, 16, by decide, by decide, by decide⟩ (Due.nil 1)) ⟨0, 0, 4, by decide, by decide, by decide⟩ (by omega)
    (by decide +kernel) (by decide +kernel)).1
  rwa [if_pos (by decide +kernel)] at this

namespace Spec

/-- Where a header is due, `bs` has one that announces contents up to octet `t`. -/
def Announces (bs : List UInt8) (t : Nat) : Prop :=
  ∃ p d id n q, Due 0 p d ∧ IsId id ∧ n < 2 ^ 64 ∧ bs = p ++ (id ++ lenOctets n ++ q) ∧ t = (p ++ id ++ lenOctets n).length + n

end Spec

theorem caps_limited (k : Nat) (al : Allocator) : Caps k (limited k al) := by
  intro clock bl size h _
  rw [limited, if_neg (by omega)]

/-- **C82, exactly, upper bound.** Whatever they return: `Der::parse` and `Ber::parse` of a slice ask for no more than the slice has octets, or a
header that is due announces. (What a header announces beyond `isize::MAX` is not asked for, see C78.) -/
theorem C82_slice_requests_exact (m : Build) (h : Heap) (bs : Bytes) (k : Nat) (hk : k ≤ isizeMax) (hl : bs.length ≤ k) :
    ((∀ id n q, IsId id → n < 2 ^ 64 → bs = id ++ lenOctets n ++ q → (id ++ lenOctets n).length + n ≤ isizeMax →
        (id ++ lenOctets n).length + n ≤ k) →
      AsksAtMost k (fun al => Raw.Der.parse little m al honestRead bs) h ∧
      AsksAtMost k (fun al => Raw.Der.parse universal m al honestRead bs) h) ∧
    ((∀ t, Announces bs t → t ≤ isizeMax → t ≤ k) →
      AsksAtMost k (fun al => Raw.Ber.parse little m al honestReadExact bs) h ∧
      AsksAtMost k (fun al => Raw.Ber.parse universal m al honestReadExact bs) h) := by
  refine ⟨fun ho => ⟨?_, ?_⟩, fun ho => ⟨?_, ?_⟩⟩
  · intro al al' hv _ ha; exact agree_Der_slice LE.correct le_frugal le_inline hv ha hk hl ho
  · intro al al' hv _ ha; exact agree_Der_slice UE.correct ue_frugal ue_inline hv ha hk hl ho
  · intro al al' hv _ ha
    exact agree_Ber_slice LE.correct le_frugal le_inline hv ha hk hl fun p d id n q h1 h2 h3 h4 => ho _ ⟨p, d, id, n, q, h1, h2, h3, h4, rfl⟩
  · intro al al' hv _ ha
    exact agree_Ber_slice UE.correct ue_frugal ue_inline hv ha hk hl fun p d id n q h1 h2 h3 h4 => ho _ ⟨p, d, id, n, q, h1, h2, h3, h4, rfl⟩

/-- **C82, exactly, lower bound.** What a due header announces is asked for, and the process ends if the allocator does not have as much, unless
it fits in the buffer itself. So the bound of `C82_slice_requests_exact` cannot be improved. -/
theorem C82_slice_refused_exact (m : Build) (al : Allocator) (hv : al.Valid) (h : Heap) (bs : Bytes) (hl : bs.length ≤ isizeMax) (k : Nat) :
    (∀ id n q, IsId id → n < 2 ^ 64 → bs = id ++ lenOctets n ++ q → (id ++ lenOctets n).length + n ≤ isizeMax →
      (max 23 k < (id ++ lenOctets n).length + n → Raw.Der.parse little m (limited k al) honestRead bs h = .abort) ∧
      (max 16 k < (id ++ lenOctets n).length + n → Raw.Der.parse universal m (limited k al) honestRead bs h = .abort)) ∧
    (∀ t, Announces bs t → t ≤ isizeMax →
      (max 23 k < t → Raw.Ber.parse little m (limited k al) honestReadExact bs h = .abort) ∧
      (max 16 k < t → Raw.Ber.parse universal m (limited k al) honestReadExact bs h = .abort)) := by
  have hv' := limited_valid (limit := k) hv
  have hcap := caps_limited k al
  constructor
  · rintro id n q hid hn rfl h1
    exact ⟨der_refused LE.correct le_frugal le_inline hv' hcap h hid hn h1, der_refused UE.correct ue_frugal ue_inline hv' hcap h hid hn h1⟩
  · rintro t ⟨p, d, id, n, q, hp, hid, hn, rfl, rfl⟩ h1
    exact ⟨ber_refused LE.correct le_frugal le_inline hv' hcap h hp hid hn hl h1, ber_refused UE.correct ue_frugal ue_inline hv' hcap h hp hid hn hl h1⟩

/-- Twelve octets that announce 2 GiB within an indefinite value. -/
example : Announces ([0x30, 0x80, 0x05, 0x00, 0x04, 0x84, 0x80, 0x00, 0x00, 0x00, 0x01, 0x02] : Bytes) (10 + 2 ^ 31) := by
  refine ⟨[0x30, 0x80, 0x05, 0x00], 1, [0x04], 2 ^ 31, [0x01, 0x02], ?_, ⟨0, 0, 4, by decide, by decide, by decide⟩, by decide,
    by decide +kernel, by decide +kernel⟩
  exact Due.open 0 1 [0x30] _ ⟨0, 1, 16, by decide, by decide, by decide⟩
    (Due.skip 1 1 [0x05] [] [] (by decide) ⟨0, 0, 5, by decide, by decide, by decide⟩ (by decide) (by decide +kernel) (Due.nil 1))

/-- Nothing is announced where no header can be read. -/
example (t : Nat) : ¬ Announces ([0x04] : Bytes) t := by
  rintro ⟨p, d, id, n, q, -, hid, -, e, -⟩
  have h1 := congrArg List.length e
  have h2 := isId_length_pos hid
  have h3 := List.length_pos_iff.mpr (lenOctets_ne_nil n)
  simp at h1
  omega

end Bsn1
