import Verif.Lemmas.RawSpend
import Verif.Props.RawReader
/-!
# C96 for input of any kind: values, rejected input, readers that fail
-/

namespace Bsn1
open Bsn1.Spec Bsn1.Buf Bsn1.Raw

theorem honestRead_size {σ : Type} [Reader σ] [LawfulReader σ] (n : Nat) (s : σ) : Reader.size (honestRead n s).next ≤ Reader.size s := by
  unfold honestRead
  rcases he : Reader.read n s with ⟨o, s1⟩
  cases o with
  | fail k => have := LawfulReader.read_fail n s s1 k he; simp only; omega
  | data c => have := LawfulReader.read_data n s s1 c he; simp only; omega

/-- **C96.** Whatever the reader gives, and wherever it fails: if `Der::parse` or `Ber::parse` returns, be it an error, then it has called the
allocator at most once for each octet taken beyond those that fit in the buffer itself, and at most once more; `Ber::parse` that returns a value, not
even that.  (For a reader that fails now and then, each failure counts as an octet here; for the others see `C96_any_octets`.) -/
theorem C96_any_reader {σ : Type} [Reader σ] [LawfulReader σ] (m : Build) (al : Allocator) (hv : al.Valid) (h : Heap) (s : σ)
    (hs : Reader.size s ≤ isizeMax) :
    (∀ r s' h', Raw.Der.parse little m al honestRead s h = .ok (r, s') h' → h'.clock ≤ h.clock + (Reader.size s - Reader.size s' - 23) + 1) ∧
    (∀ r s' h', Raw.Der.parse universal m al honestRead s h = .ok (r, s') h' → h'.clock ≤ h.clock + (Reader.size s - Reader.size s' - 16) + 1) ∧
    (∀ r s' h', Raw.Ber.parse little m al honestReadExact s h = .ok (r, s') h' →
      h'.clock ≤ h.clock + (Reader.size s - Reader.size s' - 23) + oneMore r) ∧
    (∀ r s' h', Raw.Ber.parse universal m al honestReadExact s h = .ok (r, s') h' →
      h'.clock ≤ h.clock + (Reader.size s - Reader.size s' - 16) + oneMore r) :=
  ⟨fun r s' h' e => upon_Der_parse le_exact hv h _ honestRead_size s hs (r, s') h' e,
   fun r s' h' e => upon_Der_parse ue_exact hv h _ honestRead_size s hs (r, s') h' e,
   fun r s' h' e => upon_Ber_parse le_exact hv h s hs (r, s') h' e,
   fun r s' h' e => upon_Ber_parse ue_exact hv h s hs (r, s') h' e⟩

/-- A stream that fails in the middle of a header inside of an indefinite value: at most one call. -/
example (m : Build) (al : Allocator) (hv : al.Valid) (h : Heap) (r) (s' : Script) (h' : Heap)
    (e : Raw.Ber.parse little m al honestReadExact ([.chunk [0x30, 0x80, 0x04], .fail (.other 5), .chunk [0x01]] : Script) h = .ok (.error r, s') h') :
    h'.clock ≤ h.clock + 1 := by
  have := (C96_any_reader m al hv h ([.chunk [0x30, 0x80, 0x04], .fail (.other 5), .chunk [0x01]] : Script) (by decide +kernel)).2.2.1 _ _ _ e
  have e1 : Reader.size ([.chunk [0x30, 0x80, 0x04], .fail (.other 5), .chunk [0x01]] : Script) ≤ 10 := by decide +kernel
  simp only [oneMore] at this
  omega

/-- **C96.** The same for octets that come in whatever pieces, in terms of the octets that are left: `bs` is what there is to read, `q` what is left
when the function returns. -/
theorem C96_any_octets {σ : Type} [Reader σ] {R : σ → Bytes → Prop} (hd : Delivers R) (m : Build) (al : Allocator) (hv : al.Valid) (h : Heap) {s : σ}
    {bs : Bytes} (hR : R s bs) (hl : bs.length ≤ isizeMax) :
    (∀ r s' h', Raw.Der.parse little m al honestRead s h = .ok (r, s') h' →
      ∃ q, R s' q ∧ h'.clock ≤ h.clock + (bs.length - q.length - 23) + 1) ∧
    (∀ r s' h', Raw.Der.parse universal m al honestRead s h = .ok (r, s') h' →
      ∃ q, R s' q ∧ h'.clock ≤ h.clock + (bs.length - q.length - 16) + 1) ∧
    (∀ r s' h', Raw.Ber.parse little m al honestReadExact s h = .ok (r, s') h' →
      ∃ q, R s' q ∧ h'.clock ≤ h.clock + (bs.length - q.length - 23) + oneMore r) ∧
    (∀ r s' h', Raw.Ber.parse universal m al honestReadExact s h = .ok (r, s') h' →
      ∃ q, R s' q ∧ h'.clock ≤ h.clock + (bs.length - q.length - 16) + oneMore r) := by
  have der : ∀ {I : Impl} {Rep : I.B → Heap → List Cell → Nat → Option Nat → Prop} {init : Nat}, Exact I Rep init → ∀ r s' h',
      Raw.Der.parse I m al honestRead s h = .ok (r, s') h' → ∃ q, R s' q ∧ h'.clock ≤ h.clock + (bs.length - q.length - init) + 1 := by
    intro I Rep init hx r s' h' e
    obtain ⟨k, _, _, hk⟩ := alike_Der_parse (I := I) (m := m) hd hR
    have ha := hk al h
    rw [e] at ha
    generalize ey : Raw.Der.parse I m al (pieceRead k) bs h = oy at ha
    cases ha with
    | ok a s' q h' hq => exact ⟨q, hq, upon_Der_parse hx hv h _ (fun n s => by simp [pieceRead]) bs hl (r, q) h' ey⟩
  have ber : ∀ {I : Impl} {Rep : I.B → Heap → List Cell → Nat → Option Nat → Prop} {init : Nat}, Exact I Rep init → ∀ r s' h',
      Raw.Ber.parse I m al honestReadExact s h = .ok (r, s') h' → ∃ q, R s' q ∧ h'.clock ≤ h.clock + (bs.length - q.length - init) + oneMore r := by
    intro I Rep init hx r s' h' e
    have ha := alike_Ber_parse (I := I) (m := m) (al := al) hd hR h
    rw [e] at ha
    generalize ey : Raw.Ber.parse I m al honestReadExact bs h = oy at ha
    cases ha with
    | ok a s' q h' hq => exact ⟨q, hq, upon_Ber_parse hx hv h bs hl (r, q) h' ey⟩
  exact ⟨der le_exact, der ue_exact, ber le_exact, ber ue_exact⟩

/-- Rejected for the identifier `1f 80` inside of an indefinite value: at most one call. -/
example (m : Build) (al : Allocator) (hv : al.Valid) (h : Heap) (r) (s' : Bytes) (h' : Heap)
    (e : Raw.Ber.parse little m al honestReadExact ([0x30, 0x80, 0x1f, 0x80, 0x01] : Bytes) h = .ok (.error r, s') h') : h'.clock ≤ h.clock + 1 := by
  obtain ⟨q, _, h2⟩ := (C96_any_octets delivers_slice m al hv h (s := ([0x30, 0x80, 0x1f, 0x80, 0x01] : Bytes)) rfl (by decide +kernel)).2.2.1 _ _ _ e
  simp only [oneMore, List.length_cons, List.length_nil] at h2
  omega

/-- Such input exists, and the one call there may be for input that is rejected is made: 100 octets are announced inside of an indefinite value, 3
come. -/
example : (match Raw.Ber.parse little .debug (fun c _ n => some (c + 1, List.replicate n none)) honestReadExact
      ([0x30, 0x80, 0x04, 0x64, 0x01, 0x02, 0x03] : Bytes) ⟨fun _ => none, 0⟩ with
    | .ok (.error _, q) h' => q.length == 0 && h'.clock == 1
    | _ => false) = true := by decide +kernel

end Bsn1
