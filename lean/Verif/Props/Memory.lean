import Verif.Lemmas.RawMemory
import Verif.Props.Raw
/-!
# C82: how much memory the owned values ask for
-/

namespace Bsn1
open Bsn1.Spec Bsn1.Buf Bsn1.Raw

/-- Every request to the allocator is for at most `k` octets: its answers to larger requests make no difference. -/
def AsksAtMost {α : Type} (k : Nat) (x : Allocator → M α) (h : Heap) : Prop :=
  ∀ al al' : Allocator, al.Valid → al'.Valid → (∀ clock bl size, size ≤ k → al clock bl size = al' clock bl size) → x al h = x al' h

/-- The notion means what it says: a call that asks for more does depend on the answer. -/
example : ¬ AsksAtMost 4 (fun al => alloc al 5) ⟨fun _ => none, 0⟩ := by
  intro hh
  have := hh (fun _ _ _ => none) (fun c bl n => if n = 5 ∧ bl 1 = none then some (1, List.replicate 5 none) else none)
    (by intro _ _ _ _ _ e; cases e)
    (by
      intro c bl n a cells e
      simp only at e
      split at e
      · rename_i hc
        cases e
        exact ⟨by decide, by decide, hc.2, by simp [hc.1]⟩
      · cases e)
    (by
      intro c bl n hn
      rw [if_neg (by omega)])
  simp [alloc, isizeMax] at this

/-- **C82.** A `Der` or `Ber` that is read from any reader, in whatever pieces it comes, asks for no block larger than the value that
is returned; `Id::parse` asks for no more than the reader has, whatever it returns; `Der::new` and `Der::with_id_length` ask for
no more than the value has octets.  (Partial: parsing that fails, see `C82_parse_violated`.) -/
theorem C82_requests_partial {σ : Type} [Reader σ] [LawfulReader σ] (m : Build) (h : Heap) (s s' : σ) (v : Bytes)
    (hs : Reader.size s ≤ isizeMax) (hv : v.length ≤ isizeMax) :
    (Der.parse m s = (.ok v, s') →
      AsksAtMost v.length (fun al => Raw.Der.parse little m al honestRead s) h ∧
      AsksAtMost v.length (fun al => Raw.Der.parse universal m al honestRead s) h) ∧
    (Ber.parse m s = (.ok v, s') →
      AsksAtMost v.length (fun al => Raw.Ber.parse little m al honestReadExact s) h ∧
      AsksAtMost v.length (fun al => Raw.Ber.parse universal m al honestReadExact s) h) ∧
    AsksAtMost (Reader.size s) (fun al => Raw.Id.parse little m al s) h ∧
    AsksAtMost (Reader.size s) (fun al => Raw.Id.parse universal m al s) h ∧
    (∀ id c, v = tlv id c →
      AsksAtMost v.length (fun al => Raw.Der.new little m al id c) h ∧
      AsksAtMost v.length (fun al => Raw.Der.new universal m al id c) h ∧
      AsksAtMost v.length (fun al => Raw.Der.withIdLength little m al id c.length) h ∧
      AsksAtMost v.length (fun al => Raw.Der.withIdLength universal m al id c.length) h) := by
  refine ⟨fun hp => ⟨?_, ?_⟩, fun hp => ⟨?_, ?_⟩, ?_, ?_, ?_⟩
  · intro al al' h1 _ ha; exact agree_Der_parse LE.correct le_frugal h1 ha hv hp (Nat.le_refl _)
  · intro al al' h1 _ ha; exact agree_Der_parse UE.correct ue_frugal h1 ha hv hp (Nat.le_refl _)
  · intro al al' h1 _ ha; exact agree_Ber_parse LE.correct le_frugal h1 ha hv hs hp (Nat.le_refl _)
  · intro al al' h1 _ ha; exact agree_Ber_parse UE.correct ue_frugal h1 ha hv hs hp (Nat.le_refl _)
  · intro al al' h1 _ ha; exact agree_Id_parse LE.correct le_frugal h1 ha hs (Nat.le_refl _)
  · intro al al' h1 _ ha; exact agree_Id_parse UE.correct ue_frugal h1 ha hs (Nat.le_refl _)
  · rintro id c rfl
    have hu : isizeMax < 2 ^ 64 := by decide
    have hl : c.length < 2 ^ 64 := by simp only [tlv, List.length_append] at hv; omega
    have hl2 : id.length + (lenOctets c.length).length + c.length ≤ (tlv id c).length := by simp [tlv, Nat.add_assoc]
    refine ⟨?_, ?_, ?_, ?_⟩
    · intro al al' _ _ ha; exact agree_Der_new le_frugal ha hl (Nat.le_refl _)
    · intro al al' _ _ ha; exact agree_Der_new ue_frugal ha hl (Nat.le_refl _)
    · intro al al' _ _ ha; exact agree_withIdLength le_frugal ha hl hl2
    · intro al al' _ _ ha; exact agree_withIdLength ue_frugal ha hl hl2

/-- A value of 40 octets, which is not stored inline. -/
example : Der.parse .debug ([0x04, 0x26] ++ List.replicate 38 7 ++ [1, 2] : Bytes) = (.ok ([0x04, 0x26] ++ List.replicate 38 7), [1, 2]) := by
  decide +kernel

/-- An allocator that gives what `al` gives, but no block larger than `limit`. -/
def limited (limit : Nat) (al : Allocator) : Allocator := fun clock bl size => if size ≤ limit then al clock bl size else none

theorem limited_valid {limit : Nat} {al : Allocator} (hv : al.Valid) : (limited limit al).Valid := by
  intro clock bl size a cells e
  unfold limited at e
  split at e
  · exact hv _ _ _ _ _ e
  · cases e

/-- **C82** fails for input that cannot be parsed: however much memory there is, ten octets suffice to make `Der::parse` and
`Ber::parse` ask for more, and end the process.  (Parsing the same octets with `DerRef::parse` and `BerRef::parse` is an error.) -/
theorem C82_parse_violated (m : Build) (al : Allocator) (hv : al.Valid) (h : Heap) (limit : Nat) (hl : limit + 64 ≤ isizeMax) :
    (limited limit al).Valid ∧ ∃ bs : Bytes, bs.length ≤ 10 ∧
      Raw.Der.parse little m (limited limit al) honestRead bs h = .abort ∧
      Raw.Der.parse universal m (limited limit al) honestRead bs h = .abort ∧
      Raw.Ber.parse little m (limited limit al) honestReadExact bs h = .abort ∧
      Raw.Ber.parse universal m (limited limit al) honestReadExact bs h = .abort ∧
      (DerRef.parse bs).1 = .err .unterminatedBytes ∧ (BerRef.parse bs).1 = .err .unterminatedBytes := by
  have hu : isizeMax < 2 ^ 64 := by decide
  have hal : ∀ clock bl size, limit + 24 ≤ size → limited limit al clock bl size = none := by
    intro clock bl size hs
    rw [limited, if_neg (by omega)]
  have hlen := lenOctets_length_le (n := limit + 24) (by omega)
  have hle := parse_refused (m := m) (h := h) LE.correct le_frugal (n := limit + 24) (by omega) (by omega) hal []
  have hue := parse_refused (m := m) (h := h) UE.correct ue_frugal (n := limit + 24) (by omega) (by omega) hal []
  rw [List.append_nil] at hle hue
  have hid : IsId [0x04] := ⟨0, 0, 4, by decide, by decide, by decide +kernel⟩
  have hh := parseIdLength_definite hid (n := limit + 24) (by omega) [] []
  rw [List.append_nil] at hh
  refine ⟨limited_valid hv, [0x04] ++ lenOctets (limit + 24), by simp; omega, (hle _).1, (hue _).1, (hle _).2, (hue _).2, ?_, ?_⟩
  · rw [DerRef.parse, DerRef.doParse, hh]
    simp
  · rw [BerRef.parse, BerRef.parseLoop, BerRef.doParse, if_neg, hh]
    · simp
    · simp [BerRef.eoc]

end Bsn1
