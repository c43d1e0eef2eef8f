import Verif.Spec.Named
import Verif.Props.Id
import Verif.Props.Der
import Verif.Props.Ber
/-!
# C97: identifiers with a name
-/

namespace Bsn1
open Spec

/-- **C97.** The identifier that `IdRef::boolean()`, `IdRef::sequence()`, … gives is `Id::new` of the universal class, the form of X.690 and
the tag number of X.680, and of nothing else. -/
theorem C97_named_iff (u : Universal) (junk : UInt8) (c : ClassTag) (p : PCTag) (n : Nat) (h : n < 2 ^ 128) :
    Id.new junk c p n = .ok u.named ↔ c = .universal ∧ p = u.form ∧ n = u.tagNumber := by
  have hu : u.named = idOctets (classNum .universal) (pcNum u.form) u.tagNumber := by
    cases u <;> (try rename_i b; cases b) <;> decide +kernel
  have hn : u.tagNumber < 2 ^ 128 := by cases u <;> simp [Universal.tagNumber]
  constructor
  · intro e
    obtain ⟨id, e1, e2, e3, e4⟩ := C06_id_new_faithful junk c p n h
    obtain ⟨id', f1, f2, f3, f4⟩ := C06_id_new_faithful junk .universal u.form u.tagNumber hn
    rw [idNew_eq junk _ _ hn, ← hu] at f1
    rw [e] at e1
    cases Res.ok.inj e1
    cases Res.ok.inj f1
    rw [f2] at e2; rw [f3] at e3; rw [f4] at e4
    exact ⟨(Res.ok.inj e2).symm, (Res.ok.inj e3).symm, (Res.ok.inj e4).symm⟩
  · rintro ⟨rfl, rfl, rfl⟩
    rw [idNew_eq junk _ _ hn, hu]

example : Id.new 0xaa .universal .constructed 16 = .ok IdRef.sequence ∧ Id.new 0xaa .universal .primitive 16 ≠ .ok IdRef.sequence :=
  ⟨(C97_named_iff .sequence 0xaa _ _ _ (by norm_num)).mpr ⟨rfl, rfl, rfl⟩,
    fun h => by simpa [Universal.form] using (C97_named_iff .sequence 0xaa _ _ _ (by norm_num)).mp h⟩

/-- **C97.** A named identifier reports its class, form and number; `IdRef::parse` reads it from any input that starts with it, and it is the
identifier read from an input exactly then. -/
theorem C97_named_reads (u : Universal) (bs rest : Bytes) :
    IdRef.clazz u.named = .ok .universal ∧ IdRef.pc u.named = .ok u.form ∧ IdRef.number u.named = .ok u.tagNumber ∧
      (IdRef.parse bs = (.ok u.named, rest) ↔ bs = u.named ++ rest) := by
  have hn : u.tagNumber < 2 ^ 128 := by cases u <;> simp [Universal.tagNumber]
  have e := (C97_named_iff u 0 .universal u.form u.tagNumber hn).mpr ⟨rfl, rfl, rfl⟩
  obtain ⟨id, e1, e2, e3, e4⟩ := C06_id_new_faithful 0 .universal u.form u.tagNumber hn
  rw [e] at e1
  cases Res.ok.inj e1
  refine ⟨e2, e3, e4, ?_⟩
  rw [C08_id_parse_iff]
  refine ⟨fun h => h.2, fun h => ⟨?_, h⟩⟩
  rw [idNew_eq 0 _ _ hn] at e
  rw [← Res.ok.inj e]
  exact ⟨_, _, _, by decide, pcNum_lt u.form, rfl⟩

example : IdRef.parse [0x2c, 0x03, 0x0c, 0x01, 0x41] = (.ok IdRef.utf8StringConstructed, [0x03, 0x0c, 0x01, 0x41]) :=
  (C97_named_reads (.utf8String true) _ _).2.2.2.mpr rfl

/-- **C97.** Different types have different identifiers. -/
theorem C97_named_distinct (u v : Universal) : u.named = v.named ↔ u = v := by
  refine ⟨fun h => ?_, fun h => h ▸ rfl⟩
  have hu := C97_named_reads u [] []
  have hv := C97_named_reads v [] []
  rw [h] at hu
  have e1 := Res.ok.inj (hu.2.1.symm.trans hv.2.1)
  have e2 := Res.ok.inj (hu.2.2.1.symm.trans hv.2.2.1)
  revert e1 e2
  cases u <;> cases v <;> simp [Universal.tagNumber, Universal.form] <;> rename_i a b <;> cases a <;> cases b <;> simp

example : IdRef.octetString ≠ IdRef.octetStringConstructed ∧ IdRef.sequence ≠ IdRef.set :=
  ⟨fun h => by simpa using (C97_named_distinct (.octetString false) (.octetString true)).mp h,
    fun h => by simpa using (C97_named_distinct .sequence .set).mp h⟩

/-! ### C28, `Ber::with_id_length` -/

/-- **C28.** `Ber::with_id_length` of a size that fits: the value has the given identifier, length `n`, and `n` contents octets; reading it as
BER finds it whole. -/
theorem C28_ber_with_id_length_fits (m : Build) (junk : Nat → UInt8) (id : Bytes) (n : Nat) (hid : IsId id)
    (hfit : id.length + (lenOctets n).length + n ≤ isizeMax) :
    ∃ d c, Ber.withIdLength m junk id n = .ok d ∧ BerRef.disassemble d = .ok (id, .definite n, c) ∧ c.length = n ∧ d = tlv id c := by
  have hi := isizeMax_eq
  have h := withIdLength_ok m junk id n hfit
  refine ⟨_, junkCells junk n, h, ?_, junkCells_length junk n, by rw [tlv, junkCells_length]⟩
  have := disassemble_tlv hid (c := junkCells junk n) (by rw [junkCells_length]; omega)
  rwa [tlv, junkCells_length] at this

example := C28_ber_with_id_length_fits .release (fun k => UInt8.ofNat k) [0x04] 300 ⟨0, 0, 4, by decide, by decide, by decide +kernel⟩
  (by decide +kernel)

/-- **C28.** `Ber::with_id_length`, overflow checks on: panics for every size that does not fit. -/
theorem C28_ber_with_id_length_debug (junk : Nat → UInt8) (id : Bytes) (n : Nat) (hidl : id.length ≤ isizeMax)
    (hn : n < 2 ^ 64) (hbig : isizeMax < id.length + (lenOctets n).length + n) :
    Ber.withIdLength .debug junk id n = .panic := C28_with_id_length_debug junk id n hidl hn hbig

example : Ber.withIdLength .debug (fun _ => 0) [0x02] (2 ^ 64 - 1) = .panic :=
  C28_ber_with_id_length_debug _ [0x02] (2 ^ 64 - 1) (by decide) (by norm_num) (by have := isizeMax_eq; omega)

end Bsn1
