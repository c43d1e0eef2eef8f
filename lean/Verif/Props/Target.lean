import Verif.Props.Ber
import Verif.Props.Der
import Verif.Props.Contents
import Verif.Lemmas.TargetEnc
/-!
# C95: targets of other word sizes
-/

namespace Bsn1
open Spec

/-- 16-, 32- and 64-bit targets. -/
theorem targets_real : (Target.mk 2).Real ∧ (Target.mk 4).Real ∧ (Target.mk 8).Real :=
  ⟨.inl rfl, .inr (.inl rfl), .inr (.inr rfl)⟩

/-! ### The rest of the model is the case of 64 bits -/

/-- C95.  With 8 octets, the functions with a word size are those of the rest of the model. -/
theorem C95_main_model (t : Target) (h : t.word = 8) {σ : Type} [Reader σ] (m : Build) (junk : Nat → UInt8) (s : σ) (bs id c : Bytes) (l : Length)
    (i : IntTy) :
    t.usizeSize = usizeSize ∧ t.isizeMax = isizeMax ∧ t.lengthLen l = l.len ∧ t.toBytes l = l.toBytes ∧
    t.lengthParse bs = Length.parse bs ∧ t.derRefParse bs = DerRef.parse bs ∧ t.berRefParse bs = BerRef.parse bs ∧
    t.disassemble bs = DerRef.disassemble bs ∧ t.derNew m junk id c = Der.new m junk id c ∧
    t.derParse m s = Der.parse m s ∧ t.berParse m s = Ber.parse m s ∧ (∀ v, (t.intTy i).InRange v ↔ i.InRange v) := by
  obtain ⟨w⟩ := t
  subst h
  exact ⟨Target.w8_usizeSize, Target.w8_isizeMax, congrFun Target.w8_lengthLen l, congrFun Target.w8_toBytes l, Target.w8_lengthParse bs,
    Target.w8_derRefParse bs, Target.w8_berRefParse bs, Target.w8_disassemble bs, Target.w8_derNew m junk id c, Target.w8_derParse m s,
    Target.w8_berParse m s, fun v => by rw [show (Target.mk 8) = Target.w8 from rfl, Target.w8_intTy]⟩

example (bs : Bytes) : (Target.mk 8).berRefParse bs = BerRef.parse bs :=
  (C95_main_model (Target.mk 8) rfl .debug (fun _ => 0) ([] : Bytes) bs [] [] .indefinite .u8).2.2.2.2.2.2.1

/-! ### Length octets -/

/-- C95.  Every length a target has is written as the shortest octets, the same on all targets; `len` is their number, and they fit in the fixed
array of `LengthBuffer`. -/
theorem C95_length_octets (t : Target) (ht : t.Real) (n : Nat) (hn : n < 256 ^ t.word) :
    t.toBytes (.definite n) = .ok (lenOctets n) ∧ t.lengthLen (.definite n) = (lenOctets n).length ∧
      (lenOctets n).length ≤ t.bufferCapacity ∧ t.bufferCapacity = t.word + 1 := by
  have hw := ht.le
  have hc := Target.bufferCapacity_word (t := t) (by omega)
  refine ⟨Target.toBytes_lenOctets (by omega) hw.2 hn, Target.lengthLen_definite hn, ?_, hc⟩
  have := Target.octets_le (t := t) hn
  rw [lenOctets]
  split
  · simp only [List.length_cons, List.length_nil]; omega
  · simp only [List.length_cons]; omega

example : (Target.mk 2).toBytes (.definite 65535) = .ok (lenOctets 65535) ∧ (lenOctets 65535).length ≤ 3 :=
  have h := C95_length_octets (Target.mk 2) (.inl rfl) 65535 (by decide)
  ⟨h.1, h.2.2.1⟩

/-- C95.  Reading length octets: exactly the shortest octets of the numbers below `256 ^ word`. -/
theorem C95_length_parse_iff (t : Target) (ht : t.Real) (bs rest : Bytes) (n : Nat) :
    (t.lengthParse bs = (.ok (.definite n), rest) ↔ n < 256 ^ t.word ∧ bs = lenOctets n ++ rest) ∧
      (t.lengthParse bs = (.ok .indefinite, rest) ↔ bs = 0x80 :: rest) := by
  have hw := ht.le
  exact ⟨Target.lengthParse_definite (by omega) hw.2 bs rest n, Target.lengthParse_indefinite (by omega) hw.2 bs rest⟩

example : (Target.mk 4).toBytes (.definite 65536) = .ok [0x83, 1, 0, 0] ∧ (65536 : Nat) < 256 ^ (Target.mk 4).word ∧
    (Target.mk 2).lengthParse ([0x83, 1, 0, 0] : Bytes) = (.err .overFlow, [0, 0]) := by
  decide +kernel

/-! ### Slices -/

/-- C95.  On a slice, which is never longer than `isize::MAX` of the target, `DerRef::parse` and `BerRef::parse` accept exactly the same values on
every target: those of the grammar. -/
theorem C95_parse_iff (t : Target) (ht : t.Real) (bs v rest : Bytes) (hb : bs.length ≤ t.isizeMax) :
    (t.derRefParse bs = (.ok v, rest) ↔ IsDer v ∧ bs = v ++ rest) ∧
      (t.berRefParse bs = (.ok v, rest) ↔ IsBer v ∧ bs = v ++ rest) := by
  have hw := ht.le
  have hle := Target.isizeMax_le hw.2
  rw [← C19_der_parse_iff, ← C29_ber_parse_iff bs v rest (by omega)]
  constructor
  · rcases Target.derRefParse_cases (by omega) hw.2 bs hb with h | ⟨h1, h2⟩
    · rw [h]
    · constructor <;> intro h
      · rw [h] at h1; simp at h1
      · rw [h] at h2; simp at h2
  · rcases Target.berRefParse_cases (by omega) hw.2 bs hb with h | ⟨h1, h2⟩
    · rw [h]
    · constructor <;> intro h
      · rw [h] at h1; simp at h1
      · rw [h] at h2; simp at h2

example : (Target.mk 2).berRefParse [0x30, 0x80, 0x00, 0x00, 0x09] = (.ok [0x30, 0x80, 0x00, 0x00], [0x09]) :=
  ((C95_parse_iff (Target.mk 2) (.inl rfl) _ _ _ (by decide)).2).mpr
    ⟨.indefinite [0x30] [] ⟨0, 1, 16, by decide, by decide, by decide +kernel⟩ .nil, rfl⟩

/-- C95.  Two targets return the same on the same slice, errors and remaining octets included, but for one case: a length that one of them cannot
hold is an `OverFlow` there where another finds the contents cut off. -/
theorem C95_same_result (a b : Target) (ha : a.Real) (hb : b.Real) (bs : Bytes) (h1 : bs.length ≤ a.isizeMax) (h2 : bs.length ≤ b.isizeMax) :
    (a.derRefParse bs = b.derRefParse bs ∨ ∃ e f, (a.derRefParse bs).1 = .err e ∧ (b.derRefParse bs).1 = .err f ∧
      (e, f) ∈ [(.overFlow, .unterminatedBytes), (.unterminatedBytes, .overFlow), (.overFlow, .overFlow)]) ∧
    (a.berRefParse bs = b.berRefParse bs ∨ ∃ e f, (a.berRefParse bs).1 = .err e ∧ (b.berRefParse bs).1 = .err f ∧
      (e, f) ∈ [(.overFlow, .unterminatedBytes), (.unterminatedBytes, .overFlow), (.overFlow, .overFlow)]) := by
  have hwa := ha.le
  have hwb := hb.le
  constructor
  · rcases Target.derRefParse_cases (t := a) (by omega) hwa.2 bs h1 with e1 | ⟨e1, e2⟩ <;>
      rcases Target.derRefParse_cases (t := b) (by omega) hwb.2 bs h2 with g1 | ⟨g1, g2⟩
    · exact .inl (e1.trans g1.symm)
    · exact .inr ⟨_, _, by rw [e1]; exact g2, g1, by simp⟩
    · exact .inr ⟨_, _, e1, by rw [g1]; exact e2, by simp⟩
    · exact .inr ⟨_, _, e1, g1, by simp⟩
  · rcases Target.berRefParse_cases (t := a) (by omega) hwa.2 bs h1 with e1 | ⟨e1, e2⟩ <;>
      rcases Target.berRefParse_cases (t := b) (by omega) hwb.2 bs h2 with g1 | ⟨g1, g2⟩
    · exact .inl (e1.trans g1.symm)
    · exact .inr ⟨_, _, by rw [e1]; exact g2, g1, by simp⟩
    · exact .inr ⟨_, _, e1, by rw [g1]; exact e2, by simp⟩
    · exact .inr ⟨_, _, e1, g1, by simp⟩

/-- The one case: five octets of length are too many for 32 bits, and cut-off contents for 64 bits. -/
example : ((Target.mk 4).derRefParse [0x04, 0x85, 1, 0, 0, 0, 0]).1 = .err .overFlow ∧
    ((Target.mk 8).derRefParse [0x04, 0x85, 1, 0, 0, 0, 0]).1 = .err .unterminatedBytes ∧
    (Target.mk 2).derRefParse [0x04, 0x01, 7, 9] = (.ok [0x04, 0x01, 7], [9]) ∧
    ([0x04, 0x85, 1, 0, 0, 0, 0] : Bytes).length ≤ (Target.mk 2).isizeMax := by
  decide +kernel

/-! ### Readers -/

/-- C95.  From any lawful reader, `Der::parse` and `Ber::parse` return a value exactly when those of a 64-bit target do and the value is not longer
than `isize::MAX` of this target; it is the same value, and the reader is left in the same place. -/
theorem C95_read_iff (t : Target) (ht : t.Real) {σ : Type} [Reader σ] [LawfulReader σ] (m : Build) (s s' : σ) (v : Bytes) :
    (t.derParse m s = (.ok v, s') ↔ Der.parse m s = (.ok v, s') ∧ v.length ≤ t.isizeMax) ∧
      (t.berParse m s = (.ok v, s') ↔ Ber.parse m s = (.ok v, s') ∧ v.length ≤ t.isizeMax) := by
  have hw := ht.le
  exact ⟨Target.derParse_iff (by omega) hw.2 m s s' v, Target.berParse_iff (by omega) hw.2 m s s' v⟩

example : (Target.mk 2).derParse .debug ([0x04, 0x01, 7, 9] : Bytes) = (.ok [0x04, 0x01, 7], [9]) ∧
    (Target.mk 4).berParse .release ([0x30, 0x80, 0x04, 0x00, 0, 0, 9] : Bytes) = (.ok [0x30, 0x80, 0x04, 0x00, 0, 0], [9]) := by
  decide +kernel

/-- C95.  A header announcing more than the target can allocate, yet no more than a `usize`, makes `Der::parse` panic before it reads on.  With 64
bits it takes a length of nearly `2 ^ 63`; with 32 bits, one of 2 GiB. -/
theorem C95_read_panics (t : Target) (ht : t.Real) (m : Build) (id rest : Bytes) (n : Nat) (hid : IsId id) (hn : n < 256 ^ t.word)
    (h : t.isizeMax < id.length + (lenOctets n).length + n) : (t.derParse m (id ++ lenOctets n ++ rest)).1 = .panic := by
  have hw := ht.le
  have hul := Target.usizeSize_le hw.2
  have hu := usizeSize_eq
  have hn' : n < t.usizeSize := hn
  have hm := parseIdLength_definite hid (show n < 2 ^ 64 by omega) rest []
  have hp : (t.parseIdLength (σ := Bytes)).run (id ++ lenOctets n ++ rest) [] = (.ok (.definite n), rest, [] ++ id ++ lenOctets n) := by
    rcases Target.parseIdLength_cases (t := t) (by omega) hw.2 (id ++ lenOctets n ++ rest) [] with ⟨he, _⟩ | ⟨_, k, c, s1, w1, h2, h3⟩
    · rw [he, hm]
    · exfalso
      rw [hm, P.bind_def] at h2
      rcases hp : (Target.plainLoop (σ := Bytes) k c).run s1 w1 with ⟨r, s2, w2⟩
      rw [hp] at h2
      cases r with
      | err e => simp at h2
      | panic => simp at h2
      | ub => simp at h2
      | ok n' =>
        have hb := (Target.plainLoop_bounds _ _ hp).1
        simp only [P.pure_apply, Prod.mk.injEq, Res.ok.injEq, Length.definite.injEq] at h2
        omega
  rw [Target.derParse, hp]
  simp only
  have hlen : ([] ++ id ++ lenOctets n).length = id.length + (lenOctets n).length := by simp
  rw [hlen]
  have ha : ∀ a b, t.uadd m a b = .panic ∨ ∃ k, t.uadd m a b = .ok k := by
    intro a b
    unfold Target.uadd
    split
    · exact .inr ⟨_, rfl⟩
    · cases m
      · exact .inl rfl
      · exact .inr ⟨_, rfl⟩
  have hr : (do
      let totalLength ← t.uadd m (id.length + (lenOctets n).length) n
      let _ ← t.bufReserve m (id.length + (lenOctets n).length) n
      if id.length + (lenOctets n).length ≤ totalLength then return totalLength - (id.length + (lenOctets n).length) else .panic : Res Nat) = .panic := by
    rcases hr : (do
      let totalLength ← t.uadd m (id.length + (lenOctets n).length) n
      let _ ← t.bufReserve m (id.length + (lenOctets n).length) n
      if id.length + (lenOctets n).length ≤ totalLength then return totalLength - (id.length + (lenOctets n).length) else .panic : Res Nat) with k | e | _ | _
    · have := (Target.der_room hn' hr).1; omega
    · exfalso
      rw [Target.bufReserve] at hr
      rcases ha (id.length + (lenOctets n).length) n with h | ⟨k, h⟩ <;> rw [h] at hr
      · cases hr
      · simp only [Res.bind_ok] at hr
        split at hr
        · simp only [Res.pure_eq, Res.bind_ok] at hr
          split at hr <;> cases hr
        · cases hr
    · rfl
    · exfalso
      rw [Target.bufReserve] at hr
      rcases ha (id.length + (lenOctets n).length) n with h | ⟨k, h⟩ <;> rw [h] at hr
      · cases hr
      · simp only [Res.bind_ok] at hr
        split at hr
        · simp only [Res.pure_eq, Res.bind_ok] at hr
          split at hr <;> cases hr
        · cases hr
  rw [hr]

example : IsId [0x04] ∧ (2 ^ 31 : Nat) < 256 ^ (Target.mk 4).word ∧
    (Target.mk 4).isizeMax < ([0x04] : Bytes).length + (lenOctets (2 ^ 31)).length + 2 ^ 31 ∧
    lenOctets (2 ^ 31) = [0x84, 0x80, 0, 0, 0] :=
  ⟨⟨0, 0, 4, by decide, by decide, by decide +kernel⟩, by decide +kernel, by decide +kernel, by decide +kernel⟩

/-! ### Construction -/

/-- C95.  `Der::new` writes the same octets on every target where they fit, and panics where they do not. -/
theorem C95_der_new (t : Target) (ht : t.Real) (m : Build) (junk : Nat → UInt8) (id c : Bytes) (hid : IsId id)
    (haddr : (tlv id c).length < 256 ^ t.word) :
    t.derNew m junk id c = if (tlv id c).length ≤ t.isizeMax then .ok (id ++ lenOctets c.length ++ c) else .panic := by
  have hw := ht.le
  split
  · next h => exact Target.derNew_ok (by omega) hw.2 m junk hid c h
  · next h => exact Target.derNew_panic (by omega) hw.2 m junk c (by omega) haddr

example (m : Build) (junk : Nat → UInt8) : (Target.mk 2).derNew m junk [0x04] (List.replicate 40000 7) = .panic :=
  (C95_der_new (Target.mk 2) (.inl rfl) m junk [0x04] _ ⟨0, 0, 4, by decide, by decide, by decide +kernel⟩ (by
    rw [tlv_length, List.length_replicate]; decide +kernel)).trans (if_neg (by
    rw [tlv_length, List.length_replicate]; decide +kernel))

/-- C95.  What one target writes another reads: with any octets behind it, and taken apart into what it was made of. -/
theorem C95_exchange (a b : Target) (ha : a.Real) (hb : b.Real) (m : Build) (junk : Nat → UInt8) (id c rest d : Bytes) (hid : IsId id)
    (haddr : (tlv id c).length < 256 ^ a.word) (hd : a.derNew m junk id c = .ok d) (hfit : (d ++ rest).length ≤ b.isizeMax) :
    b.derRefParse (d ++ rest) = (.ok d, rest) ∧ b.berRefParse (d ++ rest) = (.ok d, rest) ∧
      (∀ m', b.derParse m' (d ++ rest) = (.ok d, rest) ∧ b.berParse m' (d ++ rest) = (.ok d, rest)) ∧
      b.disassemble d = .ok (id, .definite c.length, c) := by
  have hwa := ha.le
  have hwb := hb.le
  have hle := Target.isizeMax_le hwb.2
  have hi := (Target.isizeMax_lt (t := b) (by omega)).1
  have hu := Target.usizeSize_le hwb.2
  have hu' := usizeSize_eq
  rw [C95_der_new a ha m junk id c hid haddr] at hd
  split at hd
  case isFalse => cases hd
  cases hd
  change (tlv id c ++ rest).length ≤ _ at hfit
  have hc : c.length < b.usizeSize := by
    rw [List.length_append, tlv_length] at hfit; omega
  have hder : IsDer (tlv id c) := ⟨id, c, hid, by omega, rfl⟩
  have hdp : DerRef.parse (tlv id c ++ rest) = (.ok (tlv id c), rest) := (C19_der_parse_iff _ _ _).mpr ⟨hder, rfl⟩
  have hbp := (C32_der_is_ber _ _ _ (by omega) hdp).1
  have hber : IsBer (tlv id c) := ((C29_ber_parse_iff _ _ _ (by omega)).mp hbp).1
  have hv : (tlv id c).length ≤ b.isizeMax := by rw [List.length_append] at hfit; omega
  refine ⟨((C95_parse_iff b hb _ _ rest hfit).1).mpr ⟨hder, rfl⟩, ((C95_parse_iff b hb _ _ rest hfit).2).mpr ⟨hber, rfl⟩, fun m' => ?_,
    Target.disassemble_ok hwb.2 hid hc⟩
  obtain ⟨s1, h1, rfl⟩ := C31_ber_parse_position (σ := Bytes) (fun s bs => s = bs) delivers_slice m' _ _ _ _ rfl (by omega) hbp
  refine ⟨?_, (C95_read_iff b hb m' _ _ _).2.mpr ⟨h1, hv⟩⟩
  obtain ⟨s2, h2, rfl⟩ := C25_der_parse_chunking_partial (σ := Bytes) (fun s bs => s = bs) delivers_slice m' id c s1 hid (by omega)
    (fun s e => ⟨s1, by subst e; simp [Reader.read], rfl⟩) _ rfl
  exact (C95_read_iff b hb m' _ _ _).1.mpr ⟨h2, hv⟩

example : ∃ d, (Target.mk 2).derNew .debug (fun _ => 0) [0x04] (List.replicate 300 7) = .ok d ∧ (tlv [0x04] (List.replicate 300 7)).length < 256 ^ (Target.mk 2).word ∧
    (d ++ [1, 2]).length ≤ (Target.mk 4).isizeMax :=
  ⟨tlv [0x04] (List.replicate 300 7), by decide +kernel, by decide +kernel, by decide +kernel⟩

/-! ### Integers -/

/-- C95.  An integer of any type, `isize` and `usize` among them, has the same contents octets on every target; read as any type on any target
they are the same number, or an `OverFlow` if that type does not have it there. -/
theorem C95_integers (a b : Target) (i j : IntTy) (v : Int) (hv : (a.intTy i).InRange v) :
    ∃ c, Contents.ofInt (a.intTy i) v = .ok c ∧ IntMinimal c ∧ intVal c = v ∧
      ContentsRef.toInteger (b.intTy j) c = if (b.intTy j).InRange v then .ok v else .err .overFlow := by
  obtain ⟨c, h1, h2, h3⟩ := C14_integer_minimal (a.intTy i) v hv
  refine ⟨c, h1, h3, h2, ?_⟩
  split
  · next h => exact (C15_to_integer_ok_iff _ c v).mpr ⟨h3, h2, h⟩
  · next h => exact (C15_to_integer_err_iff _ c).2.2.mpr ⟨h3, by rw [h2]; exact h⟩

example : ∃ c, Contents.ofInt ((Target.mk 8).intTy .usize) (2 ^ 40) = .ok c ∧
    ContentsRef.toInteger ((Target.mk 4).intTy .usize) c = .err .overFlow := by
  obtain ⟨c, h1, _, _, h2⟩ := C95_integers (Target.mk 8) (Target.mk 4) .usize .usize (2 ^ 40) (by decide +kernel)
  exact ⟨c, h1, h2.trans (if_neg (by decide +kernel))⟩

/-- C95.  The numbers `usize` and `isize` have: those below `256 ^ word`, and those from `-(isize::MAX + 1)` to `isize::MAX`. -/
theorem C95_word_types (t : Target) (ht : t.Real) (v : Int) :
    ((t.intTy .usize).InRange v ↔ 0 ≤ v ∧ v < 256 ^ t.word) ∧
      ((t.intTy .isize).InRange v ↔ -(t.isizeMax + 1 : Int) ≤ v ∧ v ≤ t.isizeMax) := by
  obtain ⟨w⟩ := t
  rcases ht with h | h | h <;> simp only at h <;> subst h <;>
    simp [Target.intTy, Target.isizeMax, IntTy.InRange, IntTy.minVal, IntTy.maxVal, IntTy.signed, IntTy.size] <;> omega

example : ((Target.mk 8).intTy .usize).InRange (2 ^ 40) ∧ ¬ ((Target.mk 4).intTy .usize).InRange (2 ^ 40) ∧
    ((Target.mk 4).intTy .isize).InRange (-(2 ^ 31)) ∧ ¬ ((Target.mk 2).intTy .isize).InRange (2 ^ 15) := by
  decide +kernel

end Bsn1
