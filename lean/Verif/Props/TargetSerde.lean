import Verif.Props.De
import Verif.Props.Decode
import Verif.Props.Failing
import Verif.Props.Target
import Verif.Lemmas.TargetWrap
/-!
# C115: the serde layer on targets of other word sizes
-/

namespace Bsn1
open Spec

variable {α : Type}

/-! ### The rest of the model is the case of 64 bits -/

/-- C115.  With 8 octets, the functions of the serde layer with a word size are those of the rest of the model: for every type, and for every other
implementation of the traits. -/
theorem C115_main_model (tg : Target) (h : tg.word = 8) (m : Build) (o : HashOrder) (t : Ty α) (s : Ser α) (d : De α) :
    tg.tySer m t = Ty.ser m t ∧ tg.tyDe m o t = Ty.de m o t ∧ tg.toDer m s = toDer m s ∧ tg.toBer m s = toBer m s ∧
    tg.writeDer m s = writeDer m s ∧ tg.writeBer m s = writeBer m s ∧ tg.fromDer d = fromDer d ∧ tg.fromBer d = fromBer d ∧
    tg.parseDer d = parseDer d ∧ tg.parseBer d = parseBer d ∧
    ∀ {σ : Type} [Reader σ] (s : σ), tg.readDer m d s = readDer m d s ∧ tg.readBer m d s = readBer m d s := by
  obtain ⟨w⟩ := tg
  subst h
  exact ⟨Target.w8_tySer m t, Target.w8_tyDe m o t, Target.w8_toDer m s, Target.w8_toDer m s, Target.w8_writeDer m s, Target.w8_writeDer m s,
    Target.w8_fromDer d, Target.w8_fromBer d, Target.w8_parseDer d, Target.w8_parseBer d,
    fun s => ⟨Target.w8_readDer m d s, Target.w8_readBer m d s⟩⟩

example (m : Build) (v : List Int) : (Target.mk 8).toDer m ((Target.mk 8).tySer m (.vec (.int .usize))) v = toDer m (Ty.ser m (.vec (.int .usize))) v := by
  have h := C115_main_model (Target.mk 8) rfl m ⟨fun _ l => l, fun _ _ => .refl _⟩ (.vec (.int .usize)) (Ty.ser m (.vec (.int .usize)))
    (Ty.de m ⟨fun _ l => l, fun _ _ => .refl _⟩ (.vec (.int .usize)))
  rw [h.1, h.2.2.1]

/-! ### Encoding -/

/-- C115.  On every target, a value whose encoding fits into memory is encoded as everywhere: `to_der` and `to_ber` return the same octets,
`write_der` and `write_ber` write them, and parsing them on that target gives them back. -/
theorem C115_encode (tg : Target) (ht : tg.Real) (m : Build) (t : Ty α) (hs : t.serializable) (v : α) (hok : (t.withInts tg.intTy).ok v)
    (hfit : (t.der v).length ≤ tg.isizeMax) :
    tg.toDer m (tg.tySer m t) v = .ok (t.der v) ∧ tg.toBer m (tg.tySer m t) v = .ok (t.der v) ∧
    (tg.writeDer m (tg.tySer m t) v).res = .ok () ∧ (tg.writeDer m (tg.tySer m t) v).chunks.flatten = t.der v ∧
    tg.writeBer m (tg.tySer m t) v = tg.writeDer m (tg.tySer m t) v ∧ IsDer (t.der v) := by
  have := ht.okWord
  have h := Target.tySerializes (tg := tg) m t hs v hok hfit
  have h1 := Target.toDer_ok m h hfit
  obtain ⟨h2, h3⟩ := Target.writeDer_writes m h (Target.fits_contents hfit)
  obtain ⟨h4, _, h5⟩ := der_enc_fits hs (hfit.trans (Target.isizeMax_le ht.le.2))
  exact ⟨h1, h1, h2, h3, rfl, ⟨_, _, h5, h4, rfl⟩⟩

/-- A type with an integer of the size of a pointer. -/
abbrev countTy : Ty (Int × List String × Unit) := .struct [0x61] (.plain (.int .usize) (.plain (.vec .string) .nil))

example (m : Build) : (Target.mk 4).toDer m ((Target.mk 4).tySer m countTy) (4000000000, ["a"], ()) =
    .ok [0x61, 0x0c, 0x02, 0x05, 0x00, 0xee, 0x6b, 0x28, 0x00, 0x30, 0x03, 0x0c, 0x01, 0x61] := by
  have e : countTy.der (4000000000, ["a"], ()) = [0x61, 0x0c, 0x02, 0x05, 0x00, 0xee, 0x6b, 0x28, 0x00, 0x30, 0x03, 0x0c, 0x01, 0x61] := by
    decide +kernel
  rw [← e]
  exact (C115_encode (Target.mk 4) (.inr (.inl rfl)) m countTy ⟨⟨1, 1, 1, by decide, by decide, by decide +kernel⟩, trivial, trivial, trivial⟩
    (4000000000, ["a"], ())
    ⟨show ((Target.mk 4).intTy .usize).InRange 4000000000 by decide +kernel, fun _ _ => trivial, trivial⟩ (by rw [e]; decide +kernel)).1

/-- An order of iteration. -/
abbrev asInserted : HashOrder := ⟨fun _ l => l, fun _ _ => .refl _⟩

/-! ### Decoding -/

/-- C115.  On a slice, which is never longer than `isize::MAX` of the target, `parse_der` and `parse_ber` do on the target what they do on 64 bits for
the type with the integer types of the target, to the value, the error and where they stop.  Only the error of a header that announces too much may
be `OverFlow` where it is `UnterminatedBytes` on 64 bits. -/
theorem C115_parse (tg : Target) (ht : tg.Real) (m : Build) (o : HashOrder) (t : Ty α) (bs : Bytes) (hb : bs.length ≤ tg.isizeMax) :
    (tg.parseDer (tg.tyDe m o t) bs = parseDer (Ty.de m o (t.withInts tg.intTy)) bs ∨
      ∃ e e', (tg.parseDer (tg.tyDe m o t) bs).1 = .err e ∧ (parseDer (Ty.de m o (t.withInts tg.intTy)) bs).1 = .err e' ∧ Overlong e e') ∧
    (tg.parseBer (tg.tyDe m o t) bs = parseBer (Ty.de m o (t.withInts tg.intTy)) bs ∨
      ∃ e e', (tg.parseBer (tg.tyDe m o t) bs).1 = .err e ∧ (parseBer (Ty.de m o (t.withInts tg.intTy)) bs).1 = .err e' ∧ Overlong e e') := by
  have := ht.okWord
  have hd := Target.tyDe_agree (tg := tg) m o t
  have hle := Target.isizeMax_le ht.le.2
  constructor
  · rcases Target.derRefParse_cases Target.OkWord.ge Target.OkWord.le bs hb with e | ⟨e, e'⟩
    · rw [Target.parseDer, parseDer, e]
      rcases hp : DerRef.parse bs with ⟨r, rest⟩
      cases r with
      | ok v =>
        obtain ⟨h1, h2⟩ := (C19_der_parse_iff bs v rest).mp hp
        have hl : v.length ≤ tg.isizeMax := by rw [h2, List.length_append] at hb; omega
        have key : Target.Agree (tg.fromDer (tg.tyDe m o t) v) (fromDer (Ty.de m o (t.withInts tg.intTy)) v) :=
          Target.take_step (k := fun x => (tg.tyDe m o t).fromDer x.1 x.2.2) (k' := fun x => (Ty.de m o (t.withInts tg.intTy)).fromDer x.1 x.2.2)
            (Target.isDer_isBer' h1) hl fun id l c hc => hd.der id c hc
        rcases key with e | ⟨e, e', h3, h4, h5⟩
        · exact .inl (by simp only [e])
        · exact .inr ⟨e, e', h3, h4, h5⟩
      | _ => exact .inl rfl
    · refine .inr ⟨.overFlow, .unterminatedBytes, ?_, ?_, .base⟩
      · rw [Target.parseDer]; rcases hp : tg.derRefParse bs with ⟨r, rest⟩; rw [hp] at e; cases e; rfl
      · rw [parseDer]; rcases hp : DerRef.parse bs with ⟨r, rest⟩; rw [hp] at e'; cases e'; rfl
  · rcases Target.berRefParse_cases Target.OkWord.ge Target.OkWord.le bs hb with e | ⟨e, e'⟩
    · rw [Target.parseBer, parseBer, e]
      rcases hp : BerRef.parse bs with ⟨r, rest⟩
      cases r with
      | ok v =>
        obtain ⟨h1, h2⟩ := (C29_ber_parse_iff bs v rest (by omega)).mp hp
        have hl : v.length ≤ tg.isizeMax := by rw [h2, List.length_append] at hb; omega
        have key : Target.Agree (tg.fromBer (tg.tyDe m o t) v) (fromBer (Ty.de m o (t.withInts tg.intTy)) v) :=
          Target.take_step (k := fun x => (tg.tyDe m o t).fromBer x.1 x.2.1 x.2.2)
            (k' := fun x => (Ty.de m o (t.withInts tg.intTy)).fromBer x.1 x.2.1 x.2.2) h1 hl fun id l c hc => hd.ber id l c hc
        rcases key with e | ⟨e, e', h3, h4, h5⟩
        · exact .inl (by simp only [e])
        · exact .inr ⟨e, e', h3, h4, h5⟩
      | _ => exact .inl rfl
    · refine .inr ⟨.overFlow, .unterminatedBytes, ?_, ?_, .base⟩
      · rw [Target.parseBer]; rcases hp : tg.berRefParse bs with ⟨r, rest⟩; rw [hp] at e; cases e; rfl
      · rw [parseBer]; rcases hp : BerRef.parse bs with ⟨r, rest⟩; rw [hp] at e'; cases e'; rfl

/-- Both cases occur: the 32-bit target refuses the number as 64 bits refuse it for a `u32`, and gives the other error for a nested header that
announces `2 ^ 40` octets. -/
example (m : Build) :
    ((Target.mk 4).parseDer ((Target.mk 4).tyDe m asInserted countTy) [0x61, 0x0b, 0x02, 0x06, 1, 0, 0, 0, 0, 0, 0x30, 0x01, 0x00]).1 = .err (Error.overFlow.context) ∧
    ((Target.mk 4).parseDer ((Target.mk 4).tyDe m asInserted (.vec .bool)) [0x30, 0x07, 0x01, 0x86, 1, 0, 0, 0, 0]).1 = .err (Error.overFlow.context) ∧
    (parseDer (Ty.de m asInserted (.vec .bool)) [0x30, 0x07, 0x01, 0x86, 1, 0, 0, 0, 0]).1 = .err (Error.unterminatedBytes.context) := by
  cases m <;> decide +kernel

/-- C115.  So the same values are accepted, and with the same rest. -/
theorem C115_parse_iff (tg : Target) (ht : tg.Real) (m : Build) (o : HashOrder) (t : Ty α) (bs rest : Bytes) (hb : bs.length ≤ tg.isizeMax) (v : α) :
    (tg.parseDer (tg.tyDe m o t) bs = (.ok v, rest) ↔ parseDer (Ty.de m o (t.withInts tg.intTy)) bs = (.ok v, rest)) ∧
    (tg.parseBer (tg.tyDe m o t) bs = (.ok v, rest) ↔ parseBer (Ty.de m o (t.withInts tg.intTy)) bs = (.ok v, rest)) := by
  obtain ⟨h1, h2⟩ := C115_parse tg ht m o t bs hb
  constructor
  · rcases h1 with e | ⟨e, e', h3, h4, _⟩
    · rw [e]
    · constructor <;> intro h
      · rw [h] at h3; cases h3
      · rw [h] at h4; cases h4
  · rcases h2 with e | ⟨e, e', h3, h4, _⟩
    · rw [e]
    · constructor <;> intro h
      · rw [h] at h3; cases h3
      · rw [h] at h4; cases h4

example (m : Build) : (Target.mk 2).parseDer ((Target.mk 2).tyDe m asInserted (.vec (.int .usize))) [0x30, 0x05, 0x02, 0x03, 0, 0xff, 0xff, 9] =
    (.ok [65535], [9]) := by
  cases m <;> decide +kernel

/-- C115.  A value that comes out is a value of the type on that target: a number too large for its `usize` is refused, never cut. -/
theorem C115_valid (tg : Target) (ht : tg.Real) (m : Build) (o : HashOrder) (t : Ty α) (hd : t.deserializable) (hw : (t.withInts tg.intTy).wellTyped)
    (bs rest : Bytes) (hb : bs.length ≤ tg.isizeMax) (v : α) :
    (tg.parseDer (tg.tyDe m o t) bs = (.ok v, rest) → (t.withInts tg.intTy).ok v) ∧
    (tg.parseBer (tg.tyDe m o t) bs = (.ok v, rest) → (t.withInts tg.intTy).ok v) := by
  have hle := Target.isizeMax_le ht.le.2
  have hd' : (t.withInts tg.intTy).deserializable := by rw [Ty.withInts_deserializable]; exact hd
  obtain ⟨h1, h2⟩ := C115_parse_iff tg ht m o t bs rest hb v
  constructor
  · intro h
    have h := h1.mp h
    rw [parseDer] at h
    rcases hp : DerRef.parse bs with ⟨r, rest'⟩
    rw [hp] at h
    cases r with
    | ok p =>
      obtain ⟨h3, h4⟩ := (C19_der_parse_iff bs p rest').mp hp
      have hl : p.length ≤ isizeMax := by rw [h4, List.length_append] at hb; omega
      exact (C68_decoded_valid m o _ hd' hw p hl v).1 h3 (congrArg Prod.fst h)
    | _ => cases congrArg Prod.fst h
  · intro h
    have h := h2.mp h
    rw [parseBer] at h
    rcases hp : BerRef.parse bs with ⟨r, rest'⟩
    rw [hp] at h
    cases r with
    | ok p =>
      obtain ⟨h3, h4⟩ := (C29_ber_parse_iff bs p rest' (by omega)).mp hp
      have hl : p.length ≤ isizeMax := by rw [h4, List.length_append] at hb; omega
      exact (C68_decoded_valid m o _ hd' hw p hl v).2 h3 (congrArg Prod.fst h)
    | _ => cases congrArg Prod.fst h

example (m : Build) (o : HashOrder) (bs rest : Bytes) (hb : bs.length ≤ (Target.mk 4).isizeMax) (v : List Int)
    (h : (Target.mk 4).parseDer ((Target.mk 4).tyDe m o (.vec (.int .usize))) bs = (.ok v, rest)) : ∀ x ∈ v, 0 ≤ x ∧ x < 2 ^ 32 := fun x hx =>
  ((C95_word_types (Target.mk 4) (.inr (.inl rfl)) x).1.mp
    ((C115_valid (Target.mk 4) (.inr (.inl rfl)) m o (.vec (.int .usize)) trivial trivial bs rest hb v).1 h x hx))

/-- C115.  From a stream, whatever the reader does: the target returns a value exactly if a value that fits its memory is read and decodes on 64 bits
for the type with the integer types of the target; and it leaves the stream at the same place. -/
theorem C115_read_iff (tg : Target) (ht : tg.Real) (m : Build) (o : HashOrder) (t : Ty α) (s s' : Script) (v : α) :
    (tg.readDer m (tg.tyDe m o t) s = (.ok v, s') ↔
      ∃ p, Der.parse m s = (.ok p, s') ∧ p.length ≤ tg.isizeMax ∧ fromDer (Ty.de m o (t.withInts tg.intTy)) p = .ok v) ∧
    (tg.readBer m (tg.tyDe m o t) s = (.ok v, s') ↔
      ∃ p, Ber.parse m s = (.ok p, s') ∧ p.length ≤ tg.isizeMax ∧ fromBer (Ty.de m o (t.withInts tg.intTy)) p = .ok v) := by
  have := ht.okWord
  have hd := Target.tyDe_agree (tg := tg) m o t
  have agree : ∀ {r r' : Res α}, Target.Agree r r' → (r = .ok v ↔ r' = .ok v) := by
    rintro r r' (rfl | ⟨e, e', rfl, rfl, _⟩)
    · exact Iff.rfl
    · simp
  have fd : ∀ p, IsBer p → p.length ≤ tg.isizeMax →
      (tg.fromDer (tg.tyDe m o t) p = .ok v ↔ fromDer (Ty.de m o (t.withInts tg.intTy)) p = .ok v) := fun p hp hl =>
    agree (Target.take_step (k := fun x => (tg.tyDe m o t).fromDer x.1 x.2.2) (k' := fun x => (Ty.de m o (t.withInts tg.intTy)).fromDer x.1 x.2.2)
      hp hl fun id l c hc => hd.der id c hc)
  have fb : ∀ p, IsBer p → p.length ≤ tg.isizeMax →
      (tg.fromBer (tg.tyDe m o t) p = .ok v ↔ fromBer (Ty.de m o (t.withInts tg.intTy)) p = .ok v) := fun p hp hl =>
    agree (Target.take_step (k := fun x => (tg.tyDe m o t).fromBer x.1 x.2.1 x.2.2)
      (k' := fun x => (Ty.de m o (t.withInts tg.intTy)).fromBer x.1 x.2.1 x.2.2) hp hl fun id l c hc => hd.ber id l c hc)
  constructor
  · constructor
    · intro h
      rw [Target.readDer] at h
      rcases hp : tg.derParse m s with ⟨r, s1⟩
      rw [hp] at h
      cases r with
      | ok p =>
        obtain ⟨h1, h2⟩ := Prod.mk.inj h
        obtain ⟨h3, h4⟩ := ((C95_read_iff tg ht m s s1 p).1).mp hp
        subst h2
        exact ⟨p, h3, h4, (fd p (Target.isDer_isBer' (C76_der_sound m s s1 p h3).1) h4).mp h1⟩
      | _ => cases congrArg Prod.fst h
    · rintro ⟨p, h1, h2, h3⟩
      rw [Target.readDer, ((C95_read_iff tg ht m s s' p).1).mpr ⟨h1, h2⟩]
      simp only [(fd p (Target.isDer_isBer' (C76_der_sound m s s' p h1).1) h2).mpr h3]
  · constructor
    · intro h
      rw [Target.readBer] at h
      rcases hp : tg.berParse m s with ⟨r, s1⟩
      rw [hp] at h
      cases r with
      | ok p =>
        obtain ⟨h1, h2⟩ := Prod.mk.inj h
        obtain ⟨h3, h4⟩ := ((C95_read_iff tg ht m s s1 p).2).mp hp
        subst h2
        exact ⟨p, h3, h4, (fb p (C76_ber_sound m s s1 p h3).1 h4).mp h1⟩
      | _ => cases congrArg Prod.fst h
    · rintro ⟨p, h1, h2, h3⟩
      rw [Target.readBer, ((C95_read_iff tg ht m s s' p).2).mpr ⟨h1, h2⟩]
      simp only [(fb p (C76_ber_sound m s s' p h1).1 h2).mpr h3]

example (m : Build) : (Target.mk 4).readBer m ((Target.mk 4).tyDe m asInserted (.vec .bool))
    ([.chunk [0x30, 0x80, 0x01], .chunk [0x01, 0xff, 0, 0, 9]] : Script) = (.ok [true], [.chunk [9]]) := by
  cases m <;> decide +kernel

/-! ### Between targets -/

/-- C115.  Programs on different targets understand each other: what `to_der` makes on `a` is restored on `b`, if the value is one there and the octets
fit the memory of both. -/
theorem C115_exchange (a b : Target) (ha : a.Real) (hb : b.Real) (m m' : Build) (o : HashOrder) (t : Ty α) (hs : t.serializable)
    (hd : t.deserializable) (hr : (t.withInts b.intTy).restorable) (v : α) (hoka : (t.withInts a.intTy).ok v) (hokb : (t.withInts b.intTy).ok v)
    (hc : t.convertible v) (hfita : (t.der v).length ≤ a.isizeMax) (rest : Bytes) (hfitb : (t.der v ++ rest).length ≤ b.isizeMax) :
    ∃ p w, a.toDer m (a.tySer m t) v = .ok p ∧ t.restores v w ∧ b.parseDer (b.tyDe m' o t) (p ++ rest) = (.ok w, rest) ∧
      b.parseBer (b.tyDe m' o t) (p ++ rest) = (.ok w, rest) := by
  have hle := Target.isizeMax_le hb.le.2
  have hl : (t.der v).length ≤ isizeMax := by rw [List.length_append] at hfitb; omega
  have hlr : (t.der v ++ rest).length ≤ isizeMax := hfitb.trans hle
  have ed := Ty.withInts_der b.intTy t
  have hs' : (t.withInts b.intTy).serializable := by rw [Ty.withInts_serializable]; exact hs
  have hd' : (t.withInts b.intTy).deserializable := by rw [Ty.withInts_deserializable]; exact hd
  have hc' : (t.withInts b.intTy).convertible v := by rw [Ty.withInts_convertible]; exact hc
  obtain ⟨h1, _, _, _, _, hder⟩ := C115_encode a ha m t hs v hoka hfita
  obtain ⟨w, h2, h3⟩ := Ty.derVal_enc o (t.withInts b.intTy) hs' hr v hokb hc' (by rw [ed]; exact hl)
  obtain ⟨g1, g2, g3⟩ := der_enc_fits hs hl
  rw [Ty.withInts_enc] at h2
  rw [Ty.withInts_restores] at h3
  have fd : fromDer (Ty.de m' o (t.withInts b.intTy)) (t.der v) = .ok w := by
    rw [Ty.der, tlvOf, fromDer_tlv _ g3 g1]
    exact (Ty.fromDer_iff m' o _ hd' _ _ _).mpr h2
  have fb : fromBer (Ty.de m' o (t.withInts b.intTy)) (t.der v) = .ok w := by
    rw [Ty.der, tlvOf, fromBer_value (indef := false) _ ⟨g3, g1, rfl⟩]
    exact (Ty.fromBer_iff m' o _ hd' _ false _ _ g2).mpr (Ty.derVal_berVal _ _ _ _ _ _ h2)
  refine ⟨t.der v, w, h1, h3, ?_, ?_⟩
  · rw [(C115_parse_iff b hb m' o t _ rest hfitb w).1, parseDer, (C19_der_parse_iff _ (t.der v) rest).mpr ⟨hder, rfl⟩]
    simp only [fd]
  · rw [(C115_parse_iff b hb m' o t _ rest hfitb w).2, parseBer, (C29_ber_parse_iff _ (t.der v) rest hlr).mpr ⟨Target.isDer_isBer' hder, rfl⟩]
    simp only [fb]

example (m m' : Build) (o : HashOrder) : ∃ p, (Target.mk 8).toDer m ((Target.mk 8).tySer m countTy) (4000000000, ["a"], ()) = .ok p ∧
    (Target.mk 4).parseDer ((Target.mk 4).tyDe m' o countTy) (p ++ [7]) = (.ok (4000000000, ["a"], ()), [7]) := by
  obtain ⟨p, w, h1, h2, h3, _⟩ := C115_exchange (Target.mk 8) (Target.mk 4) (.inr (.inr rfl)) (.inr (.inl rfl)) m m' o countTy
    ⟨⟨1, 1, 1, by decide, by decide, by decide +kernel⟩, trivial, trivial, trivial⟩ ⟨trivial, trivial, trivial⟩ ⟨trivial, trivial, trivial⟩
    (4000000000, ["a"], ()) ⟨show ((Target.mk 8).intTy .usize).InRange 4000000000 by decide +kernel, fun _ _ => trivial, trivial⟩
    ⟨show ((Target.mk 4).intTy .usize).InRange 4000000000 by decide +kernel, fun _ _ => trivial, trivial⟩
    ⟨trivial, fun _ _ => trivial, trivial⟩ (by decide +kernel) [7] (by decide +kernel)
  have := Ty.exact_faithful countTy ⟨trivial, trivial, trivial⟩ _ w h2
  exact ⟨p, h1, this ▸ h3⟩

/-! ### Sequences that do not fit -/

theorem length_flatMap_replicate (f : α → Bytes) (n : Nat) (x : α) : ((List.replicate n x).flatMap f).length = n * (f x).length := by
  induction n with
  | zero => simp
  | succ n ih => rw [List.replicate_succ, List.flatMap_cons, List.length_append, ih]; ring

/-- C115.  A value of a type of known size, of any size itself, as long as its parts fit (each element, pair or field is at most `isize::MAX`
octets long).  Let `n` be the number of its contents octets.

* The size is computed in `usize`: in a debug build `write_der` panics before it writes if `n` exceeds `usize::MAX` of the target, and writes the
  encoding otherwise.
* In a release build it writes a header for `n` modulo `usize::MAX + 1`, and after it all the contents.
* `to_der` panics in both builds if the encoding is longer than `isize::MAX`. -/
theorem C115_long_exact (tg : Target) (ht : tg.Real) (t : Ty α) (hs : t.serializable) (hz : t.sized = true) (v : α)
    (hok : (t.withInts tg.intTy).ok v) (hfit : t.PartsFit tg.isizeMax v) (hid : (t.enc v).1.length + 9 ≤ tg.isizeMax) :
    ((tg.writeDer .release (tg.tySer .release t) v).res = .ok () ∧
      (tg.writeDer .release (tg.tySer .release t) v).chunks.flatten =
        (t.enc v).1 ++ lenOctets ((t.enc v).2.length % 256 ^ tg.word) ++ (t.enc v).2) ∧
    ((t.enc v).2.length < 256 ^ tg.word → (tg.writeDer .debug (tg.tySer .debug t) v).res = .ok () ∧
      (tg.writeDer .debug (tg.tySer .debug t) v).chunks.flatten = t.der v) ∧
    (256 ^ tg.word ≤ (t.enc v).2.length → tg.writeDer .debug (tg.tySer .debug t) v = ⟨[], .panic⟩) ∧
    (tg.isizeMax < (t.der v).length → ∀ m, tg.toDer m (tg.tySer m t) v = .panic) := by
  have := ht.okWord
  have hL := fun m => Target.tyLong (tg := tg) m t hs hz v hok hfit
  have hder : t.der v = (t.enc v).1 ++ lenOctets (t.enc v).2.length ++ (t.enc v).2 := rfl
  rw [hder]
  generalize (t.enc v).1 = id at hL hid ⊢
  generalize (t.enc v).2 = c at hL ⊢
  have hus : 256 ^ tg.word = tg.usizeSize := rfl
  rw [hus]
  have hu : 0 < tg.usizeSize := Nat.pow_pos (by decide)
  have cl : ∀ m, tg.contentsLen m (tg.tySer m t) v = tg.total m c.length >>= fun n => .ok (n, none) := by
    intro m
    rw [Target.contentsLen, (hL m).len]
    cases tg.total m c.length <;> rfl
  have clr : tg.contentsLen .release (tg.tySer .release t) v = .ok (c.length % tg.usizeSize, none) := cl .release
  have clg : tg.contentsLen .debug (tg.tySer .debug t) v = if c.length < tg.usizeSize then .ok (c.length, none) else .panic := by
    rw [cl, Target.total]
    split <;> rfl
  refine ⟨?_, ?_, ?_, ?_⟩
  · exact (WritesR.bind (writesR_lift clr) (WritesR.bind (writesR_lift (Target.toBytes_fits (Nat.mod_lt _ hu)))
      (WritesR.bind (hL .release).writeId (WritesR.bind (writes_writeAll _) (hL .release).contents.1)))).cast (by simp)
  · intro h
    rw [if_pos h] at clg
    exact (WritesR.bind (writesR_lift clg) (WritesR.bind (writesR_lift (Target.toBytes_fits h))
      (WritesR.bind (hL .debug).writeId (WritesR.bind (writes_writeAll _) (hL .debug).contents.1)))).cast (by simp)
  · intro h
    rw [if_neg (by omega)] at clg
    rw [Target.writeDer, clg]
    rfl
  · intro h m
    have hi := (Target.isizeMax_lt (t := tg) Target.OkWord.ge)
    simp only [List.length_append] at h
    have step : ∀ n, n < tg.usizeSize → tg.isizeMax < id.length + (lenOctets n).length + c.length →
        tg.contentsLen m (tg.tySer m t) v = .ok (n, none) → tg.toDer m (tg.tySer m t) v = .panic := by
      intro n hn hlong e
      rw [Target.toDer, e, Res.bind_ok]
      simp only
      rw [Target.toBytes_fits hn, Res.bind_ok, (hL m).idLen, Res.bind_ok]
      rcases Target.reserveDer_cases (tg := tg) m id.length (lenOctets n).length n with e | e
      · have hln : (lenOctets n).length ≤ 9 := by
          have := (C95_length_octets tg ht n hn).2.2
          have := ht.le
          omega
        have e0 : tg.toBuffer m ((tg.tySer m t).writeId v) [] = .ok ((), [] ++ id) :=
          Target.toBuffer_ok m (hL m).writeId [] (by simp only [List.length_nil]; omega)
        rw [e, Res.bind_ok, e0, Res.bind_ok]
        simp only
        rw [Target.writeBuffer_ok m _ _ (by simp; omega), Res.bind_ok]
        have := Target.writeBuffer_panic m _ ([] ++ id ++ [lenOctets n].flatten) (by simp; omega) (hL m).contents.2
          (by rw [(hL m).contents.1.2]; simp; omega)
        rw [Target.toBuffer, this]
        rfl
      · rw [e]; rfl
    by_cases hlt : c.length < tg.usizeSize
    · refine step _ hlt (by omega) ?_
      cases m with
      | debug => rw [clg, if_pos hlt]
      | release => rw [clr, Nat.mod_eq_of_lt hlt]
    · cases m with
      | debug => rw [Target.toDer, clg, if_neg hlt]; rfl
      | release => exact step _ (Nat.mod_lt _ hu) (by omega) clr

/-- C115.  A `Vec` of elements that fit, whatever their number: `C115_long_exact` with the encoding written out. -/
theorem C115_long_vec_exact (tg : Target) (ht : tg.Real) (t : Ty α) (hs : t.serializable) (hz : t.sized = true) (v : List α)
    (hok : ∀ x ∈ v, (t.withInts tg.intTy).ok x) (hfit : ∀ x ∈ v, (t.der x).length ≤ tg.isizeMax) :
    ((tg.writeDer .release (tg.tySer .release (.vec t)) v).res = .ok () ∧
      (tg.writeDer .release (tg.tySer .release (.vec t)) v).chunks.flatten =
        [0x30] ++ lenOctets ((v.flatMap t.der).length % 256 ^ tg.word) ++ v.flatMap t.der) ∧
    ((v.flatMap t.der).length < 256 ^ tg.word → (tg.writeDer .debug (tg.tySer .debug (.vec t)) v).res = .ok () ∧
      (tg.writeDer .debug (tg.tySer .debug (.vec t)) v).chunks.flatten = (Ty.vec t).der v) ∧
    (256 ^ tg.word ≤ (v.flatMap t.der).length → tg.writeDer .debug (tg.tySer .debug (.vec t)) v = ⟨[], .panic⟩) ∧
    (tg.isizeMax < ((Ty.vec t).der v).length → ∀ m, tg.toDer m (tg.tySer m (.vec t)) v = .panic) := by
  have := ht.okWord
  exact C115_long_exact tg ht (.vec t) hs hz v hok hfit (by
    have := (Target.isizeMax_lt (t := tg) Target.OkWord.ge).2
    change 1 + 9 ≤ _
    omega)

/-- On 16 bits, a struct of two byte strings of 32 000 octets each
(64 008 octets, which `usize` can count, but a buffer cannot hold), and a struct of three of them (96 012 octets, announced as 30 476). -/
example : (∀ m, (Target.mk 2).toDer m ((Target.mk 2).tySer m (.struct [0x30] (.plain .octetString (.plain .octetString .nil))))
      (List.replicate 32000 7, List.replicate 32000 7, ()) = .panic) ∧
    ((Target.mk 2).writeDer .release ((Target.mk 2).tySer .release (.struct [0x30] (.plain .octetString (.plain .octetString (.plain .octetString .nil)))))
      (List.replicate 32000 7, List.replicate 32000 7, List.replicate 32000 7, ())).chunks.flatten.take 8 =
        [0x30, 0x82, 0x77, 0x0c, 0x04, 0x82, 0x7d, 0x00] ∧
    (Target.mk 2).writeDer .debug ((Target.mk 2).tySer .debug (.struct [0x30] (.plain .octetString (.plain .octetString (.plain .octetString .nil)))))
      (List.replicate 32000 7, List.replicate 32000 7, List.replicate 32000 7, ()) = ⟨[], .panic⟩ := by
  obtain ⟨n, hn⟩ : ∃ n, n = 32000 := ⟨_, rfl⟩
  rw [← hn]
  have hd : Ty.octetString.der (List.replicate n 7) = [0x04, 0x82, 0x7d, 0x00] ++ List.replicate n 7 := by
    change tlv [0x04] (List.replicate n 7) = _
    rw [tlv, List.length_replicate, hn]
    have : [0x04] ++ lenOctets 32000 = ([0x04, 0x82, 0x7d, 0x00] : Bytes) := by decide +kernel
    rw [this]
  have hl : (Ty.octetString.der (List.replicate n 7)).length = 32004 := by
    rw [hd, List.length_append, List.length_replicate, hn]; rfl
  have hi : (Target.mk 2).isizeMax = 32767 := by decide +kernel
  have hw : 256 ^ (Target.mk 2).word = 65536 := by decide +kernel
  have hid : IsId [0x30] := ⟨0, 1, 16, by decide, by decide, by decide +kernel⟩
  have h2 := C115_long_exact (Target.mk 2) (.inl rfl) (.struct [0x30] (.plain .octetString (.plain .octetString .nil)))
    ⟨hid, trivial, trivial, trivial⟩ rfl (List.replicate n 7, List.replicate n 7, ()) ⟨trivial, trivial, trivial⟩
    ⟨by rw [hl, hi]; decide, by rw [hl, hi]; decide, trivial⟩ (by rw [hi]; change 1 + 9 ≤ _; decide)
  have h3 := C115_long_exact (Target.mk 2) (.inl rfl) (.struct [0x30] (.plain .octetString (.plain .octetString (.plain .octetString .nil))))
    ⟨hid, trivial, trivial, trivial, trivial⟩ rfl (List.replicate n 7, List.replicate n 7, List.replicate n 7, ()) ⟨trivial, trivial, trivial, trivial⟩
    ⟨by rw [hl, hi]; decide, by rw [hl, hi]; decide, by rw [hl, hi]; decide, trivial⟩ (by rw [hi]; change 1 + 9 ≤ _; decide)
  have e2 : ((Ty.struct [0x30] (.plain .octetString (.plain .octetString .nil))).enc (List.replicate n 7, List.replicate n 7, ())) =
      ([0x30], Ty.octetString.der (List.replicate n 7) ++ (Ty.octetString.der (List.replicate n 7) ++ [])) := rfl
  have e3 : ((Ty.struct [0x30] (.plain .octetString (.plain .octetString (.plain .octetString .nil)))).enc
      (List.replicate n 7, List.replicate n 7, List.replicate n 7, ())) =
      ([0x30], Ty.octetString.der (List.replicate n 7) ++ (Ty.octetString.der (List.replicate n 7) ++ (Ty.octetString.der (List.replicate n 7) ++ []))) := rfl
  have l3 : (Ty.octetString.der (List.replicate n 7) ++ (Ty.octetString.der (List.replicate n 7) ++ (Ty.octetString.der (List.replicate n 7) ++ []))).length =
      96012 := by simp only [List.length_append, hl, List.length_nil]
  refine ⟨h2.2.2.2 ?_, ?_, h3.2.2.1 ?_⟩
  · rw [Ty.der, e2, tlvOf, tlv_length]
    simp only [List.length_append, hl, List.length_nil]
    omega
  · rw [h3.1.2, e3]
    simp only
    rw [l3, hd]
    have : [0x30] ++ lenOctets (96012 % 256 ^ (Target.mk 2).word) = ([0x30, 0x82, 0x77, 0x0c] : Bytes) := by decide +kernel
    rw [this]
    rfl
  · rw [e3]
    simp only
    rw [l3, hw]
    decide

/-- On 16 bits, 22 000 booleans: 66 000 octets, written with a header for 464. -/
example : ((Target.mk 2).writeDer .release ((Target.mk 2).tySer .release (.vec .bool)) (List.replicate 22000 true)).chunks.flatten =
      [0x30, 0x82, 0x01, 0xd0] ++ (List.replicate 22000 true).flatMap Ty.bool.der ∧
    (Target.mk 2).writeDer .debug ((Target.mk 2).tySer .debug (.vec .bool)) (List.replicate 22000 true) = ⟨[], .panic⟩ ∧
    ∀ m, (Target.mk 2).toDer m ((Target.mk 2).tySer m (.vec .bool)) (List.replicate 22000 true) = .panic := by
  obtain ⟨n, hn⟩ : ∃ n, n = 22000 := ⟨_, rfl⟩
  rw [← hn]
  have hl : ((List.replicate n true).flatMap Ty.bool.der).length = 66000 := by
    rw [length_flatMap_replicate, hn]; decide +kernel
  obtain ⟨⟨_, h2⟩, _, h3, h4⟩ := C115_long_vec_exact (Target.mk 2) (.inl rfl) .bool trivial rfl (List.replicate n true) (fun _ _ => trivial)
    (fun x _ => by cases x <;> decide +kernel)
  have e : [0x30] ++ lenOctets (66000 % 256 ^ (Target.mk 2).word) = ([0x30, 0x82, 0x01, 0xd0] : Bytes) := by decide +kernel
  have hw : 256 ^ (Target.mk 2).word = 65536 := by decide +kernel
  have hi : (Target.mk 2).isizeMax = 32767 := by decide +kernel
  rw [hl, e] at h2
  refine ⟨h2, h3 (by omega), h4 ?_⟩
  have : (Ty.vec Ty.bool).der (List.replicate n true) =
      [0x30] ++ lenOctets ((List.replicate n true).flatMap Ty.bool.der).length ++ (List.replicate n true).flatMap Ty.bool.der := rfl
  rw [this, List.length_append, hl]
  omega

/-- The numbers 5, four times 300, and `n` times 40 000. -/
def manyNumbers (n : Nat) : List Int := 5 :: (List.replicate 4 300 ++ List.replicate n 40000)

theorem manyNumbers_octets (n : Nat) : ((manyNumbers n).flatMap (Ty.int .u16).der).length = 19 + n * 5 := by
  have h1 : ((Ty.int .u16).der 5).length = 3 := by decide +kernel
  have h2 : ((Ty.int .u16).der 300).length = 4 := by decide +kernel
  have h3 : ((Ty.int .u16).der 40000).length = 5 := by decide +kernel
  rw [manyNumbers, List.flatMap_cons, List.flatMap_append, List.length_append, List.length_append, length_flatMap_replicate,
    length_flatMap_replicate, h1, h2, h3]
  omega

theorem manyNumbers_range (n : Nat) : ∀ x ∈ manyNumbers n, x = 5 ∨ x = 300 ∨ x = 40000 := by
  intro x hx
  rw [manyNumbers, List.mem_cons, List.mem_append] at hx
  rcases hx with h | h | h
  · exact .inl h
  · exact .inr (.inl (List.eq_of_mem_replicate h))
  · exact .inr (.inr (List.eq_of_mem_replicate h))

/-- C115, violated.  On a 32-bit target and in a release build, `write_der` reports success for a vector of 858 993 461 `u16`s, which fits the memory
there, but writes octets that `read_der` takes, there and everywhere, for the vector of the first number alone.  (In a debug build it panics, and
`to_der` panics in both.) -/
theorem C115_write_der_violated :
    ∃ v : List Int, (∀ x ∈ v, IntTy.u16.InRange x) ∧ v.length = 858993461 ∧ 2 * v.length ≤ (Target.mk 4).isizeMax ∧
    ((Target.mk 4).writeDer .release ((Target.mk 4).tySer .release (.vec (.int .u16))) v).res = .ok () ∧
    ∀ tg : Target, tg.Real → ∀ (m : Build) (o : HashOrder), ∃ rest, tg.readDer m (tg.tyDe m o (.vec (.int .u16)))
      ((Target.mk 4).writeDer .release ((Target.mk 4).tySer .release (.vec (.int .u16))) v).chunks.flatten = (.ok [5], rest) := by
  obtain ⟨n, hn⟩ : ∃ n, n = 858993456 := ⟨_, rfl⟩
  have hr : ∀ x ∈ manyNumbers n, IntTy.u16.InRange x ∧ ((Ty.int .u16).der x).length ≤ (Target.mk 4).isizeMax := by
    intro x hx
    rcases manyNumbers_range n x hx with rfl | rfl | rfl <;> exact ⟨by decide +kernel, by decide +kernel⟩
  have hl : (manyNumbers n).length = n + 5 := by
    rw [manyNumbers, List.length_cons, List.length_append, List.length_replicate, List.length_replicate]
    omega
  obtain ⟨⟨h1, h2⟩, _⟩ := C115_long_vec_exact (Target.mk 4) (.inr (.inl rfl)) (.int .u16) trivial rfl (manyNumbers n) (fun x hx => (hr x hx).1)
    (fun x hx => (hr x hx).2)
  have hi4 : (Target.mk 4).isizeMax = 2147483647 := by decide +kernel
  refine ⟨manyNumbers n, fun x hx => (hr x hx).1, by omega, by omega, h1, fun tg ht m o => ?_⟩
  have e : (19 + n * 5) % 256 ^ (Target.mk 4).word = 3 := by
    have : 256 ^ (Target.mk 4).word = 4294967296 := by decide +kernel
    rw [this]
    omega
  have d5 : (Ty.int .u16).der 5 = [0x02, 0x01, 0x05] := by decide +kernel
  have hw := ht.le
  have hi := Target.isizeMax_lt (t := tg) (by omega)
  rw [h2, manyNumbers_octets, e, manyNumbers, List.flatMap_cons, d5]
  generalize (List.replicate 4 (300 : Int) ++ List.replicate n 40000).flatMap (Ty.int .u16).der = rest
  have hb : ([0x30] ++ lenOctets 3 ++ ([0x02, 0x01, 0x05] ++ rest) : Bytes) = tlv [0x30] [0x02, 0x01, 0x05] ++ rest := by simp [tlv]
  rw [hb]
  have hid : IsId [0x30] := ⟨0, 1, 16, by decide, by decide, by decide +kernel⟩
  have hlen : (tlv [0x30] [0x02, 0x01, 0x05]).length = 5 := by decide +kernel
  obtain ⟨s2, h2, h4⟩ := C25_der_parse_chunking_partial (σ := Bytes) (fun s bs => s = bs) delivers_slice m [0x30] [0x02, 0x01, 0x05] rest hid
    (by decide +kernel) (fun s e => ⟨rest, by subst e; simp [Reader.read], rfl⟩) _ rfl
  have hp := ((C95_read_iff tg ht m (tlv [0x30] [0x02, 0x01, 0x05] ++ rest) s2 (tlv [0x30] [0x02, 0x01, 0x05])).1).mpr ⟨h2, by omega⟩
  obtain ⟨p, w, g1, g2, g3, _⟩ := C115_exchange tg tg ht ht m m o (.vec (.int .u16)) trivial trivial trivial [5]
    (by intro x hx; rw [List.mem_singleton.mp hx]; show IntTy.u16.InRange 5; decide +kernel)
    (by intro x hx; rw [List.mem_singleton.mp hx]; show IntTy.u16.InRange 5; decide +kernel) (fun _ _ => trivial)
    (le_trans (b := 5) (by decide +kernel) (by omega)) [] (le_trans (b := 5) (by decide +kernel) (by omega))
  have gw := Ty.exact_faithful (.vec (.int .u16)) trivial [5] w g2
  have gp : p = tlv [0x30] [0x02, 0x01, 0x05] := by
    rw [(C115_encode tg ht m (.vec (.int .u16)) trivial [5]
      (by intro x hx; rw [List.mem_singleton.mp hx]; show IntTy.u16.InRange 5; decide +kernel)
      (le_trans (b := 5) (by decide +kernel) (by omega))).1] at g1
    rw [← Res.ok.inj g1]
    decide +kernel
  subst gw gp
  rw [List.append_nil, Target.parseDer, ((C95_parse_iff tg ht _ (tlv [0x30] [0x02, 0x01, 0x05]) [] (by omega)).1).mpr
    ⟨⟨_, _, hid, by decide, rfl⟩, (List.append_nil _).symm⟩] at g3
  refine ⟨s2, ?_⟩
  rw [Target.readDer, hp]
  simp only at g3 ⊢
  rw [(Prod.mk.inj g3).1]

end Bsn1
