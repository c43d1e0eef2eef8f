import Verif.Lemmas.TargetRead
/-!
# Lemmas on other word sizes: encoding, and 64-bit targets
-/

set_option linter.unusedSimpArgs false

namespace Bsn1
open Spec

namespace Target
variable {t : Target}

theorem usizeSize_two_pow : t.usizeSize = 2 ^ (8 * t.word) := by
  rw [usizeSize, pow_mul]; norm_num

theorem byteLen {n : Nat} (h : n < t.usizeSize) (h0 : n ≠ 0) :
    (8 * t.word - leadingZeros (8 * t.word) n + 7) / 8 = (natOctets n).length := by
  rw [usizeSize_two_pow] at h
  have h1 := lt_pow_leadingZeros h
  have ⟨h2, h3⟩ := pow_leadingZeros_le h h0
  generalize leadingZeros (8 * t.word) n = z at *
  obtain ⟨k, hk⟩ : ∃ k, (8 * t.word - z + 7) / 8 = k := ⟨_, rfl⟩
  rw [hk]
  have h4 : n < 256 ^ k := by
    calc n < 2 ^ (8 * t.word - z) := h1
      _ ≤ 2 ^ (8 * k) := Nat.pow_le_pow_right (by norm_num) (by omega)
      _ = 256 ^ k := by rw [pow_mul]; norm_num
  have h5 : 256 ^ (k - 1) ≤ n := by
    calc 256 ^ (k - 1) = 2 ^ (8 * (k - 1)) := by rw [pow_mul]; norm_num
      _ ≤ 2 ^ (8 * t.word - z - 1) := Nat.pow_le_pow_right (by norm_num) (by omega)
      _ ≤ n := h3
  have := natOctets_length_le h4
  have := lt_natOctets_length h5
  omega

theorem octets_le {n : Nat} (h : n < t.usizeSize) : (natOctets n).length ≤ t.word := natOctets_length_le h

theorem lengthLen_definite {n : Nat} (h : n < t.usizeSize) : t.lengthLen (.definite n) = (lenOctets n).length := by
  simp only [lengthLen, max_short_toNat, lenOctets]
  by_cases hn : n < 128
  · rw [if_pos (by omega), if_pos hn]; rfl
  · rw [if_neg (by omega), if_neg hn]
    have := byteLen h (by omega)
    simp only [List.length_cons]
    rw [← this]

theorem bufferCapacity_word (hw : 1 ≤ t.word) : t.bufferCapacity = t.word + 1 := by
  have h256 : 256 ^ 1 ≤ 256 ^ t.word := Nat.pow_le_pow_right (by norm_num) hw
  have h1 : 256 ^ (t.word - 1) ≤ t.usizeSize - 1 := by
    have : 256 ^ (t.word - 1) * 256 = 256 ^ t.word := by rw [← pow_succ]; congr 1; omega
    have hp : 0 < 256 ^ (t.word - 1) := Nat.pow_pos (by norm_num)
    simp only [usizeSize]
    omega
  have h2 := lt_natOctets_length h1
  have h3 : (natOctets (t.usizeSize - 1)).length ≤ t.word := natOctets_length_le (by
    simp only [usizeSize]; omega)
  rw [bufferCapacity, lengthLen_definite (by simp only [usizeSize]; omega), lenOctets, if_neg (by simp only [usizeSize]; omega)]
  simp only [List.length_cons]
  omega

theorem toBytes_lenOctets (hw : 1 ≤ t.word) (hw' : t.word ≤ 8) {n : Nat} (h : n < t.usizeSize) :
    t.toBytes (.definite n) = .ok (lenOctets n) := by
  simp only [toBytes, max_short_toNat, lenOctets]
  by_cases hn : n < 128
  · rw [if_pos (by omega), if_pos hn]
  · rw [if_neg (by omega), if_neg hn]
    have e : (8 * t.word - leadingZeros (8 * t.word) n + 8 - 1) / 8 = (natOctets n).length := by
      rw [← byteLen h (by omega)]; omega
    rw [e]
    have hl := octets_le h
    rw [bufferCapacity_word hw, if_neg (by omega), toBeBytes_drop t.word n _ hl]
    rw [toBeBytes_eq_natOctets]
    · congr 2
      apply u8_ext
      rw [UInt8.toNat_add, toNat_ofNat_of_lt (by omega), toNat_ofNat_of_lt (by omega)]
      simp [Length.LONG_FLAG]; omega
    · have := natOctets_natVal n
      have h2 := natVal_lt (natOctets n)
      omega
    · right
      have hne := natOctets_ne_nil (show n ≠ 0 by omega)
      have h2 := natOctets_head n
      have h3 := natOctets_natVal n
      generalize natOctets n = l at *
      cases l with
      | nil => simp at hne
      | cons b r =>
        simp only [List.head?_cons, Option.mem_def, Option.some.injEq, forall_eq'] at h2
        have := natVal_ge (r := r) h2
        simp only [List.length_cons, Nat.add_sub_cancel]
        omega

theorem lengthParse_definite (hw : 1 ≤ t.word) (hw' : t.word ≤ 8) (bs rest : Bytes) (n : Nat) :
    t.lengthParse bs = (.ok (.definite n), rest) ↔ n < t.usizeSize ∧ bs = lenOctets n ++ rest := by
  have hul := usizeSize_le hw'
  have hu := usizeSize_eq
  simp only [lengthParse]
  rcases parseLength_cases (σ := Bytes) hw hw' bs [] with ⟨he, hn⟩ | ⟨h1, k, c, s1, w1, h2, h3⟩
  · rw [he]
    constructor
    · intro h
      rcases hp : (Bsn1.parseLength (σ := Bytes)).run bs [] with ⟨r, s, w⟩
      rw [hp] at h
      simp only [Prod.mk.injEq] at h
      obtain ⟨rfl, rfl⟩ := h
      refine ⟨hn _ _ _ hp, ?_⟩
      rcases parseLength_ok hp with h | ⟨m, _, h1, h2, _⟩
      · simp at h
      · cases h1; exact h2
    · rintro ⟨h1, rfl⟩
      rw [parseLength_lenOctets (by omega)]
  · constructor
    · intro h
      rw [Prod.mk.injEq, h1] at h
      simp at h
    · rintro ⟨h4, rfl⟩
      exfalso
      rw [parseLength_lenOctets (by omega), P.bind_def] at h2
      rcases hp : (plainLoop (σ := Bytes) k c).run s1 w1 with ⟨r, s2, w2⟩
      rw [hp] at h2
      cases r with
      | err e => simp at h2
      | panic => simp at h2
      | ub => simp at h2
      | ok n' =>
        have hb := (plainLoop_bounds _ _ hp).1
        simp only [P.pure_apply, Prod.mk.injEq, Res.ok.injEq, Length.definite.injEq] at h2
        omega

theorem lengthParse_indefinite (hw : 1 ≤ t.word) (hw' : t.word ≤ 8) (bs rest : Bytes) :
    t.lengthParse bs = (.ok .indefinite, rest) ↔ bs = 0x80 :: rest := by
  simp only [lengthParse]
  constructor
  · intro h
    rcases parseLength_cases (σ := Bytes) hw hw' bs [] with ⟨he, hn⟩ | ⟨h1, _⟩
    · rw [he] at h
      rcases hp : (Bsn1.parseLength (σ := Bytes)).run bs [] with ⟨r, s, w⟩
      rw [hp] at h
      simp only [Prod.mk.injEq] at h
      obtain ⟨rfl, rfl⟩ := h
      rcases parseLength_ok hp with h | ⟨m, _, h1, h2, _⟩
      · exact h.2.1
      · cases h1
    · rw [Prod.mk.injEq, h1] at h
      simp at h
  · rintro rfl
    simp [parseLength, P.bind_def, readU8_cons, writeU8_apply, P.ite_apply, Length.INDEFINITE]

/-! ### Construction -/

theorem foldl_word (l : Bytes) (acc k : Nat) (hk : l.length ≤ k) (h : acc < 256 ^ (t.word - k)) (hk8 : k ≤ t.word) :
    l.foldl (fun acc byte => (acc * 256) % t.usizeSize + byte.toNat) acc = acc * 256 ^ l.length + natVal l := by
  induction l generalizing acc k with
  | nil => simp [natVal]
  | cons b r ih =>
    simp only [List.length_cons] at hk
    simp only [List.foldl_cons]
    have hb := u8_lt b
    have h1 : acc * 256 < t.usizeSize := by
      calc acc * 256 < 256 ^ (t.word - k) * 256 := by omega
        _ = 256 ^ (t.word - k + 1) := by rw [pow_succ]
        _ ≤ 256 ^ t.word := Nat.pow_le_pow_right (by norm_num) (by omega)
    rw [Nat.mod_eq_of_lt h1, ih _ (k - 1) (by omega) ?_ (by omega)]
    · simp only [natVal, List.length_cons, pow_succ]; ring
    · have e : t.word - (k - 1) = t.word - k + 1 := by omega
      rw [e, pow_succ]
      generalize 256 ^ (t.word - k) = q at h ⊢
      clear * - h hb
      omega

theorem parseLengthUnchecked_octets (hw' : t.word ≤ 8) {n : Nat} (h : n < t.usizeSize) (rest : Bytes) :
    t.parseLengthUnchecked (lenOctets n ++ rest) = .ok (.definite n, rest) := by
  by_cases hn : n < 128
  · have e : (UInt8.ofNat n).toNat = n := toNat_ofNat_of_lt (by omega)
    simp only [lenOctets, if_pos hn, List.cons_append, List.nil_append]
    have h1 : ¬ UInt8.ofNat n = Length.INDEFINITE := by rw [u8_eq_indefinite]; omega
    have h2 := (u8_long_flag (UInt8.ofNat n)).mpr (by omega)
    simp only [parseLengthUnchecked, getAt, sliceFrom, List.getElem?_cons_zero, Res.bind_ok, if_neg h1,
      if_pos h2, e]
    simp
  · have hl := octets_le h
    have hne := natOctets_ne_nil (show n ≠ 0 by omega)
    have h3 := natOctets_natVal n
    simp only [lenOctets, if_neg hn]
    have e : (UInt8.ofNat (128 + (natOctets n).length)).toNat = 128 + (natOctets n).length :=
      toNat_ofNat_of_lt (by omega)
    have hpos : 0 < (natOctets n).length := List.length_pos_iff.mpr hne
    generalize natOctets n = l at *
    generalize UInt8.ofNat (128 + l.length) = f at *
    have h1 : ¬ f = Length.INDEFINITE := by rw [u8_eq_indefinite]; omega
    have h2 : ¬ (f &&& Length.LONG_FLAG ≠ Length.LONG_FLAG) := by rw [u8_long_flag]; omega
    have h4 : (f &&& ~~~ Length.LONG_FLAG).toNat = l.length := by
      rw [u8_and_not_flag]; omega
    have h5 : 1 ≤ (f :: (l ++ rest)).length := by simp
    have h6 : l.length ≤ (l ++ rest).length := by simp
    simp only [parseLengthUnchecked, getAt, sliceFrom, sliceTo, if_neg h1, if_neg h2, h4,
      List.cons_append, List.getElem?_cons_zero, Res.bind_ok, if_pos h5,
      List.drop_succ_cons, List.drop_zero, if_pos h6, List.take_left, List.drop_left]
    rw [foldl_word l 0 t.word hl (by simp) (by omega), h3]
    simp

theorem disassemble_ok (hw' : t.word ≤ 8) {id c : Bytes} (hid : IsId id) (hc : c.length < t.usizeSize) :
    t.disassemble (tlv id c) = .ok (id, .definite c.length, c) := by
  simp only [disassemble, tlv, List.append_assoc, parseIdUnchecked_shape ((isId_iff_shape _).mp hid),
    Res.bind_ok, parseLengthUnchecked_octets hw' hc]
  rfl

theorem derNew_ok (hw : 1 ≤ t.word) (hw' : t.word ≤ 8) (m : Build) (junk : Nat → UInt8) {id : Bytes} (hid : IsId id) (c : Bytes)
    (h : (tlv id c).length ≤ t.isizeMax) : t.derNew m junk id c = .ok (tlv id c) := by
  have hi := (isizeMax_lt hw).1
  rw [tlv_length] at h
  have hb : t.withIdLength m junk id c.length = .ok (tlv id (junkCells junk c.length)) := by
    simp only [withIdLength, toBytes_lenOctets hw hw' (show c.length < t.usizeSize by omega), Res.bind_ok]
    rw [uadd_ok (by omega)]
    simp only [Res.bind_ok]
    rw [uadd_ok (by omega)]
    simp only [Res.bind_ok]
    rw [bufReserve_ok hw (by omega)]
    simp only [Res.bind_ok, Nat.zero_add]
    rw [if_neg (by omega)]
    simp only [Res.pure_eq, Res.ok.injEq]
    have e : id.length + (lenOctets c.length).length + c.length - (id ++ lenOctets c.length).length = c.length := by simp
    rw [e, List.take_of_length_le, tlv, junkCells_length]
    simp [junkCells_length]; omega
  have hj := junkCells_length junk c.length
  rw [derNew, hb, Res.bind_ok, disassemble_ok hw' hid (by omega)]
  simp only [Res.bind_ok]
  rw [if_pos hj, tlv_length, tlv, hj, tlv, Nat.add_sub_cancel, ← List.length_append, List.take_left]
  rfl

theorem derNew_panic (hw : 1 ≤ t.word) (hw' : t.word ≤ 8) (m : Build) (junk : Nat → UInt8) {id : Bytes} (c : Bytes)
    (h : t.isizeMax < (tlv id c).length) (h' : (tlv id c).length < t.usizeSize) : t.derNew m junk id c = .panic := by
  rw [tlv_length] at h h'
  have hb : t.withIdLength m junk id c.length = .panic := by
    simp only [withIdLength, toBytes_lenOctets hw hw' (show c.length < t.usizeSize by omega), Res.bind_ok]
    rw [uadd_ok (by omega)]
    simp only [Res.bind_ok]
    rw [uadd_ok (by omega)]
    simp only [Res.bind_ok]
    rw [bufReserve, uadd_ok (by omega)]
    simp only [Res.bind_ok, Nat.zero_add]
    rw [if_neg (by omega)]
    rfl
  rw [derNew, hb]
  rfl

/-! ### 64-bit targets -/

/-- The target of the rest of the model. -/
def w8 : Target := ⟨8⟩

theorem w8_usizeSize : w8.usizeSize = Bsn1.usizeSize := by
  norm_num [usizeSize, Bsn1.usizeSize, w8]

theorem w8_isizeMax : w8.isizeMax = Bsn1.isizeMax := by
  norm_num [isizeMax, Bsn1.isizeMax, w8]

theorem w8_uadd : w8.uadd = Bsn1.uadd := by
  funext m a b; simp only [uadd, Bsn1.uadd, w8_usizeSize]; rfl

theorem w8_bufReserve : w8.bufReserve = Bsn1.bufReserve := by
  funext m a b; simp only [bufReserve, Bsn1.bufReserve, w8_uadd, w8_isizeMax]

theorem w8_lengthLen : w8.lengthLen = Length.len := by
  funext l; cases l <;> rfl

theorem w8_bufferCapacity : w8.bufferCapacity = Length.bufferCapacity := by
  rw [bufferCapacity_eq, bufferCapacity_word (by decide)]; rfl

theorem w8_toBytes : w8.toBytes = Length.toBytes := by
  funext l
  cases l with
  | indefinite => rfl
  | definite n => simp only [toBytes, Length.toBytes, w8_bufferCapacity]; rfl

section
variable {σ : Type} [Reader σ]

theorem w8_parseLengthLoop (k n : Nat) : w8.parseLengthLoop (σ := σ) k n = Bsn1.parseLengthLoop k n := by
  induction k generalizing n with
  | zero => rfl
  | succ k ih => simp only [parseLengthLoop, Bsn1.parseLengthLoop, ih, w8_usizeSize]

theorem w8_parseLength : w8.parseLength (σ := σ) = Bsn1.parseLength := by
  simp only [parseLength, Bsn1.parseLength, w8_parseLengthLoop]; rfl

theorem w8_parseIdLength : w8.parseIdLength (σ := σ) = Bsn1.parseIdLength := by
  simp only [parseIdLength, Bsn1.parseIdLength, w8_parseLength]

theorem w8_derParse (m : Build) (s : σ) : w8.derParse m s = Der.parse m s := by
  simp only [derParse, Der.parse, w8_parseIdLength, w8_uadd, w8_bufReserve] <;> rfl

theorem w8_berReadOne (m : Build) : w8.berReadOne (σ := σ) m = Ber.doParse m := by
  simp only [berReadOne, Ber.doParse, w8_parseIdLength, w8_uadd, w8_bufReserve] <;> rfl

theorem w8_berReadLoop (m : Build) (f : Nat) (d : Int) : w8.berReadLoop (σ := σ) m f d = Ber.parseLoop m f d := by
  induction f generalizing d with
  | zero => rfl
  | succ f ih => simp only [berReadLoop, Ber.parseLoop, ih, w8_isizeMax, w8_berReadOne] <;> rfl

theorem w8_berParse (m : Build) (s : σ) : w8.berParse m s = Ber.parse m s := by
  simp only [berParse, Ber.parse, w8_berReadLoop] <;> rfl

end

theorem w8_lengthParse (bs : Bytes) : w8.lengthParse bs = Length.parse bs := by
  simp only [lengthParse, Length.parse, w8_parseLength] <;> rfl

theorem w8_derDoParse (bs : Bytes) : w8.derDoParse bs = DerRef.doParse bs := by
  simp only [derDoParse, DerRef.doParse, w8_parseIdLength] <;> rfl

theorem w8_derRefParse (bs : Bytes) : w8.derRefParse bs = DerRef.parse bs := by
  simp only [derRefParse, DerRef.parse, w8_derDoParse] <;> rfl

theorem w8_berDoParse (bs : Bytes) : w8.berDoParse bs = BerRef.doParse bs := by
  simp only [berDoParse, BerRef.doParse, w8_parseIdLength] <;> rfl

theorem w8_berParseLoop (f : Nat) (d : Int) (bs : Bytes) : w8.berParseLoop f d bs = BerRef.parseLoop f d bs := by
  induction f generalizing d bs with
  | zero => rfl
  | succ f ih => simp only [berParseLoop, BerRef.parseLoop, ih, w8_isizeMax, w8_berDoParse] <;> rfl

theorem w8_berRefParse (bs : Bytes) : w8.berRefParse bs = BerRef.parse bs := by
  simp only [berRefParse, BerRef.parse, w8_berParseLoop] <;> rfl

theorem w8_parseLengthUnchecked (bs : Bytes) : w8.parseLengthUnchecked bs = Bsn1.parseLengthUnchecked bs := by
  simp only [parseLengthUnchecked, Bsn1.parseLengthUnchecked, w8_usizeSize] <;> rfl

theorem w8_disassemble (bs : Bytes) : w8.disassemble bs = DerRef.disassemble bs := by
  simp only [disassemble, DerRef.disassemble, w8_parseLengthUnchecked] <;> rfl

theorem w8_derNew (m : Build) (junk : Nat → UInt8) (id c : Bytes) : w8.derNew m junk id c = Der.new m junk id c := by
  simp only [derNew, Der.new, withIdLength, Der.withIdLength, DerRef.copyContents, w8_toBytes, w8_uadd, w8_bufReserve, w8_disassemble]
  rfl

theorem w8_intTy (i : IntTy) : (w8.intTy i).InRange = i.InRange := by
  cases i <;> rfl

end Target
end Bsn1
