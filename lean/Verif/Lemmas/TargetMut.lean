import Verif.Model.TargetMut
import Verif.Props.Target
/-!
# Lemmas on values that grow and shrink, for any word size
-/

namespace Bsn1.Target
open Spec
variable {t : Target}

theorem w8_usub : w8.usub = Bsn1.usub := by
  funext m a b; simp only [usub, Bsn1.usub, w8_usizeSize]; rfl

theorem w8_length (bs : Bytes) : w8.refLength bs = DerRef.length bs := by
  simp only [refLength, DerRef.length, w8_disassemble] <;> rfl

theorem w8_derExtend (m : Build) (junk : Nat → UInt8) (d bs : Bytes) : w8.derExtend m junk d bs = Der.extendFromSlice m junk d bs := by
  simp only [derExtend, Der.extendFromSlice, w8_length, w8_uadd, w8_usub, w8_bufReserve, w8_lengthLen, w8_toBytes] <;> rfl

theorem w8_derTruncate (d : Bytes) (n : Nat) : w8.derTruncate d n = Der.truncate d n := by
  simp only [derTruncate, Der.truncate, w8_length, w8_toBytes] <;> rfl

theorem w8_newIndefinite (m : Build) (junk : Nat → UInt8) (id c : Bytes) : w8.newIndefinite m junk id c = Ber.newIndefinite m junk id c := by
  simp only [newIndefinite, Ber.newIndefinite, withIdLengthIndefinite, Ber.withIdLengthIndefinite, copyContents, BerRef.copyContents, w8_toBytes,
    w8_uadd, w8_bufReserve, w8_disassemble] <;> rfl

theorem w8_berExtend (m : Build) (junk : Nat → UInt8) (d bs : Bytes) : w8.berExtend m junk d bs = Ber.extendFromSlice m junk d bs := by
  simp only [berExtend, Ber.extendFromSlice, w8_length, w8_uadd, w8_bufReserve, w8_derExtend] <;> rfl

theorem w8_berTruncate (m : Build) (d : Bytes) (n : Nat) : w8.berTruncate m d n = Ber.truncate m d n := by
  simp only [berTruncate, Ber.truncate, w8_length, w8_uadd, w8_usub, w8_derTruncate, refContents, w8_disassemble] <;> rfl

theorem w8_sumLen (m : Build) : ∀ (parts : List Bytes) (acc : Nat), w8.sumLen m parts acc = Der.sumLen m parts acc
  | [], _ => rfl
  | p :: r, acc => by simp only [sumLen, Der.sumLen, w8_uadd, w8_sumLen m r]

theorem w8_fromIter (m : Build) (id : Bytes) (parts : List Bytes) :
    w8.fromIter m false id parts = Der.fromIdIterator m id parts ∧ w8.fromIter m true id parts = Ber.fromIdIteratorIndefinite m id parts := by
  constructor
  · simp only [fromIter, Der.fromIdIterator, w8_sumLen, w8_toBytes, w8_uadd, w8_bufReserve] <;> rfl
  · simp only [fromIter, Ber.fromIdIteratorIndefinite, w8_sumLen, w8_toBytes, w8_uadd, w8_bufReserve] <;> rfl

/-! ### Definite length -/

theorem length_tlv (hw' : t.word ≤ 8) {id c : Bytes} (hid : IsId id) (hc : c.length < t.usizeSize) : t.refLength (tlv id c) = .ok (.definite c.length) := by
  simp only [refLength, disassemble_ok hw' hid hc]; rfl

theorem usub_ok {m : Build} {a b : Nat} (h : b ≤ a) : t.usub m a b = .ok (a - b) := if_pos h

theorem bufReserve_over {m : Build} {a b : Nat} (h : t.isizeMax < a + b) (h' : a + b < t.usizeSize) : t.bufReserve m a b = .panic := by
  rw [bufReserve, uadd_ok h', Res.bind_ok, if_neg (by omega)]

theorem lenOctets_length_word {n : Nat} (h : n < t.usizeSize) : (lenOctets n).length ≤ t.word + 1 := by
  have := octets_le (t := t) h
  rw [lenOctets]
  split
  · simp
  · simpa using this

theorem derExtend_tlv (hw : 1 ≤ t.word) (hw' : t.word ≤ 8) (m : Build) (junk : Nat → UInt8) {id : Bytes} (hid : IsId id) (c bytes : Bytes)
    (h0 : (tlv id c).length ≤ t.isizeMax) (hb : bytes.length + t.word ≤ t.isizeMax) :
    t.derExtend m junk (tlv id c) bytes =
      if (tlv id (c ++ bytes)).length ≤ t.isizeMax then .ok (tlv id (c ++ bytes)) else .panic := by
  have hi := (isizeMax_lt hw).1
  have h2 : 2 * t.isizeMax + 1 < t.usizeSize := by
    have : 256 ^ 1 ≤ 256 ^ t.word := Nat.pow_le_pow_right (by norm_num) hw
    simp only [isizeMax, usizeSize]
    norm_num at this
    omega
  have hi64 := isizeMax_le hw'
  have hus := usizeSize_le hw'
  have hi8 := isizeMax_eq
  have hu8 := usizeSize_eq
  have hl0 := h0
  rw [tlv_length] at hl0
  have hlpos : 0 < (lenOctets c.length).length := List.length_pos_iff.mpr (lenOctets_ne_nil _)
  have hc : c.length < t.usizeSize := by omega
  have hn : c.length + bytes.length < t.usizeSize := by omega
  have hmono := lenOctets_length_mono (Nat.le_add_right c.length bytes.length)
  have hlw := lenOctets_length_word hn
  have hcl : (c ++ bytes).length = c.length + bytes.length := by simp
  have hT : (tlv id (c ++ bytes)).length =
      (tlv id c).length + (bytes.length + (lenOctets (c.length + bytes.length)).length - (lenOctets c.length).length) := by
    rw [tlv_length, tlv_length, hcl]; omega
  have hbig : (tlv id c).length + (bytes.length + (lenOctets (c.length + bytes.length)).length - (lenOctets c.length).length) < t.usizeSize := by omega
  have e1 : ∀ {β : Type} (f : Nat → Res β), (t.uadd m c.length bytes.length >>= f) = f (c.length + bytes.length) := fun f => by
    rw [uadd_ok (by omega), Res.bind_ok]
  by_cases hmax : (tlv id (c ++ bytes)).length ≤ t.isizeMax
  · have main := extendFromSlice_tlv m junk hid c bytes (by omega) (by omega)
    rw [if_pos (by omega)] at main
    rw [if_pos hmax, ← main]
    have hc64 : c.length < 2 ^ 64 := by omega
    have hn64 : c.length + bytes.length < 2 ^ 64 := by omega
    simp only [derExtend, Der.extendFromSlice, DerRef_id_tlv hid, DerRef_length_tlv hid hc64, length_tlv hw' hid hc, Res.bind_ok, Length.definite?,
      len_definite hc64, lengthLen_definite hc]
    rw [uadd_ok hn, Bsn1.uadd_ok (by omega)]
    simp only [Res.bind_ok, len_definite hn64, toBytes_definite hn64, lengthLen_definite hn, toBytes_lenOctets hw hw' hn]
    rw [uadd_ok (by omega), Bsn1.uadd_ok (by omega)]
    simp only [Res.bind_ok]
    rw [usub_ok (by omega), Bsn1.usub_ok (by omega)]
    simp only [Res.bind_ok]
    rw [bufReserve_ok hw (by omega), Bsn1.bufReserve_ok (by omega)]
    simp only [Res.bind_ok]
    rw [uadd_ok (by omega), Bsn1.uadd_ok (by omega)]
  · rw [if_neg hmax]
    simp only [derExtend, DerRef_id_tlv hid, length_tlv hw' hid hc, Res.bind_ok, Length.definite?, lengthLen_definite hc]
    rw [uadd_ok hn]
    simp only [Res.bind_ok, lengthLen_definite hn]
    rw [uadd_ok (by omega)]
    simp only [Res.bind_ok]
    rw [usub_ok (by omega)]
    simp only [Res.bind_ok]
    rw [bufReserve_over (by omega) hbig]
    rfl

theorem derTruncate_tlv (hw : 1 ≤ t.word) (hw' : t.word ≤ 8) {id : Bytes} (hid : IsId id) (c : Bytes) (h0 : c.length ≤ t.isizeMax) (n : Nat) :
    t.derTruncate (tlv id c) n = .ok (tlv id (c.take n)) := by
  have hi := (isizeMax_lt hw).1
  have hus := usizeSize_le hw'
  have hu8 := usizeSize_eq
  have hc : c.length < t.usizeSize := by omega
  have hc64 : c.length < 2 ^ 64 := by omega
  rw [← truncate_tlv hid c hc64 n]
  simp only [derTruncate, Der.truncate, DerRef_id_tlv hid, DerRef_length_tlv hid hc64, length_tlv hw' hid hc, Res.bind_ok, Length.definite?]
  by_cases hn : c.length ≤ n
  · rw [if_pos hn, if_pos hn]
  · rw [if_neg hn, if_neg hn]
    simp only [toBytes_definite hc64, toBytes_definite (show n < 2 ^ 64 by omega), toBytes_lenOctets hw hw' hc,
      toBytes_lenOctets hw hw' (show n < t.usizeSize by omega)]

/-! ### Indefinite length -/

theorem disassemble_indef {id : Bytes} (hid : IsId id) (c : Bytes) : t.disassemble (id ++ indefOctets ++ c) = .ok (id, .indefinite, c) := by
  have h : t.parseLengthUnchecked (indefOctets ++ c) = .ok (.indefinite, c) := rfl
  simp only [disassemble, List.append_assoc, parseIdUnchecked_shape ((isId_iff_shape _).mp hid), Res.bind_ok, h]
  rfl

theorem length_indef {id : Bytes} (hid : IsId id) (c : Bytes) : t.refLength (id ++ indefOctets ++ c) = .ok .indefinite := by
  simp only [refLength, disassemble_indef hid]; rfl

theorem contents_indef {id : Bytes} (hid : IsId id) (c : Bytes) : t.refContents (id ++ indefOctets ++ c) = .ok c := by
  simp only [refContents, disassemble_indef hid]; rfl

theorem two_isizeMax (hw : 1 ≤ t.word) : 2 * t.isizeMax + 1 < t.usizeSize := by
  have : 256 ^ 1 ≤ 256 ^ t.word := Nat.pow_le_pow_right (by norm_num) hw
  simp only [isizeMax, usizeSize]
  norm_num at this
  omega

theorem berExtend_indef (hw : 1 ≤ t.word) (m : Build) (junk : Nat → UInt8) {id : Bytes} (hid : IsId id) (c bytes : Bytes)
    (h0 : (id ++ indefOctets ++ c).length ≤ t.isizeMax) (hb : bytes.length ≤ t.isizeMax) :
    t.berExtend m junk (id ++ indefOctets ++ c) bytes =
      if (id ++ indefOctets ++ (c ++ bytes)).length ≤ t.isizeMax then .ok (id ++ indefOctets ++ (c ++ bytes)) else .panic := by
  have h2 := two_isizeMax hw
  have hl : (id ++ indefOctets ++ (c ++ bytes)).length = (id ++ indefOctets ++ c).length + bytes.length := by simp; omega
  simp only [berExtend, length_indef hid, Res.bind_ok]
  by_cases h : (id ++ indefOctets ++ (c ++ bytes)).length ≤ t.isizeMax
  · rw [if_pos h, bufReserve_ok hw (by omega)]
    simp only [Res.bind_ok]
    rw [uadd_ok (by omega)]
    simp only [Res.bind_ok, Nat.add_sub_cancel_left]
    have := memcpy_at (id ++ indefOctets ++ c) (junkCells junk bytes.length) [] bytes _ rfl (junkCells_length _ _)
    simpa using this
  · rw [if_neg h, bufReserve_over (by omega) (by omega)]
    rfl

theorem berTruncate_indef (hw : 1 ≤ t.word) (m : Build) {id : Bytes} (hid : IsId id) (c : Bytes)
    (h0 : (id ++ indefOctets ++ c).length ≤ t.isizeMax) (n : Nat) :
    t.berTruncate m (id ++ indefOctets ++ c) n = .ok (id ++ indefOctets ++ c.take n) := by
  have h2 := two_isizeMax hw
  have h1 : indefOctets.length = 1 := rfl
  have hl : (id ++ indefOctets ++ c).length = id.length + 1 + c.length := by simp [h1]; omega
  simp only [berTruncate, length_indef hid, contents_indef hid, Res.bind_ok]
  by_cases hn : c.length ≤ n
  · rw [if_pos hn, List.take_of_length_le hn]; rfl
  · rw [if_neg hn, uadd_ok (by omega)]
    simp only [Res.bind_ok]
    rw [usub_ok (by omega)]
    simp only [Res.bind_ok]
    rw [if_pos (by omega)]
    simp only [Res.pure_eq, Res.ok.injEq]
    have e : (id ++ indefOctets ++ c).length + n - c.length = (id ++ indefOctets).length + n := by
      rw [hl]; simp [h1]; omega
    rw [e, List.take_length_add_append]

theorem newIndefinite_value (hw : 1 ≤ t.word) (m : Build) (junk : Nat → UInt8) {id : Bytes} (hid : IsId id) (c : Bytes)
    (hl : id.length + 1 ≤ t.isizeMax) (hc : c.length ≤ t.isizeMax) :
    t.newIndefinite m junk id c =
      if (id ++ indefOctets ++ c).length ≤ t.isizeMax then .ok (id ++ indefOctets ++ c) else .panic := by
  have h2 := two_isizeMax hw
  have h1 : indefOctets.length = 1 := rfl
  have hle : (id ++ indefOctets ++ c).length = id.length + 1 + c.length := by simp [h1]; omega
  have hb : t.toBytes .indefinite = .ok indefOctets := rfl
  simp only [newIndefinite, withIdLengthIndefinite, hb, Res.bind_ok, h1]
  rw [uadd_ok (by omega)]
  simp only [Res.bind_ok]
  rw [uadd_ok (by omega)]
  simp only [Res.bind_ok]
  by_cases h : (id ++ indefOctets ++ c).length ≤ t.isizeMax
  · rw [if_pos h, bufReserve_ok hw (by omega)]
    simp only [Res.bind_ok]
    rw [if_neg (by omega)]
    have e : id.length + 1 + c.length - (id ++ indefOctets).length = c.length := by simp [h1]
    have e2 : (id ++ indefOctets ++ junkCells junk c.length).take (id.length + 1 + c.length) = id ++ indefOctets ++ junkCells junk c.length := by
      rw [List.take_of_length_le]
      simp [junkCells_length, h1]; omega
    simp only [e, e2, Res.pure_eq, Res.bind_ok, copyContents, disassemble_indef hid]
    rw [if_pos (junkCells_length _ _)]
    simp only [Res.pure_eq, Res.ok.injEq]
    have : (id ++ indefOctets ++ junkCells junk c.length).length - (junkCells junk c.length).length = (id ++ indefOctets).length := by simp; omega
    rw [this, List.take_left' rfl]
  · rw [if_neg h, bufReserve_over (by omega) (by omega)]
    rfl

/-! ### Iterators -/

theorem sumLen_eq (m : Build) : ∀ (parts : List Bytes) (acc : Nat), acc < t.usizeSize →
    t.sumLen m parts acc = if acc + parts.flatten.length < t.usizeSize then .ok (acc + parts.flatten.length)
      else match m with
        | .debug => .panic
        | .release => .ok ((acc + parts.flatten.length) % t.usizeSize)
  | [], acc, h => by simp [sumLen, h]
  | p :: r, acc, h => by
    have hpos : 0 < t.usizeSize := by omega
    rw [sumLen, List.flatten_cons, List.length_append, ← Nat.add_assoc]
    unfold uadd
    by_cases h1 : acc + p.length < t.usizeSize
    · rw [if_pos h1, Res.bind_ok, sumLen_eq m r _ h1]
    · rw [if_neg h1, if_neg (by omega)]
      cases m with
      | debug => rfl
      | release =>
        simp only [Res.bind_ok]
        rw [sumLen_eq .release r _ (Nat.mod_lt _ hpos), Nat.mod_add_mod]
        split
        · next h2 => rw [← Nat.mod_add_mod (acc + p.length), Nat.mod_eq_of_lt h2]
        · rfl

theorem extendAll_over (cap : Nat) : ∀ (parts : List Bytes) (b : Bytes), b.length ≤ cap → cap < b.length + parts.flatten.length →
    Der.extendAll cap parts b = .ub
  | [], b, h1, h2 => by simp at h2; omega
  | p :: r, b, h1, h2 => by
    simp only [List.flatten_cons, List.length_append] at h2
    rw [Der.extendAll]
    split
    · rfl
    · exact extendAll_over cap r _ (by rw [List.length_append]; omega) (by rw [List.length_append]; omega)

end Bsn1.Target
