import Verif.Props.Der
import Verif.Props.Ber
/-!
# C28, C65: exactly when the constructors panic, leave their buffer, or give a broken value
-/

namespace Bsn1
open Spec

/-- The size of a value with the given identifier and `n` octets of contents. -/
def Spec.totalSize (id : List UInt8) (n : Nat) : Nat := id.length + (lenOctets n).length + n

theorem header_prefix_not_der {id : Bytes} {n : Nat} (hid : IsId id) (hn : n < 2 ^ 64) {k : Nat}
    (hk : k < id.length + (lenOctets n).length) : ¬ IsDer ((id ++ lenOctets n).take k) := by
  rintro ⟨id', c', h1, h2, e⟩
  have h3 : tlv id' c' ++ ((id ++ lenOctets n).drop k ++ List.replicate n 0) = tlv id (List.replicate n 0) ++ [] := by
    rw [← List.append_assoc, ← e, List.take_append_drop, tlv, List.length_replicate, List.append_nil]
  have h4 := (tlv_prefix_free h1 hid h2 (by rw [List.length_replicate]; exact hn) h3).2
  have h5 := congrArg List.length (List.append_eq_nil_iff.1 h4).1
  rw [List.length_drop, List.length_append] at h5
  simp only [List.length_nil] at h5
  omega

/-- **C28 and C65, exactly, `Der::with_id_length`.** The size of the whole value counts: the result is a DER value exactly if it is at most
`isize::MAX`; above, debug builds panic; release builds panic below `2^64`, write outside of the buffer if it is larger and the identifier and
length octets are more than 23, and else return octets that are not a DER value. -/
theorem C28_with_id_length_iff (m : Build) (junk : Nat → UInt8) (id : Bytes) (n : Nat) (hid : IsId id) (hidl : id.length + 16 ≤ isizeMax)
    (hn : n < 2 ^ 64) :
    ((∃ d, Der.withIdLength m junk id n = .ok d ∧ IsDer d) ↔ totalSize id n ≤ isizeMax) ∧
    (Der.withIdLength m junk id n = .panic ↔ isizeMax < totalSize id n ∧ (m = .debug ∨ totalSize id n < 2 ^ 64)) ∧
    (Der.withIdLength m junk id n = .ub ↔ m = .release ∧ 2 ^ 64 ≤ totalSize id n ∧ 23 < id.length + (lenOctets n).length) := by
  have hi := isizeMax_eq
  have hu := usizeSize_eq
  have hc : initCapacity = 23 := rfl
  rw [totalSize]
  by_cases h1 : id.length + (lenOctets n).length + n ≤ isizeMax
  · have e := withIdLength_ok m junk id n h1
    rw [e]
    refine ⟨iff_of_true ⟨_, rfl, id, junkCells junk n, hid, by rw [junkCells_length]; omega, ?_⟩ h1,
      iff_of_false (nomatch ·) (by omega), iff_of_false (nomatch ·) (by omega)⟩
    rw [tlv, junkCells_length]
  · by_cases h2 : m = .debug ∨ id.length + (lenOctets n).length + n < 2 ^ 64
    · have e : Der.withIdLength m junk id n = .panic := by
        by_cases h3 : id.length + (lenOctets n).length + n < 2 ^ 64
        · exact C28_with_id_length_partial m junk id n hn (by omega) h3
        · obtain rfl := h2.resolve_right h3
          exact C28_with_id_length_debug junk id n (by omega) hn (by omega)
      rw [e]
      refine ⟨iff_of_false (fun ⟨_, h, _⟩ => nomatch h) h1, iff_of_true rfl ⟨by omega, h2⟩, iff_of_false (nomatch ·) ?_⟩
      rintro ⟨rfl, h3, _⟩
      rcases h2 with h2 | h2
      · exact nomatch h2
      · omega
    · obtain ⟨h3, h4⟩ := not_or.1 h2
      obtain rfl : m = .release := by cases m <;> [exact absurd rfl h3; rfl]
      rw [withIdLength_wrap junk id n hidl hn (by omega)]
      have h5 : max (id.length + (lenOctets n).length + n - usizeSize) initCapacity < id.length + (lenOctets n).length ↔
          23 < id.length + (lenOctets n).length := by omega
      by_cases h6 : 23 < id.length + (lenOctets n).length
      · rw [if_pos (h5.2 h6)]
        exact ⟨iff_of_false (fun ⟨_, h, _⟩ => nomatch h) h1, iff_of_false (nomatch ·) (fun h => h2 h.2),
          iff_of_true rfl ⟨rfl, by omega, h6⟩⟩
      · rw [if_neg (fun h => h6 (h5.1 h))]
        refine ⟨iff_of_false ?_ h1, iff_of_false (nomatch ·) (fun h => h2 h.2), iff_of_false (nomatch ·) (fun h => h6 h.2.2)⟩
        rintro ⟨d, h, hd⟩
        rw [← Res.ok.inj h] at hd
        exact header_prefix_not_der hid hn (by omega) hd

/-- Each of the four cases occurs. -/
example : totalSize [0x02] 5 ≤ isizeMax ∧ (isizeMax < totalSize [0x02] (2 ^ 63) ∧ totalSize [0x02] (2 ^ 63) < 2 ^ 64) ∧
    2 ^ 64 ≤ totalSize [0x02] (2 ^ 64 - 1) ∧ ¬ 23 < ([0x02] : Bytes).length + (lenOctets (2 ^ 64 - 1)).length ∧
    2 ^ 64 ≤ totalSize longId (2 ^ 64 - 1) ∧ 23 < longId.length + (lenOctets (2 ^ 64 - 1)).length := by
  have hi := isizeMax_eq
  have h1 : (lenOctets (2 ^ 64 - 1)).length = 9 := by rw [lenOctets_max]; rfl
  have h2 : longId.length = 15 := rfl
  have h3 : ([0x02] : Bytes).length = 1 := rfl
  have h4 := lenOctets_length_le (n := 2 ^ 63) (by omega)
  have h5 := lenOctets_length_le (n := 5) (by omega)
  simp only [totalSize]
  omega

theorem extendAll_eq (cap : Nat) : ∀ (parts : List Bytes) (b : Bytes), b.length ≤ cap →
    Der.extendAll cap parts b = if cap < b.length + parts.flatten.length then .ub else .ok (b ++ parts.flatten)
  | [], b, h => by simp [Der.extendAll]; omega
  | p :: r, b, h => by
    rw [Der.extendAll]
    by_cases h1 : cap < b.length + p.length
    · rw [if_pos h1, if_pos (by rw [List.flatten_cons, List.length_append]; omega)]
    · rw [if_neg h1, extendAll_eq cap r _ (by rw [List.length_append]; omega), List.flatten_cons, List.length_append, List.length_append,
        Nat.add_assoc, List.append_assoc]

theorem uadd_release (a b : Nat) : uadd .release a b = .ok ((a + b) % usizeSize) := by
  rw [uadd]
  by_cases h : a + b < usizeSize
  · rw [if_pos h, Nat.mod_eq_of_lt h]
  · rw [if_neg h]

theorem bufReserve_release {n : Nat} (h : n < usizeSize) : bufReserve .release 0 n = if n ≤ isizeMax then .ok n else .panic := by
  rw [bufReserve, uadd_ok (by omega), Res.bind_ok, Nat.zero_add]
  rfl

/-- The end of the two `from_id_iterator` functions in release builds: `H` are the identifier and length octets, `S` is the true size of the
contents and `L` the computed one. -/
theorem iterator_release (id lb : Bytes) (parts : List Bytes) (hh : id.length + lb.length ≤ isizeMax) :
    ((do
      let t ← uadd .release id.length lb.length
      let totalLen ← uadd .release t (parts.flatten.length % usizeSize)
      let cap ← bufReserve .release 0 totalLen
      let cap := max cap initCapacity
      Der.extendAll cap (id :: lb :: parts) []) : Res Bytes) =
      if isizeMax < (id.length + lb.length + parts.flatten.length) % usizeSize then .panic
      else if id.length + lb.length + parts.flatten.length ≤ isizeMax then .ok (id ++ lb ++ parts.flatten) else .ub := by
  have hi := isizeMax_eq
  have hu := usizeSize_eq
  have hc : initCapacity = 23 := rfl
  have e1 : (id.length + lb.length) % usizeSize = id.length + lb.length := Nat.mod_eq_of_lt (by omega)
  simp only [uadd_release, Res.bind_ok, e1, Nat.add_mod_mod]
  have hT := Nat.mod_lt (id.length + lb.length + parts.flatten.length) (show 0 < usizeSize by omega)
  rw [bufReserve_release hT]
  by_cases h1 : (id.length + lb.length + parts.flatten.length) % usizeSize ≤ isizeMax
  · rw [if_pos h1, if_neg (by omega), Res.bind_ok, extendAll_eq _ _ _ (Nat.zero_le _)]
    simp only [List.flatten_cons, List.length_append, List.length_nil, Nat.zero_add, List.nil_append]
    by_cases h2 : id.length + lb.length + parts.flatten.length ≤ isizeMax
    · have e2 : (id.length + lb.length + parts.flatten.length) % usizeSize = id.length + lb.length + parts.flatten.length :=
        Nat.mod_eq_of_lt (by omega)
      rw [if_pos h2, e2, if_neg (by omega), List.append_assoc]
    · rw [if_neg h2, if_pos]
      have h3 := Nat.mod_lt (id.length + lb.length + parts.flatten.length) (show 0 < usizeSize by omega)
      by_cases h4 : id.length + lb.length + parts.flatten.length < usizeSize
      · rw [Nat.mod_eq_of_lt h4] at h1
        omega
      · omega
  · rw [if_neg h1, if_pos (by omega), Res.bind_panic]

/-- **C65, exactly, `Der::from_id_iterator` in release builds.** `S` is the size of all parts.  The length octets are those of `S` modulo `2^64`; the
function panics if the size of the whole, modulo `2^64`, is more than `isize::MAX`; otherwise the result is the value if its true size is at most
`isize::MAX`, and if not the function writes outside of its buffer. -/
theorem C65_from_id_iterator_iff (id : Bytes) (parts : List Bytes) (hidl : id.length + 16 ≤ isizeMax) (S : Nat)
    (hS : S = parts.flatten.length) (H : Nat) (hH : H = id.length + (lenOctets (S % 2 ^ 64)).length) :
    (Der.fromIdIterator .release id parts = .panic ↔ isizeMax < (H + S) % 2 ^ 64) ∧
    (Der.fromIdIterator .release id parts = .ub ↔ (H + S) % 2 ^ 64 ≤ isizeMax ∧ isizeMax < H + S) ∧
    (H + S ≤ isizeMax → Der.fromIdIterator .release id parts = .ok (tlv id parts.flatten)) := by
  have hi := isizeMax_eq
  have hu := usizeSize_eq
  subst hS hH
  have hL : parts.flatten.length % 2 ^ 64 < 2 ^ 64 := Nat.mod_lt _ (by norm_num)
  have hl9 := lenOctets_length_le hL
  have e : Der.fromIdIterator .release id parts =
      if isizeMax < (id.length + (lenOctets (parts.flatten.length % 2 ^ 64)).length + parts.flatten.length) % usizeSize then .panic
      else if id.length + (lenOctets (parts.flatten.length % 2 ^ 64)).length + parts.flatten.length ≤ isizeMax
        then .ok (id ++ lenOctets (parts.flatten.length % 2 ^ 64) ++ parts.flatten) else .ub := by
    rw [← iterator_release id _ parts (by omega), Der.fromIdIterator, sumLen_release _ 0 (by omega), Res.bind_ok, Nat.zero_add, hu,
      toBytes_definite hL, Res.bind_ok]
  rw [e, hu]
  generalize hh : id.length + (lenOctets (parts.flatten.length % 2 ^ 64)).length = H at *
  by_cases h1 : isizeMax < (H + parts.flatten.length) % 2 ^ 64
  · rw [if_pos h1]
    refine ⟨iff_of_true rfl h1, iff_of_false (nomatch ·) (by omega), fun h => ?_⟩
    rw [Nat.mod_eq_of_lt (by omega)] at h1
    omega
  · rw [if_neg h1]
    by_cases h2 : H + parts.flatten.length ≤ isizeMax
    · rw [if_pos h2]
      refine ⟨iff_of_false (nomatch ·) h1, iff_of_false (nomatch ·) (by omega), fun _ => ?_⟩
      rw [tlv, Nat.mod_eq_of_lt (by omega)]
    · rw [if_neg h2]
      exact ⟨iff_of_false (nomatch ·) h1, iff_of_true rfl ⟨by omega, by omega⟩, fun h => absurd h h2⟩

/-- Parts of `2^64` octets (the same slice may be yielded over and over): the function writes outside of its buffer; with `2^63`: it panics. -/
example : Der.fromIdIterator .release [0x04] [List.replicate (2 ^ 64) 0] = .ub ∧
    Der.fromIdIterator .release [0x04] [List.replicate (2 ^ 63) 0] = .panic := by
  have hi := isizeMax_eq
  have h0 : ([0x04] : Bytes).length = 1 := rfl
  have h1 := (C65_from_id_iterator_iff [0x04] [List.replicate (2 ^ 64) 0] (by omega) _ rfl _ rfl).2.1
  have h2 := (C65_from_id_iterator_iff [0x04] [List.replicate (2 ^ 63) 0] (by omega) _ rfl _ rfl).1
  simp only [List.flatten_cons, List.flatten_nil, List.append_nil, List.length_replicate] at h1 h2
  have h3 := lenOctets_length_le (n := 2 ^ 64 % 2 ^ 64) (by omega)
  have h4 := lenOctets_length_le (n := 2 ^ 63 % 2 ^ 64) (by omega)
  exact ⟨h1.2 (by omega), h2.2 (by omega)⟩

/-- **C65, exactly, `Ber::from_id_iterator_indefinite` in release builds.** -/
theorem C65_from_id_iterator_indefinite_iff (id : Bytes) (parts : List Bytes) (hidl : id.length + 16 ≤ isizeMax) (T : Nat)
    (hT : T = id.length + 1 + parts.flatten.length) :
    (Ber.fromIdIteratorIndefinite .release id parts = .panic ↔ isizeMax < T % 2 ^ 64) ∧
    (Ber.fromIdIteratorIndefinite .release id parts = .ub ↔ T % 2 ^ 64 ≤ isizeMax ∧ isizeMax < T) ∧
    (T ≤ isizeMax → Ber.fromIdIteratorIndefinite .release id parts = .ok (id ++ indefOctets ++ parts.flatten)) := by
  have hi := isizeMax_eq
  have hu := usizeSize_eq
  have hb : Length.indefinite.toBytes = .ok indefOctets := rfl
  have hl : indefOctets.length = 1 := rfl
  have e : Ber.fromIdIteratorIndefinite .release id parts = if isizeMax < T % usizeSize then .panic
      else if T ≤ isizeMax then .ok (id ++ indefOctets ++ parts.flatten) else .ub := by
    have h := iterator_release id indefOctets parts (by omega)
    rw [hl, ← hT] at h
    rw [← h, Ber.fromIdIteratorIndefinite, sumLen_release _ 0 (by omega), Res.bind_ok, Nat.zero_add, hb, Res.bind_ok, hl]
  rw [e, hu]
  by_cases h1 : isizeMax < T % 2 ^ 64
  · rw [if_pos h1]
    refine ⟨iff_of_true rfl h1, iff_of_false (nomatch ·) (by omega), fun h => ?_⟩
    rw [Nat.mod_eq_of_lt (by omega)] at h1
    omega
  · rw [if_neg h1]
    by_cases h2 : T ≤ isizeMax
    · rw [if_pos h2]
      exact ⟨iff_of_false (nomatch ·) h1, iff_of_false (nomatch ·) (by omega), fun _ => rfl⟩
    · rw [if_neg h2]
      exact ⟨iff_of_false (nomatch ·) h1, iff_of_true rfl ⟨by omega, by omega⟩, fun h => absurd h h2⟩

example : Ber.fromIdIteratorIndefinite .release [0x30] [List.replicate (2 ^ 64) 0] = .ub ∧
    Ber.fromIdIteratorIndefinite .release [0x30] [List.replicate (2 ^ 63) 0] = .panic := by
  have hi := isizeMax_eq
  have h0 : ([0x30] : Bytes).length = 1 := rfl
  have h1 := (C65_from_id_iterator_indefinite_iff [0x30] [List.replicate (2 ^ 64) 0] (by omega) _ rfl).2.1
  have h2 := (C65_from_id_iterator_indefinite_iff [0x30] [List.replicate (2 ^ 63) 0] (by omega) _ rfl).1
  simp only [List.flatten_cons, List.flatten_nil, List.append_nil, List.length_replicate] at h1 h2
  exact ⟨h1.2 (by omega), h2.2 (by omega)⟩

/-- **C65, exactly, `Ber::with_id_length_indefinite`.** -/
theorem C65_with_id_length_indefinite_iff (m : Build) (junk : Nat → UInt8) (id : Bytes) (n : Nat) (hidl : id.length + 16 ≤ isizeMax)
    (hn : n < 2 ^ 64) :
    (Ber.withIdLengthIndefinite m junk id n = .panic ↔
      isizeMax < id.length + 1 + n ∧ (m = .debug ∨ id.length + 1 + n < 2 ^ 64)) ∧
    (Ber.withIdLengthIndefinite m junk id n = .ub ↔ m = .release ∧ 2 ^ 64 ≤ id.length + 1 + n ∧ 23 < id.length + 1) ∧
    (id.length + 1 + n ≤ isizeMax → Ber.withIdLengthIndefinite m junk id n = .ok (id ++ indefOctets ++ junkCells junk n)) := by
  have hi := isizeMax_eq
  have hu := usizeSize_eq
  have hc : initCapacity = 23 := rfl
  have hb : Length.indefinite.toBytes = .ok indefOctets := rfl
  have hl : indefOctets.length = 1 := rfl
  rw [Ber.withIdLengthIndefinite, hb]
  simp only [Res.bind_ok, hl]
  rw [uadd_ok (by omega), Res.bind_ok]
  by_cases h0 : id.length + 1 + n < 2 ^ 64
  · rw [uadd_ok (by omega), Res.bind_ok]
    by_cases h1 : id.length + 1 + n ≤ isizeMax
    · rw [bufReserve_ok (by omega), Res.bind_ok, if_neg (by omega)]
      refine ⟨iff_of_false (nomatch ·) (by omega), iff_of_false (nomatch ·) (by omega), fun _ => ?_⟩
      have e : id.length + 1 + n - (id ++ indefOctets).length = n := by rw [List.length_append, hl]; omega
      rw [e, List.take_of_length_le (by rw [List.length_append, junkCells_length, List.length_append, hl])]
      rfl
    · rw [bufReserve_panic (by omega) (by omega), Res.bind_panic]
      exact ⟨iff_of_true rfl ⟨by omega, .inr h0⟩, iff_of_false (nomatch ·) (by omega), fun h => absurd h h1⟩
  · cases m with
    | debug =>
      rw [uadd, if_neg (by omega)]
      exact ⟨iff_of_true rfl ⟨by omega, .inl rfl⟩, iff_of_false (nomatch ·) (fun h => nomatch h.1), fun h => by omega⟩
    | release =>
      rw [uadd_wrap (by omega) (by omega), Res.bind_ok, bufReserve_ok (by omega), Res.bind_ok]
      by_cases h2 : 23 < id.length + 1
      · rw [if_pos (by omega)]
        exact ⟨iff_of_false (nomatch ·) (fun h => h.2.elim (nomatch ·) (by omega)), iff_of_true rfl ⟨rfl, by omega, h2⟩, fun h => by omega⟩
      · rw [if_neg (by omega)]
        exact ⟨iff_of_false (nomatch ·) (fun h => h.2.elim (nomatch ·) (by omega)), iff_of_false (nomatch ·) (fun h => h2 h.2.2),
          fun h => by omega⟩

/-- The hypotheses are met by an identifier of 23 octets and the largest length, which writes outside of the buffer. -/
example : Ber.withIdLengthIndefinite .release (fun _ => 0) (0x3f :: (List.replicate 21 0x81 ++ [0x01])) (2 ^ 64 - 1) = .ub := by
  have hi := isizeMax_eq
  have hl : (0x3f :: (List.replicate 21 0x81 ++ [0x01]) : Bytes).length = 23 := by decide
  exact (C65_with_id_length_indefinite_iff .release _ _ _ (by omega) (by omega)).2.1.2 ⟨rfl, by omega, by omega⟩

end Bsn1
