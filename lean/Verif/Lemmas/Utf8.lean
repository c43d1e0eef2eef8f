import Verif.Spec.Utf8
import Verif.Lemmas.DeTy
/-!
# The strings of Lean are encoded by RFC 3629
-/

namespace Bsn1
open Bsn1.Spec

theorem utf8Char_encode (c : Char) : Utf8Char (String.utf8EncodeChar c) c.toNat := by
  have hv : c.toNat < 0xd800 ∨ 0xdfff < c.toNat ∧ c.toNat < 0x110000 := c.valid
  rw [String.utf8EncodeChar]
  change Utf8Char (if c.toNat ≤ 0x7f then _ else _) _
  generalize hn : c.toNat = n at *
  have hn' : c.val.toNat = n := hn
  rw [hn']
  split
  · have h := Utf8Char.one (UInt8.ofNat n) (by simp; omega)
    rwa [show (UInt8.ofNat n).toNat = n by simp; omega] at h
  · split
    · have h := Utf8Char.two (UInt8.ofNat (n / 64 % 0x20 + 0xc0)) (UInt8.ofNat (n % 0x40 + 0x80)) (by simp; omega) (by simp; omega)
        ⟨by simp; omega, by simp; omega⟩
      have e : ((UInt8.ofNat (n / 64 % 0x20 + 0xc0)).toNat - 0xc0) * 0x40 + ((UInt8.ofNat (n % 0x40 + 0x80)).toNat - 0x80) = n := by
        simp; omega
      rwa [e] at h
    · split
      · have h := Utf8Char.three (UInt8.ofNat (n / 4096 % 0x10 + 0xe0)) (UInt8.ofNat (n / 64 % 0x40 + 0x80))
          (UInt8.ofNat (n % 0x40 + 0x80)) (by simp; omega) (by simp; omega) ⟨by simp; omega, by simp; omega⟩ (by simp; omega)
          (by simp; omega) ⟨by simp; omega, by simp; omega⟩
        have e : ((UInt8.ofNat (n / 4096 % 0x10 + 0xe0)).toNat - 0xe0) * 0x1000 +
            ((UInt8.ofNat (n / 64 % 0x40 + 0x80)).toNat - 0x80) * 0x40 + ((UInt8.ofNat (n % 0x40 + 0x80)).toNat - 0x80) = n := by
          simp; omega
        rwa [e] at h
      · have h := Utf8Char.four (UInt8.ofNat (n / 262144 % 0x08 + 0xf0)) (UInt8.ofNat (n / 4096 % 0x40 + 0x80))
          (UInt8.ofNat (n / 64 % 0x40 + 0x80)) (UInt8.ofNat (n % 0x40 + 0x80)) (by simp; omega) (by simp; omega)
          ⟨by simp; omega, by simp; omega⟩ (by simp; omega) (by simp; omega) ⟨by simp; omega, by simp; omega⟩
          ⟨by simp; omega, by simp; omega⟩
        have e : ((UInt8.ofNat (n / 262144 % 0x08 + 0xf0)).toNat - 0xf0) * 0x40000 +
            ((UInt8.ofNat (n / 4096 % 0x40 + 0x80)).toNat - 0x80) * 0x1000 +
            ((UInt8.ofNat (n / 64 % 0x40 + 0x80)).toNat - 0x80) * 0x40 + ((UInt8.ofNat (n % 0x40 + 0x80)).toNat - 0x80) = n := by
          simp; omega
        rwa [e] at h

/-- The octets of a code point are determined by it. -/
theorem utf8Char_inj {s s' : Bytes} {n : Nat} (h : Utf8Char s n) (h' : Utf8Char s' n) : s = s' := by
  have key : ∀ a b : UInt8, a.toNat = b.toNat → a = b := fun _ _ => UInt8.toNat_inj.mp
  cases h with
  | one a ha =>
    generalize hn : a.toNat = n at h'
    cases h' with
    | one b hb => rw [key a b (by omega)]
    | two b c h1 h2 h3 => obtain ⟨h3, h4⟩ := h3; omega
    | three b c d h1 h2 h3 h4 h5 h6 => obtain ⟨h3, h3'⟩ := h3; obtain ⟨h6, h6'⟩ := h6; omega
    | four b c d e h1 h2 h3 h4 h5 h6 h7 =>
      obtain ⟨h3, h3'⟩ := h3; obtain ⟨h6, h6'⟩ := h6; obtain ⟨h7, h7'⟩ := h7; omega
  | two a b g1 g2 g3 =>
    obtain ⟨g3, g3'⟩ := g3
    generalize hn : (a.toNat - 0xc0) * 0x40 + (b.toNat - 0x80) = n at h'
    cases h' with
    | one b hb => omega
    | two a' b' h1 h2 h3 =>
      obtain ⟨h3, h4⟩ := h3
      rw [key a a' (by omega), key b b' (by omega)]
    | three b c d h1 h2 h3 h4 h5 h6 => obtain ⟨h3, h3'⟩ := h3; obtain ⟨h6, h6'⟩ := h6; omega
    | four b c d e h1 h2 h3 h4 h5 h6 h7 =>
      obtain ⟨h3, h3'⟩ := h3; obtain ⟨h6, h6'⟩ := h6; obtain ⟨h7, h7'⟩ := h7; omega
  | three a b c g1 g2 g3 g4 g5 g6 =>
    obtain ⟨g3, g3'⟩ := g3
    obtain ⟨g6, g6'⟩ := g6
    generalize hn : (a.toNat - 0xe0) * 0x1000 + (b.toNat - 0x80) * 0x40 + (c.toNat - 0x80) = n at h'
    cases h' with
    | one b hb => omega
    | two a' b' h1 h2 h3 => obtain ⟨h3, h4⟩ := h3; omega
    | three a' b' c' h1 h2 h3 h4 h5 h6 =>
      obtain ⟨h3, h3'⟩ := h3; obtain ⟨h6, h6'⟩ := h6
      rw [key a a' (by omega), key b b' (by omega), key c c' (by omega)]
    | four b c d e h1 h2 h3 h4 h5 h6 h7 =>
      obtain ⟨h3, h3'⟩ := h3; obtain ⟨h6, h6'⟩ := h6; obtain ⟨h7, h7'⟩ := h7; omega
  | four a b c d g1 g2 g3 g4 g5 g6 g7 =>
    obtain ⟨g3, g3'⟩ := g3
    obtain ⟨g6, g6'⟩ := g6
    obtain ⟨g7, g7'⟩ := g7
    generalize hn : (a.toNat - 0xf0) * 0x40000 + (b.toNat - 0x80) * 0x1000 + (c.toNat - 0x80) * 0x40 + (d.toNat - 0x80) = n at h'
    cases h' with
    | one b hb => omega
    | two a' b' h1 h2 h3 => obtain ⟨h3, h4⟩ := h3; omega
    | three a' b' c' h1 h2 h3 h4 h5 h6 => obtain ⟨h3, h3'⟩ := h3; obtain ⟨h6, h6'⟩ := h6; omega
    | four a' b' c' d' h1 h2 h3 h4 h5 h6 h7 =>
      obtain ⟨h3, h3'⟩ := h3; obtain ⟨h6, h6'⟩ := h6; obtain ⟨h7, h7'⟩ := h7
      rw [key a a' (by omega), key b b' (by omega), key c c' (by omega), key d d' (by omega)]

/-- Every code point with octets is a character. -/
theorem utf8Char_valid {s : Bytes} {n : Nat} (h : Utf8Char s n) : n.isValidChar := by
  change n < 0xd800 ∨ 0xdfff < n ∧ n < 0x110000
  cases h with
  | one a ha => omega
  | two a b g1 g2 g3 => obtain ⟨g3, g3'⟩ := g3; omega
  | three a b c g1 g2 g3 g4 g5 g6 => obtain ⟨g3, g3'⟩ := g3; obtain ⟨g6, g6'⟩ := g6; omega
  | four a b c d g1 g2 g3 g4 g5 g6 g7 => obtain ⟨g3, g3'⟩ := g3; obtain ⟨g6, g6'⟩ := g6; obtain ⟨g7, g7'⟩ := g7; omega

theorem utf8Char_char {s : Bytes} {n : Nat} (h : Utf8Char s n) : ∃ c : Char, c.toNat = n ∧ String.utf8EncodeChar c = s := by
  have e : (Char.ofNat n).toNat = n := by
    rw [Char.ofNat, dif_pos (utf8Char_valid h)]; rfl
  have := utf8Char_encode (Char.ofNat n)
  rw [e] at this
  exact ⟨Char.ofNat n, e, utf8Char_inj this h⟩

theorem utf8_encode : ∀ l : List Char, Utf8 (l.flatMap String.utf8EncodeChar) (l.map Char.toNat)
  | [] => .nil
  | c :: l => .cons (utf8Char_encode c) (utf8_encode l)

theorem utf8_chars {bs : Bytes} {ns : List Nat} (h : Utf8 bs ns) :
    ∃ l : List Char, l.map Char.toNat = ns ∧ l.flatMap String.utf8EncodeChar = bs := by
  induction h with
  | nil => exact ⟨[], rfl, rfl⟩
  | cons hc _ ih =>
    obtain ⟨l, h1, h2⟩ := ih
    obtain ⟨c, h3, h4⟩ := utf8Char_char hc
    exact ⟨c :: l, by simp [h1, h3], by simp [h2, h4]⟩

theorem charToNat_inj : Function.Injective Char.toNat := fun a b h => by
  apply Char.ext
  exact UInt32.toNat_inj.mp h

theorem toOctets_eq (s : String) : s.toByteArray.data.toList = s.toList.flatMap String.utf8EncodeChar := by
  have h : s.toByteArray = s.toList.utf8Encode := by
    conv_lhs => rw [← String.ofList_toList (s := s)]
    exact String.toByteArray_ofList
  rw [h]
  simp [List.utf8Encode]

/-- The octets of a string are those of RFC 3629, and no others are. -/
theorem utf8_iff (bs : Bytes) (s : String) : bs = s.toByteArray.data.toList ↔ Utf8 bs (s.toList.map Char.toNat) := by
  rw [toOctets_eq]
  constructor
  · rintro rfl; exact utf8_encode _
  · intro h
    obtain ⟨l, h1, h2⟩ := utf8_chars h
    rw [← h2, charToNat_inj.list_map h1]

theorem utf8_string {bs : Bytes} {ns : List Nat} (h : Utf8 bs ns) : ∃ s : String, s.toList.map Char.toNat = ns ∧ bs = s.toByteArray.data.toList := by
  obtain ⟨l, h1, h2⟩ := utf8_chars h
  refine ⟨String.ofList l, by simpa using h1, ?_⟩
  rw [toOctets_eq, String.toList_ofList, h2]

end Bsn1
