import Verif.Model.OctetString
import Verif.Lemmas.Utf8
import Verif.Props.Convert
import Verif.Props.Hash
import Verif.Props.Trap
/-!
# C88: text and octet strings convert without loss
-/

namespace Bsn1
open Bsn1.Spec

/-! ### Which octets are text -/

theorem tryIntoString_ok (x : OctetString) (s : String) : x.tryIntoString = .ok s ↔ strFromUtf8 x.intoVec = .ok s := by
  rw [OctetString.tryIntoString, strFromUtf8]
  cases String.fromUTF8? ⟨x.intoVec.toArray⟩ <;> simp

theorem intoVec_eq_asRef (x : OctetString) : x.intoVec = x.asRef := by
  obtain ⟨c⟩ := x; cases c <;> rfl

/-- **C88.** `String::try_from` of an octet string gives the text whose code points the octets encode by the table of RFC 3629; if there are no
such code points, and only then, it fails, and gives the octets back. -/
theorem C88_try_from (x : OctetString) :
    (∀ s, x.tryIntoString = .ok s ↔ Utf8 x.asRef (s.toList.map Char.toNat)) ∧
    (∀ b, x.tryIntoString = .error b ↔ b = x.asRef ∧ ∀ ns, ¬ Utf8 x.asRef ns) := by
  have h1 : ∀ s, x.tryIntoString = .ok s ↔ Utf8 x.asRef (s.toList.map Char.toNat) := by
    intro s
    rw [tryIntoString_ok, strFromUtf8_iff, intoVec_eq_asRef, utf8_iff]
  refine ⟨h1, fun b => ?_⟩
  constructor
  · intro h
    refine ⟨?_, fun ns hn => ?_⟩
    · rw [OctetString.tryIntoString] at h
      split at h
      · cases h
      · cases h; exact intoVec_eq_asRef x
    · obtain ⟨s, hs, hb⟩ := utf8_string hn
      rw [(h1 s).mpr (hs ▸ hn)] at h
      cases h
  · rintro ⟨rfl, h⟩
    cases e : x.tryIntoString with
    | ok s => exact absurd ((h1 s).mp e) (h _)
    | error b =>
      rw [OctetString.tryIntoString] at e
      split at e
      · cases e
      · cases e; rw [intoVec_eq_asRef]

example : Utf8 [0x41, 0xc3, 0xa9, 0xe2, 0x82, 0xac, 0xf0, 0x9f, 0xa6, 0x80] ("Aé€🦀".toList.map Char.toNat) :=
  (utf8_iff _ _).mp (by decide +kernel)

/-- Surrogates, the longer spellings and values above 10FFFF are not text. -/
example : ∀ bs ∈ ([[0xed, 0xa0, 0x80], [0xc0, 0x80], [0xe0, 0x80, 0x80], [0xf4, 0x90, 0x80, 0x80], [0x80], [0xe2, 0x82]] : List Bytes),
    ∀ ns, ¬ Utf8 bs ns := by
  intro bs hbs
  have hb : (OctetString.fromSlice bs).tryIntoString = .error bs := by
    simp only [List.mem_cons, List.not_mem_nil, or_false] at hbs
    rcases hbs with rfl | rfl | rfl | rfl | rfl | rfl <;> decide +kernel
  exact (((C88_try_from (OctetString.fromSlice bs)).2 bs).mp hb).2

/-- **C88.** The same for `String` as a deserialized type: `from_der` accepts exactly the identifier of UTF8String with contents by the table,
and tells an identifier from contents that are not text. -/
theorem C88_string_der (m : Build) (o : HashOrder) (id c : Bytes) :
    (∀ s, (Ty.de m o .string).fromDer id c = .ok s ↔ id = [0x0c] ∧ Utf8 c (s.toList.map Char.toNat)) ∧
    ((Ty.de m o .string).fromDer id c = .err .unmatchedId ↔ id ≠ [0x0c]) ∧
    ((Ty.de m o .string).fromDer id c = .err .invalidUtf8 ↔ id = [0x0c] ∧ ∀ ns, ¬ Utf8 c ns) := by
  change (∀ s, (if id ≠ [0x0c] then Res.err .unmatchedId else strFromUtf8 c) = _ ↔ _) ∧
    ((if id ≠ [0x0c] then Res.err .unmatchedId else strFromUtf8 c) = _ ↔ _) ∧
    ((if id ≠ [0x0c] then Res.err .unmatchedId else strFromUtf8 c) = _ ↔ _)
  by_cases hid : id = [0x0c]
  · rw [if_neg (by simpa using hid)]
    refine ⟨fun s => ?_, ?_, ?_⟩
    · rw [strFromUtf8_iff, utf8_iff]; simp [hid]
    · simp only [hid, ne_eq, not_true_eq_false, iff_false]
      rw [strFromUtf8]; split <;> simp
    · simp only [hid, true_and]
      constructor
      · intro h ns hn
        obtain ⟨s, hs, hb⟩ := utf8_string hn
        rw [(strFromUtf8_iff c s).mpr hb] at h
        cases h
      · intro h
        rw [strFromUtf8]
        split
        · rename_i s hs
          have : strFromUtf8 c = .ok s := by rw [strFromUtf8, hs]
          exact absurd ((utf8_iff c s).mp ((strFromUtf8_iff c s).mp this)) (h _)
        · rfl
  · rw [if_pos hid]
    simp [hid]

example (m : Build) (o : HashOrder) : (Ty.de m o .string).fromDer [0x0c] [0x61, 0xc3] = .err .invalidUtf8 ∨ ∃ ns, Utf8 [0x61, 0xc3] ns := by
  by_cases h : ∃ ns, Utf8 [0x61, 0xc3] ns
  · exact .inr h
  · exact .inl ((C88_string_der m o [0x0c] [0x61, 0xc3]).2.2.mpr ⟨rfl, fun ns hn => h ⟨ns, hn⟩⟩)

/-- **C88.** And from BER of definite length. -/
theorem C88_string_ber (m : Build) (o : HashOrder) (id c : Bytes) (s : String) :
    (Ty.de m o .string).fromBer id (.definite c.length) c = .ok s ↔
      (id = [0x0c] ∨ id = [0x2c]) ∧ Utf8 c (s.toList.map Char.toNat) := by
  rw [← utf8_iff]
  change (if id ≠ [0x0c] ∧ id ≠ [0x2c] then _ else if _ then _ else
    (debugAssert m ((Length.definite c.length).definite? == some c.length) >>= fun _ => strFromUtf8 c)) = _ ↔ _
  have ha : debugAssert m ((Length.definite c.length).definite? == some c.length) = .ok () := by
    cases m <;> simp [debugAssert, Length.definite?]
  rw [guard_ok, if_neg (by simp [Length.eq, Length.isDefinite, Length.definite?]), ha, Res.bind_ok, strFromUtf8_iff, ← not_or, not_not]

example (o : HashOrder) : ∃ s, (Ty.de .debug o .string).fromDer [0x0c] [0xe2, 0x82, 0xac] = .ok s := 
  ⟨"€", ((C88_string_der _ o _ _).1 "€").mpr ⟨rfl, (utf8_iff _ _).mp (by decide +kernel)⟩⟩

/-! ### Octet strings -/

/-- **C88.** What an octet string was made of, and whether it borrows the octets, makes no difference: two with the same octets are equal,
are neither smaller nor larger, hash alike, are written and converted alike by every function; two with different octets are not equal, hash
differently, and are ordered as the octets. -/
theorem C88_only_octets (x y : OctetString) :
    (x.eq y = true ↔ x.asRef = y.asRef) ∧
    (x.hash = y.hash ↔ x.asRef = y.asRef) ∧
    (x.cmp y = .eq ↔ x.asRef = y.asRef) ∧ (x.cmp y = .lt ↔ x.asRef < y.asRef) ∧ (x.cmp y = .gt ↔ y.asRef < x.asRef) ∧
    (x.asRef = y.asRef → x.intoVec = y.intoVec ∧ x.tryIntoString = y.tryIntoString ∧ x.clone.asRef = y.clone.asRef ∧
      ∀ m, toDer m OctetString.ser x = toDer m OctetString.ser y ∧ toBer m OctetString.ser x = toBer m OctetString.ser y ∧
        writeDer m OctetString.ser x = writeDer m OctetString.ser y ∧ writeBer m OctetString.ser x = writeBer m OctetString.ser y ∧
        derLen m OctetString.ser x = derLen m OctetString.ser y) := by
  refine ⟨?_, C85_hash_iff _ _, sliceCmp_eq_iff _ _, sliceCmp_lt_iff _ _, sliceCmp_gt_iff _ _, fun h => ?_⟩
  · rw [OctetString.eq, beq_iff_eq]; rfl
  · have hv : x.intoVec = y.intoVec := by rw [intoVec_eq_asRef, intoVec_eq_asRef, h]
    have hd : x.octets.deref = y.octets.deref := h
    refine ⟨hv, ?_, ?_, fun m => ?_⟩
    · rw [OctetString.tryIntoString, OctetString.tryIntoString, hv]
    · obtain ⟨x⟩ := x; obtain ⟨y⟩ := y
      cases x <;> cases y <;> exact h
    · have h1 : OctetString.ser.writeDerContents x = OctetString.ser.writeDerContents y := by
        change W.writeAll _ = W.writeAll _; rw [hd]
      have h2 : OctetString.ser.derContentsLen x = OctetString.ser.derContentsLen y := by
        change Res.ok (some _) = Res.ok (some _); rw [hd]
      have h3 : OctetString.ser.writeId x = OctetString.ser.writeId y := rfl
      have h4 : OctetString.ser.idLen x = OctetString.ser.idLen y := rfl
      have h5 : writeDer m OctetString.ser x = writeDer m OctetString.ser y := by
        rw [writeDer, writeDer, contentsLen, contentsLen, h1, h2, h3]
      have h6 : toDer m OctetString.ser x = toDer m OctetString.ser y := by
        rw [toDer, toDer, contentsLen, contentsLen, h1, h2, h3, h4]
      refine ⟨h6, h6, h5, h5, ?_⟩
      rw [derLen, derLen, h2, h4]

example : (OctetString.fromStr "ab").asRef = (OctetString.fromVec [0x61, 0x62]).asRef := by decide +kernel

/-- The model of octet strings used elsewhere (by their octets) is this one, through `as_ref` and `from`. -/
theorem octetString_toDer (m : Build) (x : OctetString) : toDer m OctetString.ser x = toDer m Ser.octetString x.asRef := rfl

theorem octetString_parseDer (d : Bytes) (b rest : Bytes) (h : parseDer De.octetString d = (.ok b, rest)) :
    parseDer OctetString.de d = (.ok (.fromVec b), rest) := by
  rw [parseDer] at h ⊢
  generalize DerRef.parse d = q at *
  obtain ⟨r, b'⟩ := q
  cases r with
  | ok der =>
    simp only [Prod.mk.injEq] at h ⊢
    obtain ⟨h1, h2⟩ := h
    refine ⟨?_, h2⟩
    rw [fromDer] at h1 ⊢
    generalize DerRef.disassemble der = q at *
    cases q with
    | ok p =>
      obtain ⟨id, l, c⟩ := p
      simp only [Res.bind_ok] at h1 ⊢
      change (if id ≠ _ then _ else _) = _ at h1
      change (if id ≠ _ then _ else _) = _
      rw [guard_ok] at h1 ⊢
      exact ⟨h1.1, by rw [Res.ok.inj h1.2]; rfl⟩
    | err e => cases h1
    | panic => cases h1
    | ub => cases h1
  | err e => cases h
  | panic => cases h
  | ub => cases h

theorem octetString_parseBer (d : Bytes) (b rest : Bytes) (h : parseBer De.octetString d = (.ok b, rest)) :
    parseBer OctetString.de d = (.ok (.fromVec b), rest) := by
  rw [parseBer] at h ⊢
  generalize BerRef.parse d = q at *
  obtain ⟨r, b'⟩ := q
  cases r with
  | ok der =>
    simp only [Prod.mk.injEq] at h ⊢
    obtain ⟨h1, h2⟩ := h
    refine ⟨?_, h2⟩
    rw [fromBer] at h1 ⊢
    generalize BerRef.disassemble der = q at *
    cases q with
    | ok p =>
      obtain ⟨id, l, c⟩ := p
      simp only [Res.bind_ok] at h1 ⊢
      change (if _ then _ else if _ then _ else _) = _ at h1
      change (if _ then _ else if _ then _ else _) = _
      rw [guard_ok, guard_ok] at h1 ⊢
      exact ⟨h1.1, h1.2.1, by rw [Res.ok.inj h1.2.2]; rfl⟩
    | err e => cases h1
    | panic => cases h1
    | ub => cases h1
  | err e => cases h
  | panic => cases h
  | ub => cases h

/-- **C88.** Octets sent as an octet string arrive: however `x` was made, `to_der` and `to_ber` write one OCTET STRING, from which `parse_der` and
`parse_ber` read an equal octet string, wherever it stands in the input. -/
theorem C88_round_trip (m : Build) (x : OctetString) (hfit : (tlv [0x04] x.asRef).length ≤ isizeMax) :
    ∃ d, toDer m OctetString.ser x = .ok d ∧ toBer m OctetString.ser x = .ok d ∧ d = tlv [0x04] x.asRef ∧
      ∀ rest, (d ++ rest).length ≤ isizeMax → ∃ y, y.asRef = x.asRef ∧ y.eq x = true ∧
        parseDer OctetString.de (d ++ rest) = (.ok y, rest) ∧ parseBer OctetString.de (d ++ rest) = (.ok y, rest) := by
  have hc := C75_bytes m (fun _ => 0) x.asRef hfit
  refine ⟨_, hc.to_der.1, hc.to_der.2, rfl, fun rest hl => ⟨.fromVec x.asRef, rfl, ?_, ?_, ?_⟩⟩
  · exact (C88_only_octets _ _).1.mpr rfl
  · exact octetString_parseDer _ _ _ (hc.back ⟨fun _ l => l, fun _ _ => .refl _⟩ rest hl).1
  · exact octetString_parseBer _ _ _ (hc.back ⟨fun _ l => l, fun _ _ => .refl _⟩ rest hl).2

example (m : Build) := C88_round_trip m (.fromSlice [0x07, 0xff]) (by decide +kernel)

/-- **C88.** Text sent as an octet string arrives: `OctetString::from(text)`, `to_der` or `to_ber`, `parse_der` or `parse_ber`, `String::try_from`
gives the text. -/
theorem C88_text (m : Build) (s : String) (x : OctetString) (hx : x = .fromStr s ∨ x = .fromString s)
    (hfit : (tlv [0x04] s.toByteArray.data.toList).length ≤ isizeMax) :
    ∃ d, toDer m OctetString.ser x = .ok d ∧ toBer m OctetString.ser x = .ok d ∧
      ∀ rest, (d ++ rest).length ≤ isizeMax → ∃ y,
        parseDer OctetString.de (d ++ rest) = (.ok y, rest) ∧ parseBer OctetString.de (d ++ rest) = (.ok y, rest) ∧
        y.tryIntoString = .ok s := by
  have ha : x.asRef = s.toByteArray.data.toList := by rcases hx with rfl | rfl <;> rfl
  obtain ⟨d, h1, h2, -, h3⟩ := C88_round_trip m x (by rw [ha]; exact hfit)
  refine ⟨d, h1, h2, fun rest hl => ?_⟩
  obtain ⟨y, h4, -, h5, h6⟩ := h3 rest hl
  refine ⟨y, h5, h6, ?_⟩
  rw [(C88_try_from y).1 s, h4, ha]
  exact (utf8_iff _ _).mp rfl

example : (tlv [0x04] "Aé€🦀".toByteArray.data.toList).length ≤ isizeMax := by decide +kernel

/-- **C88.** Octets sent as an octet string arrive, whichever way the `OctetString` was made of them: `OctetString::new`, `From<Vec<u8>>` or
`From<&[u8]>`, then `to_der` or `to_ber`, `parse_der` or `parse_ber`, `into_vec`. -/
theorem C88_octets (m : Build) (b : Bytes) (x : OctetString) (hx : x = .new b ∨ x = .fromVec b ∨ x = .fromSlice b)
    (hfit : (tlv [0x04] b).length ≤ isizeMax) :
    x.asRef = b ∧ x.intoVec = b ∧ ∃ d, toDer m OctetString.ser x = .ok d ∧ toBer m OctetString.ser x = .ok d ∧ d = tlv [0x04] b ∧
      ∀ rest, (d ++ rest).length ≤ isizeMax → ∃ y,
        parseDer OctetString.de (d ++ rest) = (.ok y, rest) ∧ parseBer OctetString.de (d ++ rest) = (.ok y, rest) ∧ y.intoVec = b := by
  have ha : x.asRef = b := by rcases hx with rfl | rfl | rfl <;> rfl
  have hv : x.intoVec = b := by rcases hx with rfl | rfl | rfl <;> rfl
  obtain ⟨d, h1, h2, h2', h3⟩ := C88_round_trip m x (by rw [ha]; exact hfit)
  refine ⟨ha, hv, d, h1, h2, by rw [h2', ha], fun rest hl => ?_⟩
  obtain ⟨y, h4, -, h5, h6⟩ := h3 rest hl
  exact ⟨y, h5, h6, by rw [intoVec_eq_asRef, h4, ha]⟩

example := C88_octets .debug [0xff, 0x00, 0x80] (.fromSlice [0xff, 0x00, 0x80]) (.inr (.inr rfl)) (by decide +kernel)

/-! ### Order -/

theorem utf8Char_lt {s s' : Bytes} {n n' : Nat} (h : Utf8Char s n) (h' : Utf8Char s' n') (hn : n < n') (r r' : Bytes) : s ++ r < s' ++ r' := by
  have key : ∀ {a b : UInt8}, a.toNat = b.toNat → a = b := UInt8.toNat_inj.mp
  have step : ∀ (a b : UInt8) (x y : Bytes), (a.toNat < b.toNat ∨ a.toNat = b.toNat ∧ x < y) → a :: x < b :: y := by
    intro a b x y hh
    rw [List.cons_lt_cons_iff]
    exact hh.imp UInt8.lt_iff_toNat_lt.mpr fun ⟨p, q⟩ => ⟨key p, q⟩
  have t2 : ∀ (a b a' b' : UInt8) (x y : Bytes), (a.toNat < a'.toNat ∨ a.toNat = a'.toNat ∧ b.toNat < b'.toNat) →
      a :: b :: x < a' :: b' :: y := fun a b a' b' x y hh => step _ _ _ _ (hh.imp_right fun ⟨p, q⟩ => ⟨p, step _ _ _ _ (.inl q)⟩)
  have t3 : ∀ (a b c a' b' c' : UInt8) (x y : Bytes), (a.toNat < a'.toNat ∨ a.toNat = a'.toNat ∧ (b.toNat < b'.toNat ∨
      b.toNat = b'.toNat ∧ c.toNat < c'.toNat)) → a :: b :: c :: x < a' :: b' :: c' :: y :=
    fun a b c a' b' c' x y hh => step _ _ _ _ (hh.imp_right fun ⟨p, q⟩ => ⟨p, t2 _ _ _ _ _ _ q⟩)
  have t4 : ∀ (a b c d a' b' c' d' : UInt8) (x y : Bytes), (a.toNat < a'.toNat ∨ a.toNat = a'.toNat ∧ (b.toNat < b'.toNat ∨
      b.toNat = b'.toNat ∧ (c.toNat < c'.toNat ∨ c.toNat = c'.toNat ∧ d.toNat < d'.toNat))) →
      a :: b :: c :: d :: x < a' :: b' :: c' :: d' :: y :=
    fun a b c d a' b' c' d' x y hh => step _ _ _ _ (hh.imp_right fun ⟨p, q⟩ => ⟨p, t3 _ _ _ _ _ _ _ _ q⟩)
  cases h with
  | one a ha =>
    cases h' with
    | one b hb => exact step _ _ _ _ (.inl hn)
    | two b c h1 h2 h3 => exact step _ _ _ _ (.inl (by omega))
    | three b c d h1 h2 h3 h4 h5 h6 => exact step _ _ _ _ (.inl (by omega))
    | four b c d e h1 h2 h3 h4 h5 h6 h7 => exact step _ _ _ _ (.inl (by omega))
  | two a b g1 g2 g3 =>
    obtain ⟨g3, g3'⟩ := g3
    cases h' with
    | one b hb => omega
    | two a' b' h1 h2 h3 =>
      obtain ⟨h3, h4⟩ := h3
      exact t2 _ _ _ _ _ _ (by omega)
    | three b c d h1 h2 h3 h4 h5 h6 => exact step _ _ _ _ (.inl (by omega))
    | four b c d e h1 h2 h3 h4 h5 h6 h7 => exact step _ _ _ _ (.inl (by omega))
  | three a b c g1 g2 g3 g4 g5 g6 =>
    obtain ⟨g3, g3'⟩ := g3
    obtain ⟨g6, g6'⟩ := g6
    cases h' with
    | one b hb => omega
    | two a' b' h1 h2 h3 => obtain ⟨h3, h4⟩ := h3; omega
    | three a' b' c' h1 h2 h3 h4 h5 h6 =>
      obtain ⟨h3, h3'⟩ := h3; obtain ⟨h6, h6'⟩ := h6
      exact t3 _ _ _ _ _ _ _ _ (by omega)
    | four b c d e h1 h2 h3 h4 h5 h6 h7 => exact step _ _ _ _ (.inl (by omega))
  | four a b c d g1 g2 g3 g4 g5 g6 g7 =>
    obtain ⟨g3, g3'⟩ := g3
    obtain ⟨g6, g6'⟩ := g6
    obtain ⟨g7, g7'⟩ := g7
    cases h' with
    | one b hb => omega
    | two a' b' h1 h2 h3 => obtain ⟨h3, h4⟩ := h3; omega
    | three a' b' c' h1 h2 h3 h4 h5 h6 => obtain ⟨h3, h3'⟩ := h3; obtain ⟨h6, h6'⟩ := h6; omega
    | four a' b' c' d' h1 h2 h3 h4 h5 h6 h7 =>
      obtain ⟨h3, h3'⟩ := h3; obtain ⟨h6, h6'⟩ := h6; obtain ⟨h7, h7'⟩ := h7
      exact t4 _ _ _ _ _ _ _ _ _ _ (by omega)

theorem utf8Char_ne_nil {s : Bytes} {n : Nat} (h : Utf8Char s n) : s ≠ [] := by cases h <;> simp

theorem append_lt_append (s x y : Bytes) (h : x < y) : s ++ x < s ++ y := by
  induction s with
  | nil => exact h
  | cons a s ih => rw [List.cons_append, List.cons_append, List.cons_lt_cons_iff]; exact .inr ⟨rfl, ih⟩

theorem utf8_lt {b b' : Bytes} {ns ns' : List Nat} (h : Utf8 b ns) (h' : Utf8 b' ns') (hl : ns < ns') : b < b' := by
  induction h generalizing b' ns' with
  | nil =>
    cases h' with
    | nil => exact absurd hl (List.not_lt_nil _)
    | cons hc _ =>
      obtain ⟨a, s, rfl⟩ := List.exists_cons_of_ne_nil (utf8Char_ne_nil hc)
      exact List.nil_lt_cons _ _
  | cons hc _ ih =>
    cases h' with
    | nil => exact absurd hl (List.not_lt_nil _)
    | cons hc' ht' =>
      rw [List.cons_lt_cons_iff] at hl
      rcases hl with hl | ⟨rfl, hl⟩
      · exact utf8Char_lt hc hc' hl _ _
      · rw [utf8Char_inj hc hc']
        exact append_lt_append _ _ _ (ih ht' hl)

/-- **C88.** Octet strings made of text are ordered as the text, code point by code point. -/
theorem C88_text_order (s t : String) :
    ((OctetString.fromStr s).cmp (.fromStr t) = .lt ↔ s.toList.map Char.toNat < t.toList.map Char.toNat) ∧
    ((OctetString.fromStr s).cmp (.fromStr t) = .eq ↔ s = t) := by
  have hs := (utf8_iff _ s).mp rfl
  have ht := (utf8_iff _ t).mp rfl
  have he : (OctetString.fromStr s).asRef = (OctetString.fromStr t).asRef ↔ s = t := by
    constructor
    · intro h
      have h1 := ((C88_try_from (.fromStr s)).1 s).mpr hs
      have h2 := ((C88_try_from (.fromStr t)).1 t).mpr ht
      rw [((C88_only_octets _ _).2.2.2.2.2 h).2.1, h2] at h1
      exact (Except.ok.inj h1).symm
    · rintro rfl; rfl
  refine ⟨?_, (C88_only_octets _ _).2.2.1.trans he⟩
  rw [(C88_only_octets _ _).2.2.2.1]
  constructor
  · intro h
    rcases lt_trichotomy (s.toList.map Char.toNat) (t.toList.map Char.toNat) with hl | hl | hl
    · exact hl
    · have : s = t := String.toList_inj.mp (charToNat_inj.list_map hl)
      rw [this] at h
      exact absurd ((sliceCmp_lt_iff _ _).mpr h) (by rw [(sliceCmp_eq_iff _ _).mpr rfl]; decide)
    · have h1 := (sliceCmp_gt_iff _ _).mpr (utf8_lt ht hs hl)
      have h2 : sliceCmp s.toByteArray.data.toList t.toByteArray.data.toList = .lt := (sliceCmp_lt_iff _ _).mpr h
      rw [h2] at h1
      cases h1
  · intro h
    exact utf8_lt hs ht h

example : "é€".toList.map Char.toNat < "é🦀".toList.map Char.toNat := by decide +kernel

end Bsn1
