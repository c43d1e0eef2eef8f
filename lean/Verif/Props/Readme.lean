import Verif.Props.Handwritten
import Verif.Props.Convert
import Verif.Spec.Readme
import Verif.Lemmas.Derive
import Verif.Lemmas.Faults
/-!
# C121: the programs of the READMEs
-/

namespace Bsn1
open Spec Readme

/-! ### Steps of the program of bsn1/README.md -/

theorem andThen_iff {α β : Type} (x : Res (Except Message α)) (f : α → Res (Except Message β)) (b : β) :
    andThen x f = .ok (.ok b) ↔ ∃ a, x = .ok (.ok a) ∧ f a = .ok (.ok b) := by
  rcases x with (_ | _) | _ | _ | _ <;> simp [andThen]

theorem parseOr_cases (err : Error → Message) (bytes : Bytes) (h : bytes.length ≤ isizeMax) :
    (∃ e, parseOr err bytes = .ok (.error (err e)) ∧ ∀ p id indef raw rest, BerValue p id indef raw → bytes ≠ p ++ rest) ∨
    ∃ p id indef raw rest, BerValue p id indef raw ∧ bytes = p ++ rest ∧ parseOr err bytes = .ok (.ok (p, rest)) := by
  rcases BerRef_parse_cases bytes h with ⟨v, rest, h1, h2, h3⟩ | ⟨e, p, rest, _, h2, h3⟩
  · obtain ⟨id, indef, raw, hv⟩ := isBer_berValue h1
    exact .inr ⟨v, id, indef, raw, rest, hv, h2, by rw [parseOr, h3]⟩
  · exact .inl ⟨e, by rw [parseOr, h2], fun p id indef raw rest hv => h3 p rest (berValue_isBer hv)⟩

theorem parseOr_iff (err : Error → Message) (bytes : Bytes) (h : bytes.length ≤ isizeMax) (p rest : Bytes) :
    parseOr err bytes = .ok (.ok (p, rest)) ↔ ∃ id indef raw, BerValue p id indef raw ∧ bytes = p ++ rest := by
  constructor
  · intro e
    rcases parseOr_cases err bytes h with ⟨_, e', _⟩ | ⟨p', id, indef, raw, rest', hv, hb, e'⟩
    · rw [e'] at e; cases e
    · rw [e'] at e; cases e; exact ⟨id, indef, raw, hv, hb⟩
  · rintro ⟨id, indef, raw, hv, rfl⟩
    rw [parseOr, BerRef_parse_ok (berValue_isBer hv) h]

theorem zeroId_iff {id : Bytes} (h : IsId id) : IdRef.number id = .ok 0 ↔ ZeroId id := by
  obtain ⟨c, p, n, hc, hp, rfl⟩ := h
  rw [number_idOctets c p n hc hp]
  constructor
  · intro e
    split_ifs at e with hn
    cases e
    exact ⟨c, p, hc, hp, rfl⟩
  · rintro ⟨c', p', hc', hp', e⟩
    obtain ⟨_, _, rfl⟩ := idOctets_inj hc hp hc' hp' e
    rfl

theorem number_settled {id : Bytes} (h : IsId id) : (∃ n, IdRef.number id = .ok n) ∨ ∃ e, IdRef.number id = .err e := by
  obtain ⟨c, p, n, hc, hp, rfl⟩ := h
  rw [number_idOctets c p n hc hp]
  split_ifs
  · exact .inl ⟨_, rfl⟩
  · exact .inr ⟨_, rfl⟩

theorem text_iff (c : Bytes) (s : String) : String.fromUTF8? ⟨c.toArray⟩ = some s ↔ c = textOctets s := by
  rw [textOctets, ← strFromUtf8_iff, strFromUtf8]
  cases String.fromUTF8? ⟨c.toArray⟩ <;> simp

theorem berValue_three {p : Bytes} {b : Bool} {raw : Bytes} (h : BerValue p [0x02] b raw) (e : raw = [0x03]) : p = [0x02, 0x01, 0x03] := by
  subst e
  obtain ⟨_, h⟩ := h
  cases b with
  | false => exact h.2.trans (by decide +kernel)
  | true =>
    obtain ⟨c, _, h, _⟩ := h
    have := congrArg List.length h
    simp [eoc] at this

theorem parseBindVersion_iff (bytes : Bytes) (h : bytes.length ≤ isizeMax) (rest : Bytes) :
    parseBindVersion bytes = .ok (.ok (3, rest)) ↔ bytes = [0x02, 0x01, 0x03] ++ rest := by
  rw [parseBindVersion, andThen_iff]
  constructor
  · rintro ⟨⟨p, r⟩, h1, h2⟩
    obtain ⟨id, indef, raw, hv, rfl⟩ := (parseOr_iff _ _ h _ _).mp h1
    simp only [berValue_id hv, berValue_contents hv, Res.bind_ok] at h2
    split_ifs at h2 with hi
    · cases h2
    · have hi : id = [0x02] := not_not.mp hi
      subst hi
      cases e : ContentsRef.toInteger .i32 raw with
      | ok v =>
        rw [e] at h2
        cases h2
        obtain ⟨e, _⟩ := toInteger_sound _ _ _ e
        rw [berValue_three hv (e.trans (by decide +kernel))]
      | err _ => rw [e] at h2; cases h2
      | panic => rw [e] at h2; cases h2
      | ub => rw [e] at h2; cases h2
  · rintro rfl
    have hv : BerValue [0x02, 0x01, 0x03] [0x02] false [0x03] :=
      ⟨(isId_iff_shape _).mpr (.short 2 (by decide)), by decide, by decide +kernel⟩
    refine ⟨([0x02, 0x01, 0x03], rest), (parseOr_iff _ _ h _ _).mpr ⟨_, _, _, hv, rfl⟩, ?_⟩
    have e : ContentsRef.toInteger .i32 [0x03] = .ok 3 := by decide +kernel
    simp only [berValue_id hv, berValue_contents hv, Res.bind_ok, e]
    rfl

theorem parseBindName_iff (bytes : Bytes) (h : bytes.length ≤ isizeMax) (name : String) (rest : Bytes) :
    parseBindName bytes = .ok (.ok (name, rest)) ↔
      ∃ p id b, (id = [0x04] ∨ id = [0x24]) ∧ BerValue p id b (textOctets name) ∧ bytes = p ++ rest := by
  rw [parseBindName, andThen_iff]
  constructor
  · rintro ⟨⟨p, r⟩, h1, h2⟩
    obtain ⟨id, indef, raw, hv, rfl⟩ := (parseOr_iff _ _ h _ _).mp h1
    simp only [berValue_id hv, berValue_contents hv, Res.bind_ok] at h2
    split_ifs at h2 with hi
    · cases h2
    · have hi : id = [0x04] ∨ id = [0x24] := by
        rcases not_and_or.mp hi with h | h
        · exact .inl (not_not.mp h)
        · exact .inr (not_not.mp h)
      cases e : String.fromUTF8? ⟨raw.toArray⟩ with
      | none => rw [e] at h2; cases h2
      | some s =>
        rw [e] at h2
        cases h2
        obtain rfl := (text_iff _ _).mp e
        exact ⟨p, id, indef, hi, hv, rfl⟩
  · rintro ⟨p, id, b, hi, hv, rfl⟩
    refine ⟨(p, rest), (parseOr_iff _ _ h _ _).mpr ⟨_, _, _, hv, rfl⟩, ?_⟩
    simp only [berValue_id hv, berValue_contents hv, Res.bind_ok]
    rw [if_neg (by rintro ⟨h1, h2⟩; exact hi.elim h1 h2), (text_iff _ _).mpr rfl]
    rfl

theorem parseBindAuthentication_iff (bytes : Bytes) (h : bytes.length ≤ isizeMax) (password rest : Bytes) :
    parseBindAuthentication bytes = .ok (.ok (password, rest)) ↔
      ∃ p id b, ZeroId id ∧ BerValue p id b password ∧ bytes = p ++ rest := by
  rw [parseBindAuthentication, andThen_iff]
  constructor
  · rintro ⟨⟨p, r⟩, h1, h2⟩
    obtain ⟨id, indef, raw, hv, rfl⟩ := (parseOr_iff _ _ h _ _).mp h1
    simp only [berValue_id hv, berValue_contents hv, Res.bind_ok] at h2
    rcases number_settled hv.1 with ⟨n, e⟩ | ⟨_, e⟩
    · rw [e] at h2
      simp only [] at h2
      split_ifs at h2 with h3 h0
      · cases h2
      · subst h0
        cases h2
        exact ⟨p, id, indef, (zeroId_iff hv.1).mp e, hv, rfl⟩
      · cases h2
    · rw [e] at h2; cases h2
  · rintro ⟨p, id, b, hi, hv, rfl⟩
    refine ⟨(p, rest), (parseOr_iff _ _ h _ _).mpr ⟨_, _, _, hv, rfl⟩, ?_⟩
    simp only [berValue_id hv, berValue_contents hv, Res.bind_ok, (zeroId_iff hv.1).mpr hi]
    rfl

theorem badRequestId_iff {id : Bytes} (h : IsId id) : ∃ b, badRequestId id = .ok b ∧ (b = false ↔ id = [0x40] ∨ id = [0x60]) := by
  obtain ⟨c, p, n, hc, hp, rfl⟩ := h
  obtain ⟨k, rfl⟩ : ∃ k : ClassTag, classNum k = c := by
    have : c = 0 ∨ c = 1 ∨ c = 2 ∨ c = 3 := by omega
    rcases this with rfl | rfl | rfl | rfl
    exacts [⟨.universal, rfl⟩, ⟨.application, rfl⟩, ⟨.contextSpecific, rfl⟩, ⟨.priv, rfl⟩]
  obtain ⟨q, rfl⟩ : ∃ q : PCTag, pcNum q = p := by
    have : p = 0 ∨ p = 1 := by omega
    rcases this with rfl | rfl
    exacts [⟨.primitive, rfl⟩, ⟨.constructed, rfl⟩]
  have e0 : idOctets 1 0 0 = [0x40] := by decide +kernel
  have e1 : idOctets 1 1 0 = [0x60] := by decide +kernel
  simp only [badRequestId, clazz_idOctets, Res.bind_ok, number_idOctets _ _ n hc hp]
  rw [← e0, ← e1]
  by_cases hk : k = .application
  · subst hk
    rw [if_neg (by simp)]
    split_ifs with hn
    · refine ⟨_, rfl, ?_⟩
      constructor
      · intro h
        have h0 : n = 0 := by simpa using h
        subst h0
        cases q
        · exact .inl rfl
        · exact .inr rfl
      · rintro (h | h)
        · obtain ⟨_, _, rfl⟩ := idOctets_inj hc hp (by decide) (by decide) h; simp
        · obtain ⟨_, _, rfl⟩ := idOctets_inj hc hp (by decide) (by decide) h; simp
    · refine ⟨_, rfl, ⟨fun h => (nomatch h), ?_⟩⟩
      rintro (h | h)
      · obtain ⟨_, _, rfl⟩ := idOctets_inj hc hp (by decide) (by decide) h; simp at hn
      · obtain ⟨_, _, rfl⟩ := idOctets_inj hc hp (by decide) (by decide) h; simp at hn
  · rw [if_pos hk]
    refine ⟨_, rfl, ⟨fun h => (nomatch h), ?_⟩⟩
    rintro (h | h)
    · obtain ⟨h, _, _⟩ := idOctets_inj hc hp (by decide) (by decide) h; cases k <;> simp_all [classNum]
    · obtain ⟨h, _, _⟩ := idOctets_inj hc hp (by decide) (by decide) h; cases k <;> simp_all [classNum]

/-! ### Both programs -/

/-- Which requests the program of bsn1/README.md accepts. -/
theorem C121_raw_exact (req : Bytes) (h : req.length ≤ 2 ^ 63 - 1) (name : String) (password : Bytes) :
    parseBindRequest req = .ok (.ok (name, password)) ↔ RawAccepts req name password := by
  have h : req.length ≤ isizeMax := h
  rw [parseBindRequest, andThen_iff]
  constructor
  · rintro ⟨⟨p, r⟩, h1, h2⟩
    obtain ⟨id, indef, raw, hv, rfl⟩ := (parseOr_iff _ _ h _ _).mp h1
    obtain ⟨b, hb, hb'⟩ := badRequestId_iff hv.1
    simp only [berValue_id hv, berValue_contents hv, Res.bind_ok, hb] at h2
    split_ifs at h2 with h3 h4
    · cases h2
    · cases h2
    · have hr := not_not.mp h3
      subst hr
      have hl : raw.length ≤ isizeMax := by
        have := berValue_length hv
        simp only [List.append_nil] at h
        omega
      obtain ⟨⟨v, r1⟩, h5, h6⟩ := (andThen_iff _ _ _).mp h2
      simp only [] at h6
      split_ifs at h6 with h7
      · cases h6
      · have hv3 : v = 3 := not_not.mp h7
        subst hv3
        obtain rfl := (parseBindVersion_iff _ hl _).mp h5
        simp only [List.length_append] at hl
        obtain ⟨⟨n, r2⟩, h8, h9⟩ := (andThen_iff _ _ _).mp h6
        obtain ⟨p2, id2, b2, g1, g2, rfl⟩ := (parseBindName_iff _ (by omega) _ _).mp h8
        simp only [List.length_append] at hl
        obtain ⟨⟨pw, r3⟩, h10, h11⟩ := (andThen_iff _ _ _).mp h9
        obtain ⟨p3, id3, b3, g3, g4, rfl⟩ := (parseBindAuthentication_iff r2 (by omega) _ _).mp h10
        cases h11
        refine ⟨id, indef, p2, id2, b2, p3, id3, b3, r3, hb'.mp (by simpa using h4), ?_, g1, g2, g3, g4⟩
        simpa using hv
  · rintro ⟨id, indef, p2, id2, b2, p3, id3, b3, rest, hid, hv, g1, g2, g3, g4⟩
    refine ⟨(req, []), (parseOr_iff _ _ h _ _).mpr ⟨_, _, _, hv, by simp⟩, ?_⟩
    obtain ⟨b, hb, hb'⟩ := badRequestId_iff hv.1
    obtain rfl := hb'.mpr hid
    have hl : ([0x02, 0x01, 0x03] ++ p2 ++ p3 ++ rest : Bytes).length ≤ isizeMax := by
      have := berValue_length hv
      omega
    rw [List.append_assoc, List.append_assoc] at hl
    have hl' := hl
    simp only [List.length_append] at hl'
    simp only [berValue_id hv, berValue_contents hv, Res.bind_ok, hb]
    rw [if_neg (by simp), if_neg (by simp), List.append_assoc, List.append_assoc]
    refine (andThen_iff _ _ _).mpr ⟨(3, p2 ++ (p3 ++ rest)), (parseBindVersion_iff _ hl _).mpr rfl, ?_⟩
    simp only []
    rw [if_neg (by simp)]
    refine (andThen_iff _ _ _).mpr ⟨(name, p3 ++ rest), (parseBindName_iff _ (by simp only [List.length_append]; omega) _ _).mpr ⟨p2, id2, b2, g1, g2, rfl⟩, ?_⟩
    exact (andThen_iff _ _ _).mpr ⟨(password, rest),
      (parseBindAuthentication_iff _ (by simp only [List.length_append]; omega) _ _).mpr ⟨p3, id3, b3, g3, g4, rfl⟩, rfl⟩

theorem isId_bind : IsId [0x60] := (isId_iff_shape _).mpr (.short 0x60 (by decide))
theorem isId_two : IsId [0x02] := (isId_iff_shape _).mpr (.short 2 (by decide))
theorem isId_four : IsId [0x04] := (isId_iff_shape _).mpr (.short 4 (by decide))
theorem isId_context : IsId [0x80] := (isId_iff_shape _).mpr (.short 0x80 (by decide))
theorem isId_null : IsId [0x00] := (isId_iff_shape _).mpr (.short 0 (by decide))

/-- The program of bsn1/README.md sends what RFC 4511 asks for, and parses it. -/
theorem C121_raw (m : Build) (junk : Nat → UInt8) (name : String) (password : Bytes) (hfit : (rfcRequest name password).length ≤ 2 ^ 63 - 1) :
    newBindRequest m junk name password = .ok (rfcRequest name password) ∧
    parseBindRequest (rfcRequest name password) = .ok (.ok (name, password)) := by
  have hfit : (rfcRequest name password).length ≤ isizeMax := hfit
  have hc := fits_contents (id := [0x60]) hfit
  have hc' := hc
  simp only [List.length_append] at hc'
  have e1 : Id.new (junk 0) .application .constructed 0 = .ok [0x60] :=
    (idNew_eq (junk 0) .application .constructed (by decide)).trans (by decide +kernel)
  have e2 : Id.new (junk 0) .contextSpecific .primitive 0 = .ok [0x80] :=
    (idNew_eq (junk 0) .contextSpecific .primitive (by decide)).trans (by decide +kernel)
  have e3 : newBindVersion m junk = .ok (tlv [0x02] [0x03]) := by
    rw [newBindVersion, Ber.ofInt, Der.ofInt, ofInt_intOctets .i32 3 (by decide), Res.bind_ok]
    have : intOctets 3 = [0x03] := by decide +kernel
    rw [this, show IdRef.integer = [0x02] from rfl, Der_new_ok m junk isId_two [0x03] (by omega)]
    rfl
  have e4 : newBindName m junk name = .ok (tlv [0x04] (textOctets name)) := (C75_bytes m junk (textOctets name) (by omega)).ber_eq
  have e5 : newBindAuthentication m junk password = .ok (tlv [0x80] password) := by
    rw [newBindAuthentication, e2, Res.bind_ok]
    exact Der_new_ok m junk isId_context _ (by omega)
  have e6 : [tlv [0x02] [0x03], tlv [0x04] (textOctets name), tlv [0x80] password].flatten =
      tlv [0x02] [0x03] ++ tlv [0x04] (textOctets name) ++ tlv [0x80] password := by simp
  have e7 : tlv [0x02] [0x03] = ([0x02, 0x01, 0x03] : Bytes) := by decide +kernel
  refine ⟨?_, (C121_raw_exact _ hfit _ _).mpr ?_⟩
  · rw [newBindRequest, e1]
    simp only [Res.bind_ok, e3, e4, e5]
    rw [C27_ber_from_id_iterator m junk [0x60] _ isId_bind (by rw [e6]; exact hfit), e6]
    exact Der_new_ok m junk isId_bind _ hfit
  · refine ⟨[0x60], false, _, [0x04], false, _, [0x80], false, [], .inr rfl, ⟨isId_bind, by rw [← e7, List.append_nil]; exact fits_lt hc, ?_⟩, .inl rfl,
      ⟨isId_four, fits_lt (fits_contents (id := [0x04]) (by omega)), rfl⟩, ⟨2, 0, by decide, by decide, by decide +kernel⟩,
      ⟨isId_context, fits_lt (fits_contents (id := [0x80]) (by omega)), rfl⟩⟩
    rw [List.append_nil, rfcRequest, e7]

example : (rfcRequest "uid=me" [1, 2]).length ≤ 2 ^ 63 - 1 ∧
    rfcRequest "uid=me" [1, 2] = [0x60, 15, 2, 1, 3, 4, 6, 0x75, 0x69, 0x64, 0x3d, 0x6d, 0x65, 0x80, 2, 1, 2] := by decide +kernel

/-- A call that returns, with a value or with a message. -/
def Returns {α : Type} (x : Res (Except Message α)) : Prop := ∃ r, x = .ok r

theorem andThen_returns {α β : Type} {x : Res (Except Message α)} {f : α → Res (Except Message β)} (hx : Returns x)
    (hf : ∀ a, x = .ok (.ok a) → Returns (f a)) : Returns (andThen x f) := by
  obtain ⟨r, rfl⟩ := hx
  cases r with
  | error msg => exact ⟨_, rfl⟩
  | ok a => exact hf a rfl

theorem parseOr_returns (err : Error → Message) (bytes : Bytes) (h : bytes.length ≤ isizeMax) : Returns (parseOr err bytes) := by
  rcases parseOr_cases err bytes h with ⟨_, e, _⟩ | ⟨_, _, _, _, _, _, _, e⟩ <;> exact ⟨_, e⟩

theorem parseOr_rest {err : Error → Message} {bytes p rest : Bytes} (h : bytes.length ≤ isizeMax)
    (e : parseOr err bytes = .ok (.ok (p, rest))) : p.length ≤ isizeMax ∧ rest.length ≤ isizeMax := by
  obtain ⟨_, _, _, _, rfl⟩ := (parseOr_iff _ _ h _ _).mp e
  simp only [List.length_append] at h
  omega

theorem parseBindVersion_returns (bytes : Bytes) (h : bytes.length ≤ isizeMax) : Returns (parseBindVersion bytes) := by
  refine andThen_returns (parseOr_returns _ _ h) fun ⟨p, rest⟩ e => ?_
  obtain ⟨id, indef, raw, hv, rfl⟩ := (parseOr_iff _ _ h _ _).mp e
  simp only [berValue_id hv, berValue_contents hv, Res.bind_ok]
  split_ifs
  · exact ⟨_, rfl⟩
  · rcases toInteger_settled .i32 raw with ⟨_, e⟩ | ⟨_, e⟩ <;> rw [e] <;> exact ⟨_, rfl⟩

theorem parseBindName_returns (bytes : Bytes) (h : bytes.length ≤ isizeMax) : Returns (parseBindName bytes) := by
  refine andThen_returns (parseOr_returns _ _ h) fun ⟨p, rest⟩ e => ?_
  obtain ⟨id, indef, raw, hv, rfl⟩ := (parseOr_iff _ _ h _ _).mp e
  simp only [berValue_id hv, berValue_contents hv, Res.bind_ok]
  split_ifs
  · exact ⟨_, rfl⟩
  · cases String.fromUTF8? ⟨raw.toArray⟩ <;> exact ⟨_, rfl⟩

theorem parseBindAuthentication_returns (bytes : Bytes) (h : bytes.length ≤ isizeMax) : Returns (parseBindAuthentication bytes) := by
  refine andThen_returns (parseOr_returns _ _ h) fun ⟨p, rest⟩ e => ?_
  obtain ⟨id, indef, raw, hv, rfl⟩ := (parseOr_iff _ _ h _ _).mp e
  simp only [berValue_id hv, berValue_contents hv, Res.bind_ok]
  rcases number_settled hv.1 with ⟨n, e⟩ | ⟨_, e⟩ <;> rw [e] <;> simp only []
  · split_ifs <;> exact ⟨_, rfl⟩
  · exact ⟨_, rfl⟩

theorem parsedVersion_rest {bytes rest : Bytes} {v : Int} (h : bytes.length ≤ isizeMax) (e : parseBindVersion bytes = .ok (.ok (v, rest))) :
    rest.length ≤ isizeMax := by
  obtain ⟨⟨p, r⟩, h1, h2⟩ := (andThen_iff _ _ _).mp e
  have hr := (parseOr_rest h h1).2
  obtain ⟨id, indef, raw, hv, rfl⟩ := (parseOr_iff _ _ h _ _).mp h1
  simp only [berValue_id hv, berValue_contents hv, Res.bind_ok] at h2
  split_ifs at h2
  · cases h2
  · rcases toInteger_settled .i32 raw with ⟨_, e⟩ | ⟨_, e⟩ <;> rw [e] at h2 <;> cases h2
    exact hr

/-- The program of bsn1/README.md returns the name and the password or a message, whatever the request is: it does not panic, and does nothing that
Rust leaves undefined. -/
theorem C121_raw_returns (req : Bytes) (h : req.length ≤ 2 ^ 63 - 1) : Returns (parseBindRequest req) := by
  have h : req.length ≤ isizeMax := h
  refine andThen_returns (parseOr_returns _ _ h) fun ⟨p, rest⟩ e => ?_
  obtain ⟨id, indef, raw, hv, rfl⟩ := (parseOr_iff _ _ h _ _).mp e
  obtain ⟨b, hb, _⟩ := badRequestId_iff hv.1
  have hl : raw.length ≤ isizeMax := by
    have := berValue_length hv
    simp only [List.length_append] at h
    omega
  simp only [berValue_id hv, berValue_contents hv, Res.bind_ok, hb]
  split_ifs
  · exact ⟨_, rfl⟩
  · exact ⟨_, rfl⟩
  · refine andThen_returns (parseBindVersion_returns _ hl) fun ⟨v, r1⟩ e1 => ?_
    have h1 := parsedVersion_rest hl e1
    simp only []
    split_ifs
    · exact ⟨_, rfl⟩
    · refine andThen_returns (parseBindName_returns _ h1) fun ⟨n, r2⟩ e2 => ?_
      obtain ⟨p2, _, _, _, _, rfl⟩ := (parseBindName_iff _ h1 _ _).mp e2
      simp only [List.length_append] at h1
      exact andThen_returns (parseBindAuthentication_returns r2 (by omega)) fun _ _ => ⟨_, rfl⟩

example : parseBindRequest [0x60, 3, 2, 1, 3] = .ok (.error (.name .unterminatedBytes)) := by rfl

/-! ### bsn1_serde/README.md -/

/-- The fields of `BindRequest`. -/
def bindHand (m : Build) (junk : UInt8) (chain : Chain) : HandFields (Int × String × Bytes × Unit) :=
  .cons (.plain (Ser.int .i32) (De.int m .i32) (codecOf (.int .i32)))
    (.cons (.conv Ser.octetString De.octetString (codecOf .octetString) nameTo (.tryFrom (nameBack chain)))
      (.cons (.plain (simpleAuthSer junk) simpleAuthDe authCodec) .nil))

theorem nameBack_iff (chain : Chain) (octets : Bytes) (name : String) : nameBack chain octets = .ok name ↔ octets = textOctets name := by
  rw [← text_iff, nameBack, OctetString.tryIntoString]
  have e : (OctetString.fromVec octets).intoVec = octets := rfl
  rw [e]
  cases String.fromUTF8? ⟨octets.toArray⟩ <;> simp

theorem bindHand_honors (m : Build) (junk : UInt8) (chain : Chain) : (bindHand m junk chain).Honors :=
  ⟨C120_library m m ⟨fun _ l => l, fun _ l => .refl l⟩ (.int .i32) trivial trivial trivial,
    C120_library m m ⟨fun _ l => l, fun _ l => .refl l⟩ .octetString trivial trivial trivial, C120_simple_auth junk, trivial⟩

theorem bindHand_ok (m : Build) (junk : UInt8) (chain : Chain) (version : Int) (hv : IntTy.InRange .i32 version) (name : String) (password : Bytes) :
    (bindHand m junk chain).ok (version, name, password, ()) := by
  refine ⟨⟨hv, trivial⟩, ⟨⟨trivial, trivial⟩, fun u hu => ⟨name, ?_⟩⟩, trivial, trivial⟩
  cases hu
  exact (nameBack_iff chain _ _).mpr rfl

theorem bindHand_back {m : Build} {junk : UInt8} {chain : Chain} {version : Int} {name : String} {password : Bytes}
    {w : Int × String × Bytes × Unit} (h : (bindHand m junk chain).back (version, name, password, ()) w) : w = (version, name, password, ()) := by
  obtain ⟨v, n, p, _⟩ := w
  obtain ⟨h1, ⟨u, h2, h3⟩, h4, _⟩ := h
  cases h1
  cases h2
  cases h4
  have := (nameBack_iff chain _ _).mp h3
  have e : n = name := by
    have : textOctets n = textOctets name := this.symm
    exact (String.toByteArray_inj.mp (by
      have h := congrArg (fun l : List UInt8 => (⟨l.toArray⟩ : ByteArray)) this
      exact h))
  rw [e]

/-- The program of bsn1_serde/README.md: `to_ber` writes the request, and `from_ber` gives it back; so do `to_der` and `from_der`. -/
theorem C121_serde (m m' : Build) (junk : UInt8) (chain : Chain) (version : Int) (hv : IntTy.InRange .i32 version) (name : String)
    (password : Bytes) (hfit : (serdeRequest version name password).length ≤ 2 ^ 63 - 1) :
    toBer m (bindRequestSer m junk) (version, name, password, ()) = .ok (serdeRequest version name password) ∧
    toDer m (bindRequestSer m junk) (version, name, password, ()) = .ok (serdeRequest version name password) ∧
    fromBer (bindRequestDe m' chain) (serdeRequest version name password) = .ok (version, name, password, ()) ∧
    fromDer (bindRequestDe m' chain) (serdeRequest version name password) = .ok (version, name, password, ()) := by
  have hh := C120_struct m m' [0x60] isId_bind (bindHand m' junk chain) (bindHand_honors m' junk chain)
  have he : tlv [0x60] ((bindHand m' junk chain).enc (version, name, password, ())) = serdeRequest version name password := by
    rw [serdeRequest, List.append_assoc, ← List.append_nil (tlv [0x00] password)]
    rfl
  have hr := C120_round_trip m hh (version, name, password, ()) (bindHand_ok m' junk chain version hv name password)
    (by rw [← he] at hfit; exact hfit)
  obtain ⟨h1, h2, _, _, w, h3, h4, h5, _⟩ := hr
  obtain rfl := bindHand_back h3
  change _ = Res.ok (tlv [0x60] ((bindHand m' junk chain).enc (version, name, password, ()))) at h1
  change _ = Res.ok (tlv [0x60] ((bindHand m' junk chain).enc (version, name, password, ()))) at h2
  change fromDer _ (tlv [0x60] ((bindHand m' junk chain).enc (version, name, password, ()))) = _ at h4
  change fromBer _ (tlv [0x60] ((bindHand m' junk chain).enc (version, name, password, ()))) = _ at h5
  rw [he] at h1 h2 h4 h5
  exact ⟨h2, h1, h5, h4⟩

example : IntTy.InRange .i32 3 ∧ (serdeRequest 3 "uid=me" [1, 2]).length ≤ 2 ^ 63 - 1 ∧
    serdeRequest 3 "uid=me" [1, 2] = [0x60, 15, 2, 1, 3, 4, 6, 0x75, 0x69, 0x64, 0x3d, 0x6d, 0x65, 0x00, 2, 1, 2] := by decide +kernel

theorem auth_berTakes (p password : Bytes) : BerTakes simpleAuthDe p password ↔ ∃ id, ZeroId id ∧ BerValue p id false password := by
  constructor
  · rintro ⟨id, indef, raw, hv, h⟩
    change (checkNumber id >>= fun _ => De.octetString.fromBer IdRef.octetString (lenOf indef raw) raw) = _ at h
    obtain ⟨_, h1, h2⟩ := Res.bind_eq_ok.mp h
    have h1 : IdRef.number id = .ok 0 := by
      rw [checkNumber] at h1
      rcases number_settled hv.1 with ⟨n, e⟩ | ⟨_, e⟩ <;> rw [e] at h1 ⊢ <;> simp only [] at h1
      · split_ifs at h1 with h0
        rw [h0]
      · cases h1
    refine ⟨id, (zeroId_iff hv.1).mp h1, ?_⟩
    cases indef with
    | true => cases h2
    | false => cases h2; exact hv
  · rintro ⟨id, hi, hv⟩
    refine ⟨id, false, password, hv, ?_⟩
    change (checkNumber id >>= fun _ => De.octetString.fromBer IdRef.octetString (lenOf false password) password) = _
    rw [checkNumber, (zeroId_iff hv.1).mpr hi]
    rfl

theorem name_berTakes (m : Build) (chain : Chain) (p : Bytes) (name : String) (hl : p.length ≤ isizeMax) :
    (∃ u, BerTakes De.octetString p u ∧ nameBack chain u = .ok name) ↔
      ∃ id, (id = [0x04] ∨ id = [0x24]) ∧ BerValue p id false (textOctets name) := by
  have key := fun id indef raw (h : raw.length ≤ isizeMax) u =>
    Ty.fromBer_iff m ⟨fun _ l => l, fun _ l => .refl l⟩ .octetString trivial id indef raw u h
  constructor
  · rintro ⟨u, ⟨id, indef, raw, hv, h⟩, hn⟩
    obtain ⟨h1, rfl, rfl⟩ := (key id indef raw (by have := berValue_length hv; omega) u).mp h
    obtain rfl := (nameBack_iff chain _ _).mp hn
    exact ⟨id, h1, hv⟩
  · rintro ⟨id, h1, hv⟩
    exact ⟨_, ⟨id, false, _, hv, (key _ _ _ (by have := berValue_length hv; omega) _).mpr ⟨h1, rfl, rfl⟩⟩, (nameBack_iff chain _ _).mpr rfl⟩

theorem version_berTakes (m : Build) (p : Bytes) (version : Int) (hl : p.length ≤ isizeMax) :
    BerTakes (De.int m .i32) p version ↔ ∃ b, (b = true → decide (m = .release) = true) ∧ BerValue p [0x02] b (intOctets version) ∧
      IntTy.InRange .i32 version := by
  have key := fun id indef raw (h : raw.length ≤ isizeMax) u =>
    Ty.fromBer_iff m ⟨fun _ l => l, fun _ l => .refl l⟩ (.int .i32) trivial id indef raw u h
  constructor
  · rintro ⟨id, indef, raw, hv, h⟩
    obtain ⟨rfl, h2, rfl, h3⟩ := (key id indef raw (by have := berValue_length hv; omega) _).mp h
    exact ⟨indef, h2, hv, h3⟩
  · rintro ⟨b, h2, hv, h3⟩
    exact ⟨_, b, _, hv, (key _ _ _ (by have := berValue_length hv; omega) _).mpr ⟨rfl, h2, rfl, h3⟩⟩

/-- Which requests the program of bsn1_serde/README.md accepts. -/
theorem C121_serde_exact (m : Build) (chain : Chain) (req : Bytes) (h : IsBer req) (hl : req.length ≤ 2 ^ 63 - 1) (version : Int)
    (name : String) (password : Bytes) :
    fromBer (bindRequestDe m chain) req = .ok (version, name, password, ()) ↔
      SerdeAccepts (decide (m = .release)) req version name password := by
  have hl : req.length ≤ isizeMax := hl
  obtain ⟨id, indef, raw, hv⟩ := isBer_berValue h
  have hraw : raw.length ≤ isizeMax := by have := berValue_length hv; omega
  rw [fromBer, berValue_disassemble hv, Res.bind_ok]
  change (if id ≠ [0x60] then _ else fromBerContents m _ (lenOf indef raw) raw) = _ ↔ _
  rw [guard_ok, not_not, fromBerContents_iff]
  constructor
  · rintro ⟨rfl, c, hb, hd⟩
    have hc : c.length ≤ isizeMax := by cases indef <;> cases hb <;> simp_all <;> omega
    obtain ⟨c', e, hd⟩ := (deFields_iff berStepper _ _ _ _ hc).mp hd
    rw [List.append_nil] at e
    subst e
    obtain ⟨p1, c1, rfl, h1, p2, c2, u, rfl, h2, h3, p3, c3, rfl, h4, rfl⟩ := hd
    simp only [List.length_append] at hc
    obtain ⟨b1, g1, g2, g3⟩ := (version_berTakes m p1 _ (by omega)).mp h1
    obtain ⟨id2, g4, g5⟩ := (name_berTakes m chain p2 _ (by omega)).mp ⟨u, h2, h3⟩
    obtain ⟨id3, g6, g7⟩ := (auth_berTakes p3 _).mp h4
    exact ⟨indef, raw, p1, b1, p2, id2, p3, id3, hv, by simpa using hb, g1, g2, g3, g4, g5, g6, g7⟩
  · rintro ⟨indef', raw', p1, b1, p2, id2, p3, id3, hv', hb, g1, g2, g3, g4, g5, g6, g7⟩
    obtain ⟨rfl, rfl, rfl⟩ := berValue_unique hv hv'
    have hc : (p1 ++ p2 ++ p3).length ≤ isizeMax := by
      cases indef <;> rw [hb] at hraw <;> simp only [List.length_append] at hraw ⊢ <;> omega
    refine ⟨rfl, _, hb, (deFields_iff berStepper _ _ _ _ hc).mpr ⟨_, (List.append_nil _).symm, ?_⟩⟩
    simp only [List.length_append] at hc
    obtain ⟨u, h2, h3⟩ := (name_berTakes m chain p2 _ (by omega)).mpr ⟨id2, g4, g5⟩
    exact ⟨p1, p2 ++ (p3 ++ []), by simp, (version_berTakes m p1 _ (by omega)).mpr ⟨b1, g1, g2, g3⟩, p2, p3 ++ [], u, by simp, h2, h3,
      p3, [], by simp, (auth_berTakes p3 _).mpr ⟨id3, g6, g7⟩, rfl⟩

theorem berValue_tlv {id c : Bytes} (hid : IsId id) (h : (tlv id c).length ≤ isizeMax) : BerValue (tlv id c) id false c :=
  ⟨hid, fits_lt (fits_contents h), rfl⟩

theorem zeroId_null : ZeroId [0x00] := ⟨0, 0, by decide, by decide, by decide +kernel⟩
theorem zeroId_context : ZeroId [0x80] := ⟨2, 0, by decide, by decide, by decide +kernel⟩

/-! ### The two together -/

/-- Each program accepts what the other sends, because both look at the number of the identifier of the password only. -/
theorem C121_cross (m : Build) (chain : Chain) (name : String) (password : Bytes) (hfit : (rfcRequest name password).length ≤ 2 ^ 63 - 1) :
    fromBer (bindRequestDe m chain) (rfcRequest name password) = .ok (3, name, password, ()) ∧
    parseBindRequest (serdeRequest 3 name password) = .ok (.ok (name, password)) := by
  have e3 : intOctets 3 = [0x03] := by decide +kernel
  have e7 : tlv [0x02] [0x03] = ([0x02, 0x01, 0x03] : Bytes) := by decide +kernel
  have hlen : ∀ c, (tlv [0x00] c).length = (tlv [0x80] c).length := fun c => by simp [tlv]
  have hfit : (rfcRequest name password).length ≤ isizeMax := hfit
  have hc := fits_contents (id := [0x60]) hfit
  have hc2 := hc
  simp only [List.length_append] at hc2
  have hfit' : (serdeRequest 3 name password).length ≤ isizeMax := by
    rw [serdeRequest, e3]
    rw [rfcRequest] at hfit
    simp only [tlv, List.length_append, List.length_cons, List.length_nil] at hfit ⊢
    exact hfit
  constructor
  · refine (C121_serde_exact m chain _ (.definite [0x60] _ isId_bind (fits_lt hc)) hfit 3 name password).mpr ?_
    exact ⟨false, _, tlv [0x02] [0x03], false, _, [0x04], _, [0x80], berValue_tlv isId_bind hfit, rfl, nofun,
      by rw [e3]; exact berValue_tlv isId_two (by omega), by decide, .inl rfl, berValue_tlv isId_four (by omega), zeroId_context,
      berValue_tlv isId_context (by omega)⟩
  · refine (C121_raw_exact _ hfit' name password).mpr ?_
    refine ⟨[0x60], false, _, [0x04], false, _, [0x00], false, [], .inr rfl, ?_, .inl rfl, berValue_tlv isId_four (by omega), zeroId_null,
      berValue_tlv isId_null (by rw [hlen]; omega)⟩
    rw [← e7, List.append_nil]
    have := berValue_tlv isId_bind hfit'
    rwa [e3] at this

example : (rfcRequest "é" []).length ≤ 2 ^ 63 - 1 := by decide +kernel

/-- The programs claim to send the same request, that of RFC 4511, but never do: the identifier of the password is `[UNIVERSAL 0]` in one, and
`[CONTEXT 0]` in the other, as the RFC has it. -/
theorem C121_same_request_violated (name : String) (password : Bytes) : serdeRequest 3 name password ≠ rfcRequest name password := by
  have e3 : intOctets 3 = [0x03] := by decide +kernel
  intro h
  rw [serdeRequest, rfcRequest, e3] at h
  simp only [tlv, List.length_append, List.length_cons, List.length_nil, List.append_assoc, List.append_cancel_left_eq] at h
  cases h

/-- `[UNIVERSAL 0]` is the identifier of the end-of-contents, so that an empty password ends a request of indefinite length: the request is cut
before it, two octets are left over, and no value is decoded; the other program complains about the octets left over.  With `[CONTEXT 0]` the same
request is decoded. -/
theorem C121_empty_password_violated (m : Build) (chain : Chain) (version : Int) (hv : IntTy.InRange .i32 version) (name : String)
    (hfit : (tlv [0x04] (textOctets name)).length ≤ 2 ^ 62) :
    let head := [0x60, 0x80] ++ (tlv [0x02] (intOctets version) ++ tlv [0x04] (textOctets name))
    BerRef.parse (head ++ tlv [0x00] [] ++ eoc) = (.ok (head ++ eoc), eoc) ∧
    (∀ x, fromBer (bindRequestDe m chain) (head ++ eoc) ≠ .ok x) ∧
    parseBindRequest (head ++ tlv [0x00] [] ++ eoc) = .ok (.error .extra) ∧
    fromBer (bindRequestDe m chain) (head ++ tlv [0x80] [] ++ eoc) = .ok (version, name, [], ()) := by
  intro head
  have hi := isizeMax_eq
  have h17 := intOctets_length_le .i32 version hv
  have hlo := lenOctets_length_le (n := (intOctets version).length) (by omega)
  have hl1 : (tlv [0x02] (intOctets version)).length ≤ 40 := by
    simp only [tlv, List.length_append, List.length_cons, List.length_nil]; omega
  have hl2 : (tlv [0x04] (textOctets name)).length ≤ isizeMax := by omega
  have v1 := berValue_tlv isId_two (c := intOctets version) (by omega)
  have v2 := berValue_tlv isId_four hl2
  have hne : ∀ (b : UInt8) (c : Bytes), b ≠ 0 → tlv [b] c ≠ eoc := by
    intro b c hb h
    simp only [tlv, eoc, List.cons_append, List.cons.injEq] at h
    exact hb h.1
  have hs2 : BerSeq (tlv [0x02] (intOctets version) ++ tlv [0x04] (textOctets name)) := by
    have := BerSeq.cons _ _ (berValue_isBer v1) (hne _ _ (by decide)) (BerSeq.cons _ [] (berValue_isBer v2) (hne _ _ (by decide)) .nil)
    simpa using this
  have h80 : (tlv [0x80] []).length ≤ isizeMax := by rw [hi]; decide +kernel
  have v3 := berValue_tlv isId_context h80
  have hs3 : BerSeq (tlv [0x02] (intOctets version) ++ tlv [0x04] (textOctets name) ++ tlv [0x80] []) := by
    have := BerSeq.cons _ _ (berValue_isBer v1) (hne _ _ (by decide)) (BerSeq.cons _ _ (berValue_isBer v2) (hne _ _ (by decide))
      (BerSeq.cons _ [] (berValue_isBer v3) (hne _ _ (by decide)) .nil))
    simpa using this
  have hb : BerValue (head ++ eoc) [0x60] true (tlv [0x02] (intOctets version) ++ tlv [0x04] (textOctets name) ++ eoc) :=
    ⟨isId_bind, _, hs2, rfl, by simp [head, indefOctets]⟩
  have hb3 : BerValue (head ++ tlv [0x80] [] ++ eoc) [0x60] true
      (tlv [0x02] (intOctets version) ++ tlv [0x04] (textOctets name) ++ tlv [0x80] [] ++ eoc) :=
    ⟨isId_bind, _, hs3, rfl, by simp [head, indefOctets]⟩
  have e0 : tlv [0x00] [] = eoc := by decide +kernel
  have el : eoc.length = 2 := rfl
  have hh : head.length ≤ 2 ^ 62 + 42 := by simp only [head, List.length_append, List.length_cons, List.length_nil]; omega
  have e80 : (tlv [0x80] []).length = 2 := by decide +kernel
  have h1 : BerRef.parse (head ++ tlv [0x00] [] ++ eoc) = (.ok (head ++ eoc), eoc) := by
    rw [e0]
    exact BerRef_parse_ok (berValue_isBer hb) (by simp only [List.length_append]; omega)
  refine ⟨h1, ?_, ?_, ?_⟩
  · rintro ⟨v, n, p, _⟩ h
    rw [C121_serde_exact m chain _ (berValue_isBer hb) (by simp only [List.length_append]; omega)] at h
    obtain ⟨indef, raw, p1, b1, p2, id2, p3, id3, g0, hbd, _, g1, _, _, g2, _, g3⟩ := h
    obtain ⟨_, rfl, rfl⟩ := berValue_unique hb g0
    have hbd := List.append_cancel_right hbd
    rw [List.append_assoc] at hbd
    obtain ⟨rfl, hbd2⟩ := isBer_prefix_free (berValue_isBer v1) (berValue_isBer g1) hbd
    rw [← List.append_nil (tlv [0x04] _)] at hbd2
    obtain ⟨rfl, hbd3⟩ := isBer_prefix_free (berValue_isBer v2) (berValue_isBer g2) hbd2
    have := berValue_length g3
    rw [← hbd3] at this
    simp at this
  · rw [parseBindRequest, parseOr, h1]
    rfl
  · refine (C121_serde_exact m chain _ (berValue_isBer hb3) (by simp only [List.length_append]; omega) version name []).mpr ?_
    exact ⟨true, _, _, false, _, [0x04], _, [0x80], hb3, rfl, nofun, v1, hv, .inl rfl, v2, zeroId_context, v3⟩

example : IntTy.InRange .i32 (-7) ∧ (tlv [0x04] (textOctets "uid=me")).length ≤ 2 ^ 62 := by decide +kernel

/-- The program of bsn1/README.md refuses octets after the request, but not after the password in it; the other refuses both. -/
theorem C121_extra_violated (m : Build) (chain : Chain) (name : String) (password extra : Bytes)
    (hfit : (tlv [0x60] (tlv [0x02] [0x03] ++ tlv [0x04] (textOctets name) ++ tlv [0x80] password ++ extra)).length ≤ 2 ^ 63 - 1)
    (he : extra ≠ []) :
    parseBindRequest (tlv [0x60] (tlv [0x02] [0x03] ++ tlv [0x04] (textOctets name) ++ tlv [0x80] password ++ extra)) =
      .ok (.ok (name, password)) ∧
    ∀ x, fromBer (bindRequestDe m chain)
      (tlv [0x60] (tlv [0x02] [0x03] ++ tlv [0x04] (textOctets name) ++ tlv [0x80] password ++ extra)) ≠ .ok x := by
  have hfit : (tlv [0x60] (tlv [0x02] [0x03] ++ tlv [0x04] (textOctets name) ++ tlv [0x80] password ++ extra)).length ≤ isizeMax := hfit
  have e7 : tlv [0x02] [0x03] = ([0x02, 0x01, 0x03] : Bytes) := by decide +kernel
  have hc := fits_contents (id := [0x60]) hfit
  simp only [List.length_append] at hc
  have v1 := berValue_tlv isId_two (c := [0x03]) (by omega)
  have v2 := berValue_tlv isId_four (c := textOctets name) (by omega)
  have v3 := berValue_tlv isId_context (c := password) (by omega)
  have hb := berValue_tlv isId_bind hfit
  constructor
  · refine (C121_raw_exact _ hfit name password).mpr ?_
    exact ⟨[0x60], false, _, [0x04], false, _, [0x80], false, extra, .inr rfl, e7 ▸ hb, .inl rfl, v2, zeroId_context, v3⟩
  · rintro ⟨v, n, p, _⟩ h
    rw [C121_serde_exact m chain _ (berValue_isBer hb) hfit] at h
    obtain ⟨indef, raw, p1, b1, p2, id2, p3, id3, g0, hbd, _, g1, _, _, g2, _, g3⟩ := h
    obtain ⟨_, rfl, rfl⟩ := berValue_unique hb g0
    have hbd : _ = _ := hbd
    rw [List.append_assoc, List.append_assoc, List.append_assoc] at hbd
    obtain ⟨rfl, hbd2⟩ := isBer_prefix_free (berValue_isBer v1) (berValue_isBer g1) hbd
    obtain ⟨rfl, hbd3⟩ := isBer_prefix_free (berValue_isBer v2) (berValue_isBer g2) hbd2
    rw [← List.append_nil p3] at hbd3
    obtain ⟨_, hbd4⟩ := isBer_prefix_free (berValue_isBer v3) (berValue_isBer g3) hbd3
    exact he hbd4

example : (tlv [0x60] (tlv [0x02] [0x03] ++ tlv [0x04] (textOctets "me") ++ tlv [0x80] [1] ++ [0x05, 0x00])).length ≤ 2 ^ 63 - 1 := by decide +kernel

/-- bsn1_serde_macros/annotation_bsn1_serde.md:84-92 says that a struct of one string with `id = UTF8String, tag_class = APPLICATION, tag_num = 0`
is `[APPLICATION 0] UTF8 String`, and one of an integer with `tag_class = APPLICATION, tag_pc = PRIMITIVE, tag_num = 0x10` is
`[APPLICATION PRIMITIVE 0x10] Integer`.  Both are values inside of a value with a primitive identifier; neither a tag in place of that of the
string or integer nor one around it, which would be constructed. -/
theorem C121_tagged_violated (m : Build) :
    (∀ s : String, (tlv [0x40] (tlv [0x0c] (textOctets s))).length ≤ 2 ^ 63 - 1 →
      ∃ b, toDer m (Ty.ser m (.struct [0x40] (.plain .string .nil))) (s, ()) = .ok b ∧
        b ≠ tlv [0x40] (textOctets s) ∧ b ≠ tlv [0x60] (tlv [0x0c] (textOctets s))) ∧
    (∀ i : Int, IntTy.InRange .i32 i →
      ∃ b, toDer m (Ty.ser m (.struct [0x50] (.plain (.int .i32) .nil))) (i, ()) = .ok b ∧
        b ≠ tlv [0x50] (intOctets i) ∧ b ≠ tlv [0x70] (tlv [0x02] (intOctets i))) := by
  have hi := isizeMax_eq
  have hlong : ∀ a b : Bytes, b.length < (tlv a b).length := by
    intro a b
    have := List.length_pos_of_ne_nil (lenOctets_ne_nil b.length)
    simp only [tlv, List.length_append]
    omega
  have hid4 : IsId [0x40] := (isId_iff_shape _).mpr (.short 0x40 (by decide))
  have hid5 : IsId [0x50] := (isId_iff_shape _).mpr (.short 0x50 (by decide))
  have hid7 : IsId [0x70] := (isId_iff_shape _).mpr (.short 0x70 (by decide))
  have key : ∀ (x y : UInt8) (a b d : Bytes), x ≠ y → IsId [x] → IsId [y] → (tlv [x] (tlv a b)).length ≤ isizeMax → d = tlv [x] (tlv a b ++ []) →
      d ≠ tlv [x] b ∧ d ≠ tlv [y] (tlv a b) := by
    rintro x y a b d hxy hx hy hl rfl
    rw [List.append_nil]
    have hc := fits_contents hl
    have hb := hlong a b
    constructor
    · intro e
      have := (tlv_inj hx hx (fits_lt hc) (fits_lt (by omega)) e).2
      rw [← this] at hb
      simp only [this, lt_self_iff_false] at hb
    · intro e
      exact hxy (by simpa using (tlv_inj hx hy (fits_lt hc) (fits_lt hc) e).1)
  constructor
  · intro s hs
    refine ⟨_, (C41_to_der m (.struct [0x40] (.plain .string .nil)) ⟨hid4, trivial, trivial⟩ (s, ()) ⟨trivial, trivial⟩ ?_).1, ?_⟩
    · change (tlv [0x40] (tlv [0x0c] (textOctets s) ++ [])).length ≤ isizeMax
      rw [List.append_nil]; exact hs
    · exact key 0x40 0x60 [0x0c] (textOctets s) _ (by decide) hid4 isId_bind hs rfl
  · intro i hr
    have h17 := intOctets_length_le .i32 i hr
    have hlo := lenOctets_length_le (n := (intOctets i).length) (by omega)
    have hl1 : (tlv [0x02] (intOctets i)).length ≤ 40 := by
      simp only [tlv, List.length_append, List.length_cons, List.length_nil]; omega
    have hlo2 := lenOctets_length_le (n := (tlv [0x02] (intOctets i)).length) (by omega)
    have hl2 : (tlv [0x50] (tlv [0x02] (intOctets i))).length ≤ isizeMax := by
      rw [tlv]
      simp only [List.length_append, List.length_cons, List.length_nil]
      omega
    refine ⟨_, (C41_to_der m (.struct [0x50] (.plain (.int .i32) .nil)) ⟨hid5, trivial, trivial⟩ (i, ()) ⟨hr, trivial⟩ ?_).1, ?_⟩
    · change (tlv [0x50] (tlv [0x02] (intOctets i) ++ [])).length ≤ isizeMax
      rw [List.append_nil]; exact hl2
    · exact key 0x50 0x70 [0x02] (intOctets i) _ (by decide) hid5 hid7 hl2 rfl

example : (tlv [0x40] (tlv [0x0c] (textOctets "foo"))).length ≤ 2 ^ 63 - 1 ∧ IntTy.InRange .i32 (-300) := by decide +kernel

end Bsn1
