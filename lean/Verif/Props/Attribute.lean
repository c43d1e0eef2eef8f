import Verif.Lemmas.AttributePlan
/-!
# C52, C60, C64, C72, C73: the attribute `bsn1_serde`
-/

namespace Bsn1
open Spec

variable {Pa : Type}

/-- Paths as strings, for examples. -/
def anyPath (s : String) : Option String := some s

/-! ### C64 -/

/-- A token is a tag number exactly if it is a literal with an optional radix prefix and digits of that radix that denote a
number below 2^128; the result is that number. -/
theorem C64_tag_num (v : Tok) (n : Nat) :
    Attribute.parseTagNumValue v = some n ↔ ∃ s, v = .literal s ∧ TagNumLit s.toList n := Attribute.parseTagNumValue_iff v n

example : Attribute.parseTagNumValue (.literal "0x1F") = some 31 ∧ Attribute.parseTagNumValue (.literal "+0b101") = some 5 ∧
    Attribute.parseTagNumValue (.literal "0O17") = some 15 ∧ Attribute.parseTagNumValue (.literal "12") = some 12 ∧
    Attribute.parseTagNumValue (.literal "0b12") = none ∧ Attribute.parseTagNumValue (.literal "0x") = none ∧
    Attribute.parseTagNumValue (.literal "1_000") = none ∧
    Attribute.parseTagNumValue (.literal "340282366920938463463374607431768211455") = some (2 ^ 128 - 1) ∧
    Attribute.parseTagNumValue (.literal "340282366920938463463374607431768211456") = none := by decide +kernel

/-- Without signs, which no literal of Rust has: a prefix and digits. -/
theorem C64_unsigned (s : String) (n : Nat) (hs : '+' ∉ s.toList) : Attribute.parseTagNumValue (.literal s) = some n ↔
    ∃ pre radix digits, (pre, radix) ∈ radixPrefixes ∧ s.toList = pre ++ digits ∧ Numeral radix digits n ∧ n < 2 ^ 128 := by
  rw [C64_tag_num]
  constructor
  · rintro ⟨s', e, plus, pre, radix, plus', digits, h1, h2, h3, h4, h5, h6⟩
    cases e
    have e1 : plus = [] := by
      rcases h1 with rfl | rfl
      · rfl
      · exact absurd (by simp [h4]) hs
    have e2 : plus' = [] := by
      rcases h3 with rfl | rfl
      · rfl
      · exact absurd (by simp [h4]) hs
    subst e1 e2
    exact ⟨pre, radix, digits, h2, by simpa using h4, h5, h6⟩
  · rintro ⟨pre, radix, digits, h2, h4, h5, h6⟩
    exact ⟨s, rfl, [], pre, radix, [], digits, .inl rfl, h2, .inl rfl, by simpa using h4, h5, h6⟩

example : ∃ pre radix digits, (pre, radix) ∈ radixPrefixes ∧ "0x1F".toList = pre ++ digits ∧ Numeral radix digits 31 ∧ 31 < 2 ^ 128 :=
  (C64_unsigned "0x1F" 31 (by decide)).1 (by decide +kernel)

/-- A literal denotes at most one tag number. -/
theorem C64_unique (s : List Char) (n m : Nat) (hn : TagNumLit s n) (hm : TagNumLit s m) : n = m := by
  have h1 := (C64_tag_num (.literal (String.ofList s)) n).mpr ⟨_, rfl, by simpa using hn⟩
  have h2 := (C64_tag_num (.literal (String.ofList s)) m).mpr ⟨_, rfl, by simpa using hm⟩
  exact Option.some.inj (h1.symm.trans h2)

example : TagNumLit ['0', 'x', '1', 'f'] 31 := by
  obtain ⟨s, e, h⟩ := (C64_tag_num (.literal "0x1f") 31).mp (by decide +kernel)
  have : s = "0x1f" := by cases e; rfl
  subst this
  simpa using h

/-! ### C72 -/

/-- The tokens in a `bsn1_serde` list are accepted exactly if they are a list of arguments with well-formed values and no
argument is repeated; what is stored is exactly these arguments. -/
theorem C72_parse (pp : String → Option Pa) (ts : List Tok) (a : Attribute Pa) : Attribute.parse pp ts = some a ↔
    ∃ as, ArgList pp ts as ∧ (as.map Arg.kind).Nodup ∧ Describes as a := Attribute.parse_describes pp ts a

example : ∃ as, ArgList anyPath [.ident "skip", .punct ',', .ident "default", .punct '=', .literal "\"f\""] as ∧
    (as.map Arg.kind).Nodup ∧ kinds as .skip := by
  obtain ⟨as, h1, h2, h3⟩ := (C72_parse anyPath [.ident "skip", .punct ',', .ident "default", .punct '=', .literal "\"f\""] _).1 rfl
  exact ⟨as, h1, h2, _, h3.skip.1 rfl, rfl⟩

/-- Several attributes at one position: at most one is a `bsn1_serde` list. -/
theorem C72_attributes (pp : String → Option Pa) (attrs : List SynAttr) (a : Attribute Pa)
    (h : Attribute.tryFromAttrs pp attrs = some a) : ∃ as, HasArgs pp attrs as ∧ Describes as a := by
  obtain ⟨as, h1, h2, _⟩ := (Attribute.tryFromAttrs_iff pp attrs a).mp h
  exact ⟨as, h1, h2⟩

example : ∃ as, HasArgs anyPath [.other, .bsn1Serde [.ident "tag_num", .punct '=', .literal "0x1f"], .other] as ∧ Arg.tagNum 31 ∈ as := by
  obtain ⟨as, h1, h2⟩ := C72_attributes anyPath [.other, .bsn1Serde [.ident "tag_num", .punct '=', .literal "0x1f"], .other] _ rfl
  exact ⟨as, h1, (h2.tagNum 31).1 (by decide +kernel)⟩

/-- Which arguments are stored is determined by the tokens. -/
theorem C72_unambiguous (pp : String → Option Pa) (ts : List Tok) (as as' : List (Arg Pa)) (h : ArgList pp ts as)
    (h' : ArgList pp ts as') (hn : (as.map Arg.kind).Nodup) (hn' : (as'.map Arg.kind).Nodup) (a : Attribute Pa) :
    Describes as a ↔ Describes as' a := by
  have e1 := (C72_parse pp ts _).mpr ⟨as, h, hn, Attribute.describes_foldl as hn⟩
  have e2 := (C72_parse pp ts _).mpr ⟨as', h', hn', Attribute.describes_foldl as' hn'⟩
  have e := Option.some.inj (e1.symm.trans e2)
  constructor
  · intro hd
    rw [Attribute.describes_unique hd (Attribute.describes_foldl as hn), e]
    exact Attribute.describes_foldl as' hn'
  · intro hd
    rw [Attribute.describes_unique hd (Attribute.describes_foldl as' hn'), ← e]
    exact Attribute.describes_foldl as hn

/-- `id = Set, tag_num = 0x1f,` -/
def exampleTokens : List Tok :=
  [.ident "id", .punct '=', .ident "Set", .punct ',', .ident "tag_num", .punct '=', .literal "0x1f", .punct ',']

theorem exampleArgs : ArgList anyPath exampleTokens [.id 0 1 17, .tagNum 31] := by
  refine .arg (ts := [.ident "id", .punct '=', .ident "Set"]) ⟨"Set", by decide, rfl⟩ (.comma ?_)
  refine .arg (ts := [.ident "tag_num", .punct '=', .literal "0x1f"]) ⟨"0x1f", ?_, rfl⟩ (.comma .nil)
  obtain ⟨s, e, h⟩ := (C64_tag_num (.literal "0x1f") 31).mp (by decide +kernel)
  cases e
  exact h

example : ArgList anyPath exampleTokens [.id 0 1 17, .tagNum 31] ∧
    (([.id 0 1 17, .tagNum 31] : List (Arg String)).map Arg.kind).Nodup ∧
    (Attribute.parse anyPath exampleTokens).map (fun a => (a.id_, a.tagClass, a.tagNum)) = some (some 0x31, none, some 31) ∧
    (Attribute.parse anyPath (exampleTokens ++ exampleTokens)).isSome = false ∧
    (Attribute.parse anyPath [.ident "id", .punct '=']).isSome = false :=
  ⟨exampleArgs, by decide, by decide +kernel, by decide +kernel, by decide +kernel⟩

/-! ### C52 -/

/-- The octets of the identifier are the shortest encoding of class, primitive or constructed, and number, each given by its own
argument, else by `id`, else that of SEQUENCE. -/
theorem C52_identifier (pp : String → Option Pa) (attrs : List SynAttr) (as : List (Arg Pa)) (a : Attribute Pa) (c p n : Nat)
    (h : HasArgs pp attrs as) (hd : Describes as a) (hi : IdentOf as c p n) :
    a.idSlice = idOctets c p n := Attribute.idSlice_spec hd (Attribute.hasArgs_bounded h) hi

example : ∃ a, Attribute.tryFromAttrs anyPath [.bsn1Serde exampleTokens] = some a ∧ a.idSlice = [0x3f, 0x1f] := ⟨_, rfl, by decide +kernel⟩

/-- They are what `Id::new` makes. -/
theorem C52_id_new (pp : String → Option Pa) (attrs : List SynAttr) (as : List (Arg Pa)) (a : Attribute Pa) (cls : ClassTag)
    (pc : PCTag) (n : Nat) (junk : UInt8) (h : HasArgs pp attrs as) (hd : Describes as a)
    (hi : IdentOf as (classNum cls) (pcNum pc) n) : Id.new junk cls pc n = .ok a.idSlice := by
  rw [C52_identifier pp attrs as a _ _ n h hd hi]
  exact idNew_eq junk cls pc (Attribute.identOf_bounded (Attribute.hasArgs_bounded h) hi).2.2

example : Id.new 0xaa .universal .constructed 31 = .ok [0x3f, 0x1f] := by decide +kernel

/-- Every accepted attribute has an identifier. -/
theorem C52_total (pp : String → Option Pa) (attrs : List SynAttr) (a : Attribute Pa)
    (h : Attribute.tryFromAttrs pp attrs = some a) : ∃ as cls pc n, HasArgs pp attrs as ∧ Describes as a ∧
      IdentOf as (classNum cls) (pcNum pc) n ∧ ∀ junk, Id.new junk cls pc n = .ok a.idSlice := by
  obtain ⟨as, h1, h2⟩ := C72_attributes pp attrs a h
  obtain ⟨c, p, n, hi⟩ := Attribute.identOf_exists as
  obtain ⟨hc, hp, _⟩ := Attribute.identOf_bounded (Attribute.hasArgs_bounded h1) hi
  obtain ⟨cls, rfl⟩ : ∃ cls, classNum cls = c := by
    interval_cases c
    · exact ⟨.universal, rfl⟩
    · exact ⟨.application, rfl⟩
    · exact ⟨.contextSpecific, rfl⟩
    · exact ⟨.priv, rfl⟩
  obtain ⟨pc, rfl⟩ : ∃ pc, pcNum pc = p := by
    interval_cases p
    · exact ⟨.primitive, rfl⟩
    · exact ⟨.constructed, rfl⟩
  exact ⟨as, cls, pc, n, h1, h2, hi, fun junk => C52_id_new pp attrs as a cls pc n junk h1 h2 hi⟩

example : HasArgs anyPath [.other, .bsn1Serde exampleTokens] [.id 0 1 17, .tagNum 31] ∧
    IdentOf ([.id 0 1 17, .tagNum 31] : List (Arg String)) 0 1 31 ∧ idOctets 0 1 31 = [0x3f, 0x1f] ∧
    (Attribute.tryFromAttrs anyPath [.other, .bsn1Serde exampleTokens]).map Attribute.idSlice = some [0x3f, 0x1f] := by
  refine ⟨⟨by decide, .inr ⟨[.other], exampleTokens, [], rfl, by simp, by simp, exampleArgs⟩⟩,
    ⟨0, 1, 17, .inl (by simp), .inr ⟨?_, rfl⟩, .inr ⟨?_, rfl⟩, .inl (by simp)⟩, by decide +kernel, by decide +kernel⟩ <;>
    simp [kinds, Arg.kind]

/-! ### C60 -/

/-- The check for a struct passes exactly for the documented arguments. -/
theorem C60_struct_partial (pp : String → Option Pa) (attrs : List SynAttr) :
    (∃ a, Attribute.tryFromAttrs pp attrs = some a ∧ a.sanitizeAsStruct = true) ↔ ∃ as, Documented pp .struct attrs as :=
  ⟨fun ⟨a, h⟩ => ((Attribute.checked_iff pp attrs a .struct).mp h).imp fun _ h => h.1,
   fun ⟨as, h⟩ => ⟨_, (Attribute.checked_iff pp attrs _ .struct).mpr ⟨as, h, Attribute.describes_foldl as h.1.1⟩⟩⟩

example : ∃ as, Documented anyPath .struct [.bsn1Serde [.ident "transparent"]] as :=
  (C60_struct_partial anyPath _).1 ⟨_, rfl, rfl⟩

/-- For an enum. -/
theorem C60_enum_partial (pp : String → Option Pa) (attrs : List SynAttr) :
    (∃ a, Attribute.tryFromAttrs pp attrs = some a ∧ a.sanitizeAsEnum = true) ↔ ∃ as, Documented pp .enum attrs as :=
  ⟨fun ⟨a, h⟩ => ((Attribute.checked_iff pp attrs a .enum).mp h).imp fun _ h => h.1,
   fun ⟨as, h⟩ => ⟨_, (Attribute.checked_iff pp attrs _ .enum).mpr ⟨as, h, Attribute.describes_foldl as h.1.1⟩⟩⟩

/-- An identifier is not documented for an enum. -/
example : ¬ ∃ as, Documented anyPath .enum [.bsn1Serde [.ident "id", .punct '=', .ident "Set"]] as := fun h => by
  obtain ⟨a, h1, h2⟩ := (C60_enum_partial anyPath _).2 h
  have e : Attribute.tryFromAttrs anyPath [.bsn1Serde [.ident "id", .punct '=', .ident "Set"]] = some a := h1
  have e' : Attribute.tryFromAttrs anyPath [.bsn1Serde [.ident "id", .punct '=', .ident "Set"]] = some _ := rfl
  rw [e'] at e
  cases e
  exact absurd h2 (by decide)

/-- For a variant. -/
theorem C60_variant_partial (pp : String → Option Pa) (attrs : List SynAttr) :
    (∃ a, Attribute.tryFromAttrs pp attrs = some a ∧ a.sanitizeAsVariant = true) ↔ ∃ as, Documented pp .variant attrs as :=
  ⟨fun ⟨a, h⟩ => ((Attribute.checked_iff pp attrs a .variant).mp h).imp fun _ h => h.1,
   fun ⟨as, h⟩ => ⟨_, (Attribute.checked_iff pp attrs _ .variant).mpr ⟨as, h, Attribute.describes_foldl as h.1.1⟩⟩⟩

example : ∃ as, Documented anyPath .variant [.bsn1Serde [.ident "id", .punct '=', .ident "Set"]] as :=
  (C60_variant_partial anyPath _).1 ⟨_, rfl, rfl⟩

/-- For a field. -/
theorem C60_field_partial (pp : String → Option Pa) (attrs : List SynAttr) :
    (∃ a, Attribute.tryFromAttrs pp attrs = some a ∧ a.sanitizeAsField = true) ↔ ∃ as, Documented pp .field attrs as :=
  ⟨fun ⟨a, h⟩ => ((Attribute.checked_iff pp attrs a .field).mp h).imp fun _ h => h.1,
   fun ⟨as, h⟩ => ⟨_, (Attribute.checked_iff pp attrs _ .field).mpr ⟨as, h, Attribute.describes_foldl as h.1.1⟩⟩⟩

example : Documented anyPath .struct [.bsn1Serde exampleTokens] [.id 0 1 17, .tagNum 31] ∧
    ¬ Accepted .enum (kinds ([.id 0 1 17, .tagNum 31] : List (Arg String))) ∧
    ¬ Accepted .field (kinds ([.skip, .into "T"] : List (Arg String))) ∧
    ¬ Accepted .struct (kinds ([.into "T", .to "f"] : List (Arg String))) := by
  refine ⟨⟨⟨by decide, .inr ⟨[], exampleTokens, [], rfl, by simp, by simp, exampleArgs⟩⟩, ?_, ?_, ?_, ?_⟩, ?_, ?_, ?_⟩
  · rintro k ⟨x, hx, rfl⟩
    simp only [List.mem_cons, List.not_mem_nil, or_false] at hx
    rcases hx with rfl | rfl <;> exact .inl rfl
  · rintro k k' ⟨x, hx, rfl⟩ ⟨y, hy, rfl⟩
    simp only [List.mem_cons, List.not_mem_nil, or_false] at hx hy
    rcases hx with rfl | rfl <;> rcases hy with rfl | rfl <;> rfl
  · simp [kinds, Arg.kind]
  · simp [kinds, Arg.kind]
  · intro h
    exact absurd (h.1 .id ⟨.id 0 1 17, by simp, rfl⟩) (by simp [Position.admits, ArgKind.group])
  · intro h
    exact absurd (h.2.1 .skip .into ⟨.skip, by simp, rfl⟩ ⟨.into "T", by simp, rfl⟩) (by simp [ArgKind.group])
  · intro h
    exact h.2.2.2 ⟨⟨.into "T", by simp, rfl⟩, ⟨.to "f", by simp, rfl⟩⟩

theorem fields_some (pp : String → Option Pa) (fs : List (List SynAttr)) :
    (∃ l, Attribute.fields pp fs = some l) ↔ ∀ f ∈ fs, ∃ as, Documented pp .field f as := by
  induction fs with
  | nil => simp [Attribute.fields]
  | cons f fs ih =>
    rw [List.forall_mem_cons]
    refine Iff.trans ?_ (and_congr (C60_field_partial pp f) ih)
    constructor
    · rintro ⟨l, h⟩
      rw [Attribute.fields] at h
      cases hx : Attribute.tryFromAttrs pp f with
      | none => rw [hx] at h; cases h
      | some a =>
        rw [hx] at h
        simp only [] at h
        split at h
        · rename_i hs
          cases hl : Attribute.fields pp fs with
          | none => rw [hl] at h; cases h
          | some l' => exact ⟨⟨a, rfl, hs⟩, ⟨l', rfl⟩⟩
        · cases h
    · rintro ⟨⟨a, h1, h2⟩, ⟨l, h3⟩⟩
      exact ⟨a :: l, by simp only [Attribute.fields, h1, h2, h3, if_true]⟩

theorem variants_some (pp : String → Option Pa) (vs : List (List SynAttr × List (List SynAttr))) :
    (∃ l, Attribute.variants pp vs = some l) ↔
      ∀ v ∈ vs, (∃ as, Documented pp .variant v.1 as) ∧ ∀ f ∈ v.2, ∃ as, Documented pp .field f as := by
  induction vs with
  | nil => simp [Attribute.variants]
  | cons v vs ih =>
    obtain ⟨v, fs⟩ := v
    rw [List.forall_mem_cons, ← ih, ← C60_variant_partial, ← fields_some]
    constructor
    · rintro ⟨l, h⟩
      rw [Attribute.variants] at h
      cases hx : Attribute.tryFromAttrs pp v with
      | none => rw [hx] at h; cases h
      | some a =>
        rw [hx] at h
        simp only [] at h
        split at h
        · rename_i hs
          cases hf : Attribute.fields pp fs with
          | none => rw [hf] at h; cases h
          | some lf =>
            rw [hf] at h
            simp only [] at h
            cases hl : Attribute.variants pp vs with
            | none => rw [hl] at h; cases h
            | some l' => exact ⟨⟨⟨a, rfl, hs⟩, ⟨lf, rfl⟩⟩, ⟨l', rfl⟩⟩
        · cases h
    · rintro ⟨⟨⟨a, h1, h2⟩, ⟨lf, h3⟩⟩, ⟨l, h4⟩⟩
      simp only [] at h1 h3
      exact ⟨(a, lf) :: l, by simp only [Attribute.variants, h1, h2, h3, h4, if_true]⟩

theorem hasArgs_eq {pp : String → Option Pa} {attrs : List SynAttr} {as : List (Arg Pa)} (h : HasArgs pp attrs as)
    {a : Attribute Pa} (ha : Attribute.tryFromAttrs pp attrs = some a) : a = as.foldl Attribute.set {} := by
  have hde := Attribute.describes_foldl as h.1
  obtain ⟨as', h', hd', hs'⟩ := (Attribute.tryFromAttrs_iff pp attrs a).mp ha
  rcases h.2 with ⟨ho, rfl⟩ | ⟨l, ts, r, rfl, ho, hr, hl⟩
  · rcases h'.2 with ⟨_, rfl⟩ | ⟨l, ts, r, rfl, _, _, _⟩
    · exact Attribute.describes_unique hd' hde
    · exact nomatch ho (.bsn1Serde ts) (by simp)
  · have hp := (C72_parse pp ts _).mpr ⟨as, hl, h.1, hde⟩
    have := (Attribute.tryFromLoop_none pp (l ++ .bsn1Serde ts :: r) (some _)).mpr (.inr ⟨_, l, ts, r, rfl, rfl, ho, hr, hp⟩)
    rw [Attribute.tryFromAttrs, this] at ha
    simp only [] at ha
    split at ha
    · exact (Option.some.inj ha).symm
    · cases ha

theorem check_args {pp : String → Option Pa} {attrs : List SynAttr} {as : List (Arg Pa)} (h : HasArgs pp attrs as)
    (pos : Position) : (as.foldl Attribute.set {}).check pos = true ↔ Accepted pos (kinds as) := by
  rw [Attribute.check_iff, show (fun k => (as.foldl Attribute.set {}).has k = true) = kinds as from
    funext fun k => propext (Attribute.describes_has h.1 (Attribute.describes_foldl as h.1) k)]

/-- A struct without a conversion and not transparent derives `Serialize` exactly if the attributes of the struct and of all its
fields are documented.  Missing: containers with a conversion, see `C60_unchecked_violated`. -/
theorem C60_derive_struct_partial (pp : String → Option Pa) (attrs : List SynAttr) (as : List (Arg Pa))
    (fs : List (List SynAttr)) (h : HasArgs pp attrs as) (h1 : ¬ kinds as .into) (h2 : ¬ kinds as .to)
    (h3 : ¬ kinds as .transparent) : (∃ plan, Attribute.doSerialize pp attrs (.struct fs) = some plan) ↔
      Accepted .struct (kinds as) ∧ ∀ f ∈ fs, ∃ as, Documented pp .field f as := by
  have hde := Attribute.describes_foldl as h.1
  have e1 := (Attribute.conv_none Attribute.conv_into h.1 hde).mpr h1
  have e2 := (Attribute.conv_none Attribute.conv_to h.1 hde).mpr h2
  rw [← fields_some]
  constructor
  · rintro ⟨plan, he⟩
    rw [Attribute.doSerialize, Attribute.derive] at he
    cases ha : Attribute.tryFromAttrs pp attrs with
    | none => rw [ha] at he; cases he
    | some a =>
      have e := hasArgs_eq h ha
      subst e
      rw [ha] at he
      simp only [] at he
      split at he
      · rename_i hc
        rw [e1] at he
        simp only [] at he
        rw [e2] at he
        simp only [Attribute.structPlan] at he
        refine ⟨(check_args h .struct).mp hc, ?_⟩
        split at he
        · cases hf : Attribute.fields pp fs with
          | none => rw [hf] at he; cases he
          | some l => exact ⟨l, rfl⟩
        · cases he
      · cases he
  · rintro ⟨hacc, l, hl⟩
    obtain ⟨ha, hc⟩ := (Attribute.checked_iff pp attrs _ .struct).mpr ⟨as, ⟨h, hacc⟩, hde⟩
    have htr : ¬ (as.foldl Attribute.set {}).transparent.isSome = true :=
      fun hk => h3 ((Attribute.describes_has h.1 hde .transparent).mp hk)
    refine ⟨.struct (as.foldl Attribute.set {}).idSlice (l.map Attribute.serField), ?_⟩
    rw [Attribute.doSerialize, Attribute.derive, ha]
    simp only [show (as.foldl Attribute.set {}).sanitizeAsContainer = true from hc, if_true, e1, e2, Attribute.structPlan,
      show (as.foldl Attribute.set {}).sanitizeAsStruct = true from hc, hl]
    rw [if_neg htr]

example : (Attribute.doSerialize anyPath [] (.struct [[], [.bsn1Serde [.ident "skip"]]])).isSome = true ∧
    (Attribute.doSerialize anyPath [] (.struct [[], [.bsn1Serde [.ident "id", .punct '=', .ident "Set"]]])).isSome = false := by
  decide +kernel

/-- An enum without a conversion derives `Deserialize` exactly if the attributes of the enum, of its variants and of all their
fields are documented. -/
theorem C60_derive_enum_partial (pp : String → Option Pa) (attrs : List SynAttr) (as : List (Arg Pa))
    (vs : List (List SynAttr × List (List SynAttr))) (h : HasArgs pp attrs as) (h1 : ¬ kinds as .from_)
    (h2 : ¬ kinds as .tryFrom) : (∃ plan, Attribute.doDeserialize pp attrs (.enum vs) = some plan) ↔
      Accepted .enum (kinds as) ∧
      ∀ v ∈ vs, (∃ as, Documented pp .variant v.1 as) ∧ ∀ f ∈ v.2, ∃ as, Documented pp .field f as := by
  have hde := Attribute.describes_foldl as h.1
  have e1 := (Attribute.conv_none Attribute.conv_from h.1 hde).mpr h1
  have e2 := (Attribute.conv_none Attribute.conv_tryFrom h.1 hde).mpr h2
  rw [← variants_some]
  constructor
  · rintro ⟨plan, he⟩
    rw [Attribute.doDeserialize, Attribute.derive] at he
    cases ha : Attribute.tryFromAttrs pp attrs with
    | none => rw [ha] at he; cases he
    | some a =>
      have e := hasArgs_eq h ha
      subst e
      rw [ha] at he
      simp only [] at he
      split at he
      · rw [e1] at he
        simp only [] at he
        rw [e2] at he
        simp only [Attribute.enumPlan] at he
        split at he
        · rename_i hc
          refine ⟨(check_args h .enum).mp hc, ?_⟩
          cases hf : Attribute.variants pp vs with
          | none => rw [hf] at he; cases he
          | some l => exact ⟨l, rfl⟩
        · cases he
      · cases he
  · rintro ⟨hacc, l, hl⟩
    obtain ⟨ha, hc⟩ := (Attribute.checked_iff pp attrs _ .enum).mpr ⟨as, ⟨h, hacc⟩, hde⟩
    have hc : (as.foldl Attribute.set {}).sanitizeAsEnum = true := hc
    have hcc : (as.foldl Attribute.set {}).sanitizeAsContainer = true := by
      rw [Attribute.sanitizeAsEnum, Bool.and_eq_true] at hc
      exact hc.2
    refine ⟨.enum (l.map fun v => (v.1.idSlice, v.2.map Attribute.deField)), ?_⟩
    rw [Attribute.doDeserialize, Attribute.derive, ha]
    simp only [hcc, if_true, e1, e2, Attribute.enumPlan, hc, hl]

example : HasArgs anyPath [.bsn1Serde exampleTokens] [.id 0 1 17, .tagNum 31] ∧
    (∀ k ∈ [ArgKind.into, .to, .from_, .tryFrom, .transparent], ¬ kinds ([.id 0 1 17, .tagNum 31] : List (Arg String)) k) ∧
    (Attribute.doSerialize anyPath [.bsn1Serde exampleTokens] (.struct [[.bsn1Serde [.ident "skip"]]])).isSome = true ∧
    (Attribute.doSerialize anyPath [.bsn1Serde exampleTokens] (.struct [[.bsn1Serde [.ident "transparent"]]])).isSome = false := by
  refine ⟨⟨by decide, .inr ⟨[], exampleTokens, [], rfl, by simp, by simp, exampleArgs⟩⟩, ?_, by decide +kernel, by decide +kernel⟩
  simp [kinds, Arg.kind]

/-- `#[bsn1_serde(into = "T")] struct S { #[bsn1_serde(transparent, id = Set)] f: .. }` derives `Serialize`, although the
attribute of the field is not documented for any position: with a conversion the fields are not looked at.  Even a union is
accepted. -/
theorem C60_unchecked_violated :
    let attrs : List SynAttr := [.bsn1Serde [.ident "into", .punct '=', .literal "\"T\""]]
    let f : List SynAttr := [.bsn1Serde [.ident "transparent", .punct ',', .ident "id", .punct '=', .ident "Set"]]
    Attribute.doSerialize anyPath attrs (.struct [f]) = some (.conv1 "T") ∧
    Attribute.doSerialize anyPath attrs .union = some (.conv1 "T") ∧
    ∀ pos, ¬ ∃ as, Documented anyPath pos f as := by
  refine ⟨rfl, rfl, ?_⟩
  rintro pos ⟨as, hd⟩
  have := (Attribute.checked_iff anyPath _ _ pos).mpr ⟨as, hd, Attribute.describes_foldl as hd.1.1⟩
  have hnone : (Attribute.tryFromAttrs anyPath
      [.bsn1Serde [.ident "transparent", .punct ',', .ident "id", .punct '=', .ident "Set"]]).isSome = false := by decide +kernel
  rw [this.1] at hnone
  cases hnone

/-! ### C73 -/

/-- What `derive(Serialize)` generates: the conversion of the container if it has one; else code for the struct or enum, whose
identifier and treatment of fields are as the arguments say. -/
theorem C73_serialize (pp : String → Option Pa) (attrs : List SynAttr) (data : Data) (plan : Plan Pa (SerFieldPlan Pa)) :
    Attribute.doSerialize pp attrs data = some plan ↔
      (∃ as ty, Documented pp .struct attrs as ∧ Arg.into ty ∈ as ∧ plan = .conv1 ty) ∨
      (∃ as path, Documented pp .struct attrs as ∧ Arg.to path ∈ as ∧ plan = .conv2 path) ∨
      DerivePlan pp SerField serSkips (fun as => ¬ kinds as .into ∧ ¬ kinds as .to) attrs data plan :=
  Attribute.derive_iff (fun _ _ hn hd ha f => Attribute.serField_iff hn hd ha f) Attribute.skips_ser Attribute.conv_into
    Attribute.conv_to (fun _ h => h.2.2.2) pp attrs data plan

example : Attribute.doSerialize anyPath [.bsn1Serde [.ident "to", .punct '=', .literal "\"f\""]] (.struct [[]]) = some (.conv2 "f") := rfl

/-- What `derive(Deserialize)` generates. -/
theorem C73_deserialize (pp : String → Option Pa) (attrs : List SynAttr) (data : Data) (plan : Plan Pa (DeFieldPlan Pa)) :
    Attribute.doDeserialize pp attrs data = some plan ↔
      (∃ as ty, Documented pp .struct attrs as ∧ Arg.from_ ty ∈ as ∧ plan = .conv1 ty) ∨
      (∃ as ty, Documented pp .struct attrs as ∧ Arg.tryFrom ty ∈ as ∧ plan = .conv2 ty) ∨
      DerivePlan pp DeField deSkips (fun as => ¬ kinds as .from_ ∧ ¬ kinds as .tryFrom) attrs data plan :=
  Attribute.derive_iff (fun _ _ hn hd ha f => Attribute.deField_iff hn hd ha f) Attribute.skips_de Attribute.conv_from
    Attribute.conv_tryFrom (fun _ h => h.2.2.1) pp attrs data plan

example : Attribute.doDeserialize anyPath [.bsn1Serde [.ident "try_from", .punct '=', .literal "\"T\""]] (.struct [[]]) = some (.conv2 "T") := rfl

/-- Both derived implementations of a struct use the same identifier. -/
theorem C73_same_identifier (pp : String → Option Pa) (attrs : List SynAttr) (fs fs' : List (List SynAttr)) (id id' : Bytes)
    (ps : List (SerFieldPlan Pa)) (ps' : List (DeFieldPlan Pa))
    (h : Attribute.doSerialize pp attrs (.struct fs) = some (.struct id ps))
    (h' : Attribute.doDeserialize pp attrs (.struct fs') = some (.struct id' ps')) : id = id' ∧ IsId id := by
  rcases (C73_serialize pp attrs (.struct fs) (.struct id ps)).mp h with ⟨_, _, _, _, e⟩ | ⟨_, _, _, _, e⟩ | h
  · cases e
  · cases e
  rcases (C73_deserialize pp attrs (.struct fs') (.struct id' ps')).mp h' with ⟨_, _, _, _, e⟩ | ⟨_, _, _, _, e⟩ | h'
  · cases e
  · cases e
  cases h with
  | @struct as c p n _ _ hd _ _ hi _ =>
    cases h' with
    | @struct as' c' p' n' _ _ hd' _ _ hi' _ =>
      have hde := Attribute.describes_foldl as hd.1.1
      have hde' := Attribute.describes_foldl as' hd'.1.1
      have h1 := ((Attribute.checked_iff pp attrs _ .struct).mpr ⟨as, hd, hde⟩).1
      have h2 := ((Attribute.checked_iff pp attrs _ .struct).mpr ⟨as', hd', hde'⟩).1
      have e := Option.some.inj (h1.symm.trans h2)
      have b := Attribute.identOf_bounded (Attribute.hasArgs_bounded hd.1) hi
      refine ⟨?_, c, p, n, b.1, b.2.1, rfl⟩
      rw [← C52_identifier pp attrs as _ c p n hd.1 hde hi, ← C52_identifier pp attrs as' _ c' p' n' hd'.1 hde' hi', e]

example : Attribute.doSerialize anyPath [.bsn1Serde exampleTokens]
      (.struct [[], [.bsn1Serde [.ident "skip"]], [.bsn1Serde [.ident "to", .punct '=', .literal "\"f\""]]]) =
      some (.struct [0x3f, 0x1f] [.plain, .skip, .to "f"]) ∧
    Attribute.doDeserialize anyPath [.bsn1Serde exampleTokens]
      (.struct [[], [.bsn1Serde [.ident "skip"]], [.bsn1Serde [.ident "to", .punct '=', .literal "\"f\""]]]) =
      some (.struct [0x3f, 0x1f] [.plain, .skip none, .plain]) ∧
    Attribute.doDeserialize anyPath [.bsn1Serde [.ident "transparent"]]
      (.struct [[], [.bsn1Serde [.ident "skip", .punct ',', .ident "default", .punct '=', .literal "\"d\""]]]) =
      some (.transparent [.plain, .skip (some "d")]) ∧
    Attribute.doSerialize anyPath [] (.enum [([.bsn1Serde [.ident "id", .punct '=', .ident "Null"]], []), ([], [[]])]) =
      some (.enum [([0x05], []), ([0x30], [.plain])]) := ⟨rfl, rfl, rfl, rfl⟩

end Bsn1
