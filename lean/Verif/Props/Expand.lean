import Verif.Lemmas.Expand
import Verif.Props.Attribute
import Verif.Props.Handwritten
import Verif.Props.Derive
/-!
# C122: from a declaration with its attributes to the octets
-/

namespace Bsn1
open Spec Expand

variable {Pa : Type} {T : Types Pa} {γ ρ : Type}

/-! ### A program to show the theorems on -/

/-- Every path names `SimpleAuth` of the README. -/
def authTypes (junk : UInt8) : Types String := ⟨fun _ => Bytes, fun _ => Readme.simpleAuthSer junk, fun _ => Readme.simpleAuthDe, fun p => p⟩

/-- Conversions that can be told from one another: `into` and `to` add an octet, `from` and `try_from` drop octets, and the second must find one. -/
def authConversions (junk : UInt8) : Conversions (authTypes junk) Bytes :=
  ⟨fun _ (v : Bytes) => (1 :: v : Bytes), fun _ (v : Bytes) => (2 :: 2 :: v : Bytes), fun _ (v : Bytes) => v.drop 2,
    fun _ (v : Bytes) => match v with | [] => .error .foreign | _ :: r => .ok r⟩

/-- A field of the type `SimpleAuth`, whose `Default` is empty. -/
def authField (junk : UInt8) : FieldType (authTypes junk) Bytes :=
  { authConversions junk with ser := Readme.simpleAuthSer junk, de := Readme.simpleAuthDe, dflt := [], dfltBy := fun p => p.toByteArray.data.toList }

/-- `#[bsn1_serde(id = Set)]` -/
def setAttrs : List SynAttr := [.other, .bsn1Serde [.ident "id", .punct '=', .ident "Set"]]

/-- `#[bsn1_serde(skip, default = "d")]` -/
def skipAttrs : List SynAttr := [.bsn1Serde [.ident "skip", .punct ',', .ident "default", .punct '=', .literal "\"d\""]]

/-- `#[bsn1_serde(into = "A", try_from = "A")]` -/
def convAttrs : List SynAttr := [.bsn1Serde [.ident "into", .punct '=', .literal "\"A\"", .punct ',', .ident "try_from", .punct '=', .literal "\"A\""]]

theorem pathLit_one (c : Char) (h : c ≠ '"') : PathLit anyPath (String.ofList ['"', c, '"']) (String.ofList [c]) :=
  ⟨1, 1, [c], by simp, by simpa using h, by simpa using h, rfl⟩

theorem accepted_of {as : List (Arg Pa)} {pos : Position} (g : Group) (hp : pos.admits g) (h : ∀ a ∈ as, a.kind.group = g)
    (h1 : ¬ (kinds as .from_ ∧ kinds as .tryFrom)) (h2 : ¬ (kinds as .into ∧ kinds as .to)) : Accepted pos (kinds as) := by
  refine ⟨?_, ?_, h1, h2⟩
  · rintro k ⟨a, ha, rfl⟩; rw [h a ha]; exact hp
  · rintro k k' ⟨a, ha, rfl⟩ ⟨b, hb, rfl⟩; rw [h a ha, h b hb]

theorem doc_set : Documented anyPath .struct setAttrs [Arg.id 0 1 17] ∧ Documented anyPath .variant setAttrs [Arg.id 0 1 17] := by
  have h : HasArgs anyPath setAttrs [Arg.id 0 1 17] := by
    refine ⟨by decide, .inr ⟨[.other], [.ident "id", .punct '=', .ident "Set"], [], rfl, by simp, by simp, ?_⟩⟩
    exact .arg (ts := [.ident "id", .punct '=', .ident "Set"]) (ts' := []) ⟨"Set", by decide, rfl⟩ .nil
  exact ⟨⟨h, accepted_of .identifier (.inl rfl) (by simp [Arg.kind, ArgKind.group]) (by simp [kinds, Arg.kind]) (by simp [kinds, Arg.kind])⟩,
    ⟨h, accepted_of .identifier rfl (by simp [Arg.kind, ArgKind.group]) (by simp [kinds, Arg.kind]) (by simp [kinds, Arg.kind])⟩⟩

theorem doc_skip : Documented anyPath .field skipAttrs [Arg.skip, Arg.default "d"] := by
  refine ⟨⟨by decide, .inr ⟨[], [.ident "skip", .punct ',', .ident "default", .punct '=', .literal "\"d\""], [], rfl, by simp, by simp, ?_⟩⟩, ?_⟩
  · exact .arg (ts := [.ident "skip"]) rfl (.comma (.arg (ts := [.ident "default", .punct '=', .literal "\"d\""]) (ts' := [])
      ⟨"\"d\"", pathLit_one 'd' (by decide), rfl⟩ .nil))
  · exact accepted_of .skip (.inl rfl) (by simp [Arg.kind, ArgKind.group]) (by simp [kinds, Arg.kind]) (by simp [kinds, Arg.kind])

theorem doc_conv : Documented anyPath .field convAttrs [Arg.into "A", Arg.tryFrom "A"] ∧
    Documented anyPath .struct convAttrs [Arg.into "A", Arg.tryFrom "A"] := by
  have h : HasArgs anyPath convAttrs [Arg.into "A", Arg.tryFrom "A"] := by
    refine ⟨by decide, .inr ⟨[], [.ident "into", .punct '=', .literal "\"A\"", .punct ',', .ident "try_from", .punct '=', .literal "\"A\""], [], rfl, by simp,
      by simp, ?_⟩⟩
    exact .arg (ts := [.ident "into", .punct '=', .literal "\"A\""]) ⟨"\"A\"", pathLit_one 'A' (by decide), rfl⟩
      (.comma (.arg (ts := [.ident "try_from", .punct '=', .literal "\"A\""]) (ts' := []) ⟨"\"A\"", pathLit_one 'A' (by decide), rfl⟩ .nil))
  exact ⟨⟨h, accepted_of .conversion (.inr rfl) (by simp [Arg.kind, ArgKind.group]) (by simp [kinds, Arg.kind]) (by simp [kinds, Arg.kind])⟩,
    ⟨h, accepted_of .conversion (.inr (.inl rfl)) (by simp [Arg.kind, ArgKind.group]) (by simp [kinds, Arg.kind]) (by simp [kinds, Arg.kind])⟩⟩

theorem doc_none (pos : Position) : Documented anyPath pos [] [] :=
  ⟨⟨by simp, .inl ⟨by simp, rfl⟩⟩, by simp [Accepted, kinds]⟩

/-- `struct S { #[bsn1_serde(skip, default = "d")] a: A, b: A, #[bsn1_serde(into = "A", try_from = "A")] c: A }` -/
def authDecl (junk : UInt8) : Decl (authTypes junk) (Bytes × Bytes × Bytes × Unit) :=
  .cons skipAttrs (authField junk) (.cons [] (authField junk) (.cons convAttrs (authField junk) .nil))

/-- What it is. -/
def authHand (junk : UInt8) : HandFields (Bytes × Bytes × Bytes × Unit) :=
  .cons (.skip ((authField junk).dfltBy "d")) (.cons (.plain (authField junk).ser (authField junk).de authCodec)
    (.cons (.conv ((authTypes junk).ser "A") ((authTypes junk).de "A") authCodec ((authField junk).into "A") (.tryFrom ((authField junk).tryFrom "A"))) .nil))

theorem conv_means (junk : UInt8) : Means (authField junk) [Arg.into "A", Arg.tryFrom "A"]
    (.conv ((authTypes junk).ser "A") ((authTypes junk).de "A") authCodec ((authField junk).into "A") (.tryFrom ((authField junk).tryFrom "A"))) :=
  Means.conv (f := authField junk) (p := "A") authCodec (ToSide.into (c := (authField junk).toConversions) (p := "A") (.head _))
    (FromSide.tryFrom (c := (authField junk).toConversions) (p := "A") (.tail _ (.head _)))

theorem authDecl_means (junk : UInt8) : FieldsMean anyPath (authDecl junk) (authHand junk) :=
  .cons doc_skip (.skipBy (.inl ⟨_, .head _, rfl⟩) (.tail _ (.head _)))
    (.cons (doc_none _) (.plain _ (by simp [Untouched, kinds]))
      (.cons doc_conv.1 (conv_means junk) .nil))

theorem authHand_honors (junk : UInt8) : (authHand junk).Honors := ⟨trivial, C120_simple_auth junk, C120_simple_auth junk, trivial⟩

theorem authHand_ok (junk : UInt8) (a b c : Bytes) : (authHand junk).ok (a, b, c, ()) :=
  ⟨trivial, trivial, ⟨trivial, fun u h => ⟨c, by obtain rfl : u = 1 :: c := h; rfl⟩⟩, trivial⟩

/-! ### Structs and enums -/

/-- A struct: the two derives accept it and agree; its identifier and fields are as the arguments say. -/
theorem C122_struct (m m' : Build) (pp : String → Option Pa) (attrs : List SynAttr) (as : List (Arg Pa)) (c p n : Nat) (cv : Conversions T γ)
    (fs : Decl T γ) (hs : HandFields γ) (hd : Documented pp .struct attrs as) (hu : Unconverted as) (ht : ¬ kinds as .transparent)
    (hi : IdentOf as c p n) (hf : FieldsMean pp fs hs) (hh : hs.Honors) :
    ∃ s d, structSer m pp attrs cv fs = some s ∧ structDe m' pp attrs cv fs = some d ∧ Honors s d (hs.codec (idOctets c p n)) := by
  obtain ⟨ps, pd, h1, h2, h3, h4, _, _⟩ := hf.plans
  have e1 := (C73_serialize pp attrs (.struct fs.attrs) (.struct (idOctets c p n) ps)).mpr (.inr (.inr (.struct hd hu.ser ht hi h1)))
  have e2 := (C73_deserialize pp attrs (.struct fs.attrs) (.struct (idOctets c p n) pd)).mpr (.inr (.inr (.struct hd hu.de ht hi h2)))
  have b := Attribute.identOf_bounded (Attribute.hasArgs_bounded hd.1) hi
  refine ⟨Ser.struct m (idOctets c p n) hs.ser, De.struct m' (idOctets c p n) hs.de, ?_, ?_, C120_struct m m' _ ⟨c, p, n, b.1, b.2.1, rfl⟩ hs hh⟩
  · rw [structSer, e1]; simp only [h3]; rfl
  · rw [structDe, e2]; simp only [h4]; rfl

theorem setArgs_ident : IdentOf ([.id 0 1 17] : List (Arg String)) 0 1 17 :=
  ⟨0, 1, 17, .inl (.head _), .inr ⟨by simp [kinds, Arg.kind], rfl⟩, .inr ⟨by simp [kinds, Arg.kind], rfl⟩, .inr ⟨by simp [kinds, Arg.kind], rfl⟩⟩

theorem setArgs_unconverted : Unconverted ([.id 0 1 17] : List (Arg String)) := by
  rintro k ⟨a, ha, rfl⟩
  rcases List.mem_singleton.mp ha with rfl
  decide

example (m : Build) (junk : UInt8) (cv : Conversions (authTypes junk) (Bytes × Bytes × Bytes × Unit)) :
    (∃ s d, structSer m anyPath setAttrs cv (authDecl junk) = some s ∧ structDe m anyPath setAttrs cv (authDecl junk) = some d ∧
      Honors s d ((authHand junk).codec [0x31])) ∧
    (authHand junk).ok ([9], [8], [7], ()) ∧ (authHand junk).enc ([9], [8], [7], ()) = [0, 1, 8, 0, 2, 1, 7] :=
  ⟨C122_struct m m anyPath setAttrs _ 0 1 17 cv _ _ doc_set.1 setArgs_unconverted (by simp [kinds, Arg.kind]) setArgs_ident (authDecl_means junk)
    (authHand_honors junk), authHand_ok junk _ _ _, rfl⟩

/-- The same seen from the entry points: the octets of a value, and what is got back from them. -/
theorem C122_round_trip (m m' : Build) (pp : String → Option Pa) (attrs : List SynAttr) (as : List (Arg Pa)) (c p n : Nat) (cv : Conversions T γ)
    (fs : Decl T γ) (hs : HandFields γ) (hd : Documented pp .struct attrs as) (hu : Unconverted as) (ht : ¬ kinds as .transparent)
    (hi : IdentOf as c p n) (hf : FieldsMean pp fs hs) (hh : hs.Honors) (v : γ) (hv : hs.ok v)
    (hfit : (tlv (idOctets c p n) (hs.enc v)).length ≤ 2 ^ 63 - 1) :
    ∃ s d, structSer m pp attrs cv fs = some s ∧ structDe m' pp attrs cv fs = some d ∧
      toDer m s v = .ok (tlv (idOctets c p n) (hs.enc v)) ∧
      ∃ w, hs.back v w ∧ fromDer d (tlv (idOctets c p n) (hs.enc v)) = .ok w ∧ fromBer d (tlv (idOctets c p n) (hs.enc v)) = .ok w := by
  obtain ⟨s, d, h1, h2, h3⟩ := C122_struct m m' pp attrs as c p n cv fs hs hd hu ht hi hf hh
  obtain ⟨k1, _, _, _, w, k2, k3, k4, _⟩ := C120_round_trip m h3 v hv hfit
  exact ⟨s, d, h1, h2, k1, w, k2, k3, k4⟩

example (m : Build) (junk : UInt8) (cv : Conversions (authTypes junk) (Bytes × Bytes × Bytes × Unit)) :=
  C122_round_trip m m anyPath setAttrs _ 0 1 17 cv _ _ doc_set.1 setArgs_unconverted (by simp [kinds, Arg.kind]) setArgs_ident (authDecl_means junk)
    (authHand_honors junk) ([9], [8], [7], ()) (authHand_ok junk _ _ _) (by change (tlv (idOctets 0 1 17) [0, 1, 8, 0, 2, 1, 7]).length ≤ 2 ^ 63 - 1; decide +kernel)

/-- `transparent`: the one field that is not skipped. -/
theorem C122_transparent (m m' : Build) (pp : String → Option Pa) (attrs : List SynAttr) (as : List (Arg Pa)) (cv : Conversions T γ)
    (fs : Decl T γ) (hs : HandFields γ) (hd : Documented pp .struct attrs as) (ht : kinds as .transparent)
    (hf : FieldsMean pp fs hs) (hn : hs.count = 1) (hh : hs.Honors) :
    ∃ s d, structSer m pp attrs cv fs = some s ∧ structDe m' pp attrs cv fs = some d ∧ Honors s d hs.codecOne := by
  obtain ⟨ps, pd, h1, h2, h3, h4, h5, h6⟩ := hf.plans
  obtain ⟨a, f, b, rfl, k1, k2, k3⟩ := filter_one _ ps (h5.trans hn)
  obtain ⟨a', f', b', rfl, k1', k2', k3'⟩ := filter_one _ pd (h6.trans hn)
  have e1 := (C73_serialize pp attrs (.struct fs.attrs) _).mpr (.inr (.inr (.transparent hd ht k1 k2 k3 h1)))
  have e2 := (C73_deserialize pp attrs (.struct fs.attrs) _).mpr (.inr (.inr (.transparent hd ht k1' k2' k3' h2)))
  obtain ⟨s, d, e3, e4, h⟩ := C120_transparent hs hn hh
  refine ⟨s, d, ?_, ?_, h⟩
  · rw [structSer, e1]; simp only [h3]; exact e3
  · rw [structDe, e2]; simp only [h4]; exact e4

/-- `#[bsn1_serde(transparent)]` -/
def transparentAttrs : List SynAttr := [.bsn1Serde [.ident "transparent"]]

theorem doc_transparent : Documented anyPath .struct transparentAttrs [Arg.transparent] := by
  refine ⟨⟨by decide, .inr ⟨[], [.ident "transparent"], [], rfl, by simp, by simp, .arg (ts := [.ident "transparent"]) (ts' := []) rfl .nil⟩⟩, ?_⟩
  exact accepted_of .transparent (.inr (.inr rfl)) (by simp [Arg.kind, ArgKind.group]) (by simp [kinds, Arg.kind]) (by simp [kinds, Arg.kind])

-- `#[bsn1_serde(transparent)] struct S { #[bsn1_serde(skip, default = "d")] a: A, #[bsn1_serde(into = "A", try_from = "A")] c: A }`
example (m : Build) (junk : UInt8) (cv : Conversions (authTypes junk) (Bytes × Bytes × Unit)) : ∃ hs : HandFields (Bytes × Bytes × Unit),
    (∃ s d, structSer m anyPath transparentAttrs cv (.cons skipAttrs (authField junk) (.cons convAttrs (authField junk) .nil)) = some s ∧
      structDe m anyPath transparentAttrs cv (.cons skipAttrs (authField junk) (.cons convAttrs (authField junk) .nil)) = some d ∧ Honors s d hs.codecOne) ∧
    hs.ok ([9], [7], ()) ∧ hs.codecOne.enc ([9], [7], ()) = ([0], [1, 7]) :=
  ⟨.cons (.skip ((authField junk).dfltBy "d"))
      (.cons (.conv ((authTypes junk).ser "A") ((authTypes junk).de "A") authCodec ((authField junk).into "A") (.tryFrom ((authField junk).tryFrom "A"))) .nil),
    C122_transparent m m anyPath transparentAttrs _ cv _ _ doc_transparent ⟨_, .head _, rfl⟩
      (.cons doc_skip (.skipBy (.inl ⟨_, .head _, rfl⟩) (.tail _ (.head _)))
        (.cons doc_conv.1 (conv_means junk) .nil))
      rfl ⟨trivial, C120_simple_auth junk, trivial⟩,
    ⟨trivial, (authHand_ok junk [9] [8] [7]).2.2⟩, rfl⟩

/-- An enum, if the identifiers of the variants differ. -/
theorem C122_enum (m m' : Build) (pp : String → Option Pa) (attrs : List SynAttr) (as : List (Arg Pa)) (cv : Conversions T ρ)
    (vs : DeclVariants T ρ) (hs : HandVariants ρ) (hd : Documented pp .enum attrs as) (hu : Unconverted as)
    (hf : VariantsMean pp vs hs) (hn : hs.ids.Nodup) (hh : hs.Honors) :
    ∃ s d, enumSer m pp attrs cv vs = some s ∧ enumDe m' pp attrs cv vs = some d ∧ Honors s d hs.codec := by
  obtain ⟨ps, pd, h1, h2, h3, h4⟩ := hf.plans
  have e1 := (C73_serialize pp attrs (.enum vs.attrs) (.enum ps)).mpr (.inr (.inr (.enum hd hu.ser h1)))
  have e2 := (C73_deserialize pp attrs (.enum vs.attrs) (.enum pd)).mpr (.inr (.inr (.enum hd hu.de h2)))
  refine ⟨Ser.enum m hs.ser, De.enum m' hs.de, ?_, ?_, C120_enum m m' hs hf.isId hn hh⟩
  · rw [enumSer, e1]; simp only [h3]; rfl
  · rw [enumDe, e2]; simp only [h4]; rfl

theorem noArgs_ident : IdentOf ([] : List (Arg String)) 0 1 16 :=
  ⟨0, 1, 16, .inr ⟨by simp [kinds], rfl⟩, .inr ⟨by simp [kinds], rfl⟩, .inr ⟨by simp [kinds], rfl⟩, .inr ⟨by simp [kinds], rfl⟩⟩

-- `enum E { U, #[bsn1_serde(id = Set)] V { .. } }`
example (m : Build) (junk : UInt8) (cv : Conversions (authTypes junk) (Unit ⊕ ((Bytes × Bytes × Bytes × Unit) ⊕ Empty))) :
    ∃ hs : HandVariants (Unit ⊕ ((Bytes × Bytes × Bytes × Unit) ⊕ Empty)),
    (∃ s d, enumSer m anyPath [] cv (.cons [] .nil (.cons setAttrs (authDecl junk) .nil)) = some s ∧
      enumDe m anyPath [] cv (.cons [] .nil (.cons setAttrs (authDecl junk) .nil)) = some d ∧ Honors s d hs.codec) ∧
    hs.ok (.inr (.inl ([9], [8], [7], ()))) ∧ hs.enc (.inr (.inl ([9], [8], [7], ()))) = ([0x31], [0, 1, 8, 0, 2, 1, 7]) ∧ hs.enc (.inl ()) = ([0x30], []) :=
  ⟨.cons (idOctets 0 1 16) .nil (.cons (idOctets 0 1 17) (authHand junk) .nil),
    C122_enum m m anyPath [] [] cv _ _ (doc_none _) (by simp [Unconverted, kinds])
      (.cons (doc_none _) noArgs_ident .nil (.cons doc_set.2 setArgs_ident (authDecl_means junk) .nil)) (by change [idOctets 0 1 16, idOctets 0 1 17].Nodup; decide +kernel)
      ⟨trivial, authHand_honors junk, trivial⟩, authHand_ok junk _ _ _, rfl, rfl⟩

/-- A struct or enum with `into` or `to`, and `from` or `try_from`: the encoding of the other type, whatever the fields are. -/
theorem C122_converted (m m' : Build) (pp : String → Option Pa) (attrs : List SynAttr) (as : List (Arg Pa)) {p : Pa} {C : Codec (T.ty p)}
    (hd : Documented pp .struct attrs as) (hC : Honors (T.ser p) (T.de p) C) :
    (∀ (cv : Conversions T γ) (fs : Decl T γ) (g : γ → T.ty p) (b : Back (T.ty p) γ), ToSide cv as p g → FromSide cv as p b →
      ∃ s d, structSer m pp attrs cv fs = some s ∧ structDe m' pp attrs cv fs = some d ∧ Honors s d (C.conv g b)) ∧
    (∀ (cv : Conversions T ρ) (vs : DeclVariants T ρ) (g : ρ → T.ty p) (b : Back (T.ty p) ρ), ToSide cv as p g → FromSide cv as p b →
      ∃ s d, enumSer m pp attrs cv vs = some s ∧ enumDe m' pp attrs cv vs = some d ∧ Honors s d (C.conv g b)) := by
  constructor
  · intro cv fs g b hg hb
    have hs : ∃ s, structSer m pp attrs cv fs = some s ∧ s = Ser.conv (T.ser p) g := by
      cases hg with
      | into h => exact ⟨_, by rw [structSer, (C73_serialize pp attrs (.struct fs.attrs) _).mpr (.inl ⟨as, _, hd, h, rfl⟩)], rfl⟩
      | «to» h => exact ⟨_, by rw [structSer, (C73_serialize pp attrs (.struct fs.attrs) _).mpr (.inr (.inl ⟨as, _, hd, h, rfl⟩))], rfl⟩
    obtain ⟨s, hs, rfl⟩ := hs
    cases hb with
    | from_ h =>
      exact ⟨_, _, hs, by rw [structDe, (C73_deserialize pp attrs (.struct fs.attrs) _).mpr (.inl ⟨as, _, hd, h, rfl⟩)], (C120_converted hC g).1 _⟩
    | tryFrom h =>
      exact ⟨_, _, hs, by rw [structDe, (C73_deserialize pp attrs (.struct fs.attrs) _).mpr (.inr (.inl ⟨as, _, hd, h, rfl⟩))], (C120_converted hC g).2 _⟩
  · intro cv vs g b hg hb
    have hs : ∃ s, enumSer m pp attrs cv vs = some s ∧ s = Ser.conv (T.ser p) g := by
      cases hg with
      | into h => exact ⟨_, by rw [enumSer, (C73_serialize pp attrs (.enum vs.attrs) _).mpr (.inl ⟨as, _, hd, h, rfl⟩)], rfl⟩
      | «to» h => exact ⟨_, by rw [enumSer, (C73_serialize pp attrs (.enum vs.attrs) _).mpr (.inr (.inl ⟨as, _, hd, h, rfl⟩))], rfl⟩
    obtain ⟨s, hs, rfl⟩ := hs
    cases hb with
    | from_ h =>
      exact ⟨_, _, hs, by rw [enumDe, (C73_deserialize pp attrs (.enum vs.attrs) _).mpr (.inl ⟨as, _, hd, h, rfl⟩)], (C120_converted hC g).1 _⟩
    | tryFrom h =>
      exact ⟨_, _, hs, by rw [enumDe, (C73_deserialize pp attrs (.enum vs.attrs) _).mpr (.inr (.inl ⟨as, _, hd, h, rfl⟩))], (C120_converted hC g).2 _⟩

-- `#[bsn1_serde(into = "A", try_from = "A")] struct S;` in front of any fields
example (m : Build) (junk : UInt8) (r : Decl (authTypes junk) Bytes) : ∃ s d, structSer m anyPath convAttrs (authConversions junk) r = some s ∧
    structDe m anyPath convAttrs (authConversions junk) r = some d ∧
    Honors s d (authCodec.conv (fun v => 1 :: v) (.tryFrom ((authConversions junk).tryFrom "A"))) :=
  (C122_converted (ρ := Bytes) m m anyPath convAttrs _ (p := "A") doc_conv.2 (C120_simple_auth junk)).1 (authConversions junk) r _ _ (.into (.head _))
    (.tryFrom (.tail _ (.head _)))

/-! ### Which declarations there is code for -/

/-- A struct has code for each side exactly if it is documented for that side: either the container is converted, whatever its fields are, or the
attributes of all fields are documented, and if it is transparent then one field is not skipped on that side. -/
theorem C122_accepts_exact (m : Build) (pp : String → Option Pa) (attrs : List SynAttr) (cv : Conversions T γ) (fs : Decl T γ) :
    ((structSer m pp attrs cv fs).isSome = true ↔ ∃ plan, (∃ as p, Documented pp .struct attrs as ∧ (Arg.into p ∈ as ∨ Arg.to p ∈ as)) ∨
      DerivePlan pp Spec.SerField serSkips (fun as => ¬ kinds as .into ∧ ¬ kinds as .to) attrs (.struct fs.attrs) plan) ∧
    ((structDe m pp attrs cv fs).isSome = true ↔ ∃ plan, (∃ as p, Documented pp .struct attrs as ∧ (Arg.from_ p ∈ as ∨ Arg.tryFrom p ∈ as)) ∨
      DerivePlan pp Spec.DeField deSkips (fun as => ¬ kinds as .from_ ∧ ¬ kinds as .tryFrom) attrs (.struct fs.attrs) plan) := by
  constructor
  · constructor
    · intro h
      cases hp : Attribute.doSerialize pp attrs (.struct fs.attrs) with
      | none => rw [structSer, hp] at h; cases h
      | some plan =>
        rcases (C73_serialize pp attrs _ plan).mp hp with ⟨as, p, h1, h2, _⟩ | ⟨as, p, h1, h2, _⟩ | h1
        · exact ⟨plan, .inl ⟨as, p, h1, .inl h2⟩⟩
        · exact ⟨plan, .inl ⟨as, p, h1, .inr h2⟩⟩
        · exact ⟨plan, .inr h1⟩
    · rintro ⟨plan, ⟨as, p, h1, h2 | h2⟩ | h⟩
      · rw [structSer, (C73_serialize pp attrs (.struct fs.attrs) _).mpr (.inl ⟨as, p, h1, h2, rfl⟩)]; rfl
      · rw [structSer, (C73_serialize pp attrs (.struct fs.attrs) _).mpr (.inr (.inl ⟨as, p, h1, h2, rfl⟩))]; rfl
      · rw [structSer, (C73_serialize pp attrs (.struct fs.attrs) _).mpr (.inr (.inr h))]
        cases h with
        | struct _ _ _ _ hf =>
          obtain ⟨a, e, _⟩ := serFields_some fs _ hf.length_eq
          simp only [e]; rfl
        | transparent _ _ k1 k2 k3 hf =>
          obtain ⟨a, e, e2⟩ := serFields_some fs _ hf.length_eq
          obtain ⟨s, hs⟩ := transparent_some (e2.trans (filter_of_one k1 k2 k3))
          simp only [e, Option.bind_some, hs]; rfl
  · constructor
    · intro h
      cases hp : Attribute.doDeserialize pp attrs (.struct fs.attrs) with
      | none => rw [structDe, hp] at h; cases h
      | some plan =>
        rcases (C73_deserialize pp attrs _ plan).mp hp with ⟨as, p, h1, h2, _⟩ | ⟨as, p, h1, h2, _⟩ | h1
        · exact ⟨plan, .inl ⟨as, p, h1, .inl h2⟩⟩
        · exact ⟨plan, .inl ⟨as, p, h1, .inr h2⟩⟩
        · exact ⟨plan, .inr h1⟩
    · rintro ⟨plan, ⟨as, p, h1, h2 | h2⟩ | h⟩
      · rw [structDe, (C73_deserialize pp attrs (.struct fs.attrs) _).mpr (.inl ⟨as, p, h1, h2, rfl⟩)]; rfl
      · rw [structDe, (C73_deserialize pp attrs (.struct fs.attrs) _).mpr (.inr (.inl ⟨as, p, h1, h2, rfl⟩))]; rfl
      · rw [structDe, (C73_deserialize pp attrs (.struct fs.attrs) _).mpr (.inr (.inr h))]
        cases h with
        | struct _ _ _ _ hf =>
          obtain ⟨a, e, _⟩ := deFields_some fs _ hf.length_eq
          simp only [e]; rfl
        | transparent _ _ k1 k2 k3 hf =>
          obtain ⟨a, e, e2⟩ := deFields_some fs _ hf.length_eq
          have hs : De.transparent a = some _ := if_pos (e2.trans (filter_of_one k1 k2 k3))
          simp only [e, Option.bind_some, hs]; rfl

-- With `#[bsn1_serde(transparent)]` two fields that are not skipped are too many, one is not.
example (m : Build) (junk : UInt8) (cv : Conversions (authTypes junk) (Bytes × Bytes × Unit)) :
    (structSer m anyPath transparentAttrs cv (.cons [] (authField junk) (.cons [] (authField junk) .nil))).isSome = false ∧
    (structSer m anyPath transparentAttrs cv (.cons skipAttrs (authField junk) (.cons [] (authField junk) .nil))).isSome = true ∧
    (structDe m anyPath transparentAttrs cv (.cons skipAttrs (authField junk) (.cons skipAttrs (authField junk) .nil))).isSome = false := ⟨rfl, rfl, rfl⟩

/-- The same for an enum. -/
theorem C122_enum_accepts_exact (m : Build) (pp : String → Option Pa) (attrs : List SynAttr) (cv : Conversions T ρ) (vs : DeclVariants T ρ) :
    ((enumSer m pp attrs cv vs).isSome = true ↔ ∃ plan, (∃ as p, Documented pp .struct attrs as ∧ (Arg.into p ∈ as ∨ Arg.to p ∈ as)) ∨
      DerivePlan pp Spec.SerField serSkips (fun as => ¬ kinds as .into ∧ ¬ kinds as .to) attrs (.enum vs.attrs) plan) ∧
    ((enumDe m pp attrs cv vs).isSome = true ↔ ∃ plan, (∃ as p, Documented pp .struct attrs as ∧ (Arg.from_ p ∈ as ∨ Arg.tryFrom p ∈ as)) ∨
      DerivePlan pp Spec.DeField deSkips (fun as => ¬ kinds as .from_ ∧ ¬ kinds as .tryFrom) attrs (.enum vs.attrs) plan) := by
  constructor
  · constructor
    · intro h
      cases hp : Attribute.doSerialize pp attrs (.enum vs.attrs) with
      | none => rw [enumSer, hp] at h; cases h
      | some plan =>
        rcases (C73_serialize pp attrs _ plan).mp hp with ⟨as, p, h1, h2, _⟩ | ⟨as, p, h1, h2, _⟩ | h1
        · exact ⟨plan, .inl ⟨as, p, h1, .inl h2⟩⟩
        · exact ⟨plan, .inl ⟨as, p, h1, .inr h2⟩⟩
        · exact ⟨plan, .inr h1⟩
    · rintro ⟨plan, ⟨as, p, h1, h2 | h2⟩ | h⟩
      · rw [enumSer, (C73_serialize pp attrs (.enum vs.attrs) _).mpr (.inl ⟨as, p, h1, h2, rfl⟩)]; rfl
      · rw [enumSer, (C73_serialize pp attrs (.enum vs.attrs) _).mpr (.inr (.inl ⟨as, p, h1, h2, rfl⟩))]; rfl
      · rw [enumSer, (C73_serialize pp attrs (.enum vs.attrs) _).mpr (.inr (.inr h))]
        cases h with
        | enum _ _ hf =>
          obtain ⟨a, e⟩ := serVariants_some vs _ hf
          simp only [e]; rfl
  · constructor
    · intro h
      cases hp : Attribute.doDeserialize pp attrs (.enum vs.attrs) with
      | none => rw [enumDe, hp] at h; cases h
      | some plan =>
        rcases (C73_deserialize pp attrs _ plan).mp hp with ⟨as, p, h1, h2, _⟩ | ⟨as, p, h1, h2, _⟩ | h1
        · exact ⟨plan, .inl ⟨as, p, h1, .inl h2⟩⟩
        · exact ⟨plan, .inl ⟨as, p, h1, .inr h2⟩⟩
        · exact ⟨plan, .inr h1⟩
    · rintro ⟨plan, ⟨as, p, h1, h2 | h2⟩ | h⟩
      · rw [enumDe, (C73_deserialize pp attrs (.enum vs.attrs) _).mpr (.inl ⟨as, p, h1, h2, rfl⟩)]; rfl
      · rw [enumDe, (C73_deserialize pp attrs (.enum vs.attrs) _).mpr (.inr (.inl ⟨as, p, h1, h2, rfl⟩))]; rfl
      · rw [enumDe, (C73_deserialize pp attrs (.enum vs.attrs) _).mpr (.inr (.inr h))]
        cases h with
        | enum _ _ hf =>
          obtain ⟨a, e⟩ := deVariants_some vs _ hf
          simp only [e]; rfl

-- `id = Set` is for variants, not for enums.
example (m : Build) (junk : UInt8) (cv : Conversions (authTypes junk) (Unit ⊕ Empty)) :
    (enumSer m anyPath [] cv (.cons setAttrs .nil .nil)).isSome = true ∧ (enumDe m anyPath [] cv (.cons setAttrs .nil .nil)).isSome = true ∧
    (enumSer m anyPath setAttrs cv (.cons [] .nil .nil)).isSome = false := ⟨rfl, rfl, rfl⟩

/-! ### One side alone -/

/-- `#[bsn1_serde(skip_serializing)]` -/
def skipSerAttrs : List SynAttr := [.bsn1Serde [.ident "skip_serializing"]]

theorem doc_skipSer : Documented anyPath .field skipSerAttrs [Arg.skipSerializing] := by
  refine ⟨⟨by decide, .inr ⟨[], [.ident "skip_serializing"], [], rfl, by simp, by simp, .arg (ts := [.ident "skip_serializing"]) (ts' := []) rfl .nil⟩⟩, ?_⟩
  exact accepted_of .skip (.inl rfl) (by simp [Arg.kind, ArgKind.group]) (by simp [kinds, Arg.kind]) (by simp [kinds, Arg.kind])

/-- `#[bsn1_serde(skip_serializing)] a: A, b: A, #[bsn1_serde(into = "A", try_from = "A")] c: A` -/
def oneSided (junk : UInt8) : Decl (authTypes junk) (Bytes × Bytes × Bytes × Unit) :=
  .cons skipSerAttrs (authField junk) (.cons [] (authField junk) (.cons convAttrs (authField junk) .nil))

theorem auth_encodes (junk : UInt8) (v : Bytes) (h : (tlv [0] v).length ≤ 2 ^ 63 - 1) : Encodes (Readme.simpleAuthSer junk) v [0] v :=
  have k := C120_simple_auth junk v trivial h
  ⟨k.writeId, k.writeContents, k.idLen, k.contentsLen⟩

theorem oneSided_gives (junk : UInt8) : FieldsGive anyPath (oneSided junk) ([9], [8], [7], ()) [0, 1, 8, 0, 2, 1, 7] :=
  ⟨_, [], [0, 1, 8, 0, 2, 1, 7], doc_skipSer, .skip (.inr ⟨_, .head _, rfl⟩),
    ⟨_, tlv [0] [8], [0, 2, 1, 7], doc_none _, .plain (by simp [kinds]) (by simp [kinds]) (by simp [kinds]) (by simp [kinds])
        (auth_encodes junk [8] (by decide +kernel)),
      ⟨_, tlv [0] [1, 7], [], doc_conv.1, .conv (p := "A") (ToSide.into (c := (authField junk).toConversions) (p := "A") (.head _))
          (auth_encodes junk [1, 7] (by decide +kernel)), rfl, by decide +kernel⟩,
      by decide +kernel⟩, rfl⟩

theorem oneSided_documented (junk : UInt8) : FieldsDocumented anyPath (oneSided junk) := by
  intro a ha
  simp only [oneSided, Decl.attrs, List.mem_cons, List.not_mem_nil, or_false] at ha
  rcases ha with rfl | rfl | rfl
  · exact ⟨_, doc_skipSer⟩
  · exact ⟨_, doc_none _⟩
  · exact ⟨_, doc_conv.1⟩

/-- `derive(Serialize)` on a struct, whatever the arguments for the other side: the octets of a value are those of the fields that are not skipped, each by the type
that the arguments say.  Of the implementations for the fields only this value is asked. -/
theorem C122_serialize (m : Build) (pp : String → Option Pa) (attrs : List SynAttr) (as : List (Arg Pa)) (c p n : Nat) (cv : Conversions T γ)
    (fs : Decl T γ) (hd : Documented pp .struct attrs as) (hu : ¬ kinds as .into ∧ ¬ kinds as .to) (ht : ¬ kinds as .transparent) (hi : IdentOf as c p n)
    (v : γ) (o : Bytes) (hf : FieldsGive pp fs v o) (hfit : (tlv (idOctets c p n) o).length ≤ 2 ^ 63 - 1) :
    ∃ s, structSer m pp attrs cv fs = some s ∧ Encodes s v (idOctets c p n) o ∧ toDer m s v = .ok (tlv (idOctets c p n) o) := by
  obtain ⟨ps, a, h1, h2, h3⟩ := Spec.FieldsGive.plans fs v o hf
  have e1 := (C73_serialize pp attrs (.struct fs.attrs) (.struct (idOctets c p n) ps)).mpr (.inr (.inr (.struct hd hu ht hi h1)))
  have hs := struct_serializes m (idOctets c p n) h3 (fits_contents hfit)
  refine ⟨Ser.struct m (idOctets c p n) a, ?_, encodes_of_serializes hs, toDer_ok m hs hfit⟩
  rw [structSer, e1]; simp only [h2]; rfl

example (m : Build) (junk : UInt8) (cv : Conversions (authTypes junk) (Bytes × Bytes × Bytes × Unit)) :=
  C122_serialize m anyPath setAttrs _ 0 1 17 cv _ doc_set.1 (by simp [kinds, Arg.kind]) (by simp [kinds, Arg.kind]) setArgs_ident ([9], [8], [7], ())
    [0, 1, 8, 0, 2, 1, 7] (oneSided_gives junk) (by decide +kernel)

/-- `derive(Deserialize)` on a struct, whatever the arguments for the other side and whatever the implementations for the fields: a value is got exactly from the
octets with the identifier whose contents are one value for each field that is not skipped, in order. -/
theorem C122_deserialize_exact (m : Build) (pp : String → Option Pa) (attrs : List SynAttr) (as : List (Arg Pa)) (c p n : Nat) (cv : Conversions T γ)
    (fs : Decl T γ) (hd : Documented pp .struct attrs as) (hu : ¬ kinds as .from_ ∧ ¬ kinds as .tryFrom) (ht : ¬ kinds as .transparent)
    (hi : IdentOf as c p n) (hf : FieldsDocumented pp fs) :
    ∃ d, structDe m pp attrs cv fs = some d ∧
      (∀ (id o : Bytes) (v : γ), IsId id → o.length < 2 ^ 64 →
        (fromDer d (tlv id o) = .ok v ↔ id = idOctets c p n ∧ FieldsTake pp FromDerValue fs o v)) ∧
      (∀ (b id : Bytes) (indef : Bool) (raw o : Bytes) (v : γ), BerValue b id indef raw → IsBody indef raw o → raw.length ≤ 2 ^ 63 - 1 →
        (fromBer d b = .ok v ↔ id = idOctets c p n ∧ FieldsTake pp FromBerValue fs o v)) := by
  obtain ⟨ps, h1⟩ := fieldsDocumented_de hf
  obtain ⟨a, h2, _⟩ := deFields_some fs ps h1.length_eq
  have e1 := (C73_deserialize pp attrs (.struct fs.attrs) (.struct (idOctets c p n) ps)).mpr (.inr (.inr (.struct hd hu ht hi h1)))
  refine ⟨De.struct m (idOctets c p n) a, ?_, fun id o v hid ho => ?_, fun b id indef raw o v hb ho hl => ?_⟩
  · rw [structDe, e1]; simp only [h2]; rfl
  · rw [fromDer_tlv _ hid ho, (C57_struct_decodes m (idOctets c p n) a id false o v).1]
    exact and_congr_right fun _ => fieldsTake_iff FromDerValue fs ps h1 a h2 o v
  · rw [fromBer_value _ hb, (C57_struct_decodes m (idOctets c p n) a id indef raw v).2 hl, fromBerValue_eq]
    refine and_congr_right fun _ => ?_
    rw [← fieldsTake_iff BerTakes fs ps h1 a h2 o v]
    exact ⟨fun ⟨_, h, k⟩ => isBody_unique h ho ▸ k, fun k => ⟨o, ho, k⟩⟩

-- The field that is not encoded must be there for `Deserialize`.
example (m : Build) (junk : UInt8) (cv : Conversions (authTypes junk) (Bytes × Bytes × Bytes × Unit)) :
    ∃ d, structDe m anyPath setAttrs cv (oneSided junk) = some d ∧
      fromDer d (tlv (idOctets 0 1 17) [0, 1, 9, 0, 1, 8, 0, 2, 1, 7]) = .ok ([9], [8], [7], ()) := by
  have auth : ∀ v : Bytes, v.length < 2 ^ 64 → FromDerValue Readme.simpleAuthDe (tlv [0] v) v := fun v h =>
    ⟨[0], v, (⟨0, 0, 0, by decide, by decide, by decide +kernel⟩ : IsId [0]), h, rfl, rfl⟩
  obtain ⟨d, h1, h2, _⟩ := C122_deserialize_exact m anyPath setAttrs _ 0 1 17 cv (oneSided junk) doc_set.1 (by simp [kinds, Arg.kind])
    (by simp [kinds, Arg.kind]) setArgs_ident (oneSided_documented junk)
  have conv7 : FieldTakes FromDerValue (authField junk) [Arg.into "A", Arg.tryFrom "A"] (tlv [0] [1, 7]) [7] :=
    @FieldTakes.tryFrom String (authTypes junk) FromDerValue Bytes (authField junk) _ "A" (tlv [0] [1, 7]) ([1, 7] : Bytes) [7] (.tail _ (.head _))
      (auth [1, 7] (by decide)) rfl
  refine ⟨d, h1, (h2 _ _ _ ⟨0, 1, 17, by decide, by decide, rfl⟩ (by decide)).mpr ⟨rfl, ?_⟩⟩
  refine ⟨_, tlv [0] [9], [0, 1, 8, 0, 2, 1, 7], doc_skipSer, .plain (by simp [kinds, Arg.kind]) (by simp [kinds, Arg.kind]) (by simp [kinds, Arg.kind])
      (by simp [kinds, Arg.kind]) (auth [9] (by decide)), ⟨_, tlv [0] [8], [0, 2, 1, 7], doc_none _, .plain (by simp [kinds]) (by simp [kinds]) (by simp [kinds])
      (by simp [kinds]) (auth [8] (by decide)), ⟨_, tlv [0] [1, 7], [], doc_conv.1, conv7, rfl, by decide +kernel⟩, by decide +kernel⟩, by decide +kernel⟩

/-- `derive(Serialize)` on an enum; the identifiers of the variants may be the same. -/
theorem C122_enum_serialize (m : Build) (pp : String → Option Pa) (attrs : List SynAttr) (as : List (Arg Pa)) (cv : Conversions T ρ)
    (vs : DeclVariants T ρ) (hd : Documented pp .enum attrs as) (hu : ¬ kinds as .into ∧ ¬ kinds as .to) (hv : VariantsDocumented pp vs)
    (v : ρ) (id o : Bytes) (hg : VariantsGive pp vs v id o) (hfit : (tlv id o).length ≤ 2 ^ 63 - 1) :
    ∃ s, enumSer m pp attrs cv vs = some s ∧ Encodes s v id o ∧ toDer m s v = .ok (tlv id o) := by
  obtain ⟨ps, h1⟩ := variantsDocumented_ser vs hv
  obtain ⟨a, h2⟩ := serVariants_some vs ps h1
  have e1 := (C73_serialize pp attrs (.enum vs.attrs) (.enum ps)).mpr (.inr (.inr (.enum hd hu h1)))
  have hs := variantsGive_writes m vs ps h1 a h2 v id o hg (fits_contents hfit)
  refine ⟨Ser.enum m a, ?_, encodes_of_serializes hs, toDer_ok m hs hfit⟩
  rw [enumSer, e1]; simp only [h2]; rfl

/-- `enum E { #[bsn1_serde(id = Set)] A, #[bsn1_serde(id = Set)] B { the fields of oneSided } }` -/
def oneSidedEnum (junk : UInt8) : DeclVariants (authTypes junk) (Unit ⊕ (Bytes × Bytes × Bytes × Unit) ⊕ Empty) :=
  .cons setAttrs .nil (.cons setAttrs (oneSided junk) .nil)

theorem oneSidedEnum_documented (junk : UInt8) : VariantsDocumented anyPath (oneSidedEnum junk) :=
  ⟨⟨_, doc_set.2⟩, fun _ h => (nomatch h), ⟨_, doc_set.2⟩, oneSided_documented junk, trivial⟩

theorem set_variantId : VariantId anyPath setAttrs [0x31] := ⟨_, 0, 1, 17, doc_set.2, setArgs_ident, by decide +kernel⟩

example (m : Build) (junk : UInt8) (cv : Conversions (authTypes junk) (Unit ⊕ (Bytes × Bytes × Bytes × Unit) ⊕ Empty)) :=
  C122_enum_serialize m anyPath [] _ cv _ (doc_none _) (by simp [kinds]) (oneSidedEnum_documented junk) (.inr (.inl ([9], [8], [7], ()))) [0x31]
    [0, 1, 8, 0, 2, 1, 7] ⟨set_variantId, oneSided_gives junk⟩ (by decide +kernel)

/-- `derive(Deserialize)` on an enum: the first variant with the identifier is decoded, and no other. -/
theorem C122_enum_deserialize_exact (m : Build) (pp : String → Option Pa) (attrs : List SynAttr) (as : List (Arg Pa)) (cv : Conversions T ρ)
    (vs : DeclVariants T ρ) (hd : Documented pp .enum attrs as) (hu : ¬ kinds as .from_ ∧ ¬ kinds as .tryFrom) (hv : VariantsDocumented pp vs) :
    ∃ d, enumDe m pp attrs cv vs = some d ∧
      (∀ (id o : Bytes) (v : ρ), IsId id → o.length < 2 ^ 64 → (fromDer d (tlv id o) = .ok v ↔ VariantsTake pp FromDerValue vs id o v)) ∧
      (∀ (b id : Bytes) (indef : Bool) (raw o : Bytes) (v : ρ), BerValue b id indef raw → IsBody indef raw o → raw.length ≤ 2 ^ 63 - 1 →
        (fromBer d b = .ok v ↔ VariantsTake pp FromBerValue vs id o v)) := by
  obtain ⟨ps, h1⟩ := variantsDocumented_de vs hv
  obtain ⟨a, h2⟩ := deVariants_some vs ps h1
  have e1 := (C73_deserialize pp attrs (.enum vs.attrs) (.enum ps)).mpr (.inr (.inr (.enum hd hu h1)))
  refine ⟨De.enum m a, ?_, fun id o v hid ho => ?_, fun b id indef raw o v hb ho hl => ?_⟩
  · rw [enumDe, e1]; simp only [h2]; rfl
  · rw [fromDer_tlv _ hid ho]
    refine pick_iff FromDerValue _ id o (fun fs v => ?_) vs ps h1 a h2 v
    rw [fromDerContents_iff, deFields_iff (derStepper o.length) fs o v [] (Nat.le_refl _)]
    simp; rfl
  · rw [fromBer_value _ hb, fromBerValue_eq]
    refine pick_iff BerTakes _ id o (fun fs v => ?_) vs ps h1 a h2 v
    rw [fromBerContents_iff]
    constructor
    · rintro ⟨o', ho', k⟩
      obtain rfl := isBody_unique ho' ho
      rw [deFields_iff berStepper fs o' v [] (Nat.le_trans (isBody_length ho) hl)] at k
      simpa using k
    · intro k
      refine ⟨o, ho, ?_⟩
      rw [deFields_iff berStepper fs o v [] (Nat.le_trans (isBody_length ho) hl)]
      simpa using k

-- The second of two variants with one identifier is never got.
example (m : Build) (junk : UInt8) (cv : Conversions (authTypes junk) (Unit ⊕ (Bytes × Bytes × Bytes × Unit) ⊕ Empty)) :
    ∃ d, enumDe m anyPath [] cv (oneSidedEnum junk) = some d ∧ fromDer d (tlv [0x31] []) = .ok (.inl ()) ∧
      ∀ o v, o.length < 2 ^ 64 → fromDer d (tlv [0x31] o) ≠ .ok (.inr v) := by
  have hid : IsId [0x31] := ⟨0, 1, 17, by decide, by decide, by decide +kernel⟩
  obtain ⟨d, h1, h2, _⟩ := C122_enum_deserialize_exact m anyPath [] _ cv (oneSidedEnum junk) (doc_none _) (by simp [kinds]) (oneSidedEnum_documented junk)
  exact ⟨d, h1, (h2 _ _ _ hid (by decide)).mpr ⟨set_variantId, rfl⟩, fun o v ho e => ((h2 _ _ _ hid ho).mp e).1 set_variantId⟩

end Bsn1
