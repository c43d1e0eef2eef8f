import Verif.Lemmas.Handwritten
import Verif.Model.Readme
import Verif.Props.De
import Verif.Props.OctetString
/-!
# C120: implementations by hand can be used wherever those of the library can
-/

namespace Bsn1
open Spec

variable {α β γ δ ρ : Type}

/-! ### Implementations to show the theorems on -/

/-- The codec of `SimpleAuth` of the README: [UNIVERSAL 0], primitive. -/
def authCodec : Codec Bytes := ⟨fun v => ([0x00], v), fun _ => True, fun v w => w = v⟩

/-- `SimpleAuth` of bsn1_serde/README.md keeps its promise. -/
theorem C120_simple_auth (junk : UInt8) : Honors (Readme.simpleAuthSer junk) Readme.simpleAuthDe authCodec := by
  intro v _ _
  refine ⟨?_, ⟨rfl, ?_⟩, ⟨rfl, ?_⟩, .inr rfl, .inr rfl, ⟨v, rfl, ?_, ?_⟩⟩
  · exact (isId_iff_shape _).mpr (.short 0 (by decide))
  · rfl
  · exact (writes_writeAll v).2
  · rfl
  · rfl

theorem authCodec_exact : authCodec.Exact := fun _ _ _ h => h

theorem authCodec_sized (junk : UInt8) : Sized (Readme.simpleAuthSer junk) authCodec := fun _ _ _ => ⟨rfl, rfl⟩

/-- The codec of a type of the library, or of one that is derived from those. -/
def codecOf (t : Ty α) : Codec α := ⟨t.enc, fun v => t.ok v ∧ t.convertible v, t.restores⟩

/-- The implementations of the library keep the promise that is asked of those by hand. -/
theorem C120_library (m m' : Build) (o : HashOrder) (t : Ty α) (hs : t.serializable) (hd : t.deserializable) (hr : t.restorable) :
    Honors (Ty.ser m t) (Ty.de m' o t) (codecOf t) := by
  intro v hok hfit
  obtain ⟨w, h1, h2⟩ := Ty.derVal_enc o t hs hr v hok.1 hok.2 hfit
  refine honest_of (Ty.enc_isId t hs v) (Ty.serializes m t hs v hok.1 hfit) ⟨w, h2, (Ty.fromDer_iff m' o t hd _ _ _).mpr h1, ?_⟩
  exact (Ty.fromBer_iff m' o t hd _ false _ _ (fits_contents hfit)).mpr (Ty.derVal_berVal _ _ t _ _ _ h1)

example (m m' : Build) (o : HashOrder) := C120_library m m' o (.vec (.int .u8)) trivial trivial trivial

/-- `u8` of the library. -/
theorem byte_honors (m m' : Build) : Honors (Ser.int .u8) (De.int m' .u8) (codecOf (.int .u8)) :=
  C120_library m m' ⟨fun _ l => l, fun _ l => .refl l⟩ (.int .u8) trivial trivial trivial

theorem byte_exact : (codecOf (.int .u8)).Exact := fun _ _ _ h => h

theorem byte_ok {i : Int} (h0 : 0 ≤ i) (h1 : i ≤ 255) : (codecOf (.int .u8)).ok i := ⟨⟨h0, h1⟩, trivial⟩

/-! ### The entry points -/

/-- With such an implementation, `to_der` and `to_ber` write the identifier, the length and the contents, and `from_der`, `from_ber`, `parse_der` and
`parse_ber` give the value back from it. -/
theorem C120_round_trip (m : Build) {s : Ser α} {d : De α} {C : Codec α} (h : Honors s d C) (v : α) (hok : C.ok v)
    (hfit : (tlv (C.enc v).1 (C.enc v).2).length ≤ 2 ^ 63 - 1) :
    toDer m s v = .ok (tlv (C.enc v).1 (C.enc v).2) ∧ toBer m s v = .ok (tlv (C.enc v).1 (C.enc v).2) ∧
    (writeDer m s v).res = .ok () ∧ (writeDer m s v).chunks.flatten = tlv (C.enc v).1 (C.enc v).2 ∧
    ∃ w, C.back v w ∧ fromDer d (tlv (C.enc v).1 (C.enc v).2) = .ok w ∧ fromBer d (tlv (C.enc v).1 (C.enc v).2) = .ok w ∧
      (∀ rest, parseDer d (tlv (C.enc v).1 (C.enc v).2 ++ rest) = (.ok w, rest)) ∧
      (∀ rest, (tlv (C.enc v).1 (C.enc v).2 ++ rest).length ≤ 2 ^ 63 - 1 →
        parseBer d (tlv (C.enc v).1 (C.enc v).2 ++ rest) = (.ok w, rest)) := by
  have hv := h v hok hfit
  obtain ⟨w, h1, h2, h3⟩ := hv.back
  have hl : (C.enc v).2.length < 2 ^ 64 := fits_lt (fits_contents hfit)
  have e1 := toDer_ok m (Honest.serializes hv) hfit
  have e2 := writeDer_writes m (Honest.serializes hv) (fits_contents hfit)
  have e3 : fromDer d (tlv (C.enc v).1 (C.enc v).2) = .ok w := by
    rw [fromDer_tlv _ hv.isId hl]; exact h2
  have hb : BerValue (tlv (C.enc v).1 (C.enc v).2) (C.enc v).1 false (C.enc v).2 := ⟨hv.isId, hl, rfl⟩
  have e4 : fromBer d (tlv (C.enc v).1 (C.enc v).2) = .ok w := by
    rw [fromBer, berValue_disassemble hb, Res.bind_ok]
    exact h3
  refine ⟨e1, e1, e2.1, e2.2, w, h1, e3, e4, fun rest => ?_, fun rest hr => ?_⟩
  · rw [parseDer, DerRef_parse_tlv hv.isId hl]
    simp only [e3]
  · rw [parseBer, BerRef_parse_ok (berValue_isBer hb) hr]
    simp only [e4]

example (m : Build) (junk : UInt8) := C120_round_trip m (C120_simple_auth junk) [1, 2] trivial (by decide)

/-! ### Collections -/

theorem guard_self (id : Bytes) (x : Res α) : (if id ≠ id then .err .unmatchedId else x) = x := if_neg (by simp)

theorem isId_setOf : IsId [0x31] := (isId_iff_shape _).mpr (.short 0x31 (by decide))

theorem list_honors (m m' : Build) {s : Ser α} {d : De α} {C : Codec α} (h : Honors s d C) :
    Honors (Ser.vec m s) (De.vec m' d) C.list := by
  intro v hok hfit
  have hf : (v.flatMap fun x => tlvOf (C.enc x)).length ≤ isizeMax := fits_contents hfit
  obtain ⟨hw, hl⟩ := honors_each m h hok hf
  obtain ⟨w, h1, h2⟩ := honors_elems h hok hf
  obtain ⟨h3, h4⟩ := elems_both h1
  refine honest_of isId_sequence ⟨writes_writeAll _, hw, .inr rfl, hl⟩ ⟨w, h2, ?_, ?_⟩
  · exact (guard_self IdRef.sequence _).trans ((fromDer_list d _ _).mpr h3)
  · refine (guard_self IdRef.sequence _).trans ?_
    change (excludeEoc m' (.definite (v.flatMap fun x => tlvOf (C.enc x)).length) (v.flatMap fun x => tlvOf (C.enc x)) >>= _) = _
    rw [excludeEoc_definite, Res.bind_ok]
    exact (fromBer_list d _ hf _).mpr h4

/-- `Vec`, `LinkedList` and `VecDeque`. -/
theorem C120_vec (m m' : Build) {s : Ser α} {d : De α} {C : Codec α} (h : Honors s d C) :
    Honors (Ser.vec m s) (De.vec m' d) C.list ∧ Honors (Ser.linkedList m s) (De.linkedList m' d) C.list ∧
      Honors (Ser.vecDeque m s) (De.vecDeque m' d) C.list :=
  ⟨list_honors m m' h, list_honors m m' h, list_honors m m' h⟩

example (m m' : Build) (junk : UInt8) := C120_vec m m' (C120_vec m m' (C120_simple_auth junk)).1

/-- `BTreeSet`. -/
theorem C120_btree_set (m m' : Build) (cmp : α → α → Ordering) [Std.TransCmp cmp] [Std.LawfulEqCmp cmp] {s : Ser α} {d : De α}
    {C : Codec α} (h : Honors s d C) (hC : C.Exact) : Honors (Ser.btreeSet m s) (De.btreeSet m' cmp d) (C.sorted cmp) := by
  intro v hok hfit
  have hf : (v.flatMap fun x => tlvOf (C.enc x)).length ≤ isizeMax := fits_contents hfit
  obtain ⟨hw, hl⟩ := honors_each m h hok.2 hf
  obtain ⟨w, h1, h2⟩ := honors_elems h hok.2 hf
  have e := forall₂_faithful h2 fun x hx y hy => hC x y (hok.2 x hx) hy
  subst e
  obtain ⟨h3, h4⟩ := elems_both h1
  refine honest_of isId_sequence ⟨writes_writeAll _, hw, .inr rfl, hl⟩ ⟨w, rfl, ?_, ?_⟩
  · exact (guard_self IdRef.sequence _).trans ((fromDer_fold d _ _ _ _).mpr ⟨_, h3, (setOf_iff _ _).mpr (setOf_self hok.1)⟩)
  · refine (guard_self IdRef.sequence _).trans ?_
    change (excludeEoc m' (.definite (w.flatMap fun x => tlvOf (C.enc x)).length) (w.flatMap fun x => tlvOf (C.enc x)) >>= _) = _
    rw [excludeEoc_definite, Res.bind_ok]
    exact (fromBer_fold d _ _ hf _ _).mpr ⟨_, h4, (setOf_iff _ _).mpr (setOf_self hok.1)⟩

example (m m' : Build) : Honors (Ser.btreeSet m (Ser.int .u8)) (De.btreeSet m' compare (De.int m' .u8)) ((codecOf (.int .u8)).sorted compare) ∧
    ((codecOf (.int .u8)).sorted compare).ok [3, 7] :=
  ⟨C120_btree_set m m' compare (byte_honors m m') byte_exact, by decide,
    by simp [byte_ok]⟩

/-- `BTreeMap`. -/
theorem C120_btree_map (m m' : Build) (cmp : α → α → Ordering) [Std.TransCmp cmp] [Std.LawfulEqCmp cmp] {sk : Ser α} {dk : De α}
    {K : Codec α} (hk : Honors sk dk K) (hK : K.Exact) {sv : Ser β} {dv : De β} {V : Codec β} (hv : Honors sv dv V) :
    Honors (Ser.btreeMap m sk sv) (De.btreeMap m' cmp dk dv) (K.sortedPairs cmp V) := by
  intro v hok hfit
  have hf : (v.flatMap fun x => pairOctets (tlvOf (K.enc x.1)) (tlvOf (V.enc x.2))).length ≤ isizeMax := fits_contents hfit
  obtain ⟨hw, hl⟩ := honors_each_pair m hk hv hok.2 hf
  obtain ⟨w, h1, h2⟩ := honors_pairs hk hv hok.2 hf
  have h2 := forall₂_exactKeys hK (fun x hx => (hok.2 x hx).1) h2
  obtain ⟨h3, h4⟩ := pairs_both h1
  have hp : (v.map Prod.fst).Pairwise fun x y => cmp x y = .lt := List.pairwise_map.mpr hok.1
  rw [← forall₂_sameKeys h2] at hp
  have hm : MapOf cmp w w := mapOf_self (List.pairwise_map.mp hp)
  refine honest_of isId_sequence ⟨writes_writeAll _, hw, .inr rfl, hl⟩ ⟨w, h2, ?_, ?_⟩
  · exact (guard_self IdRef.sequence _).trans ((fromDer_foldPairs dk dv _ _ _ _).mpr ⟨_, h3, (mapOf_iff _ _).mpr hm⟩)
  · refine (guard_self IdRef.sequence _).trans ?_
    change (excludeEoc m' (.definite (v.flatMap fun x => pairOctets (tlvOf (K.enc x.1)) (tlvOf (V.enc x.2))).length) (v.flatMap fun x => pairOctets (tlvOf (K.enc x.1)) (tlvOf (V.enc x.2))) >>= _) = _
    rw [excludeEoc_definite, Res.bind_ok]
    exact (fromBer_foldPairs dk dv _ _ hf _ _).mpr ⟨_, h4, (mapOf_iff _ _).mpr hm⟩

example (m m' : Build) (junk : UInt8) : Honors (Ser.btreeMap m (Ser.int .u8) (Readme.simpleAuthSer junk))
    (De.btreeMap m' compare (De.int m' .u8) Readme.simpleAuthDe) ((codecOf (.int .u8)).sortedPairs compare authCodec) ∧
    ((codecOf (.int .u8)).sortedPairs compare authCodec).ok [(3, [1]), (7, [])] :=
  ⟨C120_btree_map m m' compare (byte_honors m m') byte_exact (C120_simple_auth junk), by decide,
    by simp [byte_ok, authCodec]⟩

/-- `HashSet`; `order` is the order of iteration of the set that is made. -/
theorem C120_hash_set [DecidableEq α] (m m' : Build) (order : List α → List α) (ho : ∀ l, (order l).Perm l) {s : Ser α} {d : De α}
    {C : Codec α} (h : Honors s d C) (hC : C.Exact) : Honors (Ser.hashSet m s) (De.hashSet m' order d) C.unordered := by
  intro v hok hfit
  have hf : (v.flatMap fun x => tlvOf (C.enc x)).length ≤ isizeMax := fits_contents hfit
  obtain ⟨hw, hl⟩ := honors_each m h hok.2 hf
  obtain ⟨w, h1, h2⟩ := honors_elems h hok.2 hf
  have e := forall₂_faithful h2 fun x hx y hy => hC x y (hok.2 x hx) hy
  subst e
  obtain ⟨h3, h4⟩ := elems_both h1
  have hs : w = w.foldl (fun ret t => hashInsert t ret) [] := by rw [foldl_hashInsert, firsts_of_nodup hok.1]
  refine honest_of isId_setOf ⟨writes_writeAll _, hw, .inr rfl, hl⟩ ⟨order w, ho w, ?_, ?_⟩
  · exact (guard_self IdRef.set _).trans (map_ok.mpr ⟨w, (fromDer_fold d _ _ _ _).mpr ⟨_, h3, hs⟩, rfl⟩)
  · refine (guard_self IdRef.set _).trans ?_
    change (excludeEoc m' (.definite (w.flatMap fun x => tlvOf (C.enc x)).length) (w.flatMap fun x => tlvOf (C.enc x)) >>= _) = _
    rw [excludeEoc_definite, Res.bind_ok]
    exact map_ok.mpr ⟨w, (fromBer_fold d _ _ hf _ _).mpr ⟨_, h4, hs⟩, rfl⟩

example (m m' : Build) (junk : UInt8) : Honors (Ser.hashSet m (Readme.simpleAuthSer junk)) (De.hashSet m' List.reverse Readme.simpleAuthDe)
    authCodec.unordered ∧ authCodec.unordered.ok [[1], [2, 3]] :=
  ⟨C120_hash_set m m' _ List.reverse_perm (C120_simple_auth junk) authCodec_exact, by decide, by simp [authCodec]⟩

/-- `HashMap`, if the keys have size hints (C42 shows that they must). -/
theorem C120_hash_map [DecidableEq α] (m m' : Build) (order : List (α × β) → List (α × β)) (ho : ∀ l, (order l).Perm l)
    {sk : Ser α} {dk : De α} {K : Codec α} (hk : Honors sk dk K) (hK : K.Exact) (hs : Sized sk K) {sv : Ser β} {dv : De β} {V : Codec β}
    (hv : Honors sv dv V) : Honors (Ser.hashMap m sk sv) (De.hashMap m' order dk dv) (K.unorderedPairs V) := by
  intro v hok hfit
  have hf : (v.flatMap fun x => pairOctets (tlvOf (K.enc x.1)) (tlvOf (V.enc x.2))).length ≤ isizeMax := fits_contents hfit
  obtain ⟨hw, hl⟩ := honors_each_pair m hk hv hok.2 hf
  obtain ⟨w, h1, h2⟩ := honors_pairs hk hv hok.2 hf
  have h2 := forall₂_exactKeys hK (fun x hx => (hok.2 x hx).1) h2
  obtain ⟨h3, h4⟩ := pairs_both h1
  have hn := hok.1
  rw [← forall₂_sameKeys h2] at hn
  have hm := (hashMapOf_iff _ _).mpr (hashMapOf_of_nodup hn)
  rw [← hashLen_eq m (sv := sv) (ev := V.enc) v (fun x hx hf => hs x.1 (hok.2 x hx).1 hf) hf] at hl
  refine honest_of isId_setOf ⟨writes_writeAll _, hw, .inr rfl, hl⟩ ⟨order w, ⟨w, h2, ho w⟩, ?_, ?_⟩
  · exact (guard_self IdRef.set _).trans (map_ok.mpr ⟨w, (fromDer_foldPairs dk dv _ _ _ _).mpr ⟨_, h3, hm⟩, rfl⟩)
  · refine (guard_self IdRef.set _).trans ?_
    change (excludeEoc m' (.definite (v.flatMap fun x => pairOctets (tlvOf (K.enc x.1)) (tlvOf (V.enc x.2))).length) (v.flatMap fun x => pairOctets (tlvOf (K.enc x.1)) (tlvOf (V.enc x.2))) >>= _) = _
    rw [excludeEoc_definite, Res.bind_ok]
    exact map_ok.mpr ⟨w, (fromBer_foldPairs dk dv _ _ hf _ _).mpr ⟨_, h4, hm⟩, rfl⟩

example (m m' : Build) (junk : UInt8) : Honors (Ser.hashMap m (Readme.simpleAuthSer junk) (Ser.int .u8))
    (De.hashMap m' List.reverse Readme.simpleAuthDe (De.int m' .u8)) (authCodec.unorderedPairs (codecOf (.int .u8))) ∧
    (authCodec.unorderedPairs (codecOf (.int .u8))).ok [([1], 3), ([2, 3], 200)] :=
  ⟨C120_hash_map m m' _ List.reverse_perm (C120_simple_auth junk) authCodec_exact (authCodec_sized junk) (byte_honors m m'), by decide,
    by simp [authCodec, byte_ok]⟩

/-! ### Derived types -/

/-- A container with `into` or `to`, and `from` or `try_from`. -/
theorem C120_converted {s : Ser δ} {d : De δ} {C : Codec δ} (h : Honors s d C) (f : β → δ) :
    (∀ g : δ → β, Honors (Ser.conv s f) (De.from_ d g) (C.conv f (.from_ g))) ∧
    (∀ g : δ → Except Chain β, Honors (Ser.conv s f) (De.tryFrom d g) (C.conv f (.tryFrom g))) := by
  have key : ∀ g : Back δ β, Honors (Ser.conv s f) (De.back d g) (C.conv f g) := by
    intro g v hok hfit
    have hv := h (f v) hok.1 hfit
    obtain ⟨u, h1, h2, h3⟩ := hv.back
    obtain ⟨w, h4⟩ := hok.2 u h1
    refine honest_of hv.isId (conv_serializes f (Honest.serializes hv)) ⟨w, ⟨u, h1, h4⟩, ?_, ?_⟩
    · exact (back_fromDer d g _ _ _).mpr ⟨u, h2, h4⟩
    · exact (back_fromBer d g _ _ _ _).mpr ⟨u, h3, h4⟩
  exact ⟨fun g => key (.from_ g), fun g => key (.tryFrom g)⟩

/-- A password that must not be empty. -/
def nonEmpty (v : Bytes) : Except Chain Bytes := if v = [] then .error .foreign else .ok v

example (junk : UInt8) : Honors (Ser.conv (Readme.simpleAuthSer junk) fun v => 1 :: v) (De.tryFrom Readme.simpleAuthDe nonEmpty)
    (authCodec.conv (fun v => 1 :: v) (.tryFrom nonEmpty)) ∧ (authCodec.conv (fun v => 1 :: v) (.tryFrom nonEmpty)).ok [2] :=
  ⟨(C120_converted (C120_simple_auth junk) _).2 _, trivial, fun u h => ⟨[1, 2], by cases h; rfl⟩⟩

/-- A `u8` of the library, a skipped `bool`, a password by hand, and one that is converted. -/
def sampleHand (m : Build) (junk : UInt8) : HandFields (Int × Bool × Bytes × Bytes × Unit) :=
  .cons (.plain (Ser.int .u8) (De.int m .u8) (codecOf (.int .u8))) (.cons (.skip true)
    (.cons (.plain (Readme.simpleAuthSer junk) Readme.simpleAuthDe authCodec)
      (.cons (.conv (Readme.simpleAuthSer junk) Readme.simpleAuthDe authCodec (fun v => 1 :: v) (.tryFrom nonEmpty)) .nil)))

theorem sampleHand_honors (m : Build) (junk : UInt8) : (sampleHand m junk).Honors :=
  ⟨byte_honors m m, trivial, C120_simple_auth junk, C120_simple_auth junk, trivial⟩

theorem sampleHand_ok (m : Build) (junk : UInt8) : (sampleHand m junk).ok (7, false, [], [2], ()) :=
  ⟨byte_ok (by decide) (by decide), trivial, trivial, ⟨trivial, fun u h => ⟨[1, 2], by cases h; rfl⟩⟩, trivial⟩

/-- A derived struct: fields by hand, of the library, derived, skipped or converted, in any order. -/
theorem C120_struct (m m' : Build) (id : Bytes) (hid : IsId id) (fs : HandFields γ) (h : fs.Honors) :
    Honors (Ser.struct m id fs.ser) (De.struct m' id fs.de) (fs.codec id) := by
  intro v hok hfit
  have hf : (fs.enc v).length ≤ isizeMax := fits_contents hfit
  obtain ⟨w, h1, h2, h3⟩ := HandFields.reads m' fs h v hok hf
  refine honest_of hid (struct_serializes m id (HandFields.writes fs h v hok hf) hf) ⟨w, h1, ?_, ?_⟩
  · exact (guard_self id _).trans h2
  · exact (guard_self id _).trans h3

example (m : Build) (junk : UInt8) : Honors (Ser.struct m [0x30] (sampleHand m junk).ser) (De.struct m [0x30] (sampleHand m junk).de)
    ((sampleHand m junk).codec [0x30]) ∧ ((sampleHand m junk).codec [0x30]).ok (7, false, [], [2], ()) ∧
    ((sampleHand m junk).codec [0x30]).enc (7, false, [], [2], ()) = ([0x30], [2, 1, 7, 0, 0, 0, 2, 1, 2]) :=
  ⟨C120_struct m m [0x30] isId_sequence _ (sampleHand_honors m junk), sampleHand_ok m junk, rfl⟩

/-- A derived enum, if the identifiers of the variants differ. -/
theorem C120_enum (m m' : Build) (vs : HandVariants ρ) (hid : ∀ id ∈ vs.ids, IsId id) (hn : vs.ids.Nodup) (h : vs.Honors) :
    Honors (Ser.enum m vs.ser) (De.enum m' vs.de) vs.codec := by
  intro v hok hfit
  have hf : (vs.enc v).2.length ≤ isizeMax := fits_contents hfit
  exact honest_of (hid _ (HandVariants.enc_mem vs v)) (HandVariants.serializes m vs h v hok hf)
    (HandVariants.reads m' vs h hn v hok hf)

example (m : Build) (junk : UInt8) : ∃ vs : HandVariants (Unit ⊕ ((Int × Bool × Bytes × Bytes × Unit) ⊕ Empty)),
    Honors (Ser.enum m vs.ser) (De.enum m vs.de) vs.codec ∧ vs.codec.ok (.inr (.inl (7, false, [], [2], ()))) :=
  ⟨.cons [0x30] .nil (.cons [0x31] (sampleHand m junk) .nil),
    C120_enum m m _ (by intro id h; simp only [HandVariants.ids, List.mem_cons, List.not_mem_nil, or_false] at h
                        rcases h with rfl | rfl; exacts [isId_sequence, isId_setOf])
      (by simp [HandVariants.ids]) ⟨trivial, sampleHand_honors m junk, trivial⟩, sampleHand_ok m junk⟩

/-- A transparent struct: if one field is not skipped, code is generated, and encodes that field alone. -/
theorem C120_transparent (fs : HandFields γ) (hn : fs.count = 1) (h : fs.Honors) :
    ∃ s d, Ser.transparent fs.ser = some s ∧ De.transparent fs.de = some d ∧ Honors s d fs.codecOne := by
  obtain ⟨t, h1⟩ := HandFields.active_one fs hn
  obtain ⟨s, hs⟩ : ∃ s, Ser.transparent fs.ser = some s := by rw [Ser.transparent, h1]; exact ⟨_, rfl⟩
  have hd : De.transparent fs.de = some _ := if_pos (by rw [HandFields.counted]; exact hn)
  refine ⟨s, _, hs, hd, fun v hok hfit => ?_⟩
  obtain ⟨h0, t', h2, h3⟩ := HandFields.serializesOne fs h hn v hok hfit
  obtain ⟨s', e, h4⟩ := transparent_serializes h2 h3
  obtain rfl := Option.some.inj (hs.symm.trans e)
  exact honest_of h0 h4 (HandFields.readsOne fs h hn v hok hfit)

example (junk : UInt8) : ∃ fs : HandFields (Bool × Bytes × Unit), fs.count = 1 ∧ fs.Honors ∧ fs.codecOne.ok (false, [4, 5], ()) ∧
    fs.codecOne.enc (false, [4, 5], ()) = ([0], [4, 5]) :=
  ⟨.cons (.skip true) (.cons (.plain (Readme.simpleAuthSer junk) Readme.simpleAuthDe authCodec) .nil), rfl,
    ⟨trivial, C120_simple_auth junk, trivial⟩, ⟨trivial, trivial, trivial⟩, rfl⟩

end Bsn1
