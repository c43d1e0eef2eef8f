import Verif.Lemmas.SerTy
import Verif.Lemmas.Writer
/-!
# C39–C42, C45: serialization
-/

namespace Bsn1
open Spec

variable {α β : Type}

/-- The octets a computation writes. -/
def written (w : W Unit) : Bytes := w.chunks.flatten

/-! ### A type with most constructors, for the examples -/

/-- `struct { a: u8, #[skip] b: bool, #[into/from] c: i64 -> String, d: BTreeMap<String, Vec<i16>> }` with the
application tag 5, wrapped in an enum as its second variant. -/
def sampleTy : Ty (Unit ⊕ ((Int × Bool × Int × List (String × List Int) × Unit) ⊕ Empty)) :=
  .enum (.cons [0x80] .nil (.cons [0x65]
    (.plain (.int .u8) (.skip true (.conv .octetString (fun v : Int => if v = 0 then [] else [7])
      (.from_ fun b => if b = [] then 0 else 1)
      (.plain (.btreeMap compare inferInstance inferInstance .string (.vec (.int .i16))) .nil)))) .nil))

def sampleVal : Unit ⊕ ((Int × Bool × Int × List (String × List Int) × Unit) ⊕ Empty) :=
  .inr (.inl (200, false, 1, [("a", [1, -2]), ("b", [])], ()))

theorem sample_serializable : sampleTy.serializable :=
  ⟨⟨2, 0, 0, by decide, by decide, by decide +kernel⟩, trivial,
    ⟨1, 1, 5, by decide, by decide, by decide +kernel⟩, ⟨trivial, trivial, ⟨trivial, trivial⟩, trivial⟩, trivial⟩

theorem sample_ok : sampleTy.ok sampleVal := by
  refine ⟨by change IntTy.u8.InRange 200; decide, trivial, ⟨by decide +kernel, ?_⟩, trivial⟩
  intro x hx
  simp only [List.mem_cons, List.not_mem_nil, or_false] at hx
  rcases hx with rfl | rfl
  · refine ⟨trivial, fun y hy => ?_⟩
    change IntTy.i16.InRange y
    simp only [List.mem_cons, List.not_mem_nil, or_false] at hy
    rcases hy with rfl | rfl <;> decide
  · exact ⟨trivial, by intro y hy; cases hy⟩

theorem sample_der : sampleTy.der sampleVal =
    [0x65, 0x1d, 0x02, 0x02, 0x00, 0xc8, 0x04, 0x01, 0x07,
      0x30, 0x14, 0x30, 0x0b, 0x0c, 0x01, 0x61, 0x30, 0x06, 0x02, 0x01, 0x01, 0x02, 0x01, 0xfe,
      0x30, 0x05, 0x0c, 0x01, 0x62, 0x30, 0x00] := by
  decide +kernel

/-! ### C39 -/

/-- C39.  For every supported type, arbitrarily nested, and every value whose encoding fits in memory: nothing
fails, and a size hint that is given is the number of octets written. -/
theorem C39_size_hints (m : Build) (t : Ty α) (hs : t.serializable) (v : α) (hok : t.ok v)
    (hfit : (t.der v).length ≤ isizeMax) :
    ((Ty.ser m t).writeId v).res = .ok () ∧ ((Ty.ser m t).writeDerContents v).res = .ok () ∧
    (∃ o, (Ty.ser m t).idLen v = .ok o ∧ ∀ n, o = some n → (written ((Ty.ser m t).writeId v)).length = n) ∧
    (∃ o, (Ty.ser m t).derContentsLen v = .ok o ∧
      ∀ n, o = some n → (written ((Ty.ser m t).writeDerContents v)).length = n) := by
  have h := Ty.serializes m t hs v hok hfit
  have e1 : written ((Ty.ser m t).writeId v) = (t.enc v).1 := h.writeId.2
  have e2 : written ((Ty.ser m t).writeDerContents v) = (t.enc v).2 := h.writeContents.2
  refine ⟨h.writeId.1, h.writeContents.1, ?_, ?_⟩
  · rcases h.idLen with e | e
    · exact ⟨_, e, by simp⟩
    · refine ⟨_, e, ?_⟩
      rintro n ⟨⟩
      rw [e1]
  · rcases h.contentsLen with e | e
    · exact ⟨_, e, by simp⟩
    · refine ⟨_, e, ?_⟩
      rintro n ⟨⟩
      rw [e2]

example (m : Build) := C39_size_hints m sampleTy sample_serializable sampleVal sample_ok (by rw [sample_der]; decide)

/-- C39.  What is written is the identifier and the contents octets of the specification. -/
theorem C39_octets_written (m : Build) (t : Ty α) (hs : t.serializable) (v : α) (hok : t.ok v)
    (hfit : (t.der v).length ≤ isizeMax) :
    written ((Ty.ser m t).writeId v) = (t.enc v).1 ∧ written ((Ty.ser m t).writeDerContents v) = (t.enc v).2 :=
  have h := Ty.serializes m t hs v hok hfit
  ⟨h.writeId.2, h.writeContents.2⟩

example (m : Build) : written ((Ty.ser m sampleTy).writeId sampleVal) = [0x65] :=
  (C39_octets_written m sampleTy sample_serializable sampleVal sample_ok (by rw [sample_der]; decide)).1.trans rfl

/-- C39.  Both hints are given unless the type involves a conversion. -/
theorem C39_hints_given (m : Build) (t : Ty α) (hs : t.serializable) (hz : t.sized = true) (v : α) (hok : t.ok v)
    (hfit : (t.der v).length ≤ isizeMax) :
    (Ty.ser m t).idLen v = .ok (some (written ((Ty.ser m t).writeId v)).length) ∧
    (Ty.ser m t).derContentsLen v = .ok (some (written ((Ty.ser m t).writeDerContents v)).length) := by
  obtain ⟨e1, e2⟩ := C39_octets_written m t hs v hok hfit
  rw [e1, e2]
  exact Ty.hints m t hs hz v hok hfit

example (m : Build) := C39_hints_given m (.vec .bool) trivial rfl [true, false] (fun _ _ => trivial) (by decide +kernel)

/-- C39 for elements of any type with a hand-written `Serialize` that keeps the contract: the collections, structs
and maps keep it. -/
theorem C39_contract_preserved (m : Build) (s : Ser α) (enc : α → Bytes × Bytes) (l : List α)
    (h : ∀ x ∈ l, Serializes s x (enc x).1 (enc x).2) (hfit : (l.flatMap fun x => tlvOf (enc x)).length ≤ isizeMax) :
    Serializes (Ser.vec m s) l [0x30] (l.flatMap fun x => tlvOf (enc x)) ∧
    Serializes (Ser.linkedList m s) l [0x30] (l.flatMap fun x => tlvOf (enc x)) ∧
    Serializes (Ser.vecDeque m s) l [0x30] (l.flatMap fun x => tlvOf (enc x)) ∧
    Serializes (Ser.btreeSet m s) l [0x30] (l.flatMap fun x => tlvOf (enc x)) ∧
    Serializes (Ser.hashSet m s) l [0x31] (l.flatMap fun x => tlvOf (enc x)) := by
  have h' : ∀ x ∈ l, (tlvOf (enc x)).length ≤ isizeMax → Serializes s x (enc x).1 (enc x).2 := fun x hx _ => h x hx
  refine ⟨⟨writes_writeAll _, writeEach_writes m l h' hfit, .inr rfl, eachLen_ok m l h' hfit⟩,
    ⟨writes_writeAll _, writeEach_writes m l h' hfit, .inr rfl, eachLen_ok m l h' hfit⟩,
    ⟨writes_writeAll _, writeEach_writes m l h' hfit, .inr rfl, eachLen_ok m l h' hfit⟩,
    ⟨writes_writeAll _, writeEach_writes m l h' hfit, .inr rfl, eachLen_ok m l h' hfit⟩,
    ⟨writes_writeAll _, writeEach_writes m l h' hfit, .inr rfl, eachLen_ok m l h' hfit⟩⟩

example : sampleTy.serializable ∧ sampleTy.ok sampleVal ∧ (sampleTy.der sampleVal).length ≤ isizeMax :=
  ⟨sample_serializable, sample_ok, by rw [sample_der]; decide⟩

example : (Ty.btreeMap compare inferInstance inferInstance (.int .u8) (.vec .string)).sized = true := rfl

/-! ### C40 -/

/-- C40.  The size computed from the value is the size of the contents octets, for every integer type. -/
theorem C40_integer_size (t : IntTy) (v : Int) (h : t.InRange v) :
    ∃ c, Contents.ofInt t v = .ok c ∧ (Ser.int t).derContentsLen v = .ok (some c.length) :=
  ⟨intOctets v, ofInt_intOctets t v h, by
    change Res.ok (some (intLen t v)) = _
    rw [intLen_eq t v h]⟩

example : IntTy.u128.InRange (2 ^ 128 - 1) ∧ (Ser.int .u128).derContentsLen (2 ^ 128 - 1) = .ok (some 17) := by
  refine ⟨by decide, ?_⟩
  change Res.ok (some (intLen _ _)) = _
  decide +kernel
example : (Ser.int .i64).derContentsLen (-129) = .ok (some 2) := by
  change Res.ok (some (intLen _ _)) = _
  decide +kernel

/-! ### C41 -/

/-- The part of the contract of `Serialize` that `to_der` relies on: `write_id` writes an identifier, a size
hint for the contents is the number of octets written.  Sizes are of type `usize`, slices are at most `isize::MAX` octets long, as all
objects in Rust. -/
structure Contract (s : Ser α) (v : α) : Prop where
  id : (s.writeId v).res = .ok () → IsId (written (s.writeId v))
  hint : ∀ n, s.derContentsLen v = .ok (some n) → (s.writeDerContents v).res = .ok () →
    (written (s.writeDerContents v)).length = n
  usize : ∀ n, s.derContentsLen v = .ok (some n) → n < 2 ^ 64
  idSlices : ∀ c ∈ (s.writeId v).chunks, c.length ≤ isizeMax
  slices : ∀ c ∈ (s.writeDerContents v).chunks, c.length ≤ isizeMax

/-- C41.  Whenever `to_der` succeeds for any implementation keeping the contract, the result is one well-formed
DER value made of the identifier and the contents written; `id_len` has no influence on it. -/
theorem C41_to_der_well_formed (m : Build) (s : Ser α) (v : α) (hc : Contract s v) (d : Bytes)
    (h : toDer m s v = .ok d) :
    d = tlv (written (s.writeId v)) (written (s.writeDerContents v)) ∧
    DerRef.parse d = (.ok d, []) ∧ DerRef.id d = .ok (written (s.writeId v)) ∧
    DerRef.contents d = .ok (written (s.writeDerContents v)) := by
  have key : (s.writeId v).res = .ok () ∧ (written (s.writeDerContents v)).length ≤ isizeMax ∧
      d = tlv (written (s.writeId v)) (written (s.writeDerContents v)) := by
    rw [toDer] at h
    cases ecl : contentsLen m s v with
    | ok x =>
      obtain ⟨n, o⟩ := x
      rw [ecl, Res.bind_ok] at h
      simp only [] at h
      cases el : (Length.definite n).toBytes with
      | ok lb =>
        rw [el, Res.bind_ok] at h
        cases ei : s.idLen v with
        | ok il =>
          rw [ei, Res.bind_ok] at h
          cases er : reserveDer m il lb.length n with
          | ok _ =>
            rw [er, Res.bind_ok] at h
            cases e1 : (s.writeId v).toBuffer m [] with
            | ok y =>
              obtain ⟨u, b1⟩ := y
              rw [e1, Res.bind_ok] at h
              simp only [] at h
              obtain ⟨hr1, hb1, hl1⟩ := toBuffer_inv m _ _ (by simp) hc.idSlices e1
              rw [List.nil_append] at hb1
              cases e2 : writeBuffer m [lb] b1 with
              | ok b2 =>
                rw [e2, Res.bind_ok] at h
                -- the length octets are short
                have hlb : ∀ k, n = k → k < 2 ^ 64 → lb = lenOctets k := by
                  rintro k rfl hk
                  rw [toBytes_definite hk] at el
                  cases el; rfl
                have hlb2 : ∀ c : Bytes, n = c.length → c.length ≤ isizeMax → b2 = b1 ++ lenOctets c.length ∧ b2.length ≤ isizeMax := by
                  intro c hn hcl
                  have e := hlb _ hn (fits_lt hcl)
                  have hlen : ∀ x ∈ [lb], x.length ≤ isizeMax := by
                    intro x hx
                    cases List.mem_singleton.mp hx
                    rw [e]
                    have := lenOctets_length_le (fits_lt hcl)
                    have := isizeMax_eq
                    omega
                  obtain ⟨h1, h2⟩ := writeBuffer_inv m _ _ _ hl1 hlen e2
                  exact ⟨by rw [h1, e]; simp, h2⟩
                rw [contentsLen] at ecl
                cases eh : s.derContentsLen v with
                | ok o' =>
                  rw [eh, Res.bind_ok] at ecl
                  cases o' with
                  | some k =>
                    cases ecl
                    simp only [] at h
                    cases e3 : (s.writeDerContents v).toBuffer m b2 with
                    | ok z =>
                      obtain ⟨u', b3⟩ := z
                      rw [e3, Res.bind_ok] at h
                      cases h
                      have hres : (s.writeDerContents v).res = .ok () := by
                        rw [W.toBuffer] at e3
                        cases ew : writeBuffer m (s.writeDerContents v).chunks b2 with
                        | ok x =>
                          rw [ew, Res.bind_ok] at e3
                          cases er : (s.writeDerContents v).res with
                          | ok y => rfl
                          | _ => rw [er] at e3; cases e3
                        | _ => rw [ew] at e3; cases e3
                      have hn := hc.hint n eh hres
                      have hb2 : b2.length ≤ isizeMax := by
                        have hlen : ∀ x ∈ [lb], x.length ≤ isizeMax := by
                          intro x hx
                          cases List.mem_singleton.mp hx
                          rw [hlb _ rfl (hc.usize n eh)]
                          have := lenOctets_length_le (hc.usize n eh)
                          have := isizeMax_eq
                          omega
                        exact (writeBuffer_inv m _ _ _ hl1 hlen e2).2
                      obtain ⟨_, h1, h2⟩ := toBuffer_inv m _ _ hb2 hc.slices e3
                      have hcl : (written (s.writeDerContents v)).length ≤ isizeMax := by
                        rw [h1, List.length_append] at h2
                        exact (Nat.le_add_left _ _).trans h2
                      obtain ⟨h3, _⟩ := hlb2 _ hn.symm hcl
                      refine ⟨hr1, hcl, ?_⟩
                      rw [h1, h3, hb1]
                      rfl
                    | _ => rw [e3] at h; cases h
                  | none =>
                    simp only [] at ecl
                    cases e3 : (s.writeDerContents v).toBuffer m [] with
                    | ok z =>
                      obtain ⟨u', b3⟩ := z
                      rw [e3, Res.bind_ok] at ecl
                      cases ecl
                      simp only [] at h
                      obtain ⟨_, h1, h2⟩ := toBuffer_inv m _ _ (by simp) hc.slices e3
                      rw [List.nil_append] at h1
                      obtain ⟨h3, h4⟩ := hlb2 b3 rfl h2
                      have hlen : ∀ x ∈ [b3], x.length ≤ isizeMax := by
                        intro x hx
                        cases List.mem_singleton.mp hx
                        exact h2
                      obtain ⟨h5, _⟩ := writeBuffer_inv m _ _ _ h4 hlen h
                      refine ⟨hr1, by rw [written, ← h1]; exact h2, ?_⟩
                      rw [h5, h3, hb1, h1]
                      simp [tlv, written]
                    | _ => rw [e3] at ecl; cases ecl
                | _ => rw [eh] at ecl; cases ecl
              | _ => rw [e2] at h; cases h
            | _ => rw [e1] at h; cases h
          | _ => rw [er] at h; cases h
        | _ => rw [ei] at h; cases h
      | _ => rw [el] at h; cases h
    | _ => rw [ecl] at h; cases h
  obtain ⟨h1, h2, rfl⟩ := key
  have hid := hc.id h1
  have hp := DerRef_parse_tlv hid (fits_lt h2) []
  rw [List.append_nil] at hp
  exact ⟨rfl, hp, DerRef_id_tlv hid _, DerRef_contents_tlv hid (fits_lt h2)⟩

/-- C41.  For every supported type `to_der` succeeds on each value whose encoding fits in memory, and returns the
DER encoding of the specification, which is one well-formed value; likewise `to_ber`. -/
theorem C41_to_der (m : Build) (t : Ty α) (hs : t.serializable) (v : α) (hok : t.ok v)
    (hfit : (t.der v).length ≤ isizeMax) :
    toDer m (Ty.ser m t) v = .ok (t.der v) ∧ toBer m (Ty.ser m t) v = .ok (t.der v) ∧
    ∀ rest, DerRef.parse (t.der v ++ rest) = (.ok (t.der v), rest) :=
  have h := toDer_ok m (Ty.serializes m t hs v hok hfit) hfit
  ⟨h, h, DerRef_parse_tlv (Ty.enc_isId t hs v) (fits_lt (fits_contents hfit))⟩

/-- The contract is kept, e.g. by a derived struct and by an implementation without any hint. -/
example : Contract (Ty.ser .release sampleTy) sampleVal where
  id _ := by
    rw [(C39_octets_written .release _ sample_serializable _ sample_ok (by rw [sample_der]; decide)).1]
    exact Ty.enc_isId _ sample_serializable _
  hint n h _ := by
    obtain ⟨_, _, _, o, h1, h2⟩ :=
      C39_size_hints .release _ sample_serializable sampleVal sample_ok (by rw [sample_der]; decide)
    rw [h] at h1
    exact h2 n (by cases h1; rfl)
  usize n h := by
    obtain ⟨_, _, _, o, h1, h2⟩ :=
      C39_size_hints .release _ sample_serializable sampleVal sample_ok (by rw [sample_der]; decide)
    rw [h] at h1
    rw [← h2 n (by cases h1; rfl),
      (C39_octets_written .release _ sample_serializable _ sample_ok (by rw [sample_der]; decide)).2]
    exact fits_lt (fits_of_der (t := sampleTy) (v := sampleVal) (by rw [sample_der]; decide))
  idSlices c hc := by
    have h : (c : Bytes) ∈ [([0x65] : Bytes)] := hc
    cases List.mem_singleton.mp h
    decide
  slices := by decide +kernel

/-- An octet string that does not tell its size. -/
def noHintSer : Ser Bytes where
  writeId _ := ⟨[[0x04]], .ok ()⟩
  writeDerContents v := ⟨[v], .ok ()⟩
  idLen _ := .ok none
  derContentsLen _ := .ok none

example : DerRef.parse [0x04, 0x02, 0x07, 0x08] = (.ok [0x04, 0x02, 0x07, 0x08], []) ∧ DerRef.contents [0x04, 0x02, 0x07, 0x08] = .ok [0x07, 0x08] := by
  have hc : Contract noHintSer [0x07, 0x08] := ⟨fun _ => ⟨0, 0, 4, by decide, by decide, by decide +kernel⟩, nofun, nofun, by decide +kernel, by decide +kernel⟩
  have h := C41_to_der_well_formed .debug noHintSer [0x07, 0x08] hc [0x04, 0x02, 0x07, 0x08] (by decide +kernel)
  exact ⟨h.2.1, h.2.2.2⟩

example : toDer .debug (Ty.ser .debug sampleTy) sampleVal = .ok (sampleTy.der sampleVal) :=
  (C41_to_der .debug _ sample_serializable _ sample_ok (by rw [sample_der]; decide)).1

/-! ### C42 -/

/-- C42 fails for every map with at least one entry and keys without size hints: the length octet says that the
contents are empty, and the pairs follow. -/
theorem C42_hash_map_keys_without_hint_violated (m : Build) (sk : Ser α) (sv : Ser β) (ek : α → Bytes × Bytes)
    (ev : β → Bytes × Bytes) (l : List (α × β)) (hl : l ≠ [])
    (hk : ∀ x ∈ l, Serializes sk x.1 (ek x.1).1 (ek x.1).2) (hv : ∀ x ∈ l, Serializes sv x.2 (ev x.2).1 (ev x.2).2)
    (hn : ∀ x ∈ l, sk.derContentsLen x.1 = .ok none)
    (hfit : (tlv [0x31] (l.flatMap fun x => pairOctets (tlvOf (ek x.1)) (tlvOf (ev x.2)))).length ≤ isizeMax) :
    toDer m (Ser.hashMap m sk sv) l =
      .ok (0x31 :: 0x00 :: l.flatMap fun x => pairOctets (tlvOf (ek x.1)) (tlvOf (ev x.2))) ∧
    ∀ d, toDer m (Ser.hashMap m sk sv) l = .ok d → DerRef.parse d ≠ (.ok d, []) := by
  have hlen : ∀ (l : List (α × β)) (acc : Nat), (∀ x ∈ l, sk.derContentsLen x.1 = .ok none) →
      hashMapLen m sk sv l acc = .ok (some acc) := by
    intro l acc h
    induction l with
    | nil => rfl
    | cons x r ih =>
      rw [hashMapLen, derLen, h x (by simp), Res.bind_ok]
      exact ih fun y hy => h y (by simp [hy])
  have hw := writePairs_writes m (ek := ek) (ev := ev) l (fun x hx _ => hk x hx) (fun x hx _ => hv x hx)
    (fits_contents hfit)
  have hp : 0 < (encPairs ek ev l).length := by
    cases l with
    | nil => exact absurd rfl hl
    | cons x r =>
      simp only [encPairs, List.flatMap_cons, List.length_append, pairOctets, tlv_length, List.length_cons]
      omega
  have hf := hfit
  rw [tlv_length] at hf
  change 1 + _ + (encPairs ek ev l).length ≤ _ at hf
  have hlo : 0 < (lenOctets (encPairs ek ev l).length).length := by
    have := lenOctets_ne_nil (encPairs ek ev l).length
    exact List.length_pos_iff.mpr this
  change 1 + (lenOctets (encPairs ek ev l).length).length + _ ≤ _ at hf
  have e : toDer m (Ser.hashMap m sk sv) l = .ok (0x31 :: 0x00 :: encPairs ek ev l) := by
    have h1 : contentsLen m (Ser.hashMap m sk sv) l = .ok (0, none) := by
      rw [contentsLen]
      change (hashMapLen m sk sv l 0 >>= _) = _
      rw [hlen l 0 hn]; rfl
    rw [toDer, h1, Res.bind_ok]
    simp only []
    rw [toBytes_definite (by decide), Res.bind_ok]
    change (Res.ok (some 1) >>= _) = _
    rw [Res.bind_ok]
    have h2 : reserveDer m (some 1) (lenOctets 0).length 0 = .ok () := by cases m <;> decide +kernel
    rw [h2, Res.bind_ok]
    have h3 : ((Ser.hashMap m sk sv).writeId l).toBuffer m [] = .ok ((), [0x31]) :=
      toBuffer_ok m (writes_writeAll _) [] (by decide)
    rw [h3, Res.bind_ok]
    simp only []
    rw [writeBuffer_ok m _ _ (by decide), Res.bind_ok]
    have h4 : ((Ser.hashMap m sk sv).writeDerContents l).toBuffer m [0x31, 0x00] =
        .ok ((), [0x31, 0x00] ++ encPairs ek ev l) :=
      toBuffer_ok m hw _ (by simp only [List.length_cons, List.length_nil]; omega)
    have h5 : ([0x31] : Bytes) ++ [lenOctets 0].flatten = [0x31, 0x00] := by decide +kernel
    rw [h5, h4]
    rfl
  refine ⟨e, fun d hd h => ?_⟩
  rw [e] at hd
  cases hd
  have hq := DerRef_parse_tlv (id := [0x31]) ⟨0, 1, 17, by decide, by decide, by decide +kernel⟩ (c := [])
    (by decide) (encPairs ek ev l)
  have h6 : tlv [0x31] [] ++ encPairs ek ev l = 0x31 :: 0x00 :: encPairs ek ev l := by
    have : tlv [0x31] [] = [0x31, 0x00] := by decide +kernel
    rw [this]; rfl
  rw [h6, h] at hq
  have h7 := (Prod.mk.inj hq).2
  rw [← h7] at hp
  exact absurd hp (by simp)

/-- C42 fails: the type of keys is a derived struct with `to`/`from`. -/
theorem C42_hash_map_violated :
    ¬ ∀ (m : Build) (α β : Type) (eq : DecidableEq α) (k : Ty α) (t : Ty β) (v : List (α × β)) (d : Bytes),
      k.serializable → t.serializable → (Ty.hashMap eq k t).ok v →
      toDer m (Ty.ser m (.hashMap eq k t)) v = .ok d → DerRef.parse d = (.ok d, []) := by
  intro h
  let k : Ty Bool := .conv .bool id (.from_ id)
  have h1 := C42_hash_map_keys_without_hint_violated .release (Ty.ser .release k) (Ty.ser .release .bool) k.enc
    (Ty.bool).enc [(true, false)] (by simp)
    (fun x _ => Ty.serializes .release k trivial _ trivial (by cases x.1 <;> decide +kernel))
    (fun x _ => Ty.serializes .release .bool trivial _ trivial (by cases x.2 <;> decide +kernel))
    (fun _ _ => rfl) (by decide +kernel)
  refine h1.2 _ h1.1 (h .release Bool Bool inferInstance k .bool [(true, false)] _ trivial trivial ?_ h1.1)
  exact ⟨by decide, fun _ _ => ⟨trivial, trivial⟩⟩

/-- C42, the part that holds: with keys of known size (no conversion in the type of the keys), or without entries, the
output is well-formed; the values may be of any type. -/
theorem C42_hash_map_partial (m : Build) (eq : DecidableEq α) (k : Ty α) (t : Ty β) (v : List (α × β))
    (hk : k.serializable) (ht : t.serializable) (hz : k.sized = true ∨ v = []) (hok : (Ty.hashMap eq k t).ok v)
    (hfit : ((Ty.hashMap eq k t).der v).length ≤ isizeMax) :
    ∃ d, toDer m (Ty.ser m (.hashMap eq k t)) v = .ok d ∧ d = (Ty.hashMap eq k t).der v ∧
      DerRef.parse d = (.ok d, []) := by
  have hs : Serializes (Ty.ser m (.hashMap eq k t)) v [0x31] ((Ty.hashMap eq k t).enc v).2 := by
    rcases hz with hz | rfl
    · exact Ty.serializes m (.hashMap eq k t) ⟨hk, ht, hz⟩ v hok hfit
    · exact ⟨writes_writeAll _, writesR_pure (), .inr rfl, .inr rfl⟩
  refine ⟨_, toDer_ok m hs hfit, rfl, ?_⟩
  have hp := DerRef_parse_tlv (id := [0x31]) ⟨0, 1, 17, by decide, by decide, by decide +kernel⟩
    (fits_lt (fits_contents hfit)) []
  simpa using hp

example (m : Build) := C42_hash_map_partial m inferInstance (.int .u8) .bool [(200, true), (5, false)] trivial trivial (.inl rfl)
  (by simp [Ty.ok, IntTy.InRange, IntTy.minVal, IntTy.maxVal, IntTy.signed, IntTy.size]) (by decide +kernel)

/-! ### C45 -/

/-- C45 for any computation that writes: octets and result do not depend on how the writer splits the data, an
error of the writer is returned, and the octets written until then are a proper prefix. -/
theorem C45_any_writer (x : W α) (script : List WEvent) (taken : Bytes) :
    (∃ used rest, script = used ++ rest ∧ used.all goesOn = true ∧
      x.run ⟨script, taken⟩ = (x.res, ⟨rest, taken ++ x.chunks.flatten⟩)) ∨
    (∃ used e rest p, script = used ++ e :: rest ∧ used.all goesOn = true ∧ goesOn e = false ∧
      p <+: x.chunks.flatten ∧ p.length < x.chunks.flatten.length ∧
      x.run ⟨script, taken⟩ = (.err (.io (reported e)), ⟨rest, taken ++ p⟩)) := by
  rw [W.run]
  rcases writeChunks_cases x.chunks script taken with ⟨u, t, h1, h2, h3⟩ | ⟨u, e, t, p, h1, h2, h3, h4, h5, h6⟩
  · exact .inl ⟨u, t, h1, h2, by rw [h3]⟩
  · exact .inr ⟨u, e, t, p, h1, h2, h3, h4, h5, by rw [h6]⟩

example : (W.writeAll [1, 2, 3]).run ⟨[.accept 1, .fail .interrupted, .fail (.other 7), .accept 9], [0]⟩ =
    (.err (.io (.other 7)), ⟨[.accept 9], [0, 1]⟩) := by
  decide +kernel

/-- C45.  `write_der` (and `write_ber`) to any writer: if the writer never fails, it receives exactly the octets of
`to_der`; otherwise either it received them all before, or the first failure is reported and the octets taken are a proper
prefix of those of `to_der`. -/
theorem C45_write_der (m : Build) (t : Ty α) (hs : t.serializable) (v : α) (hok : t.ok v)
    (hfit : (t.der v).length ≤ isizeMax) (script : List WEvent) :
    ∃ d, toDer m (Ty.ser m t) v = .ok d ∧
      writeBer m (Ty.ser m t) v = writeDer m (Ty.ser m t) v ∧
      (script.all goesOn = true →
        ∃ rest, (writeDer m (Ty.ser m t) v).run ⟨script, []⟩ = (.ok (), ⟨rest, d⟩)) ∧
      ∀ used e rest, script = used ++ e :: rest → used.all goesOn = true → goesOn e = false →
        (∃ rest', (writeDer m (Ty.ser m t) v).run ⟨script, []⟩ = (.ok (), ⟨rest' ++ e :: rest, d⟩)) ∨
        ∃ p, p <+: d ∧ p.length < d.length ∧
          (writeDer m (Ty.ser m t) v).run ⟨script, []⟩ = (.err (.io (reported e)), ⟨rest, p⟩) := by
  have h := Ty.serializes m t hs v hok hfit
  obtain ⟨hw1, hw2⟩ := writeDer_writes m h (fits_contents hfit)
  refine ⟨_, toDer_ok m h hfit, rfl, ?_⟩
  have key := C45_any_writer (writeDer m (Ty.ser m t) v) script []
  rw [hw1, hw2] at key
  constructor
  · intro ha
    rcases key with ⟨u, r, _, _, h3⟩ | ⟨u, e, r, p, rfl, _, h3, _⟩
    · exact ⟨r, h3⟩
    · rw [List.all_append, List.all_cons, h3] at ha
      simp at ha
  · intro u e r hu hu1 he
    rcases key with ⟨u', r', h1, h2, h3⟩ | ⟨u', e', r', p, h1, h2, h3, h4, h5, h6⟩
    · left
      rw [hu] at h1
      have hle : u'.length ≤ u.length := by
        by_contra hc
        have hm : e ∈ u' := by
          have := congrArg (fun l => l[u.length]?) h1
          simp only [List.getElem?_append_right (le_refl _), Nat.sub_self, List.getElem?_cons_zero] at this
          rw [List.getElem?_append_left (by omega)] at this
          exact List.mem_of_getElem? this.symm
        rw [List.all_eq_true.mp h2 e hm] at he
        cases he
      obtain ⟨q, hq⟩ : ∃ q, r' = q ++ e :: r := by
        obtain ⟨q, hq⟩ := List.prefix_of_prefix_length_le (l₃ := u ++ e :: r) (h1 ▸ List.prefix_append u' r')
          (List.prefix_append u _) hle
        refine ⟨q, ?_⟩
        rw [← hq, List.append_assoc] at h1
        exact (List.append_cancel_left h1).symm
      exact ⟨q, by rw [h3, hq]; rfl⟩
    · right
      refine ⟨p, h4, h5, ?_⟩
      have hsame : u = u' ∧ e = e' ∧ r = r' := by
        rw [hu] at h1
        clear hu h6
        induction u generalizing u' with
        | nil =>
          cases u' with
          | nil => exact ⟨rfl, (List.cons.inj h1).1, (List.cons.inj h1).2⟩
          | cons x y =>
            have := (List.cons.inj h1).1
            subst this
            rw [List.all_cons, he] at h2
            cases h2
        | cons a b ih =>
          cases u' with
          | nil =>
            have := (List.cons.inj h1).1
            subst this
            rw [List.all_cons, h3] at hu1
            cases hu1
          | cons x y =>
            rw [List.all_cons, Bool.and_eq_true] at hu1 h2
            obtain ⟨h7, h8⟩ := List.cons.inj h1
            obtain ⟨i1, i2, i3⟩ := ih hu1.2 y h8 h2.2
            exact ⟨by rw [h7, i1], i2, i3⟩
      rw [h6, hsame.2.1, hsame.2.2]
      rfl

example : (writeDer .debug (Ty.ser .debug (.vec .bool)) [true, false]).run
    ⟨[.accept 1, .fail .interrupted, .accept 3, .accept 1, .fail (.other 7), .accept 9], []⟩ =
    (.err (.io (.other 7)), ⟨[.accept 9], [0x30, 0x06, 0x01]⟩) := by
  decide +kernel

end Bsn1
