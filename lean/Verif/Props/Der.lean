import Verif.Lemmas.Der
import Verif.Lemmas.Sim
import Verif.Props.Id
/-!
# C18–C21, C24–C28: DER values
-/

namespace Bsn1
open Spec

/-! ### C18 -/

/-- C18.  Whatever fits in memory: `Der::new` succeeds, `DerRef::parse` takes the value back from any longer input, and the
accessors return what the value was built from. -/
theorem C18_der_roundtrip (m : Build) (junk : Nat → UInt8) (id c rest : Bytes) (hid : IsId id)
    (hfit : (tlv id c).length ≤ isizeMax) :
    ∃ d, Der.new m junk id c = .ok d ∧ DerRef.parse (d ++ rest) = (.ok d, rest) ∧
      DerRef.id d = .ok id ∧ DerRef.length d = .ok (.definite c.length) ∧ DerRef.contents d = .ok c ∧
      DerRef.disassemble d = .ok (id, .definite c.length, c) := by
  have hi := isizeMax_eq
  have hc : c.length < 2 ^ 64 := by rw [tlv_length] at hfit; omega
  exact ⟨_, Der_new_ok m junk hid c hfit, DerRef_parse_tlv hid hc rest, DerRef_id_tlv hid c,
    DerRef_length_tlv hid hc, DerRef_contents_tlv hid hc, disassemble_tlv hid hc⟩

example : ∃ d, Der.new .debug (fun _ => 0xaa) [0x7f, 0x81, 0x00] [1, 2, 3] = .ok d ∧
    DerRef.parse (d ++ [9]) = (.ok d, [9]) ∧ DerRef.contents d = .ok [1, 2, 3] := by
  obtain ⟨d, h1, h2, _, _, h3, _⟩ := C18_der_roundtrip .debug (fun _ => 0xaa) [0x7f, 0x81, 0x00] [1, 2, 3] [9]
    ⟨1, 1, 128, by decide, by decide, by decide +kernel⟩ (by decide +kernel)
  exact ⟨d, h1, h2, h3⟩

/-- C18.  The octets: identifier, shortest definite length, contents; a value that does not fit in memory is
refused by a panic. -/
theorem C18_der_new_octets (m : Build) (junk : Nat → UInt8) (id c : Bytes) (hid : IsId id)
    (haddr : (tlv id c).length < 2 ^ 64) :
    Der.new m junk id c =
      if (tlv id c).length ≤ isizeMax then .ok (id ++ lenOctets c.length ++ c) else .panic := by
  by_cases h : (tlv id c).length ≤ isizeMax
  · rw [if_pos h, Der_new_ok m junk hid c h]; rfl
  · have hu := usizeSize_eq
    rw [tlv_length] at h haddr
    rw [if_neg (by rw [tlv_length]; exact h), Der.new,
      withIdLength_panic m junk id c.length (by omega) (by omega) (by omega)]
    rfl

example : IsId [0x7f, 0x81, 0x00] ∧ (tlv [0x7f, 0x81, 0x00] [1, 2, 3]).length ≤ isizeMax :=
  ⟨⟨1, 1, 128, by decide, by decide, by decide +kernel⟩, by decide +kernel⟩

/-! ### C19 -/

/-- C19.  What `DerRef::parse` accepts, in terms of X.690. -/
theorem C19_der_parse_iff (bs d rest : Bytes) :
    DerRef.parse bs = (.ok d, rest) ↔ IsDer d ∧ bs = d ++ rest := by
  constructor
  · intro h
    obtain ⟨id, c, h1, h2, h3, h4⟩ := DerRef_parse_ok h
    exact ⟨⟨id, c, h1, h2, h3⟩, h4⟩
  · rintro ⟨⟨id, c, h1, h2, rfl⟩, rfl⟩
    exact DerRef_parse_tlv h1 h2 rest

example : IsDer [0x04, 0x02, 0x07, 0x08] := ((C19_der_parse_iff [0x04, 0x02, 0x07, 0x08, 0x99] _ [0x99]).1 (by decide +kernel)).1

/-- C19.  `DerRef::parse_mut` accepts the same, and splits off the same. -/
theorem C19_der_parse_mut_iff (bs d rest : Bytes) :
    DerRef.parseMut bs = (.ok d, rest) ↔ IsDer d ∧ bs = d ++ rest := by
  rw [← C19_der_parse_iff]
  simp only [DerRef.parse, DerRef.parseMut]
  have hspec := doParse_spec bs
  generalize DerRef.doParse bs = r at hspec
  cases hspec with
  | ok id c rest' h1 h2 h3 =>
    have e : bs.drop (bs.length - rest'.length) = rest' := by
      rw [h3, List.length_append, Nat.add_sub_cancel, List.drop_left' rfl]
    simp only [sliceTo]
    rw [if_neg (by omega), if_pos (by omega), e]
  | error e p rest' h1 => simp

example : DerRef.parseMut [0x04, 0x02, 0x07, 0x08, 0x99] = (.ok [0x04, 0x02, 0x07, 0x08], [0x99]) := by
  decide +kernel

/-- C19.  What `DerRef::parse` accepts, in terms of the API: exactly the inputs starting with a value of `Der::new` for an
identifier accepted by `IdRef::parse`. -/
theorem C19_der_parse_iff_new (m : Build) (junk : Nat → UInt8) (bs d rest : Bytes)
    (hlen : bs.length ≤ isizeMax) :
    DerRef.parse bs = (.ok d, rest) ↔
      ∃ id c, IdRef.parse id = (.ok id, []) ∧ Der.new m junk id c = .ok d ∧
        (id ++ c).length < 2 ^ 63 ∧ bs = d ++ rest := by
  have hi := isizeMax_eq
  constructor
  · intro h
    obtain ⟨id, c, h1, h2, h3, h4⟩ := DerRef_parse_ok h
    have hfit : (tlv id c).length ≤ isizeMax := by rw [h4, List.length_append, h3] at hlen; omega
    refine ⟨id, c, ?_, ?_, ?_, h4⟩
    · have := IdRef_parse_shape ((isId_iff_shape _).mp h1) []
      simpa using this
    · rw [h3]; exact Der_new_ok m junk h1 c hfit
    · rw [tlv_length] at hfit; rw [List.length_append]; omega
  · rintro ⟨id, c, h1, h2, h3, rfl⟩
    have hid : IsId id := ((C08_id_parse_iff _ _ _).mp h1).1
    rw [List.length_append] at h3
    have hl9 := lenOctets_length_le (show c.length < 2 ^ 64 by omega)
    rw [C18_der_new_octets m junk id c hid (by rw [tlv_length]; omega)] at h2
    split at h2
    · cases h2; exact DerRef_parse_tlv hid (by omega) rest
    · cases h2

/-- Length octets that are not the shortest: no value of `Der::new` starts like this. -/
example : ¬ ∃ id c d rest, IdRef.parse id = (.ok id, []) ∧ Der.new .debug (fun _ => 0) id c = .ok d ∧ (id ++ c).length < 2 ^ 63 ∧
    [0x04, 0x81, 0x01, 0x07] = d ++ rest := fun ⟨id, c, d, rest, h⟩ => by
  have h1 := (C19_der_parse_iff_new .debug (fun _ => 0) _ d rest (by decide +kernel)).2 ⟨id, c, h⟩
  have h2 : DerRef.parse [0x04, 0x81, 0x01, 0x07] = (.err .redundantBytes, [0x07]) := by decide +kernel
  rw [h2] at h1
  cases h1

/-- C19.  A parsed value is rebuilt octet for octet from its identifier and contents. -/
theorem C19_der_rebuild (m : Build) (junk : Nat → UInt8) (bs d rest : Bytes) (hlen : bs.length ≤ isizeMax)
    (h : DerRef.parse bs = (.ok d, rest)) :
    ∃ id c, DerRef.id d = .ok id ∧ DerRef.contents d = .ok c ∧ Der.new m junk id c = .ok d := by
  obtain ⟨id, c, h1, h2, rfl, h4⟩ := DerRef_parse_ok h
  have hfit : (tlv id c).length ≤ isizeMax := by rw [h4, List.length_append] at hlen; omega
  exact ⟨id, c, DerRef_id_tlv h1 c, DerRef_contents_tlv h1 h2, Der_new_ok m junk h1 c hfit⟩

example : DerRef.parse [0x04, 0x02, 0x07, 0x08, 0x99] = (.ok [0x04, 0x02, 0x07, 0x08], [0x99]) := by
  decide +kernel

/-! ### C20 -/

/-- Call a parser of slices until the input is exhausted, at most `k` times. -/
def repeatParse (parse : Bytes → Res Bytes × Bytes) : (k : Nat) → Bytes → Res (List Bytes)
  | _, [] => .ok []
  | 0, _ :: _ => .err .extraContentsOctet
  | k + 1, b :: bs =>
    match parse (b :: bs) with
    | (.ok v, rest) => (repeatParse parse k rest).bind fun vs => .ok (v :: vs)
    | (.err e, _) => .err e
    | (.panic, _) => .panic
    | (.ub, _) => .ub

theorem repeatParse_flatten {parse : Bytes → Res Bytes × Bytes} :
    ∀ {vs : List Bytes}, (∀ v ∈ vs, v ≠ [] ∧ ∀ rest, parse (v ++ rest) = (.ok v, rest)) →
      ∀ {k : Nat}, vs.length ≤ k → repeatParse parse k vs.flatten = .ok vs
  | [], _, k, _ => by cases k <;> rfl
  | v :: vs, h, k, hk => by
    obtain ⟨hne, hp⟩ := h v (by simp)
    match k with
    | 0 => simp at hk
    | k + 1 =>
      have hp' := hp vs.flatten
      match v with
      | [] => exact absurd rfl hne
      | b :: r =>
        simp only [List.flatten_cons, List.cons_append, repeatParse] at hp' ⊢
        rw [hp']
        simp only
        rw [repeatParse_flatten (fun v hv => h v (by simp [hv])) (by simpa using hk)]
        rfl

theorem IsDer.ne_nil {v : Bytes} (h : IsDer v) : v ≠ [] := by
  obtain ⟨id, c, h1, _, rfl⟩ := h
  have := IsId.ne_nil h1
  simp [tlv, this]

/-- C20.  No DER value is a proper prefix of another one. -/
theorem C20_der_prefix_free (v w rest rest' : Bytes) (hv : IsDer v) (hw : IsDer w)
    (h : v ++ rest = w ++ rest') : v = w ∧ rest = rest' := by
  have h1 := (C19_der_parse_iff (v ++ rest) v rest).mpr ⟨hv, rfl⟩
  have h2 := (C19_der_parse_iff (v ++ rest) w rest').mpr ⟨hw, h⟩
  rw [h1] at h2
  simpa using h2

/-- `04 01 07` is not a prefix of any other value. -/
example (w rest : Bytes) (hw : IsDer w) (h : [0x04, 0x01, 0x07] ++ [] = w ++ rest) : w = [0x04, 0x01, 0x07] :=
  (C20_der_prefix_free _ w [] rest ((C19_der_parse_iff [0x04, 0x01, 0x07] _ []).1 (by decide +kernel)).1 hw h).1.symm

/-- C20.  Repeated `DerRef::parse` splits a concatenation of DER values into these values. -/
theorem C20_der_concat (vs : List Bytes) (h : ∀ v ∈ vs, IsDer v) (k : Nat) (hk : vs.length ≤ k) :
    repeatParse DerRef.parse k vs.flatten = .ok vs := by
  refine repeatParse_flatten (fun v hv => ⟨IsDer.ne_nil (h v hv), fun rest => ?_⟩) hk
  exact (C19_der_parse_iff _ _ _).mpr ⟨h v hv, rfl⟩

example : repeatParse DerRef.parse 7 [[0x02, 0x01, 0x05], [0x04, 0x00]].flatten = .ok [[0x02, 0x01, 0x05], [0x04, 0x00]] := by
  refine C20_der_concat _ (fun v hv => ?_) 7 (by decide)
  simp only [List.mem_cons, List.not_mem_nil, or_false] at hv
  rcases hv with rfl | rfl
  · exact ((C19_der_parse_iff [0x02, 0x01, 0x05] _ []).1 (by decide +kernel)).1
  · exact ((C19_der_parse_iff [0x04, 0x00] _ []).1 (by decide +kernel)).1

/-- C20.  Conversely what repeated `DerRef::parse` returns are DER values whose concatenation is the input. -/
theorem C20_der_concat_conv : ∀ (k : Nat) (bs : Bytes) (vs : List Bytes),
    repeatParse DerRef.parse k bs = .ok vs → bs = vs.flatten ∧ ∀ v ∈ vs, IsDer v
  | k, [], vs, h => by
    have : vs = [] := by cases k <;> simpa [repeatParse] using h.symm
    subst this; simp
  | 0, b :: bs, vs, h => by simp [repeatParse] at h
  | k + 1, b :: bs, vs, h => by
    simp only [repeatParse] at h
    rcases hp : DerRef.parse (b :: bs) with ⟨r, rest⟩
    rw [hp] at h
    match r with
    | .ok v =>
      simp only at h
      rcases hq : repeatParse DerRef.parse k rest with ws | e | _ | _
      · rw [hq] at h
        simp only [Res.bind, Res.ok.injEq] at h
        subst h
        obtain ⟨h1, h2⟩ := (C19_der_parse_iff _ _ _).mp hp
        obtain ⟨h3, h4⟩ := C20_der_concat_conv k rest ws hq
        refine ⟨by rw [h2, h3]; rfl, ?_⟩
        intro w hw
        rcases List.mem_cons.mp hw with rfl | hw
        · exact h1
        · exact h4 w hw
      all_goals rw [hq] at h; simp [Res.bind] at h
    | .err e => simp at h
    | .panic => simp at h
    | .ub => simp at h

example : repeatParse DerRef.parse 2 [0x02, 0x01, 0x05, 0x04, 0x00] = .ok [[0x02, 0x01, 0x05], [0x04, 0x00]] := by
  decide +kernel

/-! ### C24 -/

/-- C24.  `Der::parse` on a slice gives the same value or error as `DerRef::parse`, and on success the same remaining
input, provided that an announced length (together with the header) does not exceed what memory can hold. -/
theorem C24_der_parse_slice (m : Build) (bs : Bytes)
    (hfit : ∀ id n rest, IsId id → n < 2 ^ 64 → bs = id ++ lenOctets n ++ rest →
      id.length + (lenOctets n).length + n ≤ isizeMax) :
    (Der.parse m bs).1 = (DerRef.parse bs).1 ∧
    (∀ d, (DerRef.parse bs).1 = .ok d → (Der.parse m bs).2 = (DerRef.parse bs).2) := by
  have hi := isizeMax_eq
  have hu := usizeSize_eq
  simp only [Der.parse, DerRef.parse, DerRef.doParse]
  have hspec := parseIdLength_spec bs []
  generalize (parseIdLength (σ := Bytes)).run bs [] = r at hspec
  cases hspec with
  | definite id n rest h1 h2 h3 =>
    have hf := hfit id n rest h1 h2 h3
    have hw : ([] ++ id ++ lenOctets n).length = id.length + (lenOctets n).length := by simp
    simp only [hw]
    rw [uadd_ok (by omega)]
    simp only [Res.bind_ok]
    rw [bufReserve_ok (by omega)]
    simp only [Res.bind_ok]
    rw [if_pos (by omega)]
    simp only [Res.pure_eq, Nat.add_sub_cancel_left, read_bytes, List.length_take]
    by_cases hl : rest.length < n
    · rw [if_pos hl, if_pos (by omega)]; simp
    · rw [if_neg hl, if_neg (by omega), sliceFrom, if_pos (by omega)]
      simp only [sliceTo]
      have ht : (rest.take n).length = n := by simp; omega
      have e : bs = (id ++ lenOctets n ++ rest.take n) ++ rest.drop n := by rw [h3]; simp
      rw [if_pos (by omega)]
      refine ⟨?_, fun _ _ => trivial⟩
      have : bs.length - (rest.drop n).length = (id ++ lenOctets n ++ rest.take n).length := by
        rw [h3]; simp; omega
      rw [this, e, List.take_left' rfl]
      simp
  | indefinite id rest h1 h2 => simp
  | error e p rest w' h => simp

/-- Contents octets are missing: both report the same error. -/
example : (Der.parse .debug ([0x04, 0x05, 0x07] : Bytes)).1 = .err .unterminatedBytes ∧
    (DerRef.parse ([0x04, 0x05, 0x07] : Bytes)).1 = .err .unterminatedBytes := by decide +kernel

/-- C24, in terms of values: on a slice that `DerRef::parse` accepts (and any real slice has at most `isize::MAX`
octets), `Der::parse` returns the same value and the same remaining input. -/
theorem C24_der_parse_slice_ok (m : Build) (bs d rest : Bytes) (hlen : bs.length ≤ isizeMax)
    (h : DerRef.parse bs = (.ok d, rest)) : Der.parse m bs = (.ok d, rest) := by
  have hh := C24_der_parse_slice m bs ?_
  · rw [h] at hh
    exact Prod.ext hh.1 (hh.2 d rfl)
  · intro id n r h1 h2 h3
    obtain ⟨id', c, h1', h2', rfl, h4⟩ := DerRef_parse_ok h
    have e := parseIdLength_definite h1 h2 r []
    have e' := parseIdLength_definite h1' h2' (c ++ rest) []
    rw [← h3] at e
    have e2 : id' ++ lenOctets c.length ++ (c ++ rest) = bs := by rw [h4]; simp [tlv]
    rw [e2, e] at e'
    simp only [Prod.mk.injEq, Res.ok.injEq, Length.definite.injEq, List.nil_append] at e'
    obtain ⟨rfl, h5, h6⟩ := e'
    have := congrArg List.length h3
    rw [h5] at this
    simp only [List.length_append] at this
    omega

example : Der.parse .debug ([0x04, 0x02, 0x07, 0x08, 0x99] : Bytes) = (.ok [0x04, 0x02, 0x07, 0x08], [0x99]) := by
  decide +kernel

/-! ### C25 -/

/-- C25, negation: a reader that delivers the five octets of `04 03 01 02 03` in two non-empty reads, on which `Der::parse` fails
although the data is complete. -/
theorem C25_der_parse_chunking_violated :
    ∃ (s : Script) (v : Bytes), Chunks s v ∧ IsDer v ∧ (Der.parse .debug s).1 = .err .unterminatedBytes := by
  refine ⟨[.chunk [0x04, 0x03, 0x01], .chunk [0x02, 0x03]], [0x04, 0x03, 0x01, 0x02, 0x03], ?_, ?_, by decide +kernel⟩
  · exact Chunks.cons [0x04, 0x03, 0x01] _ [0x02, 0x03] (by decide)
      (Chunks.cons [0x02, 0x03] _ [] (by decide) Chunks.nil)
  · exact ⟨[0x04], [0x01, 0x02, 0x03], ⟨0, 0, 4, by decide, by decide, by decide +kernel⟩, by decide, by decide +kernel⟩

/-- C25, the part that holds (missing: contents split over several reads).  Identifier and length octets may
arrive in any chunks; if then one read delivers all the contents octets, `Der::parse` returns the value. -/
theorem C25_der_parse_chunking_partial {σ : Type} [Reader σ] (R : σ → Bytes → Prop) (hd : Delivers R)
    (m : Build) (id c rest : Bytes) (hid : IsId id) (hfit : (tlv id c).length ≤ isizeMax)
    (hone : ∀ s, R s (c ++ rest) → ∃ s', Reader.read c.length s = (.data c, s') ∧ R s' rest)
    (s : σ) (hs : R s (tlv id c ++ rest)) :
    ∃ s', Der.parse m s = (.ok (tlv id c), s') ∧ R s' rest := by
  have hi := isizeMax_eq
  have hu := usizeSize_eq
  have hl := hfit
  rw [tlv_length] at hl
  have hsim := sim_parseIdLength hd s _ [] hs
  have e : tlv id c ++ rest = id ++ lenOctets c.length ++ (c ++ rest) := by simp [tlv]
  rw [e, parseIdLength_definite hid (by omega)] at hsim
  rcases hx : (parseIdLength (σ := σ)).run s [] with ⟨r, s1, w1⟩
  rw [hx] at hsim
  simp only at hsim
  obtain ⟨rfl, rfl, hR⟩ := hsim
  obtain ⟨s', hr1, hr2⟩ := hone s1 hR
  refine ⟨s', ?_, hr2⟩
  simp only [Der.parse, hx]
  have hw : ([] ++ id ++ lenOctets c.length).length = id.length + (lenOctets c.length).length := by simp
  simp only [hw]
  rw [uadd_ok (by omega)]
  simp only [Res.bind_ok]
  rw [bufReserve_ok (by omega)]
  simp only [Res.bind_ok]
  rw [if_pos (by omega)]
  simp only [Res.pure_eq, Nat.add_sub_cancel_left, hr1]
  rw [if_neg (by omega)]
  simp [tlv]

/-- The hypotheses of `C25_der_parse_chunking_partial` are met by a slice. -/
example (c rest : Bytes) : ∀ s : Bytes, s = c ++ rest → ∃ s', Reader.read c.length s = (.data c, s') ∧ s' = rest := by
  intro s h; subst h; exact ⟨rest, by simp, rfl⟩

/-! ### C26 -/

/-- Operations of `Der` and `Ber` that change the contents. -/
inductive ContentsOp where
  | push (b : UInt8)
  | extend (bs : Bytes)
  | truncate (n : Nat)

/-- The operation on a plain vector. -/
def ContentsOp.vec : ContentsOp → Bytes → Bytes
  | .push b, c => c ++ [b]
  | .extend bs, c => c ++ bs
  | .truncate n, c => c.take n

/-- The operation on a `Der`.  `junk` is what fresh memory happens to hold. -/
def ContentsOp.der (m : Build) (junk : Nat → UInt8) : ContentsOp → Bytes → Res Bytes
  | .push b, d => Der.push m junk d b
  | .extend bs, d => Der.extendFromSlice m junk d bs
  | .truncate n, d => Der.truncate d n

/-- A history of operations. -/
def runDer (m : Build) : List ((Nat → UInt8) × ContentsOp) → Bytes → Res Bytes
  | [], d => .ok d
  | (junk, op) :: r, d => (op.der m junk d).bind (runDer m r)

/-- The same history on a plain vector. -/
def runVec : List ((Nat → UInt8) × ContentsOp) → Bytes → Bytes
  | [], c => c
  | (_, op) :: r, c => runVec r (op.vec c)

/-- The value fits in memory after each operation. -/
def Fits (size : Bytes → Nat) : List ((Nat → UInt8) × ContentsOp) → Bytes → Prop
  | [], c => size c ≤ isizeMax
  | (_, op) :: r, c => size c ≤ isizeMax ∧ Fits size r (op.vec c)

theorem Fits.head {size : Bytes → Nat} {ops c} (h : Fits size ops c) : size c ≤ isizeMax := by
  cases ops with
  | nil => exact h
  | cons x r => exact h.1

theorem ContentsOp.der_tlv (m : Build) (junk : Nat → UInt8) {id : Bytes} (hid : IsId id) (c : Bytes)
    (op : ContentsOp) (h : (tlv id c).length ≤ isizeMax) (h' : (tlv id (op.vec c)).length ≤ isizeMax) :
    op.der m junk (tlv id c) = .ok (tlv id (op.vec c)) := by
  have hi := isizeMax_eq
  have hu := usizeSize_eq
  have hext : ∀ bs, (tlv id (c ++ bs)).length ≤ isizeMax →
      Der.extendFromSlice m junk (tlv id c) bs = .ok (tlv id (c ++ bs)) := by
    intro bs hb
    rw [extendFromSlice_tlv m junk hid c bs h, if_pos hb]
    have h1 := hb
    have h2 := h
    have hm := lenOctets_length_mono (Nat.le_add_right c.length bs.length)
    rw [tlv_length, List.length_append] at h1
    rw [tlv_length] at h2 ⊢
    omega
  cases op with
  | push b => exact hext [b] h'
  | extend bs => exact hext bs h'
  | truncate n =>
    rw [tlv_length] at h
    exact truncate_tlv hid c (by omega) n

theorem runDer_tlv (m : Build) {id : Bytes} (hid : IsId id) :
    ∀ (ops : List ((Nat → UInt8) × ContentsOp)) (c : Bytes), Fits (fun c => (tlv id c).length) ops c →
      runDer m ops (tlv id c) = .ok (tlv id (runVec ops c))
  | [], c, _ => rfl
  | (junk, op) :: r, c, h => by
    simp only [runDer, runVec]
    rw [ContentsOp.der_tlv m junk hid c op h.1 h.2.head]
    exact runDer_tlv m hid r (op.vec c) h.2

/-- C26.  Any history of `push`, `extend_from_slice` and `truncate` on `Der::new(id, c)`, as long as the value fits in
memory, gives `Der::new(id, c')` with `c'` the result of the history on a plain vector. -/
theorem C26_der_history (m : Build) (junk junk' : Nat → UInt8) (id c : Bytes) (hid : IsId id)
    (ops : List ((Nat → UInt8) × ContentsOp)) (hfit : Fits (fun c => (tlv id c).length) ops c) :
    ∃ d, Der.new m junk id (runVec ops c) = .ok d ∧ (Der.new m junk' id c).bind (runDer m ops) = .ok d := by
  have hend : ∀ (ops : List ((Nat → UInt8) × ContentsOp)) (c : Bytes),
      Fits (fun c => (tlv id c).length) ops c → (tlv id (runVec ops c)).length ≤ isizeMax := by
    intro ops
    induction ops with
    | nil => intro c h; exact h
    | cons x r ih => intro c h; exact ih _ h.2
  refine ⟨tlv id (runVec ops c), Der_new_ok m junk hid _ (hend ops c hfit), ?_⟩
  rw [Der_new_ok m junk' hid c hfit.head]
  exact runDer_tlv m hid ops c hfit

example : ∃ d, Der.new .debug (fun _ => 0) [0x04] (List.replicate 128 9 ++ [2]) = .ok d ∧
    (Der.new .debug (fun _ => 1) [0x04] []).bind
      (runDer .debug [(fun _ => 2, .extend (List.replicate 130 9)), (fun _ => 3, .truncate 128), (fun _ => 4, .push 2)]) = .ok d :=
  C26_der_history .debug _ _ [0x04] [] ⟨0, 0, 4, by decide, by decide, by decide +kernel⟩
    [(fun _ => 2, .extend (List.replicate 130 9)), (fun _ => 3, .truncate 128), (fun _ => 4, .push 2)] (by simp only [Fits]; decide +kernel)

/-- C26.  Growing beyond what memory can hold panics, it never gives a broken value (`haddr`: both operands lie in one
64-bit address space). -/
theorem C26_der_extend_too_long (m : Build) (junk : Nat → UInt8) (id c bytes : Bytes) (hid : IsId id)
    (h : (tlv id c).length ≤ isizeMax) (haddr : (tlv id c).length + bytes.length + 8 < 2 ^ 64)
    (hbig : isizeMax < (tlv id (c ++ bytes)).length) :
    Der.extendFromSlice m junk (tlv id c) bytes = .panic := by
  rw [extendFromSlice_tlv m junk hid c bytes h (by rw [usizeSize_eq]; exact haddr), if_neg (by omega)]

/-- A history that crosses the border between short and long length octets in both directions. -/
example : Fits (fun c => (tlv [0x04] c).length)
    [(fun _ => 0xaa, .extend (List.replicate 127 1)), (fun _ => 0xbb, .push 2), (fun _ => 0, .truncate 5)] [9] := by
  simp only [Fits]
  decide +kernel

/-! ### C27 -/

theorem sumLen_ok (m : Build) : ∀ (parts : List Bytes) (acc : Nat), acc + parts.flatten.length < usizeSize →
    Der.sumLen m parts acc = .ok (acc + parts.flatten.length)
  | [], acc, _ => by simp [Der.sumLen]
  | p :: r, acc, h => by
    simp only [List.flatten_cons, List.length_append] at h ⊢
    rw [Der.sumLen, uadd_ok (by omega), Res.bind_ok, sumLen_ok m r _ (by omega)]
    simp [Nat.add_assoc]

theorem extendAll_ok (cap : Nat) : ∀ (parts : List Bytes) (b : Bytes), b.length + parts.flatten.length ≤ cap →
    Der.extendAll cap parts b = .ok (b ++ parts.flatten)
  | [], b, _ => by simp [Der.extendAll]
  | p :: r, b, h => by
    simp only [List.flatten_cons, List.length_append] at h ⊢
    rw [Der.extendAll, if_neg (by omega), extendAll_ok cap r _ (by rw [List.length_append]; omega)]
    simp

/-- C27.  `Der::from_id_iterator(id, parts)` is `Der::new(id, concatenation)`. -/
theorem C27_from_id_iterator (m : Build) (junk : Nat → UInt8) (id : Bytes) (parts : List Bytes) (hid : IsId id)
    (hfit : (tlv id parts.flatten).length ≤ isizeMax) :
    Der.fromIdIterator m id parts = Der.new m junk id parts.flatten := by
  have hi := isizeMax_eq
  have hu := usizeSize_eq
  rw [Der_new_ok m junk hid _ hfit]
  rw [tlv_length] at hfit
  have hn : parts.flatten.length < 2 ^ 64 := by omega
  simp only [Der.fromIdIterator]
  rw [sumLen_ok m parts 0 (by omega)]
  simp only [Res.bind_ok, Nat.zero_add, toBytes_definite hn]
  rw [uadd_ok (by omega)]
  simp only [Res.bind_ok]
  rw [uadd_ok (by omega)]
  simp only [Res.bind_ok]
  rw [bufReserve_ok (by omega)]
  simp only [Res.bind_ok]
  rw [extendAll_ok]
  · simp [tlv]
  · simp; omega

example : Der.fromIdIterator .release [0x30] [[1, 2], [], [3]] = Der.new .release (fun _ => 0xee) [0x30] [1, 2, 3] :=
  C27_from_id_iterator .release _ [0x30] [[1, 2], [], [3]] ⟨0, 1, 16, by decide, by decide, by decide +kernel⟩ (by decide +kernel)

/-- C27.  `Ber::from_id_iterator` too. -/
theorem C27_ber_from_id_iterator (m : Build) (junk : Nat → UInt8) (id : Bytes) (parts : List Bytes) (hid : IsId id)
    (hfit : (tlv id parts.flatten).length ≤ isizeMax) :
    Ber.fromIdIterator m id parts = Ber.new m junk id parts.flatten :=
  C27_from_id_iterator m junk id parts hid hfit

example : (tlv [0x30] [[1, 2], [], [3]].flatten).length ≤ isizeMax := by decide +kernel

/-! ### C28 -/

/-- C28, the part on sizes that fit: the value has the given identifier, length `n`, and `n` contents octets. -/
theorem C28_with_id_length_fits (m : Build) (junk : Nat → UInt8) (id : Bytes) (n : Nat) (hid : IsId id)
    (hfit : id.length + (lenOctets n).length + n ≤ isizeMax) :
    ∃ d c, Der.withIdLength m junk id n = .ok d ∧ DerRef.disassemble d = .ok (id, .definite n, c) ∧ c.length = n := by
  have hi := isizeMax_eq
  have h := withIdLength_ok m junk id n hfit
  refine ⟨_, junkCells junk n, h, ?_, junkCells_length junk n⟩
  have := disassemble_tlv hid (c := junkCells junk n) (by rw [junkCells_length]; omega)
  rwa [tlv, junkCells_length] at this

example := C28_with_id_length_fits .release (fun k => UInt8.ofNat k) [0x04] 300 ⟨0, 0, 4, by decide, by decide, by decide +kernel⟩
  (by decide +kernel)

/-- C28, overflow checks on: panics for every size that does not fit. -/
theorem C28_with_id_length_debug (junk : Nat → UInt8) (id : Bytes) (n : Nat) (hidl : id.length ≤ isizeMax)
    (hn : n < 2 ^ 64) (hbig : isizeMax < id.length + (lenOctets n).length + n) :
    Der.withIdLength .debug junk id n = .panic := by
  have hi := isizeMax_eq
  have hu := usizeSize_eq
  have hl9 := lenOctets_length_le hn
  by_cases h : id.length + (lenOctets n).length + n < usizeSize
  · exact withIdLength_panic .debug junk id n hn hbig h
  · simp only [Der.withIdLength, toBytes_definite hn, Res.bind_ok]
    rw [uadd_ok (by omega)]
    simp only [Res.bind_ok]
    rw [uadd, if_neg h]
    rfl

example : Der.withIdLength .debug (fun _ => 0) [0x02] (2 ^ 64 - 1) = .panic :=
  C28_with_id_length_debug _ [0x02] (2 ^ 64 - 1) (by decide) (by norm_num) (by have := isizeMax_eq; omega)

/-- C28, any build (missing: release builds when the total wraps around): panics for sizes that do not fit but
are below `2^64`. -/
theorem C28_with_id_length_partial (m : Build) (junk : Nat → UInt8) (id : Bytes) (n : Nat)
    (hn : n < 2 ^ 64) (hbig : isizeMax < id.length + (lenOctets n).length + n)
    (hwrap : id.length + (lenOctets n).length + n < 2 ^ 64) :
    Der.withIdLength m junk id n = .panic :=
  withIdLength_panic m junk id n hn hbig (by rw [usizeSize_eq]; exact hwrap)

example : Der.withIdLength .release (fun _ => 0) [0x02] (2 ^ 63) = .panic := by
  have hi := isizeMax_eq
  have h9 := lenOctets_length_le (show 2 ^ 63 < 2 ^ 64 by omega)
  have h1 : ([0x02] : Bytes).length = 1 := rfl
  exact C28_with_id_length_partial .release _ [0x02] (2 ^ 63) (by omega) (by omega) (by omega)

theorem uadd_wrap {a b : Nat} (h : usizeSize ≤ a + b) (h' : a + b < 2 * usizeSize) :
    uadd .release a b = .ok (a + b - usizeSize) := by
  have : (a + b) % usizeSize = a + b - usizeSize := by
    rw [Nat.mod_eq_sub_mod h, Nat.mod_eq_of_lt (by omega)]
  rw [uadd, if_neg (by omega), ← this]

/-- What a release build does when the total wraps around: it writes the header to a buffer of at least 23 octets
and cuts it. -/
theorem withIdLength_wrap (junk : Nat → UInt8) (id : Bytes) (n : Nat) (hidl : id.length + 16 ≤ isizeMax) (hn : n < 2 ^ 64)
    (hwrap : usizeSize ≤ id.length + (lenOctets n).length + n) :
    Der.withIdLength .release junk id n =
      if max (id.length + (lenOctets n).length + n - usizeSize) initCapacity < id.length + (lenOctets n).length then .ub
      else .ok ((id ++ lenOctets n).take (id.length + (lenOctets n).length + n - usizeSize)) := by
  have hi := isizeMax_eq
  have hu := usizeSize_eq
  have hl9 := lenOctets_length_le hn
  simp only [Der.withIdLength, toBytes_definite hn, Res.bind_ok]
  rw [uadd_ok (by omega)]
  simp only [Res.bind_ok]
  generalize hH : id ++ lenOctets n = H
  have hHl : H.length = id.length + (lenOctets n).length := by rw [← hH]; simp
  rw [← hHl] at hwrap ⊢
  obtain ⟨T, hTe⟩ : ∃ T, T = H.length + n - usizeSize := ⟨_, rfl⟩
  have hT : T < H.length := by omega
  rw [uadd_wrap hwrap (by omega), ← hTe]
  simp only [Res.bind_ok]
  rw [bufReserve_ok (by omega)]
  simp only [Res.bind_ok, Nat.zero_add]
  by_cases hc : max T initCapacity < H.length
  · rw [if_pos hc, if_pos hc]
  · rw [if_neg hc, if_neg hc]
    have h0 : T - H.length = 0 := by omega
    simp [h0, junkCells]

theorem lenOctets_max : lenOctets (2 ^ 64 - 1) = [0x88, 0xff, 0xff, 0xff, 0xff, 0xff, 0xff, 0xff, 0xff] := by
  have h1 : (Length.definite (2 ^ 64 - 1)).toBytes = .ok [0x88, 0xff, 0xff, 0xff, 0xff, 0xff, 0xff, 0xff, 0xff] := by
    decide +kernel
  rw [toBytes_definite (by omega)] at h1
  exact Res.ok.inj h1

/-- C28, negation for release builds: the size wraps around, no panic, and the value is the truncated header, nine octets that are
not a DER value. -/
theorem C28_with_id_length_violated (junk : Nat → UInt8) :
    ∃ d, Der.withIdLength .release junk [0x02] (2 ^ 64 - 1) = .ok d ∧
      DerRef.parse d = (.err .unterminatedBytes, []) := by
  refine ⟨[0x02, 0x88, 0xff, 0xff, 0xff, 0xff, 0xff, 0xff, 0xff], ?_, by decide +kernel⟩
  have hu := usizeSize_eq
  have hi := isizeMax_eq
  have hl : (lenOctets (2 ^ 64 - 1)).length = 9 := by rw [lenOctets_max]; rfl
  have h1 : ([0x02] : Bytes).length = 1 := rfl
  rw [withIdLength_wrap junk [0x02] (2 ^ 64 - 1) (by omega) (by omega) (by omega), hl, h1]
  have h2 : 1 + 9 + (2 ^ 64 - 1) - usizeSize = 9 := by omega
  rw [h2, if_neg (by decide), lenOctets_max]
  rfl

example : isizeMax < ([0x02] : Bytes).length + (lenOctets (2 ^ 63)).length + 2 ^ 63 := by
  have hi := isizeMax_eq
  omega

/-! ### C65 -/

/-- An identifier of 15 octets. -/
def longId : Bytes := [0x1f, 0x81, 0x81, 0x81, 0x81, 0x81, 0x81, 0x81, 0x81, 0x81, 0x81, 0x81, 0x81, 0x81, 0x01]

theorem longId_isId : IsId longId := by
  have h : IdRef.parse longId = (.ok longId, []) := by decide +kernel
  exact ((C08_id_parse_iff _ _ _).mp h).1

/-- C65, negation: in a release build `Der::with_id_length`, called with a valid identifier and `usize::MAX`, writes outside of its
buffer. -/
theorem C65_with_id_length_violated (junk : Nat → UInt8) :
    IsId longId ∧ Der.withIdLength .release junk longId (2 ^ 64 - 1) = .ub := by
  refine ⟨longId_isId, ?_⟩
  have hu := usizeSize_eq
  have hi := isizeMax_eq
  have hl : (lenOctets (2 ^ 64 - 1)).length = 9 := by rw [lenOctets_max]; rfl
  have h1 : longId.length = 15 := rfl
  rw [withIdLength_wrap junk longId (2 ^ 64 - 1) (by omega) (by omega) (by omega), hl, h1]
  have h2 : 15 + 9 + (2 ^ 64 - 1) - usizeSize = 23 := by omega
  rw [h2, if_pos (by decide)]

theorem sumLen_release : ∀ (parts : List Bytes) (acc : Nat), acc < usizeSize →
    Der.sumLen .release parts acc = .ok ((acc + parts.flatten.length) % usizeSize)
  | [], acc, h => by simp [Der.sumLen, Nat.mod_eq_of_lt h]
  | p :: r, acc, h => by
    have hu : 0 < usizeSize := by norm_num [usizeSize]
    have h1 : uadd .release acc p.length = .ok ((acc + p.length) % usizeSize) := by
      rw [uadd]
      by_cases hl : acc + p.length < usizeSize
      · rw [if_pos hl, Nat.mod_eq_of_lt hl]
      · rw [if_neg hl]
    rw [Der.sumLen, h1, Res.bind_ok, sumLen_release r _ (Nat.mod_lt _ hu), List.flatten_cons, List.length_append,
      Nat.mod_add_mod, Nat.add_assoc]

theorem fromIdIterator_wrap (part : Bytes) (k : Nat) (hk : (k + 1) * part.length = usizeSize) (hp : 23 < part.length) :
    Der.fromIdIterator .release [0x04] (List.replicate (k + 1) part) = .ub := by
  have hsum : (0 + (List.replicate (k + 1) part).flatten.length) % usizeSize = 0 := by
    rw [List.length_flatten, List.map_replicate, List.sum_replicate_nat, hk, Nat.zero_add, Nat.mod_self]
  simp only [Der.fromIdIterator]
  rw [sumLen_release _ 0 (by norm_num [usizeSize]), hsum]
  have hlen : (Length.definite 0).toBytes = .ok [0x00] := by decide +kernel
  simp only [Res.bind_ok, hlen]
  have h1 : uadd .release ([0x04] : Bytes).length ([0x00] : Bytes).length = .ok 2 := by decide +kernel
  have h2 : uadd .release 2 0 = .ok 2 := by decide +kernel
  have h3 : bufReserve .release 0 2 = .ok 2 := by decide +kernel
  rw [h1]
  simp only [Res.bind_ok]
  rw [h2]
  simp only [Res.bind_ok]
  rw [h3]
  simp only [Res.bind_ok]
  rw [List.replicate_succ]
  simp only [Der.extendAll]
  rw [if_neg (by decide), if_neg (by decide), if_pos]
  have h4 : (max 2 initCapacity) = 23 := by decide
  rw [h4, List.length_append, List.length_append]
  omega

/-- C65, negation: in a release build `Der::from_id_iterator` writes outside of its buffer when the lengths of the parts add up to
`2^64` (the parts may all refer to one slice of 2 GiB). -/
theorem C65_from_id_iterator_violated :
    ∃ (part : Bytes) (k : Nat), part.length ≤ isizeMax ∧
      Der.fromIdIterator .release [0x04] (List.replicate k part) = .ub := by
  obtain ⟨part, hpart⟩ : ∃ p : Bytes, p.length = 2147483648 := ⟨List.replicate _ 0x00, List.length_replicate⟩
  have hi := isizeMax_eq
  have hu := usizeSize_eq
  exact ⟨part, 8589934591 + 1, by omega, fromIdIterator_wrap part 8589934591 (by omega) (by omega)⟩

/-- C65, the part that holds (missing: release builds when a sum of lengths wraps around): with overflow checks, neither constructor
touches memory outside of its buffer, for any arguments. -/
theorem C65_constructors_debug_partial (junk : Nat → UInt8) (id : Bytes) (n : Nat) (parts : List Bytes)
    (hn : n < 2 ^ 64) :
    Der.withIdLength .debug junk id n ≠ .ub ∧ Der.fromIdIterator .debug id parts ≠ .ub := by
  have hu := usizeSize_eq
  have hadd : ∀ a b (f : Nat → Res Bytes), (a + b < usizeSize → f (a + b) ≠ .ub) → (uadd .debug a b >>= f) ≠ .ub := by
    intro a b f h
    rw [uadd]
    by_cases hl : a + b < usizeSize
    · rw [if_pos hl]; exact h hl
    · rw [if_neg hl]; simp
  have hres : ∀ a b (f : Nat → Res Bytes), (a + b ≤ isizeMax → f (a + b) ≠ .ub) → (bufReserve .debug a b >>= f) ≠ .ub := by
    intro a b f h
    rw [bufReserve, uadd]
    by_cases hl : a + b < usizeSize
    · rw [if_pos hl]
      simp only [Res.bind_ok]
      by_cases hm : a + b ≤ isizeMax
      · rw [if_pos hm]; exact h hm
      · rw [if_neg hm]; simp
    · rw [if_neg hl]; simp
  constructor
  · simp only [Der.withIdLength, toBytes_definite hn, Res.bind_ok]
    refine hadd _ _ _ fun h1 => hadd _ _ _ fun h2 => hres _ _ _ fun h3 => ?_
    rw [if_neg (by omega)]
    simp
  · have hsum : ∀ (parts : List Bytes) (acc : Nat), acc < usizeSize →
        (Der.sumLen .debug parts acc = .panic ∨
        (Der.sumLen .debug parts acc = .ok (acc + parts.flatten.length) ∧ acc + parts.flatten.length < usizeSize)) := by
      intro parts
      induction parts with
      | nil => intro acc h; right; simp [Der.sumLen, h]
      | cons p r ih =>
        intro acc h
        rw [Der.sumLen, uadd]
        by_cases hl : acc + p.length < usizeSize
        · rw [if_pos hl, Res.bind_ok, List.flatten_cons, List.length_append, ← Nat.add_assoc]
          exact ih _ hl
        · rw [if_neg hl]; left; rfl
    simp only [Der.fromIdIterator]
    rcases hsum parts 0 (by omega) with h | ⟨h, hlt⟩
    · rw [h]; simp
    · rw [h]
      simp only [Res.bind_ok, Nat.zero_add] at hlt ⊢
      rw [toBytes_definite (by omega)]
      simp only [Res.bind_ok]
      refine hadd _ _ _ fun h1 => hadd _ _ _ fun h2 => hres _ _ _ fun h3 => ?_
      rw [extendAll_ok]
      · simp
      · rw [List.flatten_cons, List.flatten_cons, List.length_append, List.length_append]
        simp only [List.length_nil]
        omega

/-- The arguments of `C65_with_id_length_violated`, with overflow checks. -/
example : Der.withIdLength .debug (fun _ => 0) longId (2 ^ 64 - 1) ≠ .ub :=
  (C65_constructors_debug_partial (fun _ => 0) longId (2 ^ 64 - 1) [] (by norm_num)).1

end Bsn1
