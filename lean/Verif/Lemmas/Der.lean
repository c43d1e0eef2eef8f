import Verif.Lemmas.Id
import Verif.Lemmas.Length
import Verif.Model.Der
/-!
# Lemmas on DER
-/

set_option linter.unusedSimpArgs false

namespace Bsn1
open Spec

theorem usizeSize_eq : usizeSize = 2 ^ 64 := by norm_num [usizeSize]
theorem isizeMax_eq : isizeMax = 2 ^ 63 - 1 := by norm_num [isizeMax]
theorem isizeMax_lt : isizeMax < usizeSize := by norm_num [isizeMax, usizeSize]

theorem uadd_ok {m : Build} {a b : Nat} (h : a + b < usizeSize) : uadd m a b = .ok (a + b) := if_pos h
theorem usub_ok {m : Build} {a b : Nat} (h : b ≤ a) : usub m a b = .ok (a - b) := if_pos h

theorem bufReserve_ok {m : Build} {a b : Nat} (h : a + b ≤ isizeMax) : bufReserve m a b = .ok (a + b) := by
  have := isizeMax_lt
  rw [bufReserve, uadd_ok (by omega), Res.bind_ok, if_pos h]; rfl

theorem bufReserve_panic {m : Build} {a b : Nat} (h : isizeMax < a + b) (h' : a + b < usizeSize) :
    bufReserve m a b = .panic := by
  rw [bufReserve, uadd_ok h', Res.bind_ok, if_neg (by omega)]

/-! ### Headers on slices -/

theorem parseIdLength_definite {id : Bytes} (hid : IsId id) {n : Nat} (hn : n < 2 ^ 64) (rest w : Bytes) :
    (parseIdLength (σ := Bytes)).run (id ++ lenOctets n ++ rest) w =
      (.ok (.definite n), rest, w ++ id ++ lenOctets n) := by
  simp only [parseIdLength, P.bind_def, List.append_assoc, parseId_shape ((isId_iff_shape _).mp hid),
    parseLength_lenOctets hn]

theorem parseIdLength_indefinite {id : Bytes} (hid : IsId id) (rest w : Bytes) :
    (parseIdLength (σ := Bytes)).run (id ++ indefOctets ++ rest) w =
      (.ok .indefinite, rest, w ++ id ++ indefOctets) := by
  simp only [parseIdLength, P.bind_def, List.append_assoc, parseId_shape ((isId_iff_shape _).mp hid)]
  simp [indefOctets, parseLength_indef]

theorem parseLength_total (bs w : Bytes) :
    (∃ l rest w', (parseLength (σ := Bytes)).run bs w = (.ok l, rest, w')) ∨
    (∃ e rest w', (parseLength (σ := Bytes)).run bs w = (.err e, rest, w') ∧ ∃ p, p ++ rest = bs) := by
  match bs with
  | [] => right; exact ⟨_, _, _, parseLength_nil w, [], rfl⟩
  | f :: t =>
    by_cases h1 : f.toNat < 128
    · left; exact ⟨_, _, _, parseLength_short f t w h1⟩
    by_cases h2 : f.toNat = 128
    · left
      have : f = 0x80 := u8_ext h2
      subst this
      exact ⟨_, _, _, parseLength_indef t w⟩
    match t with
    | [] => right; exact ⟨_, _, _, parseLength_long_nil f w (by omega), [f], rfl⟩
    | s :: r =>
      by_cases h3 : s.toNat = 0
      · right; exact ⟨_, _, _, parseLength_long_zero f s r w (by omega) h3, [f, s], rfl⟩
      by_cases h4 : f.toNat = 129 ∧ s.toNat < 128
      · right; exact ⟨_, _, _, parseLength_long_one f s r w h4.1 h3 h4.2, [f, s], rfl⟩
      by_cases h5 : 136 < f.toNat
      · right; exact ⟨_, _, _, parseLength_long_over f s r w h5 h3, [f, s], rfl⟩
      have hl := parseLength_long f s r w (by omega) (by omega) h3 h4
      by_cases h6 : r.length < f.toNat - 129
      · right; rw [if_pos h6] at hl; exact ⟨_, _, _, hl, f :: s :: r, by simp⟩
      · left; rw [if_neg h6] at hl; exact ⟨_, _, _, hl⟩

/-- All results of reading a header from a slice. -/
inductive HeaderSpec (bs w : Bytes) : Res Length × Bytes × Bytes → Prop
  | definite (id : Bytes) (n : Nat) (rest : Bytes) : IsId id → n < 2 ^ 64 → bs = id ++ lenOctets n ++ rest →
      HeaderSpec bs w (.ok (.definite n), rest, w ++ id ++ lenOctets n)
  | indefinite (id rest : Bytes) : IsId id → bs = id ++ indefOctets ++ rest →
      HeaderSpec bs w (.ok .indefinite, rest, w ++ id ++ indefOctets)
  | error (e : Error) (p rest w' : Bytes) : bs = p ++ rest → HeaderSpec bs w (.err e, rest, w')

theorem parseIdLength_spec (bs w : Bytes) : HeaderSpec bs w ((parseIdLength (σ := Bytes)).run bs w) := by
  simp only [parseIdLength, P.bind_def]
  have hspec := parseId_spec bs w
  generalize (parseId (σ := Bytes)).run bs w = r at hspec
  cases hspec with
  | ok id rest h1 h2 =>
    simp only
    have hid := (isId_iff_shape _).mpr h1
    rcases parseLength_total rest (w ++ id) with ⟨l, rest', w', h⟩ | ⟨e, rest', w', h, p, hp⟩
    · rcases parseLength_ok h with ⟨rfl, h3, rfl⟩ | ⟨n, hn, rfl, h3, rfl⟩
      · rw [h]
        exact HeaderSpec.indefinite id rest' hid (by rw [h2, h3]; simp)
      · rw [h]
        exact HeaderSpec.definite id n rest' hid hn (by rw [h2, h3]; simp)
    · rw [h]
      exact HeaderSpec.error e (id ++ p) rest' w' (by rw [h2, ← hp]; simp)
  | redundant b o r h1 _ _ => exact HeaderSpec.error _ [b, o] r _ h1
  | unterminated w' _ _ => exact HeaderSpec.error _ bs [] _ (by simp)

/-! ### `DerRef` -/

theorem tlv_length (id c : Bytes) : (tlv id c).length = id.length + (lenOctets c.length).length + c.length := by
  simp [tlv]; omega

theorem doParse_tlv {id : Bytes} (hid : IsId id) {c : Bytes} (hc : c.length < 2 ^ 64) (rest : Bytes) :
    DerRef.doParse (tlv id c ++ rest) = (.ok (), rest) := by
  simp only [DerRef.doParse, tlv]
  rw [List.append_assoc (id ++ lenOctets c.length), parseIdLength_definite hid hc]
  simp only
  rw [if_neg (by simp)]
  simp [sliceFrom]

theorem DerRef_parse_tlv {id : Bytes} (hid : IsId id) {c : Bytes} (hc : c.length < 2 ^ 64) (rest : Bytes) :
    DerRef.parse (tlv id c ++ rest) = (.ok (tlv id c), rest) := by
  simp only [DerRef.parse, doParse_tlv hid hc, sliceTo]
  rw [if_pos (by simp)]
  simp

/-- All results of `DerRef::do_parse`. -/
inductive DerSpec (bs : Bytes) : Res Unit × Bytes → Prop
  | ok (id c rest : Bytes) : IsId id → c.length < 2 ^ 64 → bs = tlv id c ++ rest → DerSpec bs (.ok (), rest)
  | error (e : Error) (p rest : Bytes) : bs = p ++ rest → DerSpec bs (.err e, rest)

theorem doParse_spec (bs : Bytes) : DerSpec bs (DerRef.doParse bs) := by
  simp only [DerRef.doParse]
  have hspec := parseIdLength_spec bs []
  generalize (parseIdLength (σ := Bytes)).run bs [] = r at hspec
  cases hspec with
  | definite id n rest h1 h2 h3 =>
    simp only
    by_cases hl : rest.length < n
    · rw [if_pos hl]
      exact DerSpec.error _ (id ++ lenOctets n) rest h3
    · rw [if_neg hl, sliceFrom, if_pos (by omega)]
      simp only
      have ht : (rest.take n).length = n := by simp; omega
      apply DerSpec.ok id (rest.take n) (rest.drop n) h1 (by omega)
      rw [h3, tlv, ht]
      simp
  | indefinite id rest h1 h2 => exact DerSpec.error _ (id ++ indefOctets) rest h2
  | error e p rest w' h => exact DerSpec.error e p rest h

theorem DerRef_parse_ok {bs d rest : Bytes} (h : DerRef.parse bs = (.ok d, rest)) :
    ∃ id c, IsId id ∧ c.length < 2 ^ 64 ∧ d = tlv id c ∧ bs = d ++ rest := by
  simp only [DerRef.parse] at h
  have hspec := doParse_spec bs
  generalize DerRef.doParse bs = r at hspec h
  cases hspec with
  | ok id c rest' h1 h2 h3 =>
    subst h3
    simp only [sliceTo] at h
    rw [if_pos (by simp)] at h
    simp only [List.length_append, Nat.add_sub_cancel, List.take_left', Prod.mk.injEq, Res.ok.injEq] at h
    obtain ⟨h4, h5⟩ := h
    subst h5
    have e : d = tlv id c := h4.symm
    exact ⟨id, c, h1, h2, e, by rw [e]⟩
  | error => simp at h

theorem disassemble_tlv {id : Bytes} (hid : IsId id) {c : Bytes} (hc : c.length < 2 ^ 64) :
    DerRef.disassemble (tlv id c) = .ok (id, .definite c.length, c) := by
  simp only [DerRef.disassemble, tlv, List.append_assoc, parseIdUnchecked_shape ((isId_iff_shape _).mp hid),
    Res.bind_ok, parseLengthUnchecked_lenOctets hc]
  rfl

theorem DerRef_id_tlv {id : Bytes} (hid : IsId id) (c : Bytes) : DerRef.id (tlv id c) = .ok id := by
  simp only [DerRef.id, tlv, List.append_assoc, parseIdUnchecked_shape ((isId_iff_shape _).mp hid), Res.bind_ok]
  rfl

theorem DerRef_length_tlv {id : Bytes} (hid : IsId id) {c : Bytes} (hc : c.length < 2 ^ 64) :
    DerRef.length (tlv id c) = .ok (.definite c.length) := by
  simp only [DerRef.length, disassemble_tlv hid hc, Res.bind_ok]
  rfl

theorem DerRef_contents_tlv {id : Bytes} (hid : IsId id) {c : Bytes} (hc : c.length < 2 ^ 64) :
    DerRef.contents (tlv id c) = .ok c := by
  simp only [DerRef.contents, disassemble_tlv hid hc, Res.bind_ok]
  rfl

/-! ### Construction -/

theorem junkCells_length (junk : Nat → UInt8) (n : Nat) : (junkCells junk n).length = n := by
  simp [junkCells]

theorem withIdLength_ok (m : Build) (junk : Nat → UInt8) (id : Bytes) (n : Nat)
    (h : id.length + (lenOctets n).length + n ≤ isizeMax) :
    Der.withIdLength m junk id n = .ok (id ++ lenOctets n ++ junkCells junk n) := by
  have hi := isizeMax_lt
  have hu := usizeSize_eq
  have hn : n < 2 ^ 64 := by omega
  simp only [Der.withIdLength, toBytes_definite hn, Res.bind_ok]
  rw [uadd_ok (by omega)]
  simp only [Res.bind_ok]
  rw [uadd_ok (by omega)]
  simp only [Res.bind_ok]
  rw [bufReserve_ok (by omega)]
  simp only [Res.bind_ok, Nat.zero_add]
  rw [if_neg (by omega)]
  simp only [Res.pure_eq, Res.ok.injEq]
  have e : id.length + (lenOctets n).length + n - (id ++ lenOctets n).length = n := by simp
  rw [e, List.take_of_length_le]
  simp [junkCells_length]; omega

theorem withIdLength_panic (m : Build) (junk : Nat → UInt8) (id : Bytes) (n : Nat) (hn : n < 2 ^ 64)
    (h : isizeMax < id.length + (lenOctets n).length + n)
    (h' : id.length + (lenOctets n).length + n < usizeSize) :
    Der.withIdLength m junk id n = .panic := by
  simp only [Der.withIdLength, toBytes_definite hn, Res.bind_ok]
  rw [uadd_ok (by omega)]
  simp only [Res.bind_ok]
  rw [uadd_ok (by omega)]
  simp only [Res.bind_ok]
  rw [bufReserve_panic (by omega) (by omega)]
  rfl

theorem copyContents_eq {id : Bytes} (hid : IsId id) {n : Nat} (hn : n < 2 ^ 64) (old c : Bytes)
    (h1 : old.length = n) (h2 : c.length = n) :
    DerRef.copyContents (id ++ lenOctets n ++ old) c = .ok (id ++ lenOctets n ++ c) := by
  have e : id ++ lenOctets n ++ old = tlv id old := by rw [tlv, h1]
  have hd := disassemble_tlv hid (c := old) (by omega)
  simp only [DerRef.copyContents, e, hd, Res.bind_ok]
  rw [if_pos (by omega)]
  simp only [Res.pure_eq, Res.ok.injEq, tlv, h1]
  have : (id ++ lenOctets n ++ old).length - old.length = (id ++ lenOctets n).length := by simp; omega
  rw [h1] at this
  rw [this, List.take_left']
  rfl

theorem Der_new_ok (m : Build) (junk : Nat → UInt8) {id : Bytes} (hid : IsId id) (c : Bytes)
    (h : (tlv id c).length ≤ isizeMax) : Der.new m junk id c = .ok (tlv id c) := by
  have hi := isizeMax_lt
  have hu := usizeSize_eq
  rw [tlv_length] at h
  simp only [Der.new, withIdLength_ok m junk id c.length h, Res.bind_ok]
  rw [copyContents_eq hid (by omega) _ c (junkCells_length junk c.length) rfl]
  rfl

/-! ### In-place changes -/

theorem memcpy_at (a x b src : Bytes) (dst : Nat) (hd : a.length = dst) (h : x.length = src.length) :
    memcpy (a ++ x ++ b) dst src = .ok (a ++ src ++ b) := by
  subst hd
  rw [memcpy, if_pos (by simp; omega)]
  congr 1
  rw [← h, ← List.length_append]
  simp

theorem memmove_at (pre old suf a x b : Bytes) (src dst count : Nat) (e : pre ++ old ++ suf = a ++ x ++ b)
    (hs : pre.length = src) (hc : old.length = count) (hd : a.length = dst) (hx : x.length = count) :
    memmove (pre ++ old ++ suf) src dst count = .ok (a ++ old ++ b) := by
  subst hs hc
  rw [memmove, if_pos (by simp)]
  have : ((pre ++ old ++ suf).drop pre.length).take old.length = old := by simp
  rw [this, e]
  exact memcpy_at a x b old dst hd hx

theorem split3 (l : Bytes) (n k : Nat) (h : n + k ≤ l.length) :
    ∃ a x b, l = a ++ x ++ b ∧ a.length = n ∧ x.length = k ∧ b.length = l.length - (n + k) := by
  refine ⟨l.take n, (l.drop n).take k, l.drop (n + k), ?_, ?_, ?_, ?_⟩
  · rw [List.append_assoc, ← List.drop_drop, List.take_append_drop, List.take_append_drop]
  · simp; omega
  · simp; omega
  · simp

theorem natOctets_length_mono {a b : Nat} (h : a ≤ b) : (natOctets a).length ≤ (natOctets b).length := by
  have hb : b < 256 ^ (natOctets b).length := by
    have := natVal_lt (natOctets b)
    rwa [natOctets_natVal] at this
  exact natOctets_length_le (by omega)

theorem lenOctets_length_mono {a b : Nat} (h : a ≤ b) : (lenOctets a).length ≤ (lenOctets b).length := by
  simp only [lenOctets]
  by_cases ha : a < 128
  · rw [if_pos ha]
    by_cases hb : b < 128
    · rw [if_pos hb]; simp
    · rw [if_neg hb]; simp
  · rw [if_neg ha, if_neg (by omega)]
    have := natOctets_length_mono h
    simpa using this

theorem append_inj_of_length {a b c d : Bytes} (h : a ++ b = c ++ d) (hl : a.length = c.length) : a = c ∧ b = d :=
  List.append_inj h hl

theorem prefix_of_append {a b c d : Bytes} (h : a ++ b = c ++ d) (hl : a.length ≤ c.length) : ∃ e, c = a ++ e := by
  refine ⟨c.drop a.length, ?_⟩
  have h1 := congrArg (List.take a.length) h
  rw [List.take_left', List.take_append_of_le_length hl] at h1
  · conv_lhs => rw [← List.take_append_drop a.length c, ← h1]
  · rfl

theorem extendFromSlice_tlv (m : Build) (junk : Nat → UInt8) {id : Bytes} (hid : IsId id) (c bytes : Bytes)
    (h0 : (tlv id c).length ≤ isizeMax) (hb : (tlv id c).length + bytes.length + 8 < usizeSize) :
    Der.extendFromSlice m junk (tlv id c) bytes =
      if (tlv id (c ++ bytes)).length ≤ isizeMax then .ok (tlv id (c ++ bytes)) else .panic := by
  have hi := isizeMax_eq
  have hu := usizeSize_eq
  rw [tlv_length] at h0
  have hb' := hb
  rw [tlv_length] at hb'
  have hlpos : 0 < (lenOctets c.length).length := List.length_pos_iff.mpr (lenOctets_ne_nil _)
  have hc : c.length < 2 ^ 64 := by omega
  have hn : c.length + bytes.length < 2 ^ 64 := by omega
  have hmono := lenOctets_length_mono (Nat.le_add_right c.length bytes.length)
  have hl9 := lenOctets_length_le hn
  have hcl : (c ++ bytes).length = c.length + bytes.length := by simp
  simp only [Der.extendFromSlice, DerRef_id_tlv hid, DerRef_length_tlv hid hc, Res.bind_ok, Length.definite?,
    len_definite hc]
  rw [uadd_ok (by omega)]
  simp only [Res.bind_ok, len_definite hn, toBytes_definite hn]
  rw [uadd_ok (by omega)]
  simp only [Res.bind_ok]
  rw [usub_ok (by omega)]
  simp only [Res.bind_ok]
  have hT : (tlv id (c ++ bytes)).length =
      (tlv id c).length + (bytes.length + (lenOctets (c.length + bytes.length)).length -
        (lenOctets c.length).length) := by
    rw [tlv_length, tlv_length, hcl]; omega
  by_cases hmax : (tlv id (c ++ bytes)).length ≤ isizeMax
  swap
  · rw [if_neg hmax, bufReserve_panic]
    · rfl
    · omega
    · rw [← hT, tlv_length, hcl]; omega
  rw [if_pos hmax, bufReserve_ok (by omega)]
  simp only [Res.bind_ok]
  rw [uadd_ok (by omega)]
  simp only [Res.bind_ok, ← hT]
  -- the buffer after `set_len`
  generalize hL : lenOctets c.length = L at *
  generalize hL' : lenOctets (c.length + bytes.length) = L' at *
  generalize hJ : junkCells junk ((tlv id (c ++ bytes)).length - (tlv id c).length) = J
  have hJl : J.length = (tlv id (c ++ bytes)).length - (tlv id c).length := by
    rw [← hJ, junkCells_length]
  have htl : tlv id c = id ++ L ++ c := by rw [tlv, hL]
  have htl' : tlv id (c ++ bytes) = id ++ L' ++ (c ++ bytes) := by rw [tlv, hcl, hL']
  have hlen : (tlv id c ++ J).length = id.length + L'.length + c.length + bytes.length := by
    rw [List.length_append, hJl, htl, htl']
    simp
    omega
  -- after the move: `A ++ c ++ B`
  have hmove : ∃ A B, A.length = id.length + L'.length ∧ B.length = bytes.length ∧ (∃ D, A = id ++ D) ∧
      (if id.length + L.length ≠ id.length + L'.length then
        memmove (tlv id c ++ J) (id.length + L.length) (id.length + L'.length) c.length
       else Res.ok (tlv id c ++ J)) = .ok (A ++ c ++ B) := by
    by_cases hne : id.length + L.length ≠ id.length + L'.length
    · rw [if_pos hne]
      obtain ⟨A, X, B, e, hA, hX, hB⟩ := split3 (tlv id c ++ J) (id.length + L'.length) c.length (by omega)
      have hpre : ∃ D, A = id ++ D := by
        apply prefix_of_append (b := L ++ c ++ J) (d := X ++ B)
        · rw [← List.append_assoc A, ← e, htl]; simp
        · omega
      refine ⟨A, B, hA, by omega, hpre, ?_⟩
      rw [htl] at e ⊢
      exact memmove_at (id ++ L) c J A X B _ _ _ e (by simp) rfl hA hX
    · rw [if_neg hne]
      refine ⟨id ++ L, J, by simp; omega, ?_, ⟨L, rfl⟩, by rw [htl]⟩
      rw [List.length_append] at hlen
      rw [htl] at hlen
      simp at hlen; omega
  obtain ⟨A, B, hA, hB, ⟨D, hD⟩, hmv⟩ := hmove
  have hjp : ∀ (q : Prop) [Decidable q] (x y z : Res Bytes) (b : Bytes) (f : Bytes → Res Bytes),
      (if q then x else .ok b) = y → (y >>= f) = z → (if q then x >>= f else f b) = z := by
    intro q _ x y z b f h1 h2
    subst h1
    by_cases hq : q
    · simpa [hq] using h2
    · simpa [hq] using h2
  refine hjp _ _ _ _ _ _ hmv ?_
  simp only [Res.bind_ok]
  have e1 : memcpy (A ++ c ++ B) (id.length + L'.length + c.length) bytes = .ok (A ++ c ++ bytes ++ []) := by
    have := memcpy_at (A ++ c) B [] bytes (id.length + L'.length + c.length) (by simp; omega) hB
    simpa using this
  rw [e1]
  simp only [Res.bind_ok, List.append_nil]
  have hDl : D.length = L'.length := by rw [hD] at hA; simp at hA; omega
  have e2 := memcpy_at id D (c ++ bytes) L' id.length rfl hDl
  rw [hD, htl']
  rw [← e2]
  simp

theorem truncate_tlv {id : Bytes} (hid : IsId id) (c : Bytes) (hc : c.length < 2 ^ 64) (n : Nat) :
    Der.truncate (tlv id c) n = .ok (tlv id (c.take n)) := by
  simp only [Der.truncate, DerRef_id_tlv hid, DerRef_length_tlv hid hc, Res.bind_ok, Length.definite?]
  by_cases hn : c.length ≤ n
  · rw [if_pos hn, List.take_of_length_le hn]; rfl
  rw [if_neg hn]
  have hn64 : n < 2 ^ 64 := by omega
  simp only [toBytes_definite hc, toBytes_definite hn64, Res.bind_ok]
  have hmono := lenOctets_length_mono (show n ≤ c.length by omega)
  have htl : tlv id c = id ++ lenOctets c.length ++ c := rfl
  have hcl : (c.take n).length = n := by simp; omega
  have htl' : tlv id (c.take n) = id ++ lenOctets n ++ c.take n := by rw [tlv, hcl]
  generalize lenOctets c.length = L at *
  generalize lenOctets n = L' at *
  obtain ⟨X, Y, hXY, hX⟩ : ∃ X Y, L = X ++ Y ∧ X.length = L'.length :=
    ⟨L.take L'.length, L.drop L'.length, by simp, by simp; omega⟩
  have e1 : memcpy (tlv id c) id.length L' = .ok (id ++ L' ++ (Y ++ c)) := by
    have := memcpy_at id X (Y ++ c) L' id.length rfl hX
    rw [htl, hXY, ← this]; simp
  rw [e1]
  simp only [Res.bind_ok]
  have hYl : L.length = L'.length + Y.length := by rw [hXY]; simp; omega
  have hmove : ∃ S, (if L'.length < L.length then
      memmove (id ++ L' ++ (Y ++ c)) (id.length + L.length) (id.length + L'.length) n
      else Res.ok (id ++ L' ++ (Y ++ c))) = .ok (id ++ L' ++ c.take n ++ S) := by
    by_cases hlt : L'.length < L.length
    · rw [if_pos hlt]
      obtain ⟨A, Z, B, e, hA, hZ, hB⟩ := split3 (id ++ L' ++ (Y ++ c)) (id.length + L'.length) n
        (by simp; omega)
      have hA' : A = id ++ L' := by
        rw [List.append_assoc A] at e
        exact (List.append_inj e (by simp; omega)).1.symm
      refine ⟨B, ?_⟩
      have e' : id ++ L' ++ (Y ++ c) = (id ++ L' ++ Y) ++ c.take n ++ c.drop n := by simp
      have := memmove_at (id ++ L' ++ Y) (c.take n) (c.drop n) A Z B (id.length + L.length) (id.length + L'.length) n
        (by rw [← e', e]) (by simp; omega) hcl hA hZ
      rw [← e'] at this
      rw [this, hA']
    · rw [if_neg hlt]
      have : Y = [] := List.length_eq_zero_iff.mp (by omega)
      subst this
      exact ⟨c.drop n, by simp⟩
  obtain ⟨S, hmv⟩ := hmove
  have hjp : ∀ (q : Prop) [Decidable q] (x y z : Res Bytes) (b : Bytes) (f : Bytes → Res Bytes),
      (if q then x else .ok b) = y → (y >>= f) = z → (if q then x >>= f else f b) = z := by
    intro q _ x y z b f h1 h2
    subst h1
    by_cases hq : q
    · simpa [hq] using h2
    · simpa [hq] using h2
  refine hjp _ _ _ _ _ _ hmv ?_
  simp only [Res.bind_ok]
  rw [if_pos (by simp; omega), htl']
  simp only [Res.pure_eq, Res.ok.injEq]
  have : id.length + L'.length + n = (id ++ L' ++ c.take n).length := by simp; omega
  rw [this, List.take_left']
  rfl

end Bsn1
