import Verif.Lemmas.RawDer
import Verif.Lemmas.Id
import Verif.Lemmas.IntOctets
/-!
# `Id` and `Contents` on real storage
-/

set_option linter.unusedSimpArgs false
set_option linter.unusedVariables false

namespace Bsn1.Raw
open Bsn1.Buf Bsn1.Spec

variable {I : Impl} {Rep : I.B → Heap → List Cell → Nat → Option Nat → Prop} {m : Build} {al : Allocator}
variable {b : I.B} {h : Heap} {fp : Option Nat} {s : List Cell} {l : Nat}

theorem patch_cons_succ {α : Type} (x : α) (T V : List α) (i : Nat) : patch (x :: T) (i + 1) V = x :: patch T i V := by
  simp [patch, Nat.add_right_comm]

theorem patch_one_drop {α : Type} (T : List α) (v : α) (i : Nat) (hi : i < T.length) : (patch T i [v]).drop i = v :: T.drop (i + 1) := by
  rw [patch, List.append_assoc, drop_of_append (by simp; omega)]
  rfl

theorem step_fillDigits (hc : Correct I Rep) : ∀ (i num : Nat) (b : I.B) (h : Heap) (fp : Option Nat) (x : Cell) (T : List Cell),
    Rep b h (x :: T) l fp → i < l → i ≤ T.length →
    Step (Id.fillDigits I i num b) h fp (fun a h fp =>
      Rep a.1 h (x :: (((kDigits 128 i num).map (fun x => UInt8.ofNat (128 + x))).map some ++ T.drop i)) l fp ∧ a.2 = num / 128 ^ i)
  | 0, num, b, h, fp, x, T, hr, _, _ => by
    unfold Id.fillDigits
    exact .pure ⟨by simpa [kDigits] using hr, by simp⟩
  | i + 1, num, b, h, fp, x, T, hr, hl, hT => by
    unfold Id.fillDigits
    refine .bind (step_setAt hc hr hl) ?_
    intro b h fp hr
    rw [patch_cons_succ] at hr
    have hpl : (patch T i [some (UInt8.ofNat num ||| IdRef.MORE_FLAG)]).length = T.length := patch_length _ _ _ (by simp; omega)
    refine (step_fillDigits hc i (num / 128) b h fp x _ hr (by omega) (by omega)).mono ?_
    rintro ⟨b, n⟩ h fp ⟨hr, hn⟩
    rw [patch_one_drop _ _ _ (by omega), ofNat_or_more] at hr
    refine ⟨?_, ?_⟩
    · rw [kDigits]
      simpa using hr
    · rw [hn, Nat.div_div_eq_div_mul, pow_succ, Nat.mul_comm]

theorem getIdx_ok (hc : Correct I Rep) (hr : Rep b h s l fp) {i : Nat} {v : UInt8} (hi : i < l) (hv : s[i]? = some (some v)) :
    getIdx I b i h = .ok v h := by
  rw [getIdx, bind_ok (hc.cells hr), List.getElem?_take, if_pos hi, hv]
  rfl

/-- The digits are filled in and the last continuation bit is cleared. -/
theorem step_fill_clear (hc : Correct I Rep) (f : UInt8 → UInt8) (hf : ∀ b : UInt8, 128 ≤ b.toNat → (f b).toNat = b.toNat - 128)
    {k num : Nat} {x : UInt8} {T : List Cell} (hr : Rep b h (some x :: T) (k + 1 + 1) fp) (hT : k + 1 ≤ T.length)
    (hn : num < 128 ^ (k + 1)) (hn' : 128 ^ k ≤ num) :
    Step (Id.fillDigits I (k + 1) num b) h fp (fun a h fp => a.2 = 0 ∧
      ∃ v, getIdx I a.1 (k + 1) h = .ok v h ∧
        Step (I.setAt a.1 (k + 1) (f v)) h fp (fun b h fp => Has Rep b h (x :: contOctets (baseDigits 128 num)) fp)) := by
  refine (step_fillDigits hc (k + 1) num b h fp _ T hr (by omega) hT).mono ?_
  rintro ⟨b, n⟩ h fp ⟨hr, hn0⟩
  simp only at hr hn0 ⊢
  refine ⟨by rw [hn0, Nat.div_eq_of_lt hn], ?_⟩
  have hk := kDigits_eq_baseDigits (b := 128) (by norm_num) k num hn hn'
  rw [← hk]
  rw [kDigits] at hr ⊢
  rw [contOctets_append]
  have hl : (List.map (fun x => UInt8.ofNat (128 + x)) (kDigits 128 k (num / 128))).length = k := by simp [kDigits_length]
  rw [List.map_append] at hr
  generalize List.map (fun x => UInt8.ofNat (128 + x)) (kDigits 128 k (num / 128)) = L at *
  subst hl
  have e : some x :: (List.map some (L ++ [UInt8.ofNat (128 + num % 128)]) ++ T.drop (L.length + 1)) =
      (x :: L).map some ++ (some (UInt8.ofNat (128 + num % 128)) :: T.drop (L.length + 1)) := by simp
  rw [List.map_cons, List.map_nil, e] at hr
  refine ⟨UInt8.ofNat (128 + num % 128), getIdx_ok hc hr (by omega) ?_, ?_⟩
  · rw [List.getElem?_append_right (by simp)]
    simp
  · refine (step_setAt hc hr (by omega)).mono ?_
    intro b h fp hr
    have hfe : f (UInt8.ofNat (128 + num % 128)) = UInt8.ofNat (num % 128) := by
      apply u8_ext
      rw [hf _ (by rw [toNat_ofNat_of_lt (by omega)]; omega), toNat_ofNat_of_lt (by omega), toNat_ofNat_of_lt (by omega)]
      omega
    have e2 := patch_append ((x :: L).map some) (some (UInt8.ofNat (128 + num % 128)) :: T.drop (L.length + 1))
      [some (f (UInt8.ofNat (128 + num % 128)))]
    rw [List.length_map, List.length_cons] at e2
    rw [e2, hfe] at hr
    exact Has.of_append (R := T.drop (L.length + 1)) hr (by simp) (by simp)

theorem long_first (c : ClassTag) (p : PCTag) :
    c.toU8 + p.toU8 + IdRef.LONG_FLAG = UInt8.ofNat (64 * classNum c + 32 * pcNum p + 31) := by
  have := first_octet c p 31 (by omega)
  have e : IdRef.LONG_FLAG = UInt8.ofNat 31 := by decide
  rw [← e] at this
  exact this

theorem idNum_len {k n : Nat} (h : n < 2 ^ 128) (h2 : 128 ^ k ≤ n) : k < 128 := by
  by_contra hk
  have h3 : (128 : Nat) ^ 128 ≤ 128 ^ k := Nat.pow_le_pow_right (by norm_num) (by omega)
  have h4 : (2 : Nat) ^ 128 < 128 ^ 128 := by norm_num
  omega

/-- `Id::new` leaves the octets of the identifier. -/
theorem step_Id_new (hc : Correct I Rep) (hv : al.Valid) (c : ClassTag) (p : PCTag) {n : Nat} (hn : n < 2 ^ 128) :
    Step (Id.new I m al c p n) h none (fun b h fp => Has Rep b h (idOctets (classNum c) (pcNum p) n) fp) := by
  have hm : IdRef.MAX_SHORT.toNat = 30 := by decide
  obtain ⟨s, hr, hs⟩ := hc.new h
  unfold Id.new
  rw [hm]
  refine .ite (fun h1 => ?_) (fun h1 => ?_)
  · refine (step_push hc hr hs).mono ?_
    intro b h fp hr
    rw [idOctets, if_pos (by omega), first_octet _ _ _ (by omega)] at *
    rw [patch_zero] at hr
    exact Has.of_append (R := _) hr (by simp; rfl) (by simp)
  · obtain ⟨k, hk, h2, h3⟩ := byteLen7_spec hn (by omega)
    have hk128 := idNum_len hn h3
    have hmax : isizeMax = 2 ^ 63 - 1 := by decide
    simp only [hk, Nat.add_sub_cancel]
    refine .bind (step_reserve hc hv hr (by rw [hmax]; omega)) ?_
    rintro b h fp ⟨s, hr, hs1, _, _⟩
    rw [Nat.zero_add] at hs1
    refine .bind (step_setLen hc hr hs1) ?_
    intro b h fp hr
    refine .bind (step_setAt hc hr (by omega)) ?_
    intro b h fp hr
    rw [patch_zero, long_first] at hr
    refine .bind (step_fill_clear hc (fun b => b ^^^ IdRef.MORE_FLAG) xor_more (T := s.drop 1) hr (by simp; omega) h2 h3) ?_
    rintro ⟨b, n'⟩ h fp ⟨_, v, hg, hst⟩
    refine .same hg ?_
    rw [idOctets, if_neg (by omega)]
    exact hst

/-- `Id::set_number` leaves the octets of the identifier with the new number. -/
theorem step_Id_setNumber (hc : Correct I Rep) (hv : al.Valid) (c : ClassTag) (p : PCTag) (n : Nat) {n' : Nat} (hn : n' < 2 ^ 128)
    (hb : Has Rep b h (idOctets (classNum c) (pcNum p) n) fp) :
    Step (Id.setNumber I m al b n') h fp (fun b h fp => Has Rep b h (idOctets (classNum c) (pcNum p) n') fp) := by
  have hm : IdRef.MAX_SHORT.toNat = 30 := by decide
  have hc0 := clazz_idOctets c p n
  have hp0 := pc_idOctets c p n
  obtain ⟨r, hi⟩ := idOctets_cons (classNum c) (pcNum p) n
  rw [hi] at hb hc0 hp0
  generalize UInt8.ofNat (64 * classNum c + 32 * pcNum p + if n < 31 then n else 31) = first at *
  rw [clazz_cons] at hc0
  rw [pc_cons] at hp0
  obtain ⟨R, hr⟩ := hb
  have hbd := hc.bound hr
  unfold Id.setNumber
  refine .same (getIdx_ok hc hr (by simp) (v := first) (by simp)) ?_
  refine .same (liftRes_ok ((clazz_cons first []).trans hc0)) ?_
  refine .same (liftRes_ok ((pc_cons first []).trans hp0)) ?_
  rw [hm]
  refine .ite (fun h1 => ?_) (fun h1 => ?_)
  · refine .bind (step_setAt hc hr (by simp)) ?_
    intro b h fp hr
    rw [patch_zero, first_octet _ _ _ (by omega)] at hr
    refine (step_setLen hc hr (by simp)).mono ?_
    intro b h fp hr
    rw [idOctets, if_pos (by omega)]
    exact Has.of_append (R := _) hr (by simp; rfl) (by simp)
  · obtain ⟨k, hk, h2, h3⟩ := byteLen7_spec hn (by omega)
    have hk128 := idNum_len hn h3
    have hmax : isizeMax = 2 ^ 63 - 1 := by decide
    simp only [hk, Nat.add_sub_cancel, hc.len hr]
    refine .iteBind (Q := fun b h fp => ∃ s l, Rep b h s l fp ∧ k + 1 + 1 ≤ s.length) ?_ ?_
    · refine .ite (fun hlt => ?_) (fun hge => .pure ⟨_, _, hr, by simp at hge ⊢; omega⟩)
      refine (step_reserve hc hv hr (by rw [hmax]; omega)).mono ?_
      rintro b h fp ⟨s, hr, hs1, _, _⟩
      exact ⟨s, _, hr, by omega⟩
    rintro b h fp ⟨s, l, hr, hs1⟩
    refine .bind (step_setLen hc hr hs1) ?_
    intro b h fp hr
    refine .bind (step_setAt hc hr (by omega)) ?_
    intro b h fp hr
    rw [patch_zero, long_first] at hr
    refine .bind (step_fill_clear hc (fun b => b &&& ~~~ IdRef.MORE_FLAG) and_not_more_toNat (T := s.drop 1) hr (by simp; omega) h2 h3) ?_
    rintro ⟨b, n'⟩ h fp ⟨hz, v, hg, hst⟩
    refine .same hg ?_
    refine .bind hst ?_
    intro b h fp hb
    refine .same (debugAssert_ok m hz h) ?_
    rw [idOctets, if_neg (by omega)]
    exact .pure hb

theorem copyOut_length {mem r : Bytes} {src n : Nat} (h : Bsn1.Contents.copyOut mem src n = .ok r) : r.length ≤ mem.length := by
  unfold Bsn1.Contents.copyOut at h
  split at h
  · simp only [Res.ok.injEq] at h
    subst h
    simp
  · simp at h

theorem fromPositive_length {t : IntTy} {v : Int} {r : Bytes} (h : Bsn1.Contents.fromPositive t v = .ok r) : r.length ≤ 2 * t.size := by
  have hl : (List.replicate t.size (0 : UInt8) ++ t.toBe v).length = 2 * t.size := by simp [toBe_length]; omega
  obtain ⟨⟨src, n⟩, _, h⟩ := Res.bind_eq_ok.mp h
  obtain ⟨b, _, h⟩ := Res.bind_eq_ok.mp h
  split at h
  · obtain ⟨src', _, h⟩ := Res.bind_eq_ok.mp h
    exact hl ▸ copyOut_length h
  · exact hl ▸ copyOut_length h

theorem fromNegative_length {t : IntTy} {v : Int} {r : Bytes} (h : Bsn1.Contents.fromNegative t v = .ok r) : r.length ≤ 2 * t.size := by
  have hl : (t.toBe v).length = t.size := toBe_length t v
  obtain ⟨⟨src, n⟩, _, h⟩ := Res.bind_eq_ok.mp h
  obtain ⟨b, _, h⟩ := Res.bind_eq_ok.mp h
  split at h
  · obtain ⟨src', _, h⟩ := Res.bind_eq_ok.mp h
    have := copyOut_length h
    omega
  · have := copyOut_length h
    omega

/-- The conversions of integers to `Contents` leave the octets of the integer. -/
theorem step_Contents_ofInt (hc : Correct I Rep) (hv : al.Valid) (t : IntTy) {v : Int} (hr : t.InRange v) :
    Step (Contents.ofInt I m al t v) h none (fun b h fp => Has Rep b h (intOctets v) fp) := by
  have he := ofInt_intOctets t v hr
  obtain ⟨s, hr0, hs⟩ := hc.new h
  unfold Contents.ofInt
  refine .ite (fun h0 => ?_) (fun h0 => ?_)
  · subst h0
    have : intOctets 0 = [0x00] := by
      have e : Bsn1.Contents.ofInt t 0 = .ok [0x00] := by
        simp [Bsn1.Contents.ofInt, Bsn1.Contents.fromInteger, Bsn1.Contents.fromZero]
      rw [he] at e
      simpa using e
    rw [this]
    refine (step_push hc hr0 hs).mono ?_
    intro b h fp hr
    rw [patch_zero] at hr
    exact Has.of_append (R := _) hr (by simp; rfl) (by simp)
  · have e : (if v < 0 then Bsn1.Contents.fromNegative t v else Bsn1.Contents.fromPositive t v) = .ok (intOctets v) := by
      rw [← he, Bsn1.Contents.ofInt, Bsn1.Contents.fromInteger, if_neg h0]
      cases hs : t.signed with
      | true => simp
      | false =>
        have := ((inRange_unsigned hs v).mp hr).1
        rw [if_neg (by omega)]
        simp
    have hlen : (intOctets v).length ≤ isizeMax := by
      have hmax : isizeMax = 2 ^ 63 - 1 := by decide
      have hsz : t.size ≤ 16 := by cases t <;> decide
      have : (intOctets v).length ≤ 2 * t.size := by
        split at e
        · exact fromNegative_length e
        · exact fromPositive_length e
      omega
    refine .same (liftRes_ok e) ?_
    refine .bind (step_withCapacity hc hv hlen) ?_
    rintro b h fp ⟨s, hr, hs⟩
    refine .bind (step_setLen hc hr hs) ?_
    intro b h fp hr
    refine (step_poke hc hr (by omega)).mono ?_
    intro b h fp hr
    rw [patch_zero] at hr
    exact Has.of_append (R := _) hr rfl rfl

end Bsn1.Raw
