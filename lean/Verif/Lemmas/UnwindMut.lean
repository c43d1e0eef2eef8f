import Verif.Lemmas.UnwindAgree
import Verif.Lemmas.RawHistory
/-!
# Panics: values behind `&mut`
-/

set_option linter.unusedVariables false

namespace Bsn1.Raw
open Bsn1.Buf Bsn1.Spec

variable {I : Impl} {Rep : I.B → Heap → List Cell → Nat → Option Nat → Prop} {m : Build} {al : Allocator} {init : Nat} {V : UImpl I}
  {b : I.B} {h : Heap} {fp : Option Nat}

/-- The struct and the blocks are as they were. -/
def Intact {B : Type} (b : B) (h : Heap) (b' : B) (h' : Heap) : Prop := b' = b ∧ h'.blocks = h.blocks

/-- A method that does not panic. -/
theorem tri_never {u : Meth I.B Unit} {x : M I.B} (hf : fin u (fun _ b => (pure b : M I.B)) b = x >>= fun b => pure b) {Q : I.B → Heap → Option Nat → Prop}
    (hs : Step x h fp Q) {E : I.B → Heap → Prop} : Tri u b h (fun _ _ _ => True) E := by
  have := congrFun hf h
  rw [m_bind_pure] at this
  unfold Tri
  unfold fin at this
  cases e : u b h with
  | unwind b' h' =>
    rw [e] at this
    rcases hs with e2 | ⟨_, _, _, e2, _⟩ <;> rw [e2] at this <;> cases this
  | _ => trivial

theorem tri_np {u : Meth I.B Unit} {x : M I.B} (hl : Like b h (x h) (u b h)) (hx : x h ≠ .panic) {E : I.B → Heap → Prop} :
    Tri u b h (fun _ _ _ => True) E := by
  unfold Tri
  cases e : x h with
  | panic => exact absurd e hx
  | ok b' h' => rw [e] at hl; rw [show u b h = _ from hl]; trivial
  | abort => rw [e] at hl; rw [show u b h = _ from hl]; trivial
  | ub => rw [e] at hl; rw [show u b h = _ from hl]; trivial

theorem tri_like {u : Meth I.B Unit} {x : M I.B} (hl : Like b h (x h) (u b h)) : Tri u b h (fun _ _ _ => True) (Intact b h) := by
  unfold Tri
  cases e : x h with
  | panic => rw [e] at hl; obtain ⟨h', e1, e2⟩ := hl; rw [e1]; exact ⟨rfl, e2⟩
  | ok b' h' => rw [e] at hl; rw [show u b h = _ from hl]; trivial
  | abort => rw [e] at hl; rw [show u b h = _ from hl]; trivial
  | ub => rw [e] at hl; rw [show u b h = _ from hl]; trivial

/-- What does not fit: `reserve` panics before it changes anything, or its sum wraps and it does nothing. -/
theorem tri_reserve_over (hc : Correct I Rep) (hi : Inline I Rep init) (hu : Unwinds V Rep) {s : List Cell} {l n : Nat} (hr : Rep b h s l fp)
    (hn : n < usizeSize) (ho : isizeMax < l + n) :
    Tri (V.reserve m al n) b h (fun _ b' h' => b' = b ∧ h' = h ∧ m = .release ∧ usizeSize ≤ l + n) (Intact b h) := by
  have hlike := hu.reserve m al n b h
  have e := hi.beyond m al hr n hn ho
  unfold Tri
  by_cases h1 : usizeSize ≤ l + n
  · rw [if_pos h1] at e
    cases m with
    | debug =>
      rw [if_pos rfl] at e
      rw [e] at hlike
      obtain ⟨h', e1, e2⟩ := hlike
      rw [e1]
      exact ⟨rfl, e2⟩
    | release =>
      rw [if_neg (by decide)] at e
      rw [e] at hlike
      rw [show V.reserve .release al n b h = .ok () b h from hlike]
      exact ⟨rfl, rfl, rfl, h1⟩
  · rw [if_neg h1] at e
    by_cases h2 : fp = none
    · rw [if_pos h2] at e
      rw [e] at hlike
      obtain ⟨h', e1, e2⟩ := hlike
      rw [e1]
      exact ⟨rfl, e2⟩
    · rw [if_neg h2] at e
      rw [e] at hlike
      rw [show V.reserve m al n b h = .ub from hlike]; trivial

/-- Nothing after `Intact` states matters if it cannot panic. -/
theorem Tri.any {B α : Type} {b : B} {h : Heap} {x : Meth B α} {Q : α → B → Heap → Prop} {E : B → Heap → Prop} (hx : Tri x b h Q E) :
    Tri x b h (fun _ _ _ => True) E := hx.mono (fun _ _ _ _ => trivial) fun _ _ h => h

theorem tri_Der_extend (hc : Correct I Rep) (hi : Inline I Rep init) (hu : Unwinds V Rep) (ha : Agrees V) (hv : al.Valid) {id c bytes : Bytes} (hid : IsId id)
    (hb : Has Rep b h (tlv id c) fp) (hl : bytes.length ≤ isizeMax) :
    Tri (Der.extendFromSliceU V m al bytes) b h (fun _ _ _ => True) (Intact b h) := by
  by_cases hn : (tlv id (c ++ bytes)).length ≤ isizeMax
  · exact tri_never (fin_Der_extend ha bytes _ b) (step_Der_extend (m := m) hc hv hid hb hn)
  have hm := isizeMax_lt
  have hus := usizeSize_eq
  have hmax : isizeMax = 2 ^ 63 - 1 := by decide
  obtain ⟨R, hr⟩ := hb
  have hbd := hc.bound hr
  have hlen := tlv_length id c
  have hlen' : ((tlv id c).map some ++ R).length = (tlv id c).length + R.length := by simp
  rw [tlv_length, List.length_append] at hn
  have hmono := lenOctets_length_mono (Nat.le_add_right c.length bytes.length)
  have hn64 : c.length + bytes.length < 2 ^ 64 := by omega
  have hc64 : c.length < 2 ^ 64 := by omega
  have h9 := lenOctets_length_le hn64
  have hr0 : Rep b h ((id ++ lenOctets c.length).map some ++ (c.map some ++ R)) (tlv id c).length fp := by
    simpa [tlv] using hr
  have hE : Intact b h b h := ⟨rfl, rfl⟩
  unfold Der.extendFromSliceU
  refine .self (.step (still_header hc (h0 := ⟨erase h.blocks fp, h.clock⟩) ⟨_, _, _, hr, by rw [Frame, erase_none]⟩) hE fun a e => ?_)
  rw [header_ok hc hr0 (by simp; omega) (disassemble_hdr hid hc64)] at e
  cases e
  refine .step (still_pure _ _) hE fun a e => ?_
  cases e
  refine .step (still_usizeAdd _ _ _ _) hE fun a e => ?_
  rw [usizeAdd_ok m (by omega) h] at e
  cases e
  simp only [len_definite hn64, len_definite hc64]
  refine .step (still_usizeAdd _ _ _ _) hE fun a e => ?_
  rw [usizeAdd_ok m (by omega) h] at e
  cases e
  refine .step (still_liftRes _ _) hE fun a e => ?_
  rw [liftRes_ok (usub_ok (by omega))] at e
  cases e
  refine (tri_reserve_over hc hi hu hr (by omega) (by omega)).bind ?_
  rintro _ b' h' ⟨rfl, rfl, rfl, hw⟩
  refine .self (.step (still_usizeAdd _ _ _ _) hE fun a e => ?_)
  rw [hc.len hr] at e
  obtain ⟨_, t, e2, hlt⟩ := usizeAdd_over hw (by omega) h'
  rw [e2] at e
  cases e
  -- from here on nothing panics
  have fr : Frame ⟨erase h'.blocks fp, h'.clock⟩ h' none fp := by rw [Frame, erase_none]
  refine (tri_setLen hc hu hr fr (n := a) (by omega)).bind ?_
  intro _ b2 h2 _
  have rest : ∀ b2 h2, Tri (do
      V.poke (id.length + (lenOctets (c.length + bytes.length)).length + c.length) bytes
      let b ← Meth.self
      Meth.step (Buf.debugAssert .release (id.length + (lenOctets (c.length + bytes.length)).length + c.length + bytes.length = I.len b))
      let newLengthBytes ← Meth.step (liftRes (Length.definite (c.length + bytes.length)).toBytes)
      V.poke id.length newLengthBytes) b2 h2 (fun _ _ _ => True) (Intact b' h') := by
    intro b2 h2
    refine (tri_np (hu.poke _ _ _ _) (hu.poke_np _ _ _ _)).bind ?_
    intro _ b2 h2 _
    unfold Tri
    simp only [meth_bind, meth_self, Meth.step, show ∀ (c : Prop) [Decidable c] h, Buf.debugAssert .release c h = .ok () h from fun _ _ _ => rfl, toBytes_definite hn64,
      show liftRes (.ok (lenOctets (c.length + bytes.length))) h2 = .ok _ h2 from rfl]
    exact tri_np (hu.poke _ _ _ _) (hu.poke_np _ _ _ _)
  refine .ite (fun _ => ?_) fun _ => rest _ _
  refine (tri_np (hu.copyWithin _ _ _ _ _) (hu.copyWithin_np _ _ _ _ _)).bind ?_
  intro _ b2 h2 _
  exact rest _ _

theorem tri_Der_truncate (hc : Correct I Rep) (ha : Agrees V) {id c : Bytes} (n : Nat) (hid : IsId id) (hb : Has Rep b h (tlv id c) fp)
    {E : I.B → Heap → Prop} : Tri (Der.truncateU V m n) b h (fun _ _ _ => True) E :=
  tri_never (fin_Der_truncate ha n _ b) (step_Der_truncate (m := m) hc hid hb)

theorem tri_Ber_truncate_definite (hc : Correct I Rep) (ha : Agrees V) {id c : Bytes} (n : Nat) (hid : IsId id) (hb : Has Rep b h (tlv id c) fp)
    {E : I.B → Heap → Prop} : Tri (Ber.truncateU V m n) b h (fun _ _ _ => True) E :=
  tri_never (fin_Ber_truncate ha n _ b) (step_Ber_truncate_definite (m := m) hc hid hb)

theorem tri_Ber_truncate_indefinite (hc : Correct I Rep) (ha : Agrees V) {id c : Bytes} (n : Nat) (hid : IsId id) (hb : Has Rep b h (id ++ indefOctets ++ c) fp)
    {E : I.B → Heap → Prop} : Tri (Ber.truncateU V m n) b h (fun _ _ _ => True) E :=
  tri_never (fin_Ber_truncate ha n _ b) (step_Ber_truncate_indefinite (m := m) hc hid hb)

theorem tri_setNumber (hc : Correct I Rep) (ha : Agrees V) (hv : al.Valid) (c : ClassTag) (p : PCTag) (n : Nat) {n' : Nat} (hn : n' < 2 ^ 128)
    (hb : Has Rep b h (idOctets (classNum c) (pcNum p) n) fp) {E : I.B → Heap → Prop} : Tri (Id.setNumberU V m al n') b h (fun _ _ _ => True) E :=
  tri_never (fin_setNumber ha n' _ b) (step_Id_setNumber (m := m) hc hv c p n hn hb)

theorem tri_Ber_extend_definite (hc : Correct I Rep) (hi : Inline I Rep init) (hu : Unwinds V Rep) (ha : Agrees V) (hv : al.Valid) {id c bytes : Bytes}
    (hid : IsId id) (hb : Has Rep b h (tlv id c) fp) (hl : bytes.length ≤ isizeMax) :
    Tri (Ber.extendFromSliceU V m al bytes) b h (fun _ _ _ => True) (Intact b h) := by
  have hb' := hb
  have hm := isizeMax_lt
  have hus := usizeSize_eq
  obtain ⟨R, hr⟩ := hb
  have hbd := hc.bound hr
  have hlen := tlv_length id c
  have hlen' : ((tlv id c).map some ++ R).length = (tlv id c).length + R.length := by simp
  have hc64 : c.length < 2 ^ 64 := by omega
  have hr0 : Rep b h ((id ++ lenOctets c.length).map some ++ (c.map some ++ R)) (tlv id c).length fp := by
    simpa [tlv] using hr
  unfold Ber.extendFromSliceU
  refine .self (.step (still_header hc (h0 := ⟨erase h.blocks fp, h.clock⟩) ⟨_, _, _, hr, by rw [Frame, erase_none]⟩) ⟨rfl, rfl⟩ fun a e => ?_)
  rw [header_ok hc hr0 (by simp; omega) (disassemble_hdr hid hc64)] at e
  cases e
  exact tri_Der_extend hc hi hu ha hv hid hb' hl

theorem tri_Ber_extend_indefinite (hc : Correct I Rep) (hi : Inline I Rep init) (hu : Unwinds V Rep) (ha : Agrees V) (hv : al.Valid) {id c bytes : Bytes}
    (hid : IsId id) (hb : Has Rep b h (id ++ indefOctets ++ c) fp) (hl : bytes.length ≤ isizeMax) :
    Tri (Ber.extendFromSliceU V m al bytes) b h (fun _ _ _ => True) (Intact b h) := by
  by_cases hn : (id ++ indefOctets ++ (c ++ bytes)).length ≤ isizeMax
  · exact tri_never (fin_Ber_extend ha bytes _ b) (step_Ber_extend_indefinite (m := m) hc hv hid hb hn)
  have hm := isizeMax_lt
  obtain ⟨R, hr⟩ := hb
  have hbd := hc.bound hr
  have hr0 : Rep b h ((id ++ indefOctets).map some ++ (c.map some ++ R)) (id ++ indefOctets ++ c).length fp := by simpa using hr
  have hE : Intact b h b h := ⟨rfl, rfl⟩
  unfold Ber.extendFromSliceU
  refine .self (.step (still_header hc (h0 := ⟨erase h.blocks fp, h.clock⟩) ⟨_, _, _, hr, by rw [Frame, erase_none]⟩) hE fun a e => ?_)
  rw [header_ok hc hr0 (by simp) (disassemble_indef_hdr hid)] at e
  cases e
  refine (tri_reserve_over hc hi hu hr (by omega) (by simp only [List.length_append] at hn ⊢; omega)).bind ?_
  rintro _ b' h' ⟨rfl, rfl, rfl, hw⟩
  refine .self ?_
  rw [hc.len hr]
  unfold Tri
  rw [meth_bind]
  have := hu.poke (id ++ indefOctets ++ c).length bytes b' h'
  rw [hu.poke_out _ bytes hr (by omega)] at this
  rw [show V.poke _ bytes b' h' = .ub from this]
  trivial

end Bsn1.Raw
