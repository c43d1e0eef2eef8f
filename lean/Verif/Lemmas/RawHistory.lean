import Verif.Lemmas.RawParse
import Verif.Lemmas.RawId
import Verif.Spec.Raw
import Verif.Props.Der
import Verif.Props.Ber
import Verif.Props.Id
/-!
# Programs that use many values: the invariant
-/

set_option linter.unusedSimpArgs false
set_option linter.unusedVariables false

namespace Bsn1.Raw
open Bsn1.Buf Bsn1.Spec

variable {I : Impl} {Rep : I.B → Heap → List Cell → Nat → Option Nat → Prop} {m : Build} {al : Allocator}
  {b : I.B} {h h' h0 : Heap} {fp : Option Nat} {objs : List (Obj I)} {abs : List AObj} {fps : List (Option Nat)}

/-! ### Changes in place -/

theorem Has.set (hc : Correct I Rep) {w : Bytes} (hb : Has Rep b h w fp) {k : Nat} (hk : k < w.length) (v : UInt8) :
    Step (I.setAt b k v) h fp (fun b h fp => Has Rep b h (w.set k v) fp) := by
  obtain ⟨R, hr⟩ := hb
  refine (step_setAt hc hr hk).mono ?_
  intro b h fp hr
  refine ⟨R, ?_⟩
  have : patch (w.map some ++ R) k [some v] = (w.set k v).map some ++ R := by
    rw [patch, List.set_eq_take_append_cons_drop, if_pos hk]
    rw [List.take_append_of_le_length (by simp; omega), List.drop_append_of_le_length (by simp; omega)]
    simp
  rwa [this, ← List.length_set (as := w) (i := k) (a := v)] at hr

theorem step_first (hc : Correct I Rep) {o : UInt8} {r : Bytes} (hb : Has Rep b h (o :: r) fp) (f : UInt8 → UInt8) :
    Step (do
      let first ← getIdx I b 0
      I.setAt b 0 (f first)) h fp (fun b h fp => Has Rep b h (f o :: r) fp) := by
  have hb' := hb
  obtain ⟨R, hr⟩ := hb'
  refine .same (getIdx_ok hc hr (i := 0) (v := o) (by simp) (by simp)) ?_
  exact hb.set hc (by simp) _

theorem step_setClass (hc : Correct I Rep) {cls cls' : ClassTag} {pc : PCTag} {n : Nat} {T : Bytes}
    (hb : Has Rep b h (idOctets (classNum cls) (pcNum pc) n ++ T) fp) :
    Step (Id.setClass I b cls') h fp (fun b h fp => Has Rep b h (idOctets (classNum cls') (pcNum pc) n ++ T) fp) := by
  have e := setClass_idOctets cls cls' pc n
  obtain ⟨r, hi⟩ := idOctets_cons (classNum cls) (pcNum pc) n
  rw [hi] at hb e
  simp only [IdRef.setClass, getAt, setAt, List.getElem?_cons_zero, Res.pure_eq, Res.bind_ok, List.length_cons, List.set_cons_zero] at e
  rw [if_pos (by omega)] at e
  simp only [Res.ok.injEq] at e
  rw [← e]
  exact step_first hc hb _

theorem step_setPc (hc : Correct I Rep) {cls : ClassTag} {pc pc' : PCTag} {n : Nat} {T : Bytes}
    (hb : Has Rep b h (idOctets (classNum cls) (pcNum pc) n ++ T) fp) :
    Step (Id.setPc I b pc') h fp (fun b h fp => Has Rep b h (idOctets (classNum cls) (pcNum pc') n ++ T) fp) := by
  have e := setPc_idOctets cls pc pc' n
  obtain ⟨r, hi⟩ := idOctets_cons (classNum cls) (pcNum pc) n
  rw [hi] at hb e
  simp only [IdRef.setPc, getAt, setAt, List.getElem?_cons_zero, Res.pure_eq, Res.bind_ok, List.length_cons, List.set_cons_zero] at e
  rw [if_pos (by omega)] at e
  simp only [Res.ok.injEq] at e
  rw [← e]
  exact step_first hc hb _

theorem step_setContents (hc : Correct I Rep) {hdr id c : Bytes} {L : Length} (hb : Has Rep b h (hdr ++ c) fp)
    (hd : ∀ rest, DerRef.disassemble (hdr ++ rest) = .ok (id, L, rest)) {k : Nat} (hk : k < c.length) (v : UInt8) :
    Step (setContents I b k v) h fp (fun b h fp => Has Rep b h (hdr ++ c.set k v) fp) := by
  have hb' := hb
  obtain ⟨R, hr⟩ := hb'
  rw [List.map_append, List.append_assoc] at hr
  unfold setContents
  refine .same (header_ok hc hr (by simp) hd) ?_
  have := hb.set hc (k := hdr.length + k) (by simp; omega) v
  rwa [List.set_append_right _ _ (by omega), Nat.add_sub_cancel_left] at this

/-! ### The invariant -/

/-- The object of the ordinary vectors. -/
def absOf : TVal → AObj
  | .vec bs => .vec (.ofBytes bs)
  | .gone => .gone
  | v => .buf (.ofBytes v.octets)

/-- Identifiers are right. -/
def Good : TVal → Prop
  | .der id _ => IsId id
  | .indef id _ => IsId id
  | _ => True

theorem agree_append {w : Bytes} {s : List Cell} (ha : Agree (w.map some) s) : ∃ R, s = w.map some ++ R := by
  refine ⟨s.drop w.length, ?_⟩
  have hl := ha.1
  rw [List.length_map] at hl
  apply List.ext_getElem?
  intro i
  rw [List.getElem?_append]
  split
  · rename_i hi
    rw [List.length_map] at hi
    have e : (w.map some)[i]? = some (some w[i]) := by
      rw [List.getElem?_map, List.getElem?_eq_getElem hi]; rfl
    rw [e, ha.2 i w[i] e]
  · rename_i hi
    rw [List.length_map] at *
    rw [List.getElem?_drop]
    congr 1
    omega

theorem Has.obj {v : TVal} (hv : v ≠ .gone) (hv' : ∀ bs, v ≠ .vec bs) (hb : Has Rep b h v.octets fp) :
    ObjRep Rep (.buf b) h (absOf v) fp := by
  obtain ⟨R, hr⟩ := hb
  have : absOf v = .buf (.ofBytes v.octets) := by
    cases v <;> first | rfl | (exact absurd rfl hv) | exact absurd rfl (hv' _)
  rw [this]
  exact ⟨_, hr, ⟨by simp [AVec.ofBytes], fun i x e => by
    rw [List.getElem?_append_left]
    · exact e
    · rcases Nat.lt_or_ge i (v.octets.map some).length with hl | hl
      · exact hl
      · simp only [AVec.ofBytes] at e
        rw [List.getElem?_eq_none hl] at e; simp at e⟩, by simp [AVec.ofBytes]⟩

theorem obj_buf {o : Obj I} {v : TVal} (hv : v ≠ .gone) (hv' : ∀ bs, v ≠ .vec bs) (ho : ObjRep Rep o h (absOf v) fp) :
    ∃ b, o = .buf b ∧ Has Rep b h v.octets fp := by
  have e : absOf v = .buf (.ofBytes v.octets) := by
    cases v <;> first | rfl | (exact absurd rfl hv) | exact absurd rfl (hv' _)
  rw [e] at ho
  cases o with
  | buf b =>
    obtain ⟨s, h1, h2, h3⟩ := ho
    obtain ⟨R, rfl⟩ := agree_append h2
    exact ⟨b, rfl, R, h1⟩
  | vec r => exact ho.elim
  | gone => exact ho.elim

/-- A value is made. -/
theorem add_step (hc : Correct I Rep) {x : M I.B} {v : TVal} (hv : v ≠ .gone) (hv' : ∀ bs, v ≠ .vec bs)
    (hi : Inv Rep h0 objs h abs fps) (hs : Step x h none (fun b h fp => Has Rep b h v.octets fp)) :
    (do return objs ++ [.buf (← x)] : M (List (Obj I))) h = .abort ∨
    ∃ objs' h' fps', (do return objs ++ [.buf (← x)] : M (List (Obj I))) h = .ok objs' h' ∧
      Inv Rep h0 objs' h' (abs ++ [absOf v]) fps' := by
  rcases hs with e | ⟨b, h', fp', e, q, fr⟩
  · exact .inl (bind_abort e)
  · exact .inr ⟨_, h', _, bind_ok (f := fun b => pure (objs ++ [Obj.buf b])) e, hi.add hc (q.obj hv hv') fr⟩

/-- Something is parsed. -/
theorem parse_step (hc : Correct I Rep) {σ : Type} {x : M (Except Error I.B × σ)} {v : TVal} {r : Res Bytes} {s' : σ}
    (hr : r = .ok v.octets ∧ v ≠ .gone ∧ (∀ bs, v ≠ .vec bs) ∨ (∃ e, r = .err e) ∧ v = .gone)
    (hi : Inv Rep h0 objs h abs fps) (hs : Step x h none (Parsed Rep r s')) :
    (do return objs ++ [parsedObj (← x)] : M (List (Obj I))) h = .abort ∨
    ∃ objs' h' fps', (do return objs ++ [parsedObj (← x)] : M (List (Obj I))) h = .ok objs' h' ∧
      Inv Rep h0 objs' h' (abs ++ [absOf v]) fps' := by
  rcases hs with e | ⟨⟨a, t⟩, h', fp', e, ⟨q1, q⟩, fr⟩
  · exact .inl (bind_abort e)
  · refine .inr ⟨_, h', fps ++ [fp'], bind_ok (f := fun a => pure (objs ++ [parsedObj a])) e, hi.add hc ?_ fr⟩
    rcases hr with ⟨rfl, hv, hv'⟩ | ⟨⟨e, rfl⟩, rfl⟩
    · obtain ⟨b, rfl, hb⟩ := q
      exact hb.obj hv hv'
    · obtain ⟨rfl, rfl⟩ := q
      rfl

/-- A value is changed. -/
theorem change_step (hc : Correct I Rep) {f : I.B → M I.B} {i : Nat} {v v' : TVal} (hv : v ≠ .gone) (hv' : ∀ bs, v ≠ .vec bs)
    (hw : v' ≠ .gone) (hw' : ∀ bs, v' ≠ .vec bs)
    (hi : Inv Rep h0 objs h abs fps) (he : abs[i]? = some (absOf v))
    (hs : ∀ b fp, Has Rep b h v.octets fp → Step (f b) h fp (fun b h fp => Has Rep b h v'.octets fp)) :
    onBuf objs i (fun b => do return .buf (← f b)) h = .abort ∨
    ∃ objs' h' fps', onBuf objs i (fun b => do return .buf (← f b)) h = .ok objs' h' ∧
      Inv Rep h0 objs' h' (abs.set i (absOf v')) fps' := by
  have hl : i < objs.length := by
    rw [← hi.lenA]
    rcases Nat.lt_or_ge i abs.length with hl | hl
    · exact hl
    · rw [List.getElem?_eq_none hl] at he; simp at he
  have eo := List.getElem?_eq_getElem hl
  obtain ⟨a, f', ha, hf, hr⟩ := hi.at eo
  rw [he] at ha
  cases ha
  obtain ⟨b, hb, hh⟩ := obj_buf hv hv' hr
  rw [hb] at eo
  rcases hs b f' hh with e | ⟨b', h', fp', e, q, fr⟩
  · exact .inl (onBuf_abort (g := Obj.buf) eo e)
  · exact .inr ⟨_, h', _, onBuf_ok (g := Obj.buf) eo e, hi.set hc hf (q.obj hw hw') fr⟩

/-- A value is made from another one. -/
theorem addFrom_step (hc : Correct I Rep) {f : I.B → M I.B} {i : Nat} {v w : TVal} (hv : v ≠ .gone) (hv' : ∀ bs, v ≠ .vec bs)
    (hw : w ≠ .gone) (hw' : ∀ bs, w ≠ .vec bs) (hi : Inv Rep h0 objs h abs fps) (he : abs[i]? = some (absOf v))
    (hs : ∀ b fp, Has Rep b h v.octets fp → Step (f b) h none (fun b h fp => Has Rep b h w.octets fp)) :
    addFrom objs i f h = .abort ∨
    ∃ objs' h' fps', addFrom objs i f h = .ok objs' h' ∧ Inv Rep h0 objs' h' (abs ++ [absOf w]) fps' := by
  have hl : i < objs.length := by
    rw [← hi.lenA]
    rcases Nat.lt_or_ge i abs.length with hl | hl
    · exact hl
    · rw [List.getElem?_eq_none hl] at he; simp at he
  have eo := List.getElem?_eq_getElem hl
  obtain ⟨a, f', ha, hf, hr⟩ := hi.at eo
  rw [he] at ha
  cases ha
  obtain ⟨b, hb, hh⟩ := obj_buf hv hv' hr
  rw [hb] at eo
  simp only [addFrom, eo]
  exact add_step hc hw hw' hi (hs b f' hh)

/-- `Buffer::from(&[u8])`. -/
theorem step_fromSlice (hc : Correct I Rep) (hv : al.Valid) {bs : Bytes} (hb : bs.length ≤ isizeMax) :
    Step (I.fromSlice m al bs) h none (fun b h fp => Has Rep b h bs fp) := by
  unfold Impl.fromSlice
  refine .bind (step_withCapacity hc hv hb) ?_
  rintro b h fp ⟨s, hr, hs⟩
  refine (step_extend hc hr (by omega)).mono ?_
  intro b h fp hr
  rw [Nat.zero_add, patch_zero] at hr
  exact ⟨_, hr⟩

theorem Has.bound (hc : Correct I Rep) {w : Bytes} (hb : Has Rep b h w fp) : w.length ≤ isizeMax := by
  obtain ⟨R, hr⟩ := hb
  have := hc.bound hr
  simp only [List.length_append, List.length_map] at this
  omega

theorem step_toOwned (hc : Correct I Rep) (hv : al.Valid) {w : Bytes} (hb : Has Rep b h w fp) :
    Step (toOwned I m al b) h none (fun b h fp => Has Rep b h w fp) := by
  unfold toOwned
  refine .same (a := w) ?_ (step_fromSlice hc hv (hb.bound hc))
  rw [asRef, bind_ok (hb.cells hc), assumeInit_ok]

theorem step_idToOwned (hc : Correct I Rep) (hv : al.Valid) {hdr id c : Bytes} {L : Length} (hb : Has Rep b h (hdr ++ c) fp)
    (hle : id.length ≤ hdr.length) (hd : ∀ rest, DerRef.disassemble (hdr ++ rest) = .ok (id, L, rest)) :
    Step (idToOwned I m al b) h none (fun b h fp => Has Rep b h id fp) := by
  have hbd := hb.bound hc
  rw [List.length_append] at hbd
  obtain ⟨R, hr⟩ := hb
  rw [List.map_append, List.append_assoc] at hr
  unfold idToOwned
  refine .same (header_ok hc hr (by simp) hd) ?_
  exact step_fromSlice hc hv (by omega)

theorem step_contentsToOwned (hc : Correct I Rep) (hv : al.Valid) {hdr id c : Bytes} {L : Length} (hb : Has Rep b h (hdr ++ c) fp)
    (hd : ∀ rest, DerRef.disassemble (hdr ++ rest) = .ok (id, L, rest)) :
    Step (contentsToOwned I m al b) h none (fun b h fp => Has Rep b h c fp) := by
  have hbd := hb.bound hc
  have hcl := hb.cells hc
  rw [List.length_append] at hbd
  obtain ⟨R, hr⟩ := hb
  rw [List.map_append, List.append_assoc] at hr
  unfold contentsToOwned
  refine .same (header_ok hc hr (by simp) hd) ?_
  refine .same hcl ?_
  refine .same (a := c) ?_ (step_fromSlice hc hv (by omega))
  rw [List.map_append, List.drop_left' (by simp), assumeInit_ok]

/-! ### What the parsers return on slices -/

theorem derParse_ok (m : Build) {id c rest : Bytes} (hid : IsId id) (hl : (tlv id c ++ rest).length ≤ isizeMax) :
    Bsn1.Der.parse m (tlv id c ++ rest) = (.ok (tlv id c), rest) := by
  have hm := isizeMax_lt
  have hu := usizeSize_eq
  have hc : c.length < 2 ^ 64 := by
    simp only [tlv, List.length_append] at hl; omega
  exact C24_der_parse_slice_ok m _ _ _ hl ((C19_der_parse_iff _ _ _).mpr ⟨⟨id, c, hid, hc, rfl⟩, rfl⟩)

theorem derParse_err (m : Build) {bs : Bytes} (hno : ∀ v rest, IsDer v → bs ≠ v ++ rest)
    (hfit : ∀ id n rest, IsId id → n < 2 ^ 64 → bs = id ++ lenOctets n ++ rest → (id ++ lenOctets n).length + n ≤ isizeMax) :
    ∃ e s, Bsn1.Der.parse m bs = (.err e, s) := by
  have h1 := (C24_der_parse_slice m bs fun id n rest a b c => by
    have := hfit id n rest a b c
    rwa [List.length_append] at this).1
  rcases (C22_der_parse_settled bs).1 with ⟨d, hd⟩ | ⟨e, he⟩
  · have := (C19_der_parse_iff bs d (DerRef.parse bs).2).mp (by rw [← hd])
    exact absurd this.2 (hno d _ this.1)
  · exact ⟨e, (Bsn1.Der.parse m bs).2, by rw [← he, ← h1]⟩

theorem berParse_ok (m : Build) {v rest : Bytes} (hv : IsBer v) (hl : (v ++ rest).length ≤ isizeMax) :
    Bsn1.Ber.parse m (v ++ rest) = (.ok v, rest) := by
  rcases Ber_parse_cases m _ hl with ⟨v', rest', h1, h2, h3⟩ | ⟨r, rest', h1, h2, h3, _⟩
  · obtain ⟨rfl, rfl⟩ := isBer_prefix_free hv h1 h2
    exact h3
  · exact absurd rfl (h3 v rest hv)

theorem berParse_err (m : Build) {bs : Bytes} (hl : bs.length ≤ isizeMax) (hno : ∀ v rest, IsBer v → bs ≠ v ++ rest)
    (hfit : ∀ p id n q, IsId id → n < 2 ^ 64 → bs = p ++ id ++ lenOctets n ++ q → (p ++ id ++ lenOctets n).length + n ≤ isizeMax) :
    ∃ e s, Bsn1.Ber.parse m bs = (.err e, s) := by
  rcases Ber_parse_cases m bs hl with ⟨v', rest', h1, h2, h3⟩ | ⟨r, rest', h1, h2, h3, h4⟩
  · exact absurd h2 (hno v' rest' h1)
  · have hbad : ¬ (r = .panic ∨ r = .ub) := by
      intro hr
      obtain ⟨p, id, n, q, k1, k2, k3, k4⟩ := h4 hr
      have := hfit p id n q k1 k2 k3
      omega
    cases r with
    | ok v => exact absurd rfl (h2 v)
    | err e => exact ⟨e, rest', h1⟩
    | panic => exact absurd (.inl rfl) hbad
    | ub => exact absurd (.inr rfl) hbad

theorem idParse_ok {v rest : Bytes} (hv : IsId v) : Bsn1.Id.parse (v ++ rest) = (.ok v, rest) := by
  simp only [Bsn1.Id.parse, parseId_shape ((isId_iff_shape _).mp hv)]
  rfl

theorem idParse_err {bs : Bytes} (hno : ∀ v rest, IsId v → bs ≠ v ++ rest) : ∃ e s, Bsn1.Id.parse bs = (.err e, s) := by
  have hs := parseId_spec bs []
  simp only [Bsn1.Id.parse]
  generalize (parseId (σ := Bytes)).run bs [] = r at hs
  cases hs with
  | ok l rest h1 h2 => exact absurd h2 (hno l rest ((isId_iff_shape _).mpr h1))
  | redundant => exact ⟨_, _, rfl⟩
  | unterminated => exact ⟨_, _, rfl⟩

/-! ### One call -/

theorem makes_good {op : TOp} {v : TVal} (hm : Makes op v) : Good v := by
  cases hm <;> first | trivial | assumption

theorem isId_idOctets (cls : ClassTag) (pc : PCTag) (n : Nat) : IsId (idOctets (classNum cls) (pcNum pc) n) :=
  ⟨_, _, n, classNum_lt cls, pcNum_lt pc, rfl⟩

theorem changes_good {i : Nat} {op : TOp} {v v' : TVal} (hm : Changes i op v v') (hg : Good v) : Good v' := by
  cases hm <;> first | trivial | exact hg | exact isId_idOctets _ _ _

theorem make_inv (hc : Correct I Rep) (hv : al.Valid) (hi : Inv Rep h0 objs h abs fps) {op : TOp} {v : TVal} (hm : Makes op v) :
    tstep m al objs op h = .abort ∨
    ∃ objs' h' fps', tstep m al objs op h = .ok objs' h' ∧ Inv Rep h0 objs' h' (abs ++ [absOf v]) fps' := by
  cases hm with
  | derNew h1 h2 => exact add_step hc (by simp) (by simp) hi (step_Der_new hc hv h1 h2)
  | derFromParts h1 h2 => exact add_step hc (by simp) (by simp) hi (step_Der_fromIdIterator hc hv h2)
  | @derParse id c rest h1 h2 =>
    exact parse_step hc (v := TVal.der id c) (.inl ⟨rfl, by simp, by simp⟩) hi (step_Der_parse hc hv h2 (derParse_ok m h1 h2) (by simp) (by simp))
  | derParseErr h1 h2 h3 =>
    obtain ⟨e, s, he⟩ := derParse_err m h2 h3
    exact parse_step hc (.inr ⟨⟨e, rfl⟩, rfl⟩) hi (step_Der_parse hc hv h1 he (by simp) (by simp))
  | berNewIndefinite h1 h2 => exact add_step hc (by simp) (by simp) hi (step_Ber_newIndefinite hc hv h1 h2)
  | berFromPartsIndefinite h1 h2 => exact add_step hc (by simp) (by simp) hi (step_Ber_fromIdIteratorIndefinite hc hv h2)
  | @berParse id c rest h1 h2 h3 =>
    exact parse_step hc (v := TVal.der id c) (.inl ⟨rfl, by simp, by simp⟩) hi (step_Ber_parse hc hv h2 (berParse_ok m h3 h2) (by simp) (by simp))
  | @berParseIndef id c rest h1 h2 h3 =>
    exact parse_step hc (v := TVal.indef id c) (.inl ⟨rfl, by simp, by simp⟩) hi (step_Ber_parse hc hv h2 (berParse_ok m h3 h2) (by simp) (by simp))
  | berParseErr h1 h2 h3 =>
    obtain ⟨e, s, he⟩ := berParse_err m h1 h2 h3
    exact parse_step hc (.inr ⟨⟨e, rfl⟩, rfl⟩) hi (step_Ber_parse hc hv h1 he (by simp) (by simp))
  | idNew h1 => exact add_step hc (v := TVal.ident _ _ _) (by simp) (by simp) hi (step_Id_new hc hv _ _ h1)
  | @idParse cls pc n rest h1 =>
    exact parse_step hc (v := TVal.ident cls pc n) (.inl ⟨rfl, by simp, by simp⟩) hi
      (step_Id_parse hc hv h1 (idParse_ok (isId_idOctets _ _ _)) (by simp) (by simp))
  | idParseErr h1 h2 =>
    obtain ⟨e, s, he⟩ := idParse_err h2
    exact parse_step hc (.inr ⟨⟨e, rfl⟩, rfl⟩) hi (step_Id_parse hc hv h1 he (by simp) (by simp))
  | contentsInt h1 => exact add_step hc (v := TVal.contents _) (by simp) (by simp) hi (step_Contents_ofInt hc hv _ h1)
  | @contentsBytes bs h1 => exact add_step hc (v := TVal.contents _) (by simp) (by simp) hi (step_fromSlice hc hv h1)
  | @makeVec bs spare h1 =>
    rcases mkVec_spec hv bs spare h1 h with e | ⟨v, h', fp, junk, e, k1, k2, k3⟩
    · exact .inl (bind_abort e)
    · refine .inr ⟨_, h', _, bind_ok (f := fun v => pure (objs ++ [Obj.vec v])) e,
        hi.add hc (o := .vec v) (a := .vec (.ofBytes bs)) ⟨_, k1, ?_, ?_⟩ k3⟩
      · exact Agree.prefix ⟨Nat.le_refl _, fun _ _ e => e⟩ (List.prefix_append _ _)
      · simp [AVec.ofBytes]
  | @fromBytesDer id c h1 h2 => exact add_step hc (v := TVal.der id c) (by simp) (by simp) hi (step_fromSlice hc hv h2)
  | @fromBytesIndef id c h1 h2 => exact add_step hc (v := TVal.indef id c) (by simp) (by simp) hi (step_fromSlice hc hv h2)
  | @fromBytesId cls pc n h1 => exact add_step hc (v := TVal.ident cls pc n) (by simp) (by simp) hi (step_fromSlice hc hv h1)

/-- A vector becomes a value. -/
theorem fromVec_step (hc : Correct I Rep) {i : Nat} {bs : Bytes} {v : TVal} (hi : Inv Rep h0 objs h abs fps)
    (he : abs[i]? = some (absOf (.vec bs))) (hv : v ≠ .gone) (hv' : ∀ bs, v ≠ .vec bs) (hb : v.octets = bs) :
    ∃ objs' h' fps', tstep m al objs (.fromVec i) h = .ok objs' h' ∧ Inv Rep h0 objs' h' (abs.set i (absOf v)) fps' := by
  have hl : i < objs.length := by
    rw [← hi.lenA]
    rcases Nat.lt_or_ge i abs.length with hl | hl
    · exact hl
    · rw [List.getElem?_eq_none hl] at he; simp at he
  have eo := List.getElem?_eq_getElem hl
  obtain ⟨a, f', ha, hf, hr⟩ := hi.at eo
  rw [he] at ha
  cases ha
  generalize objs[i] = o at hr eo
  cases o with
  | gone => exact hr.elim
  | buf b => exact hr.elim
  | vec r =>
    obtain ⟨s, k1, k2, k3⟩ := hr
    obtain ⟨s', h4, h5⟩ := hc.fromVec k1
    have e : absOf v = .buf (.ofBytes bs) := by
      rw [← hb]
      cases v <;> first | rfl | (exact absurd rfl hv) | exact absurd rfl (hv' _)
    refine ⟨objs.set i (.buf (I.fromVec r)), h, fps.set i f', by simp only [tstep, eo]; rfl, ?_⟩
    rw [e]
    exact hi.set hc hf (o := .buf (I.fromVec r)) (a := .buf (.ofBytes bs)) ⟨s', h4, k2.prefix h5, k3⟩ (.refl _ _)

theorem change_inv (hc : Correct I Rep) (hv : al.Valid) (hi : Inv Rep h0 objs h abs fps) {i : Nat} {op : TOp} {v v' : TVal}
    (he : abs[i]? = some (absOf v)) (hg : Good v) (hm : Changes i op v v') :
    tstep m al objs op h = .abort ∨
    ∃ objs' h' fps', tstep m al objs op h = .ok objs' h' ∧ Inv Rep h0 objs' h' (abs.set i (absOf v')) fps' := by
  cases hm with
  | derExtend h1 =>
    exact change_step hc (by simp) (by simp) (by simp) (by simp) hi he fun b fp hb => step_Der_extend hc hv hg hb h1
  | derTruncate =>
    exact change_step hc (by simp) (by simp) (by simp) (by simp) hi he fun b fp hb => step_Der_truncate hc hg hb
  | berExtend h1 =>
    exact change_step hc (by simp) (by simp) (by simp) (by simp) hi he fun b fp hb => step_Ber_extend_definite hc hv hg hb h1
  | berExtendIndef h1 =>
    exact change_step hc (by simp) (by simp) (by simp) (by simp) hi he fun b fp hb => step_Ber_extend_indefinite hc hv hg hb h1
  | berTruncate =>
    exact change_step hc (by simp) (by simp) (by simp) (by simp) hi he fun b fp hb => step_Ber_truncate_definite hc hg hb
  | berTruncateIndef =>
    exact change_step hc (by simp) (by simp) (by simp) (by simp) hi he fun b fp hb => step_Ber_truncate_indefinite hc hg hb
  | setNumber h1 =>
    exact change_step hc (by simp) (by simp) (by simp) (by simp) hi he fun b fp hb => step_Id_setNumber hc hv _ _ _ h1 hb
  | @setClass cls cls' pc n =>
    exact change_step hc (v' := TVal.ident cls' pc n) (by simp) (by simp) (by simp) (by simp) hi he fun b fp hb => by
      have := step_setClass hc (cls' := cls') (T := []) (by simpa [TVal.octets] using hb)
      simpa [TVal.octets] using this
  | @setClassDer cls cls' pc n c =>
    exact change_step hc (v' := TVal.der _ c) (by simp) (by simp) (by simp) (by simp) hi he fun b fp hb => by
      have := step_setClass hc (cls' := cls') (T := lenOctets c.length ++ c) (by simpa [TVal.octets, tlv] using hb)
      simpa [TVal.octets, tlv] using this
  | @setClassIndef cls cls' pc n c =>
    exact change_step hc (v' := TVal.indef _ c) (by simp) (by simp) (by simp) (by simp) hi he fun b fp hb => by
      have := step_setClass hc (cls' := cls') (T := indefOctets ++ c) (by simpa [TVal.octets] using hb)
      simpa [TVal.octets] using this
  | @setPc cls pc pc' n =>
    exact change_step hc (v' := TVal.ident cls pc' n) (by simp) (by simp) (by simp) (by simp) hi he fun b fp hb => by
      have := step_setPc hc (pc' := pc') (T := []) (by simpa [TVal.octets] using hb)
      simpa [TVal.octets] using this
  | @setPcDer cls pc pc' n c =>
    exact change_step hc (v' := TVal.der _ c) (by simp) (by simp) (by simp) (by simp) hi he fun b fp hb => by
      have := step_setPc hc (pc' := pc') (T := lenOctets c.length ++ c) (by simpa [TVal.octets, tlv] using hb)
      simpa [TVal.octets, tlv] using this
  | @setPcIndef cls pc pc' n c =>
    exact change_step hc (v' := TVal.indef _ c) (by simp) (by simp) (by simp) (by simp) hi he fun b fp hb => by
      have := step_setPc hc (pc' := pc') (T := indefOctets ++ c) (by simpa [TVal.octets] using hb)
      simpa [TVal.octets] using this
  | @setContents id c k x h1 =>
    exact change_step hc (v' := TVal.der id _) (by simp) (by simp) (by simp) (by simp) hi he fun b fp hb => by
      have hm := isizeMax_lt
      have hu := usizeSize_eq
      have hb' := hb
      obtain ⟨R, hr⟩ := hb'
      have hbd := hc.bound hr
      have hlen := tlv_length id c
      simp only [TVal.octets] at hbd
      have := step_setContents hc (hdr := id ++ lenOctets c.length) hb (disassemble_hdr hg (by simp at hbd; omega)) h1 x
      simpa [TVal.octets, tlv] using this
  | @setContentsIndef id c k x h1 =>
    exact change_step hc (v' := TVal.indef id _) (by simp) (by simp) (by simp) (by simp) hi he fun b fp hb =>
      step_setContents hc (hdr := id ++ indefOctets) hb (disassemble_indef_hdr hg) h1 x
  | fromVecDer h1 => exact .inr (fromVec_step hc hi he (by simp) (by simp) rfl)
  | fromVecIndef h1 => exact .inr (fromVec_step hc hi he (by simp) (by simp) rfl)
  | fromVecContents => exact .inr (fromVec_step hc hi he (by simp) (by simp) rfl)
  | @berFromDer id c =>
    exact change_step hc (f := fun b => pure (Ber.fromDer I b)) (v := TVal.der id c) (v' := TVal.der id c) (by simp) (by simp) (by simp) (by simp)
      hi he fun b fp hb => .inr ⟨b, h, fp, rfl, hb, .refl _ _⟩
  | intoVec h1 h2 =>
    have hl : i < objs.length := by
      rw [← hi.lenA]
      rcases Nat.lt_or_ge i abs.length with hl | hl
      · exact hl
      · rw [List.getElem?_eq_none hl] at he; simp at he
    have eo := List.getElem?_eq_getElem hl
    obtain ⟨a, f', ha, hf, hr⟩ := hi.at eo
    rw [he] at ha
    cases ha
    obtain ⟨b, hb, R, hh⟩ := obj_buf h1 h2 hr
    rw [hb] at eo
    rcases hc.intoVec hv hh with e | ⟨r, h', fp', s', e, h4, h5, h6⟩
    · exact .inl (onBuf_abort eo e)
    · refine .inr ⟨_, h', fps.set i fp', onBuf_ok eo e, hi.set hc hf (o := .vec r) ⟨s', h4, ?_, by simp [AVec.ofBytes]⟩ h6⟩
      have hs : s' = v.octets.map some ++ s'.drop v.octets.length := by
        rw [take_of_append (by simp)] at h5
        rw [← h5, List.take_append_drop]
      rw [hs]
      exact Agree.prefix ⟨Nat.le_refl _, fun _ _ e => e⟩ (List.prefix_append _ _)
  | drop h1 =>
    have hl : i < objs.length := by
      rw [← hi.lenA]
      rcases Nat.lt_or_ge i abs.length with hl | hl
      · exact hl
      · rw [List.getElem?_eq_none hl] at he; simp at he
    have eo := List.getElem?_eq_getElem hl
    obtain ⟨a, f', ha, hf, hr⟩ := hi.at eo
    rw [he] at ha
    cases ha
    simp only [tstep]
    rw [eo]
    generalize objs[i] = o at hr eo
    cases o with
    | gone =>
      cases v <;> first | exact absurd rfl h1 | exact hr.elim
    | buf b =>
      obtain ⟨w, f, s, ea, ef, k1, k2, k3⟩ := hi.buf eo
      obtain ⟨h', e, h4⟩ := hc.drop k1
      rw [hf] at ef
      cases ef
      exact .inr ⟨objs.set i .gone, h', fps.set i none, by simp only []; rw [bind_ok e, pure_run],
        hi.set hc hf (o := .gone) (a := .gone) rfl h4⟩
    | vec r =>
      obtain ⟨w, f, s, ea, ef, k1, k2, k3⟩ := hi.vec eo
      obtain ⟨h', e, h4⟩ := dropVec_spec k1
      rw [hf] at ef
      cases ef
      exact .inr ⟨objs.set i .gone, h', fps.set i none, by simp only []; rw [bind_ok e, pure_run],
        hi.set hc hf (o := .gone) (a := .gone) rfl h4⟩

/-- One call: nothing goes wrong, and the invariant stays. -/
theorem does_inv (hc : Correct I Rep) (hv : al.Valid) {vals vals' : List TVal} (hi : Inv Rep h0 objs h (vals.map absOf) fps)
    (hg : ∀ v ∈ vals, Good v) {op : TOp} (hd : Does vals op vals') :
    (∀ v ∈ vals', Good v) ∧ (tstep m al objs op h = .abort ∨
    ∃ objs' h' fps', tstep m al objs op h = .ok objs' h' ∧ Inv Rep h0 objs' h' (vals'.map absOf) fps') := by
  cases hd with
  | make h1 =>
    refine ⟨?_, by simpa using make_inv hc hv hi h1⟩
    intro v hv
    rcases List.mem_append.mp hv with hv | hv
    · exact hg v hv
    · rw [List.mem_singleton.mp hv]; exact makes_good h1
  | @change i op v v' e h1 =>
    have hgv := hg v (List.mem_of_getElem? e)
    refine ⟨?_, ?_⟩
    · intro w hw
      rcases List.mem_or_eq_of_mem_set hw with hw | rfl
      · exact hg w hw
      · exact changes_good h1 hgv
    · rw [List.map_set]
      exact change_inv hc hv hi (by rw [List.getElem?_map, e]; rfl) hgv h1
  | @clone i v e h1 h2 =>
    have hgv := hg v (List.mem_of_getElem? e)
    refine ⟨?_, ?_⟩
    · intro w hw
      rcases List.mem_append.mp hw with hw | hw
      · exact hg w hw
      · rw [List.mem_singleton.mp hw]; exact hgv
    · have he : (vals.map absOf)[i]? = some (absOf v) := by rw [List.getElem?_map, e]; rfl
      simp only [tstep, List.map_append, List.map_cons, List.map_nil]
      refine addFrom_step hc h1 h2 h1 h2 hi he ?_
      rintro b fp ⟨R, hh⟩
      rcases hc.clone m v.octets hv hh (take_of_append (by simp)) with e | ⟨b', h', fp', s', e, h4, h5, h6⟩
      · exact .inl e
      · exact .inr ⟨b', h', fp', e, Has.of_take h4 h5 (hc.bound h4).1, h6⟩
  | @toOwned i v e h1 h2 =>
    have hgv := hg v (List.mem_of_getElem? e)
    refine ⟨?_, ?_⟩
    · intro w hw
      rcases List.mem_append.mp hw with hw | hw
      · exact hg w hw
      · rw [List.mem_singleton.mp hw]; exact hgv
    · have he : (vals.map absOf)[i]? = some (absOf v) := by rw [List.getElem?_map, e]; rfl
      simp only [tstep, List.map_append, List.map_cons, List.map_nil]
      exact addFrom_step hc h1 h2 h1 h2 hi he fun b fp hb => step_toOwned hc hv hb
  | @idToOwned i cls pc n c e =>
    have hgv := hg _ (List.mem_of_getElem? e)
    refine ⟨?_, ?_⟩
    · intro w hw
      rcases List.mem_append.mp hw with hw | hw
      · exact hg w hw
      · rw [List.mem_singleton.mp hw]; trivial
    · have he : (vals.map absOf)[i]? = some (absOf (.der (idOctets (classNum cls) (pcNum pc) n) c)) := by rw [List.getElem?_map, e]; rfl
      simp only [tstep, List.map_append, List.map_cons, List.map_nil]
      refine addFrom_step hc (by simp) (by simp) (w := .ident cls pc n) (by simp) (by simp) hi he fun b fp hb => ?_
      have hm := isizeMax_lt
      have hu := usizeSize_eq
      have hbd := hb.bound hc
      have hlen := tlv_length (idOctets (classNum cls) (pcNum pc) n) c
      simp only [TVal.octets] at hbd
      exact step_idToOwned hc hv (hdr := _ ++ lenOctets c.length) hb (by simp [TVal.octets]) (disassemble_hdr (isId_idOctets _ _ _) (by omega))
  | @idToOwnedIndef i cls pc n c e =>
    have hgv := hg _ (List.mem_of_getElem? e)
    refine ⟨?_, ?_⟩
    · intro w hw
      rcases List.mem_append.mp hw with hw | hw
      · exact hg w hw
      · rw [List.mem_singleton.mp hw]; trivial
    · have he : (vals.map absOf)[i]? = some (absOf (.indef (idOctets (classNum cls) (pcNum pc) n) c)) := by rw [List.getElem?_map, e]; rfl
      simp only [tstep, List.map_append, List.map_cons, List.map_nil]
      refine addFrom_step hc (by simp) (by simp) (w := .ident cls pc n) (by simp) (by simp) hi he fun b fp hb => ?_
      exact step_idToOwned hc hv (hdr := _ ++ indefOctets) hb (by simp [TVal.octets]) (disassemble_indef_hdr (isId_idOctets _ _ _))
  | @contentsToOwned i id c e =>
    have hgv : IsId id := hg _ (List.mem_of_getElem? e)
    refine ⟨?_, ?_⟩
    · intro w hw
      rcases List.mem_append.mp hw with hw | hw
      · exact hg w hw
      · rw [List.mem_singleton.mp hw]; trivial
    · have he : (vals.map absOf)[i]? = some (absOf (.der id c)) := by rw [List.getElem?_map, e]; rfl
      simp only [tstep, List.map_append, List.map_cons, List.map_nil]
      refine addFrom_step hc (by simp) (by simp) (w := .contents c) (by simp) (by simp) hi he fun b fp hb => ?_
      have hm := isizeMax_lt
      have hu := usizeSize_eq
      have hbd := hb.bound hc
      have hlen := tlv_length id c
      simp only [TVal.octets] at hbd
      exact step_contentsToOwned hc hv (hdr := _ ++ lenOctets c.length) hb (disassemble_hdr hgv (by omega))
  | @contentsToOwnedIndef i id c e =>
    have hgv : IsId id := hg _ (List.mem_of_getElem? e)
    refine ⟨?_, ?_⟩
    · intro w hw
      rcases List.mem_append.mp hw with hw | hw
      · exact hg w hw
      · rw [List.mem_singleton.mp hw]; trivial
    · have he : (vals.map absOf)[i]? = some (absOf (.indef id c)) := by rw [List.getElem?_map, e]; rfl
      simp only [tstep, List.map_append, List.map_cons, List.map_nil]
      refine addFrom_step hc (by simp) (by simp) (w := .contents c) (by simp) (by simp) hi he fun b fp hb => ?_
      exact step_contentsToOwned hc hv (hdr := _ ++ indefOctets) hb (disassemble_indef_hdr hgv)

theorem THistory.inv (hc : Correct I Rep) (hv : al.Valid) {vals : List TVal} (hh : THistory I m al h0 objs h vals) :
    (∀ v ∈ vals, Good v) ∧ ∃ fps, Inv Rep h0 objs h (vals.map absOf) fps := by
  induction hh with
  | start => exact ⟨by simp, [], .start h0⟩
  | step hh hd he ih =>
    obtain ⟨hg, fps, hi⟩ := ih
    obtain ⟨hg', hs⟩ := does_inv (m := m) hc hv hi hg hd
    rcases hs with e | ⟨objs', h', fps', e, hi'⟩
    · rw [e] at he; simp at he
    · rw [e] at he
      cases he
      exact ⟨hg', fps', hi'⟩

end Bsn1.Raw
