import Verif.Model.InPlace
import Verif.Props.Ber
/-!
# C74: histories of changes to a `Der` or `Ber`

All safe operations that change a `Der` or `Ber`: those on the contents (C26, C33) and those through `mut_id`, `mut_contents`.
-/

namespace Bsn1
open Spec

/-- An operation that changes a value. -/
inductive EditOp where
  /-- `push`, `extend_from_slice`, `truncate` -/
  | contents (op : ContentsOp)
  /-- `mut_id().set_class(c)` -/
  | setClass (c : ClassTag)
  /-- `mut_id().set_pc(p)` -/
  | setPc (p : PCTag)
  /-- `mut_contents()[i] = b` -/
  | setAt (i : Nat) (b : UInt8)
  /-- `mut_contents().as_mut().copy_from_slice(src)` -/
  | copy (src : Bytes)

/-- What the value is meant to be. -/
structure Parts where
  cls : ClassTag
  pc : PCTag
  num : Nat
  contents : Bytes

/-- The identifier octets (X.690 8.1.2). -/
def Parts.id (p : Parts) : Bytes := idOctets (classNum p.cls) (pcNum p.pc) p.num

/-- The octets in definite or indefinite form. -/
def Parts.octets (p : Parts) : (indef : Bool) → Bytes
  | false => tlv p.id p.contents
  | true => p.id ++ indefOctets ++ p.contents

/-- What the operation is meant to do; `none` is a panic. -/
def EditOp.step : EditOp → Parts → Option Parts
  | .contents op, p => some { p with contents := op.vec p.contents }
  | .setClass c, p => some { p with cls := c }
  | .setPc c, p => some { p with pc := c }
  | .setAt i b, p => if i < p.contents.length then some { p with contents := p.contents.set i b } else none
  | .copy src, p => if src.length = p.contents.length then some { p with contents := src } else none

/-- The same for a history. -/
def stepAll : List ((Nat → UInt8) × EditOp) → Parts → Option Parts
  | [], p => some p
  | (_, op) :: r, p => (op.step p).bind (stepAll r)

/-- The value fits in memory after each operation. -/
def EditFits (indef : Bool) : List ((Nat → UInt8) × EditOp) → Parts → Prop
  | [], p => (p.octets indef).length ≤ isizeMax
  | (_, op) :: r, p => (p.octets indef).length ≤ isizeMax ∧ ∀ p', op.step p = some p' → EditFits indef r p'

/-- The operation on a `Der`. -/
def EditOp.der (m : Build) (junk : Nat → UInt8) : EditOp → Bytes → Res Bytes
  | .contents op, d => op.der m junk d
  | .setClass c, d => DerRef.setClass d c
  | .setPc p, d => DerRef.setPc d p
  | .setAt i b, d => DerRef.setContentsAt d i b
  | .copy src, d => DerRef.copyContents d src

/-- The operation on a `Ber`. -/
def EditOp.ber (m : Build) (junk : Nat → UInt8) : EditOp → Bytes → Res Bytes
  | .contents op, d => op.ber m junk d
  | .setClass c, d => BerRef.setClass d c
  | .setPc p, d => BerRef.setPc d p
  | .setAt i b, d => BerRef.setContentsAt d i b
  | .copy src, d => BerRef.copyContents d src

/-- A history on a `Der`. -/
def editDer (m : Build) : List ((Nat → UInt8) × EditOp) → Bytes → Res Bytes
  | [], d => .ok d
  | (junk, op) :: r, d => (op.der m junk d).bind (editDer m r)

/-- A history on a `Ber`. -/
def editBer (m : Build) : List ((Nat → UInt8) × EditOp) → Bytes → Res Bytes
  | [], d => .ok d
  | (junk, op) :: r, d => (op.ber m junk d).bind (editBer m r)

/-- The outcome of a history: the octets of the parts, or a panic. -/
def outcome (indef : Bool) : Option Parts → Res Bytes
  | some p => .ok (p.octets indef)
  | none => .panic

theorem Parts.isId (p : Parts) : IsId p.id :=
  ⟨classNum p.cls, pcNum p.pc, p.num, classNum_lt p.cls, pcNum_lt p.pc, rfl⟩

theorem idOctets_length_indep (c c' p p' n : Nat) : (idOctets c p n).length = (idOctets c' p' n).length := by
  simp only [idOctets]; split <;> simp

theorem EditFits.head {indef : Bool} {ops : List ((Nat → UInt8) × EditOp)} {p : Parts} (h : EditFits indef ops p) :
    (p.octets indef).length ≤ isizeMax := by
  cases ops with
  | nil => exact h
  | cons x r => exact h.1

theorem Parts.disassemble (p : Parts) (indef : Bool) (h : (p.octets indef).length ≤ isizeMax) :
    ∃ l, DerRef.disassemble (p.octets indef) = .ok (p.id, l, p.contents) ∧
      BerRef.disassemble (p.octets indef) = .ok (p.id, l, p.contents) := by
  have hi := isizeMax_eq
  cases indef with
  | false =>
    simp only [Parts.octets] at h ⊢
    rw [tlv_length] at h
    exact ⟨_, disassemble_tlv p.isId (by omega), disassemble_tlv p.isId (by omega)⟩
  | true => exact ⟨_, berDisassemble_indef p.isId _, berDisassemble_indef p.isId _⟩

theorem Parts.drop_id (p : Parts) (indef : Bool) (q : Parts) (hc : q.contents = p.contents) :
    q.id ++ (p.octets indef).drop p.id.length = q.octets indef := by
  cases indef <;> simp [Parts.octets, tlv, hc]

theorem Parts.take_header (p : Parts) (indef : Bool) (q : Parts) (hid : q.id = p.id)
    (hc : q.contents.length = p.contents.length) :
    (p.octets indef).take ((p.octets indef).length - p.contents.length) ++ q.contents = q.octets indef := by
  have key : ∀ a : Bytes, (a ++ p.contents).take ((a ++ p.contents).length - p.contents.length) = a := by
    intro a
    rw [List.length_append, Nat.add_sub_cancel, List.take_left']
    rfl
  cases indef with
  | false => simp only [Parts.octets, tlv]; rw [key, hid, hc]
  | true => simp only [Parts.octets]; rw [key, hid]

/-- The operations that do not change the length. -/
theorem edit_inplace (m : Build) (junk : Nat → UInt8) (indef : Bool) (op : EditOp) (hop : ∀ o, op ≠ .contents o) (p : Parts)
    (h : (p.octets indef).length ≤ isizeMax) :
    op.der m junk (p.octets indef) = outcome indef (op.step p) ∧ op.ber m junk (p.octets indef) = outcome indef (op.step p) := by
  obtain ⟨l, hd, hb⟩ := p.disassemble indef h
  cases op with
  | contents o => exact absurd rfl (hop o)
  | setClass c =>
    have hs : IdRef.setClass p.id c = .ok ({ p with cls := c } : Parts).id := setClass_idOctets p.cls c p.pc p.num
    have hl : ({ p with cls := c } : Parts).id.length = p.id.length := idOctets_length_indep _ _ _ _ _
    constructor
    · simp only [EditOp.der, DerRef.setClass, DerRef.modifyId, hd, Res.bind_ok, hs, if_pos hl, Res.pure_eq,
        p.drop_id indef { p with cls := c } rfl, EditOp.step, outcome]
    · simp only [EditOp.ber, BerRef.setClass, BerRef.modifyId, hb, Res.bind_ok, hs, if_pos hl, Res.pure_eq,
        p.drop_id indef { p with cls := c } rfl, EditOp.step, outcome]
  | setPc c =>
    have hs : IdRef.setPc p.id c = .ok ({ p with pc := c } : Parts).id := setPc_idOctets p.cls p.pc c p.num
    have hl : ({ p with pc := c } : Parts).id.length = p.id.length := idOctets_length_indep _ _ _ _ _
    constructor
    · simp only [EditOp.der, DerRef.setPc, DerRef.modifyId, hd, Res.bind_ok, hs, if_pos hl, Res.pure_eq,
        p.drop_id indef { p with pc := c } rfl, EditOp.step, outcome]
    · simp only [EditOp.ber, BerRef.setPc, BerRef.modifyId, hb, Res.bind_ok, hs, if_pos hl, Res.pure_eq,
        p.drop_id indef { p with pc := c } rfl, EditOp.step, outcome]
  | setAt i b =>
    by_cases hl : i < p.contents.length
    · have ht := p.take_header indef { p with contents := p.contents.set i b } rfl (by simp)
      constructor
      · simp only [EditOp.der, DerRef.setContentsAt, hd, Res.bind_ok, Bsn1.setAt, if_pos hl, Res.pure_eq, EditOp.step, outcome, ht]
      · simp only [EditOp.ber, BerRef.setContentsAt, hb, Res.bind_ok, Bsn1.setAt, if_pos hl, Res.pure_eq, EditOp.step, outcome, ht]
    · constructor
      · simp only [EditOp.der, DerRef.setContentsAt, hd, Res.bind_ok, Bsn1.setAt, if_neg hl, EditOp.step, outcome]; rfl
      · simp only [EditOp.ber, BerRef.setContentsAt, hb, Res.bind_ok, Bsn1.setAt, if_neg hl, EditOp.step, outcome]; rfl
  | copy src =>
    by_cases hl : src.length = p.contents.length
    · have ht := p.take_header indef { p with contents := src } rfl hl
      constructor
      · simp only [EditOp.der, DerRef.copyContents, hd, Res.bind_ok, if_pos hl.symm, if_pos hl, Res.pure_eq, EditOp.step, outcome, ht]
      · simp only [EditOp.ber, BerRef.copyContents, hb, Res.bind_ok, if_pos hl.symm, if_pos hl, Res.pure_eq, EditOp.step, outcome, ht]
    · have hl' : ¬ p.contents.length = src.length := fun h => hl h.symm
      constructor
      · simp only [EditOp.der, DerRef.copyContents, hd, Res.bind_ok, if_neg hl', if_neg hl, EditOp.step, outcome]
      · simp only [EditOp.ber, BerRef.copyContents, hb, Res.bind_ok, if_neg hl', if_neg hl, EditOp.step, outcome]

theorem edit_der (m : Build) (junk : Nat → UInt8) (op : EditOp) (p : Parts) (h : (p.octets false).length ≤ isizeMax)
    (h' : ∀ p', op.step p = some p' → (p'.octets false).length ≤ isizeMax) :
    op.der m junk (p.octets false) = outcome false (op.step p) := by
  by_cases hop : ∀ o, op ≠ .contents o
  · exact (edit_inplace m junk false op hop p h).1
  · obtain ⟨o, rfl⟩ : ∃ o, op = .contents o := by simpa using hop
    exact ContentsOp.der_tlv m junk p.isId p.contents o h (h' _ rfl)

theorem edit_ber (m : Build) (junk : Nat → UInt8) (indef : Bool) (op : EditOp) (p : Parts)
    (h : (p.octets indef).length ≤ isizeMax) (h' : ∀ p', op.step p = some p' → (p'.octets indef).length ≤ isizeMax) :
    op.ber m junk (p.octets indef) = outcome indef (op.step p) := by
  by_cases hop : ∀ o, op ≠ .contents o
  · exact (edit_inplace m junk indef op hop p h).2
  · obtain ⟨o, rfl⟩ : ∃ o, op = .contents o := by simpa using hop
    have hi := isizeMax_eq
    have hx := h' _ rfl
    cases indef with
    | false =>
      have hl : (tlv p.id p.contents).length ≤ isizeMax := h
      rw [tlv_length] at hl
      simp only [EditOp.ber, Parts.octets]
      rw [ContentsOp.ber_tlv m junk p.isId (by omega), ContentsOp.der_tlv m junk p.isId p.contents o h hx]
      rfl
    | true =>
      refine ContentsOp.ber_indef m junk p.isId p.contents o ?_ ?_
      · simp only [Parts.octets, indefOctets, List.length_append, List.length_singleton] at h ⊢; omega
      · simp only [Parts.octets, Parts.id, indefOctets, List.length_append, List.length_singleton] at hx ⊢; omega

theorem editDer_octets (m : Build) : ∀ (ops : List ((Nat → UInt8) × EditOp)) (p : Parts), EditFits false ops p →
    editDer m ops (p.octets false) = outcome false (stepAll ops p)
  | [], p, _ => rfl
  | (junk, op) :: r, p, h => by
    simp only [editDer, stepAll]
    rw [edit_der m junk op p h.1 fun p' hp => (h.2 p' hp).head]
    cases hs : op.step p with
    | none => rfl
    | some p' => exact editDer_octets m r p' (h.2 p' hs)

theorem editBer_octets (m : Build) (indef : Bool) : ∀ (ops : List ((Nat → UInt8) × EditOp)) (p : Parts), EditFits indef ops p →
    editBer m ops (p.octets indef) = outcome indef (stepAll ops p)
  | [], p, _ => rfl
  | (junk, op) :: r, p, h => by
    simp only [editBer, stepAll]
    rw [edit_ber m junk indef op p h.1 fun p' hp => (h.2 p' hp).head]
    cases hs : op.step p with
    | none => rfl
    | some p' => exact editBer_octets m indef r p' (h.2 p' hs)

theorem EditFits.last {indef : Bool} : ∀ {ops : List ((Nat → UInt8) × EditOp)} {p q : Parts}, EditFits indef ops p →
    stepAll ops p = some q → (q.octets indef).length ≤ isizeMax
  | [], p, q, h, e => by simp only [stepAll, Option.some.injEq] at e; subst e; exact h
  | (junk, op) :: r, p, q, h, e => by
    simp only [stepAll] at e
    cases hs : op.step p with
    | none => rw [hs] at e; simp at e
    | some p' => rw [hs] at e; exact EditFits.last (h.2 p' hs) e

/-- C74.  Any history of changes on `Der::new(id, c)` that fits in memory: either it panics, exactly when an index is out of
range or a slice of another length is copied; or the result is `Der::new` of the identifier and contents that the history
describes, so nothing but what was named has changed. -/
theorem C74_der_history (m : Build) (junk junk' : Nat → UInt8) (ops : List ((Nat → UInt8) × EditOp)) (p : Parts)
    (hfit : EditFits false ops p) :
    (stepAll ops p = none → (Der.new m junk p.id p.contents).bind (editDer m ops) = .panic) ∧
    (∀ q, stepAll ops p = some q → ∃ d, (Der.new m junk p.id p.contents).bind (editDer m ops) = .ok d ∧
      Der.new m junk' q.id q.contents = .ok d ∧
      DerRef.parse d = (.ok d, []) ∧ DerRef.disassemble d = .ok (q.id, .definite q.contents.length, q.contents) ∧
      IdRef.clazz q.id = .ok q.cls ∧ IdRef.pc q.id = .ok q.pc) := by
  have hrun : (Der.new m junk p.id p.contents).bind (editDer m ops) = outcome false (stepAll ops p) := by
    rw [Der_new_ok m junk p.isId _ hfit.head]
    exact editDer_octets m ops p hfit
  refine ⟨fun h => by rw [hrun, h]; rfl, fun q h => ?_⟩
  have hi := isizeMax_eq
  have hl := hfit.last h
  have hl' : (tlv q.id q.contents).length ≤ isizeMax := hl
  rw [tlv_length] at hl'
  have hp := DerRef_parse_tlv q.isId (c := q.contents) (by omega) []
  rw [List.append_nil] at hp
  exact ⟨tlv q.id q.contents, by rw [hrun, h]; rfl, Der_new_ok m junk' q.isId _ hl, hp, disassemble_tlv q.isId (by omega),
    clazz_idOctets _ _ _, pc_idOctets _ _ _⟩

/-- One octet is set, and the class changed. -/
example (m : Build) (junk : Nat → UInt8) := C74_der_history m junk junk [(junk, .setAt 1 0x07), (junk, .setClass .contextSpecific)] ⟨.universal, .primitive, 4, [1, 2, 3]⟩
  (by simp only [EditFits, EditOp.step]; decide +kernel)

/-- C74.  The same for `Ber::new(id, c)` and, with the length staying indefinite, `Ber::new_indefinite(id, c)`. -/
theorem C74_ber_history (m : Build) (junk junk' : Nat → UInt8) (indef : Bool) (ops : List ((Nat → UInt8) × EditOp)) (p : Parts)
    (hfit : EditFits indef ops p) :
    let mk := if indef then Ber.newIndefinite m else Ber.new m
    (stepAll ops p = none → (mk junk p.id p.contents).bind (editBer m ops) = .panic) ∧
    (∀ q, stepAll ops p = some q → ∃ d, (mk junk p.id p.contents).bind (editBer m ops) = .ok d ∧
      mk junk' q.id q.contents = .ok d ∧
      (indef = false → BerRef.parse d = (.ok d, [])) ∧
      BerRef.disassemble d = .ok (q.id, if indef then .indefinite else .definite q.contents.length, q.contents) ∧
      IdRef.clazz q.id = .ok q.cls ∧ IdRef.pc q.id = .ok q.pc) := by
  intro mk
  have hi := isizeMax_eq
  have hmk : ∀ (j : Nat → UInt8) (p : Parts), (p.octets indef).length ≤ isizeMax → mk j p.id p.contents = .ok (p.octets indef) := by
    intro j p hp
    cases indef with
    | false => exact Der_new_ok m j p.isId _ hp
    | true =>
      exact newIndefinite_ok m j p.isId _ (by simp only [Parts.octets, indefOctets, List.length_append, List.length_singleton] at hp ⊢; omega)
  have hrun : (mk junk p.id p.contents).bind (editBer m ops) = outcome indef (stepAll ops p) := by
    rw [hmk junk p hfit.head]
    exact editBer_octets m indef ops p hfit
  refine ⟨fun h => by rw [hrun, h]; rfl, fun q h => ?_⟩
  have hl := hfit.last h
  refine ⟨q.octets indef, by rw [hrun, h]; rfl, hmk junk' q hl, ?_, ?_, clazz_idOctets _ _ _, pc_idOctets _ _ _⟩
  · rintro rfl
    have hl' : (tlv q.id q.contents).length ≤ isizeMax := hl
    have hb : IsBer (tlv q.id q.contents) := IsBer.definite _ _ q.isId (by rw [tlv_length] at hl'; omega)
    have hp := BerRef_parse_ok hb (rest := []) (by rw [List.append_nil]; exact hl')
    rw [List.append_nil] at hp
    exact hp
  cases indef with
  | false =>
    have hl' : (tlv q.id q.contents).length ≤ isizeMax := hl
    rw [tlv_length] at hl'
    exact disassemble_tlv q.isId (by omega)
  | true => exact berDisassemble_indef q.isId _

/-- A history that changes class and contents of a value with a long identifier, and one that panics. -/
example : EditFits true [(fun _ => 0, .setClass .priv), (fun _ => 1, .contents (.push 7)), (fun _ => 2, .setAt 0 9)]
      ⟨.universal, .primitive, 1000, []⟩ ∧
    (stepAll [(fun _ => 0, .setClass .priv), (fun _ => 1, .contents (.push 7)), (fun _ => 2, .setAt 0 9)]
      ⟨.universal, .primitive, 1000, []⟩) = some ⟨.priv, .primitive, 1000, [9]⟩ ∧
    (stepAll [(fun _ => 0, .copy [1, 2])] ⟨.universal, .primitive, 1000, [1]⟩) = none := by
  refine ⟨?_, rfl, rfl⟩
  simp only [EditFits, EditOp.step, Option.some.injEq]
  refine ⟨by decide +kernel, ?_⟩
  rintro _ rfl
  refine ⟨by decide +kernel, ?_⟩
  rintro _ rfl
  refine ⟨by decide +kernel, ?_⟩
  intro p' hp
  simp only [ContentsOp.vec, List.nil_append, List.length_singleton, Nat.zero_lt_one, if_true, Option.some.injEq] at hp
  subst hp
  decide +kernel

end Bsn1
