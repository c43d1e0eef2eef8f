import Verif.Lemmas.EvolveEnc
import Verif.Props.Decode
import Verif.Props.Failing
import Verif.Props.Contract
/-!
# C112: changes of a type that keep old encodings readable
-/

namespace Bsn1
open Spec

variable {α β γ δ : Type}

theorem evolves_fromDer (m m' : Build) (o : HashOrder) {t : Ty α} {t' : Ty β} {R : α → β → Prop} (h : Evolves t t' R) (hd : t.deserializable)
    (hd' : t'.deserializable) {p : Bytes} (hp : IsDer p) {v : α} (hv : fromDer (Ty.de m o t) p = .ok v) :
    ∃ w, fromDer (Ty.de m' o t') p = .ok w ∧ R v w := by
  obtain ⟨id, b, h1, h2, rfl⟩ := hp
  rw [fromDer_tlv _ h1 h2, Ty.fromDer_iff m o t hd] at hv
  obtain ⟨w, h3, h4⟩ := h.der o id b v hv
  exact ⟨w, by rw [fromDer_tlv _ h1 h2, Ty.fromDer_iff m' o t' hd']; exact h3, h4⟩

theorem evolves_fromBer (m : Build) (o : HashOrder) {t : Ty α} {t' : Ty β} {R : α → β → Prop} (h : Evolves t t' R) (hd : t.deserializable)
    (hd' : t'.deserializable) {p : Bytes} (hp : IsBer p) (hl : p.length ≤ isizeMax) {v : α} (hv : fromBer (Ty.de m o t) p = .ok v) :
    ∃ w, fromBer (Ty.de m o t') p = .ok w ∧ R v w := by
  obtain ⟨id, indef, raw, hb⟩ := isBer_berValue hp
  have := berValue_length hb
  rw [fromBer_value _ hb, Ty.fromBer_iff m o t hd _ _ _ _ (by omega)] at hv
  obtain ⟨w, h3, h4⟩ := h.ber _ o id indef raw v hv
  exact ⟨w, by rw [fromBer_value _ hb, Ty.fromBer_iff m o t' hd' _ _ _ _ (by omega)]; exact h3, h4⟩

/-- C112: what a program could read before such a change of a type it can read after it, as a value of the same meaning.  This holds for all
octets and readers, not only for what the old program has written. -/
theorem C112_reads (m : Build) (o : HashOrder) {t : Ty α} {t' : Ty β} {R : α → β → Prop} (h : Evolves t t' R) (hd : t.deserializable)
    (hd' : t'.deserializable) (v : α) :
    (∀ p, IsDer p → fromDer (Ty.de m o t) p = .ok v → ∃ w, fromDer (Ty.de m o t') p = .ok w ∧ R v w) ∧
    (∀ p, IsBer p → p.length ≤ isizeMax → fromBer (Ty.de m o t) p = .ok v → ∃ w, fromBer (Ty.de m o t') p = .ok w ∧ R v w) ∧
    (∀ bs rest, parseDer (Ty.de m o t) bs = (.ok v, rest) → ∃ w, parseDer (Ty.de m o t') bs = (.ok w, rest) ∧ R v w) ∧
    (∀ bs rest, bs.length ≤ isizeMax → parseBer (Ty.de m o t) bs = (.ok v, rest) →
      ∃ w, parseBer (Ty.de m o t') bs = (.ok w, rest) ∧ R v w) ∧
    (∀ s s' : Script, readDer m (Ty.de m o t) s = (.ok v, s') → ∃ w, readDer m (Ty.de m o t') s = (.ok w, s') ∧ R v w) ∧
    ∀ s s' : Script, (scriptData s).length ≤ isizeMax → readBer m (Ty.de m o t) s = (.ok v, s') →
      ∃ w, readBer m (Ty.de m o t') s = (.ok w, s') ∧ R v w := by
  refine ⟨fun p hp hv => evolves_fromDer m m o h hd hd' hp hv, fun p hp hl hv => evolves_fromBer m o h hd hd' hp hl hv,
    fun bs rest hv => ?_, fun bs rest hl hv => ?_, fun s s' hv => ?_, fun s s' hl hv => ?_⟩
  · rw [parseDer] at hv ⊢
    rcases derParse_cases bs with ⟨e, r, he⟩ | ⟨id, b, r, h1, h2, he, -⟩
    · simp [he] at hv
    · simp only [he, Prod.mk.injEq] at hv ⊢
      obtain ⟨w, h3, h4⟩ := evolves_fromDer m m o h hd hd' ⟨id, b, h1, h2, rfl⟩ hv.1
      exact ⟨w, ⟨h3, hv.2⟩, h4⟩
  · rw [parseBer] at hv ⊢
    rcases berParse_cases bs hl with ⟨e, r, he⟩ | ⟨p, id, indef, raw, r, hb, he, rfl⟩
    · simp [he] at hv
    · simp only [he, Prod.mk.injEq] at hv ⊢
      obtain ⟨w, h3, h4⟩ := evolves_fromBer m o h hd hd' (berValue_isBer hb) (by rw [List.length_append] at hl; omega) hv.1
      exact ⟨w, ⟨h3, hv.2⟩, h4⟩
  · rw [readDer] at hv ⊢
    rcases e : Der.parse m s with ⟨r, s1⟩
    cases r with
    | ok p =>
      simp only [e, Prod.mk.injEq] at hv ⊢
      obtain ⟨w, h3, h4⟩ := evolves_fromDer m m o h hd hd' (C76_der_sound m s s1 p e).1 hv.1
      exact ⟨w, ⟨h3, hv.2⟩, h4⟩
    | _ => simp [e] at hv
  · rw [readBer] at hv ⊢
    rcases e : Ber.parse m s with ⟨r, s1⟩
    cases r with
    | ok p =>
      simp only [e, Prod.mk.injEq] at hv ⊢
      obtain ⟨h1, h2⟩ := C76_ber_sound m s s1 p e
      have : p.length ≤ isizeMax := by rw [h2, List.length_append] at hl; omega
      obtain ⟨w, h3, h4⟩ := evolves_fromBer m o h hd hd' h1 this hv.1
      exact ⟨w, ⟨h3, hv.2⟩, h4⟩
    | _ => simp [e] at hv

/-- Before: `struct { shapes: Vec<Shape>, cache: u8 (skipped) }`, where `enum Shape { [0x80] Point, [0xa1] Circle(u8) }`. -/
def shapesOld : Ty (List (Unit ⊕ Int × Unit ⊕ Empty) × Nat × Unit) :=
  .struct [0x61] (.plain (.vec (.enum (.cons [0x80] .nil (.cons [0xa1] (.plain (.int .u8) .nil) .nil)))) (.skip (0 : Nat) .nil))

/-- After: `struct { shapes: VecDeque<Shape> }`, where `enum Shape { [0xa2] Square(i32), [0x80] Point, [0xa1] Circle(u16) }`. -/
def shapesNew : Ty (List (Int × Unit ⊕ Unit ⊕ Int × Unit ⊕ Empty) × Unit) :=
  .struct [0x61] (.plain (.vecDeque (.enum (.cons [0xa2] (.plain (.int .i32) .nil) (.cons [0x80] .nil (.cons [0xa1] (.plain (.int .u16) .nil)
    .nil))))) .nil)

/-- The shapes are the same, in the same order. -/
def sameShapes : List (Unit ⊕ Int × Unit ⊕ Empty) × Nat × Unit → List (Int × Unit ⊕ Unit ⊕ Int × Unit ⊕ Empty) × Unit → Prop :=
  Both (List.Forall₂ (Later (Either (fun _ _ => True) (Either (Both (fun v w => w = v) (fun _ _ => True)) (fun _ _ => True)))))
    (fun _ _ => True)

theorem shapes_evolve : Evolves shapesOld shapesNew sameShapes :=
  .struct _ (.plain (.seq .vec .vecDeque (.enum (.insert _ _ (by decide) (.cons _ .nil (.cons _ (.plain (.int IntTy.u8 IntTy.u16 (by
    intro v h
    simp only [IntTy.InRange, IntTy.minVal, IntTy.maxVal, IntTy.signed, IntTy.size] at *
    simp at *
    omega)) .nil) .nil))))) (.dropSkip _ .nil))

/-- A circle of radius 200 and a point, before and after. -/
example (m : Build) (o : HashOrder) :
    parseBer (Ty.de m o shapesOld) [0x61, 0x80, 0x30, 0x08, 0xa1, 0x04, 0x02, 0x02, 0x00, 0xc8, 0x80, 0x00, 0x00, 0x00, 0xff] =
      (.ok ([.inr (.inl (200, ())), .inl ()], 0, ()), [0xff]) ∧
    parseBer (Ty.de m o shapesNew) [0x61, 0x80, 0x30, 0x08, 0xa1, 0x04, 0x02, 0x02, 0x00, 0xc8, 0x80, 0x00, 0x00, 0x00, 0xff] =
      (.ok ([.inr (.inr (.inl (200, ()))), .inr (.inl ())], ()), [0xff]) ∧
    sameShapes ([.inr (.inl (200, ())), .inl ()], 0, ()) ([.inr (.inr (.inl (200, ()))), .inr (.inl ())], ()) :=
  ⟨by cases m <;> rfl, by cases m <;> rfl, .cons ⟨rfl, trivial⟩ (.cons trivial .nil), trivial⟩

/-- C112: the new program can write all that the old one can: each old value has one of the same meaning that has the same octets. -/
theorem C112_writes (m m' : Build) {t : Ty α} {t' : Ty β} {R : α → β → Prop} (h : Evolves t t' R) (hs : t.serializable)
    (hs' : t'.serializable) (v : α) (hok : t.ok v) (hfit : (t.der v).length ≤ isizeMax) :
    ∃ w, R v w ∧ t'.ok w ∧ toDer m' (Ty.ser m' t') w = toDer m (Ty.ser m t) v ∧ toBer m' (Ty.ser m' t') w = toBer m (Ty.ser m t) v := by
  obtain ⟨w, h1, h2, h3⟩ := h.enc v hok
  have e : t'.der w = t.der v := congrArg tlvOf h3
  refine ⟨w, h1, h2, ?_, ?_⟩
  · rw [(C41_to_der m' t' hs' w h2 (by rw [e]; exact hfit)).1, (C41_to_der m t hs v hok hfit).1, e]
  · rw [(C41_to_der m' t' hs' w h2 (by rw [e]; exact hfit)).2.1, (C41_to_der m t hs v hok hfit).2.1, e]

example : shapesOld.ok ([.inr (.inl (200, ())), .inl ()], 7, ()) ∧
    shapesOld.der ([.inr (.inl (200, ())), .inl ()], 7, ()) = [0x61, 0x0a, 0x30, 0x08, 0xa1, 0x04, 0x02, 0x02, 0x00, 0xc8, 0x80, 0x00] := by
  refine ⟨⟨?_, trivial⟩, by decide +kernel⟩
  intro x hx
  simp only [List.mem_cons, List.not_mem_nil, or_false] at hx
  rcases hx with rfl | rfl
  · exact ⟨by simp [Ty.ok, IntTy.InRange, IntTy.minVal, IntTy.maxVal, IntTy.signed, IntTy.size], trivial⟩
  · trivial

/-- C112: which values of the new type an old program can read, exactly: those which mean some value of the old type, and it reads that value.
For all others it returns an error.  (Types with hashed collections or skipped fields are excluded: their values are not restored exactly.) -/
theorem C112_old_reads_new_iff (m : Build) (o : HashOrder) {t : Ty α} {t' : Ty β} {R : α → β → Prop} (h : Evolves t t' R)
    (hs : t.serializable) (hd : t.deserializable) (hr : t.restorable) (he : t.exact) (hw : t.wellTyped)
    (hs' : t'.serializable) (hd' : t'.deserializable) (hr' : t'.restorable) (he' : t'.exact) (w : β) (hok : t'.ok w) (hc : t'.convertible w)
    (hcv : ∀ v, R v w → t.ok v → t.convertible v) (hfit : (t'.der w).length ≤ isizeMax) :
    (∀ v, fromDer (Ty.de m o t) (t'.der w) = .ok v ↔ R v w ∧ t.ok v) ∧
    ((∃ e, fromDer (Ty.de m o t) (t'.der w) = .err e) ↔ ¬ ∃ v, R v w ∧ t.ok v) := by
  obtain ⟨hl, _, hid⟩ := der_enc_fits hs' hfit
  have hp : IsDer (t'.der w) := ⟨_, _, hid, hl, rfl⟩
  have key : ∀ v, fromDer (Ty.de m o t) (t'.der w) = .ok v ↔ R v w ∧ t.ok v := by
    intro v
    constructor
    · intro hv
      refine ⟨?_, (C68_decoded_valid m o t hd hw _ hfit v).1 hp hv⟩
      obtain ⟨w', h1, h2⟩ := evolves_fromDer m m o h hd hd' hp hv
      have k := C43_der_round_trip_exact m m o t' hs' hd' hr' he' w hok hc hfit
      rw [(C41_to_der m t' hs' w hok hfit).1, Res.bind_ok, h1] at k
      rwa [Res.ok.inj k] at h2
    · rintro ⟨h1, h2⟩
      have e : t'.der w = t.der v := congrArg tlvOf (h.encEq he' v w h1)
      rw [e] at hfit ⊢
      have k := C43_der_round_trip_exact m m o t hs hd hr he v h2 (hcv v h1 h2) hfit
      rwa [(C41_to_der m t hs v h2 hfit).1, Res.bind_ok] at k
  refine ⟨key, ?_⟩
  constructor
  · rintro ⟨e, h1⟩ ⟨v, h2⟩
    rw [(key v).mpr h2] at h1
    cases h1
  · intro hn
    have hset : (fromDer (Ty.de m o t) (t'.der w)).Settled := by
      rw [Ty.der, tlvOf, fromDer_tlv _ hid hl]
      exact Ty.settlesDer m o t hd _ _
    rcases hset with ⟨v, h1⟩ | ⟨e, h1⟩
    · exact absurd ⟨v, (key v).mp h1⟩ hn
    · exact ⟨e, h1⟩

/-- C112: the same with `from_ber`.  That all others give an error is proved for release builds (debug builds give no value for them). -/
theorem C112_old_reads_new_ber_iff (m : Build) (o : HashOrder) {t : Ty α} {t' : Ty β} {R : α → β → Prop} (h : Evolves t t' R)
    (hs : t.serializable) (hd : t.deserializable) (hr : t.restorable) (he : t.exact) (hw : t.wellTyped)
    (hs' : t'.serializable) (hd' : t'.deserializable) (hr' : t'.restorable) (he' : t'.exact) (w : β) (hok : t'.ok w) (hc : t'.convertible w)
    (hcv : ∀ v, R v w → t.ok v → t.convertible v) (hfit : (t'.der w).length ≤ isizeMax) :
    (∀ v, fromBer (Ty.de m o t) (t'.der w) = .ok v ↔ R v w ∧ t.ok v) ∧
    ((∃ e, fromBer (Ty.de .release o t) (t'.der w) = .err e) ↔ ¬ ∃ v, R v w ∧ t.ok v) := by
  obtain ⟨hl, hl', hid⟩ := der_enc_fits hs' hfit
  have hb : BerValue (t'.der w) (t'.enc w).1 false (t'.enc w).2 := ⟨hid, hl, rfl⟩
  have hp : IsBer (t'.der w) := berValue_isBer hb
  have key : ∀ m v, fromBer (Ty.de m o t) (t'.der w) = .ok v ↔ R v w ∧ t.ok v := by
    intro m v
    constructor
    · intro hv
      refine ⟨?_, (C68_decoded_valid m o t hd hw _ hfit v).2 hp hv⟩
      obtain ⟨w', h1, h2⟩ := evolves_fromBer m o h hd hd' hp hfit hv
      have k := C44_ber_round_trip_exact m m o t' hs' hd' hr' he' w hok hc hfit
      rw [(C41_to_der m t' hs' w hok hfit).2.1, Res.bind_ok, h1] at k
      rwa [Res.ok.inj k] at h2
    · rintro ⟨h1, h2⟩
      have e : t'.der w = t.der v := congrArg tlvOf (h.encEq he' v w h1)
      rw [e] at hfit ⊢
      have k := C44_ber_round_trip_exact m m o t hs hd hr he v h2 (hcv v h1 h2) hfit
      rwa [(C41_to_der m t hs v h2 hfit).2.1, Res.bind_ok] at k
  refine ⟨key m, ?_⟩
  constructor
  · rintro ⟨e, h1⟩ ⟨v, h2⟩
    rw [(key .release v).mpr h2] at h1
    cases h1
  · intro hn
    have hset : (fromBer (Ty.de .release o t) (t'.der w)).Settled := by
      rw [fromBer_value _ hb]
      exact Ty.settlesBer o t hd _ _ _ hl'
    rcases hset with ⟨v, h1⟩ | ⟨e, h1⟩
    · exact absurd ⟨v, (key .release v).mp h1⟩ hn
    · exact ⟨e, h1⟩

theorem list_evolves : Evolves (.vec (.int .u8)) (.vec (.int .u16)) (List.Forall₂ fun v w => w = v) :=
  .seq .vec .vec (.int IntTy.u8 IntTy.u16 (by
    intro v h
    simp only [IntTy.InRange, IntTy.minVal, IntTy.maxVal, IntTy.signed, IntTy.size] at *
    simp at *
    omega))

/-- A program with `Vec<u8>` reads a `Vec<u16>` if its elements are less than 256, and reads the same elements. -/
example (m : Build) (o : HashOrder) :
    fromDer (Ty.de m o (.vec (.int .u8))) ((Ty.vec (.int .u16)).der [3, 200]) = .ok [3, 200] ∧
    ∃ e, fromDer (Ty.de m o (.vec (.int .u8))) ((Ty.vec (.int .u16)).der [3, 256]) = .err e := by
  have h : ∀ w : List Int, (Ty.vec (.int .u16)).ok w → _ → _ := fun w hw hf =>
    C112_old_reads_new_iff m o list_evolves trivial trivial trivial trivial trivial trivial trivial trivial trivial w hw (fun _ _ => trivial)
      (fun _ _ _ _ _ => trivial) hf
  have r : ∀ t : IntTy, ∀ v : Int, (Ty.int t).ok v ↔ t.InRange v := fun _ _ => Iff.rfl
  constructor
  · refine ((h [3, 200] ?_ (by decide +kernel)).1 _).mpr ⟨.cons rfl (.cons rfl .nil), ?_⟩
    all_goals
      intro x hx
      simp only [List.mem_cons, List.not_mem_nil, or_false] at hx
      rcases hx with rfl | rfl <;> simp [Ty.ok, IntTy.InRange, IntTy.minVal, IntTy.maxVal, IntTy.signed, IntTy.size]
  · refine (h [3, 256] ?_ (by decide +kernel)).2.mpr ?_
    · intro x hx
      simp only [List.mem_cons, List.not_mem_nil, or_false] at hx
      rcases hx with rfl | rfl <;> simp [Ty.ok, IntTy.InRange, IntTy.minVal, IntTy.maxVal, IntTy.signed, IntTy.size]
    · rintro ⟨v, hv, hok⟩
      cases hv with
      | cons h1 h2 =>
        cases h2 with
        | cons h3 h4 =>
          subst h3
          have := hok 256 (by simp)
          simp [Ty.ok, IntTy.InRange, IntTy.minVal, IntTy.maxVal, IntTy.signed, IntTy.size] at this

/-- The same with `from_ber`. -/
example (m : Build) (o : HashOrder) : fromBer (Ty.de m o (.vec (.int .u8))) ((Ty.vec (.int .u16)).der [3, 200]) = .ok [3, 200] := by
  refine ((C112_old_reads_new_ber_iff m o list_evolves trivial trivial trivial trivial trivial trivial trivial trivial trivial [3, 200] ?_ (fun _ _ => trivial)
      (fun _ _ _ _ _ => trivial) (by decide +kernel)).1 _).mpr ⟨.cons rfl (.cons rfl .nil), ?_⟩
  all_goals
    intro x hx
    simp only [List.mem_cons, List.not_mem_nil, or_false] at hx
    rcases hx with rfl | rfl <;> simp [Ty.ok, IntTy.InRange, IntTy.minVal, IntTy.maxVal, IntTy.signed, IntTy.size]

/-! ### What is not such a change -/

/-- `n` BER values, one after the other. -/
inductive Values : Nat → Bytes → Prop
  | nil : Values 0 []
  | cons {n : Nat} {p c : Bytes} : IsBer p → Values n c → Values (n + 1) (p ++ c)

theorem Values.unique {n n' : Nat} {c c' : Bytes} (h : Values n c) (h' : Values n' c') (e : c = c') : n = n' := by
  induction h generalizing n' c' with
  | nil =>
    cases h' with
    | nil => rfl
    | cons hp _ =>
      obtain ⟨_, _, _, hb⟩ := isBer_berValue hp
      have := ber_nonempty hb
      simp_all
  | cons hp _ ih =>
    cases h' with
    | nil =>
      obtain ⟨_, _, _, hb⟩ := isBer_berValue hp
      have := ber_nonempty hb
      simp_all
    | cons hp' hr' =>
      obtain ⟨-, e'⟩ := isBer_prefix_free hp hp' e
      rw [ih hr' e']

theorem Fields.values (lax : Bool) (o : (α : Type) → List α → List α) : {γ : Type} → (fs : Fields γ) → (c : Bytes) → (v : γ) →
    fs.berVal lax o c v → Values fs.deCount c
  | _, .nil, _, _, h => by
    obtain rfl : _ = _ := h
    exact .nil
  | _, .plain _ r, _, _, h => by
    obtain ⟨p, id, indef, raw, c', hb, rfl, -, h⟩ := h
    exact .cons (berValue_isBer hb) (Fields.values lax o r _ _ h)
  | _, .skip _ r, c, _, h => Fields.values lax o r c _ h.2
  | _, .skipSer _ r, _, _, h => by
    obtain ⟨p, id, indef, raw, c', hb, rfl, -, h⟩ := h
    exact .cons (berValue_isBer hb) (Fields.values lax o r _ _ h)
  | _, .skipDe _ _ r, c, _, h => Fields.values lax o r c _ h.2
  | _, .conv _ _ _ r, _, _, h => by
    obtain ⟨p, id, indef, raw, c', hb, rfl, -, h⟩ := h
    exact .cons (berValue_isBer hb) (Fields.values lax o r _ _ h)

/-- C112: adding or removing a field that is not skipped is no such change, whatever the field is and wherever it stands: nothing that is
accepted for a struct is accepted for one with another number of fields to decode. -/
theorem C112_field_count (m m' : Build) (o o' : HashOrder) (id id' : Bytes) (fs : Fields γ) (fs' : Fields δ) (hd : fs.deserializable)
    (hd' : fs'.deserializable) (hn : fs.deCount ≠ fs'.deCount) (p : Bytes) (v : γ) (w : δ) :
    (IsDer p → fromDer (Ty.de m o (.struct id fs)) p = .ok v → fromDer (Ty.de m' o' (.struct id' fs')) p ≠ .ok w) ∧
    (IsBer p → p.length ≤ isizeMax → fromBer (Ty.de m o (.struct id fs)) p = .ok v → fromBer (Ty.de m' o' (.struct id' fs')) p ≠ .ok w) := by
  constructor
  · rintro ⟨i, b, h1, h2, rfl⟩ hv hw
    rw [fromDer_tlv _ h1 h2, Ty.fromDer_iff m o (.struct id fs) hd] at hv
    rw [fromDer_tlv _ h1 h2, Ty.fromDer_iff m' o' (.struct id' fs') hd'] at hw
    obtain ⟨-, c, hc, hv⟩ := Ty.derVal_berVal true _ (.struct id fs) i b v hv
    obtain ⟨-, c', hc', hw⟩ := Ty.derVal_berVal true _ (.struct id' fs') i b w hw
    exact hn ((Fields.values _ _ fs c v hv).unique (Fields.values _ _ fs' c' w hw) (hc.symm.trans hc'))
  · intro hp hl hv hw
    obtain ⟨i, indef, raw, hb⟩ := isBer_berValue hp
    have := berValue_length hb
    rw [fromBer_value _ hb, Ty.fromBer_iff m o (.struct id fs) hd _ _ _ _ (by omega)] at hv
    rw [fromBer_value _ hb, Ty.fromBer_iff m' o' (.struct id' fs') hd' _ _ _ _ (by omega)] at hw
    obtain ⟨-, c, hc, hv⟩ := hv
    obtain ⟨-, c', hc', hw⟩ := hw
    refine hn ((Fields.values _ _ fs c v hv).unique (Fields.values _ _ fs' c' w hw) ?_)
    cases indef with
    | false => exact hc.symm.trans hc'
    | true => exact List.append_cancel_right (hc.symm.trans hc')

/-- A field was appended: the new program rejects each old value. -/
example (m : Build) (o : HashOrder) (w : Int × Bool × Unit) :
    fromDer (Ty.de m o (.struct [0x61] (.plain (.int .u8) .nil))) [0x61, 0x03, 0x02, 0x01, 0x05] = .ok (5, ()) ∧
    fromDer (Ty.de m o (.struct [0x61] (.plain (.int .u8) (.plain .bool .nil)))) [0x61, 0x03, 0x02, 0x01, 0x05] ≠ .ok w := by
  have h : fromDer (Ty.de m o (.struct [0x61] (.plain (.int .u8) .nil))) [0x61, 0x03, 0x02, 0x01, 0x05] = .ok (5, ()) := by cases m <;> rfl
  exact ⟨h, (C112_field_count m m o o [0x61] [0x61] (.plain (.int .u8) .nil) (.plain (.int .u8) (.plain .bool .nil)) ⟨trivial, trivial⟩
    ⟨trivial, trivial, trivial⟩ (by decide) _ (5, ()) w).1 ⟨[0x61], [0x02, 0x01, 0x05], ⟨1, 1, 1, by decide, by decide, by decide +kernel⟩, by decide, by decide +kernel⟩ h⟩

/-- C112: where a new variant may be inserted, exactly: before variants none of which is read from a value with the identifier of the new
one.  (Later is always allowed: the first variant of an identifier is taken.) -/
theorem C112_insert_exact (m : Build) (o : HashOrder) {r : Variants γ} {r' : Variants δ} {S : γ → δ → Prop} (h : EvolvesVariants r r' S)
    (id : Bytes) (hid : IsId id) (fs : Fields β) (hd : r.deserializable) (hd' : r'.deserializable) (hf : fs.deserializable) :
    (∀ p, IsDer p → ∀ v, fromDer (Ty.de m o (.enum r)) p = .ok v →
      ∃ w, fromDer (Ty.de m o (.enum (.cons id fs r'))) p = .ok w ∧ Later S v w) ↔
    ∀ c : Bytes, c.length < 2 ^ 64 → ∀ v, fromDer (Ty.de m o (.enum r)) (tlv id c) ≠ .ok v := by
  constructor
  · intro hx c hc v hv
    obtain ⟨w, h1, h2⟩ := hx (tlv id c) ⟨id, c, hid, hc, rfl⟩ v hv
    rw [fromDer_tlv _ hid hc, Ty.fromDer_iff m o (.enum (.cons id fs r')) ⟨hf, hd'⟩] at h1
    cases w with
    | inl w => exact h2
    | inr w => exact h1.1 rfl
  · rintro hx _ ⟨i, c, h1, h2, rfl⟩ v hv
    have hne : i ≠ id := by
      rintro rfl
      exact hx c h2 v hv
    rw [fromDer_tlv _ h1 h2, Ty.fromDer_iff m o (.enum r) hd] at hv
    obtain ⟨w, h3, h4⟩ := h.der o i c v hv
    refine ⟨.inr w, ?_, h4⟩
    rw [fromDer_tlv _ h1 h2, Ty.fromDer_iff m o (.enum (.cons id fs r')) ⟨hf, hd'⟩]
    exact ⟨hne, h3⟩

/-- A new variant with the default identifier of enums, before an old one with the same: what was the old variant is now the new one. -/
example (m : Build) (o : HashOrder) :
    fromDer (Ty.de m o (.enum (.cons [0x30] .nil .nil))) [0x30, 0x00] = .ok (.inl ()) ∧
    fromDer (Ty.de m o (.enum (.cons [0x30] .nil (.cons [0x30] .nil .nil)))) [0x30, 0x00] = .ok (.inl ()) :=
  ⟨by cases m <;> rfl, by cases m <;> rfl⟩

end Bsn1
