import Verif.Spec.Mismatch
import Verif.Props.Faults
/-!
# C49: exactly when a mismatched identifier is reported
-/

namespace Bsn1
open Spec

variable {α : Type}

theorem tagFault_unmatched {ok : Prop} {P : Error → Prop} (h : ¬ ok) : tagFault ok P .unmatchedId := .inl ⟨h, rfl⟩

theorem variants_unmatched (r : Rules) (o : (α : Type) → List α → List α) (id : Bytes) (indef : Bool) (raw : Bytes) :
    {ρ : Type} → (vs : Variants ρ) → ¬ vs.tag id → vs.fault r o id indef raw .unmatchedId
  | _, .nil, _ => rfl
  | _, .cons _ _ vs, h => .inr ⟨fun e => h (.inl e), variants_unmatched r o id indef raw vs fun e => h (.inr e)⟩

mutual
theorem Ty.unmatched (r : Rules) (o : (α : Type) → List α → List α) (id : Bytes) (indef : Bool) (raw : Bytes) :
    {α : Type} → (t : Ty α) → t.deserializable → ¬ t.tag r id → (t.integer → r.Admits indef) → t.fault r o id indef raw t.mismatch
  | _, .bool, _, h, _ | _, .string, _, h, _ | _, .octetString, _, h, _ | _, .vec _, _, h, _ | _, .linkedList _, _, h, _
  | _, .vecDeque _, _, h, _ | _, .btreeSet _ _ _ _, _, h, _ | _, .btreeMap _ _ _ _ _, _, h, _ | _, .hashSet _ _, _, h, _
  | _, .hashMap _ _ _, _, h, _ | _, .struct _ _, _, h, _ => tagFault_unmatched h
  | _, .int _, _, h, ha => ⟨ha trivial, tagFault_unmatched h⟩
  | _, .enum vs, _, h, _ => variants_unmatched r o id indef raw vs h
  | _, .transparent fs, hd, h, ha => Fields.unmatched r o id indef raw fs hd.1 hd.2 h ha
  | _, .conv t _ _, hd, h, ha => .inl (Ty.unmatched r o id indef raw t hd h ha)
  | _, .named t _ _ _ _, hd, h, ha => Ty.unmatched r o id indef raw t hd h ha
  | _, .hole, _, _, _ => rfl
theorem Fields.unmatched (r : Rules) (o : (α : Type) → List α → List α) (id : Bytes) (indef : Bool) (raw : Bytes) :
    {γ : Type} → (fs : Fields γ) → fs.deCount = 1 → fs.deserializable → ¬ fs.tag r id → (fs.integer → r.Admits indef) →
      fs.faultOne r o id indef raw (wrapped fs.mismatch)
  | _, .nil, hc, _, _, _ => nomatch hc
  | _, .plain t _, _, hd, h, ha => .inl ⟨_, rfl, Ty.unmatched r o id indef raw t hd.1 h ha⟩
  | _, .skip _ fs, hc, hd, h, ha => Fields.unmatched r o id indef raw fs hc hd h ha
  | _, .skipSer t _, _, hd, h, ha => .inl ⟨_, rfl, Ty.unmatched r o id indef raw t hd.1 h ha⟩
  | _, .skipDe _ _ fs, hc, hd, h, ha => Fields.unmatched r o id indef raw fs hc hd h ha
  | _, .conv t _ _ _, _, hd, h, ha => .inl ⟨_, rfl, Ty.unmatched r o id indef raw t hd.1 h ha⟩
end

/-! ### No other fault is reported so -/

theorem wrapped_ne (e : Error) : wrapped e ≠ .unmatchedId := by cases e <;> exact nofun

theorem elemFault_ne {r : Rules} {R : Bytes → Bool → Bytes → α → Prop} {F : Bytes → Bool → Bytes → Error → Prop} {c : Bytes} {e : Error}
    (h : ElemFault r R F c e) : e ≠ .unmatchedId := by
  induction h with
  | octets => exact wrapped_ne _
  | here => exact wrapped_ne _
  | later _ _ _ _ _ _ _ _ _ _ ih => exact ih

theorem convFault_ne {β : Type} {g : Back β α} {u : β} {e : Error} (h : convFault g u e) : e ≠ .unmatchedId := by
  obtain ⟨_, _, rfl⟩ := h; exact nofun

theorem firstFault_ne {r : Rules} {F : Bytes → Bool → Bytes → Error → Prop} {c : Bytes} {e : Error}
    (h : firstFault r F c e) : e ≠ .unmatchedId := by
  obtain ⟨_, rfl, _⟩ := h; exact wrapped_ne _

theorem fieldsFault_ne (r : Rules) (o : (α : Type) → List α → List α) : {γ : Type} → (fs : Fields γ) → (c : Bytes) → (e : Error) →
    fs.fault r o c e → e ≠ .unmatchedId
  | _, .nil, _, _, h => by rw [h.2]; exact nofun
  | _, .plain _ fs, _, _, h => h.elim firstFault_ne fun ⟨_, _, _, rest, _, _, _, h⟩ => fieldsFault_ne r o fs rest _ h
  | _, .skip _ fs, _, _, h => fieldsFault_ne r o fs _ _ h
  | _, .skipSer _ fs, _, _, h => h.elim firstFault_ne fun ⟨_, _, _, rest, _, _, _, h⟩ => fieldsFault_ne r o fs rest _ h
  | _, .skipDe _ _ fs, _, _, h => fieldsFault_ne r o fs _ _ h
  | _, .conv _ _ _ fs, _, _, h => h.elim firstFault_ne fun ⟨_, _, _, rest, _, _, _, h⟩ =>
      h.elim convFault_ne fun h => fieldsFault_ne r o fs rest _ h.2

theorem bodyFault_ne {indef : Bool} {raw : Bytes} {P : Bytes → Error → Prop} {e : Error} (h : bodyFault indef raw P e)
    (hP : ∀ c e, P c e → e ≠ .unmatchedId) : e ≠ .unmatchedId := by
  rcases h with ⟨_, rfl⟩ | ⟨c, _, h⟩
  · exact nofun
  · exact hP c e h

theorem tagFault_ne {ok : Prop} {P : Error → Prop} (h : tagFault ok P .unmatchedId) (hP : ∀ e, P e → e ≠ .unmatchedId) : ¬ ok :=
  h.elim And.left fun h => absurd rfl (hP _ h.2)

theorem boolFault_ne {r : Rules} {c : Bytes} {e : Error} (h : boolFault r c e) : e ≠ .unmatchedId := by
  rcases h with ⟨_, rfl⟩ | ⟨_, rfl⟩ | ⟨_, _, _, _, _, rfl⟩ <;> exact nofun

theorem intFault_ne {t : IntTy} {c : Bytes} {e : Error} (h : intFault t c e) : e ≠ .unmatchedId := by
  rcases h with ⟨_, rfl⟩ | ⟨_, _, rfl⟩ | ⟨_, _, rfl⟩ <;> exact nofun

theorem variants_matched (r : Rules) (o : (α : Type) → List α → List α) (id : Bytes) (indef : Bool) (raw : Bytes) :
    {ρ : Type} → (vs : Variants ρ) → vs.fault r o id indef raw .unmatchedId → ¬ vs.tag id
  | _, .nil, _ => False.elim
  | _, .cons _ fs vs, h => fun ht => by
    rcases h with ⟨_, hb⟩ | ⟨hn, hv⟩
    · exact bodyFault_ne hb (fun c e => fieldsFault_ne r o fs c e) rfl
    · exact ht.elim hn (variants_matched r o id indef raw vs hv)

theorem Ty.matched (r : Rules) (o : (α : Type) → List α → List α) (id : Bytes) (indef : Bool) (raw : Bytes) :
    {α : Type} → (t : Ty α) → t.opaque → t.fault r o id indef raw .unmatchedId → ¬ t.tag r id ∧ (t.integer → r.Admits indef)
  | _, .bool, _, h => ⟨tagFault_ne h fun _ h => boolFault_ne h.2, False.elim⟩
  | _, .int _, _, h => ⟨tagFault_ne h.2 fun _ h => intFault_ne h, fun _ => h.1⟩
  | _, .string, _, h => ⟨tagFault_ne h fun _ h => by rw [h.2.2]; exact nofun, False.elim⟩
  | _, .octetString, _, h => ⟨tagFault_ne h fun _ h => by rw [h.2]; exact nofun, False.elim⟩
  | _, .vec _, _, h | _, .linkedList _, _, h | _, .vecDeque _, _, h | _, .btreeSet _ _ _ _, _, h | _, .btreeMap _ _ _ _ _, _, h
  | _, .hashSet _ _, _, h | _, .hashMap _ _ _, _, h => ⟨tagFault_ne h fun _ h => bodyFault_ne h fun _ _ h => elemFault_ne h, False.elim⟩
  | _, .struct _ fs, _, h => ⟨tagFault_ne h fun _ h => bodyFault_ne h fun c e h => fieldsFault_ne r o fs c e h, False.elim⟩
  | _, .enum vs, _, h => ⟨variants_matched r o id indef raw vs h, False.elim⟩
  | _, .conv t _ _, ho, h => h.elim (Ty.matched r o id indef raw t ho) fun ⟨_, _, h⟩ => absurd rfl (convFault_ne h)
  | _, .named t _ _ _ _, ho, h => Ty.matched r o id indef raw t ho h
  | _, .hole, _, _ => ⟨_root_.id, False.elim⟩

theorem opaque_mismatch : {α : Type} → (t : Ty α) → t.opaque → t.mismatch = .unmatchedId
  | _, .bool, _ | _, .int _, _ | _, .string, _ | _, .octetString, _ | _, .vec _, _ | _, .linkedList _, _ | _, .vecDeque _, _
  | _, .btreeSet _ _ _ _, _ | _, .btreeMap _ _ _ _ _, _ | _, .hashSet _ _, _ | _, .hashMap _ _ _, _ | _, .struct _ _, _ | _, .enum _, _
  | _, .hole, _ => rfl
  | _, .conv t _ _, h => opaque_mismatch t h
  | _, .named t _ _ _ _, h => opaque_mismatch t h

theorem definiteFault_ne {bs : Bytes} {e : Error} (h : DefiniteFault bs e) : e ≠ .unmatchedId := by
  rcases h with ⟨_, _, h⟩ | _
  · rcases h with ⟨_, _, h⟩ | ⟨_, _, _, _, h⟩
    · cases h <;> exact nofun
    · cases h <;> exact nofun
  · exact nofun

theorem noDer_ne {bs : Bytes} {e : Error} (h : NoDer bs e) : e ≠ .unmatchedId := by
  rcases h with ⟨_, _, h⟩ | _
  · exact definiteFault_ne h
  · exact nofun

/-- **C49, DER, exactly.** For every type that is not transparent, `parse_der` returns `UnmatchedId` on those octets, and no others, that start with
a value with an identifier that is not one of the type. -/
theorem C49_der_unmatched_iff (m : Build) (o : HashOrder) (t : Ty α) (hd : t.deserializable) (ho : t.opaque) (bs : Bytes) :
    (parseDer (Ty.de m o t) bs).1 = .err .unmatchedId ↔
      ∃ id raw rest, IsId id ∧ raw.length < 2 ^ 64 ∧ bs = tlv id raw ++ rest ∧ ¬ t.tag .der id := by
  rw [C89_parse_der_error_iff m o t hd]
  constructor
  · rintro (h | ⟨id, raw, rest, h1, h2, h3, h4⟩)
    · exact absurd rfl (noDer_ne h)
    · exact ⟨id, raw, rest, h1, h2, h3, (Ty.matched _ _ id false raw t ho h4).1⟩
  · rintro ⟨id, raw, rest, h1, h2, h3, h4⟩
    have := Ty.unmatched .der o.order id false raw t hd h4 fun _ => rfl
    rw [opaque_mismatch t ho] at this
    exact .inr ⟨id, raw, rest, h1, h2, h3, this⟩

example (m : Build) (o : HashOrder) : (parseDer (Ty.de m o .bool) (tlv [0x02] [7] ++ [9])).1 = .err .unmatchedId :=
  (C49_der_unmatched_iff m o .bool trivial trivial _).mpr ⟨[0x02], [7], [9], ⟨0, 0, 2, by decide, by decide, by decide +kernel⟩, by decide, rfl,
    by simp [Ty.tag]⟩

/-- **C49, BER, exactly.** The same for `parse_ber`, where in debug builds an integer of indefinite length is not reported (but panics). -/
theorem C49_ber_unmatched_iff (m : Build) (o : HashOrder) (t : Ty α) (hd : t.deserializable) (ho : t.opaque) (bs : Bytes) (hl : bs.length ≤ isizeMax) :
    (parseBer (Ty.de m o t) bs).1 = .err .unmatchedId ↔
      ∃ p id indef raw rest, BerValue p id indef raw ∧ bs = p ++ rest ∧ ¬ t.tag (.ber (decide (m = .release))) id ∧
        (t.integer → indef = true → m = .release) := by
  rw [C89_parse_ber_error_iff m o t hd bs hl]
  constructor
  · rintro (⟨p, r, d, _, _, h⟩ | ⟨p, id, indef, raw, rest, h1, h2, h3⟩)
    · exact absurd rfl (definiteFault_ne h)
    · obtain ⟨h4, h5⟩ := Ty.matched _ _ id indef raw t ho h3
      exact ⟨p, id, indef, raw, rest, h1, h2, h4, fun hi he => of_decide_eq_true (h5 hi he)⟩
  · rintro ⟨p, id, indef, raw, rest, h1, h2, h3, h4⟩
    have := Ty.unmatched (.ber (decide (m = .release))) o.order id indef raw t hd h3 fun hi he => decide_eq_true (h4 hi he)
    rw [opaque_mismatch t ho] at this
    exact .inr ⟨p, id, indef, raw, rest, h1, h2, this⟩

example (m : Build) (o : HashOrder) : (parseBer (Ty.de m o .bool) [0x30, 0x80, 0x00, 0x00, 0x09]).1 = .err .unmatchedId :=
  (C49_ber_unmatched_iff m o .bool trivial trivial _ (by decide)).mpr ⟨[0x30, 0x80, 0x00, 0x00], [0x30], true, [0x00, 0x00], [0x09],
    ⟨⟨0, 1, 16, by decide, by decide, by decide +kernel⟩, [], .nil, rfl, rfl⟩, rfl, by simp [Ty.tag], fun h => h.elim⟩

/-- **C49, transparent structs.** For every type, an identifier that is not one of the type is reported as `UnmatchedId`, with one context for each
transparent struct around the field that is decoded. -/
theorem C49_mismatch_reported (m : Build) (o : HashOrder) (t : Ty α) (hd : t.deserializable) (id : Bytes) (rest : Bytes) :
    (∀ raw, IsId id → raw.length < 2 ^ 64 → ¬ t.tag .der id → (parseDer (Ty.de m o t) (tlv id raw ++ rest)).1 = .err t.mismatch) ∧
    ∀ p indef raw, BerValue p id indef raw → (p ++ rest).length ≤ isizeMax → ¬ t.tag (.ber (decide (m = .release))) id →
      (t.integer → indef = true → m = .release) → (parseBer (Ty.de m o t) (p ++ rest)).1 = .err t.mismatch := by
  constructor
  · intro raw h1 h2 h3
    exact (C89_parse_der_error_iff m o t hd _ _).2 (.inr ⟨id, raw, rest, h1, h2, rfl, Ty.unmatched .der o.order id false raw t hd h3 fun _ => rfl⟩)
  · intro p indef raw h1 hl h3 h4
    exact (C89_parse_ber_error_iff m o t hd _ hl _).2 (.inr ⟨p, id, indef, raw, rest, h1, rfl,
      Ty.unmatched _ o.order id indef raw t hd h3 fun hi he => decide_eq_true (h4 hi he)⟩)

/-- A boolean where a transparent struct around a converted integer is expected. -/
example (o : HashOrder) : (parseDer (Ty.de .debug o (.transparent (.plain (.conv (.int .u8) id (.from_ id)) .nil))) ([0x01, 0x01, 0xff] ++ [0x07])).1 =
    .err (.anyhow (.context (.err .unmatchedId))) :=
  (C49_mismatch_reported .debug o (.transparent (.plain (.conv (.int .u8) id (.from_ id)) .nil)) ⟨rfl, trivial, trivial⟩ [0x01] [0x07]).1 [0xff]
    ⟨0, 0, 1, by decide, by decide, by decide +kernel⟩ (by decide) (by intro h; exact absurd (show ([0x01] : Bytes) = [0x02] from h) (by decide))

end Bsn1
