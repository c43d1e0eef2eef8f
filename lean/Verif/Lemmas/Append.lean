import Verif.Spec.Append
import Verif.Props.Alter
/-!
# Lemmas about octets behind the last element of a collection
-/

namespace Bsn1
open Spec

variable {α β γ : Type}

theorem derElems_append {T : Bytes → Bytes → α → Prop} (hT : OneD T) {c : Bytes} {l : List α} (h : DerElems T c l) (b : Bytes) (w : List α) :
    DerElems T (c ++ b) w ↔ ∃ vs, w = l ++ vs ∧ DerElems T b vs := by
  induction h generalizing w with
  | nil => simp
  | cons id a c x xs h1 h2 h3 _ ih =>
    rw [List.append_assoc, derElems_cons_iff ⟨id, a, h1, h2, rfl⟩]
    constructor
    · rintro ⟨v, vs, rfl, h4, h5⟩
      obtain ⟨us, rfl, h6⟩ := (ih vs).1 h5
      rw [hT _ _ _ _ ((derDen_tlv h1 h2).1 h4) h3]
      exact ⟨us, rfl, h6⟩
    · rintro ⟨us, rfl, h6⟩
      exact ⟨x, xs ++ us, rfl, (derDen_tlv h1 h2).2 h3, (ih _).2 ⟨us, rfl, h6⟩⟩

theorem berElems_append {T : Bytes → Bool → Bytes → α → Prop} (hT : OneB T) {c : Bytes} {l : List α} (h : BerElems T c l) (hl : c.length ≤ isizeMax) (b : Bytes) (w : List α) :
    BerElems T (c ++ b) w ↔ ∃ vs, w = l ++ vs ∧ BerElems T b vs := by
  induction h generalizing w with
  | nil => simp
  | cons p id d raw c x xs h1 h3 _ ih =>
    rw [List.length_append] at hl
    have := berValue_length h1
    rw [List.append_assoc, berElems_cons_iff (berValue_isBer h1)]
    constructor
    · rintro ⟨v, vs, rfl, h4, h5⟩
      obtain ⟨us, rfl, h6⟩ := (ih (by omega) vs).1 h5
      rw [hT _ _ _ _ _ (by omega) ((berDen_value h1).1 h4) h3]
      exact ⟨us, rfl, h6⟩
    · rintro ⟨us, rfl, h6⟩
      exact ⟨x, xs ++ us, rfl, (berDen_value h1).2 h3, (ih (by omega) _).2 ⟨us, rfl, h6⟩⟩

theorem parseDer_ok_iff {d : De α} {b r : Bytes} {x : α} : parseDer d b = (.ok x, r) ↔ ∃ p, IsDer p ∧ b = p ++ r ∧ fromDer d p = .ok x := by
  constructor
  · intro h
    rw [parseDer] at h
    cases hx : DerRef.parse b with
    | mk q r' =>
      rw [hx] at h
      cases q with
      | ok p =>
        simp only [Prod.mk.injEq] at h
        obtain ⟨h1, rfl⟩ := h
        obtain ⟨h2, h3⟩ := (C19_der_parse_iff _ _ _).1 hx
        exact ⟨p, h2, h3, h1⟩
      | err e => simp at h
      | panic => simp at h
      | ub => simp at h
  · rintro ⟨p, h1, rfl, h2⟩
    rw [parseDer, (C19_der_parse_iff _ _ _).2 ⟨h1, rfl⟩]
    simp only [h2]

theorem parseBer_ok_iff {d : De α} {b r : Bytes} {x : α} (hl : b.length ≤ isizeMax) : parseBer d b = (.ok x, r) ↔ ∃ p, IsBer p ∧ b = p ++ r ∧ fromBer d p = .ok x := by
  constructor
  · intro h
    rw [parseBer] at h
    cases hx : BerRef.parse b with
    | mk q r' =>
      rw [hx] at h
      cases q with
      | ok p =>
        simp only [Prod.mk.injEq] at h
        obtain ⟨h1, rfl⟩ := h
        obtain ⟨h2, h3⟩ := BerRef_parse_sound hl hx
        exact ⟨p, h2, h3, h1⟩
      | err e => simp at h
      | panic => simp at h
      | ub => simp at h
  · rintro ⟨p, h1, rfl, h2⟩
    rw [parseBer, BerRef_parse_ok h1 hl]
    simp only [h2]

theorem readAll_der {m : Build} {o : HashOrder} {t : Ty α} (hd : t.deserializable) (b : Bytes) (vs : List α) :
    ReadAll (parseDer (Ty.de m o t)) b vs ↔ DerElems (t.derVal o.order) b vs := by
  constructor
  · intro h
    induction h with
    | nil => exact .nil
    | cons b r x xs h1 _ ih =>
      obtain ⟨p, h2, rfl, h3⟩ := parseDer_ok_iff.1 h1
      exact (derElems_cons_iff h2).2 ⟨x, xs, rfl, (fromDer_den hd h2 x).1 h3, ih⟩
  · intro h
    induction h with
    | nil => exact .nil
    | cons id a c x xs h1 h2 h3 _ ih =>
      refine .cons _ c x xs (parseDer_ok_iff.2 ⟨tlv id a, ⟨id, a, h1, h2, rfl⟩, rfl, ?_⟩) ih
      exact (fromDer_den hd ⟨id, a, h1, h2, rfl⟩ x).2 ((derDen_tlv h1 h2).2 h3)

theorem readAll_ber {m : Build} {o : HashOrder} {t : Ty α} (hd : t.deserializable) (b : Bytes) (hl : b.length ≤ isizeMax) (vs : List α) :
    ReadAll (parseBer (Ty.de m o t)) b vs ↔ BerElems (t.berVal (decide (m = .release)) o.order) b vs := by
  constructor
  · intro h
    induction h with
    | nil => exact .nil
    | cons b r x xs h1 _ ih =>
      obtain ⟨p, h2, rfl, h3⟩ := (parseBer_ok_iff hl).1 h1
      rw [List.length_append] at hl
      exact (berElems_cons_iff h2).2 ⟨x, xs, rfl, (fromBer_den hd h2 (by omega) x).1 h3, ih (by omega)⟩
  · intro h
    induction h with
    | nil => exact .nil
    | cons p id d raw c x xs h1 h3 _ ih =>
      have hl' := hl
      rw [List.length_append] at hl'
      refine .cons _ c x xs ((parseBer_ok_iff hl).2 ⟨p, berValue_isBer h1, rfl, ?_⟩) (ih (by omega))
      exact (fromBer_den hd (berValue_isBer h1) (by omega) x).2 ((berDen_value h1).2 h3)

/-! ### Entries -/

theorem lastEntry_append {k : β} {y : γ} {l vs : List (β × γ)} :
    LastEntry k y (l ++ vs) ↔ LastEntry k y vs ∨ (LastEntry k y l ∧ ∀ e ∈ vs, e.1 ≠ k) := by
  constructor
  · rintro ⟨a, b, e, h⟩
    rcases List.append_eq_append_iff.1 e with ⟨a', rfl, h2⟩ | ⟨c', rfl, h2⟩
    · exact .inl ⟨a', b, h2, h⟩
    · cases c' with
      | nil => exact .inl ⟨[], b, by simpa using h2.symm, h⟩
      | cons x xs =>
        simp only [List.cons_append, List.cons.injEq] at h2
        obtain ⟨rfl, rfl⟩ := h2
        exact .inr ⟨⟨a, xs, rfl, fun e he => h e (by simp [he])⟩, fun e he => h e (by simp [he])⟩
  · rintro (⟨a, b, rfl, h⟩ | ⟨⟨a, b, rfl, h⟩, h'⟩)
    · exact ⟨l ++ a, b, by simp, h⟩
    · exact ⟨a, b ++ vs, by simp, fun e he => (List.mem_append.1 he).elim (h e) (h' e)⟩

theorem derElems_entries {o : HashOrder} {k : Ty β} {t : Ty γ} {c : Bytes} {l : List (β × γ)} :
    DerElems (DerPair (k.derVal o.order) (t.derVal o.order)) c l ↔
      DerElems ((Ty.struct [0x30] (.plain k (.plain t .nil))).derVal o.order) c (l.map fun x => (x.1, x.2, ())) := by
  constructor
  · intro h
    induction h with
    | nil => exact .nil
    | cons id b c x xs h1 h2 h3 _ ih =>
      refine .cons id b c _ _ h1 h2 ?_ ih
      cases h3 with
      | mk ik ck iv cv a y g1 g2 g3 g4 g5 g6 => exact ⟨rfl, ik, ck, tlv iv cv, g1, g2, rfl, g3, iv, cv, [], g4, g5, by simp, g6, rfl⟩
  · intro h
    generalize e : (l.map fun x => (x.1, x.2, ())) = l' at h
    induction h generalizing l with
    | nil =>
      cases l with
      | nil => exact .nil
      | cons => simp at e
    | cons id b c x xs h1 h2 h3 _ ih =>
      cases l with
      | nil => simp at e
      | cons y ys =>
        simp only [List.map_cons, List.cons.injEq] at e
        obtain ⟨rfl, e⟩ := e
        refine .cons id b c _ _ h1 h2 ?_ (ih e)
        obtain ⟨rfl, ik, ck, c', g1, g2, rfl, g3, iv, cv, c'', g4, g5, rfl, g6, rfl⟩ := h3
        rw [List.append_nil]
        exact .mk ik ck iv cv y.1 y.2 g1 g2 g3 g4 g5 g6

theorem readEntries_ber {m : Build} {o : HashOrder} {k : Ty β} {t : Ty γ} (hk : k.deserializable) (ht : t.deserializable) (b : Bytes) (hl : b.length ≤ isizeMax)
    (vs : List (β × γ)) :
    ReadEntries (parseBer (Ty.de m o k)) (parseBer (Ty.de m o t)) b vs ↔
      BerElems (BerPair (k.berVal (decide (m = .release)) o.order) (t.berVal (decide (m = .release)) o.order)) b vs := by
  constructor
  · intro h
    induction h with
    | nil => exact .nil
    | cons b e r c c' x y xs h1 h2 h3 h4 h5 _ ih =>
      obtain ⟨g1, rfl⟩ := BerRef_parse_sound hl h1
      rw [List.length_append] at hl
      obtain ⟨id, d, raw, hv⟩ := isBer_berValue g1
      have hr := berValue_length hv
      rw [berValue_id hv] at h2
      rw [berValue_contents hv] at h3
      cases h2
      cases h3
      obtain ⟨p, g2, rfl, g3⟩ := (parseBer_ok_iff (by omega)).1 h4
      rw [List.length_append] at hr
      obtain ⟨q, g4, g5, g6⟩ := (parseBer_ok_iff (by omega)).1 h5
      rw [List.append_nil] at g5
      subst g5
      obtain ⟨ik, dk, ck, g7⟩ := isBer_berValue g2
      obtain ⟨iv, dv, cv, g8⟩ := isBer_berValue g4
      exact .cons _ _ d _ _ _ _ hv (.mk d p ik dk ck c' iv dv cv x y g7 ((berDen_value g7).1 ((fromBer_den hk g2 (by omega) x).1 g3)) g8
        ((berDen_value g8).1 ((fromBer_den ht g4 (by omega) y).1 g6))) (ih (by omega))
  · intro h
    induction h with
    | nil => exact .nil
    | cons p id d raw c x xs h1 h3 _ ih =>
      have hl' := hl
      rw [List.length_append] at hl'
      have hr := berValue_length h1
      cases h3 with
      | mk d pk ik dk ck pv iv dv cv a y g1 g2 g3 g4 =>
        rw [List.length_append] at hr
        refine .cons _ p c _ pv a y xs (BerRef_parse_ok (berValue_isBer h1) hl) (berValue_id h1) (berValue_contents h1)
          ((parseBer_ok_iff (by rw [List.length_append]; omega)).2 ⟨pk, berValue_isBer g1, rfl, ?_⟩)
          ((parseBer_ok_iff (by omega)).2 ⟨pv, berValue_isBer g3, by simp, ?_⟩) (ih (by omega))
        · exact (fromBer_den hk (berValue_isBer g1) (by omega) a).2 ((berDen_value g1).2 g2)
        · exact (fromBer_den ht (berValue_isBer g3) (by omega) y).2 ((berDen_value g3).2 g4)

/-! ### The collections -/

theorem joins_form (o : HashOrder) {t : Ty β} {T : Ty α} {J : α → List β → α → Prop} (h : Ty.Joins t T J) :
    ∃ (i : Bytes) (F : List β → α → Prop),
      (∀ id c v, T.derVal o.order id c v ↔ id = i ∧ ∃ l, DerElems (t.derVal o.order) c l ∧ F l v) ∧
      (∀ lax id d raw v, T.berVal lax o.order id d raw v ↔ id = i ∧ ∃ c l, IsBody d raw c ∧ BerElems (t.berVal lax o.order) c l ∧ F l v) ∧
      (∀ l v vs w, F l v → F (l ++ vs) w → J v vs w) ∧ (∀ l, ∃ w, F l w) ∧ (T.deserializable ↔ t.deserializable) := by
  cases h with
  | vec => exact ⟨[0x30], fun l v => v = l, fun id c v => by simp [Ty.derVal], fun lax id d raw v => by simp [Ty.berVal], by rintro l v vs w rfl rfl; rfl, fun l => ⟨l, rfl⟩, Iff.rfl⟩
  | linkedList => exact ⟨[0x30], fun l v => v = l, fun id c v => by simp [Ty.derVal], fun lax id d raw v => by simp [Ty.berVal], by rintro l v vs w rfl rfl; rfl, fun l => ⟨l, rfl⟩, Iff.rfl⟩
  | vecDeque => exact ⟨[0x30], fun l v => v = l, fun id c v => by simp [Ty.derVal], fun lax id d raw v => by simp [Ty.berVal], by rintro l v vs w rfl rfl; rfl, fun l => ⟨l, rfl⟩, Iff.rfl⟩
  | @btreeSet cmp h h' =>
    exact ⟨[0x30], SetOf cmp, fun id c v => Iff.rfl, fun lax id d raw v => Iff.rfl,
      fun l v vs w h1 h2 => ⟨h2.1, fun x => by rw [h2.2, h1.2, List.mem_append]⟩, fun l => ⟨_, (setOf_iff l _).1 rfl⟩, Iff.rfl⟩
  | @hashSet eq =>
    refine ⟨[0x31], fun l v => v = o.order _ (firsts l), fun id c v => Iff.rfl, fun lax id d raw v => Iff.rfl, ?_, fun l => ⟨_, rfl⟩, Iff.rfl⟩
    rintro l v vs w rfl rfl
    refine ⟨(o.perm _ _).nodup_iff.2 (firsts_nodup _), fun x => ?_⟩
    rw [(o.perm _ _).mem_iff, (o.perm _ _).mem_iff, mem_firsts, mem_firsts, List.mem_append]

theorem hashMapOf_mem_iff [DecidableEq β] {l u : List (β × γ)} (h : HashMapOf l u) (a : β) (b : γ) : (a, b) ∈ u ↔ LastEntry a b l := by
  constructor
  · exact fun h' => h.2 _ h'
  · intro h'
    have h1 : a ∈ u.map Prod.fst := by
      rw [h.1, mem_firsts]
      exact List.mem_map.2 ⟨_, lastEntry_mem h', rfl⟩
    obtain ⟨⟨a', b'⟩, h2, rfl⟩ := List.mem_map.1 h1
    rwa [lastEntry_unique h' (h.2 _ h2)]

theorem joinsMap_form (o : HashOrder) {k : Ty β} {t : Ty γ} {T : Ty (List (β × γ))} {J : List (β × γ) → List (β × γ) → List (β × γ) → Prop} (h : Ty.JoinsMap k t T J) :
    ∃ (i : Bytes) (F : List (β × γ) → List (β × γ) → Prop),
      (∀ id c v, T.derVal o.order id c v ↔ id = i ∧ ∃ l, DerElems (DerPair (k.derVal o.order) (t.derVal o.order)) c l ∧ F l v) ∧
      (∀ lax id d raw v, T.berVal lax o.order id d raw v ↔
        id = i ∧ ∃ c l, IsBody d raw c ∧ BerElems (BerPair (k.berVal lax o.order) (t.berVal lax o.order)) c l ∧ F l v) ∧
      (∀ l v vs w, F l v → F (l ++ vs) w → J v vs w) ∧ (∀ l, ∃ w, F l w) ∧ (T.deserializable ↔ k.deserializable ∧ t.deserializable) := by
  cases h with
  | @btreeMap cmp h h' =>
    refine ⟨[0x30], MapOf cmp, fun id c v => Iff.rfl, fun lax id d raw v => Iff.rfl, fun l v vs w h1 h2 => ⟨h2.1, fun a b => ?_⟩, fun l => ⟨_, (mapOf_iff l _).1 rfl⟩, Iff.rfl⟩
    rw [h2.2, h1.2, lastEntry_append]
  | @hashMap eq =>
    refine ⟨[0x31], fun l v => ∃ u, HashMapOf l u ∧ v = o.order _ u, fun id c v => ?_, fun lax id d raw v => ?_, ?_, fun l => ⟨_, _, (hashMapOf_iff l _).1 rfl, rfl⟩, Iff.rfl⟩
    · constructor
      · rintro ⟨h1, l, u, h2, h3, h4⟩; exact ⟨h1, l, h2, u, h3, h4⟩
      · rintro ⟨h1, l, h2, u, h3, h4⟩; exact ⟨h1, l, u, h2, h3, h4⟩
    · constructor
      · rintro ⟨h1, c, l, u, h2, h3, h4, h5⟩; exact ⟨h1, c, l, h2, h3, u, h4, h5⟩
      · rintro ⟨h1, c, l, h2, h3, u, h4, h5⟩; exact ⟨h1, c, l, u, h2, h3, h4, h5⟩
    · rintro l v vs w ⟨u, h1, rfl⟩ ⟨u', h2, rfl⟩
      refine ⟨((o.perm _ _).map _).nodup_iff.2 (by rw [h2.1]; exact firsts_nodup _), fun a b => ?_⟩
      rw [(o.perm _ _).mem_iff, (o.perm _ _).mem_iff, hashMapOf_mem_iff h2, hashMapOf_mem_iff h1, lastEntry_append]

theorem extend_fits {id c bytes : Bytes} (h : (tlv id c).length + bytes.length + 8 ≤ isizeMax) : (tlv id (c ++ bytes)).length ≤ isizeMax := by
  have hi := isizeMax_eq
  rw [tlv_length] at h ⊢
  have h1 : 0 < (lenOctets c.length).length := List.length_pos_iff.mpr (lenOctets_ne_nil _)
  have h2 : (lenOctets (c ++ bytes).length).length ≤ 9 := lenOctets_length_le (by rw [List.length_append]; omega)
  rw [List.length_append] at *
  omega

theorem extend_tlv (m : Build) (junk : Nat → UInt8) {id c bytes : Bytes} (hid : IsId id) (h : (tlv id c).length + bytes.length + 8 ≤ isizeMax) :
    Der.extendFromSlice m junk (tlv id c) bytes = .ok (tlv id (c ++ bytes)) ∧ Ber.extendFromSlice m junk (tlv id c) bytes = .ok (tlv id (c ++ bytes)) := by
  have hi := isizeMax_eq
  have hu := usizeSize_eq
  have h1 : c.length < 2 ^ 64 := by rw [tlv_length] at h; omega
  have h2 : Der.extendFromSlice m junk (tlv id c) bytes = .ok (tlv id (c ++ bytes)) := by
    rw [extendFromSlice_tlv m junk hid c bytes (by omega) (by omega), if_pos (extend_fits h)]
  exact ⟨h2, by simp only [Ber.extendFromSlice, berLength_tlv hid h1, Res.bind_ok, h2]⟩

end Bsn1
