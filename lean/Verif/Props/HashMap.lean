import Verif.Props.Ser
/-!
# C42, exactly which maps `to_der` encodes well
-/

namespace Bsn1
open Spec

variable {α β : Type}

/-- The value gives both size hints (`id_len` and `der_contents_len` return `Some`). -/
def HasHint (s : Ser α) (v : α) : Prop := (∃ n, s.idLen v = .ok (some n)) ∧ ∃ n, s.derContentsLen v = .ok (some n)

theorem derLen_exact (m : Build) {s : Ser α} {v : α} {id c : Bytes} (h : Serializes s v id c) (hfit : (tlv id c).length ≤ isizeMax) :
    (HasHint s v ∧ derLen m s v = .ok (some (tlv id c).length)) ∨ (¬ HasHint s v ∧ derLen m s v = .ok none) := by
  by_cases hh : HasHint s v
  · refine .inl ⟨hh, derLen_hints m ⟨?_, ?_⟩ hfit⟩
    · obtain ⟨n, e⟩ := hh.1
      rcases h.idLen with e' | e'
      · rw [e] at e'; cases e'
      · exact e'
    · obtain ⟨n, e⟩ := hh.2
      rcases h.contentsLen with e' | e'
      · rw [e] at e'; cases e'
      · exact e'
  · refine .inr ⟨hh, ?_⟩
    rw [derLen]
    rcases h.contentsLen with e | e
    · rw [e]; rfl
    · rcases h.idLen with e' | e'
      · rw [e, Res.bind_ok]; simp only []; rw [e']; rfl
      · exact absurd ⟨⟨_, e'⟩, ⟨_, e⟩⟩ hh

section
open Classical

/-- The pairs whose key has a size hint. -/
noncomputable def hintedPairs (sk : Ser α) (l : List (α × β)) : List (α × β) := l.filter fun x => decide (HasHint sk x.1)

theorem hashMapLen_exact (m : Build) {sk : Ser α} {sv : Ser β} {ek : α → Bytes × Bytes} {ev : β → Bytes × Bytes}
    (l : List (α × β)) (acc : Nat) (hk : ∀ x ∈ l, Serializes sk x.1 (ek x.1).1 (ek x.1).2)
    (hv : ∀ x ∈ l, Serializes sv x.2 (ev x.2).1 (ev x.2).2) (hfit : acc + (encPairs ek ev l).length ≤ isizeMax) :
    ((∃ x ∈ l, HasHint sk x.1 ∧ ¬ HasHint sv x.2) ∧ hashMapLen m sk sv l acc = .ok none) ∨
    ((¬ ∃ x ∈ l, HasHint sk x.1 ∧ ¬ HasHint sv x.2) ∧
      hashMapLen m sk sv l acc = .ok (some (acc + (encPairs ek ev (hintedPairs sk l)).length))) := by
  induction l generalizing acc with
  | nil => right; simp [hashMapLen, encPairs, hintedPairs]
  | cons x r ih =>
    simp only [encPairs, List.flatMap_cons, List.length_append] at hfit
    have hx : (pairOctets (tlvOf (ek x.1)) (tlvOf (ev x.2))).length ≤ isizeMax := by omega
    obtain ⟨_, h2, h3⟩ := pair_fits hx
    have ih' := fun acc h => ih acc (fun y hy => hk y (by simp [hy])) (fun y hy => hv y (by simp [hy])) h
    rw [hashMapLen]
    rcases derLen_exact m (hk x (by simp)) h2 with ⟨hh, e⟩ | ⟨hh, e⟩
    · rw [e, Res.bind_ok]
      simp only []
      rcases derLen_exact m (hv x (by simp)) h3 with ⟨hh', e'⟩ | ⟨hh', e'⟩
      · rw [e', Res.bind_ok]
        simp only []
        rw [addPair_ok m acc (k := tlv _ _) (v := tlv _ _) (by simp only [tlvOf] at hfit; omega), Res.bind_ok]
        have hiff : (∃ y ∈ x :: r, HasHint sk y.1 ∧ ¬ HasHint sv y.2) ↔ ∃ y ∈ r, HasHint sk y.1 ∧ ¬ HasHint sv y.2 := by
          simp [hh']
        rw [hiff]
        have hr := ih' (acc + (pairOctets (tlvOf (ek x.1)) (tlvOf (ev x.2))).length) (by simp only [encPairs]; omega)
        simp only [tlvOf] at hr ⊢
        rcases hr with ⟨h, e⟩ | ⟨h, e⟩
        · exact .inl ⟨h, e⟩
        · refine .inr ⟨h, ?_⟩
          rw [e]
          simp [hintedPairs, hh, encPairs, tlvOf, Nat.add_assoc]
      · left
        rw [e']
        exact ⟨⟨x, by simp, hh, hh'⟩, rfl⟩
    · rw [e, Res.bind_ok]
      simp only []
      have hiff : (∃ y ∈ x :: r, HasHint sk y.1 ∧ ¬ HasHint sv y.2) ↔ ∃ y ∈ r, HasHint sk y.1 ∧ ¬ HasHint sv y.2 := by
        simp [hh]
      rw [hiff]
      have hr := ih' acc (by simp only [encPairs]; omega)
      have hf : hintedPairs sk (x :: r) = hintedPairs sk r := by simp [hintedPairs, hh]
      rw [hf]
      exact hr

theorem encPairs_filter_length {ek : α → Bytes × Bytes} {ev : β → Bytes × Bytes} (p : α × β → Bool) (l : List (α × β)) :
    (encPairs ek ev (l.filter p)).length ≤ (encPairs ek ev l).length ∧
      ((encPairs ek ev (l.filter p)).length = (encPairs ek ev l).length ↔ ∀ x ∈ l, p x = true) := by
  induction l with
  | nil => simp [encPairs]
  | cons x r ih =>
    have hpos : 0 < (pairOctets (tlvOf (ek x.1)) (tlvOf (ev x.2))).length := by
      rw [pairOctets, tlv_length, List.length_cons]; omega
    simp only [encPairs] at ih ⊢
    by_cases hp : p x = true
    · rw [List.filter_cons_of_pos hp]
      simp only [List.flatMap_cons, List.length_append, List.forall_mem_cons, hp, true_and]
      refine ⟨by omega, ?_⟩
      rw [← ih.2]
      omega
    · rw [List.filter_cons_of_neg hp]
      simp only [List.flatMap_cons, List.length_append, List.forall_mem_cons, hp, Bool.false_eq_true, false_and, iff_false]
      omega

/-- **C42, exactly.** `to_der` of a `HashMap` whose entries are encoded well: the output is well-formed, and then the expected one, if and
only if every key has a size hint or some entry has a key with one and a value without. -/
theorem C42_hash_map_iff (m : Build) (sk : Ser α) (sv : Ser β) (ek : α → Bytes × Bytes) (ev : β → Bytes × Bytes) (l : List (α × β))
    (hk : ∀ x ∈ l, Serializes sk x.1 (ek x.1).1 (ek x.1).2) (hv : ∀ x ∈ l, Serializes sv x.2 (ev x.2).1 (ev x.2).2)
    (hfit : (tlv [0x31] (l.flatMap fun x => pairOctets (tlvOf (ek x.1)) (tlvOf (ev x.2)))).length ≤ isizeMax) :
    ∃ d, toDer m (Ser.hashMap m sk sv) l = .ok d ∧
      (DerRef.parse d = (.ok d, []) ↔ (∀ x ∈ l, HasHint sk x.1) ∨ ∃ x ∈ l, HasHint sk x.1 ∧ ¬ HasHint sv x.2) ∧
      (DerRef.parse d = (.ok d, []) ↔
        d = tlv [0x31] (l.flatMap fun x => pairOctets (tlvOf (ek x.1)) (tlvOf (ev x.2)))) := by
  have hid : IsId [0x31] := ⟨0, 1, 17, by decide, by decide, by decide +kernel⟩
  have hfc := fits_contents hfit
  have hw := writePairs_writes m (ek := ek) (ev := ev) l (fun x hx _ => hk x hx) (fun x hx _ => hv x hx) hfc
  have hf := hfit
  rw [tlv_length] at hf
  change 1 + (lenOctets (encPairs ek ev l).length).length + (encPairs ek ev l).length ≤ _ at hf
  change (encPairs ek ev l).length ≤ _ at hfc
  have hgood : DerRef.parse (tlv [0x31] (encPairs ek ev l)) = (.ok (tlv [0x31] (encPairs ek ev l)), []) := by
    simpa using DerRef_parse_tlv hid (fits_lt hfc) []
  have hser : ∀ o, hashMapLen m sk sv l 0 = .ok o → (o = none ∨ o = some (encPairs ek ev l).length) →
      toDer m (Ser.hashMap m sk sv) l = .ok (tlv [0x31] (encPairs ek ev l)) := by
    intro o e ho
    refine toDer_ok m ⟨writes_writeAll _, hw, .inr rfl, ?_⟩ hfit
    rcases ho with rfl | rfl
    · exact .inl e
    · exact .inr e
  rcases hashMapLen_exact m l 0 hk hv (by simpa using hfc) with ⟨hex, e⟩ | ⟨hex, e⟩
  · refine ⟨_, hser _ e (.inl rfl), iff_of_true hgood (.inr hex), iff_of_true hgood rfl⟩
  · rw [Nat.zero_add] at e
    obtain ⟨hle, heq⟩ := encPairs_filter_length (ek := ek) (ev := ev) (fun x => decide (HasHint sk x.1)) l
    change (encPairs ek ev (hintedPairs sk l)).length ≤ _ at hle
    change (encPairs ek ev (hintedPairs sk l)).length = _ ↔ _ at heq
    by_cases hall : ∀ x ∈ l, HasHint sk x.1
    · have h1 : (encPairs ek ev (hintedPairs sk l)).length = (encPairs ek ev l).length :=
        heq.mpr fun x hx => by simpa using hall x hx
      refine ⟨_, hser _ e (.inr (by rw [h1])), iff_of_true hgood (.inl hall), iff_of_true hgood rfl⟩
    · have hlt : (encPairs ek ev (hintedPairs sk l)).length < (encPairs ek ev l).length := by
        refine lt_of_le_of_ne hle fun h => hall fun x hx => ?_
        simpa using heq.mp h x hx
      generalize (encPairs ek ev (hintedPairs sk l)).length = n at e hlt
      have hmono := lenOctets_length_mono (Nat.le_of_lt hlt)
      have := isizeMax_lt
      have hu := usizeSize_eq
      have hn : n < 2 ^ 64 := by omega
      have et : toDer m (Ser.hashMap m sk sv) l = .ok ([0x31] ++ lenOctets n ++ encPairs ek ev l) := by
        have h1 : contentsLen m (Ser.hashMap m sk sv) l = .ok (n, none) := by
          rw [contentsLen]
          change (hashMapLen m sk sv l 0 >>= _) = _
          rw [e]; rfl
        rw [toDer, h1, Res.bind_ok]
        simp only []
        rw [toBytes_definite hn, Res.bind_ok]
        change (Res.ok (some 1) >>= _) = _
        rw [Res.bind_ok]
        have h2 : reserveDer m (some 1) (lenOctets n).length n = .ok () := by
          simp only [reserveDer]
          rw [uadd_ok (by omega), Res.bind_ok, uadd_ok (by omega), Res.bind_ok, bufReserve_ok (by omega)]
          rfl
        rw [h2, Res.bind_ok]
        have h3 : ((Ser.hashMap m sk sv).writeId l).toBuffer m [] = .ok ((), [0x31]) :=
          toBuffer_ok m (writes_writeAll _) [] (by decide)
        rw [h3, Res.bind_ok]
        simp only []
        rw [writeBuffer_ok m _ _ (by simp; omega), Res.bind_ok]
        have h4 : ((Ser.hashMap m sk sv).writeDerContents l).toBuffer m ([0x31] ++ [lenOctets n].flatten) =
            .ok ((), [0x31] ++ [lenOctets n].flatten ++ encPairs ek ev l) :=
          toBuffer_ok m hw _ (by simp; omega)
        rw [h4]
        simp
      have hbad : DerRef.parse ([0x31] ++ lenOctets n ++ encPairs ek ev l) ≠
          (.ok ([0x31] ++ lenOctets n ++ encPairs ek ev l), []) := by
        have hlen : ((encPairs ek ev l).take n).length = n := by rw [List.length_take]; omega
        have hq := DerRef_parse_tlv (id := [0x31]) hid (c := (encPairs ek ev l).take n) (by rw [hlen]; exact hn)
          ((encPairs ek ev l).drop n)
        have h6 : tlv [0x31] ((encPairs ek ev l).take n) ++ (encPairs ek ev l).drop n = [0x31] ++ lenOctets n ++ encPairs ek ev l := by
          rw [tlv, hlen, List.append_assoc, List.take_append_drop]
        rw [h6] at hq
        rw [hq]
        intro h
        have h7 := congrArg List.length (Prod.mk.inj h).2
        simp at h7
        omega
      refine ⟨_, et, iff_of_false hbad ?_, iff_of_false hbad fun h => ?_⟩
      · rintro (h | h)
        · exact hall h
        · exact hex h
      · rw [h] at hbad
        exact hbad hgood

/-- Two entries with keys that are converted and therefore have no hint. -/
example : ¬ ((∀ x ∈ [(true, false), (false, true)], HasHint (Ty.ser .release (.conv .bool id (.from_ id))) x.1) ∨
    ∃ x ∈ [(true, false), (false, true)], HasHint (Ty.ser .release (.conv .bool id (.from_ id))) x.1 ∧
      ¬ HasHint (Ty.ser .release .bool) x.2) := by
  have h : ∀ b, ¬ HasHint (Ty.ser .release (.conv .bool id (.from_ id))) b := by
    rintro b ⟨-, n, e⟩
    exact absurd e (by change Res.ok none ≠ _; simp)
  simp [h]

/-- Keys with hints. -/
example : ∀ x ∈ [(true, false), (false, true)], HasHint (Ty.ser .release .bool) x.1 :=
  fun _ _ => ⟨⟨1, rfl⟩, ⟨1, rfl⟩⟩

end
end Bsn1
