import Verif.Props.Decode
import Verif.Props.Collections
/-!
# C58: exactly when hashed collections have equal encodings
-/

namespace Bsn1
open Spec

variable {α β : Type}

/-- Concatenations of DER values are equal exactly if the values are, one by one. -/
theorem flatMap_der_inj {f : α → Bytes} : ∀ (v w : List α), (∀ x ∈ v, IsDer (f x)) → (∀ x ∈ w, IsDer (f x)) →
    v.flatMap f = w.flatMap f → v.map f = w.map f
  | [], [], _, _, _ => rfl
  | [], y :: w, _, h2, e => by
    obtain ⟨id, c, h1, _, h3⟩ := h2 y (by simp)
    have := isId_length_pos h1
    have hl := congrArg List.length e
    simp only [List.flatMap_nil, List.flatMap_cons, List.length_nil, List.length_append, h3, tlv_length] at hl
    omega
  | x :: v, [], h1, _, e => by
    obtain ⟨id, c, h1, _, h3⟩ := h1 x (by simp)
    have := isId_length_pos h1
    have hl := congrArg List.length e
    simp only [List.flatMap_nil, List.flatMap_cons, List.length_nil, List.length_append, h3, tlv_length] at hl
    omega
  | x :: v, y :: w, h1, h2, e => by
    obtain ⟨id, c, k1, k2, k3⟩ := h1 x (by simp)
    obtain ⟨id', c', k1', k2', k3'⟩ := h2 y (by simp)
    rw [List.flatMap_cons, List.flatMap_cons, k3, k3'] at e
    obtain ⟨e1, e2⟩ := tlv_prefix_free k1 k1' k2 k2' e
    rw [List.map_cons, List.map_cons, k3, k3', e1, flatMap_der_inj v w (fun x hx => h1 x (by simp [hx])) (fun x hx => h2 x (by simp [hx])) e2]

theorem flatMap_mem_length {f : α → Bytes} {l : List α} {x : α} (hx : x ∈ l) : (f x).length ≤ (l.flatMap f).length := by
  induction l with
  | nil => cases hx
  | cons y l ih =>
    rw [List.flatMap_cons, List.length_append]
    rcases List.mem_cons.mp hx with rfl | h
    · omega
    · have := ih h; omega

theorem isDer_enc {t : Ty α} (hs : t.serializable) {v : α} (h : (t.der v).length ≤ isizeMax) : IsDer (t.der v) := by
  obtain ⟨h1, _, h2⟩ := der_enc_fits hs h
  exact ⟨_, _, h2, h1, rfl⟩

theorem tlv_inj_contents {id c c' : Bytes} (hid : IsId id) (h : (tlv id c).length ≤ isizeMax) (h' : (tlv id c').length ≤ isizeMax)
    (e : tlv id c = tlv id c') : c = c' := by
  have k := DerRef_contents_tlv hid (fits_lt (fits_contents h))
  rw [e, DerRef_contents_tlv hid (fits_lt (fits_contents h'))] at k
  exact (Res.ok.inj k).symm

/-- C58, hashed sets, exactly: two sets, given in their orders of iteration, have equal encodings if and only if the encodings of their
elements are equal one by one.  So the octets of a `HashSet` depend on its order of iteration as soon as it has two elements with
different encodings. -/
theorem C58_hash_set_iff (m : Build) [inst : DecidableEq α] (t : Ty α) (hs : t.serializable) (v w : List α)
    (hv : (Ty.hashSet inst t).ok v) (hw : (Ty.hashSet inst t).ok w)
    (fv : ((Ty.hashSet inst t).der v).length ≤ isizeMax) (fw : ((Ty.hashSet inst t).der w).length ≤ isizeMax) :
    toDer m (Ty.ser m (.hashSet inst t)) v = toDer m (Ty.ser m (.hashSet inst t)) w ↔ v.map t.der = w.map t.der := by
  have hid : IsId [0x31] := ⟨0, 1, 17, by decide, by decide, by decide +kernel⟩
  rw [(C41_to_der m (.hashSet inst t) hs v hv fv).1, (C41_to_der m (.hashSet inst t) hs w hw fw).1]
  have e : ∀ l, (Ty.hashSet inst t).der l = tlv [0x31] (l.flatMap t.der) := fun _ => rfl
  constructor
  · intro h
    have h := Res.ok.inj h
    rw [e] at fv fw
    rw [e, e] at h
    have h := tlv_inj_contents hid fv fw h
    have fv := fits_contents fv
    have fw := fits_contents fw
    exact flatMap_der_inj v w (fun x hx => isDer_enc hs ((flatMap_mem_length hx).trans fv))
      (fun x hx => isDer_enc hs ((flatMap_mem_length hx).trans fw)) h
  · intro h
    rw [e, e, List.flatMap_def, List.flatMap_def, h]

example (m : Build) : toDer m (Ty.ser m (.hashSet inferInstance (.int .u8))) [5, 7] ≠ toDer m (Ty.ser m (.hashSet inferInstance (.int .u8))) [7, 5] := by
  rw [Ne, C58_hash_set_iff m (.int .u8) trivial [5, 7] [7, 5]
    (by simp [Ty.ok, IntTy.InRange, IntTy.minVal, IntTy.maxVal, IntTy.signed, IntTy.size])
    (by simp [Ty.ok, IntTy.InRange, IntTy.minVal, IntTy.maxVal, IntTy.signed, IntTy.size]) (by decide +kernel) (by decide +kernel)]
  decide +kernel

/-- C58, hashed maps, exactly. -/
theorem C58_hash_map_iff (m : Build) [inst : DecidableEq α] (k : Ty α) (t : Ty β) (hs : (Ty.hashMap inst k t).serializable)
    (v w : List (α × β)) (hv : (Ty.hashMap inst k t).ok v) (hw : (Ty.hashMap inst k t).ok w)
    (fv : ((Ty.hashMap inst k t).der v).length ≤ isizeMax) (fw : ((Ty.hashMap inst k t).der w).length ≤ isizeMax) :
    toDer m (Ty.ser m (.hashMap inst k t)) v = toDer m (Ty.ser m (.hashMap inst k t)) w ↔
      v.map (fun x => (k.der x.1, t.der x.2)) = w.map (fun x => (k.der x.1, t.der x.2)) := by
  have hid : IsId [0x31] := ⟨0, 1, 17, by decide, by decide, by decide +kernel⟩
  rw [(C41_to_der m (.hashMap inst k t) hs v hv fv).1, (C41_to_der m (.hashMap inst k t) hs w hw fw).1]
  have e : ∀ l, (Ty.hashMap inst k t).der l = tlv [0x31] (l.flatMap fun x => pairOctets (k.der x.1) (t.der x.2)) := fun _ => rfl
  constructor
  · intro h
    have h := Res.ok.inj h
    rw [e] at fv fw
    rw [e, e] at h
    have h := tlv_inj_contents hid fv fw h
    have fv := fits_contents fv
    have fw := fits_contents fw
    have hpair : ∀ {l : List (α × β)}, (l.flatMap fun x => pairOctets (k.der x.1) (t.der x.2)).length ≤ isizeMax → ∀ x ∈ l,
        (pairOctets (k.der x.1) (t.der x.2)).length ≤ isizeMax := by
      intro l hl x hx
      have h := flatMap_mem_length (f := fun x => pairOctets (k.der x.1) (t.der x.2)) hx
      exact Nat.le_trans h hl
    have hder : ∀ {l : List (α × β)}, (l.flatMap fun x => pairOctets (k.der x.1) (t.der x.2)).length ≤ isizeMax → ∀ x ∈ l,
        IsDer (pairOctets (k.der x.1) (t.der x.2)) := by
      intro l hl x hx
      have h1 := hpair hl x hx
      rw [pairOctets] at h1 ⊢
      exact ⟨[0x30], k.der x.1 ++ t.der x.2, isId_sequence, fits_lt (fits_contents h1), rfl⟩
    have h := flatMap_der_inj v w (hder fv) (hder fw) h
    have hlen : v.length = w.length := by simpa using congrArg List.length h
    apply List.ext_getElem (by simpa using hlen)
    intro i h1 h2
    simp only [List.length_map] at h1 h2
    rw [List.getElem_map, List.getElem_map]
    have hi : (v.map fun x => pairOctets (k.der x.1) (t.der x.2))[i]'(by simpa using h1) =
      (w.map fun x => pairOctets (k.der x.1) (t.der x.2))[i]'(by simpa using h2) := by simp only [h]
    rw [List.getElem_map, List.getElem_map] at hi
    have p1 := hpair fv _ (List.getElem_mem h1)
    have p2 := hpair fw _ (List.getElem_mem h2)
    rw [pairOctets] at p1 p2 hi
    rw [pairOctets] at hi
    have hc := tlv_inj_contents isId_sequence p1 p2 hi
    have q1 := fits_contents p1
    have q2 := fits_contents p2
    rw [List.length_append] at q1 q2
    obtain ⟨e1, e2⟩ := C66_prefix_free k k hs.1 hs.1 _ _ (by omega) (by omega) _ _ hc
    rw [e1, e2]
  · intro h
    have e3 : ∀ l : List (α × β), (l.flatMap fun x => pairOctets (k.der x.1) (t.der x.2)) =
        (l.map fun x => (k.der x.1, t.der x.2)).flatMap fun y => pairOctets y.1 y.2 := fun l => by rw [List.flatMap_map]
    rw [e, e, e3, e3, h]

/-- `{1, 2}` iterated in both orders. -/
example : (Ty.hashSet inferInstance (.int .u8)).ok [1, 2] ∧ (Ty.hashSet inferInstance (.int .u8)).ok [2, 1] ∧
    ((Ty.hashSet inferInstance (.int .u8)).der [1, 2]).length ≤ isizeMax ∧
    [1, 2].map (Ty.int .u8).der ≠ [2, 1].map (Ty.int .u8).der := by
  have ok : ∀ l : List Int, l.Nodup → (∀ x ∈ l, IntTy.u8.InRange x) → (Ty.hashSet inferInstance (.int .u8)).ok l :=
    fun l h1 h2 => ⟨h1, h2⟩
  refine ⟨ok _ (by decide) (by decide), ok _ (by decide) (by decide), ?_, ?_⟩
  · change (tlv [0x31] ([1, 2].flatMap fun x => tlv [0x02] (intOctets x))).length ≤ _
    decide +kernel
  · change [1, 2].map (fun x => tlv [0x02] (intOctets x)) ≠ [2, 1].map (fun x => tlv [0x02] (intOctets x))
    decide +kernel

end Bsn1
