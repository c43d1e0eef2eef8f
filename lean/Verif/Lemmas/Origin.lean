import Verif.Spec.Origin
import Verif.Lemmas.Edits
import Verif.Lemmas.DeMore
/-!
# The parts of a decoded value are found in the input
-/

namespace Bsn1
open Spec

variable {α β γ : Type} {u : Ty β} {y : β}

/-! ### DER -/

/-- From a value `b`, the program that walks through the octets comes by the path to `b'`. -/
def ReachD (b : Bytes) (path : List Nat) (b' : Bytes) : Prop := ∀ i c, nth DerRef.parse i c = .ok b → getDer (i :: path) c = .ok b'

theorem ReachD.here (b : Bytes) : ReachD b [] b := fun _ _ h => h

theorem ReachD.step {id c x b' : Bytes} {j : Nat} {path : List Nat} (hid : IsId id) (hc : c.length < 2 ^ 64) (hx : nth DerRef.parse j c = .ok x)
    (h : ReachD x path b') : ReachD (tlv id c) (j :: path) b' := by
  intro i bytes hb
  have hdis : DerRef.contents (tlv id c) = .ok c := by rw [DerRef.contents, disassemble_tlv hid hc]; rfl
  rw [getDer, hb, Res.bind_ok, hdis, Res.bind_ok]
  exact h j c hx

/-- A value denoting `y` is reached by a path of the place. -/
def FoundD (R : Bytes → Bytes → β → Prop) (y : β) (p : Place) (b : Bytes) : Prop :=
  ∃ path id c, p.Has path ∧ IsId id ∧ c.length < 2 ^ 64 ∧ R id c y ∧ ReachD b path (tlv id c)

theorem FoundD.step {R : Bytes → Bytes → β → Prop} {p : Place} {id c x : Bytes} {j : Nat} {o : Option Nat} (hid : IsId id) (hc : c.length < 2 ^ 64)
    (hx : nth DerRef.parse j c = .ok x) (ho : ∀ k, o = some k → j = k) (h : FoundD R y p x) : FoundD R y (o :: p) (tlv id c) := by
  obtain ⟨path, id', c', h1, h2, h3, h4, h5⟩ := h
  exact ⟨j :: path, id', c', .cons ho h1, h2, h3, h4, .step hid hc hx h5⟩

theorem nth_der_zero {id b : Bytes} (c : Bytes) (hid : IsId id) (hb : b.length < 2 ^ 64) : nth DerRef.parse 0 (tlv id b ++ c) = .ok (tlv id b) := by
  rw [nth, DerRef_parse_tlv hid hb c]

theorem nth_der_succ {id b : Bytes} (c : Bytes) (i : Nat) (hid : IsId id) (hb : b.length < 2 ^ 64) :
    nth DerRef.parse (i + 1) (tlv id b ++ c) = nth DerRef.parse i c := by
  rw [nth, DerRef_parse_tlv hid hb c]

theorem derElems_nth {R : Bytes → Bytes → α → Prop} {c : Bytes} {l : List α} (h : DerElems R c l) : ∀ {i : Nat} {x : α}, l[i]? = some x →
    ∃ id b, IsId id ∧ b.length < 2 ^ 64 ∧ R id b x ∧ nth DerRef.parse i c = .ok (tlv id b) := by
  induction h with
  | nil => intro i x hx; simp at hx
  | cons id b c z zs hid hb hr _ ih =>
    intro i x hx
    cases i with
    | zero => obtain rfl := Option.some.inj hx; exact ⟨id, b, hid, hb, hr, nth_der_zero c hid hb⟩
    | succ i =>
      obtain ⟨id', b', h1, h2, h3, h4⟩ := ih (show zs[i]? = some x by simpa using hx)
      exact ⟨id', b', h1, h2, h3, by rw [nth_der_succ c i hid hb]; exact h4⟩

theorem derElems_mem {R : Bytes → Bytes → α → Prop} {c : Bytes} {l : List α} (h : DerElems R c l) {x : α} (hx : x ∈ l) :
    ∃ i id b, IsId id ∧ b.length < 2 ^ 64 ∧ R id b x ∧ nth DerRef.parse i c = .ok (tlv id b) := by
  obtain ⟨i, hi⟩ := List.getElem?_of_mem hx
  exact ⟨i, derElems_nth h hi⟩

theorem derPair_nth {K : Bytes → Bytes → α → Prop} {V : Bytes → Bytes → γ → Prop} {id c : Bytes} {x : α × γ} (h : DerPair K V id c x) :
    (∃ i b, IsId i ∧ b.length < 2 ^ 64 ∧ K i b x.1 ∧ nth DerRef.parse 0 c = .ok (tlv i b)) ∧
    (∃ i b, IsId i ∧ b.length < 2 ^ 64 ∧ V i b x.2 ∧ nth DerRef.parse 1 c = .ok (tlv i b)) := by
  cases h with
  | mk ik ck iv cv k v h1 h2 h3 h4 h5 h6 =>
    refine ⟨⟨ik, ck, h1, h2, h3, nth_der_zero _ h1 h2⟩, ⟨iv, cv, h4, h5, h6, ?_⟩⟩
    rw [nth_der_succ _ 0 h1 h2]
    simpa using nth_der_zero [] h4 h5

mutual
theorem Spec.Ty.From.der (o : HashOrder) : {α : Type} → {p : Place} → {t : Ty α} → {v : α} → Ty.From u y p t v →
    (id c : Bytes) → IsId id → c.length < 2 ^ 64 → t.derVal o.order id c v → FoundD (u.derVal o.order) y p (tlv id c)
  | _, _, _, _, .here, id, c, hid, hc, h => ⟨[], id, c, .nil, hid, hc, h, .here _⟩
  | _, _, _, _, .vec hi hp, id, c, hid, hc, h => by
    obtain ⟨-, h⟩ := h
    obtain ⟨i, b, h1, h2, h3, h4⟩ := derElems_nth h hi
    exact .step hid hc h4 (fun _ h => Option.some.inj h) (hp.der o i b h1 h2 h3)
  | _, _, _, _, .linkedList hi hp, id, c, hid, hc, h => by
    obtain ⟨-, h⟩ := h
    obtain ⟨i, b, h1, h2, h3, h4⟩ := derElems_nth h hi
    exact .step hid hc h4 (fun _ h => Option.some.inj h) (hp.der o i b h1 h2 h3)
  | _, _, _, _, .vecDeque hi hp, id, c, hid, hc, h => by
    obtain ⟨-, h⟩ := h
    obtain ⟨i, b, h1, h2, h3, h4⟩ := derElems_nth h hi
    exact .step hid hc h4 (fun _ h => Option.some.inj h) (hp.der o i b h1 h2 h3)
  | _, _, _, _, .btreeSet hi hp, id, c, hid, hc, h => by
    obtain ⟨-, l, h, hs⟩ := h
    obtain ⟨j, i, b, h1, h2, h3, h4⟩ := derElems_mem h ((hs.2 _).1 hi)
    exact .step hid hc h4 (fun _ h => nomatch h) (hp.der o i b h1 h2 h3)
  | _, _, _, _, .hashSet hi hp, id, c, hid, hc, h => by
    obtain ⟨-, l, h, rfl⟩ := h
    obtain ⟨j, i, b, h1, h2, h3, h4⟩ := derElems_mem h ((mem_firsts _ _).1 ((o.perm _ _).mem_iff.1 hi))
    exact .step hid hc h4 (fun _ h => nomatch h) (hp.der o i b h1 h2 h3)
  | _, _, _, _, .btreeKey _hn hi hp, id, c, hid, hc, h => by
    obtain ⟨-, l, h, hs⟩ := h
    obtain ⟨j, i, b, h1, h2, h3, h4⟩ := derElems_mem h (lastEntry_mem ((hs.2 _ _).1 hi))
    obtain ⟨i', b', k1, k2, k3, k4⟩ := (derPair_nth h3).1
    exact .step hid hc h4 (fun _ h => nomatch h) (.step h1 h2 k4 (fun _ h => Option.some.inj h) (hp.der o i' b' k1 k2 k3))
  | _, _, _, _, .btreeValue _hn hi hp, id, c, hid, hc, h => by
    obtain ⟨-, l, h, hs⟩ := h
    obtain ⟨j, i, b, h1, h2, h3, h4⟩ := derElems_mem h (lastEntry_mem ((hs.2 _ _).1 hi))
    obtain ⟨i', b', k1, k2, k3, k4⟩ := (derPair_nth h3).2
    exact .step hid hc h4 (fun _ h => nomatch h) (.step h1 h2 k4 (fun _ h => Option.some.inj h) (hp.der o i' b' k1 k2 k3))
  | _, _, _, _, .hashKey _hn hi hp, id, c, hid, hc, h => by
    obtain ⟨-, l, w, h, hs, rfl⟩ := h
    obtain ⟨j, i, b, h1, h2, h3, h4⟩ := derElems_mem h (lastEntry_mem (hs.2 _ ((o.perm _ _).mem_iff.1 hi)))
    obtain ⟨i', b', k1, k2, k3, k4⟩ := (derPair_nth h3).1
    exact .step hid hc h4 (fun _ h => nomatch h) (.step h1 h2 k4 (fun _ h => Option.some.inj h) (hp.der o i' b' k1 k2 k3))
  | _, _, _, _, .hashValue _hn hi hp, id, c, hid, hc, h => by
    obtain ⟨-, l, w, h, hs, rfl⟩ := h
    obtain ⟨j, i, b, h1, h2, h3, h4⟩ := derElems_mem h (lastEntry_mem (hs.2 _ ((o.perm _ _).mem_iff.1 hi)))
    obtain ⟨i', b', k1, k2, k3, k4⟩ := (derPair_nth h3).2
    exact .step hid hc h4 (fun _ h => nomatch h) (.step h1 h2 k4 (fun _ h => Option.some.inj h) (hp.der o i' b' k1 k2 k3))
  | _, _, _, _, .struct hp, id, c, hid, hc, h => by
    obtain ⟨b, h2, h3⟩ := hp.der o c h.2
    exact .step hid hc h2 (fun _ h => Option.some.inj h) h3
  | _, _, _, _, .enum hp, id, c, hid, hc, h => by
    obtain ⟨b, h2, h3⟩ := hp.der o id c h
    exact .step hid hc h2 (fun _ h => Option.some.inj h) h3
  | _, _, _, _, .transparent hp, id, c, hid, hc, h => hp.der o id c hid hc h
  | _, _, _, _, .named hp, id, c, hid, hc, h => hp.der o id c hid hc h
theorem Spec.Fields.From.der (o : HashOrder) : {γ : Type} → {i : Nat} → {p : Place} → {fs : Fields γ} → {v : γ} → Fields.From u y i p fs v →
    (c : Bytes) → fs.derVal o.order c v → ∃ b : Bytes, nth DerRef.parse i c = .ok b ∧ FoundD (u.derVal o.order) y p b
  | _, _, _, _, _, .plain hp, c, h => by
    obtain ⟨id, b, c', h1, h2, rfl, h3, -⟩ := h
    exact ⟨_, nth_der_zero c' h1 h2, hp.der o id b h1 h2 h3⟩
  | _, _, _, _, _, .skipSer hp, c, h => by
    obtain ⟨id, b, c', h1, h2, rfl, h3, -⟩ := h
    exact ⟨_, nth_der_zero c' h1 h2, hp.der o id b h1 h2 h3⟩
  | _, _, _, _, _, .conv hp, c, h => by
    obtain ⟨id, b, c', h1, h2, rfl, h3, -⟩ := h
    exact ⟨_, nth_der_zero c' h1 h2, hp.der o id b h1 h2 h3⟩
  | _, _, _, _, _, .afterPlain hp, c, h => by
    obtain ⟨id, b, c', h1, h2, rfl, -, h4⟩ := h
    rw [nth_der_succ c' _ h1 h2]
    exact hp.der o c' h4
  | _, _, _, _, _, .afterSkipSer hp, c, h => by
    obtain ⟨id, b, c', h1, h2, rfl, -, h4⟩ := h
    rw [nth_der_succ c' _ h1 h2]
    exact hp.der o c' h4
  | _, _, _, _, _, .afterConv hp, c, h => by
    obtain ⟨id, b, c', h1, h2, rfl, -, h4⟩ := h
    rw [nth_der_succ c' _ h1 h2]
    exact hp.der o c' h4
  | _, _, _, _, _, .afterSkip hp, c, h => hp.der o c h.2
  | _, _, _, _, _, .afterSkipDe hp, c, h => hp.der o c h.2
theorem Spec.Fields.FromOne.der (o : HashOrder) : {γ : Type} → {p : Place} → {fs : Fields γ} → {v : γ} → Fields.FromOne u y p fs v →
    (id c : Bytes) → IsId id → c.length < 2 ^ 64 → fs.derOne o.order id c v → FoundD (u.derVal o.order) y p (tlv id c)
  | _, _, _, _, .plain hp, id, c, hid, hc, h => hp.der o id c hid hc h.1
  | _, _, _, _, .skipSer hp, id, c, hid, hc, h => hp.der o id c hid hc h.1
  | _, _, _, _, .conv hp, id, c, hid, hc, h => hp.der o id c hid hc h.1
  | _, _, _, _, .afterSkip hp, id, c, hid, hc, h => hp.der o id c hid hc h.2
  | _, _, _, _, .afterSkipDe hp, id, c, hid, hc, h => hp.der o id c hid hc h.2
theorem Spec.Variants.From.der (o : HashOrder) : {ρ : Type} → {i : Nat} → {p : Place} → {vs : Variants ρ} → {v : ρ} → Variants.From u y i p vs v →
    (id c : Bytes) → vs.derVal o.order id c v → ∃ b : Bytes, nth DerRef.parse i c = .ok b ∧ FoundD (u.derVal o.order) y p b
  | _, _, _, _, _, .this hp, _, c, h => hp.der o c h.2
  | _, _, _, _, _, .other hp, id, c, h => hp.der o id c h.2
end

/-! ### BER -/

/-- The same for `getBer`. -/
def ReachB (b : Bytes) (path : List Nat) (b' : Bytes) : Prop := ∀ i c, nth BerRef.parse i c = .ok b → getBer (i :: path) c = .ok b'

theorem ReachB.here (b : Bytes) : ReachB b [] b := fun _ _ h => h

theorem ReachB.step {b id raw c x b' : Bytes} {d : Bool} {j : Nat} {path : List Nat} (hv : BerValue b id d raw) (hb : IsBody d raw c)
    (hx : nth BerRef.parse j c = .ok x) (h : ReachB x path b') : ReachB b (j :: path) b' := by
  intro i bytes hb'
  have hlen : BerRef.length b = .ok (lenOf d raw) := by rw [BerRef.length, berValue_disassemble hv]; rfl
  rw [getBer, hb', Res.bind_ok, berValue_contents hv, Res.bind_ok, hlen, Res.bind_ok]
  cases d with
  | false => obtain rfl := show raw = c from hb; exact h j raw hx
  | true =>
    obtain rfl := show raw = c ++ eoc from hb
    have e : (c ++ eoc).take ((c ++ eoc).length - 2) = c := by simp [eoc]
    simp only [lenOf, e]
    exact h j c hx

/-- The same for BER. -/
def FoundB (R : Bytes → Bool → Bytes → β → Prop) (y : β) (p : Place) (b : Bytes) : Prop :=
  ∃ path b' id d raw, p.Has path ∧ BerValue b' id d raw ∧ b'.length ≤ isizeMax ∧ R id d raw y ∧ ReachB b path b'

theorem FoundB.step {R : Bytes → Bool → Bytes → β → Prop} {p : Place} {b id raw c x : Bytes} {d : Bool} {j : Nat} {o : Option Nat} (hv : BerValue b id d raw)
    (hb : IsBody d raw c) (hx : nth BerRef.parse j c = .ok x) (ho : ∀ k, o = some k → j = k) (h : FoundB R y p x) : FoundB R y (o :: p) b := by
  obtain ⟨path, b', id', d', c', h1, h2, h3, h4, h5⟩ := h
  exact ⟨j :: path, b', id', d', c', .cons ho h1, h2, h3, h4, .step hv hb hx h5⟩

theorem nth_ber_zero {b id raw : Bytes} {d : Bool} (c : Bytes) (h : BerValue b id d raw) (hl : (b ++ c).length ≤ isizeMax) :
    nth BerRef.parse 0 (b ++ c) = .ok b := by
  rw [nth, BerRef_parse_ok (berValue_isBer h) hl]

theorem nth_ber_succ {b id raw : Bytes} {d : Bool} (c : Bytes) (i : Nat) (h : BerValue b id d raw) (hl : (b ++ c).length ≤ isizeMax) :
    nth BerRef.parse (i + 1) (b ++ c) = nth BerRef.parse i c := by
  rw [nth, BerRef_parse_ok (berValue_isBer h) hl]

theorem body_fits {b id raw c : Bytes} {d : Bool} (hv : BerValue b id d raw) (hb : IsBody d raw c) (hl : b.length ≤ isizeMax) : c.length ≤ isizeMax := by
  have := berValue_length hv
  cases d with
  | false => obtain rfl := show raw = c from hb; omega
  | true => obtain rfl := show raw = c ++ eoc from hb; rw [List.length_append] at this; omega

theorem exists_body {b id raw : Bytes} {d : Bool} (hv : BerValue b id d raw) : ∃ c, IsBody d raw c := by
  cases d with
  | false => exact ⟨raw, rfl⟩
  | true => obtain ⟨-, c, -, h, -⟩ := hv; exact ⟨c, h⟩

theorem body_unique {raw c c' : Bytes} {d : Bool} (h : IsBody d raw c) (h' : IsBody d raw c') : c = c' := by
  cases d with
  | false => exact (show raw = c from h).symm.trans h'
  | true => exact List.append_cancel_right ((show raw = c ++ eoc from h).symm.trans h')

theorem berElems_nth {R : Bytes → Bool → Bytes → α → Prop} {c : Bytes} {l : List α} (h : BerElems R c l) : c.length ≤ isizeMax → ∀ {i : Nat} {x : α}, l[i]? = some x →
    ∃ b id d raw, BerValue b id d raw ∧ b.length ≤ isizeMax ∧ R id d raw x ∧ nth BerRef.parse i c = .ok b := by
  induction h with
  | nil => intro _ i x hx; simp at hx
  | cons b id d raw c z zs hv hr _ ih =>
    intro hl i x hx
    have hl' := hl
    rw [List.length_append] at hl'
    cases i with
    | zero => obtain rfl := Option.some.inj hx; exact ⟨b, id, d, raw, hv, by omega, hr, nth_ber_zero c hv hl⟩
    | succ i =>
      obtain ⟨b', id', d', raw', h1, h2, h3, h4⟩ := ih (by omega) (show zs[i]? = some x by simpa using hx)
      exact ⟨b', id', d', raw', h1, h2, h3, by rw [nth_ber_succ c i hv hl]; exact h4⟩

theorem berElems_mem {R : Bytes → Bool → Bytes → α → Prop} {c : Bytes} {l : List α} (h : BerElems R c l) (hl : c.length ≤ isizeMax) {x : α} (hx : x ∈ l) :
    ∃ i b id d raw, BerValue b id d raw ∧ b.length ≤ isizeMax ∧ R id d raw x ∧ nth BerRef.parse i c = .ok b := by
  obtain ⟨i, hi⟩ := List.getElem?_of_mem hx
  exact ⟨i, berElems_nth h hl hi⟩

/-- A pair has definite length, unless its value is an end-of-contents. -/
theorem berPair_definite {K : Bytes → Bool → Bytes → α → Prop} {lax : Bool} {o : (α : Type) → List α → List α} {t : Ty γ} {b id raw : Bytes} {d : Bool} {x : α × γ}
    (hn : t.notEoc) (hv : BerValue b id d raw) (h : BerPair K (t.berVal lax o) id d raw x) : d = false := by
  cases d with
  | false => rfl
  | true =>
    exfalso
    obtain ⟨-, c, hc, hr, -⟩ := hv
    cases h with
    | mk _ pk ik dk ck pv iv dv cv k v h1 h2 h3 h4 =>
      have hpv : pv = eoc := by
        cases hc with
        | nil =>
          have e := congrArg List.length hr
          have := berValue_length h1
          have := berValue_length h3
          simp [eoc] at e
          omega
        | cons w r hw hne hs =>
          rw [List.append_assoc] at hr
          obtain ⟨rfl, hq⟩ := isBer_prefix_free (berValue_isBer h1) hw hr
          cases hs with
          | nil => simpa using hq
          | cons w' r' hw' hne' hs' =>
            rw [List.append_assoc] at hq
            obtain ⟨-, hz⟩ := isBer_prefix_free (rest := []) (rest' := r' ++ eoc) (berValue_isBer h3) hw' (by rw [List.append_nil]; exact hq)
            have e := congrArg List.length hz
            simp [eoc] at e
      subst hpv
      have hz : BerValue eoc [0x00] false [] := ⟨⟨0, 0, 0, by decide, by decide, by decide +kernel⟩, by decide, by decide +kernel⟩
      obtain ⟨rfl, rfl, rfl⟩ := berValue_unique h3 hz
      exact hn _ _ _ h4

theorem berPair_nth {K : Bytes → Bool → Bytes → α → Prop} {lax : Bool} {o : (α : Type) → List α → List α} {t : Ty γ} {b id raw : Bytes} {d : Bool} {x : α × γ}
    (hn : t.notEoc) (hv : BerValue b id d raw) (hl : b.length ≤ isizeMax) (h : BerPair K (t.berVal lax o) id d raw x) : IsBody d raw raw ∧
    ((∃ b id d r, BerValue b id d r ∧ b.length ≤ isizeMax ∧ K id d r x.1 ∧ nth BerRef.parse 0 raw = .ok b) ∧
    (∃ b id d r, BerValue b id d r ∧ b.length ≤ isizeMax ∧ t.berVal lax o id d r x.2 ∧ nth BerRef.parse 1 raw = .ok b)) := by
  obtain rfl := berPair_definite hn hv h
  have hr := body_fits hv (show IsBody false raw raw from rfl) hl
  refine ⟨rfl, ?_⟩
  cases h with
  | mk _ pk ik dk ck pv iv dv cv k v h1 h2 h3 h4 =>
    have hr' := hr
    rw [List.length_append] at hr'
    refine ⟨⟨pk, ik, dk, ck, h1, by omega, h2, nth_ber_zero _ h1 hr⟩, ⟨pv, iv, dv, cv, h3, by omega, h4, ?_⟩⟩
    rw [nth_ber_succ _ 0 h1 hr]
    simpa using nth_ber_zero [] h3 (by simpa using (by omega : pv.length ≤ isizeMax))

mutual
theorem Spec.Ty.From.ber (lax : Bool) (o : HashOrder) : {α : Type} → {p : Place} → {t : Ty α} → {v : α} → Ty.From u y p t v →
    (b id : Bytes) → (d : Bool) → (c : Bytes) → BerValue b id d c → b.length ≤ isizeMax → t.berVal lax o.order id d c v → FoundB (u.berVal lax o.order) y p b
  | _, _, _, _, .here, b, id, d, c, hv, hl, h => ⟨[], b, id, d, c, .nil, hv, hl, h, .here _⟩
  | _, _, _, _, .vec hi hp, b, id, d, raw, hv, hl, h => by
    obtain ⟨-, c, hb, h⟩ := h
    obtain ⟨b', i, d', r, h1, h2, h3, h4⟩ := berElems_nth h (body_fits hv hb hl) hi
    exact .step hv hb h4 (fun _ h => Option.some.inj h) (hp.ber lax o b' i d' r h1 h2 h3)
  | _, _, _, _, .linkedList hi hp, b, id, d, raw, hv, hl, h => by
    obtain ⟨-, c, hb, h⟩ := h
    obtain ⟨b', i, d', r, h1, h2, h3, h4⟩ := berElems_nth h (body_fits hv hb hl) hi
    exact .step hv hb h4 (fun _ h => Option.some.inj h) (hp.ber lax o b' i d' r h1 h2 h3)
  | _, _, _, _, .vecDeque hi hp, b, id, d, raw, hv, hl, h => by
    obtain ⟨-, c, hb, h⟩ := h
    obtain ⟨b', i, d', r, h1, h2, h3, h4⟩ := berElems_nth h (body_fits hv hb hl) hi
    exact .step hv hb h4 (fun _ h => Option.some.inj h) (hp.ber lax o b' i d' r h1 h2 h3)
  | _, _, _, _, .btreeSet hi hp, b, id, d, raw, hv, hl, h => by
    obtain ⟨-, c, l, hb, h, hs⟩ := h
    obtain ⟨j, b', i, d', r, h1, h2, h3, h4⟩ := berElems_mem h (body_fits hv hb hl) ((hs.2 _).1 hi)
    exact .step hv hb h4 (fun _ h => nomatch h) (hp.ber lax o b' i d' r h1 h2 h3)
  | _, _, _, _, .hashSet hi hp, b, id, d, raw, hv, hl, h => by
    obtain ⟨-, c, l, hb, h, rfl⟩ := h
    obtain ⟨j, b', i, d', r, h1, h2, h3, h4⟩ := berElems_mem h (body_fits hv hb hl) ((mem_firsts _ _).1 ((o.perm _ _).mem_iff.1 hi))
    exact .step hv hb h4 (fun _ h => nomatch h) (hp.ber lax o b' i d' r h1 h2 h3)
  | _, _, _, _, .btreeKey hn hi hp, b, id, d, raw, hv, hl, h => by
    obtain ⟨-, c, l, hb, h, hs⟩ := h
    obtain ⟨j, b', i, d', r, h1, h2, h3, h4⟩ := berElems_mem h (body_fits hv hb hl) (lastEntry_mem ((hs.2 _ _).1 hi))
    obtain ⟨kb, q⟩ := berPair_nth hn h1 h2 h3
    obtain ⟨b2, i', d2, r', k1, k2, k3, k4⟩ := q.1
    exact .step hv hb h4 (fun _ h => nomatch h) (.step h1 kb k4 (fun _ h => Option.some.inj h) (hp.ber lax o b2 i' d2 r' k1 k2 k3))
  | _, _, _, _, .btreeValue hn hi hp, b, id, d, raw, hv, hl, h => by
    obtain ⟨-, c, l, hb, h, hs⟩ := h
    obtain ⟨j, b', i, d', r, h1, h2, h3, h4⟩ := berElems_mem h (body_fits hv hb hl) (lastEntry_mem ((hs.2 _ _).1 hi))
    obtain ⟨kb, q⟩ := berPair_nth hn h1 h2 h3
    obtain ⟨b2, i', d2, r', k1, k2, k3, k4⟩ := q.2
    exact .step hv hb h4 (fun _ h => nomatch h) (.step h1 kb k4 (fun _ h => Option.some.inj h) (hp.ber lax o b2 i' d2 r' k1 k2 k3))
  | _, _, _, _, .hashKey hn hi hp, b, id, d, raw, hv, hl, h => by
    obtain ⟨-, c, l, w, hb, h, hs, rfl⟩ := h
    obtain ⟨j, b', i, d', r, h1, h2, h3, h4⟩ := berElems_mem h (body_fits hv hb hl) (lastEntry_mem (hs.2 _ ((o.perm _ _).mem_iff.1 hi)))
    obtain ⟨kb, q⟩ := berPair_nth hn h1 h2 h3
    obtain ⟨b2, i', d2, r', k1, k2, k3, k4⟩ := q.1
    exact .step hv hb h4 (fun _ h => nomatch h) (.step h1 kb k4 (fun _ h => Option.some.inj h) (hp.ber lax o b2 i' d2 r' k1 k2 k3))
  | _, _, _, _, .hashValue hn hi hp, b, id, d, raw, hv, hl, h => by
    obtain ⟨-, c, l, w, hb, h, hs, rfl⟩ := h
    obtain ⟨j, b', i, d', r, h1, h2, h3, h4⟩ := berElems_mem h (body_fits hv hb hl) (lastEntry_mem (hs.2 _ ((o.perm _ _).mem_iff.1 hi)))
    obtain ⟨kb, q⟩ := berPair_nth hn h1 h2 h3
    obtain ⟨b2, i', d2, r', k1, k2, k3, k4⟩ := q.2
    exact .step hv hb h4 (fun _ h => nomatch h) (.step h1 kb k4 (fun _ h => Option.some.inj h) (hp.ber lax o b2 i' d2 r' k1 k2 k3))
  | _, _, _, _, .struct hp, b, id, d, raw, hv, hl, h => by
    obtain ⟨-, c, hb, h⟩ := h
    obtain ⟨b', h2, h3⟩ := hp.ber lax o c (body_fits hv hb hl) h
    exact .step hv hb h2 (fun _ h => Option.some.inj h) h3
  | _, _, _, _, .enum hp, b, id, d, raw, hv, hl, h => by
    obtain ⟨c, hb⟩ := exists_body hv
    obtain ⟨b', h2, h3⟩ := hp.ber lax o id d raw c hb (body_fits hv hb hl) h
    exact .step hv hb h2 (fun _ h => Option.some.inj h) h3
  | _, _, _, _, .transparent hp, b, id, d, c, hv, hl, h => hp.ber lax o b id d c hv hl h
  | _, _, _, _, .named hp, b, id, d, c, hv, hl, h => hp.ber lax o b id d c hv hl h
theorem Spec.Fields.From.ber (lax : Bool) (o : HashOrder) : {γ : Type} → {i : Nat} → {p : Place} → {fs : Fields γ} → {v : γ} → Fields.From u y i p fs v →
    (c : Bytes) → c.length ≤ isizeMax → fs.berVal lax o.order c v → ∃ b : Bytes, nth BerRef.parse i c = .ok b ∧ FoundB (u.berVal lax o.order) y p b
  | _, _, _, _, _, .plain hp, c, hl, h => by
    obtain ⟨b, id, d, raw, c', h1, rfl, h3, -⟩ := h
    exact ⟨_, nth_ber_zero c' h1 hl, hp.ber lax o b id d raw h1 (by rw [List.length_append] at hl; omega) h3⟩
  | _, _, _, _, _, .skipSer hp, c, hl, h => by
    obtain ⟨b, id, d, raw, c', h1, rfl, h3, -⟩ := h
    exact ⟨_, nth_ber_zero c' h1 hl, hp.ber lax o b id d raw h1 (by rw [List.length_append] at hl; omega) h3⟩
  | _, _, _, _, _, .conv hp, c, hl, h => by
    obtain ⟨b, id, d, raw, c', h1, rfl, h3, -⟩ := h
    exact ⟨_, nth_ber_zero c' h1 hl, hp.ber lax o b id d raw h1 (by rw [List.length_append] at hl; omega) h3⟩
  | _, _, _, _, _, .afterPlain hp, c, hl, h => by
    obtain ⟨b, id, d, raw, c', h1, rfl, -, h4⟩ := h
    rw [nth_ber_succ c' _ h1 hl]
    exact hp.ber lax o c' (by rw [List.length_append] at hl; omega) h4
  | _, _, _, _, _, .afterSkipSer hp, c, hl, h => by
    obtain ⟨b, id, d, raw, c', h1, rfl, -, h4⟩ := h
    rw [nth_ber_succ c' _ h1 hl]
    exact hp.ber lax o c' (by rw [List.length_append] at hl; omega) h4
  | _, _, _, _, _, .afterConv hp, c, hl, h => by
    obtain ⟨b, id, d, raw, c', h1, rfl, -, h4⟩ := h
    rw [nth_ber_succ c' _ h1 hl]
    exact hp.ber lax o c' (by rw [List.length_append] at hl; omega) h4
  | _, _, _, _, _, .afterSkip hp, c, hl, h => hp.ber lax o c hl h.2
  | _, _, _, _, _, .afterSkipDe hp, c, hl, h => hp.ber lax o c hl h.2
theorem Spec.Fields.FromOne.ber (lax : Bool) (o : HashOrder) : {γ : Type} → {p : Place} → {fs : Fields γ} → {v : γ} → Fields.FromOne u y p fs v →
    (b id : Bytes) → (d : Bool) → (c : Bytes) → BerValue b id d c → b.length ≤ isizeMax → fs.berOne lax o.order id d c v → FoundB (u.berVal lax o.order) y p b
  | _, _, _, _, .plain hp, b, id, d, c, hv, hl, h => hp.ber lax o b id d c hv hl h.1
  | _, _, _, _, .skipSer hp, b, id, d, c, hv, hl, h => hp.ber lax o b id d c hv hl h.1
  | _, _, _, _, .conv hp, b, id, d, c, hv, hl, h => hp.ber lax o b id d c hv hl h.1
  | _, _, _, _, .afterSkip hp, b, id, d, c, hv, hl, h => hp.ber lax o b id d c hv hl h.2
  | _, _, _, _, .afterSkipDe hp, b, id, d, c, hv, hl, h => hp.ber lax o b id d c hv hl h.2
theorem Spec.Variants.From.ber (lax : Bool) (o : HashOrder) : {ρ : Type} → {i : Nat} → {p : Place} → {vs : Variants ρ} → {v : ρ} → Variants.From u y i p vs v →
    (id : Bytes) → (d : Bool) → (raw c : Bytes) → IsBody d raw c → c.length ≤ isizeMax → vs.berVal lax o.order id d raw v → ∃ b : Bytes, nth BerRef.parse i c = .ok b ∧ FoundB (u.berVal lax o.order) y p b
  | _, _, _, _, _, .this hp, _, d, raw, c, hb, hl, h => by
    obtain ⟨-, c', hb', h⟩ := h
    obtain rfl := body_unique hb hb'
    exact hp.ber lax o c hl h
  | _, _, _, _, _, .other hp, id, d, raw, c, hb, hl, h => hp.ber lax o id d raw c hb hl h.2
end

end Bsn1
