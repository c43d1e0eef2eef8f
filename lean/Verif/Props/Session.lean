import Verif.Props.Messages
import Verif.Props.Ser
import Verif.Props.Cut
import Verif.Props.ReadBer
import Verif.Spec.Session
/-!
# C117: a connection that breaks

A sender writes values one after another to a writer that may fail; a receiver reads what arrives.
-/

namespace Bsn1
open Spec

variable {α σ : Type}

theorem octetsOf_cons (t : Ty α) (v : α) (vs : List α) : octetsOf t (v :: vs) = t.der v ++ octetsOf t vs := rfl

theorem octetsOf_append (t : Ty α) (a b : List α) : octetsOf t (a ++ b) = octetsOf t a ++ octetsOf t b := by simp [octetsOf]

theorem send_cases (m : Build) (t : Ty α) (hs : t.serializable) : ∀ (vs : List α) (script : List WEvent) (taken : Bytes),
    (∀ v ∈ vs, t.ok v ∧ (t.der v).length ≤ isizeMax) →
    (∃ used rest, script = used ++ rest ∧ used.all goesOn = true ∧ send m t vs ⟨script, taken⟩ = (.ok (), ⟨rest, taken ++ octetsOf t vs⟩)) ∨
    (∃ a v b p used e rest, vs = a ++ v :: b ∧ script = used ++ e :: rest ∧ used.all goesOn = true ∧ goesOn e = false ∧
      p <+: t.der v ∧ p.length < (t.der v).length ∧
      send m t vs ⟨script, taken⟩ = (.err (.io (reported e)), ⟨rest, taken ++ (octetsOf t a ++ p)⟩))
  | [], script, taken, _ => .inl ⟨[], script, rfl, rfl, by simp [send, octetsOf]⟩
  | v :: vs, script, taken, hv => by
    obtain ⟨hok, hfit⟩ := hv v (by simp)
    obtain ⟨hw1, hw2⟩ := writeDer_writes m (Ty.serializes m t hs v hok hfit) (fits_contents hfit)
    have hw2 : (writeDer m (Ty.ser m t) v).chunks.flatten = t.der v := hw2
    have key := C45_any_writer (writeDer m (Ty.ser m t) v) script taken
    rw [hw1, hw2] at key
    rcases key with ⟨used, rest, h1, h2, h3⟩ | ⟨used, e, rest, p, h1, h2, h3, h4, h5, h6⟩
    · rcases send_cases m t hs vs rest (taken ++ t.der v) fun x hx => hv x (by simp [hx]) with
        ⟨u, r, k1, k2, k3⟩ | ⟨a, x, b, p, u, e, r, k1, k2, k3, k4, k5, k6, k7⟩
      · refine .inl ⟨used ++ u, r, by rw [h1, k1]; simp, by simp [h2, k2], ?_⟩
        rw [send, h3]
        simp only
        rw [k3, octetsOf_cons, List.append_assoc]
      · refine .inr ⟨v :: a, x, b, p, used ++ u, e, r, by rw [k1]; rfl, by rw [h1, k2]; simp, by simp [h2, k3], k4, k5, k6, ?_⟩
        rw [send, h3]
        simp only
        rw [k7, octetsOf_cons]
        simp
    · refine .inr ⟨[], v, vs, p, used, e, rest, rfl, h1, h2, h3, h4, h5, ?_⟩
      rw [send, h6]
      simp [octetsOf]

/-- **C117.** The sender.  Whatever the writer answers: if the sender reports success, the writer has got all the values; if not, it reports the first failure of the
writer, which has got the values up to some of them, whole, and a part of the next. -/
theorem C117_sent (m : Build) (t : Ty α) (hs : t.serializable) (vs : List α) (hv : ∀ v ∈ vs, t.ok v ∧ (t.der v).length ≤ isizeMax) (script : List WEvent) :
    (∃ rest, send m t vs ⟨script, []⟩ = (.ok (), ⟨rest, octetsOf t vs⟩)) ∨
    (∃ a v b p used e rest, vs = a ++ v :: b ∧ script = used ++ e :: rest ∧ used.all goesOn = true ∧ goesOn e = false ∧
      p <+: t.der v ∧ p.length < (t.der v).length ∧ send m t vs ⟨script, []⟩ = (.err (.io (reported e)), ⟨rest, octetsOf t a ++ p⟩)) := by
  rcases send_cases m t hs vs script [] hv with ⟨u, r, -, -, h⟩ | h
  · exact .inl ⟨r, by simpa using h⟩
  · exact .inr (by simpa using h)

/-- Of the vectors `[5]` and `[200]`, the writer gets the first and two octets of the second. -/
example (m : Build) : send m (.vec (.int .u8)) [[5], [200]] ⟨[.accept 4, .accept 9, .accept 9, .accept 9, .accept 9, .fail .interrupted, .accept 1, .accept 1, .fail (.other 3)], []⟩ =
    (.err (.io (.other 3)), ⟨[], [0x30, 0x03, 0x02, 0x01, 0x05, 0x30, 0x04]⟩) := by
  cases m <;> decide +kernel

theorem sent_prefix (m : Build) (t : Ty α) (hs : t.serializable) (vs : List α) (hv : ∀ v ∈ vs, t.ok v ∧ (t.der v).length ≤ isizeMax) (script : List WEvent) :
    (send m t vs ⟨script, []⟩).2.taken <+: octetsOf t vs := by
  rcases C117_sent m t hs vs hv script with ⟨r, h⟩ | ⟨a, v, b, p, u, e, r, rfl, -, -, -, ⟨q, hq⟩, -, h⟩
  · rw [h]
  · rw [h, octetsOf_append, octetsOf_cons, ← hq]
    exact ⟨q ++ octetsOf t b, by simp⟩

theorem der_isDer {t : Ty α} (hs : t.serializable) {v : α} (hfit : (t.der v).length ≤ isizeMax) : IsDer (t.der v) :=
  ⟨_, _, (der_enc_fits hs hfit).2.2, (der_enc_fits hs hfit).1, rfl⟩

theorem der_isBer {t : Ty α} (hs : t.serializable) {v : α} (hfit : (t.der v).length ≤ isizeMax) : IsBer (t.der v) := by
  obtain ⟨id, c, h1, h2, h3⟩ := der_isDer hs hfit
  exact berValue_isBer (indef := false) ⟨h1, h2, h3⟩

theorem isDer_ber {v : Bytes} (h : IsDer v) : IsBer v := by
  obtain ⟨id, c, h1, h2, h3⟩ := h
  exact berValue_isBer (indef := false) ⟨h1, h2, h3⟩

/-- One answer of `read_ber` or `read_der` that is a value. -/
theorem read_ok {m : Build} {d : De α} {der : Bool} {s s' : Script} {w : α} (h : (if der then readDer m d s else readBer m d s) = (.ok w, s')) :
    ∃ p, IsBer p ∧ scriptData s = p ++ scriptData s' ∧ (if der then fromDer d p else fromBer d p) = .ok w := by
  cases der with
  | true =>
    simp only [if_true, readDer] at h ⊢
    split at h
    · next p s1 hp =>
      obtain ⟨h1, h2⟩ := C76_der_sound m s s1 p hp
      obtain ⟨h3, rfl⟩ := Prod.mk.inj h
      exact ⟨p, isDer_ber h1, h2, h3⟩
    all_goals cases h
  | false =>
    simp only [Bool.false_eq_true, if_false, readBer] at h ⊢
    split at h
    · next p s1 hp =>
      obtain ⟨h1, h2⟩ := C76_ber_sound m s s1 p hp
      obtain ⟨h3, rfl⟩ := Prod.mk.inj h
      exact ⟨p, h1, h2, h3⟩
    all_goals cases h

theorem restored (m' : Build) (o : HashOrder) (t : Ty α) (hs : t.serializable) (hd : t.deserializable) (hr : t.restorable) (v : α)
    (hok : t.ok v) (hc : t.convertible v) (hfit : (t.der v).length ≤ isizeMax) :
    ∃ w, fromDer (Ty.de m' o t) (t.der v) = .ok w ∧ fromBer (Ty.de m' o t) (t.der v) = .ok w ∧ t.restores v w := by
  obtain ⟨w, h1, h2⟩ := Ty.derVal_enc o t hs hr v hok hc hfit
  obtain ⟨hl, hl', hid⟩ := der_enc_fits hs hfit
  refine ⟨w, ?_, ?_, h2⟩
  · rw [Ty.der, tlvOf, fromDer_tlv _ hid hl]
    exact (Ty.fromDer_iff m' o t hd _ _ _).mpr h1
  · rw [Ty.der, tlvOf, fromBer_value (indef := false) _ ⟨hid, hl, rfl⟩]
    exact (Ty.fromBer_iff m' o t hd _ false _ _ hl').mpr (Ty.derVal_berVal _ _ t _ _ _ h1)

theorem receive_sound (m' : Build) (o : HashOrder) (t : Ty α) (ht : t.serializable ∧ t.deserializable ∧ t.restorable) (der : Bool) :
    ∀ (n : Nat) (vs : List α) (s : Script), (∀ v ∈ vs, t.ok v ∧ t.convertible v ∧ (t.der v).length ≤ isizeMax) → scriptData s <+: octetsOf t vs →
    ∃ k, k ≤ vs.length ∧
      List.Forall₂ t.restores (vs.take k) (receive (fun s => if der then readDer m' (Ty.de m' o t) s else readBer m' (Ty.de m' o t) s) n s).1 ∧
      octetsOf t (vs.take k) <+: scriptData s
  | 0, vs, s, _, _ => ⟨0, by omega, .nil, ⟨scriptData s, rfl⟩⟩
  | n + 1, vs, s, hv, hp => by
    rcases hx : (if der then readDer m' (Ty.de m' o t) s else readBer m' (Ty.de m' o t) s) with ⟨r, s'⟩
    have stop : (∀ w, r ≠ .ok w) → (receive (fun s => if der then readDer m' (Ty.de m' o t) s else readBer m' (Ty.de m' o t) s) (n + 1) s).1 = [] := by
      intro hr
      rw [receive, hx]
      cases r with
      | ok w => exact absurd rfl (hr w)
      | _ => rfl
    cases r with
    | ok w =>
      obtain ⟨p, h1, h2, h3⟩ := read_ok hx
      cases vs with
      | nil =>
        obtain ⟨q, hq⟩ := hp
        rw [h2] at hq
        have : p = [] := by
          have := congrArg List.length hq
          simp only [octetsOf, List.map_nil, List.flatten_nil, List.length_nil, List.length_append] at this
          exact List.eq_nil_of_length_eq_zero (by omega)
        exact absurd this (IsBer.ne_nil h1)
      | cons v vs =>
        obtain ⟨hok, hc, hfit⟩ := hv v (by simp)
        obtain ⟨q, hq⟩ := hp
        rw [h2, octetsOf_cons, List.append_assoc] at hq
        obtain ⟨rfl, hrest⟩ := C30_ber_prefix_free p (t.der v) _ _ h1 (der_isBer ht.1 hfit) hq
        obtain ⟨w', k1, k2, k3⟩ := restored m' o t ht.1 ht.2.1 ht.2.2 v hok hc hfit
        have hw : w' = w := by
          cases der with
          | true => rw [if_pos rfl, k1] at h3; exact Res.ok.inj h3
          | false => simp only [Bool.false_eq_true, if_false] at h3; rw [k2] at h3; exact Res.ok.inj h3
        subst hw
        obtain ⟨k, i1, i2, i3⟩ := receive_sound m' o t ht der n vs s' (fun x hx => hv x (by simp [hx])) ⟨q, hrest⟩
        refine ⟨k + 1, by simpa using i1, ?_, ?_⟩
        · rw [receive, hx]
          exact .cons k3 i2
        · rw [h2, List.take_succ_cons, octetsOf_cons]
          exact (List.prefix_append_right_inj _).mpr i3
    | _ => exact ⟨0, by omega, by rw [stop (by simp)]; exact .nil, ⟨scriptData s, rfl⟩⟩

/-- **C117.** No wrong value.  The sender's writer fails at any octet or not at all, the octets it has taken arrive up to any point, and in any pieces, with any failures
in between: the values the receiver gets until the first answer that is not a value are the first values sent, with nothing left out or added, and only
such as have arrived whole.  The receiver may use `read_ber` or `read_der`. -/
theorem C117_no_wrong_value (m m' : Build) (o : HashOrder) (t : Ty α) (ht : t.serializable ∧ t.deserializable ∧ t.restorable) (vs : List α)
    (hv : ∀ v ∈ vs, t.ok v ∧ t.convertible v ∧ (t.der v).length ≤ isizeMax) (script : List WEvent) (s : Script)
    (hs : scriptData s <+: (send m t vs ⟨script, []⟩).2.taken) (n : Nat) (der : Bool) :
    ∃ k, k ≤ vs.length ∧
      List.Forall₂ t.restores (vs.take k) (receive (fun s => if der then readDer m' (Ty.de m' o t) s else readBer m' (Ty.de m' o t) s) n s).1 ∧
      octetsOf t (vs.take k) <+: scriptData s :=
  receive_sound m' o t ht der n vs s hv (hs.trans (sent_prefix m t ht.1 vs (fun v h => ⟨(hv v h).1, (hv v h).2.2⟩) script))

/-- Two vectors are sent, the second arrives up to its last octet but one, and a failure is in between. -/
example (m : Build) (o : HashOrder) : ∃ k, k ≤ 2 ∧ List.Forall₂ (Ty.vec (.int .u8)).restores (([[5], [200]] : List (List Int)).take k)
      (receive (fun s => if false then readDer m (Ty.de m o (.vec (.int .u8))) s else readBer m (Ty.de m o (.vec (.int .u8))) s) 5
        ([.chunk [0x30, 0x03], .chunk [0x02, 0x01, 0x05, 0x30], .fail (.other 4), .chunk [0x04, 0x02, 0x02, 0x00]] : Script)).1 := by
  have h : ∀ x : Int, 0 ≤ x → x ≤ 255 → IntTy.InRange .u8 x := by
    intro x h1 h2
    simp [IntTy.InRange, IntTy.minVal, IntTy.maxVal, IntTy.signed, IntTy.size]
    omega
  obtain ⟨k, h1, h2, -⟩ := C117_no_wrong_value m m o (.vec (.int .u8)) ⟨trivial, trivial, trivial⟩ [[5], [200]]
    (by
      simp only [List.forall_mem_cons, List.not_mem_nil, false_imp_iff, implies_true, and_true]
      exact ⟨⟨by simp [Ty.ok, h], fun _ _ => trivial, by decide +kernel⟩, by simp [Ty.ok, h], fun _ _ => trivial, by decide +kernel⟩)
    [] [.chunk [0x30, 0x03], .chunk [0x02, 0x01, 0x05, 0x30], .fail (.other 4), .chunk [0x04, 0x02, 0x02, 0x00]]
    (by cases m <;> exact ⟨[0xc8], by decide +kernel⟩) 5 false
  exact ⟨k, h1, h2⟩

theorem tooLong_append {l : Nat} {p : Bytes} (h : TooLong l p) (t : Bytes) : TooLong l (p ++ t) := by
  obtain ⟨a, d, id, n, q, h1, h2, h3, rfl, h5⟩ := h
  exact ⟨a, d, id, n, q ++ t, h1, h2, h3, by simp, h5⟩

/-- A value cut short is an error for `read_ber`. -/
theorem readBer_cut [Reader σ] (R : σ → Bytes → Prop) (hd : Delivers R) (m : Build) (d : De α) {v p q : Bytes} (hv : IsBer v) (hl : v.length ≤ isizeMax)
    (hq : q ≠ []) (h : v = p ++ q) {s : σ} (hs : R s p) :
    (readBer m d s).1 = .err .unterminatedBytes ∨ (readBer m d s).1 = .err (.io .unexpectedEof) := by
  have hlp : p.length ≤ isizeMax := by rw [h, List.length_append] at hl; omega
  have hc := C71_parse_ber d v hv p q hq h hlp
  obtain ⟨h1, h2⟩ := C51_read_ber_exact R hd m d s p hs hlp
  by_cases ht : Truncated p
  · right
    refine ((h2 ht).2.1 fun hlong => ?_).1
    have hb := tooLong_append hlong q
    rw [← h] at hb
    have hp := (C23_ber_parse_panic_iff delivers_slice m (s := v) rfl hl).1.2 hb
    obtain ⟨s', hok, -⟩ := C31_ber_parse_position _ delivers_slice m v v v [] rfl hl (by
      have := BerRef_parse_ok (rest := []) hv (by simpa using hl)
      simpa using this)
    rw [hok] at hp
    cases hp
  · left
    rw [(h1 ht).1, hc]

theorem receive_all [Reader σ] (R : σ → Bytes → Prop) (hd : Delivers R) (m' : Build) (o : HashOrder) (t : Ty α)
    (ht : t.serializable ∧ t.deserializable ∧ t.restorable) :
    ∀ (a : List α) (p : Bytes) (n : Nat) (s : σ), (∀ v ∈ a, t.ok v ∧ t.convertible v ∧ (t.der v).length ≤ isizeMax) →
      R s (octetsOf t a ++ p) → a.length < n →
      (∀ s, R s p → (readBer m' (Ty.de m' o t) s).1 = .err .unterminatedBytes ∨ (readBer m' (Ty.de m' o t) s).1 = .err (.io .unexpectedEof)) →
      List.Forall₂ t.restores a (receive (readBer m' (Ty.de m' o t)) n s).1 ∧
      ((receive (readBer m' (Ty.de m' o t)) n s).2 = some (.err .unterminatedBytes) ∨
        (receive (readBer m' (Ty.de m' o t)) n s).2 = some (.err (.io .unexpectedEof)))
  | [], p, n + 1, s, _, hs, _, he => by
    have := he s hs
    rw [receive]
    rcases hx : readBer m' (Ty.de m' o t) s with ⟨r, s'⟩
    rw [hx] at this
    rcases this with rfl | rfl
    · exact ⟨.nil, .inl rfl⟩
    · exact ⟨.nil, .inr rfl⟩
  | v :: a, p, n + 1, s, hv, hs, hn, he => by
    obtain ⟨hok, hc, hfit⟩ := hv v (by simp)
    obtain ⟨w, -, k2, k3⟩ := restored m' o t ht.1 ht.2.1 ht.2.2 v hok hc hfit
    rw [octetsOf_cons, List.append_assoc] at hs
    obtain ⟨s', h5, h6⟩ := berParse_delivers hd m' (der_isBer ht.1 hfit) hfit hs
    have hr : readBer m' (Ty.de m' o t) s = (.ok w, s') := by rw [readBer, h5]; simp only [k2]
    obtain ⟨i1, i2⟩ := receive_all R hd m' o t ht a p n s' (fun x hx => hv x (by simp [hx])) h6 (by simpa using hn) he
    rw [receive, hr]
    exact ⟨.cons k3 i1, i2⟩

/-- **C117.** Nothing is lost.  Octets of the values sent arrive up to any point, in any pieces: with `read_ber` the receiver gets all the values that have
arrived whole, then one of two errors, which say that octets are missing. -/
theorem C117_nothing_lost [Reader σ] (R : σ → Bytes → Prop) (hd : Delivers R) (m m' : Build) (o : HashOrder) (t : Ty α)
    (ht : t.serializable ∧ t.deserializable ∧ t.restorable) (vs : List α) (hv : ∀ v ∈ vs, t.ok v ∧ t.convertible v ∧ (t.der v).length ≤ isizeMax)
    (script : List WEvent) (bs : Bytes) (hb : bs <+: (send m t vs ⟨script, []⟩).2.taken) (s : σ) (hs : R s bs) (n : Nat)
    (hn : vs.length < n) :
    ∃ k, k ≤ vs.length ∧ octetsOf t (vs.take k) <+: bs ∧ (∀ j, j ≤ vs.length → octetsOf t (vs.take j) <+: bs → j ≤ k) ∧
      List.Forall₂ t.restores (vs.take k) (receive (readBer m' (Ty.de m' o t)) n s).1 ∧
      ((receive (readBer m' (Ty.de m' o t)) n s).2 = some (.err .unterminatedBytes) ∨
        (receive (readBer m' (Ty.de m' o t)) n s).2 = some (.err (.io .unexpectedEof))) := by
  have hb' := hb.trans (sent_prefix m t ht.1 vs (fun v h => ⟨(hv v h).1, (hv v h).2.2⟩) script)
  -- the values that have arrived whole
  have split : ∀ (vs : List α) (bs : Bytes), (∀ v ∈ vs, t.ok v ∧ t.convertible v ∧ (t.der v).length ≤ isizeMax) → bs <+: octetsOf t vs →
      ∃ k p, k ≤ vs.length ∧ bs = octetsOf t (vs.take k) ++ p ∧ (p = [] ∧ k = vs.length ∨ ∃ v ∈ vs, ∃ q, q ≠ [] ∧ t.der v = p ++ q) ∧
        ∀ j, j ≤ vs.length → octetsOf t (vs.take j) <+: bs → j ≤ k := by
    intro vs
    induction vs with
    | nil =>
      intro bs _ h
      obtain rfl : bs = [] := by simpa [octetsOf] using h
      exact ⟨0, [], by simp, rfl, .inl ⟨rfl, rfl⟩, fun j hj _ => by simpa using hj⟩
    | cons v vs ih =>
      intro bs hv h
      rw [octetsOf_cons] at h
      have hne : t.der v ≠ [] := IsBer.ne_nil (der_isBer ht.1 (hv v (by simp)).2.2)
      by_cases hle : (t.der v).length ≤ bs.length
      · obtain ⟨r, rfl⟩ := List.prefix_of_prefix_length_le (List.prefix_append (t.der v) (octetsOf t vs)) h hle
        obtain ⟨k, p, h1, rfl, h3, h4⟩ := ih r (fun x hx => hv x (by simp [hx])) ((List.prefix_append_right_inj _).mp h)
        refine ⟨k + 1, p, by simpa using h1, by simp [octetsOf_cons], ?_, fun j hj hp => ?_⟩
        · rcases h3 with ⟨h3, h5⟩ | ⟨x, hx, q, h5, h6⟩
          · exact .inl ⟨h3, by simp [h5]⟩
          · exact .inr ⟨x, by simp [hx], q, h5, h6⟩
        · cases j with
          | zero => omega
          | succ j =>
            rw [List.take_succ_cons, octetsOf_cons] at hp
            have := h4 j (by simpa using hj) ((List.prefix_append_right_inj _).mp hp)
            omega
      · obtain ⟨q, hq⟩ := List.prefix_of_prefix_length_le h (List.prefix_append (t.der v) (octetsOf t vs)) (by omega)
        refine ⟨0, bs, by omega, by simp [octetsOf], .inr ⟨v, by simp, q, ?_, hq.symm⟩, fun j hj hp => ?_⟩
        · rintro rfl
          rw [List.append_nil] at hq
          rw [hq] at hle
          exact hle (le_refl _)
        · cases j with
          | zero => omega
          | succ j =>
            rw [List.take_succ_cons, octetsOf_cons] at hp
            have := hp.length_le
            rw [List.length_append] at this
            omega
  obtain ⟨k, p, h1, rfl, h3, h4⟩ := split vs bs hv hb'
  have cut : ∀ s, R s p → (readBer m' (Ty.de m' o t) s).1 = .err .unterminatedBytes ∨ (readBer m' (Ty.de m' o t) s).1 = .err (.io .unexpectedEof) := by
    intro s hs
    rcases h3 with ⟨rfl, -⟩ | ⟨v, hm, q, hq, he⟩
    · left
      have := (C104_end R hd m' (Ty.de m' o t) 1 s hs).2.2.1
      simpa [calls] using this
    · exact readBer_cut R hd m' _ (der_isBer ht.1 (hv v hm).2.2) (hv v hm).2.2 hq he hs
  obtain ⟨i1, i2⟩ := receive_all R hd m' o t ht (vs.take k) p n s (fun v h => hv v (List.mem_of_mem_take h)) hs
    (by rw [List.length_take]; omega) cut
  exact ⟨k, h1, ⟨p, rfl⟩, h4, i1, i2⟩

/-- The first vector arrives, and the second up to its last octet but one. -/
example (m : Build) (o : HashOrder) : (receive (readBer m (Ty.de m o (.vec (.int .u8)))) 5 ([0x30, 0x03, 0x02, 0x01, 0x05, 0x30, 0x04, 0x02, 0x02, 0x00] : Bytes)).1.length = 1 := by
  have h : ∀ x : Int, 0 ≤ x → x ≤ 255 → IntTy.InRange .u8 x := by
    intro x h1 h2
    simp [IntTy.InRange, IntTy.minVal, IntTy.maxVal, IntTy.signed, IntTy.size]
    omega
  obtain ⟨k, h1, h2, h3, h4, -⟩ := C117_nothing_lost (fun s bs => s = bs) delivers_slice m m o (.vec (.int .u8)) ⟨trivial, trivial, trivial⟩ [[5], [200]]
    (by
      simp only [List.forall_mem_cons, List.not_mem_nil, false_imp_iff, implies_true, and_true]
      exact ⟨⟨by simp [Ty.ok, h], fun _ _ => trivial, by decide +kernel⟩, by simp [Ty.ok, h], fun _ _ => trivial, by decide +kernel⟩)
    [] [0x30, 0x03, 0x02, 0x01, 0x05, 0x30, 0x04, 0x02, 0x02, 0x00]
    (by cases m <;> exact ⟨[0xc8], by decide +kernel⟩) _ rfl 5 (by decide)
  have hk : 1 ≤ k := h3 1 (by decide) ⟨[0x30, 0x04, 0x02, 0x02, 0x00], by decide +kernel⟩
  have hk2 : k ≠ 2 := by
    rintro rfl
    have := h2.length_le
    revert this
    decide +kernel
  have := h4.length_eq
  rw [List.length_take] at this
  simp at h1 this
  omega

end Bsn1
