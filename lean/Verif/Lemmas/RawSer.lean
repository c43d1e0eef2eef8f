import Verif.Model.RawSer
import Verif.Lemmas.RawExact
import Verif.Lemmas.Ser
/-!
# `to_der` on real storage
-/

namespace Bsn1.Raw
open Bsn1.Buf Bsn1.Spec

variable {I : Impl} {Rep : I.B → Heap → List Cell → Nat → Option Nat → Prop} {m : Build} {al : Allocator} {init : Nat}

theorem Has.near (hc : Correct I Rep) {b : I.B} {h h' : Heap} {v : Bytes} {fp : Option Nat} (hb : Has Rep b h v fp)
    (e : ∀ p, fp = some p → h'.blocks p = h.blocks p) : Has Rep b h' v fp := by
  obtain ⟨R, hr⟩ := hb
  exact ⟨R, hc.near hr e⟩

theorem has_len (hc : Correct I Rep) {b : I.B} {h : Heap} {v : Bytes} {fp : Option Nat} (hb : Has Rep b h v fp) : I.len b = v.length := by
  obtain ⟨R, hr⟩ := hb
  exact hc.len hr

theorem assoc_run {α β γ : Type} (x : M α) (f : α → M β) (g : β → M γ) : (x >>= f) >>= g = x >>= fun a => f a >>= g := by
  funext h
  change (match (match x h with | .ok a h => f a h | .panic => .panic | .abort => .abort | .ub => .ub : Out β) with
    | .ok a h => g a h | .panic => .panic | .abort => .abort | .ub => .ub : Out γ) =
    (match x h with | .ok a h => (f a >>= g) h | .panic => .panic | .abort => .abort | .ub => .ub : Out γ)
  cases x h <;> rfl

theorem step_write (hc : Correct I Rep) (hv : al.Valid) {b : I.B} {h : Heap} {v c : Bytes} {fp : Option Nat} (hb : Has Rep b h v fp)
    (hn : v.length + c.length ≤ isizeMax) : Step (I.write m al b c) h fp (fun b h fp => Has Rep b h (v ++ c) fp) := by
  obtain ⟨R, hr⟩ := hb
  rw [Impl.write]
  refine (step_reserve hc hv hr hn).bind ?_
  rintro b h fp ⟨s, hr, hs1, hs2, hs3⟩
  refine (step_extend hc hr hs1).mono ?_
  intro b h fp hr
  have hl : ((v ++ c).map some).length = v.length + c.length := by simp
  refine Has.of_take hr ?_ ?_
  · rw [← List.length_map (as := c) (f := some), take_patch _ _ _ (by omega), hs3, take_of_append (by simp)]
    simp
  · rw [patch_length _ _ _ (by simpa using hs1)]
    exact hs1

theorem step_writeChunks (hc : Correct I Rep) (hv : al.Valid) : ∀ (cs : List Bytes) (b : I.B) (h : Heap) (v : Bytes) (fp : Option Nat),
    Has Rep b h v fp → v.length + cs.flatten.length ≤ isizeMax →
    Step (writeChunks I m al cs b) h fp (fun b h fp => Has Rep b h (v ++ cs.flatten) fp)
  | [], b, h, v, fp, hb, hn => .pure (by simpa using hb)
  | c :: r, b, h, v, fp, hb, hn => by
    simp only [List.flatten_cons, List.length_append] at hn
    rw [writeChunks]
    refine Step.iteBind (Q := fun b h fp => Has Rep b h (v ++ c) fp) ?_ ?_
    · refine .ite (fun he => ?_) (fun _ => step_write hc hv hb (by omega))
      rw [List.isEmpty_iff] at he
      subst he
      exact .pure (by simpa using hb)
    · intro b h fp hb
      have := step_writeChunks hc hv r b h (v ++ c) fp hb (by rw [List.length_append]; omega)
      simpa using this

/-- The result on storage is the one on octets, or memory ran out; and in the end there is just the memory `base` and that of the result. -/
def Renders (Rep : I.B → Heap → List Cell → Nat → Option Nat → Prop) (base : Blocks) (x : M (Except Error I.B)) (h : Heap) (r : Res Bytes) : Prop :=
  x h = .abort ∨ match r with
    | .ok d => ∃ b h' fp, x h = .ok (.ok b) h' ∧ Has Rep b h' d fp ∧ erase h'.blocks fp = base
    | .err e => ∃ h', x h = .ok (.error e) h' ∧ h'.blocks = base
    | .panic => x h = .panic
    | .ub => x h = .ub

theorem Renders.of_eq {base : Blocks} {x y : M (Except Error I.B)} {h h' : Heap} {r : Res Bytes} (e : x h = y h') (hy : Renders Rep base y h' r) :
    Renders Rep base x h r := by
  unfold Renders at hy ⊢
  rw [e]
  exact hy

theorem Renders.step {β : Type} {base : Blocks} {x : M β} {f : β → M (Except Error I.B)} {h : Heap} {fp : Option Nat}
    {Q : β → Heap → Option Nat → Prop} {r : Res Bytes} (hx : Step x h fp Q)
    (hf : ∀ a h' fp', Q a h' fp' → Frame h h' fp fp' → Renders Rep base (f a) h' r) : Renders Rep base (x >>= f) h r := by
  rcases hx with e | ⟨a, h', fp', e, q, fr⟩
  · exact .inl (bind_abort e)
  · exact .of_eq (bind_ok e) (hf a h' fp' q fr)

theorem Renders.same {β : Type} {base : Blocks} {x : M β} {f : β → M (Except Error I.B)} {h h' : Heap} {a : β} {r : Res Bytes} (e : x h = .ok a h')
    (hf : Renders Rep base (f a) h' r) : Renders Rep base (x >>= f) h r := .of_eq (bind_ok e) hf

theorem Renders.panic {base : Blocks} {x : M (Except Error I.B)} {h : Heap} (e : x h = .panic) : Renders Rep base x h .panic := .inr e
theorem Renders.ub {base : Blocks} {x : M (Except Error I.B)} {h : Heap} (e : x h = .ub) : Renders Rep base x h .ub := .inr e

/-- Beside the block of the buffer there are `base` and perhaps the other buffer with octets `cv`. -/
def Beside (Rep : I.B → Heap → List Cell → Nat → Option Nat → Prop) (base : Blocks) (h : Heap) (fp : Option Nat) (cont : Option I.B)
    (cv : Bytes) : Prop :=
  match cont with
  | none => erase h.blocks fp = base
  | some c => ∃ fpc, Has Rep c h cv fpc ∧ erase (erase h.blocks fp) fpc = base ∧ ∀ p, fpc = some p → fp ≠ some p

theorem erase_comm (bl : Blocks) (a b : Option Nat) : erase (erase bl a) b = erase (erase bl b) a := by
  funext q
  simp only [erase]
  split <;> split <;> rfl

theorem erase_of_ne {bl : Blocks} {fp : Option Nat} {p : Nat} (h : fp ≠ some p) : erase bl fp p = bl p := by
  simp only [erase]
  rw [if_neg (fun e => h e.symm)]

theorem Frame.keep {h h' : Heap} {fp fp' : Option Nat} (fr : Frame h h' fp fp') {p : Nat} {s : List Cell} (hp : h.blocks p = some s)
    (hne : fp ≠ some p) : fp' ≠ some p ∧ h'.blocks p = some s := by
  have := congrFun fr p
  rw [erase_of_ne hne, hp] at this
  simp only [erase] at this
  split at this
  · simp at this
  · exact ⟨fun e => ‹¬ _› e.symm, this.symm⟩

theorem has_live (hc : Correct I Rep) {b : I.B} {h : Heap} {v : Bytes} {p : Nat} (hb : Has Rep b h v (some p)) : ∃ s, h.blocks p = some s := by
  obtain ⟨R, hr⟩ := hb
  exact ⟨_, hc.live hr⟩

theorem Beside.frame (hc : Correct I Rep) {base : Blocks} {h h' : Heap} {fp fp' : Option Nat} {cont : Option I.B} {cv : Bytes}
    (hb : Beside Rep base h fp cont cv) (fr : Frame h h' fp fp') : Beside Rep base h' fp' cont cv := by
  cases cont with
  | none => exact fr.symm.trans hb
  | some c =>
    obtain ⟨fpc, h1, h2, h3⟩ := hb
    refine ⟨fpc, h1.near hc ?_, by rw [← h2]; exact congrArg (erase · fpc) fr.symm, ?_⟩
    · rintro p rfl
      obtain ⟨s, hs⟩ := has_live hc h1
      rw [hs, (Frame.keep fr hs (h3 p rfl)).2]
    · rintro p rfl
      obtain ⟨s, hs⟩ := has_live hc h1
      exact (Frame.keep fr hs (h3 p rfl)).1

theorem Beside.drop (hc : Correct I Rep) {base : Blocks} {h : Heap} {fp : Option Nat} {cont : Option I.B} {cv : Bytes}
    (hb : Beside Rep base h fp cont cv) : ∃ h', dropOption I cont h = .ok () h' ∧ erase h'.blocks fp = base ∧
      ∀ p s, fp = some p → h.blocks p = some s → h'.blocks p = some s := by
  cases cont with
  | none => exact ⟨h, rfl, hb, fun _ _ _ h => h⟩
  | some c =>
    obtain ⟨fpc, ⟨R, hr⟩, h2, h3⟩ := hb
    obtain ⟨h', e, fr⟩ := hc.drop hr
    refine ⟨h', e, ?_, ?_⟩
    · have : erase h.blocks fpc = h'.blocks := by rw [show erase h.blocks fpc = erase h'.blocks none from fr, erase_none]
      rw [← this, ← h2, erase_comm]
    · rintro p s rfl hp
      exact (Frame.keep fr hp (fun e => h3 p e rfl)).2

theorem renders_error (hc : Correct I Rep) {base : Blocks} {h : Heap} {cont : Option I.B} {cv : Bytes} (hb : Beside Rep base h none cont cv)
    (e : Error) : Renders Rep base (dropOption I cont >>= fun _ => Pure.pure (.error e)) h (.err e) := by
  obtain ⟨h', e1, e2, _⟩ := hb.drop hc
  refine .same e1 (.inr ⟨h', rfl, ?_⟩)
  rwa [erase_none] at e2

/-- A method of the implementation runs. -/
theorem renders_runW (hc : Correct I Rep) (hv : al.Valid) {base : Blocks} {w : W Unit} {b : I.B} {h : Heap} {v : Bytes} {fp : Option Nat}
    (hb : Has Rep b h v fp) (hn : v.length + w.chunks.flatten.length ≤ isizeMax) {f : Except Error Unit × I.B → M (Except Error I.B)}
    {r : Bytes → Res Bytes}
    (hok : w.res = .ok () → ∀ b h' fp', Has Rep b h' (v ++ w.chunks.flatten) fp' → Frame h h' fp fp' →
      Renders Rep base (f (.ok (), b)) h' (r (v ++ w.chunks.flatten)))
    (herr : ∀ e b h' fp', Has Rep b h' (v ++ w.chunks.flatten) fp' → Frame h h' fp fp' → Renders Rep base (f (.error e, b)) h' (.err e)) :
    Renders Rep base (runW I m al w b >>= f) h (w.toBuffer m v >>= fun p => r p.2) := by
  have hp := writeBuffer_ok m w.chunks v hn
  rw [W.toBuffer, hp, Res.bind_ok]
  have hs := step_writeChunks (m := m) hc hv w.chunks b h v fp hb hn
  have ea : ∀ f : Except Error Unit × I.B → M (Except Error I.B), (runW I m al w b >>= f) = writeChunks I m al w.chunks b >>= fun b =>
      ((match w.res with
        | .ok a => Pure.pure (.ok a, b)
        | .err e => Pure.pure (.error e, b)
        | .panic => M.panic
        | .ub => M.ub) : M (Except Error Unit × I.B)) >>= f := by
    intro f
    rw [runW, assoc_run]
    congr 1
  rw [ea]
  refine .step hs fun b' h' fp' hb' fr => ?_
  rcases hres : w.res with a | e | _ | _
  · exact hok hres b' h' fp' hb' fr
  · exact herr e b' h' fp' hb' fr
  · exact .panic rfl
  · exact .ub rfl

/-- The end of `to_der` on octets. -/
def derEnd {α : Type} (m : Build) (s : Ser α) (value : α) (contents : Option Bytes) (buffer : Bytes) : Res Bytes :=
  match contents with
  | some contents => writeBuffer m [contents] buffer
  | none => (s.writeDerContents value).toBuffer m buffer >>= fun p => .ok p.2

/-- The rest of `to_der` on octets. -/
def derRest {α : Type} (m : Build) (s : Ser α) (value : α) (contentsLen : Nat) (contents : Option Bytes) : Res Bytes :=
  (Length.definite contentsLen).toBytes >>= fun length =>
  s.idLen value >>= fun idLen =>
  reserveDer m idLen length.length contentsLen >>= fun _ =>
  (s.writeId value).toBuffer m [] >>= fun p =>
  writeBuffer m [length] p.2 >>= fun buffer => derEnd m s value contents buffer

theorem add_run {m : Build} {a b : Nat} (h : Heap) : (∃ n, n < usizeSize ∧ uadd m a b = .ok n ∧ usizeAdd m a b h = .ok n h) ∨
    (uadd m a b = .panic ∧ usizeAdd m a b h = .panic) := by
  unfold uadd usizeAdd
  by_cases hl : a + b < usizeSize
  · rw [if_pos hl, if_pos hl]
    exact .inl ⟨_, hl, rfl, rfl⟩
  · rw [if_neg hl, if_neg hl]
    cases m with
    | debug => exact .inr ⟨rfl, rfl⟩
    | release => exact .inl ⟨_, Nat.mod_lt _ (by rw [usizeSize_eq]; norm_num), rfl, rfl⟩

theorem renders_reserveHint (hc : Correct I Rep) (hi : Inline I Rep init) (hv : al.Valid) {base : Blocks} {h : Heap} {idLen : Option Nat}
    {lengthLen contentsLen : Nat} {f : I.B → M (Except Error I.B)} {r : Res Bytes}
    (hok : ∀ b h' fp', Has Rep b h' [] fp' → Frame h h' none fp' → Renders Rep base (f b) h' r) :
    Renders Rep base (reserveHint I m al idLen lengthLen contentsLen I.new >>= f) h (reserveDer m idLen lengthLen contentsLen >>= fun _ => r) := by
  have hn0 := has_new hc h
  cases idLen with
  | none => exact hok I.new h none hn0 (.refl _ _)
  | some idLen =>
    rw [reserveHint, reserveDer]
    simp only [assoc_run]
    rcases add_run (m := m) (a := idLen) (b := lengthLen) h with ⟨t, ht, e1, e2⟩ | ⟨e1, e2⟩
    · rw [e1, Res.bind_ok]
      refine .same e2 ?_
      rcases add_run (m := m) (a := t) (b := contentsLen) h with ⟨n, hn, e1, e2⟩ | ⟨e1, e2⟩
      · rw [e1, Res.bind_ok]
        refine .same e2 ?_
        obtain ⟨R, hr⟩ := hn0
        by_cases hle : n ≤ isizeMax
        · rw [bufReserve_ok (by omega), Res.bind_ok]
          refine .step (step_reserve hc hv hr (by simpa using hle)) ?_
          rintro b h' fp' ⟨s', hr', h1, h2, h3⟩ fr
          refine hok b h' fp' ⟨s', by simpa using hr'⟩ fr
        · rw [bufReserve_panic (by omega) (by omega)]
          refine .panic (bind_panic ?_)
          rw [hi.beyond m al hr n hn (by simpa using hle), if_neg (by simp [-List.length_flatten]; omega), if_pos rfl]
      · rw [e1]
        exact .panic (bind_panic e2)
    · rw [e1]
      exact .panic (bind_panic e2)

theorem renders_derFrom (hc : Correct I Rep) (hi : Inline I Rep init) (hv : al.Valid) {α : Type} (s : Ser α) (value : α) {base : Blocks} {h : Heap}
    {n : Nat} (hn : n < 2 ^ 64) {cont : Option I.B} {cv : Bytes} (hb : Beside Rep base h none cont cv)
    (hl : (s.writeId value).chunks.flatten.length + 9 + (match cont with
      | some _ => cv.length
      | none => (s.writeDerContents value).chunks.flatten.length) ≤ isizeMax) :
    Renders Rep base (derFrom I m al s value n cont) h (derRest m s value n (cont.map fun _ => cv)) := by
  have h9 := lenOctets_length_le hn
  rw [derFrom, derRest, toBytes_definite hn, Res.bind_ok]
  refine .same rfl ?_
  rcases hid : s.idLen value with idLen | e | _ | _
  · rw [Res.bind_ok]
    refine renders_reserveHint hc hi hv fun b h1 fp1 hb1 fr1 => ?_
    have hbes1 := hb.frame hc fr1
    refine renders_runW hc hv (w := s.writeId value) hb1 (by simp [-List.length_flatten]; omega) (r := fun buffer => writeBuffer m [lenOctets n] buffer >>= fun buffer => derEnd m s value (cont.map fun _ => cv) buffer) ?_ ?_
    · intro _ b h2 fp2 hb2 fr2
      have hbes2 := hbes1.frame hc fr2
      rw [List.nil_append] at hb2 ⊢
      rw [writeBuffer_ok m _ _ (by simp [-List.length_flatten]; omega), Res.bind_ok]
      refine .step (step_writeChunks hc hv [lenOctets n] b h2 _ fp2 hb2 (by simp [-List.length_flatten]; omega)) fun b h3 fp3 hb3 fr3 => ?_
      have hbes3 := hbes2.frame hc fr3
      cases cont with
      | some c =>
        simp only [] at hl
        have hbes3' := hbes3
        obtain ⟨fpc, ⟨R, hr⟩, e1, e2⟩ := hbes3'
        rw [finishDer, Option.map_some, derEnd]
        refine .same (hc.cells hr) ?_
        rw [take_of_append (by simp)]
        refine .same (assumeInit_ok cv h3) ?_
        rw [writeBuffer_ok m _ _ (by simp [-List.length_flatten]; omega)]
        refine .step (step_writeChunks hc hv [cv] b h3 _ fp3 hb3 (by simp [-List.length_flatten]; omega)) fun b h4 fp4 hb4 fr4 => ?_
        have hbes4 := hbes3.frame hc fr4
        obtain ⟨h5, e3, e4, e5⟩ := hbes4.drop hc
        refine .same e3 (.inr ⟨b, h5, fp4, rfl, hb4.near hc ?_, e4⟩)
        rintro p rfl
        obtain ⟨s', hs'⟩ := has_live hc hb4
        rw [e5 p s' rfl hs', hs']
      | none =>
        simp only [] at hl
        rw [finishDer, Option.map_none, derEnd]
        refine renders_runW hc hv (w := s.writeDerContents value) hb3 (by simp [-List.length_flatten]; omega) (r := fun b => .ok b) ?_ ?_
        · intro _ b h4 fp4 hb4 fr4
          exact .inr ⟨b, h4, fp4, rfl, hb4, (hbes3.frame hc fr4)⟩
        · intro e b h4 fp4 hb4 fr4
          have hbes4 := hbes3.frame hc fr4
          obtain ⟨R, hr⟩ := hb4
          obtain ⟨h5, e5, fr5⟩ := hc.drop hr
          refine .same e5 (.inr ⟨h5, rfl, ?_⟩)
          have := hbes4.frame hc fr5
          simpa [Beside, erase_none] using this
    · intro e b h2 fp2 hb2 fr2
      have hbes2 := hbes1.frame hc fr2
      obtain ⟨R, hr⟩ := hb2
      obtain ⟨h3, e3, fr3⟩ := hc.drop hr
      exact .same e3 (renders_error hc (hbes2.frame hc fr3) e)
  · exact renders_error hc hb e
  · exact .panic rfl
  · exact .ub rfl

theorem renders_toDer (hc : Correct I Rep) (hi : Inline I Rep init) (hv : al.Valid) {α : Type} (s : Ser α) (value : α) (h : Heap)
    (hn : ∀ n, s.derContentsLen value = .ok (some n) → n < 2 ^ 64)
    (hl : (s.writeId value).chunks.flatten.length + 9 + (s.writeDerContents value).chunks.flatten.length ≤ isizeMax) :
    Renders Rep h.blocks (toDer I m al s value) h (Bsn1.toDer m s value) := by
  have hm := isizeMax_lt
  have hu := usizeSize_eq
  rw [toDer, Bsn1.toDer, contentsLen]
  have hb0 : Beside Rep h.blocks h none (none : Option I.B) [] := erase_none _
  rcases hd : s.derContentsLen value with (_ | n) | e | _ | _
  · have hn0 := has_new hc h
    have key := renders_runW (m := m) (base := h.blocks) hc hv (w := s.writeDerContents value) hn0 (by simp [-List.length_flatten]; omega)
      (f := fun x => match x with
        | (.error e, c) => do
          I.drop c
          return .error e
        | (.ok (), c) => derFrom I m al s value (I.len c) (some c))
      (r := fun c => derRest m s value c.length (some c)) ?_ ?_
    · rcases hx : (s.writeDerContents value).toBuffer m [] with ⟨_, c⟩ | e | _ | _ <;> rw [hx] at key <;> exact key
    · intro _ c h1 fp1 hb1 fr1
      simp only [has_len hc hb1]
      refine renders_derFrom hc hi hv s value (by simp [-List.length_flatten]; omega) (cont := some c) ⟨fp1, hb1, ?_, fun _ _ => nofun⟩ (by simp [-List.length_flatten]; omega)
      rw [erase_none]
      exact fr1.symm.trans (erase_none _)
    · intro e c h1 fp1 hb1 fr1
      obtain ⟨R, hr⟩ := hb1
      obtain ⟨h2, e2, fr2⟩ := hc.drop hr
      refine .same e2 (.inr ⟨h2, rfl, ?_⟩)
      have := fr1.trans fr2
      simpa [Frame, erase_none] using this.symm
  · exact renders_derFrom hc hi hv s value (hn n hd) hb0 hl
  · exact .inr ⟨h, rfl, rfl⟩
  · exact .panic rfl
  · exact .ub rfl

end Bsn1.Raw
