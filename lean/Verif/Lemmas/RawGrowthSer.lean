import Verif.Lemmas.RawGrowth
import Verif.Lemmas.RawSer
/-!
# How often the allocator is called: `to_der`
-/

namespace Bsn1.Raw
open Bsn1.Buf Bsn1.Spec

variable {I : Impl} {Rep : I.B → Heap → List Cell → Nat → Option Nat → Prop} {m : Build} {al : Allocator} {init : Nat}

theorem sums_append (pos : Nat) (a c : List Bytes) : sums pos (a ++ c) = sums pos a ++ sums (pos + a.flatten.length) c := by
  induction a generalizing pos with
  | nil => simp [sums]
  | cons x r ih =>
    rw [List.cons_append, sums, sums, ih, List.cons_append, List.flatten_cons, List.length_append, Nat.add_assoc]

theorem roomAfter_sums (cap pos : Nat) (cs : List Bytes) (h : pos ≤ cap) : roomAfter cap (sums pos cs) = max cap (pos + cs.flatten.length) := by
  induction cs generalizing cap pos with
  | nil => simp [sums, roomAfter]; omega
  | cons c r ih =>
    have := ih (max cap (pos + c.length)) (pos + c.length) (by omega)
    simp only [sums, roomAfter, List.foldl_cons] at this ⊢
    rw [this, List.flatten_cons, List.length_append]; omega

/-- Memory runs out, or the value comes about, with so many calls of the allocator. -/
def Pays (x : M (Except Error I.B)) (h : Heap) (k : Nat) : Prop :=
  x h = .abort ∨ ∃ b h', x h = .ok (.ok b) h' ∧ h'.clock = h.clock + k

theorem Pays.step {β : Type} {x : M β} {f : β → M (Except Error I.B)} {h : Heap} {fp : Option Nat}
    {Q : β → Heap → Option Nat → Prop} {k k' : Nat} (hx : Cost x h fp k Q)
    (hf : ∀ a h' fp', Q a h' fp' → Frame h h' fp fp' → Pays (f a) h' k') : Pays (x >>= f) h (k + k') := by
  rcases hx with e | ⟨a, h', fp', e, ⟨q, ec⟩, fr⟩
  · exact .inl (bind_abort e)
  · rcases hf a h' fp' q fr with e2 | ⟨b, h2, e2, e3⟩
    · exact .inl (by rw [bind_ok e, e2])
    · exact .inr ⟨b, h2, by rw [bind_ok e, e2], by omega⟩

theorem Pays.same {β : Type} {x : M β} {f : β → M (Except Error I.B)} {h h' : Heap} {a : β} {k : Nat} (e : x h = .ok a h') (hc : h'.clock = h.clock)
    (hf : Pays (f a) h' k) : Pays (x >>= f) h k := by
  rcases hf with e2 | ⟨b, h2, e2, e3⟩
  · exact .inl (by rw [bind_ok e, e2])
  · exact .inr ⟨b, h2, by rw [bind_ok e, e2], by omega⟩

theorem cost_runW (hx : Exact I Rep init) (hv : al.Valid) {w : W Unit} {b : I.B} {h : Heap} {v : Bytes} {fp : Option Nat} {cap : Nat}
    (hb : Room Rep b h v cap fp) (hn : v.length + w.chunks.flatten.length ≤ isizeMax) (hres : w.res = .ok ()) :
    Cost (runW I m al w b) h fp (grown cap (sums v.length w.chunks)) (fun a h fp =>
      ∃ b, a = (.ok (), b) ∧ Room Rep b h (v ++ w.chunks.flatten) (max cap (v.length + w.chunks.flatten.length)) fp) := by
  unfold runW
  rw [hres]
  exact Cost.last (cost_writeChunks hx hv w.chunks v b h fp cap hb hn) fun b h fp hb => .pure ⟨b, rfl, hb⟩

theorem cost_reserveHint (hx : Exact I Rep init) (hv : al.Valid) {h : Heap} {idLen : Option Nat} {lengthLen contentsLen : Nat}
    (hn : ∀ n, idLen = some n → n + lengthLen + contentsLen ≤ isizeMax) :
    Cost (reserveHint I m al idLen lengthLen contentsLen I.new) h none (grown init (idLen.map (· + lengthLen + contentsLen)).toList) (fun b h fp =>
      Room Rep b h [] (roomAfter init (idLen.map (· + lengthLen + contentsLen)).toList) fp) := by
  have hm := isizeMax_lt
  unfold reserveHint
  cases idLen with
  | none => exact .pure (room_new hx h)
  | some n =>
    have := hn n rfl
    simp only
    refine .same (usizeAdd_ok m (by omega) h) ?_
    refine .same (usizeAdd_ok m (by omega) h) ?_
    have := cost_room (m := m) hx hv (room_new hx h) (n := n + lengthLen + contentsLen) (by simpa using this)
    simpa [roomAfter] using this

theorem pays_derFrom (hx : Exact I Rep init) (hv : al.Valid) {α : Type} (s : Ser α) (value : α) {base : Blocks} {h : Heap}
    {n : Nat} {il : Option Nat} (hid : s.idLen value = .ok il) (hidr : (s.writeId value).res = .ok ())
    (hcr : (s.writeDerContents value).res = .ok ()) {cont : Option I.B} {cv : Bytes} (hb : Beside Rep base h none cont cv)
    (hil : ∀ k, il = some k → k + (lenOctets n).length + n ≤ isizeMax) (hn : n < 2 ^ 64)
    (hl : (s.writeId value).chunks.flatten.length + 9 + (match cont with
      | some _ => cv.length
      | none => (s.writeDerContents value).chunks.flatten.length) ≤ isizeMax) :
    Pays (derFrom I m al s value n cont) h (grown init ((il.map (· + (lenOctets n).length + n)).toList ++
      sums 0 ((s.writeId value).chunks ++ [lenOctets n] ++ (match cont with
        | some _ => [cv]
        | none => (s.writeDerContents value).chunks)))) := by
  have hc := hx.correct
  have h9 := lenOctets_length_le hn
  have hroom := le_roomAfter init (il.map (· + (lenOctets n).length + n)).toList
  rw [derFrom, toBytes_definite hn]
  refine .same rfl rfl ?_
  rw [hid]
  simp only
  rw [grown_append, sums_append, sums_append, grown_append, grown_append, roomAfter_append, roomAfter_sums _ _ _ (Nat.zero_le _),
    roomAfter_sums _ _ _ (by omega), Nat.zero_add, Nat.add_assoc (grown _ (sums 0 _))]
  refine .step (cost_reserveHint hx hv hil) fun b h1 fp1 hb1 fr1 => ?_
  have hbes1 := hb.frame hc fr1
  refine .step (cost_runW hx hv hb1 (by simp [-List.length_flatten]; omega) hidr) ?_
  rintro _ h2 fp2 ⟨b, rfl, hb2⟩ fr2
  have hbes2 := hbes1.frame hc fr2
  simp only [List.nil_append, List.length_nil, Nat.zero_add] at hb2
  simp only
  refine .step (cost_writeChunks hx hv [lenOctets n] _ b h2 fp2 _ hb2 (by simp [-List.length_flatten]; omega)) ?_
  intro b h3 fp3 hb3 fr3
  have hbes3 := hbes2.frame hc fr3
  have hlen : ((s.writeId value).chunks.flatten ++ [lenOctets n].flatten).length = 0 + ((s.writeId value).chunks ++ [lenOctets n]).flatten.length := by
    simp
  cases cont with
  | some c =>
    simp only [] at hl
    have hbes3' := hbes3
    obtain ⟨fpc, ⟨R, hr⟩, e1, e2⟩ := hbes3'
    rw [finishDer]
    refine .same (hc.cells hr) rfl ?_
    rw [take_of_append (by simp)]
    refine .same (assumeInit_ok cv h3) rfl ?_
    have hcost := cost_writeChunks (m := m) hx hv [cv] _ b h3 fp3 _ hb3 (by simp [-List.length_flatten]; omega)
    rw [hlen] at hcost
    rw [← Nat.add_zero (grown _ (sums _ [cv]))]
    refine .step hcost fun b h4 fp4 hb4 fr4 => ?_
    have hbes4 := hbes3.frame hc fr4
    obtain ⟨h5, e3, e4, e5⟩ := hbes4.drop hc
    refine .same e3 ?_ (.inr ⟨b, h5, rfl, rfl⟩)
    exact (hx.ticks.drop c) h4 () h5 e3
  | none =>
    simp only [] at hl
    rw [finishDer]
    have hcost := cost_runW (m := m) hx hv hb3 (by simp [-List.length_flatten]; omega) hcr
    rw [hlen] at hcost
    rw [← Nat.add_zero (grown _ (sums _ (s.writeDerContents value).chunks))]
    refine .step hcost ?_
    rintro _ h4 fp4 ⟨b, rfl, hb4⟩ fr4
    exact .inr ⟨b, h4, rfl, rfl⟩

/-- `to_der` of a value whose methods work. -/
theorem pays_toDer (hx : Exact I Rep init) (hv : al.Valid) {α : Type} (s : Ser α) (value : α) (h : Heap) {o il : Option Nat}
    (hlen : s.derContentsLen value = .ok o) (hid : s.idLen value = .ok il) (hidr : (s.writeId value).res = .ok ())
    (hcr : (s.writeDerContents value).res = .ok ()) {n : Nat} (hn : n = o.getD (s.writeDerContents value).chunks.flatten.length)
    (hil : ∀ k, il = some k → k + (lenOctets n).length + n ≤ isizeMax) (hn64 : n < 2 ^ 64)
    (hl : (s.writeId value).chunks.flatten.length + 9 + (s.writeDerContents value).chunks.flatten.length ≤ isizeMax) :
    Pays (toDer I m al s value) h ((if o = none then grown init (sums 0 (s.writeDerContents value).chunks) else 0) +
      grown init ((il.map (· + (lenOctets n).length + n)).toList ++ sums 0 ((s.writeId value).chunks ++ [lenOctets n] ++
        (if o = none then [(s.writeDerContents value).chunks.flatten] else (s.writeDerContents value).chunks)))) := by
  have hc := hx.correct
  have hb0 : Beside Rep h.blocks h none (none : Option I.B) [] := erase_none _
  rw [toDer, hlen]
  cases o with
  | none =>
    rw [Option.getD_none] at hn
    simp only [if_true]
    have hcost := cost_runW (m := m) hx hv (room_new hx h) (w := s.writeDerContents value) (by simp [-List.length_flatten]; omega) hcr
    refine .step hcost ?_
    rintro _ h1 fp1 ⟨c, rfl, hb1⟩ fr1
    simp only [List.nil_append] at hb1
    simp only [has_len hc hb1.has]
    rw [← hn]
    refine pays_derFrom (base := h.blocks) (cont := some c) hx hv s value hid hidr hcr ⟨fp1, hb1.has, ?_, fun _ _ => nofun⟩ hil hn64 (by simp [-List.length_flatten]; omega)
    rw [erase_none]
    exact fr1.symm.trans (erase_none _)
  | some L =>
    rw [Option.getD_some] at hn
    subst hn
    simp only [reduceCtorEq, if_false, Nat.zero_add]
    exact pays_derFrom hx hv s value hid hidr hcr hb0 hil hn64 hl

end Bsn1.Raw
