import Verif.Spec.Writer
import Verif.Lemmas.Ser
/-!
# Lemmas on writers, and on successful serialization
-/

namespace Bsn1
open Spec

variable {α β : Type}

theorem writeAllLoop_cases (script : List WEvent) (taken buf : Bytes) :
    (∃ used rest, script = used ++ rest ∧ used.all goesOn = true ∧
      Writer.writeAllLoop script taken buf = (.ok (), ⟨rest, taken ++ buf⟩)) ∨
    (∃ used e rest p, script = used ++ e :: rest ∧ used.all goesOn = true ∧ goesOn e = false ∧ p <+: buf ∧
      p.length < buf.length ∧
      Writer.writeAllLoop script taken buf = (.err (.io (reported e)), ⟨rest, taken ++ p⟩)) := by
  induction script generalizing taken buf with
  | nil =>
    left
    refine ⟨[], [], rfl, rfl, ?_⟩
    cases buf with
    | nil => simp [Writer.writeAllLoop]
    | cons b r => simp [Writer.writeAllLoop]
  | cons e s ih =>
    cases buf with
    | nil => left; exact ⟨[], e :: s, rfl, rfl, by simp [Writer.writeAllLoop]⟩
    | cons b r =>
      cases e with
      | accept n =>
        by_cases hn : n = 0
        · right
          subst hn
          exact ⟨[], _, s, [], rfl, rfl, rfl, List.nil_prefix, by simp, by simp [Writer.writeAllLoop, reported]⟩
        · rw [Writer.writeAllLoop, if_neg hn]
          · rcases ih (taken ++ (b :: r).take n) ((b :: r).drop n) with ⟨u, t, rfl, h2, h3⟩ | ⟨u, e, t, p, rfl, h2, h3, h4, h5, h6⟩
            · left
              refine ⟨_ :: u, t, rfl, by rw [List.all_cons, h2]; simp [goesOn, hn], ?_⟩
              rw [h3, List.append_assoc, List.take_append_drop]
            · right
              refine ⟨_ :: u, e, t, (b :: r).take n ++ p, rfl, by rw [List.all_cons, h2]; simp [goesOn, hn], h3, ?_, ?_, ?_⟩
              · obtain ⟨q, hq⟩ := h4
                exact ⟨q, by rw [List.append_assoc, hq, List.take_append_drop]⟩
              · have := List.take_append_drop n (b :: r)
                rw [← congrArg List.length this, List.length_append, List.length_append]
                omega
              · rw [h6, List.append_assoc]
          · simp
      | fail k =>
        by_cases hk : k = .interrupted
        · subst hk
          rw [Writer.writeAllLoop]
          · rcases ih taken (b :: r) with ⟨u, t, rfl, h2, h3⟩ | ⟨u, e, t, p, rfl, h2, h3, h4, h5, h6⟩
            · left
              exact ⟨_ :: u, t, rfl, by rw [List.all_cons, h2]; simp [goesOn], h3⟩
            · right
              exact ⟨_ :: u, e, t, p, rfl, by rw [List.all_cons, h2]; simp [goesOn], h3, h4, h5, h6⟩
          · simp
        · right
          refine ⟨[], _, s, [], rfl, rfl, by simpa [goesOn] using hk, List.nil_prefix, by simp, ?_⟩
          rw [Writer.writeAllLoop]
          · simp [reported]
          · exact hk
          · simp

theorem writeChunks_cases (chunks : List Bytes) (script : List WEvent) (taken : Bytes) :
    (∃ used rest, script = used ++ rest ∧ used.all goesOn = true ∧
      Writer.writeChunks chunks ⟨script, taken⟩ = (.ok (), ⟨rest, taken ++ chunks.flatten⟩)) ∨
    (∃ used e rest p, script = used ++ e :: rest ∧ used.all goesOn = true ∧ goesOn e = false ∧
      p <+: chunks.flatten ∧ p.length < chunks.flatten.length ∧
      Writer.writeChunks chunks ⟨script, taken⟩ = (.err (.io (reported e)), ⟨rest, taken ++ p⟩)) := by
  induction chunks generalizing script taken with
  | nil => left; exact ⟨[], script, rfl, rfl, by simp [Writer.writeChunks]⟩
  | cons c r ih =>
    rw [Writer.writeChunks, Writer.writeAll]
    rcases writeAllLoop_cases script taken c with ⟨u, t, rfl, h2, h3⟩ | ⟨u, e, t, p, rfl, h2, h3, h4, h5, h6⟩
    · rw [h3]
      simp only []
      rcases ih t (taken ++ c) with ⟨u', t', rfl, h2', h3'⟩ | ⟨u', e', t', p', rfl, h2', h3', h4', h5', h6'⟩
      · left
        exact ⟨u ++ u', t', by simp, by rw [List.all_append, h2, h2']; rfl, by rw [h3']; simp⟩
      · right
        refine ⟨u ++ u', e', t', c ++ p', by simp, by rw [List.all_append, h2, h2']; rfl, h3', ?_, ?_, by rw [h6']; simp⟩
        · rw [List.flatten_cons]; exact List.prefix_append_right_inj _ |>.mpr h4'
        · rw [List.flatten_cons, List.length_append, List.length_append]; omega
    · right
      refine ⟨u, e, t, p, rfl, h2, h3, ?_, ?_, by rw [h6]⟩
      · rw [List.flatten_cons]; exact h4.trans (List.prefix_append _ _)
      · rw [List.flatten_cons, List.length_append]; omega

/-! ### Successful serialization -/

theorem writeBuffer_inv (m : Build) (cs : List Bytes) (b d : Bytes) (hb : b.length ≤ isizeMax)
    (hcs : ∀ c ∈ cs, c.length ≤ isizeMax) (h : writeBuffer m cs b = .ok d) :
    d = b ++ cs.flatten ∧ d.length ≤ isizeMax := by
  induction cs generalizing b with
  | nil => cases h; simpa using hb
  | cons c r ih =>
    have hc := hcs c (by simp)
    have hlt : b.length + c.length < usizeSize := by
      have := usizeSize_eq; have := isizeMax_eq; omega
    by_cases hf : b.length + c.length ≤ isizeMax
    · rw [writeBuffer, bufReserve_ok hf, Res.bind_ok] at h
      obtain ⟨h1, h2⟩ := ih (b ++ c) (by rw [List.length_append]; exact hf) (fun x hx => hcs x (by simp [hx])) h
      exact ⟨by rw [h1]; simp, h2⟩
    · rw [writeBuffer, bufReserve_panic (by omega) hlt] at h
      cases h

theorem toBuffer_inv (m : Build) (w : W α) (b : Bytes) {a : α} {d : Bytes} (hb : b.length ≤ isizeMax)
    (hcs : ∀ c ∈ w.chunks, c.length ≤ isizeMax) (h : w.toBuffer m b = .ok (a, d)) :
    w.res = .ok a ∧ d = b ++ w.chunks.flatten ∧ d.length ≤ isizeMax := by
  rw [W.toBuffer] at h
  cases e : writeBuffer m w.chunks b with
  | ok x =>
    rw [e, Res.bind_ok] at h
    cases e' : w.res with
    | ok y =>
      rw [e', Res.bind_ok] at h
      cases h
      exact ⟨rfl, writeBuffer_inv m _ _ _ hb hcs e⟩
    | _ => rw [e'] at h; cases h
  | _ => rw [e] at h; cases h

end Bsn1
