import Verif.Model.Raw
import Verif.Lemmas.BufferHistory
import Verif.Lemmas.Ber
/-!
# The unsafe code on real storage: what it leaves in memory
-/

set_option linter.unusedSimpArgs false
set_option linter.unusedVariables false

namespace Bsn1.Raw
open Bsn1.Buf Bsn1.Spec

/-- A call that starts owning the block `fp` ends the process for want of memory, or goes well and touches no other block than its
own, and then the result is as told. -/
def Step {α : Type} (x : M α) (h : Heap) (fp : Option Nat) (Q : α → Heap → Option Nat → Prop) : Prop :=
  x h = .abort ∨ ∃ a h' fp', x h = .ok a h' ∧ Q a h' fp' ∧ Frame h h' fp fp'

section step
variable {α β : Type} {x : M α} {f : α → M β} {h : Heap} {fp : Option Nat} {Q Q' : α → Heap → Option Nat → Prop}
  {R : β → Heap → Option Nat → Prop}

theorem Step.bind (hx : Step x h fp Q) (hf : ∀ a h' fp', Q a h' fp' → Step (f a) h' fp' R) : Step (x >>= f) h fp R := by
  rcases hx with e | ⟨a, h', fp', e, q, fr⟩
  · exact .inl (bind_abort e)
  · rcases hf a h' fp' q with e2 | ⟨b, h'', fp'', e2, q2, fr2⟩
    · exact .inl (by rw [bind_ok e, e2])
    · exact .inr ⟨b, h'', fp'', by rw [bind_ok e, e2], q2, fr.trans fr2⟩

theorem Step.pure {a : α} (q : Q a h fp) : Step (Pure.pure a) h fp Q := .inr ⟨a, h, fp, rfl, q, .refl _ _⟩

theorem Step.same {a : α} (e : x h = .ok a h) (s : Step (f a) h fp R) : Step (x >>= f) h fp R := by
  rcases s with e2 | ⟨b, h', fp', e2, q, fr⟩
  · exact .inl (by rw [bind_ok e, e2])
  · exact .inr ⟨b, h', fp', by rw [bind_ok e, e2], q, fr⟩

theorem Step.mono (hx : Step x h fp Q) (hq : ∀ a h' fp', Q a h' fp' → Q' a h' fp') : Step x h fp Q' := by
  rcases hx with e | ⟨a, h', fp', e, q, fr⟩
  · exact .inl e
  · exact .inr ⟨a, h', fp', e, hq _ _ _ q, fr⟩

theorem Step.ite {c : Prop} [Decidable c] {x y : M α} (hx : c → Step x h fp Q) (hy : ¬ c → Step y h fp Q) :
    Step (if c then x else y) h fp Q := by
  split
  · exact hx ‹_›
  · exact hy ‹_›

/-- (`do` notation copies what follows into both branches.) -/
theorem Step.iteBind {c : Prop} [Decidable c] {x y : M α} (hx : Step (if c then x else y) h fp Q)
    (hf : ∀ a h' fp', Q a h' fp' → Step (f a) h' fp' R) : Step (if c then x >>= f else y >>= f) h fp R := by
  split at hx
  · rw [if_pos ‹_›]; exact hx.bind hf
  · rw [if_neg ‹_›]; exact hx.bind hf

end step

/-! ### Lists -/

theorem patch_append {α : Type} (A R V : List α) : patch (A ++ R) A.length V = A ++ V ++ R.drop V.length := by
  simp [patch, List.drop_append, List.drop_of_length_le]

theorem patch_zero {α : Type} (R V : List α) : patch R 0 V = V ++ R.drop V.length := by simp [patch]

theorem patch_patch_right {α : Type} (s A B : List α) (o : Nat) (h : o + A.length ≤ s.length) :
    patch (patch s o A) (o + A.length) B = patch s o (A ++ B) := by
  have h1 : (s.take o ++ A).length = o + A.length := by simp; omega
  simp only [patch]
  rw [List.take_append_of_le_length (by omega), List.take_of_length_le (by omega),
    List.drop_append, List.drop_of_length_le (l := s.take o ++ A) (by omega), h1, List.drop_drop, List.length_append]
  simp only [List.append_assoc, List.nil_append]
  congr 4
  omega

theorem patch_patch_left {α : Type} (s A B : List α) (o : Nat) (h : o + A.length ≤ s.length) :
    patch (patch s (o + A.length) B) o A = patch s o (A ++ B) := by
  have h1 : (s.take (o + A.length)).length = o + A.length := by simp; omega
  have h2 : (s.take (o + A.length) ++ B ++ s.drop (o + A.length + B.length)).take o = s.take o := by
    rw [List.append_assoc, List.take_append_of_le_length (by omega), List.take_take, Nat.min_eq_left (by omega)]
  have h3 : (s.take (o + A.length) ++ B ++ s.drop (o + A.length + B.length)).drop (o + A.length) = B ++ s.drop (o + A.length + B.length) := by
    rw [List.append_assoc, List.drop_append, List.drop_of_length_le (by omega), h1, Nat.sub_self, List.drop_zero, List.nil_append]
  simp only [patch]
  rw [h2, h3, List.length_append, Nat.add_assoc]
  simp only [List.append_assoc]

theorem patch_self {α : Type} (s : List α) (o n : Nat) (h : o + n ≤ s.length) : patch s o ((s.drop o).take n) = s := by
  have h1 : ((s.drop o).take n).length = n := by simp; omega
  rw [patch, h1, List.append_assoc, ← List.drop_drop, List.take_append_drop, List.take_append_drop]

theorem take_of_append {α : Type} {A R : List α} {n : Nat} (h : A.length = n) : (A ++ R).take n = A := by
  subst h; simp

theorem drop_of_append {α : Type} {A R : List α} {n : Nat} (h : A.length = n) : (A ++ R).drop n = R := by
  subst h; simp

/-! ### Reading the header -/

theorem known_append (v : Bytes) (r : List Cell) : known (v.map some ++ r) = v ++ known r := by
  induction v with
  | nil => rfl
  | cons x v ih => simpa [known] using ih

theorem known_map (v : Bytes) : known (v.map some) = v := by
  have := known_append v []
  simpa [known] using this

variable {I : Impl} {Rep : I.B → Heap → List Cell → Nat → Option Nat → Prop} {m : Build} {al : Allocator}
variable {b : I.B} {h : Heap} {fp : Option Nat} {s : List Cell} {l : Nat}

theorem header_ok (hc : Correct I Rep) {hdr id : Bytes} {L : Length} {R : List Cell} (hr : Rep b h (hdr.map some ++ R) l fp)
    (hl : hdr.length ≤ l) (hd : ∀ rest, DerRef.disassemble (hdr ++ rest) = .ok (id, L, rest)) :
    header I b h = .ok (id, L, hdr.length) h := by
  rw [header, bind_ok (hc.cells hr)]
  rw [List.take_append, List.take_of_length_le (by simpa using hl), known_append, hd]
  simp only [pure_run, List.length_append]
  congr 3
  omega

theorem disassemble_hdr {id : Bytes} {n : Nat} (hid : IsId id) (hn : n < 2 ^ 64) (rest : Bytes) :
    DerRef.disassemble (id ++ lenOctets n ++ rest) = .ok (id, .definite n, rest) := by
  have h1 := parseIdUnchecked_shape ((isId_iff_shape _).mp hid) (lenOctets n ++ rest)
  have h2 := parseLengthUnchecked_lenOctets hn rest
  rw [List.append_assoc, DerRef.disassemble, h1, Res.bind_ok]
  simp only []
  rw [h2, Res.bind_ok]
  rfl

theorem disassemble_indef_hdr {id : Bytes} (hid : IsId id) (rest : Bytes) :
    DerRef.disassemble (id ++ indefOctets ++ rest) = .ok (id, .indefinite, rest) := by
  have h1 := parseIdUnchecked_shape ((isId_iff_shape _).mp hid) (indefOctets ++ rest)
  have h2 := parseLengthUnchecked_indef rest
  rw [List.append_assoc, DerRef.disassemble, h1, Res.bind_ok]
  simp only []
  rw [h2, Res.bind_ok]
  rfl

/-! ### The functions of the buffer as steps -/

theorem step_withCapacity (hc : Correct I Rep) (hv : al.Valid) {n : Nat} (hn : n ≤ isizeMax) :
    Step (I.withCapacity m al n) h none (fun b h fp => ∃ s, Rep b h s 0 fp ∧ n ≤ s.length) := by
  rcases hc.withCapacity m n h hv hn with e | ⟨b, h', fp, s, e, h1, h2, h3⟩
  · exact .inl e
  · exact .inr ⟨b, h', fp, e, ⟨s, h1, h2⟩, h3⟩

theorem step_reserve (hc : Correct I Rep) (hv : al.Valid) {n : Nat} (hr : Rep b h s l fp) (hn : l + n ≤ isizeMax) :
    Step (I.reserve m al b n) h fp (fun b' h' fp' => ∃ s', Rep b' h' s' l fp' ∧ l + n ≤ s'.length ∧ s.length ≤ s'.length ∧
      s'.take l = s.take l) := by
  rcases hc.reserve m n hv hr hn with e | ⟨b, h', fp, s, e, h1, h2, h3, h4, h5⟩
  · exact .inl e
  · exact .inr ⟨b, h', fp, e, ⟨s, h1, h2, h3, h4⟩, h5⟩

theorem step_poke (hc : Correct I Rep) {off : Nat} {vals : Bytes} (hr : Rep b h s l fp) (hn : off + vals.length ≤ s.length) :
    Step (I.poke b off vals) h fp (fun b' h' fp' => Rep b' h' (patch s off (vals.map some)) l fp') := by
  obtain ⟨b', h', e, h1, h2⟩ := hc.poke off vals hr hn
  exact .inr ⟨b', h', fp, e, h1, h2⟩

theorem step_copyWithin (hc : Correct I Rep) {src dst n : Nat} (hr : Rep b h s l fp) (h1 : src + n ≤ s.length)
    (h2 : dst + n ≤ s.length) :
    Step (I.copyWithin b src dst n) h fp (fun b' h' fp' => Rep b' h' (patch s dst ((s.drop src).take n)) l fp') := by
  obtain ⟨b', h', e, h1, h2⟩ := hc.copyWithin src dst n hr h1 h2
  exact .inr ⟨b', h', fp, e, h1, h2⟩

theorem step_setLen (hc : Correct I Rep) {n : Nat} (hr : Rep b h s l fp) (hn : n ≤ s.length) :
    Step (I.setLenChecked m b n) h fp (fun b' h' fp' => Rep b' h' s n fp') := by
  obtain ⟨b', e, h1⟩ := hc.setLen m n hr hn
  exact .inr ⟨b', h, fp, by rw [Impl.setLenChecked, bind_ok (hc.capacity hr), bind_ok (debugAssert_ok m hn h), e], h1, .refl _ _⟩

theorem step_extend (hc : Correct I Rep) {vals : Bytes} (hr : Rep b h s l fp) (hn : l + vals.length ≤ s.length) :
    Step (I.extend m b vals) h fp (fun b' h' fp' => Rep b' h' (patch s l (vals.map some)) (l + vals.length) fp') := by
  obtain ⟨b', h', e, h1, h2⟩ := hc.extend m vals hr hn
  exact .inr ⟨b', h', fp, e, h1, h2⟩

theorem step_push (hc : Correct I Rep) {v : UInt8} (hr : Rep b h s l fp) (hn : l < s.length) :
    Step (I.push m b v) h fp (fun b' h' fp' => Rep b' h' (patch s l [some v]) (l + 1) fp') := by
  obtain ⟨b', h', e, h1, h2⟩ := hc.push m v hr hn
  exact .inr ⟨b', h', fp, e, h1, h2⟩

theorem step_setAt (hc : Correct I Rep) {i : Nat} {v : UInt8} (hr : Rep b h s l fp) (hn : i < l) :
    Step (I.setAt b i v) h fp (fun b' h' fp' => Rep b' h' (patch s i [some v]) l fp') := by
  obtain ⟨b', h', e, h1, h2⟩ := hc.setAt i v hr hn
  exact .inr ⟨b', h', fp, e, h1, h2⟩

theorem step_drop (hc : Correct I Rep) (hr : Rep b h s l fp) : Step (I.drop b) h fp (fun _ _ fp' => fp' = none) := by
  obtain ⟨h', e, h2⟩ := hc.drop hr
  exact .inr ⟨(), h', none, e, rfl, h2⟩

/-- The buffer has these octets. -/
def Has (Rep : I.B → Heap → List Cell → Nat → Option Nat → Prop) (b : I.B) (h : Heap) (vals : Bytes) (fp : Option Nat) : Prop :=
  ∃ R, Rep b h (vals.map some ++ R) vals.length fp

theorem Has.of_take {vals : Bytes} (hr : Rep b h s l fp) (hs : s.take l = vals.map some) (hl : l ≤ s.length) : Has Rep b h vals fp := by
  have h1 : vals.length = l := by
    have := congrArg List.length hs
    simp at this; omega
  refine ⟨s.drop l, ?_⟩
  rw [← hs, List.take_append_drop, h1]
  exact hr

theorem Has.of_append {vals : Bytes} {R : List Cell} (hr : Rep b h s l fp) (hs : s = vals.map some ++ R) (hl : l = vals.length) :
    Has Rep b h vals fp := ⟨R, by subst hs hl; exact hr⟩

end Bsn1.Raw
