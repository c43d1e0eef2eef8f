import Verif.Props.Rec
import Verif.Lemmas.Calls
/-!
# C93, C94: what serializing calls
-/

namespace Bsn1
open Spec

variable {α : Type}

/-! ### C93: conversions -/

/-- C93.  `to_der` and `write_der` call the conversions of the user exactly as often as the type says, however deep the values are and whichever way they are
serialized: once for each field with `into` or `to`, twice for each value of a type with one and for each transparent struct around such a field.
`der_contents_len` does not call them. -/
theorem C93_conversions (m : Build) (t : Ty α) (hs : t.serializable) (v : α) (hok : t.ok v) (hfit : (t.der v).length ≤ isizeMax) :
    (Ty.costs .convs m t).toDer v = t.convs v ∧ (Ty.costs .convs m t).writeDer v = t.convs v ∧ (Ty.costs .convs m t).len v = 0 := by
  have h := Ty.converts_of hs hok hfit (Ty.costs_convs m t hs v hok hfit)
  exact ⟨h.toDer, h.writeDer, h.len⟩

/-- `#[bsn1_serde(into = "Vec<u8>")] struct S(..)` in a map in a vector in a field with `into`: the conversion of the field once, that of the key and the three of
the elements twice. -/
def convTy : Ty (Int × Unit) :=
  .struct [0x30] (.conv (.vec (.btreeMap compare inferInstance inferInstance (.int .u8) (.conv .bool (fun n : Int => 0 < n) (.from_ fun b => if b then 1 else 0))))
    (fun n : Int => [[(1, n), (2, n - 1)], [], [(7, 0)]]) (.from_ fun _ => 0) .nil)

example : convTy.convs (5, ()) = 1 + 2 * 3 := by decide +kernel

example : convTy.serializable ∧ convTy.ok (5, ()) ∧ convTy.der (5, ()) =
    [0x30, 0x20, 0x30, 0x1e, 0x30, 0x10, 0x30, 0x06, 0x02, 0x01, 0x01, 0x01, 0x01, 0xff, 0x30, 0x06, 0x02, 0x01, 0x02, 0x01, 0x01, 0xff,
      0x30, 0x00, 0x30, 0x08, 0x30, 0x06, 0x02, 0x01, 0x07, 0x01, 0x01, 0x00] := by
  refine ⟨⟨⟨0, 1, 16, by decide, by decide, by decide +kernel⟩, ⟨trivial, trivial⟩, trivial⟩, ⟨?_, trivial⟩, by decide +kernel⟩
  intro x hx
  simp only [List.mem_cons, List.not_mem_nil, or_false] at hx
  rcases hx with rfl | rfl | rfl
  · refine ⟨by decide +kernel, fun y hy => ?_⟩
    simp only [List.mem_cons, List.not_mem_nil, or_false] at hy
    rcases hy with rfl | rfl
    · exact ⟨by change IntTy.u8.InRange 1; decide, trivial⟩
    · exact ⟨by change IntTy.u8.InRange 2; decide, trivial⟩
  · exact ⟨.nil, fun y hy => by cases hy⟩
  · refine ⟨by decide +kernel, fun y hy => ?_⟩
    cases List.mem_singleton.mp hy
    exact ⟨by change IntTy.u8.InRange 7; decide, trivial⟩

example (m : Build) : (Ty.costs .convs m convTy).toDer (5, ()) = 7 := by cases m <;> decide +kernel

/-- A transparent struct around a field with a conversion: twice. -/
example : (Ty.transparent (.skip true (.conv .bool (fun n : Int => 0 < n) (.from_ fun _ => 0) .nil))).convs (false, 3, ()) = 2 := by decide +kernel

/-! ### C94: `der_contents_len` -/

/-- C94.  `der_contents_len` is called at most once for each value that is encoded and each value around it (for the keys and values of a map, twice for the map).
So `to_der` and `write_der` call it no more often than the sum of the depths of the values; this holds for every type and every value, also if
serializing fails. -/
theorem C94_depths (m : Build) (t : Ty α) (v : α) :
    (Ty.costs .lens m t).toDer v ≤ t.depths v ∧ (Ty.costs .lens m t).writeDer v ≤ t.depths v ∧ (Ty.costs .lens m t).len v ≤ t.parts v :=
  have h := Ty.costs_bound m t
  ⟨h.toDer v, h.writeDer v, h.len v⟩

example : (Ty.vec (.vec (.int .u8))).depths [[1, 2], []] = 1 + 2 * 2 + 3 * 2 ∧ (Ty.vec (.vec (.int .u8))).parts [[1, 2], []] = 5 := by decide +kernel

/-- C94.  For a type without conversions it is exactly so often: a size computed for a value is computed again for everything inside. -/
theorem C94_depths_exact (m : Build) (t : Ty α) (hs : t.serializable) (hz : t.sized = true) (v : α) (hok : t.ok v) (hfit : (t.der v).length ≤ isizeMax) :
    (Ty.costs .lens m t).toDer v = t.depths v ∧ (Ty.costs .lens m t).writeDer v = t.depths v ∧ (Ty.costs .lens m t).len v = t.parts v := by
  have h := Ty.at_of hs hz hok hfit (Ty.costs_exact m t hs hz v hok hfit)
  exact ⟨h.toDer, h.writeDer, h.len⟩

example (m : Build) : (Ty.costs .lens m (.vec (.int .u8))).toDer [1, 2] = 5 :=
  ((C94_depths_exact m (.vec (.int .u8)) trivial rfl [1, 2] (by simp [Ty.ok, IntTy.InRange, IntTy.minVal, IntTy.maxVal, IntTy.signed, IntTy.size]) (by decide +kernel)).1).trans
    (by decide +kernel)

/-- C94.  For a type that is not recursive the number of calls is linear in the number of values, and so in the length of the encoding. -/
theorem C94_levels (m : Build) (t : Ty α) (v : α) :
    (Ty.costs .lens m t).toDer v ≤ (t.levels + 1) * t.parts v ∧
      (t.serializable → 2 * (Ty.costs .lens m t).toDer v ≤ (t.levels + 1) * (t.der v).length) := by
  have h1 := (C94_depths m t v).1.trans (t.depths_levels v)
  refine ⟨h1, fun hs => ?_⟩
  have h2 := Nat.mul_le_mul_left (t.levels + 1) (show 2 * t.parts v ≤ (t.der v).length from t.parts_octets hs v)
  have h3 : (t.levels + 1) * (2 * t.parts v) = 2 * ((t.levels + 1) * t.parts v) := Nat.mul_left_comm ..
  omega

example : (Ty.vec (.vec (.int .u8))).levels = 2 := by decide +kernel

/-- C94, in part.  For every type it is at most quadratic.  (It is not linear: `C94_linear_violated`.) -/
theorem C94_quadratic_partial (m : Build) (t : Ty α) (v : α) :
    (Ty.costs .lens m t).toDer v ≤ t.parts v * t.parts v ∧
      (t.serializable → 4 * (Ty.costs .lens m t).toDer v ≤ (t.der v).length * (t.der v).length) := by
  have h1 := (C94_depths m t v).1.trans (t.depths_square v)
  refine ⟨h1, fun hs => ?_⟩
  have h2 : 2 * t.parts v ≤ (t.der v).length := t.parts_octets hs v
  have h3 := Nat.mul_le_mul h2 h2
  have h4 : 2 * t.parts v * (2 * t.parts v) = 4 * (t.parts v * t.parts v) := by ring
  omega

example (m : Build) : (Ty.costs .lens m (.vec (.vec (.int .u8)))).toDer [[1, 2], []] ≤ 5 * 5 :=
  (C94_quadratic_partial m (.vec (.vec (.int .u8))) [[1, 2], []]).1

theorem nest_sized : ∀ n, (nestDecl.unroll n).sized = true
  | 0 => rfl
  | n + 1 => by
    show ((nestDecl.unroll n).sized && true) = true
    rw [nest_sized n]
    rfl

theorem nested_parts : ∀ n, (nestDecl.unroll (n + 1)).parts (nested n) = n + 1
  | 0 => rfl
  | n + 1 => by
    show 1 + ([nested n].map (nestDecl.unroll (n + 1)).parts).sum = _
    rw [List.map_singleton, List.sum_singleton, nested_parts n]
    omega

theorem nested_depths : ∀ n, 2 * (nestDecl.unroll (n + 1)).depths (nested n) = (n + 1) * (n + 2)
  | 0 => rfl
  | n + 1 => by
    have ih := nested_depths n
    show 2 * (1 + ([nested n].map fun x => (nestDecl.unroll (n + 1)).depths x + (nestDecl.unroll (n + 1)).parts x).sum) = _
    rw [List.map_singleton, List.sum_singleton, nested_parts n]
    have e : (n + 1 + 1) * (n + 1 + 2) = (n + 1) * (n + 2) + 2 * (n + 2) := by ring
    omega

theorem nested_length_le : ∀ n, n ≤ 2 ^ 50 → ((nestDecl.unroll (n + 1)).der (nested n)).length ≤ 10 * (n + 1)
  | 0, _ => by decide +kernel
  | n + 1, h => by
    have ih := nested_length_le n (by omega)
    have b := lenOctets_length_le (n := ((nestDecl.unroll (n + 1)).der (nested n)).length) (by omega)
    rw [nested, nest_der, List.flatMap_singleton, tlv_length]
    rw [show ([0x30] : Bytes).length = 1 from rfl]
    omega

/-- C94 fails for recursive types: for `struct Nest(Vec<Nest>)` (transparent) and every `n` there is a value made of `n + 1` values, encoded in at most ten octets
each, for which `to_der` calls `der_contents_len` exactly `(n + 1) * (n + 2) / 2` times. -/
theorem C94_linear_violated (m : Build) (n : Nat) (hn : n ≤ 2 ^ 50) :
    ∃ v : Nest, (nestDecl.unroll (n + 1)).ok v ∧ (nestDecl.unroll (n + 1)).parts v = n + 1 ∧
      (∃ d, toDer m (Ty.ser m (nestDecl.unroll (n + 1))) v = .ok d ∧ d.length ≤ 10 * (n + 1)) ∧
      2 * (Ty.costs .lens m (nestDecl.unroll (n + 1))).toDer v = (n + 1) * (n + 2) := by
  have hl := nested_length_le n hn
  have hfit : ((nestDecl.unroll (n + 1)).der (nested n)).length ≤ isizeMax := by
    rw [isizeMax_eq]
    omega
  refine ⟨nested n, nested_ok n, nested_parts n, ⟨_, (C41_to_der m _ (nest_serializable _) _ (nested_ok n) hfit).1, hl⟩, ?_⟩
  rw [(C94_depths_exact m _ (nest_serializable _) (nest_sized _) _ (nested_ok n) hfit).1]
  exact nested_depths n

/-- A thousand values inside each other: half a million calls. -/
example (m : Build) : ∃ v : Nest, (nestDecl.unroll 1000).parts v = 1000 ∧ (Ty.costs .lens m (nestDecl.unroll 1000)).toDer v = 500500 := by
  obtain ⟨v, _, h1, _, h2⟩ := C94_linear_violated m 999 (by omega)
  exact ⟨v, h1, Nat.eq_of_mul_eq_mul_left (by omega : 0 < 2) (h2.trans (by norm_num))⟩

/-- `vec![vec![1, 2], vec![]]`: the outer one once, the inner two twice, the numbers three times each. -/
example (m : Build) : (Ty.costs .lens m (.vec (.vec (.int .u8)))).toDer [[1, 2], []] = 1 + 2 * 2 + 3 * 2 := by cases m <;> decide +kernel

/-- With a map the keys and values three times, without a hint fewer. -/
example (m : Build) : (Ty.costs .lens m (.btreeMap compare inferInstance inferInstance (.int .u8) .bool)).toDer [(1, true)] = 1 + 3 * 2 ∧
    (Ty.btreeMap compare inferInstance inferInstance (.int .u8) .bool).depths [(1, true)] = 7 ∧
    (Ty.costs .lens m convTy).toDer (5, ()) = 24 ∧ convTy.depths (5, ()) = 1 + 2 + 3 * 3 + 5 * 6 := by
  cases m <;> decide +kernel

end Bsn1
