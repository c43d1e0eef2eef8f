import Verif.Props.Decode
import Verif.Lemmas.Rec
/-!
# C83, C84: recursive types
-/

namespace Bsn1
open Spec

variable {α β γ : Type}

/-! ### C83 -/

/-- C83.  The encoding of a value of a recursive type does not depend on how often the declaration is unfolded. -/
theorem C83_encoding_unique (d : RecDecl α) (v : α) (id c id' c' : Bytes) (h : d.IsEnc v id c) (h' : d.IsEnc v id' c') :
    id = id' ∧ c = c' := by
  obtain ⟨n, h1, h2⟩ := h
  obtain ⟨n', h1', h2'⟩ := h'
  have key : (d.unroll n).enc v = (d.unroll n').enc v := by
    rcases Nat.le_total n n' with hn | hn
    · exact ((Ty.Upto.of_le hn).ok v h1).2.symm
    · exact ((Ty.Upto.of_le hn).ok v h1').2
  rw [h2, h2'] at key
  cases key
  exact ⟨rfl, rfl⟩

/-- C83.  `to_der` writes that encoding, and the call depth is that of the value: the cut of the program at any depth at
which `v` is a value does the same. -/
theorem C83_to_der (m : Build) (d : RecDecl α) (hs : ∀ n, (d.unroll n).serializable) (v : α) (id c : Bytes)
    (h : d.IsEnc v id c) (hfit : (tlv id c).length ≤ isizeMax) (n : Nat) (hn : (d.unroll n).ok v) (n' : Nat) (hle : n ≤ n') :
    toDer m (Ty.ser m (d.unroll n')) v = .ok (tlv id c) := by
  have h' := (Ty.Upto.of_le (d := d) hle).ok v hn
  obtain ⟨e1, e2⟩ := C83_encoding_unique d v _ _ _ _ h ⟨n', h'.1, rfl⟩
  have e : (d.unroll n').der v = tlv id c := by rw [Ty.der, tlvOf, ← e1, ← e2]
  rw [← e]
  exact (C41_to_der m _ (hs n') v h'.1 (by rw [e]; exact hfit)).1

theorem parseDer_le (m : Build) (o : HashOrder) (d : RecDecl α) (bs : Bytes) {n n' : Nat} (h : bs.length / 2 ≤ n) (hn : n ≤ n') :
    parseDer (Ty.de m o (d.unroll n)) bs = parseDer (Ty.de m o (d.unroll n')) bs := by
  rcases derParse_cases bs with ⟨e, rest, hp⟩ | ⟨id, b, rest, h1, h2, hp, he⟩
  · rw [(C50_parse_error _ bs rest e).1 hp, (C50_parse_error _ bs rest e).1 hp]
  · have := tlv_contents_lt h1 he
    rw [he, C50_parse_der_advances _ id b rest h1 h2, C50_parse_der_advances _ id b rest h1 h2,
      (Ty.Upto.of_le hn).agreeDer m o id b (by omega)]

theorem parseBer_le (m : Build) (o : HashOrder) (d : RecDecl α) (bs : Bytes) (hm : bs.length ≤ isizeMax) {n n' : Nat}
    (h : bs.length / 2 ≤ n) (hn : n ≤ n') :
    parseBer (Ty.de m o (d.unroll n)) bs = parseBer (Ty.de m o (d.unroll n')) bs := by
  rcases berParse_cases bs hm with ⟨e, rest, hp⟩ | ⟨p, id, indef, raw, rest, hv, hp, rfl⟩
  · rw [(C50_parse_error _ bs rest e).2 hp, (C50_parse_error _ bs rest e).2 hp]
  · have := berValue_length hv
    rw [C50_parse_ber_advances _ p id raw rest indef hv hm, C50_parse_ber_advances _ p id raw rest indef hv hm]
    rw [List.length_append] at h hm
    rw [(Ty.Upto.of_le hn).agreeBer m o id indef raw (by omega) (by omega)]

/-- C83.  `parse_der` into a recursive type ends: cut at any depth not less than half the number of octets, it does the same,
value, error or panic, and advances alike. -/
theorem C83_parse_der_depth (m : Build) (o : HashOrder) (d : RecDecl α) (bs : Bytes) (n n' : Nat) (h : bs.length / 2 ≤ n)
    (h' : bs.length / 2 ≤ n') : parseDer (Ty.de m o (d.unroll n)) bs = parseDer (Ty.de m o (d.unroll n')) bs := by
  rcases Nat.le_total n n' with hn | hn
  · exact parseDer_le m o d bs h hn
  · exact (parseDer_le m o d bs h' hn).symm

/-- C83.  The same for `parse_ber`. -/
theorem C83_parse_ber_depth (m : Build) (o : HashOrder) (d : RecDecl α) (bs : Bytes) (hm : bs.length ≤ isizeMax) (n n' : Nat)
    (h : bs.length / 2 ≤ n) (h' : bs.length / 2 ≤ n') :
    parseBer (Ty.de m o (d.unroll n)) bs = parseBer (Ty.de m o (d.unroll n')) bs := by
  rcases Nat.le_total n n' with hn | hn
  · exact parseBer_le m o d bs hm h hn
  · exact (parseBer_le m o d bs hm h' hn).symm

/-- C83.  What is decoded within some depth is decoded to the same with any greater depth. -/
theorem C83_depth_monotone (m : Build) (o : HashOrder) (d : RecDecl α) (hd : ∀ n, (d.unroll n).deserializable) (n n' : Nat)
    (hn : n ≤ n') (p : Bytes) (hl : p.length ≤ isizeMax) (v : α) :
    (IsDer p → fromDer (Ty.de m o (d.unroll n)) p = .ok v → fromDer (Ty.de m o (d.unroll n')) p = .ok v) ∧
    (IsBer p → fromBer (Ty.de m o (d.unroll n)) p = .ok v → fromBer (Ty.de m o (d.unroll n')) p = .ok v) := by
  constructor
  · rintro ⟨id, b, h1, h2, rfl⟩ h
    rw [fromDer_tlv _ h1 h2, Ty.fromDer_iff m o _ (hd _)] at h ⊢
    exact (Ty.Upto.of_le hn).derVal _ id b v h
  · intro hp h
    obtain ⟨id, indef, raw, hb⟩ := isBer_berValue hp
    have := berValue_length hb
    rw [fromBer_value _ hb, Ty.fromBer_iff m o _ (hd _) _ _ _ _ (by omega)] at h ⊢
    exact (Ty.Upto.of_le hn).berVal _ _ id indef raw v h

/-- C83.  Round trip: a value of a recursive type (without hashed collections and skipped fields) is restored by
`parse_der` and `parse_ber` from its encoding followed by anything, cut at any depth not less than half the number of octets. -/
theorem C83_round_trip (m : Build) (o : HashOrder) (d : RecDecl α) (hs : ∀ n, (d.unroll n).serializable)
    (hd : ∀ n, (d.unroll n).deserializable) (hr : ∀ n, (d.unroll n).restorable) (he : ∀ n, (d.unroll n).exact) (v : α)
    (k : Nat) (hok : (d.unroll k).ok v) (hc : (d.unroll k).convertible v) (rest : Bytes)
    (hfit : ((d.unroll k).der v ++ rest).length ≤ isizeMax) (n : Nat) (hn : ((d.unroll k).der v ++ rest).length / 2 ≤ n) :
    parseDer (Ty.de m o (d.unroll n)) ((d.unroll k).der v ++ rest) = (.ok v, rest) ∧
    parseBer (Ty.de m o (d.unroll n)) ((d.unroll k).der v ++ rest) = (.ok v, rest) := by
  have hfit' : ((d.unroll k).der v).length ≤ isizeMax := by rw [List.length_append] at hfit; omega
  obtain ⟨w, h1, h2⟩ := Ty.derVal_enc o _ (hs k) (hr k) v hok hc hfit'
  obtain ⟨hl, hl', hid⟩ := der_enc_fits (hs k) hfit'
  obtain rfl := Ty.exact_faithful _ (he k) _ _ h2
  have h1' := (Ty.Upto.of_le (d := d) (Nat.le_max_left k n)).derVal _ _ _ _ h1
  rw [C83_parse_der_depth m o d _ n (max k n) hn (Nat.le_trans hn (Nat.le_max_right k n)),
    C83_parse_ber_depth m o d _ hfit n (max k n) hn (Nat.le_trans hn (Nat.le_max_right k n))]
  rw [Ty.der, tlvOf] at hfit ⊢
  rw [C50_parse_der_advances _ _ _ rest hid hl,
    C50_parse_ber_advances (indef := false) _ _ _ _ rest ⟨hid, hl, rfl⟩ hfit]
  exact ⟨Prod.ext ((Ty.fromDer_iff m o _ (hd _) _ _ _).mpr h1') rfl,
    Prod.ext ((Ty.fromBer_iff m o _ (hd _) _ false _ _ hl').mpr (Ty.derVal_berVal _ _ _ _ _ _ h1')) rfl⟩

/-- `struct Tree { val: i32, children: Vec<Tree> }` -/
inductive Tree where
  | node (val : Int) (children : List Tree)

def Tree.fields : Tree → Int × List Tree × Unit
  | .node v c => (v, c, ())

def Tree.ofFields : Int × List Tree × Unit → Tree
  | (v, c, ()) => .node v c

/-- Its declaration. -/
def treeDecl : RecDecl Tree where
  body t := .named (.struct [0x30] (.plain (.int .i32) (.plain (.vec t) .nil))) Tree.fields Tree.ofFields
    (fun v => by cases v; rfl) (fun _ => rfl)
  guarded k _ _ h := .named _ _ _ _ (.struct _ (Nat.le_refl _) (.plain (.refl _ _) (.plain (.vec (Nat.le_succ k) h) (.nil _))))

theorem tree_serializable : ∀ n, (treeDecl.unroll n).serializable
  | 0 => trivial
  | n + 1 => ⟨isId_sequence, trivial, tree_serializable n, trivial⟩

theorem tree_deserializable : ∀ n, (treeDecl.unroll n).deserializable
  | 0 => trivial
  | n + 1 => ⟨trivial, tree_deserializable n, trivial⟩

theorem tree_wellTyped : ∀ n, (treeDecl.unroll n).wellTyped
  | 0 => trivial
  | n + 1 => ⟨trivial, tree_wellTyped n, trivial⟩

theorem tree_restorable : ∀ n, (treeDecl.unroll n).restorable
  | 0 => trivial
  | n + 1 => ⟨trivial, tree_restorable n, trivial⟩

theorem tree_exact : ∀ n, (treeDecl.unroll n).exact
  | 0 => trivial
  | n + 1 => ⟨trivial, tree_exact n, trivial⟩

theorem tree_convertible : ∀ n v, (treeDecl.unroll n).convertible v
  | 0, _ => trivial
  | n + 1, .node _ _ => ⟨trivial, fun x _ => tree_convertible n x, trivial⟩

/-- `{5, [{-1, []}, {7, []}]}` -/
def sampleTree : Tree := .node 5 [.node (-1) [], .node 7 []]

theorem sampleTree_ok : (treeDecl.unroll 2).ok sampleTree := by
  have h5 : IntTy.i32.InRange 5 := by decide
  have h1 : IntTy.i32.InRange (-1) := by decide
  have h7 : IntTy.i32.InRange 7 := by decide
  refine ⟨h5, fun x hx => ?_, trivial⟩
  rcases List.mem_cons.mp hx with rfl | hx
  · exact ⟨h1, fun _ h => (List.not_mem_nil h).elim, trivial⟩
  · cases List.mem_singleton.mp hx
    exact ⟨h7, fun _ h => (List.not_mem_nil h).elim, trivial⟩

theorem sampleTree_der : (treeDecl.unroll 2).der sampleTree =
    [0x30, 0x13, 0x02, 0x01, 0x05, 0x30, 0x0e, 0x30, 0x05, 0x02, 0x01, 0xff, 0x30, 0x00,
      0x30, 0x05, 0x02, 0x01, 0x07, 0x30, 0x00] := by
  decide +kernel

example : treeDecl.IsEnc sampleTree [0x30] [0x02, 0x01, 0x05, 0x30, 0x0e, 0x30, 0x05, 0x02, 0x01, 0xff, 0x30, 0x00,
    0x30, 0x05, 0x02, 0x01, 0x07, 0x30, 0x00] := ⟨2, sampleTree_ok, by decide +kernel⟩

example (m : Build) (o : HashOrder) : parseBer (Ty.de m o (treeDecl.unroll 10)) ((treeDecl.unroll 2).der sampleTree) =
    (.ok sampleTree, []) := by
  have h := (C83_round_trip m o treeDecl tree_serializable tree_deserializable tree_restorable tree_exact sampleTree 2
    sampleTree_ok (tree_convertible 2 _) [] (by rw [sampleTree_der]; decide) 10 (by rw [sampleTree_der]; decide)).2
  rwa [List.append_nil] at h

example (id c : Bytes) (h : treeDecl.IsEnc sampleTree id c) : id = [0x30] :=
  (C83_encoding_unique treeDecl sampleTree id c [0x30] ((treeDecl.unroll 2).enc sampleTree).2 h ⟨2, sampleTree_ok, rfl⟩).1

/-- Unfolded twice or a thousand times, the octets are the same. -/
example (m : Build) : toDer m (Ty.ser m (treeDecl.unroll 1000)) sampleTree = .ok ((treeDecl.unroll 2).der sampleTree) :=
  C83_to_der m treeDecl tree_serializable sampleTree _ _ ⟨2, sampleTree_ok, rfl⟩
    (by change ((treeDecl.unroll 2).der sampleTree).length ≤ _; rw [sampleTree_der]; decide) 2 sampleTree_ok 1000 (by omega)

/-- Four octets cannot be nested more than twice. -/
example (m : Build) (o : HashOrder) (bs : Bytes) (h : bs.length = 4) :
    parseDer (Ty.de m o (treeDecl.unroll 2)) bs = parseDer (Ty.de m o (treeDecl.unroll 1000)) bs ∧
    parseBer (Ty.de m o (treeDecl.unroll 2)) bs = parseBer (Ty.de m o (treeDecl.unroll 1000)) bs :=
  ⟨C83_parse_der_depth m o treeDecl bs 2 1000 (by omega) (by omega),
    C83_parse_ber_depth m o treeDecl bs (by rw [isizeMax_eq]; omega) 2 1000 (by omega) (by omega)⟩

example (m : Build) (o : HashOrder) (h : fromDer (Ty.de m o (treeDecl.unroll 3)) (tlv [0x30] [0x02, 0x01, 0x05, 0x30, 0x00]) = .ok (.node 5 [])) :
    fromDer (Ty.de m o (treeDecl.unroll 9)) (tlv [0x30] [0x02, 0x01, 0x05, 0x30, 0x00]) = .ok (.node 5 []) :=
  (C83_depth_monotone m o treeDecl tree_deserializable 3 9 (by omega) _ (by decide +kernel) _).1
    ⟨[0x30], _, isId_sequence, by decide, rfl⟩ h

/-! ### C84 -/

/-- A tree nested `n` deep. -/
def chain : Nat → Tree
  | 0 => .node 5 []
  | n + 1 => .node 5 [chain n]

theorem chain_ok : ∀ n, (treeDecl.unroll (n + 1)).ok (chain n)
  | 0 => ⟨(by decide : IntTy.i32.InRange 5), fun _ h => (List.not_mem_nil h).elim, trivial⟩
  | n + 1 => ⟨(by decide : IntTy.i32.InRange 5), fun x hx => by cases List.mem_singleton.mp hx; exact chain_ok n, trivial⟩

theorem chain_not_ok : ∀ n, ¬ (treeDecl.unroll n).ok (chain n)
  | 0 => id
  | n + 1 => fun h => chain_not_ok n (h.2.1 (chain n) (List.mem_singleton.mpr rfl))

theorem tree_der (n : Nat) (v : Int) (c : List Tree) : (treeDecl.unroll (n + 1)).der (.node v c) =
    tlv [0x30] (tlvOf ((Ty.int .i32).enc v) ++ (tlv [0x30] (c.flatMap fun x => (treeDecl.unroll n).der x) ++ [])) := rfl

theorem chain_enc (n : Nat) : (treeDecl.unroll (n + 2)).der (chain (n + 1)) =
    tlv [0x30] ([0x02, 0x01, 0x05] ++ tlv [0x30] ((treeDecl.unroll (n + 1)).der (chain n))) := by
  have e : tlvOf ((Ty.int .i32).enc 5) = [0x02, 0x01, 0x05] := by decide +kernel
  rw [chain, tree_der, e, List.append_nil, List.flatMap_singleton]

theorem chain_length : ∀ n, n ≤ 2 ^ 50 → ((treeDecl.unroll (n + 1)).der (chain n)).length ≤ 32 * (n + 1)
  | 0, _ => by decide +kernel
  | n + 1, h => by
    have ih := chain_length n (by omega)
    have e1 := tlv_length [0x30] ((treeDecl.unroll (n + 1)).der (chain n))
    have b1 := lenOctets_length_le (n := ((treeDecl.unroll (n + 1)).der (chain n)).length) (by omega)
    have e2 := tlv_length [0x30] ([0x02, 0x01, 0x05] ++ tlv [0x30] ((treeDecl.unroll (n + 1)).der (chain n)))
    rw [List.length_append, show ([0x02, 0x01, 0x05] : Bytes).length = 3 from rfl] at e2
    rw [show ([0x30] : Bytes).length = 1 from rfl] at e1 e2
    have b2 := lenOctets_length_le
      (n := 3 + (tlv [0x30] ((treeDecl.unroll (n + 1)).der (chain n))).length) (by omega)
    rw [chain_enc]
    omega

/-- C84, negation: no bound on the nesting of calls is kept.  For each depth `n` there are octets, at most 32 for each
level, that are decoded by calls nested `n + 1` deep and by no fewer. -/
theorem C84_nesting_unbounded_violated (m : Build) (o : HashOrder) (n : Nat) (hn : n ≤ 2 ^ 50) :
    ∃ p, IsDer p ∧ p.length ≤ 32 * (n + 1) ∧ fromDer (Ty.de m o (treeDecl.unroll (n + 1))) p = .ok (chain n) ∧
      fromBer (Ty.de m o (treeDecl.unroll (n + 1))) p = .ok (chain n) ∧
      ∀ k ≤ n, (∀ v, fromDer (Ty.de m o (treeDecl.unroll k)) p ≠ .ok v) ∧ ∀ v, fromBer (Ty.de m o (treeDecl.unroll k)) p ≠ .ok v := by
  have hi := isizeMax_eq
  have hlen := chain_length n hn
  have hfit : ((treeDecl.unroll (n + 1)).der (chain n)).length ≤ isizeMax := by omega
  obtain ⟨hl, hl', hid⟩ := der_enc_fits (tree_serializable (n + 1)) hfit
  have hder : IsDer ((treeDecl.unroll (n + 1)).der (chain n)) := ⟨_, _, hid, hl, rfl⟩
  have hber : IsBer ((treeDecl.unroll (n + 1)).der (chain n)) := .definite _ _ hid hl
  have r1 := C43_der_round_trip_exact m m o _ (tree_serializable _) (tree_deserializable _) (tree_restorable _)
    (tree_exact _) _ (chain_ok n) (tree_convertible _ _) hfit
  have r2 := C44_ber_round_trip_exact m m o _ (tree_serializable _) (tree_deserializable _) (tree_restorable _)
    (tree_exact _) _ (chain_ok n) (tree_convertible _ _) hfit
  rw [(C41_to_der m _ (tree_serializable _) _ (chain_ok n) hfit).1, Res.bind_ok] at r1
  rw [(C41_to_der m _ (tree_serializable _) _ (chain_ok n) hfit).2.1, Res.bind_ok] at r2
  refine ⟨_, hder, hlen, r1, r2, fun k hk => ⟨fun v h => ?_, fun v h => ?_⟩⟩
  · have e := (C83_depth_monotone m o treeDecl tree_deserializable k (n + 1) (by omega) _ hfit v).1 hder h
    rw [r1] at e
    cases e
    have := (C68_decoded_valid m o _ (tree_deserializable k) (tree_wellTyped k) _ hfit _).1 hder h
    exact chain_not_ok n ((Ty.Upto.of_le hk).ok _ this).1
  · have e := (C83_depth_monotone m o treeDecl tree_deserializable k (n + 1) (by omega) _ hfit v).2 hber h
    rw [r2] at e
    cases e
    have := (C68_decoded_valid m o _ (tree_deserializable k) (tree_wellTyped k) _ hfit _).2 hber h
    exact chain_not_ok n ((Ty.Upto.of_le hk).ok _ this).1

/-- C84, the part that holds: the nesting is at most half the number of octets of the input (and that is reached,
`C84_nesting_reached`). -/
theorem C84_nesting_partial (m : Build) (o : HashOrder) (d : RecDecl α) (hd : ∀ n, (d.unroll n).deserializable) (p : Bytes)
    (hl : p.length ≤ isizeMax) (n : Nat) (v : α) :
    (IsDer p → fromDer (Ty.de m o (d.unroll n)) p = .ok v → fromDer (Ty.de m o (d.unroll (p.length / 2))) p = .ok v) ∧
    (IsBer p → fromBer (Ty.de m o (d.unroll n)) p = .ok v → fromBer (Ty.de m o (d.unroll (p.length / 2))) p = .ok v) := by
  constructor
  · intro hp h
    obtain ⟨id, b, h1, h2, rfl⟩ := hp
    have e := (C83_depth_monotone m o d hd n (max n ((tlv id b).length / 2)) (Nat.le_max_left _ _) _ hl v).1 ⟨id, b, h1, h2, rfl⟩ h
    have := tlv_contents_lt (b := b) (rest := []) h1 (List.append_nil _).symm
    rw [fromDer_tlv _ h1 h2] at e ⊢
    rw [(Ty.Upto.of_le (Nat.le_max_right n ((tlv id b).length / 2))).agreeDer m o id b (by omega)]
    exact e
  · intro hp h
    have e := (C83_depth_monotone m o d hd n (max n (p.length / 2)) (Nat.le_max_left _ _) _ hl v).2 hp h
    obtain ⟨id, indef, raw, hb⟩ := isBer_berValue hp
    have := berValue_length hb
    rw [fromBer_value _ hb] at e ⊢
    rw [(Ty.Upto.of_le (Nat.le_max_right n (p.length / 2))).agreeBer m o id indef raw (by omega) (by omega)]
    exact e

example (m : Build) (o : HashOrder) : fromDer (Ty.de m o (treeDecl.unroll 2)) ((treeDecl.unroll 2).der (chain 1)) = .ok (chain 1) := by
  have h := C43_der_round_trip_exact m m o _ (tree_serializable _) (tree_deserializable _) (tree_restorable _)
    (tree_exact _) _ (chain_ok 1) (tree_convertible _ _) (by
      have := chain_length 1 (by omega); have := isizeMax_eq; omega)
  rwa [(C41_to_der m _ (tree_serializable _) _ (chain_ok 1) (by
      have := chain_length 1 (by omega); have := isizeMax_eq; omega)).1, Res.bind_ok] at h

/-- `#[bsn1_serde(transparent)] struct Nest(Vec<Nest>)` -/
inductive Nest where
  | mk (inner : List Nest)

def Nest.fields : Nest → List Nest × Unit
  | .mk c => (c, ())

def Nest.ofFields : List Nest × Unit → Nest
  | (c, ()) => .mk c

/-- Its declaration. -/
def nestDecl : RecDecl Nest where
  body t := .named (.transparent (.plain (.vec t) .nil)) Nest.fields Nest.ofFields (fun v => by cases v; rfl) (fun _ => rfl)
  guarded _ _ _ h := .named _ _ _ _ (.transparent (.plain (.vec (Nat.le_refl _) h) (.nil _)))

/-- Nested `n` deep. -/
def nested : Nat → Nest
  | 0 => .mk []
  | n + 1 => .mk [nested n]

theorem nest_serializable : ∀ n, (nestDecl.unroll n).serializable
  | 0 => trivial
  | n + 1 => ⟨rfl, nest_serializable n, trivial⟩

theorem nest_deserializable : ∀ n, (nestDecl.unroll n).deserializable
  | 0 => trivial
  | n + 1 => ⟨rfl, nest_deserializable n, trivial⟩

theorem nest_wellTyped : ∀ n, (nestDecl.unroll n).wellTyped
  | 0 => trivial
  | n + 1 => ⟨nest_wellTyped n, trivial⟩

theorem nest_restorable : ∀ n, (nestDecl.unroll n).restorable
  | 0 => trivial
  | n + 1 => ⟨nest_restorable n, trivial⟩

theorem nest_exact : ∀ n, (nestDecl.unroll n).exact
  | 0 => trivial
  | n + 1 => ⟨nest_exact n, trivial⟩

theorem nest_convertible : ∀ n v, (nestDecl.unroll n).convertible v
  | 0, _ => trivial
  | n + 1, .mk _ => ⟨fun x _ => nest_convertible n x, trivial⟩

theorem nested_ok : ∀ n, (nestDecl.unroll (n + 1)).ok (nested n)
  | 0 => ⟨fun _ h => (List.not_mem_nil h).elim, trivial⟩
  | n + 1 => ⟨fun x hx => by cases List.mem_singleton.mp hx; exact nested_ok n, trivial⟩

theorem nested_not_ok : ∀ n, ¬ (nestDecl.unroll n).ok (nested n)
  | 0 => id
  | n + 1 => fun h => nested_not_ok n (h.1 (nested n) (List.mem_singleton.mpr rfl))

theorem nest_der (n : Nat) (c : List Nest) : (nestDecl.unroll (n + 1)).der (.mk c) =
    tlv [0x30] (c.flatMap fun x => (nestDecl.unroll n).der x) := rfl

theorem nested_length : ∀ n, n ≤ 63 → ((nestDecl.unroll (n + 1)).der (nested n)).length = 2 * (n + 1)
  | 0, _ => by decide +kernel
  | n + 1, h => by
    have ih := nested_length n (by omega)
    rw [nested, nest_der, List.flatMap_singleton, tlv_length, ih, lenOctets, if_pos (by omega)]
    rw [show ([0x30] : Bytes).length = 1 from rfl, List.length_singleton]
    omega

/-- C84.  The bound of `C84_nesting_partial` is reached: for each `n ≤ 63` there are `2 * (n + 1)` octets that are decoded
by calls nested `n + 1` deep and by no fewer.  (A level of nesting takes two octets as long as its length fits in one.) -/
theorem C84_nesting_reached (m : Build) (o : HashOrder) (n : Nat) (hn : n ≤ 63) :
    ∃ p, IsDer p ∧ p.length / 2 = n + 1 ∧ fromDer (Ty.de m o (nestDecl.unroll (n + 1))) p = .ok (nested n) ∧
      fromBer (Ty.de m o (nestDecl.unroll (n + 1))) p = .ok (nested n) ∧
      ∀ k ≤ n, (∀ v, fromDer (Ty.de m o (nestDecl.unroll k)) p ≠ .ok v) ∧ ∀ v, fromBer (Ty.de m o (nestDecl.unroll k)) p ≠ .ok v := by
  have hi := isizeMax_eq
  have hlen := nested_length n hn
  have hfit : ((nestDecl.unroll (n + 1)).der (nested n)).length ≤ isizeMax := by omega
  obtain ⟨hl, hl', hid⟩ := der_enc_fits (nest_serializable (n + 1)) hfit
  have hder : IsDer ((nestDecl.unroll (n + 1)).der (nested n)) := ⟨_, _, hid, hl, rfl⟩
  have hber : IsBer ((nestDecl.unroll (n + 1)).der (nested n)) := .definite _ _ hid hl
  have r1 := C43_der_round_trip_exact m m o _ (nest_serializable _) (nest_deserializable _) (nest_restorable _)
    (nest_exact _) _ (nested_ok n) (nest_convertible _ _) hfit
  have r2 := C44_ber_round_trip_exact m m o _ (nest_serializable _) (nest_deserializable _) (nest_restorable _)
    (nest_exact _) _ (nested_ok n) (nest_convertible _ _) hfit
  rw [(C41_to_der m _ (nest_serializable _) _ (nested_ok n) hfit).1, Res.bind_ok] at r1
  rw [(C41_to_der m _ (nest_serializable _) _ (nested_ok n) hfit).2.1, Res.bind_ok] at r2
  refine ⟨_, hder, by omega, r1, r2, fun k hk => ⟨fun v h => ?_, fun v h => ?_⟩⟩
  · have e := (C83_depth_monotone m o nestDecl nest_deserializable k (n + 1) (by omega) _ hfit v).1 hder h
    rw [r1] at e
    cases e
    have := (C68_decoded_valid m o _ (nest_deserializable k) (nest_wellTyped k) _ hfit _).1 hder h
    exact nested_not_ok n ((Ty.Upto.of_le hk).ok _ this).1
  · have e := (C83_depth_monotone m o nestDecl nest_deserializable k (n + 1) (by omega) _ hfit v).2 hber h
    rw [r2] at e
    cases e
    have := (C68_decoded_valid m o _ (nest_deserializable k) (nest_wellTyped k) _ hfit _).2 hber h
    exact nested_not_ok n ((Ty.Upto.of_le hk).ok _ this).1

/-- `30 04 30 02 30 00` -/
example : (nestDecl.unroll 3).der (nested 2) = [0x30, 0x04, 0x30, 0x02, 0x30, 0x00] := by decide +kernel

end Bsn1
