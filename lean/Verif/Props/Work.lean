import Verif.Props.Rec
import Verif.Lemmas.WorkBound
/-!
# C92: how often decoding looks at the octets
-/

namespace Bsn1
open Spec

variable {α β γ : Type}

/-! ### The decoders that count are the decoders -/

theorem WDe.Same.ofBer {w : WDe α} {d : De α} (h : w.Same d) (p : Bytes) : (w.ofBer p).res = Bsn1.fromBer d p := by
  rw [WDe.ofBer, Work.bind_res, Bsn1.fromBer]
  exact congrArg (Res.bind _) (funext fun ⟨id, l, c⟩ => h.1 id l c)

theorem WDe.Same.ofDer {w : WDe α} {d : De α} (h : w.Same d) (p : Bytes) : (w.ofDer p).res = Bsn1.fromDer d p := by
  rw [WDe.ofDer, Work.bind_res, Bsn1.fromDer]
  exact congrArg (Res.bind _) (funext fun ⟨id, _, c⟩ => h.2 id c)

/-- C92.  The decoders of the model that count octets return what those that do not count return: what is counted is the work of
`from_ber`, `from_der`, `parse_ber` and `parse_der`. -/
theorem C92_same_result (m : Build) (o : HashOrder) (t : Ty α) (bs : Bytes) :
    ((Ty.work m o t).ofBer bs).res = fromBer (Ty.de m o t) bs ∧ ((Ty.work m o t).ofDer bs).res = fromDer (Ty.de m o t) bs ∧
      ((Ty.work m o t).parseBer bs).res = (parseBer (Ty.de m o t) bs).1 ∧ ((Ty.work m o t).parseDer bs).res = (parseDer (Ty.de m o t) bs).1 := by
  have h := Ty.work_same m o t
  refine ⟨h.ofBer bs, h.ofDer bs, ?_, ?_⟩
  · rw [WDe.parseBer, Work.bind_res, parseBer]
    rcases BerRef.parse bs with ⟨_ | _ | _ | _, rest⟩
    · exact h.ofBer _
    · rfl
    · rfl
    · rfl
  · rw [WDe.parseDer, Work.bind_res, parseDer]
    rcases DerRef.parse bs with ⟨_ | _ | _ | _, rest⟩
    · exact h.ofDer _
    · rfl
    · rfl
    · rfl

/-! ### Bounds -/

theorem ofBer_octets (w : WDe α) {p id raw : Bytes} {indef : Bool} (h : BerValue p id indef raw) :
    (w.ofBer p).octets = p.length - raw.length + (w.fromBer id (lenOf indef raw) raw).octets := by
  show (Work.bind _ _).octets = _
  rw [Work.bind, berValue_disassemble h, ← disassembleOctets_value h]

theorem ofDer_octets (w : WDe α) {id b : Bytes} (h1 : IsId id) (h2 : b.length < 2 ^ 64) :
    (w.ofDer (tlv id b)).octets = (tlv id b).length - b.length + (w.fromDer id b).octets := by
  have h : BerValue (tlv id b) id false b := ⟨h1, h2, rfl⟩
  show (Work.bind _ _).octets = _
  rw [Work.bind, show DerRef.disassemble (tlv id b) = _ from berValue_disassemble h, ← disassembleOctets_value h]

/-- What `parse_ber` looks at. -/
theorem parseBer_octets {P : Budget} (hP : P.ForBer) {w : WDe α} {k : Nat} (hw : P.Ber w k) {bs : Bytes} (hb : P.Good bs) :
    (w.parseBer bs).octets ≤ P.φ (k + 1) bs.length := by
  have h := P.parses hb k
  rw [hP.parse, hP.octets] at h
  refine (h.bind (g := fun _ => 0) (R := fun _ => True) fun p _ hp => ?_).octets
  obtain ⟨id, indef, raw, h1, h2, h3⟩ := hp
  have h4 := hw id (lenOf indef raw) raw h2
  have : (w.ofBer p).octets ≤ P.left k (BerRef.parse bs).2 p := by
    rw [ofBer_octets w h1, Budget.left_value h1]
    omega
  exact ⟨this, fun _ _ => ⟨trivial, this⟩⟩

theorem parseDer_octets {P : Budget} (hP : P.ForDer) {w : WDe α} {k : Nat} (hw : P.Der w k) {bs : Bytes} (hb : P.Good bs) :
    (w.parseDer bs).octets ≤ P.φ (k + 1) bs.length := by
  have h := P.parses hb k
  rw [hP.parse, hP.octets] at h
  have h' := h
  refine (h.bind (g := fun _ => 0) (R := fun _ => True) fun p hok hp => ?_).octets
  obtain ⟨id, b, i1, i2, rfl, _⟩ := DerRef_parse_ok (show DerRef.parse bs = (.ok p, (DerRef.parse bs).2) from Prod.ext hok rfl)
  have hv : BerValue (tlv id b) id false b := ⟨i1, i2, rfl⟩
  obtain ⟨id', indef, raw, h1, h2, h3⟩ := hp
  have e := berValue_disassemble h1
  rw [berValue_disassemble hv] at e
  have e2 := Res.ok.inj e
  simp only [Prod.mk.injEq] at e2
  obtain ⟨_, _, rfl⟩ := e2
  have h4 : (w.fromDer id b).octets ≤ _ := hw id (lenOf false b) b h2
  have : (w.ofDer (tlv id b)).octets ≤ P.left k (DerRef.parse bs).2 (tlv id b) := by
    rw [ofDer_octets w i1 i2, Budget.left_value hv]
    omega
  exact ⟨this, fun _ _ => ⟨trivial, this⟩⟩

/-- C92.  DER is decoded by looking at no octet more than three times on the average, whatever the type (so also for every unfolding of a
recursive one), whether or not decoding succeeds: the work is linear in the length of the input. -/
theorem C92_der_linear (m : Build) (o : HashOrder) (t : Ty α) :
    (∀ p, IsDer p → ((Ty.work m o t).ofDer p).octets ≤ 3 * p.length) ∧ ∀ bs, ((Ty.work m o t).parseDer bs).octets ≤ 3 * bs.length := by
  have h := Ty.work_der (P := derBudget) ⟨rfl, rfl⟩ m o t
  refine ⟨?_, fun bs => parseDer_octets (P := derBudget) ⟨rfl, rfl⟩ h trivial⟩
  rintro p ⟨id, b, h1, h2, rfl⟩
  have h3 : ((Ty.work m o t).fromDer id b).octets ≤ 3 * b.length := h id (.definite 0) b trivial
  rw [ofDer_octets _ h1 h2]
  have := tlv_length id b
  omega

/-- C92.  BER is decoded by looking at each octet, on the average, no more often than there are levels in the type, and two or three times more: for a
type that is not recursive the work is linear in the length of the input. -/
theorem C92_ber_levels (m : Build) (o : HashOrder) (t : Ty α) (bs : Bytes) (hl : bs.length ≤ isizeMax) :
    (IsBer bs → ((Ty.work m o t).ofBer bs).octets ≤ (t.levels + 2) * bs.length) ∧
      ((Ty.work m o t).parseBer bs).octets ≤ (t.levels + 3) * bs.length := by
  have h := Ty.work_ber (P := levelsBudget) ⟨rfl, rfl⟩ m o t
  refine ⟨fun hp => ?_, parseBer_octets (P := levelsBudget) ⟨rfl, rfl⟩ h hl⟩
  obtain ⟨id, indef, raw, hv⟩ := isBer_berValue hp
  have := berValue_length hv
  have h3 : _ ≤ (t.levels + 2) * raw.length := h id (lenOf indef raw) raw (show raw.length ≤ isizeMax by omega)
  rw [ofBer_octets _ hv]
  have h4 : (t.levels + 2) * bs.length = (t.levels + 2) * raw.length + (t.levels + 2) * (bs.length - raw.length) := by
    rw [← Nat.mul_add, show raw.length + (bs.length - raw.length) = bs.length by omega]
  have h5 : 1 * (bs.length - raw.length) ≤ (t.levels + 2) * (bs.length - raw.length) := Nat.mul_le_mul_right _ (by omega)
  omega

/-- C92.  Without indefinite lengths in the input, BER is decoded with the work of DER, whatever the type. -/
theorem C92_ber_definite (m : Build) (o : HashOrder) (t : Ty α) (bs : Bytes) (hl : bs.length ≤ isizeMax) (hn : NoIndefinite bs) :
    (IsBer bs → ((Ty.work m o t).ofBer bs).octets ≤ 3 * bs.length) ∧ ((Ty.work m o t).parseBer bs).octets ≤ 3 * bs.length := by
  have h := Ty.work_ber (P := definiteBudget) ⟨rfl, rfl⟩ m o t
  refine ⟨fun hp => ?_, parseBer_octets (P := definiteBudget) ⟨rfl, rfl⟩ h ⟨hl, hn⟩⟩
  obtain ⟨id, indef, raw, hv⟩ := isBer_berValue hp
  have := berValue_length hv
  have h3 : _ ≤ 3 * raw.length := h id (lenOf indef raw) raw
    ⟨by omega, fun p' id' raw' hp' => hn p' id' raw' (hp'.trans (value_infix hv))⟩
  rw [ofBer_octets _ hv]
  omega

/-- C92, in part.  Whatever the type and the input, the work of decoding BER is at most quadratic.  (It is not linear: `C92_ber_linear_violated`.) -/
theorem C92_ber_quadratic_partial (m : Build) (o : HashOrder) (t : Ty α) (bs : Bytes) (hl : bs.length ≤ isizeMax) :
    (IsBer bs → ((Ty.work m o t).ofBer bs).octets ≤ bs.length * bs.length / 4 + 3 * bs.length) ∧
      ((Ty.work m o t).parseBer bs).octets ≤ bs.length * bs.length / 4 + 3 * bs.length := by
  have h := Ty.work_ber (P := anyBudget) ⟨rfl, rfl⟩ m o t
  refine ⟨fun hp => ?_, parseBer_octets (P := anyBudget) ⟨rfl, rfl⟩ h hl⟩
  obtain ⟨id, indef, raw, hv⟩ := isBer_berValue hp
  have := berValue_length hv
  have h3 : _ ≤ raw.length * raw.length / 4 + 3 * raw.length := h id (lenOf indef raw) raw (show raw.length ≤ isizeMax by omega)
  have h4 : raw.length * raw.length / 4 ≤ bs.length * bs.length / 4 := Nat.div_le_div_right (Nat.mul_le_mul (by omega) (by omega))
  rw [ofBer_octets _ hv]
  omega

/-! ### Nested indefinite lengths -/

/-- `n` values of indefinite length inside each other. -/
def deep : Nat → Bytes
  | 0 => []
  | n + 1 => [0x30] ++ indefOctets ++ deep n ++ eoc

theorem deep_length : ∀ n, (deep n).length = 4 * n
  | 0 => rfl
  | n + 1 => by
    rw [deep, List.length_append, List.length_append, deep_length n]
    simp [indefOctets, eoc]
    omega

theorem isId_30 : IsId [0x30] := ⟨0, 1, 16, by decide, by decide, by decide +kernel⟩

theorem deep_seq : ∀ n, BerSeq (deep n)
  | 0 => .nil
  | n + 1 => by
    have h := BerSeq.cons (deep (n + 1)) [] (.indefinite [0x30] (deep n) isId_30 (deep_seq n))
      (fun h => by simp [deep, eoc] at h) .nil
    rwa [List.append_nil] at h

theorem deep_isBer (n : Nat) : IsBer (deep (n + 1)) := .indefinite [0x30] (deep n) isId_30 (deep_seq n)

theorem deep_value (n : Nat) : BerValue (deep (n + 1)) [0x30] true (deep n ++ eoc) :=
  ⟨isId_30, deep n, deep_seq n, rfl, by rw [deep, List.append_assoc]⟩

theorem doParseOctets_open (r : Bytes) : BerRef.doParseOctets ([0x30] ++ indefOctets ++ r) = 2 := by
  have h := headerOctets_indef isId_30 r
  rw [BerRef.doParseOctets, if_neg (by simp [BerRef.eoc]), h]
  rfl

theorem doParseOctets_close (r : Bytes) : BerRef.doParseOctets (eoc ++ r) = 2 := by
  rw [BerRef.doParseOctets, if_pos (by simp [BerRef.eoc, eoc])]
  rfl

theorem parseLoopOctets_open (f : Nat) (d : Nat) (hd : (d : Int) + 1 ≤ isizeMax) (r : Bytes) :
    BerRef.parseLoopOctets (f + 1) d ([0x30] ++ indefOctets ++ r) = 2 + BerRef.parseLoopOctets f ((d + 1 : Nat) : Int) r := by
  rw [BerRef.parseLoopOctets, doParse_indefinite isId_30, doParseOctets_open]
  simp only
  rw [if_neg (by omega), if_pos (by omega)]
  rfl

theorem parseLoopOctets_close (f : Nat) (d : Nat) (hd : (d : Int) + 1 ≤ isizeMax) (r : Bytes) :
    BerRef.parseLoopOctets (f + 1) ((d + 1 : Nat) : Int) (eoc ++ r) = 2 + if d = 0 then 0 else BerRef.parseLoopOctets f d r := by
  rw [BerRef.parseLoopOctets, doParse_eoc, doParseOctets_close]
  simp only
  rw [if_neg (by omega)]
  by_cases h : d = 0
  · rw [if_pos h, if_neg (by omega)]
  · rw [if_neg h, if_pos (by omega), show ((d + 1 : Nat) : Int) + -1 = d by omega]

theorem parseLoopOctets_deep (n : Nat) : ∀ (f d : Nat) (r : Bytes), (d : Int) + n + 1 ≤ isizeMax →
    BerRef.parseLoopOctets (f + 2 * (n + 1)) d (deep (n + 1) ++ r) = 4 * (n + 1) + if d = 0 then 0 else BerRef.parseLoopOctets f d r := by
  induction n with
  | zero =>
    intro f d r h
    rw [show deep (0 + 1) ++ r = [0x30] ++ indefOctets ++ (eoc ++ r) by simp [deep], show f + 2 * (0 + 1) = f + 1 + 1 by omega,
      parseLoopOctets_open _ _ (by omega), parseLoopOctets_close _ _ (by omega)]
    omega
  | succ n ih =>
    intro f d r h
    rw [show deep (n + 1 + 1) ++ r = [0x30] ++ indefOctets ++ (deep (n + 1) ++ (eoc ++ r)) by rw [deep]; simp only [List.append_assoc],
      show f + 2 * (n + 1 + 1) = f + 1 + 2 * (n + 1) + 1 by omega, parseLoopOctets_open _ _ (by omega),
      ih (f + 1) (d + 1) _ (by omega), if_neg (by omega), parseLoopOctets_close _ _ (by omega)]
    omega

theorem parseOctets_deep (n : Nat) (h : 4 * (n + 1) ≤ isizeMax) : BerRef.parseOctets (deep (n + 1)) = 4 * (n + 1) := by
  have e := parseLoopOctets_deep n (2 * (n + 1) + 1) 0 [] (by omega)
  rw [List.append_nil, if_pos rfl] at e
  rw [BerRef.parseOctets, deep_length, show 4 * (n + 1) + 1 = 2 * (n + 1) + 1 + 2 * (n + 1) by omega]
  exact e

theorem Work.bind_step {x : Work α} {f : α → Work β} {a : α} {r : Res β} {n k : Nat} (hx : x = ⟨.ok a, n⟩) (hf : f a = ⟨r, k⟩) :
    (x >>= f) = ⟨r, n + k⟩ := by
  rw [hx]
  show (⟨(f a).res, n + (f a).octets⟩ : Work β) = _
  rw [hf]

theorem nest_step (m : Build) (o : HashOrder) (n : Nat) (c : Bytes) (l : List Nest) (w : Nat)
    (h : Work.collect (Ty.work m o (nestDecl.unroll n)).berToVal (fun ret t => ret ++ [t]) c [] = ⟨.ok l, w⟩) :
    (Ty.work m o (nestDecl.unroll (n + 1))).fromBer [0x30] .indefinite (c ++ eoc) = ⟨.ok (.mk l), w⟩ := by
  have hx : excludeEoc m .indefinite (c ++ eoc) = .ok c := (excludeEoc_iff m true (c ++ eoc) c).mpr rfl
  have e : (Ty.work m o (.vec (nestDecl.unroll n))).fromBer [0x30] .indefinite (c ++ eoc) = ⟨.ok l, w⟩ := by
    rw [Ty.work]
    simp only [WDe.coll]
    rw [if_neg (by decide), hx]
    exact (Work.bind_step (n := 0) rfl (Work.bind_step h rfl)).trans (by rw [Nat.zero_add, Nat.add_zero])
  have e2 : Work.fieldsTransparent (fun d => d.fromBer [0x30] .indefinite (c ++ eoc))
      (.cons (.plain (Ty.work m o (.vec (nestDecl.unroll n)))) .nil) = ⟨.ok (l, ()), w⟩ := by
    rw [Work.fieldsTransparent, Work.fieldTransparent, e]
    rfl
  exact Work.bind_step (f := fun v => Work.free (.ok (Nest.ofFields v))) e2 rfl

theorem nest_work (m : Build) (o : HashOrder) (n : Nat) : 4 * (n + 1) ≤ isizeMax →
    (Ty.work m o (nestDecl.unroll (n + 1))).fromBer [0x30] .indefinite (deep n ++ eoc) = ⟨.ok (nested n), 2 * (n * n) + 4 * n⟩ := by
  induction n with
  | zero => exact fun _ => nest_step m o 0 [] [] 0 rfl
  | succ n ih =>
    intro hn
    refine nest_step m o (n + 1) (deep (n + 1)) [nested n] _ ?_
    have hv := deep_value n
    have hp := BerRef_parse_ok (rest := []) (deep_isBer n) (by rw [List.append_nil, deep_length]; omega)
    rw [List.append_nil] at hp
    have hd : disassembleOctets (deep (n + 1)) = 2 := by
      rw [disassembleOctets_value hv, List.length_append, deep_length, deep_length, show eoc.length = 2 from rfl]
      omega
    have e1 : (Ty.work m o (nestDecl.unroll (n + 1))).berToVal (deep (n + 1)) =
        ⟨.ok (some (nested n, [])), 4 * (n + 1) + (2 + (2 * (n * n) + 4 * n + 0))⟩ := by
      rw [WDe.berToVal, if_neg (by simp [deep]), hp, parseOctets_deep n (by omega)]
      refine Work.bind_step rfl ?_
      rw [berValue_disassemble hv, hd]
      refine Work.bind_step rfl ?_
      show (Work.context ((Ty.work m o (nestDecl.unroll (n + 1))).fromBer [0x30] .indefinite (deep n ++ eoc)) >>= _) = _
      rw [ih (by omega)]
      exact Work.bind_step rfl rfl
    rw [Work.collect, deep_length, show 4 * (n + 1) + 1 = (4 * n + 3) + 1 + 1 by omega]
    have e2 : Work.collectLoop (Ty.work m o (nestDecl.unroll (n + 1))).berToVal (fun ret t => ret ++ [t]) (4 * n + 3 + 1) [] [nested n] =
        ⟨.ok [nested n], 0⟩ := rfl
    rw [Work.collectLoop]
    refine (Work.bind_step e1 e2).trans ?_
    congr 1
    simp only [Nat.add_mul, Nat.mul_add]
    omega

/-- C92 fails for BER: for the recursive type `struct Nest(Vec<Nest>)` (transparent) and for every `n` there is a BER value of `4 * (n + 1)` octets which is
decoded, with success, by looking at exactly an eighth of the square of its length.  At each level all that is below is gone
through by `BerRef::parse` to find the end. -/
theorem C92_ber_linear_violated (m : Build) (o : HashOrder) (n : Nat) (hn : 4 * (n + 1) ≤ isizeMax) :
    ∃ p, IsBer p ∧ p.length = 4 * (n + 1) ∧ fromBer (Ty.de m o (nestDecl.unroll (n + 1))) p = .ok (nested n) ∧
      8 * ((Ty.work m o (nestDecl.unroll (n + 1))).ofBer p).octets = p.length * p.length := by
  have h := nest_work m o n hn
  have hv := deep_value n
  have hr := (C92_same_result m o (nestDecl.unroll (n + 1)) (deep (n + 1))).1
  refine ⟨deep (n + 1), deep_isBer n, deep_length _, ?_, ?_⟩
  · rw [fromBer_value _ hv, ← (Ty.work_same m o (nestDecl.unroll (n + 1))).1]
    show ((Ty.work m o (nestDecl.unroll (n + 1))).fromBer [0x30] .indefinite (deep n ++ eoc)).res = _
    rw [h]
  · rw [ofBer_octets _ hv]
    show 8 * (_ + ((Ty.work m o (nestDecl.unroll (n + 1))).fromBer [0x30] .indefinite (deep n ++ eoc)).octets) = _
    rw [h, List.length_append, deep_length, deep_length, show eoc.length = 2 from rfl, show 4 * (n + 1) - (4 * n + 2) = 2 by omega]
    ring

/-- C92.  As above, a thousand levels: 4000 octets, two million looks. -/
example (m : Build) (o : HashOrder) : ∃ p, IsBer p ∧ p.length = 4000 ∧ ((Ty.work m o (nestDecl.unroll 1000)).ofBer p).octets = 2000000 := by
  obtain ⟨p, h1, h2, _, h3⟩ := C92_ber_linear_violated m o 999 (by rw [isizeMax_eq]; omega)
  rw [h2] at h3
  exact ⟨p, h1, by omega, Nat.eq_of_mul_eq_mul_left (by omega : 0 < 8) (h3.trans (by norm_num))⟩

/-! ### Cases -/

/-- Hashed collections iterated as inserted. -/
def listOrder : HashOrder := ⟨fun _ l => l, fun _ _ => .refl _⟩

/-- `vec![1, 2]` in DER: 8 octets; the outer header once, the headers of the elements twice, their contents once. -/
example (m : Build) :
    ((Ty.work m listOrder (.vec (.int .u8))).ofDer [0x30, 0x06, 0x02, 0x01, 0x01, 0x02, 0x01, 0x02]).octets = 2 + 2 * (2 + 2 + 1) := by
  cases m <;> decide +kernel

/-- The same with indefinite length: the elements are still skipped over. -/
example (m : Build) :
    ((Ty.work m listOrder (.vec (.int .u8))).ofBer [0x30, 0x80, 0x02, 0x01, 0x01, 0x02, 0x01, 0x02, 0x00, 0x00]).octets = 2 + 2 * (2 + 2 + 1) := by
  cases m <;> decide +kernel

/-- A failure is not more work. -/
example (m : Build) :
    ((Ty.work m listOrder (.vec (.int .u8))).ofDer [0x30, 0x06, 0x02, 0x01, 0x01, 0x02, 0x02, 0x02]).octets = 2 + (2 + 2 + 1) + 2 := by
  cases m <;> decide +kernel

example : (Ty.levels (.vec (.btreeMap (α := Int) compare inferInstance inferInstance (.int .u8) (.vec .bool)))) = 4 := rfl

/-- `02 01 80` has no part of indefinite length, although it contains `80`: that would be at least four octets. -/
example : NoIndefinite [0x02, 0x01, 0x80] := by
  rintro p id raw hp ⟨hid, c, hc, rfl, rfl⟩
  have h1 := hp.length_le
  have h2 := isId_length_pos hid
  rw [List.length_append, List.length_append, List.length_append, show eoc.length = 2 from rfl, show indefOctets.length = 1 from rfl] at h1
  simp only [List.length_cons, List.length_nil] at h1
  omega

example (m : Build) : (((Ty.work m listOrder (.vec .bool)).ofBer [0x30, 0x80, 0x01, 0x01, 0xff, 0x00, 0x00]).res = .ok [true]) :=
  (C92_same_result m listOrder (.vec .bool) _).1.trans (by cases m <;> decide +kernel)

example (m : Build) (o : HashOrder) (c : Bytes) (hc : c.length < 2 ^ 64) :
    ((Ty.work m o (.vec (.vec (.vec .bool)))).ofDer (tlv [0x30] c)).octets ≤ 3 * (tlv [0x30] c).length :=
  (C92_der_linear m o _).1 _ ⟨[0x30], c, isId_30, hc, rfl⟩

/-- Two levels of sequences: each octet is looked at four times at most. -/
example (m : Build) (o : HashOrder) (c : Bytes) (h : IsBer (tlv [0x30] c)) (hl : (tlv [0x30] c).length ≤ isizeMax) :
    ((Ty.work m o (.vec (.vec .bool))).ofBer (tlv [0x30] c)).octets ≤ 4 * (tlv [0x30] c).length :=
  (C92_ber_levels m o (.vec (.vec .bool)) _ hl).1 h

example (m : Build) (o : HashOrder) (t : Ty α) (hn : NoIndefinite [0x02, 0x01, 0x80]) :
    ((Ty.work m o t).parseBer [0x02, 0x01, 0x80]).octets ≤ 9 :=
  (C92_ber_definite m o t _ (by decide) hn).2

example (m : Build) (o : HashOrder) (t : Ty α) (bs : Bytes) (h : bs.length = 100) :
    ((Ty.work m o t).parseBer bs).octets ≤ 2800 := by
  have := (C92_ber_quadratic_partial m o t bs (by rw [isizeMax_eq]; omega)).2
  rw [h] at this
  omega

end Bsn1
