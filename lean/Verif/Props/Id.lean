import Verif.Lemmas.Id
/-!
# C06 – C12: identifiers
-/

namespace Bsn1
open Spec

/-- **C06.** The identifier built by `Id::new` reports the class, the flag and the number it was built from. -/
theorem C06_id_new_faithful (junk : UInt8) (c : ClassTag) (p : PCTag) (n : Nat) (h : n < 2 ^ 128) :
    ∃ id, Id.new junk c p n = .ok id ∧ IdRef.clazz id = .ok c ∧ IdRef.pc id = .ok p ∧
      IdRef.number id = .ok n := by
  refine ⟨_, idNew_eq junk c p h, clazz_idOctets c p n, pc_idOctets c p n, ?_⟩
  rw [number_idOctets _ _ _ (classNum_lt c) (pcNum_lt p), if_pos h]

example := C06_id_new_faithful 0xaa .contextSpecific .constructed 300 (by norm_num)

/-- **C06.** The octets are those of X.690. -/
theorem C06_id_new_octets (junk : UInt8) (c : ClassTag) (p : PCTag) (n : Nat) (h : n < 2 ^ 128) :
    Id.new junk c p n = .ok (idOctets (classNum c) (pcNum p) n) := idNew_eq junk c p h

example : (2 ^ 128 - 1 < 2 ^ 128) ∧ Id.new 0xaa .contextSpecific .constructed 300 = .ok [0xbf, 0x82, 0x2c] ∧
    Id.new 0xaa .universal .primitive 30 = .ok [0x1e] ∧ Id.new 0 .priv .primitive 31 = .ok [0xdf, 0x1f] :=
  ⟨by norm_num, by decide +kernel, by decide +kernel, by decide +kernel⟩

theorem IdRef_parse_shape {l : Bytes} (h : IdShape l) (rest : Bytes) :
    IdRef.parse (l ++ rest) = (.ok l, rest) := by
  simp only [IdRef.parse, parseId_shape h, sliceTo]
  rw [if_pos (by simp)]
  simp

/-- **C07.** `IdRef::parse` and `Id::parse` of the octets of an identifier built by `Id::new` followed by any octets. -/
theorem C07_id_parse_roundtrip (junk : UInt8) (c : ClassTag) (p : PCTag) (n : Nat) (h : n < 2 ^ 128)
    (rest : Bytes) :
    ∃ id, Id.new junk c p n = .ok id ∧ IdRef.parse (id ++ rest) = (.ok id, rest) ∧
      Id.parse (id ++ rest) = (.ok id, rest) := by
  have hs := idOctets_shape (classNum c) (pcNum p) n (classNum_lt c) (pcNum_lt p)
  refine ⟨_, idNew_eq junk c p h, IdRef_parse_shape hs rest, ?_⟩
  simp only [Id.parse, parseId_shape hs]
  rfl

example : ∃ id, Id.new 0 .application .primitive (2 ^ 100) = .ok id ∧
    IdRef.parse (id ++ [1, 2, 3]) = (.ok id, [1, 2, 3]) ∧ id.length = 16 :=
  ⟨[0x5f, 0x84, 0x80, 0x80, 0x80, 0x80, 0x80, 0x80, 0x80, 0x80, 0x80, 0x80, 0x80, 0x80, 0x80, 0x00],
    by decide +kernel, by decide +kernel, rfl⟩

/-- **C08.** `IdRef::parse` of `bs` gives `id` and leaves `rest` iff `id` is the shortest encoding of some class, flag and
(unbounded) number and `bs` is `id` followed by `rest`. -/
theorem C08_id_parse_iff (bs id rest : Bytes) :
    IdRef.parse bs = (.ok id, rest) ↔ IsId id ∧ bs = id ++ rest := by
  constructor
  · intro h
    simp only [IdRef.parse] at h
    have hspec := parseId_spec bs []
    generalize (parseId (σ := Bytes)).run bs [] = r at h hspec
    cases hspec with
    | ok l rest' h1 h2 =>
      subst h2
      simp only [sliceTo] at h
      rw [if_pos (by simp)] at h
      simp only [List.take_left', Prod.mk.injEq, Res.ok.injEq] at h
      obtain ⟨rfl, rfl⟩ := h
      exact ⟨(isId_iff_shape _).mpr h1, rfl⟩
    | redundant => simp at h
    | unterminated => simp at h
  · rintro ⟨h, rfl⟩
    exact IdRef_parse_shape ((isId_iff_shape _).mp h) rest

example : IdRef.parse [0x1f, 0x81, 0x00, 0x07] = (.ok [0x1f, 0x81, 0x00], [0x07]) :=
  (C08_id_parse_iff _ _ _).2 ⟨⟨0, 0, 128, by decide, by decide, by simp [idOctets, contOctets, baseDigits]⟩, rfl⟩

/-- **C08.** `number()` of a shortest encoding of number `n` (of any size): `Ok(n)` below `2^128`, `OverFlow` above. -/
theorem C08_id_number (c p n : Nat) (hc : c < 4) (hp : p < 2) :
    (n < 2 ^ 128 → IdRef.number (idOctets c p n) = .ok n) ∧
    (2 ^ 128 ≤ n → IdRef.number (idOctets c p n) = .err .overFlow) := by
  rw [number_idOctets c p n hc hp]
  exact ⟨fun h => if_pos h, fun h => if_neg (by omega)⟩

/-- The largest number of a `u128`, and the next one. -/
example : IdRef.number (idOctets 1 0 (2 ^ 128 - 1)) = .ok (2 ^ 128 - 1) ∧ IdRef.number (idOctets 1 0 (2 ^ 128)) = .err .overFlow :=
  ⟨(C08_id_number 1 0 _ (by decide) (by decide)).1 (by norm_num), (C08_id_number 1 0 _ (by decide) (by decide)).2 (by norm_num)⟩

/-- **C08.** The errors: when nothing is accepted, the error is `RedundantBytes` iff the long form starts with a digit octet
`0x80` (leading zero) or below 31 (short form possible), and `UnterminatedBytes` otherwise. -/
theorem C08_id_parse_errors (bs : Bytes) :
    (∃ id rest, IdRef.parse bs = (.ok id, rest)) ∨
    (IdRef.parse bs = (.err .redundantBytes, bs) ∧
      ∃ b o r, bs = b :: o :: r ∧ b.toNat % 32 = 31 ∧ (o.toNat < 31 ∨ o.toNat = 128)) ∨
    (IdRef.parse bs = (.err .unterminatedBytes, bs) ∧
      ¬ ∃ b o r, bs = b :: o :: r ∧ b.toNat % 32 = 31 ∧ (o.toNat < 31 ∨ o.toNat = 128)) := by
  simp only [IdRef.parse]
  have hspec := parseId_spec bs []
  generalize (parseId (σ := Bytes)).run bs [] = r at hspec
  cases hspec with
  | ok l rest' h1 h2 =>
    subst h2
    left
    refine ⟨l, rest', ?_⟩
    simp only [sliceTo]
    rw [if_pos (by simp)]
    simp
  | redundant b o r h1 h2 h3 => right; left; exact ⟨rfl, b, o, r, h1, h2, h3⟩
  | unterminated w' h1 h2 =>
    right; right
    refine ⟨rfl, ?_⟩
    rintro ⟨b, o, r, h3, h4, h5⟩
    have := h2 b o r h3 h4
    omega

example : IdRef.parse [0x1f, 0x81, 0x00, 0x07] = (.ok [0x1f, 0x81, 0x00], [0x07]) ∧
    idOctets 0 0 128 = [0x1f, 0x81, 0x00] ∧
    IdRef.number (0x1f :: 0x84 :: List.replicate 17 0x80 ++ [0x00]) = .err .overFlow ∧
    IdRef.number (0x1f :: 0x83 :: List.replicate 17 0xff ++ [0x7f]) = .ok (2 ^ 128 - 1) :=
  ⟨by decide +kernel, by simp [idOctets, contOctets, baseDigits], by decide +kernel, by decide +kernel⟩

/-- **C09.** Two identifiers are byte-equal iff class, flag and (mathematical) number are equal. -/
theorem C09_id_eq_iff (c c' : ClassTag) (p p' : PCTag) (n n' : Nat) :
    idOctets (classNum c) (pcNum p) n = idOctets (classNum c') (pcNum p') n' ↔
      c = c' ∧ p = p' ∧ n = n' := by
  constructor
  · intro h
    obtain ⟨h1, h2, h3⟩ := idOctets_inj (classNum_lt c) (pcNum_lt p) (classNum_lt c') (pcNum_lt p') h
    exact ⟨classNum_inj h1, pcNum_inj h2, h3⟩
  · rintro ⟨rfl, rfl, rfl⟩; rfl

/-- They differ in one flag only. -/
example : idOctets (classNum .priv) (pcNum .primitive) 70000 ≠ idOctets (classNum .priv) (pcNum .constructed) 70000 :=
  fun h => by simpa using (C09_id_eq_iff _ _ _ _ _ _).1 h

/-- Every accepted identifier is that of a class, a flag and a number, which it reports. -/
theorem isId_attrs {id : Bytes} (h : IsId id) :
    ∃ c p n, id = idOctets (classNum c) (pcNum p) n ∧ IdRef.clazz id = .ok c ∧ IdRef.pc id = .ok p ∧
      IdRef.number id = if n < 2 ^ 128 then .ok n else .err .overFlow := by
  obtain ⟨c, p, n, hc, hp, rfl⟩ := h
  obtain ⟨c', rfl⟩ : ∃ c', classNum c' = c := by
    match c, hc with
    | 0, _ => exact ⟨.universal, rfl⟩
    | 1, _ => exact ⟨.application, rfl⟩
    | 2, _ => exact ⟨.contextSpecific, rfl⟩
    | 3, _ => exact ⟨.priv, rfl⟩
  obtain ⟨p', rfl⟩ : ∃ p', pcNum p' = p := by
    match p, hp with
    | 0, _ => exact ⟨.primitive, rfl⟩
    | 1, _ => exact ⟨.constructed, rfl⟩
  exact ⟨c', p', n, rfl, clazz_idOctets c' p' n, pc_idOctets c' p' n, number_idOctets _ _ _ hc hp⟩

/-- **C09.** Two parsed identifiers with `number()` `Ok` are byte-equal iff `class()`, `pc()` and `number()` agree. -/
theorem C09_parsed_eq_iff (bs bs' id id' rest rest' : Bytes) (h : IdRef.parse bs = (.ok id, rest))
    (h' : IdRef.parse bs' = (.ok id', rest')) (n n' : Nat) (hn : IdRef.number id = .ok n)
    (hn' : IdRef.number id' = .ok n') :
    id = id' ↔ IdRef.clazz id = IdRef.clazz id' ∧ IdRef.pc id = IdRef.pc id' ∧ n = n' := by
  obtain ⟨c, p, m, h1, h2, h3, h4⟩ := isId_attrs ((C08_id_parse_iff _ _ _).mp h).1
  obtain ⟨c', p', m', h1', h2', h3', h4'⟩ := isId_attrs ((C08_id_parse_iff _ _ _).mp h').1
  have e : m = n := by
    rw [h4] at hn; split at hn <;> simp_all
  have e' : m' = n' := by
    rw [h4'] at hn'; split at hn' <;> simp_all
  subst e e'
  rw [h2, h3, h2', h3', h1, h1', C09_id_eq_iff]
  simp

example := C09_parsed_eq_iff [0x7f, 0x1f, 0x05] [0x7f, 0x20] [0x7f, 0x1f] [0x7f, 0x20] [0x05] [] (by decide +kernel) (by decide +kernel) 31 32
  (by decide +kernel) (by decide +kernel)

/-- **C09.** Every parsed identifier whose `number()` is `Ok(n)` equals `Id::new(class, pc, n)`. -/
theorem C09_parsed_eq_new (junk : UInt8) (bs id rest : Bytes) (h : IdRef.parse bs = (.ok id, rest)) (n : Nat)
    (hn : IdRef.number id = .ok n) :
    ∃ c p, IdRef.clazz id = .ok c ∧ IdRef.pc id = .ok p ∧ Id.new junk c p n = .ok id := by
  obtain ⟨c, p, m, h1, h2, h3, h4⟩ := isId_attrs ((C08_id_parse_iff _ _ _).mp h).1
  rw [h4] at hn
  split at hn
  · rename_i hm
    simp only [Res.ok.injEq] at hn
    subst hn
    exact ⟨c, p, h2, h3, by rw [idNew_eq junk c p hm, h1]⟩
  · simp at hn

example : IdRef.parse [0x7f, 0x1f, 0x05] = (.ok [0x7f, 0x1f], [0x05]) ∧
    IdRef.number [0x7f, 0x1f] = .ok 31 ∧ Id.new 0 .application .constructed 31 = .ok [0x7f, 0x1f] :=
  ⟨by decide +kernel, by decide +kernel, by decide +kernel⟩

/-! ### C10 -/

/-- A call of a setter of `Id`; `junk` is what a newly reserved cell happens to hold. -/
inductive IdOp where
  | setClass (c : ClassTag)
  | setPc (p : PCTag)
  | setNumber (junk : UInt8) (n : Nat)

/-- The arguments are values of their Rust types. -/
def IdOp.Valid : IdOp → Prop
  | .setNumber _ n => n < 2 ^ 128
  | _ => True

/-- The code of the call. -/
def IdOp.run (id : Bytes) : IdOp → Res Bytes
  | .setClass c => IdRef.setClass id c
  | .setPc p => IdRef.setPc id p
  | .setNumber junk n => Id.setNumber junk id n

/-- The calls one after the other. -/
def IdOp.runAll (id : Bytes) : List IdOp → Res Bytes
  | [] => .ok id
  | op :: r => do
    let id ← op.run id
    IdOp.runAll id r

/-- The last class set, or `c`. -/
def Spec.lastClass (c : ClassTag) : List IdOp → ClassTag
  | [] => c
  | .setClass c' :: r => lastClass c' r
  | _ :: r => lastClass c r
/-- The last flag set, or `p`. -/
def Spec.lastPc (p : PCTag) : List IdOp → PCTag
  | [] => p
  | .setPc p' :: r => lastPc p' r
  | _ :: r => lastPc p r
/-- The last number set, or `n`. -/
def Spec.lastNumber (n : Nat) : List IdOp → Nat
  | [] => n
  | .setNumber _ n' :: r => lastNumber n' r
  | _ :: r => lastNumber n r

/-- **C10.** After any history of setter calls on an identifier (of a number of any size) the octets are those of the last
class, flag and number set. -/
theorem C10_id_setters_octets (c : ClassTag) (p : PCTag) (n : Nat) (ops : List IdOp)
    (hv : ∀ op ∈ ops, op.Valid) :
    IdOp.runAll (idOctets (classNum c) (pcNum p) n) ops =
      .ok (idOctets (classNum (lastClass c ops)) (pcNum (lastPc p ops)) (lastNumber n ops)) := by
  induction ops generalizing c p n with
  | nil => rfl
  | cons op r ih =>
    have hr := fun c p n => ih c p n (fun o ho => hv o (by simp [ho]))
    have h0 := hv op (by simp)
    cases op with
    | setClass c' =>
      simp only [IdOp.runAll, IdOp.run, setClass_idOctets, Res.bind_ok, hr, lastClass, lastPc, lastNumber]
    | setPc p' =>
      simp only [IdOp.runAll, IdOp.run, setPc_idOctets, Res.bind_ok, hr, lastClass, lastPc, lastNumber]
    | setNumber junk n' =>
      simp only [IdOp.runAll, IdOp.run, setNumber_idOctets junk c p n h0, Res.bind_ok, hr, lastClass, lastPc,
        lastNumber]

example := C10_id_setters_octets .application .primitive 31 [.setNumber 0xee 70000, .setClass .priv, .setPc .constructed, .setNumber 1 5]
  (by simp [IdOp.Valid])

/-- **C10.** Starting from `Id::new` and after any history of setter calls, the identifier is byte-equal to `Id::new` of the
last class, flag and number. -/
theorem C10_id_setters (junk junk' : UInt8) (c : ClassTag) (p : PCTag) (n : Nat) (h : n < 2 ^ 128)
    (ops : List IdOp) (hv : ∀ op ∈ ops, op.Valid) :
    (Id.new junk c p n >>= fun id => IdOp.runAll id ops) =
      Id.new junk' (lastClass c ops) (lastPc p ops) (lastNumber n ops) := by
  have hn : ∀ ops n, n < 2 ^ 128 → (∀ op ∈ ops, op.Valid) → lastNumber n ops < 2 ^ 128 := by
    intro ops
    induction ops with
    | nil => intro n h _; exact h
    | cons op r ih =>
      intro n h hv
      have h0 := hv op (by simp)
      cases op with
      | setNumber j n' => exact ih n' h0 (fun o ho => hv o (by simp [ho]))
      | _ => exact ih n h (fun o ho => hv o (by simp [ho]))
  rw [idNew_eq junk c p h, Res.bind_ok, C10_id_setters_octets c p n ops hv, idNew_eq junk' _ _ (hn ops n h hv)]

example : (Id.new 0 .application .primitive 31 >>= fun id => IdOp.runAll id [.setNumber 0xee 70000, .setClass .priv, .setNumber 1 5]) =
    Id.new 9 .priv .primitive 5 :=
  C10_id_setters 0 9 .application .primitive 31 (by norm_num) [.setNumber 0xee 70000, .setClass .priv, .setNumber 1 5] (by simp [IdOp.Valid])

/-- **C10.** The same starting from a parsed identifier with `number()` being `Ok(n)`. -/
theorem C10_id_setters_parsed (junk : UInt8) (bs id rest : Bytes) (hp : IdRef.parse bs = (.ok id, rest))
    (c : ClassTag) (p : PCTag) (n : Nat) (h1 : IdRef.clazz id = .ok c) (h2 : IdRef.pc id = .ok p)
    (h3 : IdRef.number id = .ok n) (ops : List IdOp) (hv : ∀ op ∈ ops, op.Valid) :
    IdOp.runAll id ops = Id.new junk (lastClass c ops) (lastPc p ops) (lastNumber n ops) := by
  obtain ⟨c', p', m, e1, e2, e3, e4⟩ := isId_attrs ((C08_id_parse_iff _ _ _).mp hp).1
  rw [e4] at h3
  split at h3
  · rename_i hm
    simp only [Res.ok.injEq] at h3
    subst h3
    rw [h1] at e2; rw [h2] at e3
    simp only [Res.ok.injEq] at e2 e3
    subst e2 e3
    rw [← C10_id_setters junk junk c p m hm ops hv, idNew_eq junk c p hm, ← e1]
    rfl
  · simp at h3

example : (∀ op ∈ [IdOp.setNumber 0xee 70000, .setClass .priv, .setPc .constructed, .setNumber 1 5,
      .setClass .universal], op.Valid) ∧
    (Id.new 0 .application .primitive 31 >>= fun id => IdOp.runAll id
      [.setNumber 0xee 70000, .setClass .priv, .setPc .constructed]) = .ok [0xff, 0x84, 0xa2, 0x70] := by
  constructor
  · simp [IdOp.Valid]
  · decide +kernel

/-- **C11.** `IdRef::parse` and `IdRef::parse_mut` give the same result and the same remainder; on success the identifier
followed by the remainder is the input, on failure the caller's slice is unchanged. -/
theorem C11_id_parse_error_unchanged (bs : Bytes) :
    IdRef.parse bs = IdRef.parseMut bs ∧
    (∀ id rest, IdRef.parse bs = (.ok id, rest) → id ++ rest = bs) ∧
    (∀ e rest, IdRef.parse bs = (.err e, rest) → rest = bs) := by
  refine ⟨?_, ?_, ?_⟩
  · simp only [IdRef.parse, IdRef.parseMut]
    have hspec := parseId_spec bs []
    generalize (parseId (σ := Bytes)).run bs [] = r at hspec
    cases hspec with
    | ok l rest h1 h2 =>
      subst h2
      simp [sliceTo]
    | redundant => rfl
    | unterminated => rfl
  · intro id rest h
    exact ((C08_id_parse_iff _ _ _).mp h).2.symm
  · intro e rest h
    rcases C08_id_parse_errors bs with ⟨id, rest', h1⟩ | ⟨h1, _⟩ | ⟨h1, _⟩ <;> rw [h1] at h <;> simp at h
    · exact h.2.symm
    · exact h.2.symm

example : IdRef.parse [0x1f, 0x85, 0x86] = (.err .unterminatedBytes, [0x1f, 0x85, 0x86]) ∧
    IdRef.parseMut [0x1f, 0x85, 0x06, 0x02] = (.ok [0x1f, 0x85, 0x06], [0x02]) := by
  constructor <;> decide +kernel

/-- **C12.** For every identifier exactly one class predicate holds, the one of `class()`. -/
theorem C12_class_partition (id : Bytes) (h : id ≠ []) :
    ∃ c, IdRef.clazz id = .ok c ∧
      IdRef.isUniversal id = .ok (decide (c = .universal)) ∧
      IdRef.isApplication id = .ok (decide (c = .application)) ∧
      IdRef.isContextSpecific id = .ok (decide (c = .contextSpecific)) ∧
      IdRef.isPrivate id = .ok (decide (c = .priv)) := by
  cases id with
  | nil => exact absurd rfl h
  | cons b r =>
    refine ⟨_, clazz_cons b r, ?_⟩
    generalize hc : (if b.toNat / 64 = 0 then ClassTag.universal else if b.toNat / 64 = 1 then .application
      else if b.toNat / 64 = 2 then .contextSpecific else .priv) = c
    have k : ∀ b : UInt8, ∀ c, (if b.toNat / 64 = 0 then ClassTag.universal else if b.toNat / 64 = 1 then .application
      else if b.toNat / 64 = 2 then .contextSpecific else .priv) = c →
        IdRef.isUniversal [b] = .ok (decide (c = .universal)) ∧
        IdRef.isApplication [b] = .ok (decide (c = .application)) ∧
        IdRef.isContextSpecific [b] = .ok (decide (c = .contextSpecific)) ∧
        IdRef.isPrivate [b] = .ok (decide (c = .priv)) := by
      intro b c
      rintro rfl
      revert b
      decide +kernel
    exact k b c hc

example := C12_class_partition [0xbf, 0x82, 0x2c] (by decide)

/-- **C12.** Exactly one of `is_primitive`, `is_constructed` holds, the one of `pc()`. -/
theorem C12_pc_partition (id : Bytes) (h : id ≠ []) :
    ∃ p, IdRef.pc id = .ok p ∧
      IdRef.isPrimitive id = .ok (decide (p = .primitive)) ∧
      IdRef.isConstructed id = .ok (decide (p = .constructed)) := by
  cases id with
  | nil => exact absurd rfl h
  | cons b r =>
    have k : ∀ b : UInt8,
        IdRef.isPrimitive [b] = .ok (decide ((if b.toNat / 32 % 2 = 0 then PCTag.primitive else .constructed) =
          .primitive)) ∧
        IdRef.isConstructed [b] = .ok (decide ((if b.toNat / 32 % 2 = 0 then PCTag.primitive else .constructed) =
          .constructed)) := by
      decide +kernel
    exact ⟨_, pc_cons b r, (k b).1, (k b).2⟩

example := C12_pc_partition [0xbf, 0x82, 0x2c] (by decide)

/-- **C12.** The class and the flag are the bits X.690 says. -/
theorem C12_class_bits (b : UInt8) (r : Bytes) (c : ClassTag) (p : PCTag) :
    (IdRef.clazz (b :: r) = .ok c ↔ b.toNat / 64 = classNum c) ∧
    (IdRef.pc (b :: r) = .ok p ↔ b.toNat / 32 % 2 = pcNum p) := by
  rw [clazz_cons, pc_cons]
  have := u8_lt b
  constructor
  · cases c <;> simp only [Res.ok.injEq, classNum] <;> split_ifs <;> simp <;> omega
  · cases p <;> simp only [Res.ok.injEq, pcNum] <;> split_ifs <;> simp <;> omega

example : IdRef.clazz [0xbf, 0x82, 0x2c] = .ok .contextSpecific ∧ IdRef.pc [0xbf, 0x82, 0x2c] = .ok .constructed := by
  decide +kernel

end Bsn1
