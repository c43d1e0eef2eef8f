import Verif.Model.Attribute
/-!
# What the generated code asks of the types in a declaration

The bodies of the generated methods as expressions with types, and the impls of the two traits in bsn1_serde.  Together they decide whether a declaration
with `derive(Serialize)` or `derive(Deserialize)` compiles, once the macro has accepted it (`Model/Attribute`) and its names mean what they should
(`Model/Scope`).  Simplified throughout: lifetimes, `const` parameters and unsized types are left out, and so are expressions whose types are those of the standard
library and of bsn1 only (`buffer`, `id.as_ref()`, …), which do not depend on the declaration.
-/

namespace Bsn1.Typing

/-- Collections with one parameter, bsn1_serde/src/ser/mod.rs:390, 417, 443, 469, 568. -/
inductive Coll1 where
  | vec | linkedList | vecDeque | btreeSet | hashSet
deriving DecidableEq

/-- Collections with two parameters, bsn1_serde/src/ser/mod.rs:495 and 592. -/
inductive Coll2 where
  | btreeMap | hashMap
deriving DecidableEq

/-- Types with an impl of both traits that asks for nothing, bsn1_serde/src/ser/mod.rs:54-370, bsn1_serde/src/de/mod.rs:40-289, bsn1_serde/src/octet_string.rs:63 and 82. -/
inductive PrimTy where
  | bool | i8 | u8 | i16 | u16 | i32 | u32 | i64 | u64 | i128 | u128 | isize | usize | string | octetString
deriving DecidableEq

/-- `syn::Type` of a field, which the macro passes on as it stands (bsn1_serde_macros/src/data_container.rs:713-718, the type within).  Simplified: a type that is
none of those bsn1_serde has impls for is just a name, its arguments being part of it. -/
inductive RTy where
  /-- a parameter of the declaration -/
  | param (name : String)
  | prim (p : PrimTy)
  | coll1 (c : Coll1) (t : RTy)
  | coll2 (c : Coll2) (k v : RTy)
  /-- any other type -/
  | named (name : String)
deriving DecidableEq

/-- The traits that generated code and the impls of bsn1_serde ask for, bsn1_serde_macros/src/data_container.rs:121-127, 344-347, 384-387, bsn1_serde/src/de/mod.rs:423, 494. -/
inductive TraitRef where
  | serialize | deserialize | clone | default | ord | eq | hash
  /-- `Into<σ>` -/
  | into (σ : RTy)
  /-- `From<σ>` -/
  | from_ (σ : RTy)
  /-- `TryFrom<σ>` -/
  | tryFrom (σ : RTy)
  /-- `TryFrom<σ>` with an `Error` that is `std::error::Error + Send + Sync + 'static`, as `anyhow::Error::new` wants it -/
  | tryFromStd (σ : RTy)
deriving DecidableEq

/-- What is known where a generated impl stands: bsn1_serde_macros/src/ser/mod.rs:50-55 puts it beside the declaration. -/
structure Env (Pa : Type) where
  /-- Impls of the standard library, of the user and of other crates, and the bounds and the where clause of the impl. -/
  impls : TraitRef → RTy → Prop
  /-- The type that a path in `into`, `from` or `try_from` stands for. -/
  tyOf : Pa → RTy
  /-- What the function of a `to` returns for a reference to a value of this type; none if it cannot be called so. -/
  toFn : Pa → RTy → Option RTy
  /-- Whether the function of a `default` can be called without arguments and returns this type. -/
  mkFn : Pa → RTy → Prop
  /-- The crate of the declaration depends on anyhow, so `::anyhow::Error` is there (bsn1_serde_macros/src/data_container.rs:346). -/
  anyhow : Prop

variable {Pa : Type}

/-- Which types have which traits: what `Env` says, and the impls of bsn1_serde.  bsn1_serde/src/ser/mod.rs:54-595, bsn1_serde/src/de/mod.rs:40-530. -/
inductive Holds (E : Env Pa) : TraitRef → RTy → Prop
  | given {tr τ} : E.impls tr τ → Holds E tr τ
  /-- bsn1_serde/src/ser/mod.rs:54-370, bsn1_serde/src/octet_string.rs:63 -/
  | serPrim (p : PrimTy) : Holds E .serialize (.prim p)
  /-- bsn1_serde/src/ser/mod.rs:390-392, 417-419, 443-445, 469-471, 568-570 -/
  | ser1 (c : Coll1) {t} : Holds E .serialize t → Holds E .serialize (.coll1 c t)
  /-- bsn1_serde/src/ser/mod.rs:495-498, 592-595 -/
  | ser2 (c : Coll2) {k v} : Holds E .serialize k → Holds E .serialize v → Holds E .serialize (.coll2 c k v)
  /-- bsn1_serde/src/de/mod.rs:40-289, bsn1_serde/src/octet_string.rs:82 -/
  | dePrim (p : PrimTy) : Holds E .deserialize (.prim p)
  /-- bsn1_serde/src/de/mod.rs:316-318 -/
  | deVec {t} : Holds E .deserialize t → Holds E .deserialize (.coll1 .vec t)
  /-- bsn1_serde/src/de/mod.rs:351-353 -/
  | deLinkedList {t} : Holds E .deserialize t → Holds E .deserialize (.coll1 .linkedList t)
  /-- bsn1_serde/src/de/mod.rs:386-388 -/
  | deVecDeque {t} : Holds E .deserialize t → Holds E .deserialize (.coll1 .vecDeque t)
  /-- bsn1_serde/src/de/mod.rs:421-423 -/
  | deBTreeSet {t} : Holds E .deserialize t → Holds E .ord t → Holds E .deserialize (.coll1 .btreeSet t)
  /-- bsn1_serde/src/de/mod.rs:456-459 -/
  | deBTreeMap {k v} : Holds E .deserialize k → Holds E .ord k → Holds E .deserialize v → Holds E .deserialize (.coll2 .btreeMap k v)
  /-- bsn1_serde/src/de/mod.rs:492-494 -/
  | deHashSet {t} : Holds E .deserialize t → Holds E .eq t → Holds E .hash t → Holds E .deserialize (.coll1 .hashSet t)
  /-- bsn1_serde/src/de/mod.rs:527-530 -/
  | deHashMap {k v} : Holds E .deserialize k → Holds E .hash k → Holds E .eq k → Holds E .deserialize v → Holds E .deserialize (.coll2 .hashMap k v)

/-- An expression of generated code that serializes, bsn1_serde_macros/src/data_container.rs:186-208. -/
inductive SExpr (Pa : Type) where
  /-- `&self.field`, the variable of a pattern, or `self`, bsn1_serde_macros/src/data_container.rs:734-751 -/
  | field (τ : RTy)
  /-- `Clone::clone(e)` -/
  | clone (e : SExpr Pa)
  /-- `let x: ty = Into::into(e);` and then `x` -/
  | into (ty : Pa) (e : SExpr Pa)
  /-- `path(e)` -/
  | call (path : Pa) (e : SExpr Pa)
  /-- `&e` -/
  | borrow (e : SExpr Pa)

/-- A type of an expression, bsn1_serde_macros/src/data_container.rs:196-205: a value or a reference. -/
inductive GTy where
  | own (τ : RTy)
  | ref (τ : RTy)

/-- The rules of the language for these expressions, bsn1_serde_macros/src/data_container.rs:196-206.  Not in /repo. -/
inductive HasType (E : Env Pa) : SExpr Pa → GTy → Prop
  | field (τ) : HasType E (.field τ) (.ref τ)
  | clone {e τ} : HasType E e (.ref τ) → Holds E .clone τ → HasType E (.clone e) (.own τ)
  | into {e τ} (ty) : HasType E e (.own τ) → Holds E (.into (E.tyOf ty)) τ → HasType E (.into ty e) (.own (E.tyOf ty))
  | call {e τ σ} (path) : HasType E e (.ref τ) → E.toFn path τ = some σ → HasType E (.call path e) (.own σ)
  | borrow {e τ} : HasType E e (.own τ) → HasType E (.borrow e) (.ref τ)

/-- A call that asks for `Serialize`, bsn1_serde_macros/src/data_container.rs:133, 169, 222, 249, 297-298, bsn1_serde/src/lib.rs:80-83. -/
inductive SCall (Pa : Type) where
  | writeDer (e : SExpr Pa)
  | writeId (e : SExpr Pa)
  | writeDerContents (e : SExpr Pa)
  | idLen (e : SExpr Pa)
  | derContentsLen (e : SExpr Pa)

/-- The argument of the call, bsn1_serde_macros/src/data_container.rs:222. -/
def SCall.arg : SCall Pa → SExpr Pa
  | .writeDer e => e
  | .writeId e => e
  | .writeDerContents e => e
  | .idLen e => e
  | .derContentsLen e => e

/-- The rule of the language for such a call, bsn1_serde/src/lib.rs:80-83 and bsn1_serde/src/ser/mod.rs:24-52: a reference to something that is `Serialize`. -/
def SCall.Ok (E : Env Pa) (c : SCall Pa) : Prop := ∃ τ, HasType E c.arg (.ref τ) ∧ Holds E .serialize τ

/-- A method of a generated impl of `Serialize`, bsn1_serde_macros/src/ser/mod.rs:151-167 and 203-227: `match self { arms }`, or one body. -/
structure SMethod (Pa : Type) where
  isMatch : Bool
  arms : List (List (SCall Pa))

/-- The rules of the language for a method, bsn1_serde_macros/src/ser/mod.rs:205-207: `self` is a reference, and a `match` of a reference needs an arm. -/
def SMethod.Ok (E : Env Pa) (m : SMethod Pa) : Prop := (m.isMatch = true → m.arms ≠ []) ∧ ∀ arm ∈ m.arms, ∀ c ∈ arm, c.Ok E

/-- `field_builders`, bsn1_serde_macros/src/data_container.rs:186-208: what `field_ref` stands for; none for a skipped field. -/
def fieldRef : SerFieldPlan Pa → RTy → Option (SExpr Pa)
  | .skip, _ => none
  | .into ty, τ => some (.borrow (.into ty (.clone (.field τ))))
  | .to path, τ => some (.borrow (.call path (.field τ)))
  | .plain, τ => some (.field τ)

/-- `DataContainer::write_der_contents`, bsn1_serde_macros/src/data_container.rs:183-231. -/
def writeDerContentsCode (fs : List (SerFieldPlan Pa × RTy)) : List (SCall Pa) :=
  fs.flatMap fun f => match fieldRef f.1 f.2 with
    | none => []
    | some e => [.writeDer e]

/-- Whether a field has `into` or `to`, bsn1_serde_macros/src/data_container.rs:272 (which are not allowed for skipped fields, bsn1_serde_macros/src/attribute.rs:252-255). -/
def planConverts : SerFieldPlan Pa → Bool
  | .into _ => true
  | .to _ => true
  | _ => false

/-- `DataContainer::der_contents_len`, bsn1_serde_macros/src/data_container.rs:264-316. -/
def derContentsLenCode (fs : List (SerFieldPlan Pa × RTy)) : List (SCall Pa) :=
  if fs.any fun f => planConverts f.1 then []
  else fs.flatMap fun f => match f.1 with
    | .skip => []
    | _ => [.derContentsLen (.field f.2), .idLen (.field f.2)]

/-- The field `transparent_field_var` and `transparent_field_attribute` find, bsn1_serde_macros/src/data_container.rs:753-779 and 792-814; the error if it is not
the only one is in `Attribute.structPlan`. -/
def transparentField (fs : List (SerFieldPlan Pa × RTy)) : List (SerFieldPlan Pa × RTy) :=
  fs.filter fun f => match f.1 with
    | .skip => false
    | _ => true

/-- `write_id_transparent`, bsn1_serde_macros/src/data_container.rs:118-145. -/
def writeIdTransparentCode : SerFieldPlan Pa → RTy → List (SCall Pa)
  | .into ty, τ => [.writeId (.borrow (.into ty (.clone (.field τ))))]
  | .to path, τ => [.writeId (.borrow (.call path (.field τ)))]
  | _, τ => [.writeId (.field τ)]

/-- `id_len_transparent`, bsn1_serde_macros/src/data_container.rs:157-171. -/
def idLenTransparentCode : SerFieldPlan Pa → RTy → List (SCall Pa)
  | .into _, _ => []
  | .to _, _ => []
  | _, τ => [.idLen (.field τ)]

/-- `write_der_contents_transparent`, bsn1_serde_macros/src/data_container.rs:234-261. -/
def writeDerContentsTransparentCode : SerFieldPlan Pa → RTy → List (SCall Pa)
  | .into ty, τ => [.writeDerContents (.borrow (.into ty (.clone (.field τ))))]
  | .to path, τ => [.writeDerContents (.borrow (.call path (.field τ)))]
  | _, τ => [.writeDerContents (.field τ)]

/-- `der_contents_len_transparent`, bsn1_serde_macros/src/data_container.rs:319-333. -/
def derContentsLenTransparentCode : SerFieldPlan Pa → RTy → List (SCall Pa)
  | .into _, _ => []
  | .to _, _ => []
  | _, τ => [.derContentsLen (.field τ)]

/-- The types of the fields, as they stand in the declaration (bsn1_serde_macros/src/ser/mod.rs:39-41). -/
inductive DataTys where
  | struct (fields : List RTy)
  | enum (variants : List (List RTy))

/-- `do_serialize`, bsn1_serde_macros/src/ser/mod.rs:34-46, with `do_into_serialize`, 59-89, `do_to_serialize`, 92-118, `do_serialize_struct`, 121-168, and
`do_serialize_enum`, 171-228: `write_id`, `write_der_contents`, `id_len` and `der_contents_len`.  `self` is the declared type. -/
def serImpl (self : RTy) : Plan Pa (SerFieldPlan Pa) → DataTys → List (SMethod Pa)
  | .conv1 ty, _ =>
    let this := SExpr.borrow (.into ty (.clone (.field self)))
    [⟨false, [[.writeId this]]⟩, ⟨false, [[.writeDerContents this]]⟩, ⟨false, [[]]⟩, ⟨false, [[]]⟩]
  | .conv2 path, _ =>
    let this := SExpr.borrow (.call path (.field self))
    [⟨false, [[.writeId this]]⟩, ⟨false, [[.writeDerContents this]]⟩, ⟨false, [[]]⟩, ⟨false, [[]]⟩]
  | .transparent plans, .struct tys =>
    let fs := transparentField (plans.zip tys)
    [⟨false, [fs.flatMap fun f => writeIdTransparentCode f.1 f.2]⟩, ⟨false, [fs.flatMap fun f => writeDerContentsTransparentCode f.1 f.2]⟩,
      ⟨false, [fs.flatMap fun f => idLenTransparentCode f.1 f.2]⟩, ⟨false, [fs.flatMap fun f => derContentsLenTransparentCode f.1 f.2]⟩]
  | .struct _ plans, .struct tys =>
    let fs := plans.zip tys
    [⟨false, [[]]⟩, ⟨false, [writeDerContentsCode fs]⟩, ⟨false, [[]]⟩, ⟨false, [derContentsLenCode fs]⟩]
  | .enum variants, .enum tys =>
    let vs := (variants.zip tys).map fun v => v.1.2.zip v.2
    [⟨true, vs.map fun _ => []⟩, ⟨true, vs.map writeDerContentsCode⟩, ⟨true, vs.map fun _ => []⟩, ⟨true, vs.map derContentsLenCode⟩]
  | _, _ => []

/-- An expression of generated code that deserializes a field, bsn1_serde_macros/src/data_container.rs:360-402. -/
inductive DExpr (Pa : Type) where
  /-- `Deserialize::from_ber(…)?` or `Deserialize::from_der(…)?` -/
  | de
  /-- `From::<ty>::from(e)` -/
  | from_ (ty : Pa) (e : DExpr Pa)
  /-- `TryFrom::<ty>::try_from(e).map_err(|err| … ::anyhow::Error::new(err) …)?` -/
  | tryFrom (ty : Pa) (e : DExpr Pa)
  /-- `path()`; `Default::default()` if there is no path -/
  | call (path : Option Pa)

/-- The rules of the language for such an expression where a value of type `τ` is wanted, bsn1_serde_macros/src/data_container.rs:360-402.  Not in /repo. -/
def DExpr.Ok (E : Env Pa) : DExpr Pa → RTy → Prop
  | .de, τ => Holds E .deserialize τ
  | .from_ ty e, τ => Holds E (.from_ (E.tyOf ty)) τ ∧ e.Ok E (E.tyOf ty)
  | .tryFrom ty e, τ => Holds E (.tryFrom (E.tyOf ty)) τ ∧ Holds E (.tryFromStd (E.tyOf ty)) τ ∧ E.anyhow ∧ e.Ok E (E.tyOf ty)
  | .call none, τ => Holds E .default τ
  | .call (some path), τ => E.mkFn path τ

/-- The constructor of a field in `from_ber_contents`, bsn1_serde_macros/src/data_container.rs:380-402. -/
def fromBerContentsCode : DeFieldPlan Pa → DExpr Pa
  | .skip dflt => .call dflt
  | .from_ ty => .from_ ty .de
  | .tryFrom ty => .tryFrom ty .de
  | .plain => .de

/-- The constructor of a field in `from_ber_transparent`, bsn1_serde_macros/src/data_container.rs:481-506. -/
def fromBerTransparentCode : DeFieldPlan Pa → DExpr Pa
  | .skip dflt => .call dflt
  | .from_ ty => .from_ ty .de
  | .tryFrom ty => .tryFrom ty .de
  | .plain => .de

/-- The constructor of a field in `from_der_contents`, bsn1_serde_macros/src/data_container.rs:565-587. -/
def fromDerContentsCode : DeFieldPlan Pa → DExpr Pa
  | .skip dflt => .call dflt
  | .from_ ty => .from_ ty .de
  | .tryFrom ty => .tryFrom ty .de
  | .plain => .de

/-- The constructor of a field in `from_der_transparent`, bsn1_serde_macros/src/data_container.rs:648-673. -/
def fromDerTransparentCode : DeFieldPlan Pa → DExpr Pa
  | .skip dflt => .call dflt
  | .from_ ty => .from_ ty .de
  | .tryFrom ty => .tryFrom ty .de
  | .plain => .de

/-- `do_deserialize`, bsn1_serde_macros/src/de/mod.rs:34-48, with `do_from_deserialize`, 61-83, `do_try_from_deserialize`, 86-115, `do_deserialize_struct`, 118-171, and
`do_deserialize_enum`, 174-232: the expressions in `from_ber` and in `from_der`, each with the type that is wanted. -/
def deImpl (self : RTy) : Plan Pa (DeFieldPlan Pa) → DataTys → List (List (DExpr Pa × RTy))
  | .conv1 ty, _ => [[(.from_ ty .de, self)], [(.from_ ty .de, self)]]
  | .conv2 ty, _ => [[(.tryFrom ty .de, self)], [(.tryFrom ty .de, self)]]
  | .transparent plans, .struct tys =>
    [(plans.zip tys).map fun f => (fromBerTransparentCode f.1, f.2), (plans.zip tys).map fun f => (fromDerTransparentCode f.1, f.2)]
  | .struct _ plans, .struct tys =>
    [(plans.zip tys).map fun f => (fromBerContentsCode f.1, f.2), (plans.zip tys).map fun f => (fromDerContentsCode f.1, f.2)]
  | .enum variants, .enum tys =>
    let vs := (variants.zip tys).map fun v => v.1.2.zip v.2
    [vs.flatMap fun fs => fs.map fun f => (fromBerContentsCode f.1, f.2), vs.flatMap fun fs => fs.map fun f => (fromDerContentsCode f.1, f.2)]
  | _, _ => []

/-- The declaration as far as this goes: the attributes and the types of the fields, bsn1_serde_macros/src/ser/mod.rs:39-45. -/
inductive TData where
  | struct (fields : List (List SynAttr × RTy))
  | enum (variants : List (List SynAttr × List (List SynAttr × RTy)))

/-- What the macro looks at, bsn1_serde_macros/src/ser/mod.rs:39-45. -/
def TData.data : TData → Data
  | .struct fs => .struct (fs.map (·.1))
  | .enum vs => .enum (vs.map fun v => (v.1, v.2.map (·.1)))

/-- The types of the fields, bsn1_serde_macros/src/ser/mod.rs:39-45. -/
def TData.types : TData → DataTys
  | .struct fs => .struct (fs.map (·.2))
  | .enum vs => .enum (vs.map fun v => v.2.map (·.2))

/-- The bounds that hold inside of a generated impl: those of the parameters, `Generics::ident_bounds`, bsn1_serde_macros/src/generics.rs:29-49, and those of the where clause,
`Generics::where_clause`, bsn1_serde_macros/src/generics.rs:64-66, which do_serialize and do_deserialize write down again, bsn1_serde_macros/src/ser/mod.rs:51-52
and bsn1_serde_macros/src/de/mod.rs:53-54.  No others are added. -/
def implBounds (params : List (String × List TraitRef)) (whereClause : List (TraitRef × RTy)) : List (TraitRef × RTy) :=
  (params.flatMap fun p => p.2.map fun tr => (tr, RTy.param p.1)) ++ whereClause

/-- What is known inside of a generated impl, bsn1_serde_macros/src/ser/mod.rs:50-55: what is known anyway, and the bounds. -/
def Env.inside (E : Env Pa) (bounds : List (TraitRef × RTy)) : Env Pa :=
  { E with impls := fun tr τ => E.impls tr τ ∨ (tr, τ) ∈ bounds }

/-- The impl `derive(Serialize)` makes of a declaration compiles, bsn1_serde_macros/src/ser/mod.rs:23-56.  An error of the macro is one of compilation. -/
def SerCompiles (E : Env Pa) (pp : String → Option Pa) (self : RTy) (attrs : List SynAttr) (d : TData) : Prop :=
  match Attribute.doSerialize pp attrs d.data with
  | none => False
  | some plan => ∀ m ∈ serImpl self plan d.types, m.Ok E

/-- Likewise for `derive(Deserialize)`, bsn1_serde_macros/src/de/mod.rs:23-58. -/
def DeCompiles (E : Env Pa) (pp : String → Option Pa) (self : RTy) (attrs : List SynAttr) (d : TData) : Prop :=
  match Attribute.doDeserialize pp attrs d.data with
  | none => False
  | some plan => ∀ body ∈ deImpl self plan d.types, ∀ x ∈ body, x.1.Ok E x.2

end Bsn1.Typing
