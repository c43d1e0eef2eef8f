import Verif.Model.Typing
import Verif.Spec.Attribute
/-!
# What the documentation asks of the types in a declaration

bsn1_serde_macros/src/lib.rs:30-37 and 50-56, bsn1_serde_macros/annotation_bsn1_serde.md:126-148 and 188-226.
-/

namespace Bsn1.Spec
open Typing

variable {Pa : Type}

/-- A type that is serialized with these arguments: "`IntoType` must implements `ser::Serialize` and the annotated struct or enum or field must implements `Clone` and
`Into<IntoType>`", "must be callable as `fn(&T) -> U` … and `U` must implements `ser::Serialize`". -/
structure SerNeeds (E : Env Pa) (as : List (Arg Pa)) (τ : RTy) : Prop where
  into : ∀ p, Arg.into p ∈ as → Holds E .serialize (E.tyOf p) ∧ Holds E .clone τ ∧ Holds E (.into (E.tyOf p)) τ
  to_ : ∀ p, Arg.to p ∈ as → ∃ σ, E.toFn p τ = some σ ∧ Holds E .serialize σ
  plain : ¬ kinds as .into → ¬ kinds as .to → Holds E .serialize τ

/-- A field is not asked for anything if it is skipped. -/
def FieldSerNeeds (E : Env Pa) (as : List (Arg Pa)) (τ : RTy) : Prop := ¬ kinds as .skip → ¬ kinds as .skipSerializing → SerNeeds E as τ

/-- A type that is deserialized with these arguments: "`FromType` must implements `de::Deserialize` and the annotated struct or enum or field must implements
`From<FromType>`", and likewise for `try_from`. -/
structure DeNeeds (E : Env Pa) (as : List (Arg Pa)) (τ : RTy) : Prop where
  from_ : ∀ p, Arg.from_ p ∈ as → Holds E .deserialize (E.tyOf p) ∧ Holds E (.from_ (E.tyOf p)) τ
  tryFrom : ∀ p, Arg.tryFrom p ∈ as → Holds E .deserialize (E.tyOf p) ∧ Holds E (.tryFrom (E.tyOf p)) τ
  plain : ¬ kinds as .from_ → ¬ kinds as .tryFrom → Holds E .deserialize τ

/-- A skipped field gets its value from `Default::default` or from the function of `default`, "callable as `fn() -> T`". -/
structure FieldDeNeeds (E : Env Pa) (as : List (Arg Pa)) (τ : RTy) : Prop where
  read : ¬ kinds as .skip → ¬ kinds as .skipDeserializing → DeNeeds E as τ
  dflt : kinds as .skip ∨ kinds as .skipDeserializing → ¬ kinds as .default → Holds E .default τ
  given : kinds as .skip ∨ kinds as .skipDeserializing → ∀ p, Arg.default p ∈ as → E.mkFn p τ

/-- What the documentation does not ask for: `try_from` with an error that anyhow can wrap, in a crate that depends on anyhow. -/
def WrapNeeds (E : Env Pa) (as : List (Arg Pa)) (τ : RTy) : Prop := ∀ p, Arg.tryFrom p ∈ as → Holds E (.tryFromStd (E.tyOf p)) τ ∧ E.anyhow

/-- The fields of a declaration. -/
def TData.fields : TData → List (List SynAttr × RTy)
  | .struct fs => fs
  | .enum vs => vs.flatMap (·.2)

/-- It is an enum without variants. -/
def TData.never : TData → Prop
  | .struct _ => False
  | .enum vs => vs = []

/-- What holds of the arguments of all fields and their types. -/
def EachField (pp : String → Option Pa) (d : TData) (needs : List (Arg Pa) → RTy → Prop) : Prop :=
  ∀ f ∈ TData.fields d, ∃ as, Documented pp .field f.1 as ∧ needs as f.2

/-- The requirements that the documentation states for `derive(Serialize)`. -/
def SerDoc (E : Env Pa) (pp : String → Option Pa) (self : RTy) (attrs : List SynAttr) (d : TData) : Prop :=
  ∃ as, Documented pp .struct attrs as ∧
    ((kinds as .into ∨ kinds as .to) ∧ SerNeeds E as self ∨ ¬ kinds as .into ∧ ¬ kinds as .to ∧ EachField pp d (FieldSerNeeds E))

/-- The requirements that the documentation states for `derive(Deserialize)`. -/
def DeDoc (E : Env Pa) (pp : String → Option Pa) (self : RTy) (attrs : List SynAttr) (d : TData) : Prop :=
  ∃ as, Documented pp .struct attrs as ∧
    ((kinds as .from_ ∨ kinds as .tryFrom) ∧ DeNeeds E as self ∨ ¬ kinds as .from_ ∧ ¬ kinds as .tryFrom ∧ EachField pp d (FieldDeNeeds E))

/-- The declaration has no `into` or `to` itself, so its fields are serialized. -/
def SerByFields (pp : String → Option Pa) (attrs : List SynAttr) : Prop := ∃ as, Documented pp .struct attrs as ∧ ¬ kinds as .into ∧ ¬ kinds as .to

/-- What `try_from` needs beyond the documentation, wherever it stands and is used. -/
def DeWrap (E : Env Pa) (pp : String → Option Pa) (self : RTy) (attrs : List SynAttr) (d : TData) : Prop :=
  ∃ as, Documented pp .struct attrs as ∧ WrapNeeds E as self ∧ (¬ kinds as .from_ → ¬ kinds as .tryFrom → EachField pp d (WrapNeeds E))

/-- A type with types in the place of the parameters. -/
def RTy.subst (s : String → RTy) : RTy → RTy
  | .param n => s n
  | .prim p => .prim p
  | .coll1 c t => .coll1 c (subst s t)
  | .coll2 c k v => .coll2 c (subst s k) (subst s v)
  | .named n => .named n

/-- Likewise for a trait. -/
def TraitRef.subst (s : String → RTy) : TraitRef → TraitRef
  | .into σ => .into (RTy.subst s σ)
  | .from_ σ => .from_ (RTy.subst s σ)
  | .tryFrom σ => .tryFrom (RTy.subst s σ)
  | .tryFromStd σ => .tryFromStd (RTy.subst s σ)
  | tr => tr

/-- Likewise for a declaration. -/
def TData.subst (s : String → RTy) : TData → TData
  | .struct fs => .struct (fs.map fun f => (f.1, RTy.subst s f.2))
  | .enum vs => .enum (vs.map fun v => (v.1, v.2.map fun f => (f.1, RTy.subst s f.2)))

/-- `E'` is what is known where the parameters are these types: all that is known of the parameters is true of the types. -/
structure Instance (s : String → RTy) (E E' : Env Pa) : Prop where
  impls : ∀ tr τ, E.impls tr τ → Holds E' (TraitRef.subst s tr) (RTy.subst s τ)
  tyOf : ∀ p, E'.tyOf p = RTy.subst s (E.tyOf p)
  toFn : ∀ p τ σ, E.toFn p τ = some σ → E'.toFn p (RTy.subst s τ) = some (RTy.subst s σ)
  mkFn : ∀ p τ, E.mkFn p τ → E'.mkFn p (RTy.subst s τ)
  anyhow : E.anyhow → E'.anyhow

/-- The world outside of bsn1_serde has impls of its two traits for types of its own only, as the language demands (the orphan rule). -/
def Orphans (E : Env Pa) : Prop := ∀ tr τ, (tr = .serialize ∨ tr = .deserialize) → E.impls tr τ → ∃ n, τ = .named n

/-- What the bounds have to say for a type to be `Serialize`. -/
def SerBound (E : Env Pa) (bounds : List (TraitRef × RTy)) : RTy → Prop
  | .param n => (.serialize, .param n) ∈ bounds
  | .prim _ => True
  | .coll1 c t => SerBound E bounds t ∨ (.serialize, .coll1 c t) ∈ bounds
  | .coll2 c k v => (SerBound E bounds k ∧ SerBound E bounds v) ∨ (.serialize, .coll2 c k v) ∈ bounds
  | .named n => E.impls .serialize (.named n) ∨ (.serialize, .named n) ∈ bounds

/-- What has to hold of a type whose values are kept in order, or by their hash. -/
def KeyNeeds (E : Env Pa) (byOrder : Bool) (t : RTy) : Prop := if byOrder then Holds E .ord t else Holds E .eq t ∧ Holds E .hash t

/-- What the bounds have to say for a type to be `Deserialize`. -/
def DeBound (E : Env Pa) (bounds : List (TraitRef × RTy)) : RTy → Prop
  | .param n => (.deserialize, .param n) ∈ bounds
  | .prim _ => True
  | .coll1 .btreeSet t => (DeBound E bounds t ∧ KeyNeeds (E.inside bounds) true t) ∨ (.deserialize, .coll1 .btreeSet t) ∈ bounds
  | .coll1 .hashSet t => (DeBound E bounds t ∧ KeyNeeds (E.inside bounds) false t) ∨ (.deserialize, .coll1 .hashSet t) ∈ bounds
  | .coll1 c t => DeBound E bounds t ∨ (.deserialize, .coll1 c t) ∈ bounds
  | .coll2 .btreeMap k v => (DeBound E bounds k ∧ KeyNeeds (E.inside bounds) true k ∧ DeBound E bounds v) ∨ (.deserialize, .coll2 .btreeMap k v) ∈ bounds
  | .coll2 .hashMap k v => (DeBound E bounds k ∧ KeyNeeds (E.inside bounds) false k ∧ DeBound E bounds v) ∨ (.deserialize, .coll2 .hashMap k v) ∈ bounds
  | .named n => E.impls .deserialize (.named n) ∨ (.deserialize, .named n) ∈ bounds

end Bsn1.Spec
