import Verif.Model.Attribute
import Verif.Model.Derive
/-!
# From a declaration to what its implementations do

`Model/Attribute` decides what is generated for a declaration, given its attributes as tokens; `Model/Derive` is what generated code does.  Here the two are put
together: the names in the attributes are looked up, and the code for the plan is run.
-/

namespace Bsn1.Expand

variable {Pa : Type}

/-- The types that paths in the attributes may name, with their implementations, and the type that a function named by `to` returns.  This is what the compiler
finds for `#into_ty`, `#to_path(#field)`, `#from_ty` and `#try_from_ty`, bsn1_serde_macros/src/data_container.rs:194-204, 383-387.  Simplified: every path has a meaning here, as those
that are not used in a declaration may have any; whether the used ones have one is C119. -/
structure Types (Pa : Type) where
  ty : Pa → Type
  ser : (p : Pa) → Ser (ty p)
  de : (p : Pa) → De (ty p)
  /-- the type of what the function `p` returns, as a path -/
  result : Pa → Pa

/-- The conversions of a type that the attributes may name: `Into::into(Clone::clone(..))`, a function for `to`, `From::from` and `TryFrom::try_from`,
bsn1_serde_macros/src/data_container.rs:194-204, 383-400 and bsn1_serde_macros/src/ser/mod.rs:58-118, bsn1_serde_macros/src/de/mod.rs:61-115. -/
structure Conversions (T : Types Pa) (β : Type) where
  into : (p : Pa) → β → T.ty p
  «to» : (p : Pa) → β → T.ty (T.result p)
  from_ : (p : Pa) → T.ty p → β
  tryFrom : (p : Pa) → T.ty p → Except Chain β

/-- What the compiler knows of the type of a field: its implementations, its `Default`, and the functions that `default` may name,
bsn1_serde_macros/src/data_container.rs:206, 370, 380-382 and bsn1_serde_macros/src/attribute.rs:430-435. -/
structure FieldType (T : Types Pa) (β : Type) extends Conversions T β where
  ser : Ser β
  de : De β
  dflt : β
  dfltBy : Pa → β

/-- The fields of a struct or variant, with the attributes of each. -/
inductive Decl (T : Types Pa) : Type → Type 1
  | nil : Decl T Unit
  | cons {β γ : Type} (attrs : List SynAttr) (f : FieldType T β) (r : Decl T γ) : Decl T (β × γ)

/-- The variants of an enum, with the attributes of each. -/
inductive DeclVariants (T : Types Pa) : Type → Type 1
  | nil : DeclVariants T Empty
  | cons {γ ρ : Type} (attrs : List SynAttr) (fs : Decl T γ) (r : DeclVariants T ρ) : DeclVariants T (γ ⊕ ρ)

/-- The attributes of the fields, bsn1_serde_macros/src/data_container.rs:46-51. -/
def Decl.attrs {T : Types Pa} : {γ : Type} → Decl T γ → List (List SynAttr)
  | _, .nil => []
  | _, .cons a _ r => a :: r.attrs

/-- The attributes of the variants and of their fields, bsn1_serde_macros/src/data_container.rs:63-74. -/
def DeclVariants.attrs {T : Types Pa} : {ρ : Type} → DeclVariants T ρ → List (List SynAttr × List (List SynAttr))
  | _, .nil => []
  | _, .cons a fs r => (a, fs.attrs) :: r.attrs

/-- The code for a field in `write_der_contents`, bsn1_serde_macros/src/data_container.rs:191-207. -/
def serField {T : Types Pa} {β : Type} (f : FieldType T β) : SerFieldPlan Pa → SerField β
  | .skip => .skip
  | .into p => .conv (T.ser p) (f.into p)
  | .to p => .conv (T.ser (T.result p)) (f.to p)
  | .plain => .plain f.ser

/-- The code for a field in the constructor, bsn1_serde_macros/src/data_container.rs:380-402; the function for `skip` is that of `default`, or `Default::default`,
bsn1_serde_macros/src/attribute.rs:430-435. -/
def deField {T : Types Pa} {β : Type} (f : FieldType T β) : DeFieldPlan Pa → DeField β
  | .skip none => .skip f.dflt
  | .skip (some p) => .skip (f.dfltBy p)
  | .from_ p => .from_ (T.de p) (f.from_ p)
  | .tryFrom p => .tryFrom (T.de p) (f.tryFrom p)
  | .plain => .plain f.de

/-- The fields with their plans, `zip` in bsn1_serde_macros/src/data_container.rs:187-190. -/
def serFields {T : Types Pa} : {γ : Type} → Decl T γ → List (SerFieldPlan Pa) → Option (SerFields γ)
  | _, .nil, [] => some .nil
  | _, .cons _ f r, p :: ps => (serFields r ps).map (.cons (serField f p))
  | _, .nil, _ :: _ => none
  | _, .cons _ _ _, [] => none

/-- The fields with their plans, `zip` in bsn1_serde_macros/src/data_container.rs:352. -/
def deFields {T : Types Pa} : {γ : Type} → Decl T γ → List (DeFieldPlan Pa) → Option (DeFields γ)
  | _, .nil, [] => some .nil
  | _, .cons _ f r, p :: ps => (deFields r ps).map (.cons (deField f p))
  | _, .nil, _ :: _ => none
  | _, .cons _ _ _, [] => none

/-- The variants with their plans, bsn1_serde_macros/src/ser/mod.rs:183-201. -/
def serVariants {T : Types Pa} : {ρ : Type} → DeclVariants T ρ → List (Bytes × List (SerFieldPlan Pa)) → Option (SerVariants ρ)
  | _, .nil, [] => some .nil
  | _, .cons _ fs r, p :: ps => (serFields fs p.2).bind fun a => (serVariants r ps).map (.cons p.1 a)
  | _, .nil, _ :: _ => none
  | _, .cons _ _ _, [] => none

/-- The variants with their plans, bsn1_serde_macros/src/de/mod.rs:195-205. -/
def deVariants {T : Types Pa} : {ρ : Type} → DeclVariants T ρ → List (Bytes × List (DeFieldPlan Pa)) → Option (DeVariants ρ)
  | _, .nil, [] => some .nil
  | _, .cons _ fs r, p :: ps => (deFields fs p.2).bind fun a => (deVariants r ps).map (.cons p.1 a)
  | _, .nil, _ :: _ => none
  | _, .cons _ _ _, [] => none

/-- `derive(Serialize)` on a struct, bsn1_serde_macros/src/ser/mod.rs:23-56, and what the generated methods do.  `none`: the macro reports an error. -/
def structSer {T : Types Pa} (m : Build) (pp : String → Option Pa) (attrs : List SynAttr) {γ : Type} (c : Conversions T γ) (fs : Decl T γ) :
    Option (Ser γ) :=
  match Attribute.doSerialize pp attrs (.struct fs.attrs) with
  | some (.conv1 p) => some (Ser.conv (T.ser p) (c.into p))
  | some (.conv2 p) => some (Ser.conv (T.ser (T.result p)) (c.to p))
  | some (.struct id ps) => (serFields fs ps).map (Ser.struct m id)
  | some (.transparent ps) => (serFields fs ps).bind Ser.transparent
  | some (.enum _) => none
  | none => none

/-- `derive(Deserialize)` on a struct, bsn1_serde_macros/src/de/mod.rs:23-58, and what the generated methods do. -/
def structDe {T : Types Pa} (m : Build) (pp : String → Option Pa) (attrs : List SynAttr) {γ : Type} (c : Conversions T γ) (fs : Decl T γ) :
    Option (De γ) :=
  match Attribute.doDeserialize pp attrs (.struct fs.attrs) with
  | some (.conv1 p) => some (De.from_ (T.de p) (c.from_ p))
  | some (.conv2 p) => some (De.tryFrom (T.de p) (c.tryFrom p))
  | some (.struct id ps) => (deFields fs ps).map (De.struct m id)
  | some (.transparent ps) => (deFields fs ps).bind De.transparent
  | some (.enum _) => none
  | none => none

/-- `derive(Serialize)` on an enum, bsn1_serde_macros/src/ser/mod.rs:23-56, and what the generated methods do. -/
def enumSer {T : Types Pa} (m : Build) (pp : String → Option Pa) (attrs : List SynAttr) {ρ : Type} (c : Conversions T ρ) (vs : DeclVariants T ρ) :
    Option (Ser ρ) :=
  match Attribute.doSerialize pp attrs (.enum vs.attrs) with
  | some (.conv1 p) => some (Ser.conv (T.ser p) (c.into p))
  | some (.conv2 p) => some (Ser.conv (T.ser (T.result p)) (c.to p))
  | some (.enum ps) => (serVariants vs ps).map (Ser.enum m)
  | some (.struct _ _) => none
  | some (.transparent _) => none
  | none => none

/-- `derive(Deserialize)` on an enum, bsn1_serde_macros/src/de/mod.rs:23-58, and what the generated methods do. -/
def enumDe {T : Types Pa} (m : Build) (pp : String → Option Pa) (attrs : List SynAttr) {ρ : Type} (c : Conversions T ρ) (vs : DeclVariants T ρ) :
    Option (De ρ) :=
  match Attribute.doDeserialize pp attrs (.enum vs.attrs) with
  | some (.conv1 p) => some (De.from_ (T.de p) (c.from_ p))
  | some (.conv2 p) => some (De.tryFrom (T.de p) (c.tryFrom p))
  | some (.enum ps) => (deVariants vs ps).map (De.enum m)
  | some (.struct _ _) => none
  | some (.transparent _) => none
  | none => none

end Bsn1.Expand
