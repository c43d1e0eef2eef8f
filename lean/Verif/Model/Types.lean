import Verif.Model.Derive
import Verif.Spec.Serde
/-!
# The implementations selected for a type expression

What the trait resolution of the compiler does: the `Serialize` and `Deserialize` of a nested type are put together
from those of its parts.
-/

namespace Bsn1
open Spec

/-- The order in which hashed collections iterate, from the elements in order of insertion.  The code does not
control it; it may be any order.  `iter()` at bsn1_serde/src/ser/mod.rs:577 and 602; not in /repo. -/
structure HashOrder where
  order : (α : Type) → List α → List α
  perm : ∀ (α : Type) (l : List α), (order α l).Perm l

/-- There is no value to serialize.  `Spec.Ty.hole` stands for a type without values; there is no such `impl` in bsn1_serde/src/ser/mod.rs:54-661. -/
def Ser.hole {α : Type} : Ser α where
  writeId _ := W.lift .panic
  writeDerContents _ := W.lift .panic
  idLen _ := .panic
  derContentsLen _ := .panic

/-- There is no value to decode.  `Spec.Ty.hole` stands for a type without values; there is no such `impl` in bsn1_serde/src/de/mod.rs:40-561. -/
def De.hole {α : Type} : De α where
  fromBer _ _ _ := .err .unmatchedId
  fromDer _ _ := .err .unmatchedId

mutual
/-- `Serialize` of a type: bsn1_serde/src/ser/mod.rs:54-661, octet_string.rs:63-80, bsn1_serde_macros/src/ser/mod.rs. -/
def Ty.ser (m : Build) : {α : Type} → Ty α → Ser α
  | _, .bool => Ser.bool
  | _, .int t => Ser.int t
  | _, .string => Ser.string
  | _, .octetString => Ser.octetString
  | _, .vec t => Ser.vec m (Ty.ser m t)
  | _, .linkedList t => Ser.linkedList m (Ty.ser m t)
  | _, .vecDeque t => Ser.vecDeque m (Ty.ser m t)
  | _, .btreeSet _ _ _ t => Ser.btreeSet m (Ty.ser m t)
  | _, .btreeMap _ _ _ k t => Ser.btreeMap m (Ty.ser m k) (Ty.ser m t)
  | _, .hashSet _ t => Ser.hashSet m (Ty.ser m t)
  | _, .hashMap _ k t => Ser.hashMap m (Ty.ser m k) (Ty.ser m t)
  | _, .struct id fs => Ser.struct m id (Fields.ser m fs)
  | _, .enum vs => Ser.enum m (Variants.ser m vs)
  | _, .transparent fs =>
    -- a transparent struct that does not compile has no implementation; then this is not used
    (Ser.transparent (Fields.ser m fs)).getD (Ser.struct m [] (Fields.ser m fs))
  | _, .conv t f _ => Ser.conv (Ty.ser m t) f
  -- the generated methods work on the fields, which `f` gives
  | _, .named t f _ _ _ => Ser.comap (Ty.ser m t) f
  | _, .hole => Ser.hole
/-- The serializers of the fields, bsn1_serde_macros/src/data_container.rs:186-208. -/
def Fields.ser (m : Build) : {γ : Type} → Fields γ → SerFields γ
  | _, .nil => .nil
  | _, .plain t r => .cons (.plain (Ty.ser m t)) (Fields.ser m r)
  | _, .skip _ r => .cons .skip (Fields.ser m r)
  | _, .skipSer _ r => .cons .skip (Fields.ser m r)
  | _, .skipDe t _ r => .cons (.plain (Ty.ser m t)) (Fields.ser m r)
  | _, .conv t f _ r => .cons (.conv (Ty.ser m t) f) (Fields.ser m r)
/-- The serializers of the variants, bsn1_serde_macros/src/ser/mod.rs:195-201. -/
def Variants.ser (m : Build) : {ρ : Type} → Variants ρ → SerVariants ρ
  | _, .nil => .nil
  | _, .cons id fs r => .cons id (Fields.ser m fs) (Variants.ser m r)
end

/-- The decoding of a converted field.  bsn1_serde_macros/src/data_container.rs:383-399, 568-584. -/
def backField {β δ : Type} (d : De δ) : Back δ β → DeField β
  | .from_ g => .from_ d g
  | .tryFrom g => .tryFrom d g

/-- The decoding of a converted container, bsn1_serde_macros/src/de/mod.rs:34-37. -/
def De.back {α β : Type} (d : De β) : Back β α → De α
  | .from_ g => De.from_ d g
  | .tryFrom g => De.tryFrom d g

mutual
/-- `Deserialize` of a type: bsn1_serde/src/de/mod.rs:40-561, octet_string.rs:82-105, bsn1_serde_macros/src/de/mod.rs. -/
def Ty.de (m : Build) (o : HashOrder) : {α : Type} → Ty α → De α
  | _, .bool => De.bool m
  | _, .int t => De.int m t
  | _, .string => De.string m
  | _, .octetString => De.octetString
  | _, .vec t => De.vec m (Ty.de m o t)
  | _, .linkedList t => De.linkedList m (Ty.de m o t)
  | _, .vecDeque t => De.vecDeque m (Ty.de m o t)
  | _, .btreeSet cmp _ _ t => De.btreeSet m cmp (Ty.de m o t)
  | _, .btreeMap cmp _ _ k t => De.btreeMap m cmp (Ty.de m o k) (Ty.de m o t)
  | _, .hashSet _ t => De.hashSet m (o.order _) (Ty.de m o t)
  | _, .hashMap _ k t => De.hashMap m (o.order _) (Ty.de m o k) (Ty.de m o t)
  | _, .struct id fs => De.struct m id (Fields.de m o fs)
  | _, .enum vs => De.enum m (Variants.de m o vs)
  | _, .transparent fs => (De.transparent (Fields.de m o fs)).getD (De.struct m [] (Fields.de m o fs))
  | _, .conv t _ g => De.back (Ty.de m o t) g
  -- the generated methods end with the constructor, which is `g`
  | _, .named t _ g _ _ => De.from_ (Ty.de m o t) g
  | _, .hole => De.hole
/-- The decoders of the fields, bsn1_serde_macros/src/data_container.rs:380-402 and 565-587. -/
def Fields.de (m : Build) (o : HashOrder) : {γ : Type} → Fields γ → DeFields γ
  | _, .nil => .nil
  | _, .plain t r => .cons (.plain (Ty.de m o t)) (Fields.de m o r)
  | _, .skip d r => .cons (.skip d) (Fields.de m o r)
  | _, .skipSer t r => .cons (.plain (Ty.de m o t)) (Fields.de m o r)
  | _, .skipDe _ d r => .cons (.skip d) (Fields.de m o r)
  | _, .conv t _ g r => .cons (backField (Ty.de m o t) g) (Fields.de m o r)
/-- The decoders of the variants, bsn1_serde_macros/src/de/mod.rs:195-205. -/
def Variants.de (m : Build) (o : HashOrder) : {ρ : Type} → Variants ρ → DeVariants ρ
  | _, .nil => .nil
  | _, .cons id fs r => .cons id (Fields.de m o fs) (Variants.de m o r)
end

end Bsn1
