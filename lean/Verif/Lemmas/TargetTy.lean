import Verif.Spec.Target
import Verif.Spec.Decode
import Verif.Lemmas.TargetSer
import Verif.Lemmas.TargetDe
/-!
# Declarations with other integer types

Replacing the integer types changes neither encodings nor what is restored.  And with 8 octets the functions for targets are those of the main
model.
-/

namespace Bsn1
namespace Spec

mutual
theorem Ty.withInts_sized (f : IntTy → IntTy) : ∀ {α : Type} (t : Ty α), (t.withInts f).sized = t.sized
  | _, .bool  => by simp only [Ty.withInts, Ty.sized]
  | _, .int _ => by simp only [Ty.withInts, Ty.sized]
  | _, .string  => by simp only [Ty.withInts, Ty.sized]
  | _, .octetString  => by simp only [Ty.withInts, Ty.sized]
  | _, .vec t => by simp only [Ty.withInts, Ty.sized, Ty.withInts_sized f t]
  | _, .linkedList t => by simp only [Ty.withInts, Ty.sized, Ty.withInts_sized f t]
  | _, .vecDeque t => by simp only [Ty.withInts, Ty.sized, Ty.withInts_sized f t]
  | _, .btreeSet _ _ _ t => by simp only [Ty.withInts, Ty.sized, Ty.withInts_sized f t]
  | _, .btreeMap _ _ _ k t => by simp only [Ty.withInts, Ty.sized, Ty.withInts_sized f k, Ty.withInts_sized f t]
  | _, .hashSet _ t => by simp only [Ty.withInts, Ty.sized, Ty.withInts_sized f t]
  | _, .hashMap _ k t => by simp only [Ty.withInts, Ty.sized, Ty.withInts_sized f k, Ty.withInts_sized f t]
  | _, .struct _ fs => by simp only [Ty.withInts, Ty.sized, Fields.withInts_sized f fs]
  | _, .enum vs => by simp only [Ty.withInts, Ty.sized, Variants.withInts_sized f vs]
  | _, .transparent fs => by simp only [Ty.withInts, Ty.sized, Fields.withInts_sized f fs]
  | _, .conv t _ _ => by simp only [Ty.withInts, Ty.sized, Ty.withInts_sized f t]
  | _, .named t _ _ _ _ => by simp only [Ty.withInts, Ty.sized, Ty.withInts_sized f t]
  | _, .hole  => by simp only [Ty.withInts, Ty.sized]
theorem Fields.withInts_sized (f : IntTy → IntTy) : ∀ {γ : Type} (fs : Fields γ), (fs.withInts f).sized = fs.sized
  | _, .nil  => by simp only [Fields.withInts, Fields.sized]
  | _, .plain t r => by simp only [Fields.withInts, Fields.sized, Ty.withInts_sized f t, Fields.withInts_sized f r]
  | _, .skip _ r => by simp only [Fields.withInts, Fields.sized, Fields.withInts_sized f r]
  | _, .skipSer t r => by simp only [Fields.withInts, Fields.sized, Ty.withInts_sized f t, Fields.withInts_sized f r]
  | _, .skipDe t _ r => by simp only [Fields.withInts, Fields.sized, Ty.withInts_sized f t, Fields.withInts_sized f r]
  | _, .conv t _ _ r => by simp only [Fields.withInts, Fields.sized, Ty.withInts_sized f t, Fields.withInts_sized f r]
theorem Variants.withInts_sized (f : IntTy → IntTy) : ∀ {ρ : Type} (vs : Variants ρ), (vs.withInts f).sized = vs.sized
  | _, .nil  => by simp only [Variants.withInts, Variants.sized]
  | _, .cons _ fs r => by simp only [Variants.withInts, Variants.sized, Fields.withInts_sized f fs, Variants.withInts_sized f r]
end

theorem Fields.withInts_serCount (f : IntTy → IntTy) : ∀ {γ : Type} (fs : Fields γ), (fs.withInts f).serCount = fs.serCount
  | _, .nil  => by simp only [Fields.withInts, Fields.serCount]
  | _, .plain t r => by simp only [Fields.withInts, Fields.serCount, Fields.withInts_serCount f r]
  | _, .skip _ r => by simp only [Fields.withInts, Fields.serCount, Fields.withInts_serCount f r]
  | _, .skipSer t r => by simp only [Fields.withInts, Fields.serCount, Fields.withInts_serCount f r]
  | _, .skipDe t _ r => by simp only [Fields.withInts, Fields.serCount, Fields.withInts_serCount f r]
  | _, .conv t _ _ r => by simp only [Fields.withInts, Fields.serCount, Fields.withInts_serCount f r]

theorem Fields.withInts_deCount (f : IntTy → IntTy) : ∀ {γ : Type} (fs : Fields γ), (fs.withInts f).deCount = fs.deCount
  | _, .nil  => by simp only [Fields.withInts, Fields.deCount]
  | _, .plain t r => by simp only [Fields.withInts, Fields.deCount, Fields.withInts_deCount f r]
  | _, .skip _ r => by simp only [Fields.withInts, Fields.deCount, Fields.withInts_deCount f r]
  | _, .skipSer t r => by simp only [Fields.withInts, Fields.deCount, Fields.withInts_deCount f r]
  | _, .skipDe t _ r => by simp only [Fields.withInts, Fields.deCount, Fields.withInts_deCount f r]
  | _, .conv t _ _ r => by simp only [Fields.withInts, Fields.deCount, Fields.withInts_deCount f r]

mutual
theorem Ty.withInts_enc (f : IntTy → IntTy) : ∀ {α : Type} (t : Ty α), (t.withInts f).enc = t.enc
  | _, .bool  => funext fun v => by simp only [Ty.withInts, Ty.enc]
  | _, .int _ => funext fun v => by simp only [Ty.withInts, Ty.enc]
  | _, .string  => funext fun v => by simp only [Ty.withInts, Ty.enc]
  | _, .octetString  => funext fun v => by simp only [Ty.withInts, Ty.enc]
  | _, .vec t => funext fun v => by simp only [Ty.withInts, Ty.enc, Ty.withInts_enc f t]
  | _, .linkedList t => funext fun v => by simp only [Ty.withInts, Ty.enc, Ty.withInts_enc f t]
  | _, .vecDeque t => funext fun v => by simp only [Ty.withInts, Ty.enc, Ty.withInts_enc f t]
  | _, .btreeSet _ _ _ t => funext fun v => by simp only [Ty.withInts, Ty.enc, Ty.withInts_enc f t]
  | _, .btreeMap _ _ _ k t => funext fun v => by simp only [Ty.withInts, Ty.enc, Ty.withInts_enc f k, Ty.withInts_enc f t]
  | _, .hashSet _ t => funext fun v => by simp only [Ty.withInts, Ty.enc, Ty.withInts_enc f t]
  | _, .hashMap _ k t => funext fun v => by simp only [Ty.withInts, Ty.enc, Ty.withInts_enc f k, Ty.withInts_enc f t]
  | _, .struct _ fs => funext fun v => by simp only [Ty.withInts, Ty.enc, Fields.withInts_enc f fs]
  | _, .enum vs => funext fun v => by simp only [Ty.withInts, Ty.enc, Variants.withInts_enc f vs]
  | _, .transparent fs => funext fun v => by simp only [Ty.withInts, Ty.enc, Fields.withInts_encOne f fs]
  | _, .conv t _ _ => funext fun v => by simp only [Ty.withInts, Ty.enc, Ty.withInts_enc f t]
  | _, .named t _ _ _ _ => funext fun v => by simp only [Ty.withInts, Ty.enc, Ty.withInts_enc f t]
  | _, .hole  => funext fun v => by simp only [Ty.withInts, Ty.enc]
theorem Fields.withInts_enc (f : IntTy → IntTy) : ∀ {γ : Type} (fs : Fields γ), (fs.withInts f).enc = fs.enc
  | _, .nil  => funext fun v => by simp only [Fields.withInts, Fields.enc]
  | _, .plain t r => funext fun v => by simp only [Fields.withInts, Fields.enc, Ty.withInts_enc f t, Fields.withInts_enc f r]
  | _, .skip _ r => funext fun v => by simp only [Fields.withInts, Fields.enc, Fields.withInts_enc f r]
  | _, .skipSer t r => funext fun v => by simp only [Fields.withInts, Fields.enc, Ty.withInts_enc f t, Fields.withInts_enc f r]
  | _, .skipDe t _ r => funext fun v => by simp only [Fields.withInts, Fields.enc, Ty.withInts_enc f t, Fields.withInts_enc f r]
  | _, .conv t _ _ r => funext fun v => by simp only [Fields.withInts, Fields.enc, Ty.withInts_enc f t, Fields.withInts_enc f r]
theorem Fields.withInts_encOne (f : IntTy → IntTy) : ∀ {γ : Type} (fs : Fields γ), (fs.withInts f).encOne = fs.encOne
  | _, .nil  => funext fun v => by simp only [Fields.withInts, Fields.encOne]
  | _, .plain t r => funext fun v => by simp only [Fields.withInts, Fields.encOne, Ty.withInts_enc f t]
  | _, .skip _ r => funext fun v => by simp only [Fields.withInts, Fields.encOne, Fields.withInts_encOne f r]
  | _, .skipSer t r => funext fun v => by simp only [Fields.withInts, Fields.encOne, Fields.withInts_encOne f r]
  | _, .skipDe t _ r => funext fun v => by simp only [Fields.withInts, Fields.encOne, Ty.withInts_enc f t]
  | _, .conv t _ _ r => funext fun v => by simp only [Fields.withInts, Fields.encOne, Ty.withInts_enc f t]
theorem Variants.withInts_enc (f : IntTy → IntTy) : ∀ {ρ : Type} (vs : Variants ρ), (vs.withInts f).enc = vs.enc
  | _, .nil => funext fun v => nomatch v
  | _, .cons _ fs r => funext fun v => by cases v <;> simp only [Variants.withInts, Variants.enc, Fields.withInts_enc f fs, Variants.withInts_enc f r]
end

mutual
theorem Ty.withInts_restores (f : IntTy → IntTy) : ∀ {α : Type} (t : Ty α), (t.withInts f).restores = t.restores
  | _, .bool  => funext fun v => funext fun w => by simp only [Ty.withInts, Ty.restores]
  | _, .int _ => funext fun v => funext fun w => by simp only [Ty.withInts, Ty.restores]
  | _, .string  => funext fun v => funext fun w => by simp only [Ty.withInts, Ty.restores]
  | _, .octetString  => funext fun v => funext fun w => by simp only [Ty.withInts, Ty.restores]
  | _, .vec t => funext fun v => funext fun w => by simp only [Ty.withInts, Ty.restores, Ty.withInts_restores f t]
  | _, .linkedList t => funext fun v => funext fun w => by simp only [Ty.withInts, Ty.restores, Ty.withInts_restores f t]
  | _, .vecDeque t => funext fun v => funext fun w => by simp only [Ty.withInts, Ty.restores, Ty.withInts_restores f t]
  | _, .btreeSet _ _ _ t => funext fun v => funext fun w => by simp only [Ty.withInts, Ty.restores, Ty.withInts_restores f t]
  | _, .btreeMap _ _ _ k t => funext fun v => funext fun w => by simp only [Ty.withInts, Ty.restores, Ty.withInts_restores f k, Ty.withInts_restores f t]
  | _, .hashSet _ t => funext fun v => funext fun w => by simp only [Ty.withInts, Ty.restores, Ty.withInts_restores f t]
  | _, .hashMap _ k t => funext fun v => funext fun w => by simp only [Ty.withInts, Ty.restores, Ty.withInts_restores f k, Ty.withInts_restores f t]
  | _, .struct _ fs => funext fun v => funext fun w => by simp only [Ty.withInts, Ty.restores, Fields.withInts_restores f fs]
  | _, .enum vs => funext fun v => funext fun w => by simp only [Ty.withInts, Ty.restores, Variants.withInts_restores f vs]
  | _, .transparent fs => funext fun v => funext fun w => by simp only [Ty.withInts, Ty.restores, Fields.withInts_restores f fs]
  | _, .conv t _ _ => funext fun v => funext fun w => by simp only [Ty.withInts, Ty.restores, Ty.withInts_restores f t]
  | _, .named t _ _ _ _ => funext fun v => funext fun w => by simp only [Ty.withInts, Ty.restores, Ty.withInts_restores f t]
  | _, .hole  => funext fun v => funext fun w => by simp only [Ty.withInts, Ty.restores]
theorem Fields.withInts_restores (f : IntTy → IntTy) : ∀ {γ : Type} (fs : Fields γ), (fs.withInts f).restores = fs.restores
  | _, .nil  => funext fun v => funext fun w => by simp only [Fields.withInts, Fields.restores]
  | _, .plain t r => funext fun v => funext fun w => by simp only [Fields.withInts, Fields.restores, Ty.withInts_restores f t, Fields.withInts_restores f r]
  | _, .skip _ r => funext fun v => funext fun w => by simp only [Fields.withInts, Fields.restores, Fields.withInts_restores f r]
  | _, .skipSer t r => funext fun v => funext fun w => by simp only [Fields.withInts, Fields.restores, Ty.withInts_restores f t, Fields.withInts_restores f r]
  | _, .skipDe t _ r => funext fun v => funext fun w => by simp only [Fields.withInts, Fields.restores, Ty.withInts_restores f t, Fields.withInts_restores f r]
  | _, .conv t _ _ r => funext fun v => funext fun w => by simp only [Fields.withInts, Fields.restores, Ty.withInts_restores f t, Fields.withInts_restores f r]
theorem Variants.withInts_restores (f : IntTy → IntTy) : ∀ {ρ : Type} (vs : Variants ρ), (vs.withInts f).restores = vs.restores
  | _, .nil => funext fun v => nomatch v
  | _, .cons _ fs r => funext fun v => funext fun w => match v, w with
    | .inl v, .inl w => congrFun (congrFun (Fields.withInts_restores f fs) v) w
    | .inr v, .inr w => congrFun (congrFun (Variants.withInts_restores f r) v) w
    | .inl _, .inr _ => rfl
    | .inr _, .inl _ => rfl
end

mutual
theorem Ty.withInts_serializable (f : IntTy → IntTy) : ∀ {α : Type} (t : Ty α), (t.withInts f).serializable = t.serializable
  | _, .bool  => by simp only [Ty.withInts, Ty.serializable, Fields.withInts_serCount, Ty.withInts_sized]
  | _, .int _ => by simp only [Ty.withInts, Ty.serializable, Fields.withInts_serCount, Ty.withInts_sized]
  | _, .string  => by simp only [Ty.withInts, Ty.serializable, Fields.withInts_serCount, Ty.withInts_sized]
  | _, .octetString  => by simp only [Ty.withInts, Ty.serializable, Fields.withInts_serCount, Ty.withInts_sized]
  | _, .vec t => by simp only [Ty.withInts, Ty.serializable, Ty.withInts_serializable f t, Fields.withInts_serCount, Ty.withInts_sized]
  | _, .linkedList t => by simp only [Ty.withInts, Ty.serializable, Ty.withInts_serializable f t, Fields.withInts_serCount, Ty.withInts_sized]
  | _, .vecDeque t => by simp only [Ty.withInts, Ty.serializable, Ty.withInts_serializable f t, Fields.withInts_serCount, Ty.withInts_sized]
  | _, .btreeSet _ _ _ t => by simp only [Ty.withInts, Ty.serializable, Ty.withInts_serializable f t, Fields.withInts_serCount, Ty.withInts_sized]
  | _, .btreeMap _ _ _ k t => by simp only [Ty.withInts, Ty.serializable, Ty.withInts_serializable f k, Ty.withInts_serializable f t, Fields.withInts_serCount, Ty.withInts_sized]
  | _, .hashSet _ t => by simp only [Ty.withInts, Ty.serializable, Ty.withInts_serializable f t, Fields.withInts_serCount, Ty.withInts_sized]
  | _, .hashMap _ k t => by simp only [Ty.withInts, Ty.serializable, Ty.withInts_serializable f k, Ty.withInts_serializable f t, Fields.withInts_serCount, Ty.withInts_sized]
  | _, .struct _ fs => by simp only [Ty.withInts, Ty.serializable, Fields.withInts_serializable f fs, Fields.withInts_serCount, Ty.withInts_sized]
  | _, .enum vs => by simp only [Ty.withInts, Ty.serializable, Variants.withInts_serializable f vs, Fields.withInts_serCount, Ty.withInts_sized]
  | _, .transparent fs => by simp only [Ty.withInts, Ty.serializable, Fields.withInts_serializable f fs, Fields.withInts_serCount, Ty.withInts_sized]
  | _, .conv t _ _ => by simp only [Ty.withInts, Ty.serializable, Ty.withInts_serializable f t, Fields.withInts_serCount, Ty.withInts_sized]
  | _, .named t _ _ _ _ => by simp only [Ty.withInts, Ty.serializable, Ty.withInts_serializable f t, Fields.withInts_serCount, Ty.withInts_sized]
  | _, .hole  => by simp only [Ty.withInts, Ty.serializable, Fields.withInts_serCount, Ty.withInts_sized]
theorem Fields.withInts_serializable (f : IntTy → IntTy) : ∀ {γ : Type} (fs : Fields γ), (fs.withInts f).serializable = fs.serializable
  | _, .nil  => by simp only [Fields.withInts, Fields.serializable, Fields.withInts_serCount, Ty.withInts_sized]
  | _, .plain t r => by simp only [Fields.withInts, Fields.serializable, Ty.withInts_serializable f t, Fields.withInts_serializable f r, Fields.withInts_serCount, Ty.withInts_sized]
  | _, .skip _ r => by simp only [Fields.withInts, Fields.serializable, Fields.withInts_serializable f r, Fields.withInts_serCount, Ty.withInts_sized]
  | _, .skipSer t r => by simp only [Fields.withInts, Fields.serializable, Ty.withInts_serializable f t, Fields.withInts_serializable f r, Fields.withInts_serCount, Ty.withInts_sized]
  | _, .skipDe t _ r => by simp only [Fields.withInts, Fields.serializable, Ty.withInts_serializable f t, Fields.withInts_serializable f r, Fields.withInts_serCount, Ty.withInts_sized]
  | _, .conv t _ _ r => by simp only [Fields.withInts, Fields.serializable, Ty.withInts_serializable f t, Fields.withInts_serializable f r, Fields.withInts_serCount, Ty.withInts_sized]
theorem Variants.withInts_serializable (f : IntTy → IntTy) : ∀ {ρ : Type} (vs : Variants ρ), (vs.withInts f).serializable = vs.serializable
  | _, .nil  => by simp only [Variants.withInts, Variants.serializable, Fields.withInts_serCount, Ty.withInts_sized]
  | _, .cons _ fs r => by simp only [Variants.withInts, Variants.serializable, Fields.withInts_serializable f fs, Variants.withInts_serializable f r, Fields.withInts_serCount, Ty.withInts_sized]
end

mutual
theorem Ty.withInts_deserializable (f : IntTy → IntTy) : ∀ {α : Type} (t : Ty α), (t.withInts f).deserializable = t.deserializable
  | _, .bool  => by simp only [Ty.withInts, Ty.deserializable, Fields.withInts_deCount]
  | _, .int _ => by simp only [Ty.withInts, Ty.deserializable, Fields.withInts_deCount]
  | _, .string  => by simp only [Ty.withInts, Ty.deserializable, Fields.withInts_deCount]
  | _, .octetString  => by simp only [Ty.withInts, Ty.deserializable, Fields.withInts_deCount]
  | _, .vec t => by simp only [Ty.withInts, Ty.deserializable, Ty.withInts_deserializable f t, Fields.withInts_deCount]
  | _, .linkedList t => by simp only [Ty.withInts, Ty.deserializable, Ty.withInts_deserializable f t, Fields.withInts_deCount]
  | _, .vecDeque t => by simp only [Ty.withInts, Ty.deserializable, Ty.withInts_deserializable f t, Fields.withInts_deCount]
  | _, .btreeSet _ _ _ t => by simp only [Ty.withInts, Ty.deserializable, Ty.withInts_deserializable f t, Fields.withInts_deCount]
  | _, .btreeMap _ _ _ k t => by simp only [Ty.withInts, Ty.deserializable, Ty.withInts_deserializable f k, Ty.withInts_deserializable f t, Fields.withInts_deCount]
  | _, .hashSet _ t => by simp only [Ty.withInts, Ty.deserializable, Ty.withInts_deserializable f t, Fields.withInts_deCount]
  | _, .hashMap _ k t => by simp only [Ty.withInts, Ty.deserializable, Ty.withInts_deserializable f k, Ty.withInts_deserializable f t, Fields.withInts_deCount]
  | _, .struct _ fs => by simp only [Ty.withInts, Ty.deserializable, Fields.withInts_deserializable f fs, Fields.withInts_deCount]
  | _, .enum vs => by simp only [Ty.withInts, Ty.deserializable, Variants.withInts_deserializable f vs, Fields.withInts_deCount]
  | _, .transparent fs => by simp only [Ty.withInts, Ty.deserializable, Fields.withInts_deserializable f fs, Fields.withInts_deCount]
  | _, .conv t _ _ => by simp only [Ty.withInts, Ty.deserializable, Ty.withInts_deserializable f t, Fields.withInts_deCount]
  | _, .named t _ _ _ _ => by simp only [Ty.withInts, Ty.deserializable, Ty.withInts_deserializable f t, Fields.withInts_deCount]
  | _, .hole  => by simp only [Ty.withInts, Ty.deserializable, Fields.withInts_deCount]
theorem Fields.withInts_deserializable (f : IntTy → IntTy) : ∀ {γ : Type} (fs : Fields γ), (fs.withInts f).deserializable = fs.deserializable
  | _, .nil  => by simp only [Fields.withInts, Fields.deserializable, Fields.withInts_deCount]
  | _, .plain t r => by simp only [Fields.withInts, Fields.deserializable, Ty.withInts_deserializable f t, Fields.withInts_deserializable f r, Fields.withInts_deCount]
  | _, .skip _ r => by simp only [Fields.withInts, Fields.deserializable, Fields.withInts_deserializable f r, Fields.withInts_deCount]
  | _, .skipSer t r => by simp only [Fields.withInts, Fields.deserializable, Ty.withInts_deserializable f t, Fields.withInts_deserializable f r, Fields.withInts_deCount]
  | _, .skipDe t _ r => by simp only [Fields.withInts, Fields.deserializable, Ty.withInts_deserializable f t, Fields.withInts_deserializable f r, Fields.withInts_deCount]
  | _, .conv t _ _ r => by simp only [Fields.withInts, Fields.deserializable, Ty.withInts_deserializable f t, Fields.withInts_deserializable f r, Fields.withInts_deCount]
theorem Variants.withInts_deserializable (f : IntTy → IntTy) : ∀ {ρ : Type} (vs : Variants ρ), (vs.withInts f).deserializable = vs.deserializable
  | _, .nil  => by simp only [Variants.withInts, Variants.deserializable, Fields.withInts_deCount]
  | _, .cons _ fs r => by simp only [Variants.withInts, Variants.deserializable, Fields.withInts_deserializable f fs, Variants.withInts_deserializable f r, Fields.withInts_deCount]
end

mutual
theorem Ty.withInts_convertible (f : IntTy → IntTy) : ∀ {α : Type} (t : Ty α), (t.withInts f).convertible = t.convertible
  | _, .bool  => funext fun v => by simp only [Ty.withInts, Ty.convertible, Ty.withInts_restores]
  | _, .int _ => funext fun v => by simp only [Ty.withInts, Ty.convertible, Ty.withInts_restores]
  | _, .string  => funext fun v => by simp only [Ty.withInts, Ty.convertible, Ty.withInts_restores]
  | _, .octetString  => funext fun v => by simp only [Ty.withInts, Ty.convertible, Ty.withInts_restores]
  | _, .vec t => funext fun v => by simp only [Ty.withInts, Ty.convertible, Ty.withInts_convertible f t, Ty.withInts_restores]
  | _, .linkedList t => funext fun v => by simp only [Ty.withInts, Ty.convertible, Ty.withInts_convertible f t, Ty.withInts_restores]
  | _, .vecDeque t => funext fun v => by simp only [Ty.withInts, Ty.convertible, Ty.withInts_convertible f t, Ty.withInts_restores]
  | _, .btreeSet _ _ _ t => funext fun v => by simp only [Ty.withInts, Ty.convertible, Ty.withInts_convertible f t, Ty.withInts_restores]
  | _, .btreeMap _ _ _ k t => funext fun v => by simp only [Ty.withInts, Ty.convertible, Ty.withInts_convertible f k, Ty.withInts_convertible f t, Ty.withInts_restores]
  | _, .hashSet _ t => funext fun v => by simp only [Ty.withInts, Ty.convertible, Ty.withInts_convertible f t, Ty.withInts_restores]
  | _, .hashMap _ k t => funext fun v => by simp only [Ty.withInts, Ty.convertible, Ty.withInts_convertible f k, Ty.withInts_convertible f t, Ty.withInts_restores]
  | _, .struct _ fs => funext fun v => by simp only [Ty.withInts, Ty.convertible, Fields.withInts_convertible f fs, Ty.withInts_restores]
  | _, .enum vs => funext fun v => by simp only [Ty.withInts, Ty.convertible, Variants.withInts_convertible f vs, Ty.withInts_restores]
  | _, .transparent fs => funext fun v => by simp only [Ty.withInts, Ty.convertible, Fields.withInts_convertible f fs, Ty.withInts_restores]
  | _, .conv t _ _ => funext fun v => by simp only [Ty.withInts, Ty.convertible, Ty.withInts_convertible f t, Ty.withInts_restores]
  | _, .named t _ _ _ _ => funext fun v => by simp only [Ty.withInts, Ty.convertible, Ty.withInts_convertible f t, Ty.withInts_restores]
  | _, .hole  => funext fun v => by simp only [Ty.withInts, Ty.convertible, Ty.withInts_restores]
theorem Fields.withInts_convertible (f : IntTy → IntTy) : ∀ {γ : Type} (fs : Fields γ), (fs.withInts f).convertible = fs.convertible
  | _, .nil  => funext fun v => by simp only [Fields.withInts, Fields.convertible, Ty.withInts_restores]
  | _, .plain t r => funext fun v => by simp only [Fields.withInts, Fields.convertible, Ty.withInts_convertible f t, Fields.withInts_convertible f r, Ty.withInts_restores]
  | _, .skip _ r => funext fun v => by simp only [Fields.withInts, Fields.convertible, Fields.withInts_convertible f r, Ty.withInts_restores]
  | _, .skipSer t r => funext fun v => by simp only [Fields.withInts, Fields.convertible, Ty.withInts_convertible f t, Fields.withInts_convertible f r, Ty.withInts_restores]
  | _, .skipDe t _ r => funext fun v => by simp only [Fields.withInts, Fields.convertible, Ty.withInts_convertible f t, Fields.withInts_convertible f r, Ty.withInts_restores]
  | _, .conv t _ _ r => funext fun v => by simp only [Fields.withInts, Fields.convertible, Ty.withInts_convertible f t, Fields.withInts_convertible f r, Ty.withInts_restores]
theorem Variants.withInts_convertible (f : IntTy → IntTy) : ∀ {ρ : Type} (vs : Variants ρ), (vs.withInts f).convertible = vs.convertible
  | _, .nil => funext fun v => nomatch v
  | _, .cons _ fs r => funext fun v => by cases v <;> simp only [Variants.withInts, Variants.convertible, Fields.withInts_convertible f fs, Variants.withInts_convertible f r, Ty.withInts_restores]
end

mutual
theorem Ty.withInts_exact (f : IntTy → IntTy) : ∀ {α : Type} (t : Ty α), (t.withInts f).exact = t.exact
  | _, .bool  => by simp only [Ty.withInts, Ty.exact]
  | _, .int _ => by simp only [Ty.withInts, Ty.exact]
  | _, .string  => by simp only [Ty.withInts, Ty.exact]
  | _, .octetString  => by simp only [Ty.withInts, Ty.exact]
  | _, .vec t => by simp only [Ty.withInts, Ty.exact, Ty.withInts_exact f t]
  | _, .linkedList t => by simp only [Ty.withInts, Ty.exact, Ty.withInts_exact f t]
  | _, .vecDeque t => by simp only [Ty.withInts, Ty.exact, Ty.withInts_exact f t]
  | _, .btreeSet _ _ _ t => by simp only [Ty.withInts, Ty.exact, Ty.withInts_exact f t]
  | _, .btreeMap _ _ _ k t => by simp only [Ty.withInts, Ty.exact, Ty.withInts_exact f k, Ty.withInts_exact f t]
  | _, .hashSet _ t => by simp only [Ty.withInts, Ty.exact, Ty.withInts_exact f t]
  | _, .hashMap _ k t => by simp only [Ty.withInts, Ty.exact, Ty.withInts_exact f k, Ty.withInts_exact f t]
  | _, .struct _ fs => by simp only [Ty.withInts, Ty.exact, Fields.withInts_exact f fs]
  | _, .enum vs => by simp only [Ty.withInts, Ty.exact, Variants.withInts_exact f vs]
  | _, .transparent fs => by simp only [Ty.withInts, Ty.exact, Fields.withInts_exact f fs]
  | _, .conv t _ _ => by simp only [Ty.withInts, Ty.exact, Ty.withInts_exact f t]
  | _, .named t _ _ _ _ => by simp only [Ty.withInts, Ty.exact, Ty.withInts_exact f t]
  | _, .hole  => by simp only [Ty.withInts, Ty.exact]
theorem Fields.withInts_exact (f : IntTy → IntTy) : ∀ {γ : Type} (fs : Fields γ), (fs.withInts f).exact = fs.exact
  | _, .nil  => by simp only [Fields.withInts, Fields.exact]
  | _, .plain t r => by simp only [Fields.withInts, Fields.exact, Ty.withInts_exact f t, Fields.withInts_exact f r]
  | _, .skip _ r => by simp only [Fields.withInts, Fields.exact, Fields.withInts_exact f r]
  | _, .skipSer t r => by simp only [Fields.withInts, Fields.exact, Ty.withInts_exact f t, Fields.withInts_exact f r]
  | _, .skipDe t _ r => by simp only [Fields.withInts, Fields.exact, Ty.withInts_exact f t, Fields.withInts_exact f r]
  | _, .conv t _ _ r => by simp only [Fields.withInts, Fields.exact, Ty.withInts_exact f t, Fields.withInts_exact f r]
theorem Variants.withInts_exact (f : IntTy → IntTy) : ∀ {ρ : Type} (vs : Variants ρ), (vs.withInts f).exact = vs.exact
  | _, .nil  => by simp only [Variants.withInts, Variants.exact]
  | _, .cons _ fs r => by simp only [Variants.withInts, Variants.exact, Fields.withInts_exact f fs, Variants.withInts_exact f r]
end

theorem Variants.withInts_ids (f : IntTy → IntTy) : ∀ {ρ : Type} (vs : Variants ρ), (vs.withInts f).ids = vs.ids
  | _, .nil  => by simp only [Variants.withInts, Variants.ids]
  | _, .cons _ fs r => by simp only [Variants.withInts, Variants.ids, Variants.withInts_ids f r]

theorem Ty.withInts_der (f : IntTy → IntTy) (t : Ty α) : (t.withInts f).der = t.der := by
  funext v
  rw [Ty.der, Ty.der, Ty.withInts_enc]

end Spec

namespace Target
open Spec
variable {α β γ ρ : Type}

theorem w8_writeBuffer : w8.writeBuffer = Bsn1.writeBuffer := by
  funext m cs b
  induction cs generalizing b with
  | nil => rfl
  | cons c r ih => simp only [writeBuffer, Bsn1.writeBuffer, w8_bufReserve, ih]

theorem w8_toBuffer (m : Build) (w : W α) : w8.toBuffer m w = W.toBuffer m w := by
  funext b; simp only [toBuffer, W.toBuffer, w8_writeBuffer]

theorem w8_contentsLen (m : Build) (s : Ser α) : w8.contentsLen m s = Bsn1.contentsLen m s := by
  funext b; simp only [contentsLen, Bsn1.contentsLen, w8_toBuffer]; rfl

theorem w8_writeDer (m : Build) (s : Ser α) : w8.writeDer m s = Bsn1.writeDer m s := by
  funext b; simp only [writeDer, Bsn1.writeDer, w8_contentsLen, w8_toBytes]; rfl

theorem w8_reserveDer : w8.reserveDer = Bsn1.reserveDer := by
  funext m i a b; cases i <;> simp only [reserveDer, Bsn1.reserveDer, w8_uadd, w8_bufReserve]

theorem w8_toDer (m : Build) (s : Ser α) : w8.toDer m s = Bsn1.toDer m s := by
  funext b; simp only [toDer, Bsn1.toDer, w8_contentsLen, w8_toBytes, w8_reserveDer, w8_toBuffer, w8_writeBuffer]; rfl

theorem w8_derLen (m : Build) (s : Ser α) : w8.derLen m s = Bsn1.derLen m s := by
  funext b; simp only [derLen, Bsn1.derLen, w8_uadd, w8_lengthLen]; rfl

theorem w8_derContentsLenLoop (m : Build) (s : Ser α) (it : List α) (n : Nat) :
    w8.derContentsLenLoop m s it n = Bsn1.derContentsLenLoop m s it n := by
  induction it generalizing n with
  | nil => rfl
  | cons c r ih => simp only [derContentsLenLoop, Bsn1.derContentsLenLoop, w8_derLen, w8_uadd, ih]; rfl

theorem w8_derContentsLen (m : Build) (s : Ser α) : w8.derContentsLen m s = Bsn1.derContentsLen m s := by
  funext it; exact w8_derContentsLenLoop m s it 0

theorem w8_writeEach (m : Build) (s : Ser α) : w8.writeEach m s = Bsn1.writeEach m s := by
  funext it
  induction it with
  | nil => rfl
  | cons c r ih => simp only [writeEach, Bsn1.writeEach, w8_writeDer, ih]

theorem w8_entryLen (m : Build) (s : Ser α) : w8.entryLen m s = Bsn1.entryLen m s := by
  funext k; simp only [entryLen, Bsn1.entryLen, w8_derLen, w8_toDer]; rfl

theorem w8_writeEntry (m : Build) (s : Ser α) : w8.writeEntry m s = Bsn1.writeEntry m s := by
  funext k d; cases d <;> simp only [writeEntry, Bsn1.writeEntry, w8_writeDer]

theorem w8_writePair (m : Build) (sk : Ser α) (sv : Ser β) : w8.writePair m sk sv = Bsn1.writePair m sk sv := by
  funext kv; simp only [writePair, Bsn1.writePair, w8_entryLen, w8_writeEntry, w8_uadd, w8_toBytes]

theorem w8_writePairs (m : Build) (sk : Ser α) (sv : Ser β) : w8.writePairs m sk sv = Bsn1.writePairs m sk sv := by
  funext it
  induction it with
  | nil => rfl
  | cons c r ih => simp only [writePairs, Bsn1.writePairs, w8_writePair, ih]

theorem w8_addPair : w8.addPair = Bsn1.addPair := by
  funext m a b c; simp only [addPair, Bsn1.addPair, w8_uadd, w8_lengthLen]

theorem w8_btreeMapLen (m : Build) (sk : Ser α) (sv : Ser β) (it : List (α × β)) (n : Nat) :
    w8.btreeMapLen m sk sv it n = Bsn1.btreeMapLen m sk sv it n := by
  induction it generalizing n with
  | nil => rfl
  | cons c r ih => simp only [btreeMapLen, Bsn1.btreeMapLen, w8_derLen, w8_addPair, ih]; rfl

theorem w8_hashMapLen (m : Build) (sk : Ser α) (sv : Ser β) (it : List (α × β)) (n : Nat) :
    w8.hashMapLen m sk sv it n = Bsn1.hashMapLen m sk sv it n := by
  induction it generalizing n with
  | nil => rfl
  | cons c r ih => simp only [hashMapLen, Bsn1.hashMapLen, w8_derLen, w8_addPair, ih]; rfl

theorem w8_writeField (m : Build) (f : SerField β) : w8.writeField m f = Bsn1.writeField m f := by
  funext v; cases f <;> simp only [writeField, Bsn1.writeField, w8_writeDer]

theorem w8_writeFields (m : Build) (fs : SerFields γ) : w8.writeFields m fs = Bsn1.writeFields m fs := by
  induction fs with
  | nil => rfl
  | cons f r ih => funext v; simp only [writeFields, Bsn1.writeFields, w8_writeField, ih]

theorem w8_fieldsLenLoop (m : Build) (fs : SerFields γ) : w8.fieldsLenLoop m fs = Bsn1.fieldsLenLoop m fs := by
  induction fs with
  | nil => rfl
  | cons f r ih => funext v n; cases f <;> simp only [fieldsLenLoop, Bsn1.fieldsLenLoop, w8_uadd, w8_lengthLen, ih] <;> rfl

theorem w8_serInt (i : IntTy) : w8.serInt i = Ser.int i := by cases i <;> rfl

theorem w8_serStruct (m : Build) (id : Bytes) (fs : SerFields γ) : w8.serStruct m id fs = Ser.struct m id fs := by
  simp only [serStruct, Ser.struct, w8_writeFields, fieldsLen, Bsn1.fieldsLen, w8_fieldsLenLoop]

theorem w8_pickVariant (m : Build) (k : {γ : Type} → Ser γ → γ → α) (vs : SerVariants ρ) : w8.pickVariant m k vs = SerVariants.pick m k vs := by
  induction vs with
  | nil => funext v; exact nomatch v
  | cons id fs r ih => funext v; cases v <;> simp only [pickVariant, SerVariants.pick, w8_serStruct, ih]

theorem w8_serEnum (m : Build) (vs : SerVariants ρ) : w8.serEnum m vs = Ser.enum m vs := by
  simp only [serEnum, Ser.enum, w8_pickVariant]

mutual
theorem w8_tySer (m : Build) : ∀ {α : Type} (t : Ty α), w8.tySer m t = Ty.ser m t
  | _, .bool => rfl
  | _, .int i => w8_serInt i
  | _, .string => rfl
  | _, .octetString => rfl
  | _, .vec t => by simp only [tySer, Ty.ser, w8_tySer m t, serVec, Ser.vec, w8_writeEach, w8_derContentsLen]
  | _, .linkedList t => by simp only [tySer, Ty.ser, w8_tySer m t, serLinkedList, Ser.linkedList, w8_writeEach, w8_derContentsLen]
  | _, .vecDeque t => by simp only [tySer, Ty.ser, w8_tySer m t, serVecDeque, Ser.vecDeque, w8_writeEach, w8_derContentsLen]
  | _, .btreeSet _ _ _ t => by simp only [tySer, Ty.ser, w8_tySer m t, serBtreeSet, Ser.btreeSet, w8_writeEach, w8_derContentsLen]
  | _, .btreeMap _ _ _ k t => by
    simp only [tySer, Ty.ser, w8_tySer m k, w8_tySer m t, serBtreeMap, Ser.btreeMap, w8_writePairs, w8_btreeMapLen]
  | _, .hashSet _ t => by simp only [tySer, Ty.ser, w8_tySer m t, serHashSet, Ser.hashSet, w8_writeEach, w8_derContentsLen]
  | _, .hashMap _ k t => by
    simp only [tySer, Ty.ser, w8_tySer m k, w8_tySer m t, serHashMap, Ser.hashMap, w8_writePairs, w8_hashMapLen]
  | _, .struct id fs => by simp only [tySer, Ty.ser, w8_fieldsSer m fs, w8_serStruct]
  | _, .enum vs => by simp only [tySer, Ty.ser, w8_variantsSer m vs, w8_serEnum]
  | _, .transparent fs => by simp only [tySer, Ty.ser, w8_fieldsSer m fs, w8_serStruct]
  | _, .conv t f _ => by simp only [tySer, Ty.ser, w8_tySer m t]
  | _, .named t f _ _ _ => by simp only [tySer, Ty.ser, w8_tySer m t]
  | _, .hole => rfl
theorem w8_fieldsSer (m : Build) : ∀ {γ : Type} (fs : Fields γ), w8.fieldsSer m fs = Fields.ser m fs
  | _, .nil => rfl
  | _, .plain t r => by simp only [fieldsSer, Fields.ser, w8_tySer m t, w8_fieldsSer m r]
  | _, .skip d r => by simp only [fieldsSer, Fields.ser, w8_fieldsSer m r]
  | _, .skipSer t r => by simp only [fieldsSer, Fields.ser, w8_fieldsSer m r]
  | _, .skipDe t d r => by simp only [fieldsSer, Fields.ser, w8_tySer m t, w8_fieldsSer m r]
  | _, .conv t f g r => by simp only [fieldsSer, Fields.ser, w8_tySer m t, w8_fieldsSer m r]
theorem w8_variantsSer (m : Build) : ∀ {ρ : Type} (vs : Variants ρ), w8.variantsSer m vs = Variants.ser m vs
  | _, .nil => rfl
  | _, .cons id fs r => by simp only [variantsSer, Variants.ser, w8_fieldsSer m fs, w8_variantsSer m r]
end

/-! ### Decoding -/

theorem w8_contents (v : Bytes) : w8.contents v = DerRef.contents v := by
  simp only [contents, DerRef.contents, w8_disassemble] <;> rfl

theorem w8_derToVal (d : De α) : w8.derToVal d = Bsn1.derToVal d := by
  funext bs; simp only [derToVal, Bsn1.derToVal, w8_derRefParse, w8_disassemble] <;> rfl

theorem w8_berToVal (d : De α) : w8.berToVal d = Bsn1.berToVal d := by
  funext bs; simp only [berToVal, Bsn1.berToVal, w8_berRefParse, w8_disassemble] <;> rfl

theorem w8_derToKeyVal (dk : De α) (dv : De β) : w8.derToKeyVal dk dv = Bsn1.derToKeyVal dk dv := by
  funext bs; simp only [derToKeyVal, Bsn1.derToKeyVal, w8_derRefParse, w8_disassemble, w8_contents] <;> rfl

theorem w8_berToKeyVal (dk : De α) (dv : De β) : w8.berToKeyVal dk dv = Bsn1.berToKeyVal dk dv := by
  funext bs; simp only [berToKeyVal, Bsn1.berToKeyVal, w8_berRefParse, w8_disassemble, w8_contents] <;> rfl

theorem w8_derTmpVal (d : De α) : w8.derTmpVal d = Bsn1.derTmpVal d := by
  funext bs; simp only [derTmpVal, Bsn1.derTmpVal, w8_derRefParse, w8_disassemble] <;> rfl

theorem w8_berTmpVal (d : De α) : w8.berTmpVal d = Bsn1.berTmpVal d := by
  funext bs; simp only [berTmpVal, Bsn1.berTmpVal, w8_berRefParse, w8_disassemble] <;> rfl

theorem w8_derTmp : @Target.derTmpVal w8 = @Bsn1.derTmpVal := by
  funext δ d; exact w8_derTmpVal d

theorem w8_berTmp : @Target.berTmpVal w8 = @Bsn1.berTmpVal := by
  funext δ d; exact w8_berTmpVal d

theorem w8_fromDerContents (fs : DeFields γ) (c : Bytes) : w8.fromDerContents fs c = Bsn1.fromDerContents fs c := by
  have : deFields (fun {δ} => w8.derTmpVal (β := δ)) fs c = deFields (fun {δ} => Bsn1.derTmpVal (β := δ)) fs c :=
    congrArg (fun (k : (δ : Type) → De δ → Bytes → Res (δ × Bytes)) => deFields (fun {δ} => k δ) fs c) w8_derTmp
  rw [fromDerContents, Bsn1.fromDerContents, this]

theorem w8_fromBerContents (m : Build) (fs : DeFields γ) (l : Length) (c : Bytes) : w8.fromBerContents m fs l c = Bsn1.fromBerContents m fs l c := by
  have (c : Bytes) : deFields (fun {δ} => w8.berTmpVal (β := δ)) fs c = deFields (fun {δ} => Bsn1.berTmpVal (β := δ)) fs c :=
    congrArg (fun (k : (δ : Type) → De δ → Bytes → Res (δ × Bytes)) => deFields (fun {δ} => k δ) fs c) w8_berTmp
  simp only [fromBerContents, Bsn1.fromBerContents, this]

theorem w8_deInt (m : Build) (i : IntTy) : w8.deInt m i = De.int m i := by cases i <;> rfl

theorem w8_deStruct (m : Build) (id : Bytes) (fs : DeFields γ) : w8.deStruct m id fs = De.struct m id fs := by
  simp only [deStruct, De.struct, w8_fromBerContents, w8_fromDerContents]

theorem w8_deEnum (m : Build) (vs : DeVariants ρ) : w8.deEnum m vs = De.enum m vs := by
  simp only [deEnum, De.enum, w8_fromBerContents, w8_fromDerContents]

mutual
theorem w8_tyDe (m : Build) (o : HashOrder) : ∀ {α : Type} (t : Ty α), w8.tyDe m o t = Ty.de m o t
  | _, .bool => rfl
  | _, .int i => w8_deInt m i
  | _, .string => rfl
  | _, .octetString => rfl
  | _, .vec t => by simp only [tyDe, Ty.de, w8_tyDe m o t, deVec, De.vec, w8_berToVal, w8_derToVal]
  | _, .linkedList t => by simp only [tyDe, Ty.de, w8_tyDe m o t, deLinkedList, De.linkedList, w8_berToVal, w8_derToVal]
  | _, .vecDeque t => by simp only [tyDe, Ty.de, w8_tyDe m o t, deVecDeque, De.vecDeque, w8_berToVal, w8_derToVal]
  | _, .btreeSet _ _ _ t => by simp only [tyDe, Ty.de, w8_tyDe m o t, deBtreeSet, De.btreeSet, w8_berToVal, w8_derToVal]
  | _, .btreeMap _ _ _ k t => by
    simp only [tyDe, Ty.de, w8_tyDe m o k, w8_tyDe m o t, deBtreeMap, De.btreeMap, w8_berToKeyVal, w8_derToKeyVal]
  | _, .hashSet _ t => by simp only [tyDe, Ty.de, w8_tyDe m o t, deHashSet, De.hashSet, w8_berToVal, w8_derToVal]
  | _, .hashMap _ k t => by
    simp only [tyDe, Ty.de, w8_tyDe m o k, w8_tyDe m o t, deHashMap, De.hashMap, w8_berToKeyVal, w8_derToKeyVal]
  | _, .struct id fs => by simp only [tyDe, Ty.de, w8_fieldsDe m o fs, w8_deStruct]
  | _, .enum vs => by simp only [tyDe, Ty.de, w8_variantsDe m o vs, w8_deEnum]
  | _, .transparent fs => by simp only [tyDe, Ty.de, w8_fieldsDe m o fs, w8_deStruct]
  | _, .conv t f _ => by simp only [tyDe, Ty.de, w8_tyDe m o t]
  | _, .named t f _ _ _ => by simp only [tyDe, Ty.de, w8_tyDe m o t]
  | _, .hole => rfl
theorem w8_fieldsDe (m : Build) (o : HashOrder) : ∀ {γ : Type} (fs : Fields γ), w8.fieldsDe m o fs = Fields.de m o fs
  | _, .nil => rfl
  | _, .plain t r => by simp only [fieldsDe, Fields.de, w8_tyDe m o t, w8_fieldsDe m o r]
  | _, .skip d r => by simp only [fieldsDe, Fields.de, w8_fieldsDe m o r]
  | _, .skipSer t r => by simp only [fieldsDe, Fields.de, w8_tyDe m o t, w8_fieldsDe m o r]
  | _, .skipDe t d r => by simp only [fieldsDe, Fields.de, w8_fieldsDe m o r]
  | _, .conv t f g r => by simp only [fieldsDe, Fields.de, w8_tyDe m o t, w8_fieldsDe m o r]
theorem w8_variantsDe (m : Build) (o : HashOrder) : ∀ {ρ : Type} (vs : Variants ρ), w8.variantsDe m o vs = Variants.de m o vs
  | _, .nil => rfl
  | _, .cons id fs r => by simp only [variantsDe, Variants.de, w8_fieldsDe m o fs, w8_variantsDe m o r]
end

theorem w8_fromDer (d : De α) : w8.fromDer d = Bsn1.fromDer d := by
  funext bs; simp only [fromDer, Bsn1.fromDer, w8_disassemble] <;> rfl

theorem w8_fromBer (d : De α) : w8.fromBer d = Bsn1.fromBer d := by
  funext bs; simp only [fromBer, Bsn1.fromBer, w8_disassemble] <;> rfl

theorem w8_parseDer (d : De α) : w8.parseDer d = Bsn1.parseDer d := by
  funext bs; simp only [parseDer, Bsn1.parseDer, w8_derRefParse, w8_fromDer] <;> rfl

theorem w8_parseBer (d : De α) : w8.parseBer d = Bsn1.parseBer d := by
  funext bs; simp only [parseBer, Bsn1.parseBer, w8_berRefParse, w8_fromBer] <;> rfl

theorem w8_readDer {σ : Type} [Reader σ] (m : Build) (d : De α) (s : σ) : w8.readDer m d s = Bsn1.readDer m d s := by
  simp only [readDer, Bsn1.readDer, w8_derParse, w8_fromDer] <;> rfl

theorem w8_readBer {σ : Type} [Reader σ] (m : Build) (d : De α) (s : σ) : w8.readBer m d s = Bsn1.readBer m d s := by
  simp only [readBer, Bsn1.readBer, w8_berParse, w8_fromBer] <;> rfl

end Target
end Bsn1
