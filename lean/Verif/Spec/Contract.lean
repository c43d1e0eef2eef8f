import Verif.Model.Derive
import Verif.Spec.Document
import Verif.Spec.Decode
/-!
# The contract of `Deserialize::from_ber`

bsn1_serde/src/de/mod.rs:26-34 makes `from_ber` an `unsafe fn`: the behaviour is undefined if `length` is invalid, e.g. indefinite where only
a definite length is allowed, or definite but not the length of `contents`.  Here are an implementation that relies on that, and all that can
be built around it: collections and derived types at any depth.
-/

namespace Bsn1.Spec

/-- The three parts are those of one BER value of definite length, or of one of indefinite length (then the contents end with the
end-of-contents). -/
inductive Truthful : Bytes → Length → Bytes → Prop
  | definite (id c : Bytes) : IsId id → c.length < 2 ^ 64 → Truthful id (.definite c.length) c
  | indefinite (id c : Bytes) : IsId id → BerSeq c → Truthful id .indefinite (c ++ eoc)

/-- X.690 8.1.3.2: "indefinite length where only definite length is allowed" is the case of a primitive identifier. -/
def FormAllows (id : Bytes) (length : Length) : Prop := length = .indefinite → HasForm 1 id

open Classical in
/-- An implementation of `Deserialize` in whose `from_ber` the behaviour is undefined unless the arguments satisfy `C`; `from_der` relies on
an identifier and contents that a DER value can have. -/
noncomputable def relying {δ : Type} (C : Bytes → Length → Bytes → Prop) (d : De δ) : De δ where
  fromBer id length contents := if C id length contents then d.fromBer id length contents else .ub
  fromDer id contents := if IsId id ∧ contents.length < 2 ^ 64 then d.fromDer id contents else .ub

mutual
/-- `x` is a decoder that uses `d` at some places (`impl`) and `x'` the same decoder with `d'` at these places.  Everything of
bsn1_serde/src/de/mod.rs:316-561 and of the derive macros can be around it. -/
inductive Around (m : Build) {δ : Type} (d d' : De δ) : {α : Type} → De α → De α → Prop
  | impl : Around m d d' d d'
  | other {α : Type} (x : De α) : Around m d d' x x
  | vec {α : Type} {x x' : De α} : Around m d d' x x' → Around m d d' (De.vec m x) (De.vec m x')
  | linkedList {α : Type} {x x' : De α} : Around m d d' x x' → Around m d d' (De.linkedList m x) (De.linkedList m x')
  | vecDeque {α : Type} {x x' : De α} : Around m d d' x x' → Around m d d' (De.vecDeque m x) (De.vecDeque m x')
  | btreeSet {α : Type} (cmp : α → α → Ordering) {x x' : De α} : Around m d d' x x' →
      Around m d d' (De.btreeSet m cmp x) (De.btreeSet m cmp x')
  | btreeMap {α β : Type} (cmp : α → α → Ordering) {k k' : De α} {x x' : De β} : Around m d d' k k' → Around m d d' x x' →
      Around m d d' (De.btreeMap m cmp k x) (De.btreeMap m cmp k' x')
  | hashSet {α : Type} (_ : DecidableEq α) (order : List α → List α) {x x' : De α} : Around m d d' x x' →
      Around m d d' (De.hashSet m order x) (De.hashSet m order x')
  | hashMap {α β : Type} (_ : DecidableEq α) (order : List (α × β) → List (α × β)) {k k' : De α} {x x' : De β} :
      Around m d d' k k' → Around m d d' x x' → Around m d d' (De.hashMap m order k x) (De.hashMap m order k' x')
  | struct {γ : Type} (id : Bytes) {fs fs' : DeFields γ} : AroundFields m d d' fs fs' →
      Around m d d' (De.struct m id fs) (De.struct m id fs')
  | transparent {γ : Type} {fs fs' : DeFields γ} {x x' : De γ} : AroundFields m d d' fs fs' →
      De.transparent fs = some x → De.transparent fs' = some x' → Around m d d' x x'
  | enum {ρ : Type} {vs vs' : DeVariants ρ} : AroundVariants m d d' vs vs' → Around m d d' (De.enum m vs) (De.enum m vs')
  | from_ {α β : Type} {x x' : De β} (f : β → α) : Around m d d' x x' → Around m d d' (De.from_ x f) (De.from_ x' f)
  | tryFrom {α β : Type} {x x' : De β} (f : β → Except Chain α) : Around m d d' x x' →
      Around m d d' (De.tryFrom x f) (De.tryFrom x' f)
/-- The fields of a struct or variant, see `Around`. -/
inductive AroundFields (m : Build) {δ : Type} (d d' : De δ) : {γ : Type} → DeFields γ → DeFields γ → Prop
  | nil : AroundFields m d d' .nil .nil
  | skip {β γ : Type} (v : β) {r r' : DeFields γ} : AroundFields m d d' r r' →
      AroundFields m d d' (.cons (.skip v) r) (.cons (.skip v) r')
  | plain {β γ : Type} {x x' : De β} {r r' : DeFields γ} : Around m d d' x x' → AroundFields m d d' r r' →
      AroundFields m d d' (.cons (.plain x) r) (.cons (.plain x') r')
  | from_ {β β' γ : Type} {x x' : De β'} (f : β' → β) {r r' : DeFields γ} : Around m d d' x x' → AroundFields m d d' r r' →
      AroundFields m d d' (.cons (.from_ x f) r) (.cons (.from_ x' f) r')
  | tryFrom {β β' γ : Type} {x x' : De β'} (f : β' → Except Chain β) {r r' : DeFields γ} : Around m d d' x x' →
      AroundFields m d d' r r' → AroundFields m d d' (.cons (.tryFrom x f) r) (.cons (.tryFrom x' f) r')
/-- The variants of an enum, see `Around`. -/
inductive AroundVariants (m : Build) {δ : Type} (d d' : De δ) : {ρ : Type} → DeVariants ρ → DeVariants ρ → Prop
  | nil : AroundVariants m d d' .nil .nil
  | cons {γ ρ : Type} (id : Bytes) {fs fs' : DeFields γ} {r r' : DeVariants ρ} : AroundFields m d d' fs fs' →
      AroundVariants m d d' r r' → AroundVariants m d d' (.cons id fs r) (.cons id fs' r')
end

/-- Nowhere in the octets is there a value of indefinite length with a primitive identifier. -/
def NoPrimitiveIndefinite (bs : List UInt8) : Prop :=
  ∀ l p r id raw, bs = l ++ p ++ r → BerValue p id true raw → HasForm 1 id

end Bsn1.Spec
