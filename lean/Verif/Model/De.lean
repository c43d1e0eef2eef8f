import Verif.Model.Der
import Verif.Model.Ber
import Verif.Model.Contents
import Verif.Model.Error
/-!
# Deserialization: bsn1_serde/src/de/mod.rs, lib.rs:124-199, octet_string.rs:82-105
-/

namespace Bsn1

/-- `trait Deserialize`, bsn1_serde/src/de/mod.rs:24-38, as the dictionary of its methods
(in `Type 1` only because mutual definitions in `Verif.Model.Types` need one universe). -/
structure De (α : Type) : Type 1 where
  /-- `from_ber(id, length, contents)` -/
  fromBer : Bytes → Length → Bytes → Res α
  /-- `from_der(id, contents)` -/
  fromDer : Bytes → Bytes → Res α

/-- `.map_err(|err| err.context(..))`.  E.g. bsn1_serde/src/de/mod.rs:607-616.  Simplified: messages are left out. -/
def mapErrContext {α : Type} : Res α → Res α
  | .err e => .err e.context
  | r => r

/-- `debug_assert!(cond)`: checked in debug builds only.  E.g. bsn1_serde/src/de/mod.rs:47, 566. -/
def debugAssert (m : Build) (cond : Bool) : Res Unit :=
  match m with
  | .debug => if cond then .ok () else .panic
  | .release => .ok ()

/-- `exclude_eoc`, bsn1_serde/src/de/mod.rs:563-581. -/
def excludeEoc (m : Build) (length : Length) (contents : Bytes) : Res Bytes :=
  match length with
  | .definite len => do
    debugAssert m (len == contents.length)
    return contents
  | .indefinite =>
    if BerRef.eoc.isSuffixOf contents then sliceTo contents (contents.length - BerRef.eoc.length)
    else .err .unterminatedBytes

variable {α β γ : Type}

/-- `DeserializeHelper::der_to_val`, bsn1_serde/src/de/mod.rs:598-620.  The helper is its `contents`; `index` is used
only in messages.  Returns the value and the remaining contents. -/
def derToVal (d : De α) (contents : Bytes) : Res (Option (α × Bytes)) :=
  if contents.isEmpty then .ok none
  else
    let (r, contents) := DerRef.parse contents
    do
      let der ← mapErrContext r
      let (id, _, c) ← DerRef.disassemble der
      let val ← mapErrContext (d.fromDer id c)
      return some (val, contents)

/-- `DeserializeHelper::ber_to_val`, bsn1_serde/src/de/mod.rs:622-646. -/
def berToVal (d : De α) (contents : Bytes) : Res (Option (α × Bytes)) :=
  if contents.isEmpty then .ok none
  else
    let (r, contents) := BerRef.parse contents
    do
      let ber ← mapErrContext r
      let (id, length, c) ← BerRef.disassemble ber
      let val ← mapErrContext (d.fromBer id length c)
      return some (val, contents)

/-- `DeserializeHelper::der_to_key_val`, bsn1_serde/src/de/mod.rs:648-711. -/
def derToKeyVal (dk : De α) (dv : De β) (contents : Bytes) : Res (Option ((α × β) × Bytes)) :=
  if contents.isEmpty then .ok none
  else
    let (r, contents) := DerRef.parse contents
    do
      let pair ← mapErrContext r
      let pairId ← DerRef.id pair
      if pairId ≠ IdRef.sequence then .err (Error.invalidKeyValuePair.context)
      else
        let pairContents ← DerRef.contents pair
        let (r, pairContents) := DerRef.parse pairContents
        let key ← mapErrContext r
        let (r, pairContents) := DerRef.parse pairContents
        let val ← mapErrContext r
        if pairContents.isEmpty then
          let (id, _, c) ← DerRef.disassemble key
          let key ← mapErrContext (dk.fromDer id c)
          let (id, _, c) ← DerRef.disassemble val
          let val ← mapErrContext (dv.fromDer id c)
          return some ((key, val), contents)
        else .err (Error.invalidKeyValuePair.context)

/-- `DeserializeHelper::ber_to_key_val`, bsn1_serde/src/de/mod.rs:713-780. -/
def berToKeyVal (dk : De α) (dv : De β) (contents : Bytes) : Res (Option ((α × β) × Bytes)) :=
  if contents.isEmpty then .ok none
  else
    let (r, contents) := BerRef.parse contents
    do
      let pair ← mapErrContext r
      let pairId ← BerRef.id pair
      if pairId ≠ IdRef.sequence then .err (Error.invalidKeyValuePair.context)
      else
        let pairContents ← BerRef.contents pair
        let (r, pairContents) := BerRef.parse pairContents
        let key ← mapErrContext r
        let (r, pairContents) := BerRef.parse pairContents
        let val ← mapErrContext r
        if pairContents.isEmpty then
          let (id, length, c) ← BerRef.disassemble key
          let key ← mapErrContext (dk.fromBer id length c)
          let (id, length, c) ← BerRef.disassemble val
          let val ← mapErrContext (dv.fromBer id length c)
          return some ((key, val), contents)
        else .err (Error.invalidKeyValuePair.context)

/-- `while let Some(t) = next()? { ret.push(t); } Ok(ret)`, e.g. bsn1_serde/src/de/mod.rs:324-331: `next` is one of the four
functions above and `insert` is the method of the collection. -/
def collectLoop (next : Bytes → Res (Option (α × Bytes))) (insert : γ → α → γ) :
    (fuel : Nat) → (contents : Bytes) → (ret : γ) → Res γ
  | 0, _, _ => .panic
  | fuel + 1, contents, ret => do
    match ← next contents with
    | some (t, contents) => collectLoop next insert fuel contents (insert ret t)
    | none => return ret

/-- The loop with enough fuel: each round consumes an octet.  bsn1_serde/src/de/mod.rs:324-331. -/
def collect (next : Bytes → Res (Option (α × Bytes))) (insert : γ → α → γ) (contents : Bytes) (ret : γ) : Res γ :=
  collectLoop next insert (contents.length + 1) contents ret

/-- `BTreeSet::insert` of the standard library on the ascending list of the elements: an element equal in order is
kept.  Called at bsn1_serde/src/de/mod.rs:433 and 448; not in /repo. -/
def btreeInsert (cmp : α → α → Ordering) (x : α) : List α → List α
  | [] => [x]
  | y :: r =>
    match cmp x y with
    | .lt => x :: y :: r
    | .eq => y :: r
    | .gt => y :: btreeInsert cmp x r

/-- `BTreeMap::insert` of the standard library: the value of an equal key is replaced, the key is kept.
Called at bsn1_serde/src/de/mod.rs:469 and 484; not in /repo. -/
def btreeMapInsert (cmp : α → α → Ordering) (k : α) (v : β) : List (α × β) → List (α × β)
  | [] => [(k, v)]
  | (k', v') :: r =>
    match cmp k k' with
    | .lt => (k, v) :: (k', v') :: r
    | .eq => (k', v) :: r
    | .gt => (k', v') :: btreeMapInsert cmp k v r

/-- `HashSet::insert` of the standard library on the list of the elements in order of insertion.
Called at bsn1_serde/src/de/mod.rs:504 and 519; not in /repo. -/
def hashInsert [DecidableEq α] (x : α) (l : List α) : List α := if x ∈ l then l else l ++ [x]

/-- `HashMap::insert` of the standard library: the value of an equal key is replaced.  Called at bsn1_serde/src/de/mod.rs:540 and 555; not in /repo. -/
def hashMapInsert [DecidableEq α] (k : α) (v : β) : List (α × β) → List (α × β)
  | [] => [(k, v)]
  | (k', v') :: r => if k = k' then (k', v) :: r else (k', v') :: hashMapInsert k v r

/-- `std::str::from_utf8(..)` of the standard library, as used in bsn1_serde/src/de/mod.rs:297-300 and 308-311. -/
def strFromUtf8 (contents : Bytes) : Res String :=
  match String.fromUTF8? ⟨contents.toArray⟩ with
  | some s => .ok s
  | none => .err .invalidUtf8

namespace De

/-- `Deserialize for bool`, bsn1_serde/src/de/mod.rs:40-59. -/
def bool (m : Build) : De Bool where
  fromBer id length contents :=
    if id ≠ IdRef.boolean then .err .unmatchedId
    else if length.eq .indefinite then .err .indefiniteLength
    else do
      debugAssert m (length.definite? == some contents.length)
      ContentsRef.toBoolBer contents
  fromDer id contents :=
    if id ≠ IdRef.boolean then .err .unmatchedId
    else ContentsRef.toBoolDer contents

/-- `from_der` of the integer types, e.g. bsn1_serde/src/de/mod.rs:71-77. -/
def intFromDer (t : IntTy) (id contents : Bytes) : Res Int :=
  if id ≠ IdRef.integer then .err .unmatchedId
  else ContentsRef.toInteger t contents

/-- `Deserialize` of the integer types, bsn1_serde/src/de/mod.rs:61-287. -/
def int (m : Build) (t : IntTy) : De Int where
  fromBer id length contents :=
    if length.eq .indefinite then .err .indefiniteLength
    else do
      debugAssert m (length.definite? == some contents.length)
      intFromDer t id contents
  fromDer := intFromDer t

/-- `Deserialize for String`, bsn1_serde/src/de/mod.rs:289-314. -/
def string (m : Build) : De String where
  fromBer id length contents :=
    if id ≠ IdRef.utf8String ∧ id ≠ IdRef.utf8StringConstructed then .err .unmatchedId
    else if length.eq .indefinite then .err .indefiniteLength
    else do
      debugAssert m (length.definite? == some contents.length)
      strFromUtf8 contents
  fromDer id contents :=
    if id ≠ IdRef.utf8String then .err .unmatchedId
    else strFromUtf8 contents

/-- `Deserialize for OctetString`, bsn1_serde/src/octet_string.rs:82-105. -/
def octetString : De Bytes where
  fromBer id length contents :=
    if id ≠ IdRef.octetString ∧ id ≠ IdRef.octetStringConstructed then .err .unmatchedId
    else if length.isIndefinite then .err .indefiniteLength
    else .ok contents
  fromDer id contents :=
    if id ≠ IdRef.octetString then .err .unmatchedId
    else .ok contents

/-- `Deserialize for Vec<T>`, bsn1_serde/src/de/mod.rs:316-349. -/
def vec (m : Build) (d : De α) : De (List α) where
  fromBer id length contents :=
    if id ≠ IdRef.sequence then .err .unmatchedId
    else do
      let contents ← excludeEoc m length contents
      collect (berToVal d) (fun ret t => ret ++ [t]) contents []
  fromDer id contents :=
    if id ≠ IdRef.sequence then .err .unmatchedId
    else collect (derToVal d) (fun ret t => ret ++ [t]) contents []

/-- `Deserialize for LinkedList<T>`, bsn1_serde/src/de/mod.rs:351-384. -/
def linkedList (m : Build) (d : De α) : De (List α) where
  fromBer id length contents :=
    if id ≠ IdRef.sequence then .err .unmatchedId
    else do
      let contents ← excludeEoc m length contents
      collect (berToVal d) (fun ret t => ret ++ [t]) contents []
  fromDer id contents :=
    if id ≠ IdRef.sequence then .err .unmatchedId
    else collect (derToVal d) (fun ret t => ret ++ [t]) contents []

/-- `Deserialize for VecDeque<T>`, bsn1_serde/src/de/mod.rs:386-419. -/
def vecDeque (m : Build) (d : De α) : De (List α) where
  fromBer id length contents :=
    if id ≠ IdRef.sequence then .err .unmatchedId
    else do
      let contents ← excludeEoc m length contents
      collect (berToVal d) (fun ret t => ret ++ [t]) contents []
  fromDer id contents :=
    if id ≠ IdRef.sequence then .err .unmatchedId
    else collect (derToVal d) (fun ret t => ret ++ [t]) contents []

/-- `Deserialize for BTreeSet<T>`, bsn1_serde/src/de/mod.rs:421-454.  `cmp` is `Ord for T`. -/
def btreeSet (m : Build) (cmp : α → α → Ordering) (d : De α) : De (List α) where
  fromBer id length contents :=
    if id ≠ IdRef.sequence then .err .unmatchedId
    else do
      let contents ← excludeEoc m length contents
      collect (berToVal d) (fun ret t => btreeInsert cmp t ret) contents []
  fromDer id contents :=
    if id ≠ IdRef.sequence then .err .unmatchedId
    else collect (derToVal d) (fun ret t => btreeInsert cmp t ret) contents []

/-- `Deserialize for BTreeMap<K, V>`, bsn1_serde/src/de/mod.rs:456-490. -/
def btreeMap (m : Build) (cmp : α → α → Ordering) (dk : De α) (dv : De β) : De (List (α × β)) where
  fromBer id length contents :=
    if id ≠ IdRef.sequence then .err .unmatchedId
    else do
      let contents ← excludeEoc m length contents
      collect (berToKeyVal dk dv) (fun ret kv => btreeMapInsert cmp kv.1 kv.2 ret) contents []
  fromDer id contents :=
    if id ≠ IdRef.sequence then .err .unmatchedId
    else collect (derToKeyVal dk dv) (fun ret kv => btreeMapInsert cmp kv.1 kv.2 ret) contents []

/-- `Deserialize for HashSet<T>`, bsn1_serde/src/de/mod.rs:492-525.  A value is the list of its elements in the order of
`iter()`, which the code does not control: `order` gives it from the elements in order of insertion. -/
def hashSet [DecidableEq α] (m : Build) (order : List α → List α) (d : De α) : De (List α) where
  fromBer id length contents :=
    if id ≠ IdRef.set then .err .unmatchedId
    else do
      let contents ← excludeEoc m length contents
      let ret ← collect (berToVal d) (fun ret t => hashInsert t ret) contents []
      return order ret
  fromDer id contents :=
    if id ≠ IdRef.set then .err .unmatchedId
    else do
      let ret ← collect (derToVal d) (fun ret t => hashInsert t ret) contents []
      return order ret

/-- `Deserialize for HashMap<K, V>`, bsn1_serde/src/de/mod.rs:527-561.  For `order` see `De.hashSet`. -/
def hashMap [DecidableEq α] (m : Build) (order : List (α × β) → List (α × β)) (dk : De α)
    (dv : De β) : De (List (α × β)) where
  fromBer id length contents :=
    if id ≠ IdRef.set then .err .unmatchedId
    else do
      let contents ← excludeEoc m length contents
      let ret ← collect (berToKeyVal dk dv) (fun ret kv => hashMapInsert kv.1 kv.2 ret) contents []
      return order ret
  fromDer id contents :=
    if id ≠ IdRef.set then .err .unmatchedId
    else do
      let ret ← collect (derToKeyVal dk dv) (fun ret kv => hashMapInsert kv.1 kv.2 ret) contents []
      return order ret

end De

/-- `from_ber`, bsn1_serde/src/lib.rs:124-130.  The argument is the octets of the `BerRef`. -/
def fromBer (d : De α) (ber : Bytes) : Res α := do
  let (id, length, contents) ← BerRef.disassemble ber
  d.fromBer id length contents

/-- `from_der`, bsn1_serde/src/lib.rs:133-139. -/
def fromDer (d : De α) (der : Bytes) : Res α := do
  let (id, _, contents) ← DerRef.disassemble der
  d.fromDer id contents

/-- `parse_ber`, bsn1_serde/src/lib.rs:148-154.  Returns `*buffer` too. -/
def parseBer (d : De α) (buffer : Bytes) : Res α × Bytes :=
  match BerRef.parse buffer with
  | (.ok ber, buffer) => (fromBer d ber, buffer)
  | (.err e, buffer) => (.err e, buffer)
  | (.panic, buffer) => (.panic, buffer)
  | (.ub, buffer) => (.ub, buffer)

/-- `parse_der`, bsn1_serde/src/lib.rs:163-169. -/
def parseDer (d : De α) (buffer : Bytes) : Res α × Bytes :=
  match DerRef.parse buffer with
  | (.ok der, buffer) => (fromDer d der, buffer)
  | (.err e, buffer) => (.err e, buffer)
  | (.panic, buffer) => (.panic, buffer)
  | (.ub, buffer) => (.ub, buffer)

/-- `read_ber`, bsn1_serde/src/lib.rs:177-184.  Returns the reader too. -/
def readBer {σ : Type} [Reader σ] (m : Build) (d : De α) (read : σ) : Res α × σ :=
  match Ber.parse m read with
  | (.ok ber, read) => (fromBer d ber, read)
  | (.err e, read) => (.err e, read)
  | (.panic, read) => (.panic, read)
  | (.ub, read) => (.ub, read)

/-- `read_der`, bsn1_serde/src/lib.rs:192-199. -/
def readDer {σ : Type} [Reader σ] (m : Build) (d : De α) (read : σ) : Res α × σ :=
  match Der.parse m read with
  | (.ok der, read) => (fromDer d der, read)
  | (.err e, read) => (.err e, read)
  | (.panic, read) => (.panic, read)
  | (.ub, read) => (.ub, read)

end Bsn1
