import Verif.Model.Types
import Verif.Model.Convert
import Verif.Model.OctetString
/-!
# The programs of the READMEs: bsn1_serde/README.md:24-151, bsn1/README.md:53-199

Both exchange the bind request of LDAP, the first by the derive macros and implementations of the traits by hand, the second by `Ber` and
`BerRef`.
-/

namespace Bsn1.Readme

/-- The identifier of `SimpleAuth`, bsn1_serde/README.md:77-79 and 91-92: `octet_string` with the number set to 0. -/
def simpleAuthId (junk : UInt8) : Res Bytes := Id.setNumber junk IdRef.octetString 0

/-- `impl ser::Serialize for SimpleAuth`, bsn1_serde/README.md:75-99.  `SimpleAuth(Vec<u8>)` is its octets. -/
def simpleAuthSer (junk : UInt8) : Ser Bytes where
  writeId _ := do
    let id ← W.lift (simpleAuthId junk)
    W.writeAll id
  writeDerContents v := W.writeAll v
  idLen _ := do
    let id ← simpleAuthId junk
    return some id.length
  derContentsLen v := .ok (some v.length)

/-- `if id.number() != Ok(0_u8.into()) { return Err(Error::UnmatchedId) }`, bsn1_serde/README.md:111-113 and 123-125. -/
def checkNumber (id : Bytes) : Res Unit :=
  match IdRef.number id with
  | .ok n => if n = 0 then .ok () else .err .unmatchedId
  | .err _ => .err .unmatchedId
  | .panic => .panic
  | .ub => .ub

/-- `impl de::Deserialize for SimpleAuth`, bsn1_serde/README.md:101-130.  (`into_vec` is `OctetString.intoVec` of the octets, which are the model of
the decoded `OctetString`.) -/
def simpleAuthDe : De Bytes where
  fromBer id length contents := do
    checkNumber id
    De.octetString.fromBer IdRef.octetString length contents
  fromDer id contents := do
    checkNumber id
    De.octetString.fromDer IdRef.octetString contents

/-- `try_from = "OctetString"` for a `String`, bsn1_serde/README.md:55 with bsn1_serde/src/octet_string.rs:129-135.  `chain` is the
`FromUtf8Error` in an `anyhow::Error`. -/
def nameBack (chain : Chain) (octets : Bytes) : Except Chain String :=
  match (OctetString.fromVec octets).tryIntoString with
  | .ok s => .ok s
  | .error _ => .error chain

/-- `to = "OctetString::new"`, bsn1_serde/README.md:55. -/
def nameTo (name : String) : Bytes := (OctetString.new name.toByteArray.data.toList).asRef

/-- `#[derive(Serialize)] struct BindRequest`, bsn1_serde/README.md:51-58.  The identifier is that of
`id = Sequence, tag_class = APPLICATION, tag_num = 0` (`Verif.Conform.Readme` takes it from the attribute). -/
def bindRequestSer (m : Build) (junk : UInt8) : Ser (Int × String × Bytes × Unit) :=
  Ser.struct m [0x60] (.cons (.plain (Ser.int .i32)) (.cons (.conv Ser.octetString nameTo)
    (.cons (.plain (simpleAuthSer junk)) .nil)))

/-- `#[derive(Deserialize)] struct BindRequest`, bsn1_serde/README.md:51-58. -/
def bindRequestDe (m : Build) (chain : Chain) : De (Int × String × Bytes × Unit) :=
  De.struct m [0x60] (.cons (.plain (De.int m .i32)) (.cons (.tryFrom De.octetString (nameBack chain))
    (.cons (.plain simpleAuthDe) .nil)))

/-! ### bsn1/README.md -/

/-- `new_bind_version`, bsn1/README.md:79-81. -/
def newBindVersion (m : Build) (junk : Nat → UInt8) : Res Bytes := Ber.ofInt m junk .i32 3

/-- `new_bind_name`, bsn1/README.md:90-92. -/
def newBindName (m : Build) (junk : Nat → UInt8) (name : String) : Res Bytes :=
  Ber.ofBytes m junk name.toByteArray.data.toList

/-- `new_bind_authentication`, bsn1/README.md:101-114. -/
def newBindAuthentication (m : Build) (junk : Nat → UInt8) (password : Bytes) : Res Bytes := do
  let id ← Id.new (junk 0) .contextSpecific .primitive 0
  Ber.new m junk id password

/-- `new_bind_request`, bsn1/README.md:62-75. -/
def newBindRequest (m : Build) (junk : Nat → UInt8) (name : String) (password : Bytes) : Res Bytes := do
  let id ← Id.new (junk 0) .application .constructed 0
  let version ← newBindVersion m junk
  let name ← newBindName m junk name
  let authentication ← newBindAuthentication m junk password
  Ber.fromIdIterator m id [version, name, authentication]

/-- The messages of `parse_bind_request`, bsn1/README.md:117-184; those that quote an error of the library quote it. -/
inductive Message where
  | request (e : Error)
  | extra
  | requestId
  | version (e : Error)
  | versionId
  | otherVersion
  | name (e : Error)
  | nameId
  | nameUtf8
  | authentication (e : Error)
  | sasl
  | authenticationId

/-- `BerRef::parse(bytes).map_err(..)`, bsn1/README.md:120-121, 149, 162, 174-175.  Returns the value and what is left of the octets. -/
def parseOr (err : Error → Message) (bytes : Bytes) : Res (Except Message (Bytes × Bytes)) :=
  match BerRef.parse bytes with
  | (.ok ber, rest) => .ok (.ok (ber, rest))
  | (.err e, _) => .ok (.error (err e))
  | (.panic, _) => .panic
  | (.ub, _) => .ub

/-- `?` of a function that returns a `Result<_, String>`.  E.g. bsn1/README.md:136. -/
def andThen {α β : Type} (x : Res (Except Message α)) (f : α → Res (Except Message β)) : Res (Except Message β) :=
  match x with
  | .ok (.ok a) => f a
  | .ok (.error msg) => .ok (.error msg)
  | .err e => .err e
  | .panic => .panic
  | .ub => .ub

/-- `parse_bind_version`, bsn1/README.md:148-158. -/
def parseBindVersion (bytes : Bytes) : Res (Except Message (Int × Bytes)) :=
  andThen (parseOr .version bytes) fun (ber, rest) => do
    let id ← BerRef.id ber
    if id ≠ IdRef.integer then return .error .versionId
    let contents ← BerRef.contents ber
    match ContentsRef.toInteger .i32 contents with
    | .ok v => return .ok (v, rest)
    | .err e => return .error (.version e)
    | .panic => .panic
    | .ub => .ub

/-- `parse_bind_name`, bsn1/README.md:161-170. -/
def parseBindName (bytes : Bytes) : Res (Except Message (String × Bytes)) :=
  andThen (parseOr .name bytes) fun (ber, rest) => do
    let id ← BerRef.id ber
    if id ≠ IdRef.octetString ∧ id ≠ IdRef.octetStringConstructed then return .error .nameId
    let contents ← BerRef.contents ber
    match String.fromUTF8? ⟨contents.toArray⟩ with
    | some s => return .ok (s, rest)
    | none => return .error .nameUtf8

/-- `parse_bind_authentication`, bsn1/README.md:173-184. -/
def parseBindAuthentication (bytes : Bytes) : Res (Except Message (Bytes × Bytes)) :=
  andThen (parseOr .authentication bytes) fun (ber, rest) => do
    let id ← BerRef.id ber
    match IdRef.number id with
    | .ok n =>
      if n = 3 then return .error .sasl
      else if n = 0 then
        let contents ← BerRef.contents ber
        return .ok (contents, rest)
      else return .error .authenticationId
    | .err _ => return .error .authenticationId
    | .panic => .panic
    | .ub => .ub

/-- `id.class() != ClassTag::Application || id.number() != Ok(0_u8.into())`, bsn1/README.md:128. -/
def badRequestId (id : Bytes) : Res Bool := do
  let c ← IdRef.clazz id
  if c ≠ .application then return true
  match IdRef.number id with
  | .ok n => return decide (n ≠ 0)
  | .err _ => return true
  | .panic => .panic
  | .ub => .ub

/-- `parse_bind_request`, bsn1/README.md:117-145. -/
def parseBindRequest (req : Bytes) : Res (Except Message (String × Bytes)) :=
  andThen (parseOr .request req) fun (req, bytes) => do
    if bytes ≠ [] then return .error .extra
    let id ← BerRef.id req
    let bad ← badRequestId id
    if bad then return .error .requestId
    let bytes ← BerRef.contents req
    andThen (parseBindVersion bytes) fun (version, bytes) =>
      if version ≠ 3 then .ok (.error .otherVersion)
      else andThen (parseBindName bytes) fun (name, bytes) =>
        andThen (parseBindAuthentication bytes) fun (password, _) => .ok (.ok (name, password))

end Bsn1.Readme
