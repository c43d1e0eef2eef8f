import Verif.Model.Error
/-!
# The messages of errors, bsn1/src/lib.rs:86-109 and 164-169

`Verif.Model.Error` leaves the messages out.
-/

namespace Bsn1

/-- `bsn1::Error` with the messages given to `Error::context`, the last given first, and the error that was there before.
bsn1/src/lib.rs:164-169. -/
structure Told where
  cause : Error
  messages : List String
  deriving DecidableEq

/-- `Error::context(message)`, bsn1/src/lib.rs:164-169. -/
def Told.context (self : Told) (message : String) : Told := { self with messages := message :: self.messages }

/-- The error itself: `self.into_anyhow().context(message)` for each message, bsn1/src/lib.rs:168. -/
def Told.error (self : Told) : Error := self.messages.foldr (fun _ e => e.context) self.cause

/-- What `stringify!` makes of the names in the source, by the place in the type expression: `stringify!(#ty.#field)` for a field,
`stringify!(#try_from_ty)` for the type a field is converted from, `stringify!(#ty)` for the type a container is converted from.
bsn1_serde_macros/src/data_container.rs:364, 372, 392-394, bsn1_serde_macros/src/de/mod.rs:97. -/
structure Labels where
  field : List Nat → String
  source : List Nat → String
  converted : List Nat → String

/-- The names in the part number `k`: an element or key (0), a value (1), a field, a variant.  bsn1_serde_macros/src/data_container.rs:353-356. -/
def Labels.part (l : Labels) (k : Nat) : Labels where
  field p := l.field (k :: p)
  source p := l.source (k :: p)
  converted p := l.converted (k :: p)

/-! ### Printing -/

/-- The texts that the crates below give: of an I/O error, and of an error that a conversion returned, given as its chain of sources.  They are not
part of the repository; printed at bsn1/src/lib.rs:103-104. -/
structure Texts where
  io : IoKind → String
  link : Chain → String

/-- `format!("{}", error)` where no message was given, bsn1/src/lib.rs:86-107; inside of `anyhow::Error` the first text of the chain (crate
`anyhow`, not part of the repository). -/
def Error.shown (x : Texts) : Error → String
  | .unterminatedBytes => "The bytes finish before the last octet."
  | .redundantBytes => "The bytes include some redundant octet(s)."
  | .overFlow => "Over flow is occurred to parse bytes as a number."
  | .indefiniteLength => "'Indefinite Length' is used where not allowed."
  | .badEoc => "'Indefinite Length BER' includes a bad 'EOC.'"
  | .extraContentsOctet => "Contents include (an) invlid octet(s) at the end."
  | .unmatchedId => "The identifier does not match to that of data type."
  | .invalidUtf8 => "Invalid as UTF-8."
  | .invalidDerBooleanContents => "The contents of DER BOOLEAN must be 0x00 or 0xFF."
  | .invalidKeyValuePair => "SEQUENCE of key-value pair is required."
  | .io k => x.io k
  | .anyhow (.err e) => e.shown x
  | .anyhow c => x.link c

/-- The texts of the chain of an `anyhow::Error`, outermost first.  `bsn1::Error` has no `source()`, bsn1/src/lib.rs:109, so the chain ends there. -/
def Chain.texts (x : Texts) : Chain → List String
  | .err e => [e.shown x]
  | .foreign => [x.link .foreign]
  | .context c => x.link (.context c) :: c.texts x

/-- The texts of the chain of `error.into_anyhow()`, bsn1/src/lib.rs:147-152. -/
def Told.texts (x : Texts) (self : Told) : List String :=
  self.messages ++ self.cause.intoAnyhow.texts x

/-- The first text of the chain is printed by `{}`, all of them, with `: ` between, by `{:#}`.  This is `Display for anyhow::Error` (crate
`anyhow`, not part of the repository), called at bsn1/src/lib.rs:104. -/
def anyhowDisplay (alternate : Bool) (texts : List String) : String :=
  if alternate then String.intercalate ": " texts else texts.headD ""

/-- `Display for Error`, bsn1/src/lib.rs:86-107, with and without `#`. -/
def Told.display (x : Texts) (alternate : Bool) (self : Told) : String :=
  match self.messages, self.cause with
  | [], .anyhow c => anyhowDisplay alternate (c.texts x)
  | [], e => e.shown x
  | _ :: _, _ => anyhowDisplay alternate (self.texts x)

/-- `anyhow::Error::new(error)`, what `?` makes of an `Error` in a function that returns `anyhow::Result`: `source()` of an `Error` is `None`,
bsn1/src/lib.rs:109, so the chain is one long. -/
def Told.asSource (x : Texts) (self : Told) : List String := [self.display x false]

end Bsn1
