# Formal model of bsn1 / bsn1_serde

The model is written in Lean 4 (`lean/Verif`). It follows the Rust code function by function;
each definition cites the file and lines it mirrors. Nothing in `/repo` was built or run.

## Layout

- `Verif/Model/*` – the model. Only definitions (plus termination facts).
- `Verif/Spec/*` – small independent specifications (digits, two's complement value, minimality,
  TLV and BER grammars, plain vectors, plain programs). They use from the model its data types; `Spec/Buffer`, `Spec/Raw` and `Spec/Threads` also say what a run of the model is, and `Spec/AliasUse` says of the calls of `Model/Alias` which are wrong.
- `Verif/Lemmas/*` – helper lemmas.
- `Verif/Props/*` – one theorem group per property of `properties.jsonl`, each followed by
  `example`s showing that the hypotheses are met by a concrete non-trivial case.
- `seeded/LOG.jsonl` – wrong programs tried: the edit of the model, the claim it breaks, the theorems that failed.

Suffixes: `_violated` is the negation of a claim, with a concrete witness; `_partial` is what holds of it.

## Modelling conventions

- A byte is `UInt8`; byte slices and vectors are `List UInt8`. Bit operations are the `UInt8` ones.
- `usize` is 64 bit, `u128` 128 bit, both are `Nat` with explicit bounds and explicit `% 2^w` or
  overflow checks where the arithmetic of the code can leave the range. `Build` says whether overflow panics (`debug`) or wraps
  (`release`); `debug_assert!` follows it.
- `Result` is `Res` with constructors `ok`, `err`, `panic`, `ub`; every Rust panic (slice index, `unwrap`,
  arithmetic overflow in checked builds, `unreachable!`) is the value `panic`; what the language forbids is `ub`.
- `&mut` parameters are returned as new values, also on the error path.
- `std::io::Read` is the class `Reader`; instances are slices and `Script`s. A script is the list of
  what the reader will answer (a chunk of data, an interruption, an error); every finite
  interaction with any reader is an instance of a script. `std::io::Write` likewise.
- Loops are structural recursions on fuel that is at least the size of the remaining input. Running out of fuel is `panic`, so the
  "no panic" theorems also show that the fuel is always enough.
- Memory (`Model/Buffer`, `Model/Raw`): blocks of cells known by their base address; a cell is uninitialised or an octet. The allocator
  is arbitrary within the contract of `GlobalAlloc` and may refuse. Slices over uninitialised memory may exist; reading an
  uninitialised cell is `ub`, as are accesses outside of a block, freeing with a wrong layout, and sizes above isize::MAX.
- Types with serde impls: the universe `Ty` (bool, the integers, String, OctetString, Vec/LinkedList/VecDeque, the ordered and hashed sets and
  maps, derived structs and enums with all attributes). Theorems about a single impl are for arbitrary inner impls.

## Trusted base

- The kernel of Lean 4.33.0, and the axioms `propext`, `Classical.choice`, `Quot.sound`. `#print axioms` for each theorem of
  MANIFEST.json shows no others (checked by script before each commit). No `sorry`, no `native_decide`, no `bv_decide`, no own axioms.
- That the definitions in `Verif/Model` mirror the Rust code. They were transcribed by reading.
  As a check on that, `Verif/Conform` runs the crate's own tests on the model: the unit tests of bsn1 and bsn1_serde and the integration tests
  of the derive macros (bsn1_serde/tests), and the examples in the documentation of bsn1, are written down as closed statements about the model, and the kernel evaluates them. All of them hold.
  Long loops over all values of a type are thinned out. These are tests of the model, not proofs of a property, and no claim rests on them.
- Semantics of the Rust standard library used by the code (slices, `Vec`, `read_exact`, `write_all`,
  `leading_zeros`, `from_utf8`, `BTreeMap::insert`, `alloc`/`realloc`/`dealloc`, …), and of `anyhow` and `syn`, as stated at the definitions.

## What is modelled

| Code | Model |
|---|---|
| bsn1/src/length.rs, length_buffer.rs | `Model/Length`, `Model/Compare` |
| bsn1/src/id_tags.rs, identifier.rs, identifier_ref.rs | `Model/Id`, `Model/Compare` (order), `Model/Raw` (storage) |
| bsn1/src/contents.rs, contents_ref.rs | `Model/Contents`, `Model/Raw` |
| bsn1/src/der.rs, der_ref.rs | `Model/Der`, `Model/Convert`, `Model/InPlace`, `Model/Raw` |
| bsn1/src/ber.rs, ber_ref.rs | `Model/Ber`, `Model/Convert`, `Model/InPlace`, `Model/Raw` |
| bsn1/src/buffer (both layouts) | `Model/Buffer`, `Model/Access` (access by access, for threads) |
| the pointers that the buffer, `Der`, `Ber`, `Id`, `Contents`, `parse_mut` make and use | `Model/Alias` (rules: `Spec/Alias`) |
| the functions with local buffers, as a panic passes through them | `Model/Unwind` |
| bsn1/src/misc.rs, `std::io::Read` | `Model/Reader` |
| bsn1/src/lib.rs (`Error`) | `Model/Prim`, `Model/Error`, `Model/Message` (messages, `Display`) |
| the same for other sizes of `usize` (lengths, parsers, `Der::new`, integers) | `Model/Target` |
| bsn1_serde/src/ser, lib.rs | `Model/Ser`, `Model/Writer`, `Model/Types`, `Model/RawSer` (storage), `Model/Calls` (calls counted) |
| bsn1_serde/src/octet_string.rs | `Model/OctetString` (with `Cow`), `Model/Ser` and `Model/De` (by its octets) |
| bsn1_serde/src/de, lib.rs | `Model/De`, `Model/Types`, `Model/Work` (octets looked at), `Model/Told` (messages of errors) |
| bsn1_serde_macros/src/attribute.rs | `Model/Attribute` |
| bsn1_serde_macros/src/ser, de, data_container.rs (the generated code) | `Model/Derive`, `Model/Attribute` (which branch), `Model/Scope` (names in it) |

## What is not modelled

- Aliasing rules outside of `Model/Alias` (C101 has the buffer in both layouts and the functions with pointer casts around it, one buffer at a time);
  elsewhere `unsafe` code is modelled at the level of blocks, offsets and cells. The layout of structs: `Ber::extend_from_slice` and `truncate` (bsn1/src/ber.rs:601-684) transmute
  `&mut Ber` to `&mut Der`, and slices are transmuted to `&DerRef`, `&BerRef`, `&IdRef`, `&ContentsRef`, without `repr(transparent)`; taken to work.
- `Debug` output, `Display` of other types than `Error`; `Borrow`, `Deref`, `PartialEq` glue that only delegates to slices (read, not modelled, except
  for identifiers and, on real storage, `as_ref` and `to_owned`).
- The `syn`/`quote` token plumbing of the derive macros, messages and positions of compile errors.
  The model has the argument parser, the checks, the names and headers, the types, and the behaviour of the generated
  code.
- What unwinding does inside the standard library and in the caller's own values (C99 is about the buffers of these crates).
- Recursive Rust types are modelled by their unfoldings (`Spec/Rec`): the program cut at a depth; C83 shows that beyond a depth the cut makes no
  difference. The size of a stack frame is not modelled.
- The iteration order of `HashMap` and `HashSet` is a parameter; `Ord`, `Hash` and `Eq` of keys are assumed lawful.
- Stack overflow and out-of-memory aborts (a refusing allocator is `abort`, which ends the program).
- 32-bit and 16-bit `usize`, except for the functions of `Model/Target` (C95): length octets, the four parsers, `Der::new` and integers; of `Model/TargetSer` and `Model/TargetDe` (C115): the serde layer; and of `Model/TargetMut` (C118): values that are built from parts, grow and shrink.

## Hypotheses that appear in theorems

- No value is longer than isize::MAX octets (the limit of the language for every object); beyond it the functions panic or break
  (C23, C28, C37, C65, C78).
- Inputs that are slices have at most isize::MAX octets (C71, C77, C78).
- Tag numbers given to `Id::new` are below 2^128 (`u128`); identifiers that were parsed may have any number.
- Allocators satisfy `Allocator.Valid` (non-null address that is not in use, block of the right size, or refusal).

## Findings

Claims of the documentation, or that a user would rely on, which the code does not meet. Each has a `_violated` theorem.

1. C21: `DerRef::parse`, `BerRef::parse` advance the caller's slice on error (documented as not updated).
2. C23: `Der::parse` and `Ber::parse` panic when the announced length is huge (10 octets of input suffice; on a 32-bit target 6, announcing 2 GiB, C95).
3. C25: `Der::parse` uses a single `read`; a reader that delivers the contents in two reads gets `UnterminatedBytes`.
4. C28: `Der::with_id_length` does not panic when the sum wraps around (release builds).
5. C37, C38: safe `Buffer::reserve` breaks the contract of `realloc` above isize::MAX, and does nothing when `len + additional` wraps.
6. C42: `HashMap::der_contents_len` skips entries whose key has no length hint; `to_der` then writes a too small length.
7. C46: `length == Length::Indefinite` is always false, so `from_ber` of bool, integers, String does not reject indefinite length.
8. C47: `ber_to_key_val` rejects pairs of indefinite length.
9. C49, C69: in debug builds an INTEGER of indefinite length makes `parse_ber` panic, before the identifier is checked.
10. C51: `read_ber` reports short input as `Io`, `parse_ber` as `UnterminatedBytes`, though documented as equal.
11. C58: the DER of `HashSet` and `HashMap` depends on the iteration order.
12. C60: with a container conversion (`into`, `from`, ...) attributes of variants and fields are not checked.
13. C61: `Error::root_cause` stops at the first context wrapper.
14. C65: in release builds `with_id_length` and `from_id_iterator` write out of bounds when the length computation wraps.
15. C70: constructed strings keep the headers of their segments.
16. C76: `read_u8` does not retry interrupted reads; `Der::parse` reports a failing reader as truncated input once a part of the contents was read.
17. C78: 46 octets make `Ber::parse`, and 24 octets make `Der::parse`, call `realloc` with a size above isize::MAX (undefined behaviour from input).
18. C79: the safe functions `with_id_length` and `with_id_length_indefinite` return values whose octets are not initialised (the contents are documented as such);
    `Der::parse` and `Ber::parse` hand uninitialised memory to `Read::read`.
19. C80: the order of `Id` is not that of tag numbers (16383 > 16384).
20. C82: ten octets that announce a long value make `Der::parse` and `Ber::parse` ask for that much memory before reading; a refusal ends the process.
21. C84: decoding into a recursive type nests calls as deep as the input does, without a limit; about nine octets for each level.
22. C86: `derive(Serialize)` panics for an enum with a field named `r#…`; structs and `derive(Deserialize)` are fine.
23. C71 (no violation of the statement): input that ends right after a length octet of 0x89 or more is reported as `UnterminatedBytes` although nothing can complete it.
24. C90: `Serialize` is a safe trait, but `to_der` returns what was written unchecked and `push`, `extend_from_slice`, `truncate` of `Der` and `Ber` trust the length in the header: an implementation that announces more than it writes makes them write or read outside of the buffer.
25. C91: `from_id_iterator` of `Der` and `Ber` is safe, but counts the octets on a clone of the iterator and then writes those of the iterator itself without reserving: a safe iterator that gives more than its clone writes outside of the buffer; one that gives less makes a value whose header announces too much, on which `push` does.
26. C92: `BerRef::parse` goes through all values inside one of indefinite length to find its end, and the decoders call it at each level: n octets of nested indefinite lengths cost n²/8 looks when decoded into a recursive type (4000 octets: two million). Linear for DER and for definite lengths.
27. C94: `write_der` asks for the size of a value, which asks for the sizes of all values inside; then it writes the contents, where `write_der` asks again at each level. n values inside each other take n(n+1)/2 calls of `der_contents_len`; with conversions (no sizes) fewer.
28. C96: `Buffer::reserve` makes room for just what is needed, it never doubles. Each append beyond the capacity is a call of the allocator, which may copy everything: n single appends take n calls. The parsers write headers octet by octet the same way, so `Ber::parse` of n empty values inside one of indefinite length calls the allocator 2n+4−23 times, even if it reads from a slice. `to_der` without sizes grows with every slice that is written.
29. C101: aliasing rules (Stacked Borrows and Tree Borrows; Miri reports such things). On little-endian machines `Buffer::as_mut_ptr` calls `as_ptr(&self)`, so every write to a buffer stored inline goes through a pointer
    made from a shared reference: undefined under both. `disassemble_mut` makes `&mut` from `&` through `*const`: `mut_id()` is undefined under Stacked Borrows as soon as it is called, a write through
    `mut_id()` or `mut_contents()` under both, everywhere. `Contents::from` of an integer takes the pointer before `set_len`, which invalidates it under Stacked Borrows while inline; for a positive integer whose
    first octet is 128 or more it reads the octet in front of the reference, undefined under Stacked Borrows.
30. C102: nothing limits an identifier or the nesting of values. A peer that sends `1f 81 81 81 …` or `30 80 30 80 …` keeps `Ber::parse` (the former also `Id::parse` and `Der::parse`) reading and growing its buffer until memory ends.
    `Der::parse` asks the reader once more, with an empty buffer, after a header that announces no contents.
31. C104: `Der::parse`, `Ber::parse`, `read_der` and `read_ber` report the same error, `UnterminatedBytes`, for a stream that ends cleanly after a value and for one that breaks off within the header of the next. Who reads values until
    the end of a stream cannot notice that it was cut.
32. C106: the generated code declares names that the declaration may use. A struct with a type parameter `W` cannot derive `Serialize` (the methods declare `W` again); a type `W` in `into`, a function `buffer` in
    `to`, a function `id`, `length` or `contents` in `default` are taken for the parameters of the generated methods; a field that is skipped without `default` calls the user's own `Default`, if there is one in scope.
33. C109: a `HashSet` or `HashMap` is written as a SET in the order of iteration, and a struct with `id = Set` in the order of its declaration. X.690 wants the elements of a SET OF in ascending order of the encodings (11.6) and the
    components of a SET in the order of tags (10.3), so the octets of `to_der` are not DER, except by luck.

34. C110: `impl std::error::Error for Error {}` (bsn1/src/lib.rs:109) has no `source()`. Code that returns `anyhow::Result` and uses `?` on a result of these crates gets an `anyhow::Error` whose chain is the outermost message alone: `{:#}`, `{:?}` and `chain()` then show neither the place nor the cause, e.g. `Failed to deserialize DER into element at index 0`. `map_err(bsn1::Error::into_anyhow)` keeps all. `{}` also shows the outermost message only.
35. C111: `Deserialize::from_ber` is an unsafe function whose contract (bsn1_serde/src/de/mod.rs:26-34) excludes an indefinite length "where only definite length is allowed". `BerRef::parse` accepts an indefinite length with a primitive identifier, e.g. `04 80 00 00`, and `parse_ber` and all collections and derived types pass it on: safe code calls a user's implementation outside of its contract.
36. C113: `mut_id().set_class(Universal)` or `set_pc(Primitive)`, both safe, on an empty value with number 0 makes it `00 00`. Inside of a value of indefinite length that is an end-of-contents: from `30 80 80 00 02 01 05 00 00` becomes `30 80 00 00 02 01 05 00 00`, which is read as an empty SEQUENCE with an INTEGER and a `00 00` beside it. Nothing in the documentation says so. Likewise `mut_contents()` of a value of indefinite length gives the end-of-contents together with the values inside: one octet set there, in `30 80 04 00 05 00 00 00` the `04` to `00`, lets the value end early, and the octets are still read without an error.
37. C114: the documentation of `Ber` and `BerRef` says of a value of indefinite length with contents that are not values ended by end-of-contents that it can not be parsed again. With an early end-of-contents it can: `Ber::new_indefinite(IdRef::sequence(), 00 00 05 00)` is parsed to `30 80 00 00` with `05 00` left; so is every proper value after `push` or `extend_from_slice`. A value without end-of-contents, followed by others in a stream, takes them in up to the next end-of-contents.
38. C115: `der_contents_len` adds up the sizes of the elements in `usize` (ser/mod.rs:682-690). On a 32-bit target a release build therefore writes, with `Ok`, a header with the length modulo 2^32 for a sequence of 4 GiB or more, followed by all elements: a `Vec<u16>` of 858 993 461 numbers (1.7 GB in memory) comes back from `read_der` as a vector of one number. A debug build panics, `to_der` panics in both. On 64 bits no such value fits the memory, unless its elements have size zero.
39. C116: because of finding 36 (an edited value inside a value of indefinite length may read as end-of-contents) the order of edits matters: in `30 80 80 00 02 01 05 00 00`, `set_class(Universal)` on the first value and then an edit of the second fails with UnterminatedBytes; in the other order both edits are done.
40. C118: on every target, a release build of `Der::from_id_iterator` and `Ber::from_id_iterator_indefinite`, safe functions, writes outside of its buffer when the lengths of the items add up to `usize::MAX` or more (der.rs:296-305: a wrapped sum, then `extend_from_slice` of a buffer that does not grow). On 64 bits that takes billions of items (finding of C65); on 32 bits four references to one slice of 1 GiB, on 16 bits four to one of 16 KiB.
41. C119: `derive(Serialize)` on an enum without variants is accepted and generates `match self { }` in each method (bsn1_serde_macros/src/ser/mod.rs:203-227), where `self` is a reference: the compiler rejects it, although no documented requirement is missed. `derive(Deserialize)` works.
42. C119: `try_from` asks that the error be `std::error::Error + Send + Sync + 'static` (`::anyhow::Error::new`, bsn1_serde_macros/src/data_container.rs:346), which is not documented: a conversion with `type Error = String` does not compile.
43. C119: the code for `try_from` names `::anyhow::Error`, so it does not compile in a crate that does not itself depend on anyhow. The dependency is not documented, and bsn1_serde does not re-export anyhow. The doc-tests do not show it since anyhow is a dev-dependency here.
44. C121: the program of bsn1_serde/README.md sends the password with the identifier `00` (`octet_string` with `set_number(0)` keeps the class UNIVERSAL, README.md:77-79), where RFC 4511 has `[0]`, i.e. `80`, as the program of bsn1/README.md sends: its requests are no bind requests of LDAP. Also `00` is the identifier of the end-of-contents, so an empty password (`00 00`) ends a request of indefinite length, and the request is not decoded.
45. C121: the program of bsn1/README.md checks for octets after the request ("must not include any extra octets"), but not for octets after the password in the request: it accepts any.
46. C121: bsn1_serde_macros/annotation_bsn1_serde.md:84-92 calls `#[bsn1_serde(id = UTF8String, tag_class = APPLICATION, tag_num = 0)] struct C(String)` an `[APPLICATION 0] UTF8 String` and `#[bsn1_serde(tag_class = APPLICATION, tag_pc = PRIMITIVE, tag_num = 0x10)] struct D(i32)` an `[APPLICATION PRIMITIVE 0x10] Integer`. The octets are `40 .. 0c .. ..` and `50 .. 02 .. ..`: a whole value inside of a primitive one, which is neither implicit nor explicit tagging.

## Each property

- **C01 Length octets round-trip** (proved). `Length.toBytes`, `parseLength` on slices; equation by induction over the base-256 digits.
  Theorems: `C01_length_roundtrip`.
- **C02 Length::parse accepts exactly the shortest encodings** (proved). Spec `lenOctets` (digits from Mathlib's `Nat.digits`); iff proved both ways; no shorter encoding exists.
  Theorems: `C02_length_parse_definite_iff`, `C02_length_parse_indefinite_iff`, `C02_lenOctets_shortest`.
- **C03 Length::len is the size of the encoding and fits the fixed buffer** (proved). `Length.len` and `Length.toBytes` are two formulas in the code; equality and the bound 9. (The buffer itself: C81.)
  Theorems: `C03_length_len`.
- **C04 Length::parse error classification** (proved). One predicate on octets for each error; exhaustive and exclusive.
  Theorems: `C04_length_parse_errors`.
- **C05 Length comparison laws** (proved). Case analysis on the modelled `eq` and `partial_cmp`.
  Theorems: `C05_length_eq`, `C05_length_cmp`, `C05_indefinite_ne`.
- **C06 Id::new stores class, primitive/constructed flag and number faithfully** (proved). `Id.new` (the loop, with wrap-around arithmetic on `u8`), read back by `clazz`, `pc`, `number`.
  Theorems: `C06_id_new_faithful`, `C06_id_new_octets`.
- **C07 Identifier parse round-trip** (proved). `parseId` over the octets of `Id.new` followed by any octets.
  Theorems: `C07_id_parse_roundtrip`.
- **C08 IdRef::parse accepts exactly the shortest identifiers** (proved). Spec `idOctets c p n` for unbounded `n`; iff; `number` is ok or overflow, split at 2^128; the errors are classified.
  Theorems: `C08_id_parse_iff`, `C08_id_number`, `C08_id_parse_errors`.
- **C09 Identifiers are equal exactly when class, flag and number are equal** (proved). Injectivity of `idOctets` and C08.
  Theorems: `C09_id_eq_iff`, `C09_parsed_eq_iff`, `C09_parsed_eq_new`.
- **C10 Identifier setters: any history equals a fresh identifier** (proved). Lists of setter calls folded over the model; invariant `octets = idOctets ...`.
  Theorems: `C10_id_setters_octets`, `C10_id_setters`, `C10_id_setters_parsed`.
- **C11 IdRef::parse does not move the input on error and agrees with parse_mut** (proved). `parse` and `parse_mut` return the slice of the caller explicitly.
  Theorems: `C11_id_parse_error_unchanged`.
- **C12 Class and pc predicates partition identifiers** (proved). All 256 first octets, lifted to all identifiers.
  Theorems: `C12_class_partition`, `C12_pc_partition`, `C12_class_bits`.
- **C13 Integer contents round-trip for every primitive integer type** (proved). Integer types as (signed, width); the byte loops of `Contents::from` and `to_integer`.
  Theorems: `C13_integer_roundtrip`.
- **C14 Integer contents are the minimal two's complement octets of the value** (proved). Spec `intVal` (two's complement) and `IntMinimal` (X.690 8.3.2).
  Theorems: `C14_integer_minimal`, `C14_integer_shortest`.
- **C15 to_integer accepts exactly the minimal in-range encodings** (proved). iff with `intVal`, `IntMinimal` and the range of the type; the errors as well.
  Theorems: `C15_to_integer_ok_iff`, `C15_to_integer_err_iff`, `C15_to_integer_total`.
- **C16 Integer encoding is independent of the Rust type** (proved). Over all pairs of integer types.
  Theorems: `C16_integer_type_independent`, `C16_integer_overflow`.
- **C17 Boolean contents** (proved). All lists of octets.
  Theorems: `C17_to_bool_der`, `C17_to_bool_ber`, `C17_bool`.
- **C18 Der::new / DerRef::parse round-trip** (proved). `Der.new`, `DerRef.parse` and the unchecked accessors (`disassemble`).
  Theorems: `C18_der_roundtrip`, `C18_der_new_octets`.
- **C19 DerRef::parse accepts exactly one spelling per (id, contents)** (proved). iff against spec `tlv`; `parse_mut` too; rebuilding from the parts gives the same octets.
  Theorems: `C19_der_parse_iff`, `C19_der_parse_mut_iff`, `C19_der_parse_iff_new`, `C19_der_rebuild`.
- **C20 DER values are self-delimiting** (proved). Prefix-freeness; a loop of `parse` over a concatenation.
  Theorems: `C20_der_prefix_free`, `C20_der_concat`, `C20_der_concat_conv`.
- **C21 DerRef::parse / BerRef::parse leave the input untouched on error** (partial). Violated: witnesses for both parsers. Partial: what remains is a suffix; the `_mut` variants do keep the slice. `_iff`: by following the first octet through the parsers.
  Theorems: `C21_der_parse_error_violated`, `C21_ber_parse_error_violated`, `C21_parse_error_suffix_partial`, `C21_parse_mut_error`, `C21_parse_untouched_iff`.
- **C22 Slice parsers never panic** (proved). `panic` and `ub` are never the result of the slice parsers and accessors.
  Theorems: `C22_id_parse_settled`, `C22_der_parse_settled`, `C22_ber_parse_settled`.
- **C23 Der::parse and Ber::parse never panic on untrusted input** (partial). Violated by `reserve` (capacity overflow). Partial: every reader, as long as no header announces more than isize::MAX octets; exactly which values panic (`Props/Panic`).
  Theorems: `C23_parse_panic_violated`, `C23_der_parse_partial`, `C23_ber_parse_partial`, `C23_ber_parse_panic_iff`, `C23_der_parse_panic_iff`.
- **C24 Der::parse on a slice agrees with DerRef::parse** (proved). `Der.parse` with the slice reader against `DerRef.parse`, results and positions.
  Theorems: `C24_der_parse_slice`, `C24_der_parse_slice_ok`.
- **C25 Der::parse does not depend on how the reader chunks the data** (partial). Violated: a single `read` for the contents. Partial: any chunking of the header, contents in one read; this is also necessary (`Props/Chunking`).
  Theorems: `C25_der_parse_chunking_iff`, `C25_der_parse_chunking_violated`, `C25_der_parse_chunking_partial`.
- **C26 Der mutation histories** (proved). The memmove-level model of `push`, `extend_from_slice`, `truncate`; induction over the list of calls.
  Theorems: `C26_der_history`, `C26_der_extend_too_long`.
- **C27 from_id_iterator equals construction from the concatenation** (proved). Fold over the parts, for `Der`, `Ber` and the indefinite form.
  Theorems: `C27_from_id_iterator_indefinite`, `C27_from_id_iterator`, `C27_ber_from_id_iterator`.
- **C28 with_id_length panics rather than build a broken value** (partial). Violated in release builds (the sum wraps). Partial: debug builds, and sums below 2^64; all outcomes characterised (strict prefixes of headers are not DER).
  Theorems: `C28_with_id_length_fits`, `C28_with_id_length_debug`, `C28_with_id_length_partial`, `C28_with_id_length_violated`, `C28_ber_with_id_length_fits`, `C28_ber_with_id_length_debug`, `C28_with_id_length_iff`.
- **C29 BerRef::parse accepts exactly the BER grammar** (proved). Inductive grammar `IsBer`/`BerSeq` with unbounded nesting against the loop with its depth counter; iff.
  Theorems: `C29_ber_parse_iff`, `C29_ber_parse_mut_iff`, `C29_ber_parse_err_iff`, `C29_ber_not_eoc_prefix`.
- **C30 BER values are self-delimiting** (proved). From C29 and prefix-freeness of the grammar.
  Theorems: `C30_ber_prefix_free`, `C30_ber_concat`.
- **C31 Ber::parse is independent of reader chunking and agrees with BerRef::parse** (proved). Scripted readers (chunks, failures, interruptions); simulation with the slice parser.
  Theorems: `C31_ber_parse_chunking`, `C31_ber_parse_position`.
- **C32 Every DER value is a BER value** (proved). From the grammars.
  Theorems: `C32_der_is_ber`.
- **C33 Ber mutation histories** (proved). As C26; definite and indefinite form.
  Theorems: `C33_ber_history_definite`, `C33_ber_history_indefinite`.
- **C34 Indefinite-length values built from parsable children parse back** (proved). From the grammar.
  Theorems: `C34_new_indefinite_roundtrip`.
- **C35 Small-buffer storage behaves like a byte vector (little-endian layout)** (proved). The struct as 24 octets, the heap as blocks of cells, an arbitrary allocator; each call refines one of a byte vector; induction over histories.
  Theorems: `C35_contents`, `C35_into_vec`.
- **C36 Small-buffer storage behaves like a byte vector (big-endian layout)** (proved). The same for the union layout.
  Theorems: `C36_contents`, `C36_into_vec`.
- **C37 Buffer accesses stay inside the owned storage and allocations balance** (partial). Every access is checked (`ub`); `BlocksOwned`: one owner for each block, size = capacity. Violated for sizes above isize::MAX. `_iff` for `reserve` in every reachable state.
  Theorems: `C37_no_ub_partial`, `C37_len`, `C37_blocks`, `C37_balanced`, `C37_reserve_violated`, `C37_reserve_ub_iff`.
- **C38 reserve guarantees capacity and preserves contents** (partial). From the same invariant. Violated when `len + additional` wraps. `_exact`: stack and heap mode, debug and release.
  Theorems: `C38_reserve_partial`, `C38_with_capacity`, `C38_reserve_wraps_violated`, `C38_reserve_exact`.
- **C39 Size hints equal the octets written** (proved). `Ser` record for the trait, all impls, universe `Ty`; the contract is preserved by each impl for arbitrary inner impls.
  Theorems: `C39_size_hints`, `C39_octets_written`, `C39_hints_given`, `C39_contract_preserved`.
- **C40 Integer size formula** (proved). Bit-count formula against the byte loop for each type.
  Theorems: `C40_integer_size`.
- **C41 to_der output is one well-formed DER value** (proved). `toDer` over any impl obeying the contract.
  Theorems: `C41_to_der_well_formed`, `C41_to_der`.
- **C42 HashMap serialization is well-formed for keys without size hint** (partial). Violated: keys without a hint. Partial: keys with hints; exactly when the hint is right (`Props/HashMap`).
  Theorems: `C42_hash_map_iff`, `C42_hash_map_keys_without_hint_violated`, `C42_hash_map_violated`, `C42_hash_map_partial`.
- **C43 Serialize/deserialize round-trip through DER** (proved). Induction over `Ty` (structs, enums, collections, conversions).
  Theorems: `C43_der_round_trip`, `C43_der_round_trip_exact`, `C43_hash_round_trip`.
- **C44 Serialize/deserialize round-trip through BER** (proved). The same for BER.
  Theorems: `C44_ber_round_trip`, `C44_ber_round_trip_exact`.
- **C45 write_der to any writer produces the octets of to_der, and a prefix on failure** (proved). Writers as scripts of accepted sizes and failures; the `write_all` loop.
  Theorems: `C45_any_writer`, `C45_write_der`.
- **C46 Indefinite-length primitives are rejected** (partial). Violated: the check compares with `Length::Indefinite`, which is never equal. Partial: OctetString, bool. Exact results for each primitive type.
  Theorems: `C46_indefinite_primitive_violated`, `C46_indefinite_primitive_partial`, `C46_length_ignored_violated`, `C46_indefinite_primitive_exact`.
- **C47 Definite and indefinite encodings of collections decode alike** (partial). Violated for key-value pairs. Partial: outer lengths of everything; any depth without maps; any depth with maps if both are accepted. Exactly: induction over the type carries acceptance from one form to another if the pairs have no end-of-contents.
  Theorems: `C47_outer_form`, `C47_outer_form_octets`, `C47_nested_forms_partial`, `C47_indefinite_pair_violated`, `C47_map_violated`, `C47_nested_value`, `C47_forms_iff`.
- **C48 from_der accepts exactly what to_der produces** (proved). Induction over the types with canonical decoding.
  Theorems: `C48_der_canonical`, `C48_from_der_injective`.
- **C49 A mismatched identifier is always reported** (partial). All types; violated for integers in debug builds with indefinite length.
  Theorems: `C49_der_unmatched`, `C49_ber_unmatched`, `C49_derived_unmatched`, `C49_ber_integer_partial`, `C49_ber_integer_violated`, `C49_der_unmatched_iff`, `C49_ber_unmatched_iff`, `C49_mismatch_reported`.
- **C50 parse_der/parse_ber advance past the value even when decoding fails** (proved). `parseDer` and `parseBer` return the slice.
  Theorems: `C50_parse_der_advances`, `C50_parse_ber_advances`, `C50_parse_error`.
- **C51 read_der/read_ber give the same result as parse_der/parse_ber** (partial). Violated on errors. Partial: agreement on slices and for any chunking where it holds; lock-step comparison of the two loops for all other input.
  Theorems: `C51_read_der_slice`, `C51_read_der_position`, `C51_read_ber_partial`, `C51_read_parse_violated`, `C51_read_ber_exact`.
- **C52 Derived identifier attribute** (proved). The `Vec<u8>` code that computes the identifier in the macro against `Id.new`.
  Theorems: `C52_identifier`, `C52_id_new`, `C52_total`.
- **C53 Derived enums decode to the variant that was encoded when ids differ** (proved). Enums as sums; first variant whose identifier matches.
  Theorems: `C53_variant_restored`, `C53_value_restored`, `C53_first_match`, `C53_shared_id`.
- **C54 Skipped fields** (proved). Field lists with attributes; the same list with the skipped ones removed.
  Theorems: `C54_skip_serializing`, `C54_skip_deserializing`, `C54_drop_all`, `C54_skip_attributes_serialize`, `C54_skip_attributes_deserialize`, `C54_round_trip`.
- **C55 Transparent structs** (proved). Transparent structs against their only field.
  Theorems: `C55_transparent_encode`, `C55_transparent_conv`, `C55_transparent_decode`, `C55_transparent_refused`.
- **C56 Conversion attributes** (proved). Arbitrary conversion functions as parameters.
  Theorems: `C56_container_encode`, `C56_container_encode_supported`, `C56_container_decode`, `C56_fields_encode`, `C56_fields_decode`, `C56_remove_all`, `C56_container_round_trip`.
- **C57 Derived structs reject extra and missing fields** (proved). The field decoder inverted: exactly the concatenation of the fields.
  Theorems: `C57_struct_decodes`, `C57_number_of_values`, `C57_extra_octets`, `C57_missing_octets`, `C57_variants`.
- **C58 Equal values have equal DER encodings** (partial). Violated for hashed collections. Partial: all other types; exact condition for hashed ones, as encodings are prefix-free.
  Theorems: `C58_same_encoding_partial`, `C58_btree_insertion_order`, `C58_hash_order_violated`, `C58_hash_set_iff`, `C58_hash_map_iff`.
- **C59 Ordered collections decode by insertion semantics** (proved). Insertion into sorted lists, lawful `Ord` as hypothesis.
  Theorems: `C59_btree_decode`, `C59_btree_decode_ber`, `C59_reencode_stable`.
- **C60 Attribute validation** (partial). The 13 optional arguments; boolean spec for each position. Violated: no check below a container conversion.
  Theorems: `C60_struct_partial`, `C60_enum_partial`, `C60_variant_partial`, `C60_field_partial`, `C60_derive_struct_partial`, `C60_derive_enum_partial`, `C60_unchecked_violated`.
- **C61 root_cause finds the underlying error** (partial). `anyhow` chains as data. Violated once a context is there; exact condition proved.
  Theorems: `C61_root_cause_violated`, `C61_context_root_cause_violated`, `C61_root_cause_partial`, `C61_context_layers`, `C61_context_keeps_chain`.
- **C62 Error equality** (proved). Case analysis.
  Theorems: `C62_eq_iff`, `C62_symm`, `C62_trans`, `C62_refl`.
- **C63 Malformed elements abort collection decoding** (proved). The element loop inverted, DER and BER.
  Theorems: `C63_der_collections`, `C63_ber_collections`, `C63_first_error`.
- **C64 tag_num literal parsing** (proved). Lists of characters; spec grammar of literals.
  Theorems: `C64_tag_num`, `C64_unsigned`, `C64_unique`.
- **C65 Safe constructors stay inside their memory** (partial). Violated in release builds: out-of-bounds writes. Partial: never with overflow checks; iff for each constructor.
  Theorems: `C65_with_id_length_violated`, `C65_from_id_iterator_violated`, `C65_constructors_debug_partial`, `C65_from_id_iterator_iff`, `C65_from_id_iterator_indefinite_iff`, `C65_with_id_length_indefinite_iff`.
- **C66 Different values have different, prefix-free encodings** (proved). Injectivity and prefix-freeness of `toDer` over `Ty`.
  Theorems: `C66_to_der_injective`, `C66_prefix_free`.
- **C67 from_ber accepts whatever from_der accepts** (proved). Induction over `Ty`: BER decoding extends DER decoding.
  Theorems: `C67_ber_extends_der`.
- **C68 Decoding yields only values of the type** (proved). Decoded values satisfy the invariants of their type (ranges, sortedness, distinct keys).
  Theorems: `C68_decoded_valid`.
- **C69 Decoding untrusted octets never panics** (partial). Violated for BER in debug builds. Partial: DER in all builds, BER in release builds. The panics of debug builds are described by a predicate on type and input (Spec/Trap) that does not mention the decoder's control flow; iff by induction over `Ty`.
  Theorems: `C69_parse_der_settled`, `C69_parse_ber_settled_partial`, `C69_parse_ber_panic_violated`, `C69_parse_ber_panic_iff`.
- **C70 Constructed strings are assembled from their segments** (partial). Violated: segment headers become contents. Partial: primitive strings. Exact result: headers and contents of the segments, in order.
  Theorems: `C70_constructed_string_violated`, `C70_primitive_string_partial`, `C70_constructed_string_exact`.
- **C71 Truncation is told apart from garbage** (proved). `UnterminatedBytes` iff some continuation is accepted (spec `Cut`), for identifiers, lengths, DER and BER; the exception (lengths wider than usize) characterised.
  Theorems: `C71_id_unterminated`, `C71_id_final`, `C71_length_unterminated`, `C71_length_final`, `C71_der_unterminated`, `C71_der_final`, `C71_wide_length_never`, `C71_parse_der`, `C71_ber_unterminated`, `C71_ber_final`, `C71_ber_wide_length_never`, `C71_parse_ber`.
- **C72 Attribute argument lists** (proved). Token lists; the argument parser inverted, no list has two readings.
  Theorems: `C72_parse`, `C72_attributes`, `C72_unambiguous`.
- **C73 Generated code follows the arguments** (proved). The plan that the generator follows for each combination of arguments, linked to the models of the generated code.
  Theorems: `C73_serialize`, `C73_deserialize`, `C73_same_identifier`.
- **C74 Histories of changes to a Der or Ber** (proved). Lists of in-place changes folded over the model, against the value built anew from the parts.
  Theorems: `C74_der_history`, `C74_ber_history`.
- **C75 Conversions of primitive values to Der and Ber** (proved). Each `From` impl through `Contents`, `Der::new`, serializer and parsers.
  Theorems: `C75_bool`, `C75_integer`, `C75_integer_type_independent`, `C75_str`, `C75_bytes`, `C75_integer_injective`.
- **C76 Readers that fail** (partial). Readers as scripts that fail at any place. Violated: `read_u8` does not retry, `Der::parse` loses failures. Exactly: parsers on scripts are compared with those on the octets alone by a relation closed under sequencing; for BER by induction over the elements, where `HeaderOctet` says which octets belong to headers.
  Theorems: `C76_id_sound`, `C76_length_sound`, `C76_der_sound`, `C76_ber_sound`, `C76_id_failure`, `C76_length_failure`, `C76_ber_failure`, `C76_der_failure_partial`, `C76_der_failure_lost_violated`, `C76_der_failure_exact`, `C76_interrupted_violated`, `C76_interrupted_partial`, `C76_id_exact`, `C76_length_exact`, `C76_der_exact`, `C76_ber_exact`.
- **C77 Programs on real memory** (proved). `Model/Raw`: the functions of `Der`, `Ber`, `Id`, `Contents` on the memory of C35/C36. Histories over many live objects; invariant by induction (`THistory.inv`).
  Theorems: `C77_calls`, `C77_values`, `C77_blocks`, `C77_balanced`.
- **C78 Parsing hostile input on real memory** (partial). The same models with arbitrary readers refine the list models. Violated: 46 and 24 octets that break the contract of `realloc`. Exactly: an invariant that the buffer is on the heap only if its octets do not fit inline, by induction over the headers that are due. Readers: `Lemmas/RawSim` shows that every reader that delivers the octets runs like the slice.
  Theorems: `C78_parse_partial`, `C78_ber_parse_violated`, `C78_der_parse_violated`, `C78_der_parse_exact`, `C78_ber_parse_exact`, `C78_ber_parse_ub_iff`, `C78_der_parse_ub_iff`, `C78_reader_exact`, `C78_reader_ub_iff`.
- **C79 No uninitialised octets from safe functions** (partial). Cells that are not initialised are `none`. Violated: `with_id_length` shows such cells, as do parsers with a reader that lies. Exact for `with_id_length`: zeros when the value fits in line, otherwise what the allocated block had. With any reader (any results, any writes to the buffer it is given) the parsers stay in their memory.
  Theorems: `C79_any_reader_partial`, `C79_filled`, `C79_with_id_length_exact`, `C79_with_id_length_partial`, `C79_with_id_length_violated`, `C79_index_violated`, `C79_lying_reader_violated`.
- **C80 Equality and order of identifiers** (partial). Lexicographic comparison of octets against class, flag and number. Violated: 16383 > 16384. Exactly: the shorter number without its last digit against the leading digits of the longer.
  Theorems: `C80_id_eq_iff`, `C80_id_order_laws`, `C80_id_order_partial`, `C80_id_order_violated`, `C80_id_order_exact`.
- **C81 Length::to_bytes stays within its stack buffer** (proved). `LengthBuffer` as array and length; `to_bytes` statement by statement.
  Theorems: `C81_to_bytes_in_buffer`.
- **C82 Memory asked for is bounded by the input** (partial). Two allocators that agree on small requests give the same run. Violated: for every limit, ten octets that make the parsers ask for more and abort. Exactly, for slices: induction over the elements shows each step asks for what its header announces; an allocator limited to less aborts there. Readers: by `Lemmas/RawSim`.
  Theorems: `C82_requests_partial`, `C82_parse_violated`, `C82_slice_requests_exact`, `C82_slice_refused_exact`, `C82_reader_requests_exact`, `C82_reader_refused_exact`.
- **C83 Recursive types are encoded and decoded consistently at every depth** (proved). `Spec/Rec`: unfoldings of a declaration; `Upto k` relates type expressions that differ only below `k` levels; mutual induction over it for encoding, decoding and the exact results of the decoders on short inputs.
  Theorems: `C83_encoding_unique`, `C83_to_der`, `C83_parse_der_depth`, `C83_parse_ber_depth`, `C83_depth_monotone`, `C83_round_trip`.
- **C84 Decoding nests calls to a bounded depth** (partial). Violated: for each depth a chain of that depth, decoded with one more level and not with fewer. Partial: depth at most half the length of the input, each level takes an identifier and a length octet; reached by a transparent `struct Nest(Vec<Nest>)`.
  Theorems: `C84_nesting_unbounded_violated`, `C84_nesting_partial`, `C84_nesting_reached`.
- **C85 Equality, order and hash do not depend on how a value is stored** (proved). `Hash`, `Eq`, `Ord` of buffers read the cells of the memory model; refinement of C35/C36 gives the octets.
  Theorems: `C85_little`, `C85_universal`, `C85_hash_iff`, `C85_length_hash`, `C85_length_hash_iff`, `C85_map_get`, `C85_map_get_universal`.
- **C86 A derived enum serializer binds each field to its own variable** (partial). `Model/Names`: the generator of patterns and variables; `Spec/Names`: when Rust accepts a pattern and what it binds. Violated: `format_ident!` of a text with `#`.
  Theorems: `C86_match_arm_partial`, `C86_no_shadowing`, `C86_raw_violated`, `C86_match_arm_iff`, `C86_struct_fields`.
- **C87 A derived impl covers the declared type at all its parameters** (proved). `ident_bounds`, `idents` over lists of parameters, against `StandsFor` and `HasName`.
  Theorems: `C87_impl_header`.
- **C88 Text and octet strings convert without loss** (proved). `Model/OctetString`: `Cow`, conversions, derived traits. `Spec/Utf8`: RFC 3629; `Lemmas/Utf8` shows by cases and arithmetic that Lean strings are encoded by it.
  Theorems: `C88_try_from`, `C88_string_der`, `C88_string_ber`, `C88_only_octets`, `C88_round_trip`, `C88_text`, `C88_octets`, `C88_text_order`.
- **C89 The error reported is that of the first fault** (proved). `Spec/Faults`: the faults of octets, of values by recursion on the type, of sequences by induction on their elements; `Lemmas/Faults`, `Lemmas/FaultsTy` show by the same recursions that they are the errors of the model. C49 follows exactly (`Props/Mismatch`).
  Theorems: `C89_der_ref_parse_error_iff`, `C89_ber_ref_parse_error_iff`, `C89_parse_der_error_iff`, `C89_parse_ber_error_iff`, `C89_value_or_fault_der`, `C89_value_or_fault_ber`.
- **C90 Safe implementations of Serialize cannot break memory** (partial). `Model/RawSer`: `to_der` on real storage, for any answers and writes of the implementation; it does what the model on octets does. `Spec/Loose`: the headers that accessors read without checks. `push`, `extend_from_slice`, `truncate` exactly, by the capacity and the announced length.
  Theorems: `C90_to_der_partial`, `C90_accessors_partial`, `C90_extend_exact`, `C90_truncate_partial`, `C90_truncate_exact`, `C90_push_violated`, `C90_truncate_violated`, `C90_ber_same`.
- **C91 Safe iterators cannot break memory** (partial). `Model/Raw`: the constructors for any two passes over the iterator, the one that counts and the one that writes. By induction on the parts, with the exact capacity that `with_capacity` gives: where the writes stop to fit.
  Theorems: `C91_from_id_iterator_exact`, `C91_well_formed_iff`, `C91_from_id_iterator_partial`, `C91_from_id_iterator_violated`, `C91_push_violated`, `C91_truncate_violated`.
- **C92 Decoding looks at each octet a bounded number of times** (partial). `Model/Work`: the decoders once more, counting; `Ty.work_same` shows they return the same. A budget (`Lemmas/WorkBound`) is an allowance for contents of a length at a level, out of which each parse is paid so that the allowances for its contents and the rest are left; four budgets give the four bounds by induction on the type and the loop. The counterexample is computed exactly by induction on the depth.
  Theorems: `C92_same_result`, `C92_der_linear`, `C92_ber_levels`, `C92_ber_definite`, `C92_ber_quadratic_partial`, `C92_ber_linear_violated`.
- **C93 Encoding calls each conversion a fixed number of times** (proved). `Model/Calls`: the serializers once more, counting calls with weights; which way they go is decided by the models of C39–C41. `Spec/Calls`: how often a conversion should be called. By induction on the type, `write_id` and `write_der_contents` together make these calls and `der_contents_len` none.
  Theorems: `C93_conversions`.
- **C94 Encoding computes each size a bounded number of times** (partial). The same model with the other weight. By induction on the type, the calls of `der_contents_len` below a value are at most its parts, and those of `write_der` at most the sum of depths; equality where sizes are known. The rest is arithmetic on parts, depths, levels and octets.
  Theorems: `C94_depths`, `C94_depths_exact`, `C94_levels`, `C94_quadratic_partial`, `C94_linear_violated`.
- **C95 The same octets mean the same on targets of other word sizes** (proved). `Model/Target`: the functions whose behaviour depends on the size of `usize`, with the size as a parameter. Reading the length octets on a target and in the main model is compared once, for any reader (`Lemmas/Target`): the same, or `OverFlow` where the main model reads a number no `usize` of the target holds. From that the parsers by cases, the loops by induction; encoding as in C01–C03 with the word size for 8. Integers by C14 and C15.
  Theorems: `C95_main_model`, `C95_length_octets`, `C95_length_parse_iff`, `C95_parse_iff`, `C95_same_result`, `C95_read_iff`, `C95_read_panics`, `C95_der_new`, `C95_exchange`, `C95_integers`, `C95_word_types`.
- **C96 Values call the allocator seldom while they grow** (partial). The heap of the raw memory model counts calls of `alloc` and `realloc`. `Lemmas/RawClock`: which operations of the two layouts call them, and when. `Lemmas/RawGrowth*`: the capacity of a buffer is followed through each method (`Cost`, `Room`), the parser loop by induction over the structure of the value. The numbers are those of `Spec/Growth`, which only knows lengths: how often storage that is made just as large as needed has to be replaced. For any input (`Lemmas/RawSpend`): an invariant of the loop of `Ber::parse` ties the clock to the length of what is in the buffer.
  Theorems: `C96_edits_exact`, `C96_stops`, `C96_parse_exact`, `C96_to_der_exact`, `C96_to_der_hints`, `C96_bounds_partial`, `C96_amortised_violated`, `C96_any_reader`, `C96_any_octets`, `C96_reader_exact`.
- **C97 Identifiers with a name** (proved). A table of the universal types of X.680 and X.690 (`Spec/Named`) is compared with the constants; the rest by C06 and C08.
  Theorems: `C97_named_iff`, `C97_named_reads`, `C97_named_distinct`.
- **C98 Buffers in several threads** (proved). `Model/Access` has the functions of `Buffer` as trees of single accesses; run alone they are those of `Model/Buffer` (`Lemmas/Access`). `Safe`: whatever the allocator answers, the next accesses go to blocks of one's own or read shared ones; this follows from what C35 to C37 say about lone runs with arbitrary allocators (`safe_of_run`: an allocator can be chosen that answers as given). Interleaving: the memory stays divided between the threads and the rest (`Parts`). By induction on the code of a thread and on the schedule.
  Theorems: `C98_accesses`, `C98_rules`, `C98_no_race`, `C98_result`, `C98_finishes`, `C98_join`, `C98_blocks`.
- **C99 A panic leaves no trace in memory** (proved). `Model/Unwind` has the functions with local or borrowed buffers once more, so that a panic passes through them: what `&mut` points to at that moment, which locals are dropped. Readers, iterators and `Serialize` implementations panic wherever they like. `Lemmas/Unwind*`: each step keeps the local buffer owned (`Owned`: dropping it gives back the memory there was before); by induction over items, headers and elements. `UnwindAgree`, `UnwindCut`: otherwise the functions do what `Model/Raw` says. Programs that catch panics: the invariant of C77 goes through.
  Theorems: `C99_parse`, `C99_from_id_iterator`, `C99_new`, `C99_to_der`, `C99_buffer`, `C99_mut`, `C99_caught`, `C99_goes_on`.
- **C100 Conversions hand the storage over** (proved). `Model/Raw` (Conversions). In the invariant of C77 a value or vector owns at most one block: each conversion of an owned one is shown to be the identity on memory and to keep the owner, and `into_vec` of an inline one to be a single allocation; then by induction on the chain. Copies all go through `Buffer::from(&[u8])`, whose cost is that of C96.
  Theorems: `C100_moves`, `C100_moves_inline`, `C100_octets`, `C100_copies`.
- **C101 The pointers obey the aliasing rules** (partial). `Spec/Alias` defines Stacked Borrows and Tree Borrows, an octet at a time; `Model/Alias` has the functions as the references they make and the accesses they do. `Lemmas/Alias*`: a function is checked alone, with pointers named 0, 1, 2, …, by an abstract machine that is proved to be right whatever is below it in the stack or around it in the tree and however the pointers are named; at which octet is a case distinction; composed by rules for sequence and call; then by induction on the calls. The exact set of wrong calls is `Spec/AliasUse`.
  Theorems: `C101_aliasing_iff`, `C101_universal_partial`, `C101_heap_partial`, `C101_little_inline_violated`, `C101_mut_violated`, `C101_parse_mut`, `C101_from_positive_iff`.
- **C102 Parsing from a stream waits only for octets that matter** (proved). `Answered`: with the answers of the reader so far the result is fixed and later answers stay in the reader. `Lemmas/Stream`, `StreamBer`: `Flow`, a function on a script does what it does on the slice of the same octets and leaves the rest alone, unless it comes to the end of the slice; then the next answer, if a failure, is its result (so it has asked). By induction on the loops; with C71 and C23 for what coming to the end means. For streams without end: shape of identifiers, at most nine octets of length.
  Theorems: `C102_id_iff`, `C102_length_iff`, `C102_ber_iff`, `C102_returns_with_last_octet`, `C102_der_iff`, `C102_der_returns_with_contents`, `C102_read_iff`, `C102_endless_iff`, `C102_endless_ber`.
- **C103 The result of parsing from a reader that gives any answers** (proved). `Lemmas/Stops`, `StopsBer`: if parsing the slice of the octets so far ends for want of octets, a failure or the end is the result, and an interruption within contents can be removed from the answers without a change (by induction on `read_exact` and the loop of `Ber::parse`, whose bounds are shown not to matter); if it ends otherwise, all later answers stay in the reader (C102). Then by induction on the number of answers, for any function with these properties. When a slice ends for want of octets is C71, C23 and C51. `Walk`: the header leaves the reader exactly behind its octets.
  Theorems: `C103_cases`, `C103_id_exact`, `C103_length_exact`, `C103_ber_exact`, `C103_der_exact`, `C103_read_ber_exact`, `C103_read_der_exact`.
- **C104 Values that follow one another in a stream are read one by one** (partial). `calls`: functions called one after another on the same reader. By induction on the values: one call takes its own octets and leaves the others (C25, C31, C24; soundness from C76). The violation is a pair of streams.
  Theorems: `C104_ber_iff`, `C104_der`, `C104_der_slice_iff`, `C104_sound`, `C104_read_ber`, `C104_read_der`, `C104_round_trip`, `C104_end`, `C104_end_violated`.
- **C105 Decoding BER and encoding again gives a normal form** (proved). Composed of C41, C43, C44, C48, C66, C67 and C68; a type without sets, maps and conversions has nothing that cannot be converted (by induction on the type).
  Theorems: `C105_normal_form`, `C105_same_iff`, `C105_fixed_iff`.
- **C106 Names in a declaration keep their meaning in the generated code** (partial). `Model/Scope`: for every function that generates code, the variables and parameters it declares and the paths it mentions, in order. `Spec.meaning`: where Rust finds the first segment. The conditions follow by cases on attributes and induction over fields, variants and statements; the violations are instances.
  Theorems: `C106_ser_struct_iff`, `C106_ser_transparent_iff`, `C106_ser_enum_iff`, `C106_ser_into_iff`, `C106_ser_to_iff`, `C106_de_struct_iff`, `C106_de_enum_iff`, `C106_de_from`, `C106_params_iff`, `C106_de_params`, `C106_struct_partial`, `C106_names_violated`.
- **C107 Documents of values inside of values are built and taken apart without loss** (proved). Spec/Document.lean defines trees of values, their octets by X.690 and the programs of a user (building with new/new_indefinite, reading with parse and disassemble at every level). Props/Document.lean proves by induction over the tree and the octets that reading accepts exactly the documents (BER and DER), that building gives their octets in every build, and derives the round trip, injectivity, freedom from panics, and the conversion from BER to DER with its length bound. Not modelled: the stack depth a recursive user program needs.
  Theorems: `C107_read_ber_iff`, `C107_read_der_iff`, `C107_ber_round_trip`, `C107_ber_to_der`, `C107_injective`, `C107_settled`.
- **C108 What is serialized is a document to the innermost level, and types with the same trees are interchangeable** (proved). Spec/Tree.lean defines the tree of a value by recursion over the type. Props/Tree.lean proves by mutual induction over types, fields and variants that its octets are those of the encoding and that it is a document without indefinite lengths; with C41 and C107 this gives what both readers return on to_der. Interchange follows from C48, C43 and injectivity of the octets of documents.
  Theorems: `C108_to_der_document`, `C108_interchange_iff`.
- **C109 The octets of to_der obey the rules of DER at every level** (partial). Spec/Conform.lean states the rules of X.690 on documents, without types. Props/Conform.lean proves by mutual induction over types, fields and variants that the tree of a value obeys them if and only if each hashed collection in it is iterated in the order of the encodings; with C108 this is about the octets of to_der. The rules for identifiers the user chooses with id = … from the universal class are left out (what they mean is up to the user), except that a struct with id = Set is shown to break 10.3.
  Theorems: `C109_conforms_iff`, `C109_conforms_partial`, `C109_set_order_violated`, `C109_set_struct_violated`.
- **C110 The messages of a deserialization error lead to the fault** (partial). Model/Told repeats the decoders of Model/De and Model/Derive with the messages, Model/Message has Display. Spec/Told states where a fault is as a path with numbers and names. Lemmas/Told proves that without the messages the decoders are those of the other claims, Lemmas/ToldTy, by mutual induction over types, fields and variants, that the error is exactly that of the specification, Lemmas/ToldSteps that the messages can be read back.
  Theorems: `C110_same_decoder`, `C110_parse_der_told_iff`, `C110_parse_ber_told_iff`, `C110_value_or_place_der`, `C110_value_or_place_ber`, `C110_messages_are_steps`, `C110_messages_injective`, `C110_kinds_distinct`, `C110_display`, `C110_report_partial`, `C110_report_violated`.
- **C111 Safe functions call Deserialize::from_ber only as its contract allows** (partial). Spec/Contract.lean defines an implementation whose from_ber has undefined behaviour outside a contract, and by a mutual inductive relation everything that can be built around it. Lemmas/Contract.lean proves by mutual induction that such decoders agree with those around the same implementation without the contract on every value that is part of the input; the implementation is arbitrary, so no call is outside of the contract.
  Theorems: `C111_contract`, `C111_contract_exact`, `C111_documented_partial`, `C111_documented_iff`, `C111_documented_violated`.
- **C112 Changes of a declaration that keep old encodings readable** (proved). Spec/Evolve.lean defines the changes as a mutual inductive relation between two types, with the relation of their values. Lemmas/EvolveTy.lean proves by mutual induction, on the specification of decoding (which C68 and its BER counterpart prove the code meets), that old readings are new readings of related values; Lemmas/EvolveEnc.lean the same for the octets written. Props/Evolve.lean transfers this to the functions of the crate and proves the converse statements by counting values and by the choice of the first variant.
  Theorems: `C112_reads`, `C112_writes`, `C112_old_reads_new_iff`, `C112_old_reads_new_ber_iff`, `C112_field_count`, `C112_insert_exact`.
- **C113 A value inside a document is found and changed in place, and nothing else changes** (partial). Spec/Place.lean defines paths, the change of a tree at a path, and the searching programs, on the trees of C107. Lemmas/Place.lean proves by induction on the path that the program ends at the octets of the subtree and, by mutual induction on the tree, that octets of a value of the same length in that place are read to the changed tree and to nothing else. Props/Place.lean instantiates this with each operation, whose effect on one value is that of C74.
  Theorems: `C113_finds`, `C113_reads`, `C113_set_class_partial`, `C113_violated`, `C113_set_primitive_partial`, `C113_set_constructed_iff`, `C113_set_pc_indefinite`, `C113_leaf_contents`, `C113_node_contents_iff`, `C113_indefinite_contents_iff`, `C113_indefinite_contents_violated`, `C113_der`, `C113_der_set_class`.
- **C114 A value of indefinite length with contents that break the rule works, but its octets may be read as another value** (partial). Spec/Rule.lean states the rule of the documentation on contents. Props/Rule.lean combines the history theorem of C33 with the grammar of C29: the octets split at the identifier and the length octet in one way only, so that a value that is a beginning of them is of indefinite length and ends with a run of values that keeps the rule; that run is unique.
  Theorems: `C114_reparse_violated`, `C114_works`, `C114_parse_iff`, `C114_whole_iff`, `C114_refused_partial`, `C114_extend`, `C114_truncate`.
- **C115 The serde layer works the same on 16-, 32- and 64-bit targets, and programs on different targets understand each other** (partial). `Model/TargetSer`, `Model/TargetDe`: the serde layer once more, with the word size as a parameter and the dictionaries of the main model; C115_main_model: for 8 octets they are the same functions, for any implementation of the traits. Encoding: the induction over types of C41 with the arithmetic of the target. Decoding: a relation between outcomes (equal, or the two errors of a header that announces too much, in the same contexts) is kept by each step, hence by mutual induction over types, for the type with the integer types of the target (`Spec/Target`). That encodings and what is restored do not depend on these is another mutual induction. Long values: each accumulation of sizes comes to the sum modulo the size of `usize` (release) or panics (debug), by induction on the list, the pairs or the fields, then by cases on the type.
  Theorems: `C115_main_model`, `C115_encode`, `C115_parse`, `C115_parse_iff`, `C115_valid`, `C115_read_iff`, `C115_exchange`, `C115_long_exact`, `C115_long_vec_exact`, `C115_write_der_violated`.
- **C116 Several edits of a document in place add up, do not disturb other values, and may be done in any order** (partial). Spec/Edits.lean defines what a list of edits makes of a tree and the programs on octets. Lemmas/Edits.lean: each edit, by C113, leaves the octets of the edited tree, which is again one that C113 applies to; the change of a tree at one path does not change what is at a path apart from it, and two such changes commute (mutual induction on the tree). Props/Edits.lean: induction on the list of edits; for the order, induction on the permutation.
  Theorems: `C116_history`, `C116_der`, `C116_get`, `C116_others`, `C116_last`, `C116_any_order_partial`, `C116_order_violated`.
- **C117 A connection that breaks at any octet yields no wrong value** (proved). Spec/Session.lean is the sender and the receiver as a user would write them. Props/Session.lean: induction on the values with C45 (what any writer has got) for the sender; for the receiver induction on the reads with C76 (a success of parse has consumed exactly one value), C30 (no encoding is a proper prefix of another, so the value consumed is the one sent) and C43/C44. Nothing is lost: C31 for the whole values, C71 and C51 for the one cut short; that read_ber does not panic there follows from C23, since the whole value is read.
  Theorems: `C117_sent`, `C117_no_wrong_value`, `C117_nothing_lost`.
- **C118 A Der or Ber is built, grown and shrunk the same on 16-, 32- and 64-bit targets** (partial). `Model/TargetMut`: the functions of `Model/Der` and `Model/Ber` with the word size as a parameter; C118_main_model: for 8 octets they are the same functions. If the new value fits the target, each step of the arithmetic comes to the same as with 64 bits, so C26 and C33 apply; else the request for memory is beyond isize::MAX and below the size of `usize`, hence panics. Histories: induction on the list. Iterators: the sum comes to the sum modulo the size of `usize` or panics (induction on the items), and the octets written are compared with the capacity.
  Theorems: `C118_main_model`, `C118_definite_exact`, `C118_indefinite_exact`, `C118_new_indefinite_exact`, `C118_history_exact`, `C118_bigger_target`, `C118_iterator_exact`, `C118_iterator_violated`.
- **C119 What a derive asks of the types in a declaration** (partial). `Model/Typing`: the generated bodies as expressions with the typing rules of the language for them, and the impls of bsn1_serde as rules. Spec/Typing.lean states the requirements in the words of the documentation. The bodies come of the plan of C73; a field needs what its expression needs (inversion of the typing rules), and the plan of a field is determined by its attributes (C72). Bounds: induction on the derivation that a type has a trait, with the orphan rule. Instances: the exact characterisation, and substitution in derivations.
  Theorems: `C119_serialize_exact`, `C119_deserialize_exact`, `C119_never_violated`, `C119_error_violated`, `C119_anyhow_violated`, `C119_documented_partial`, `C119_bounds_kept`, `C119_bounds_exact`, `C119_plain_struct_exact`, `C119_no_bound_added`, `C119_instances`.
- **C120 Implementations of the traits by hand can be used wherever those of the library can** (proved). Spec/Handwritten.lean: a `Codec` is how a type is to be encoded, `Honors` the promise of an implementation, and codecs of collections and derived types are put together of those of their parts. The theorems: if the parts keep the promise, so does the whole; by induction on elements, fields and variants with the lemmas of C41 to C45, which are about any implementation. C120_library: the impls of the library keep the promise; C120_simple_auth: that of the README does.
  Theorems: `C120_simple_auth`, `C120_library`, `C120_round_trip`, `C120_vec`, `C120_btree_set`, `C120_btree_map`, `C120_hash_set`, `C120_hash_map`, `C120_converted`, `C120_struct`, `C120_enum`, `C120_transparent`.
- **C121 The programs in the documentation do what is said beside them** (partial). `Model/Readme` is the code of the READMEs as functions on the model of the two crates. The serde program is an instance of C120_struct; what it accepts follows from the decoding relations of C44. The other is taken step by step: BerRef::parse accepts exactly the BER values (C20), identifiers are equal to octets with class and number (C07, C08), integers are C13. `Conform/Readme` runs the programs with the values of the doc-tests.
  Theorems: `C121_raw_exact`, `C121_raw`, `C121_raw_returns`, `C121_serde`, `C121_serde_exact`, `C121_cross`, `C121_same_request_violated`, `C121_empty_password_violated`, `C121_extra_violated`, `C121_tagged_violated`.
- **C122 A declaration with its attributes stands for the encoding that the documentation describes, from the tokens to the octets** (proved). `Model/Expand` puts the macro (Model/Attribute, tokens to plan) and the generated code (Model/Derive) together: names are looked up in a world of types, functions and implementations, and the plan is run. Spec/Expand.lean says what a field with given arguments is, in the words of the documentation. The plan of each field follows from the arguments (C73), the plan runs as the specification says (induction on fields and variants), and C120 does the rest. C122_serialize, C122_deserialize_exact and their enum forms are for one side alone, with arbitrary implementations for the fields; the plan for a field is unique, so what it does is what any reading of the arguments says. C122_accepts_exact: the code exists exactly if the declaration is documented.
  Theorems: `C122_struct`, `C122_round_trip`, `C122_transparent`, `C122_enum`, `C122_converted`, `C122_accepts_exact`, `C122_enum_accepts_exact`, `C122_serialize`, `C122_deserialize_exact`, `C122_enum_serialize`, `C122_enum_deserialize_exact`.
- **C123 A part of a serialized value is found in the encoding by its place, and can be replaced there** (proved). Spec/Part.lean says what the parts of a value are and where they stand, by rules on the type and the value (not on octets). The encoding of a value is a tree of values (C114, `Ty.doc`); by induction on the rules the part is the subtree at the path, and replacing the part replaces the subtree. The programs on the octets are those of C113 and C116. A converted field is a part, which is not looked into.
  Theorems: `C123_lookup`, `C123_replace`, `C123_decoded`, `C123_others`.
- **C124 Each part of a decoded value comes from the value at its place in the input** (proved). Spec/Origin.lean says by rules on the type and the value where a part has come from. What is decoded is exactly the relation of C44/C49 between octets and values, in which contents are a concatenation of values; by induction on the rules the part is related to one of these, and the program that walks through the octets (C116) comes to it.
  Theorems: `C124_der`, `C124_ber`, `C124_end_of_contents`, `C124_path_iff`.
- **C125 Changing a value of the input in place changes that part of the decoded value and nothing else** (proved). Spec/Alter.lean says by rules on the type and the value what the value becomes when a part is replaced. What is decoded is exactly the relation of C44/C49 between octets and values; by induction on the rules, the octets around the changed ones are the same before and after, and they are related to a value exactly if the changed ones are related to the part (both directions, so that failure is covered). The program that changes octets is that of C113 (`onDer`, `onBer`). C125_key and C125_end_of_contents show why keys and end-of-contents are left out.
  Theorems: `C125_der`, `C125_ber`, `C125_copy`, `C125_key`, `C125_end_of_contents`.
- **C126 Elements are added to an encoded collection with extend_from_slice, and cut off an encoded list with truncate, without decoding it** (proved). Spec/Append.lean says for each collection what it is after elements have been put into it, and what it means that values are read one after the other. By C44/C49 the contents of a collection that is decoded are a concatenation of values, and no value is the beginning of another, so that contents with octets behind them split in one way only; the edits themselves are those of C26 and C33. In BER an entry of indefinite length is not read like a struct (finding C47), so there the entries are those a user's program reads with BerRef::parse, id and contents (ReadEntries).
  Theorems: `C126_append_der`, `C126_append_map`, `C126_append_ber`, `C126_append_map_ber`, `C126_indefinite`, `C126_truncate`, `C126_serialized`.
- **C127 Collections of one kind decode what those of another do** (proved). Spec/Alike.lean says when two calls end alike (same error, or related values). The loop of each collection is the loop of Vec followed by the insertions (collectLoop_fuse, by induction on the rounds, for any function that gives the next element), and what the insertions make of a list is the independent SetOf, MapOf and firsts of Spec/Decode.lean. The change in place of an element of a BTreeSet is C125 for the Vec of the same octets.
  Theorems: `C127_lists`, `C127_btree_set`, `C127_hash_set`, `C127_maps`, `C127_calls`, `C127_inside`, `C127_change_der`, `C127_change_ber`, `C127_sent`, `C127_renamed`.
