{"id": "C01", "title": "Length octets round-trip", "statement": "Encoding any length (indefinite, or definite n for any usize n) with Length::to_bytes and parsing the result followed by arbitrary extra octets with Length::parse gives back the same length and leaves exactly the extra octets unread.", "quantifier": "every usize n, the indefinite length, and every trailing byte string", "why_tests_cant": "There are 2^64 lengths and unboundedly many trailing strings; tests check a handful around byte boundaries.", "anchors": ["bsn1/src/length.rs Length::to_bytes", "bsn1/src/length.rs Length::parse", "bsn1/src/length.rs parse_length"]}
{"id": "C02", "title": "Length::parse accepts exactly the shortest encodings", "statement": "Length::parse succeeds with Definite(n) on an input if and only if the input starts with the unique shortest X.690 encoding of n (one octet when n<128, otherwise 0x80+k followed by the k big-endian octets of n without leading zero) with n representable as usize, and it consumes exactly that prefix; it succeeds with Indefinite iff the first octet is 0x80.", "quantifier": "every byte string", "why_tests_cant": "Canonicality is a statement about all inputs (no second accepted spelling exists); tests only show some spellings rejected.", "anchors": ["bsn1/src/length.rs parse_length", "bsn1/src/length.rs Length::parse"]}
{"id": "C03", "title": "Length::len is the size of the encoding and fits the fixed buffer", "statement": "Length::len() equals the number of octets produced by Length::to_bytes for every length, and that number is at most 9, the capacity of the fixed stack buffer the octets are written to.", "quantifier": "every usize n and the indefinite length", "why_tests_cant": "Two separately coded formulas must agree on 2^64 inputs; an off-by-one at one boundary corrupts memory.", "anchors": ["bsn1/src/length.rs Length::len", "bsn1/src/length.rs Length::to_bytes", "bsn1/src/length_buffer.rs LengthBuffer"]}
{"id": "C04", "title": "Length::parse error classification", "statement": "On every input that is not accepted, Length::parse reports exactly one of: UnterminatedBytes when the input ends before the header is complete, RedundantBytes when the second octet is zero or a one-octet long form encodes a value below 128, OverFlow when more than 8 value octets are announced; it never panics and never returns any other error.", "quantifier": "every byte string", "why_tests_cant": "The error partition is over all byte strings.", "anchors": ["bsn1/src/length.rs parse_length", "bsn1/src/misc.rs read_u8"]}
{"id": "C05", "title": "Length comparison laws", "statement": "Two lengths compare equal iff both are definite with the same count; indefinite is unequal to every length including itself; partial_cmp is None iff one side is indefinite, and otherwise is the numeric order, so it says Equal exactly when == holds.", "quantifier": "all pairs of lengths", "why_tests_cant": "Laws over all pairs of 2^64+1 values.", "anchors": ["bsn1/src/length.rs PartialEq for Length", "bsn1/src/length.rs PartialOrd for Length"]}
{"id": "C06", "title": "Id::new stores class, primitive/constructed flag and number faithfully", "statement": "For every class, pc flag and tag number n in u128, the identifier built by Id::new reports that class, that pc flag and Ok(n).", "quantifier": "4 classes x 2 flags x 2^128 numbers", "why_tests_cant": "2^131 identifiers.", "anchors": ["bsn1/src/identifier.rs Id::new", "bsn1/src/identifier_ref.rs IdRef::class", "bsn1/src/identifier_ref.rs IdRef::pc", "bsn1/src/identifier_ref.rs IdRef::number"]}
{"id": "C07", "title": "Identifier parse round-trip", "statement": "IdRef::parse and Id::parse applied to the octets of any Id::new(class, pc, n) followed by arbitrary octets return that same identifier and leave exactly the extra octets.", "quantifier": "all identifiers and all trailing byte strings", "why_tests_cant": "Unbounded inputs; the writer and reader use different loops.", "anchors": ["bsn1/src/identifier.rs Id::new", "bsn1/src/identifier.rs Id::parse", "bsn1/src/identifier_ref.rs IdRef::parse", "bsn1/src/identifier_ref.rs parse_id"]}
{"id": "C08", "title": "IdRef::parse accepts exactly the shortest identifiers", "statement": "IdRef::parse succeeds iff the input starts with the shortest X.690 identifier encoding of some (class, pc, number) where the number is any natural number (no bound), and returns exactly that prefix; number() of the result is Ok(number) when it is below 2^128 and OverFlow otherwise.", "quantifier": "every byte string, tag numbers of any size", "why_tests_cant": "Inputs are unbounded; no finite test shows that no redundant spelling is accepted or that overflow is detected exactly.", "anchors": ["bsn1/src/identifier_ref.rs IdRef::parse", "bsn1/src/identifier_ref.rs parse_id", "bsn1/src/identifier_ref.rs IdRef::number"]}
{"id": "C09", "title": "Identifiers are equal exactly when class, flag and number are equal", "statement": "Two identifiers obtained from IdRef::parse or Id::new are byte-equal iff they have the same class, pc flag and (mathematical) number; in particular every parsed identifier whose number() is Ok(n) equals Id::new(class, pc, n).", "quantifier": "all pairs of parsed/constructed identifiers", "why_tests_cant": "Injectivity over unbounded pairs.", "anchors": ["bsn1/src/identifier.rs Id::new", "bsn1/src/identifier_ref.rs IdRef::parse", "bsn1/src/identifier_ref.rs PartialEq for IdRef"]}
{"id": "C10", "title": "Identifier setters: any history equals a fresh identifier", "statement": "Starting from any Id::new or parsed identifier, after any sequence of set_class, set_pc and set_number calls the identifier is byte-equal to Id::new of the last class, flag and number set (attributes never set keep their original value).", "quantifier": "all initial identifiers and all finite call sequences", "why_tests_cant": "Histories are unbounded; growing/shrinking across short and long forms depends on previous state.", "anchors": ["bsn1/src/identifier.rs Id::set_number", "bsn1/src/identifier_ref.rs IdRef::set_class", "bsn1/src/identifier_ref.rs IdRef::set_pc"]}
{"id": "C11", "title": "IdRef::parse does not move the input on error and agrees with parse_mut", "statement": "When IdRef::parse or IdRef::parse_mut fails the caller's slice is left unchanged; on success both return the same identifier and the same remainder, with identifier ++ remainder equal to the original input.", "quantifier": "every byte string", "why_tests_cant": "Needs all failing inputs.", "anchors": ["bsn1/src/identifier_ref.rs IdRef::parse", "bsn1/src/identifier_ref.rs IdRef::parse_mut"]}
{"id": "C12", "title": "Class and pc predicates partition identifiers", "statement": "For every identifier exactly one of is_universal, is_application, is_context_specific, is_private holds and it is the one reported by class(); exactly one of is_primitive, is_constructed holds and it agrees with pc().", "quantifier": "every identifier (any non-empty octets)", "why_tests_cant": "All first octets and all identifiers.", "anchors": ["bsn1/src/identifier_ref.rs IdRef::class", "bsn1/src/identifier_ref.rs IdRef::is_universal", "bsn1/src/identifier_ref.rs IdRef::pc"]}
{"id": "C13", "title": "Integer contents round-trip for every primitive integer type", "statement": "For each of i8,u8,i16,u16,i32,u32,i64,u64,i128,u128,isize,usize and each value v of it, Contents::from(v).to_integer::<T>() is Ok(v).", "quantifier": "every value of every primitive integer type", "why_tests_cant": "Up to 2^128 values per type.", "anchors": ["bsn1/src/contents.rs Contents::from_integer", "bsn1/src/contents.rs Contents::from_positive", "bsn1/src/contents.rs Contents::from_negative", "bsn1/src/contents_ref.rs ContentsRef::to_integer"]}
{"id": "C14", "title": "Integer contents are the minimal two's complement octets of the value", "statement": "Contents::from(v) is non-empty, its big-endian two's complement value is v, and it is the shortest such octet string (first nine bits not all equal when longer than one octet), for signed and unsigned types alike.", "quantifier": "every value of every primitive integer type", "why_tests_cant": "Minimality and value over 2^128 inputs.", "anchors": ["bsn1/src/contents.rs Contents::from_positive", "bsn1/src/contents.rs Contents::from_negative", "bsn1/src/contents.rs Contents::from_zero"]}
{"id": "C15", "title": "to_integer accepts exactly the minimal in-range encodings", "statement": "to_integer::<T>() on contents c returns Ok(v) iff c is the minimal two's complement encoding of v and v is a value of T; it returns UnterminatedBytes iff c is empty, RedundantBytes iff c is non-minimal, and OverFlow iff c is minimal but its value is outside T; it never panics.", "quantifier": "every byte string and every primitive integer type", "why_tests_cant": "All byte strings of all lengths.", "anchors": ["bsn1/src/contents_ref.rs ContentsRef::to_integer", "bsn1/src/contents_ref.rs ContentsRef::to_integer_unchecked"]}
{"id": "C16", "title": "Integer encoding is independent of the Rust type", "statement": "If v is a value of both integer types S and T then Contents::from(v as S) and Contents::from(v as T) are the same octets, and decoding one as the other gives v; if v is not a value of T, decoding Contents::from(v as S) as T gives OverFlow.", "quantifier": "all pairs of integer types and all values", "why_tests_cant": "144 type pairs times up to 2^128 values.", "anchors": ["bsn1/src/contents.rs From<i8..u128> for Contents", "bsn1/src/contents_ref.rs ContentsRef::to_integer"]}
{"id": "C17", "title": "Boolean contents", "statement": "to_bool_der accepts exactly the one-octet contents 0x00 and 0xff; to_bool_ber accepts exactly one-octet contents and is false iff the octet is 0; whenever to_bool_der is Ok, to_bool_ber gives the same; empty and longer contents are rejected with UnterminatedBytes and ExtraContentsOctet; Contents::from(b) decodes to b with both.", "quantifier": "every byte string", "why_tests_cant": "All byte strings.", "anchors": ["bsn1/src/contents_ref.rs ContentsRef::to_bool_ber", "bsn1/src/contents_ref.rs ContentsRef::to_bool_der", "bsn1/src/contents.rs From<bool> for Contents"]}
{"id": "C18", "title": "Der::new / DerRef::parse round-trip", "statement": "For every identifier and contents, DerRef::parse of Der::new(id, contents) followed by arbitrary octets succeeds, returns exactly the octets of the Der, leaves the extra octets, and id(), length(), contents(), disassemble() return the original id, Definite(contents.len()) and the contents.", "quantifier": "all identifiers, all contents, all trailing octets", "why_tests_cant": "Unbounded inputs.", "anchors": ["bsn1/src/der.rs Der::new", "bsn1/src/der.rs Der::with_id_length", "bsn1/src/der_ref.rs DerRef::parse", "bsn1/src/der_ref.rs DerRef::disassemble"]}
{"id": "C19", "title": "DerRef::parse accepts exactly one spelling per (id, contents)", "statement": "DerRef::parse accepts an input iff it starts with Der::new(id, contents) for some parsable id and some contents, and that prefix is the result; hence rebuilding Der::new(der.id(), der.contents()) from any parsed DER reproduces it byte for byte.", "quantifier": "every byte string", "why_tests_cant": "Canonicality quantifies over all inputs.", "anchors": ["bsn1/src/der_ref.rs DerRef::parse", "bsn1/src/der_ref.rs DerRef::disassemble", "bsn1/src/der.rs Der::new"]}
{"id": "C20", "title": "DER values are self-delimiting", "statement": "No parsable DER value is a proper prefix of another, and parsing a concatenation of DER values with repeated DerRef::parse yields exactly those values in order.", "quantifier": "all finite sequences of DER values", "why_tests_cant": "Unbounded sequences.", "anchors": ["bsn1/src/der_ref.rs DerRef::parse"]}
{"id": "C21", "title": "DerRef::parse / BerRef::parse leave the input untouched on error", "statement": "As documented: when DerRef::parse or BerRef::parse returns an error, the caller's slice is not updated (as is the case for parse_mut and IdRef::parse).", "quantifier": "every byte string", "why_tests_cant": "Needs all failing inputs; existing tests look only at the returned error.", "anchors": ["bsn1/src/der_ref.rs DerRef::parse", "bsn1/src/ber_ref.rs BerRef::parse", "bsn1/src/der_ref.rs DerRef::parse_mut", "bsn1/src/ber_ref.rs BerRef::parse_mut"]}
{"id": "C22", "title": "Slice parsers never panic", "statement": "IdRef::parse, DerRef::parse, BerRef::parse (and the _mut variants) return Ok or Err on every input: no index out of range, no arithmetic overflow, no unreachable!; and disassemble, id, length, contents never panic on a value they returned.", "quantifier": "every byte string", "why_tests_cant": "Absence of panics over all inputs.", "anchors": ["bsn1/src/der_ref.rs DerRef::do_parse", "bsn1/src/ber_ref.rs BerRef::do_parse", "bsn1/src/identifier_ref.rs parse_id_unchecked", "bsn1/src/length.rs parse_length_unchecked"]}
{"id": "C23", "title": "Der::parse and Ber::parse never panic on untrusted input", "statement": "Parsing from any reader returns Ok or Err for every input; an announced length larger than the available data is an error, not a panic or abort.", "quantifier": "every reader content", "why_tests_cant": "Hostile lengths are a needle in an unbounded input space.", "anchors": ["bsn1/src/der.rs Der::parse", "bsn1/src/ber.rs Ber::parse", "bsn1/src/buffer/little_endian/mod.rs Buffer::reserve"]}
{"id": "C24", "title": "Der::parse on a slice agrees with DerRef::parse", "statement": "For a slice whose announced content length does not exceed what memory can hold, Der::parse gives the same bytes or the same error as DerRef::parse, and after a success the same remaining input.", "quantifier": "every byte string", "why_tests_cant": "Two parsers must agree on all inputs.", "anchors": ["bsn1/src/der.rs Der::parse", "bsn1/src/der_ref.rs DerRef::parse"]}
{"id": "C25", "title": "Der::parse does not depend on how the reader chunks the data", "statement": "For every reader delivering the octets of a DER value in any sequence of non-empty reads, Der::parse returns that value.", "quantifier": "every DER value and every chunking schedule of the reader", "why_tests_cant": "The number of schedules is exponential; tests use in-memory slices which never deliver short reads.", "anchors": ["bsn1/src/der.rs Der::parse"]}
{"id": "C26", "title": "Der mutation histories", "statement": "Starting from Der::new(id, c), after any sequence of push, extend_from_slice and truncate, the Der is byte-equal to Der::new(id, c') where c' is the result of the same operations on a plain byte vector (length octets growing or shrinking as needed).", "quantifier": "all initial values and all finite sequences of push/extend_from_slice/truncate", "why_tests_cant": "Histories are unbounded; moves across length-octet boundaries depend on history.", "anchors": ["bsn1/src/der.rs Der::push", "bsn1/src/der.rs Der::extend_from_slice", "bsn1/src/der.rs Der::truncate"]}
{"id": "C27", "title": "from_id_iterator equals construction from the concatenation", "statement": "Der::from_id_iterator(id, parts) equals Der::new(id, concatenation of parts) and Ber::from_id_iterator likewise; Ber::from_id_iterator_indefinite(id, parts) equals Ber::new_indefinite(id, concatenation).", "quantifier": "all identifiers, all finite sequences of byte strings", "why_tests_cant": "Unbounded sequences.", "anchors": ["bsn1/src/der.rs Der::from_id_iterator", "bsn1/src/ber.rs Ber::from_id_iterator", "bsn1/src/ber.rs Ber::from_id_iterator_indefinite"]}
{"id": "C28", "title": "with_id_length panics rather than build a broken value", "statement": "As documented, Der::with_id_length(id, n) panics when the total size exceeds isize::MAX; otherwise the value it returns has the given id, Definite(n) and n contents octets.", "quantifier": "every identifier and every usize n, with and without overflow checks", "why_tests_cant": "Extreme lengths cannot be allocated in a test and behaviour depends on build profile.", "anchors": ["bsn1/src/der.rs Der::with_id_length", "bsn1/src/ber.rs Ber::with_id_length"]}
{"id": "C29", "title": "BerRef::parse accepts exactly the BER grammar", "statement": "BerRef::parse succeeds iff the input starts with a value of the grammar  V ::= id definite-length contents | id 0x80 V* 00 00  (members of V* not starting with 00 00, nesting unbounded), and it returns exactly that value and leaves the rest.", "quantifier": "every byte string, any nesting depth", "why_tests_cant": "Nesting depth and input length are unbounded; counting-based matching must equal the recursive grammar.", "anchors": ["bsn1/src/ber_ref.rs BerRef::parse", "bsn1/src/ber_ref.rs BerRef::do_parse"]}
{"id": "C30", "title": "BER values are self-delimiting", "statement": "No parsable BER value is a proper prefix of another; a concatenation of values is split by repeated BerRef::parse into exactly those values.", "quantifier": "all sequences of BER values", "why_tests_cant": "Unbounded.", "anchors": ["bsn1/src/ber_ref.rs BerRef::parse"]}
{"id": "C31", "title": "Ber::parse is independent of reader chunking and agrees with BerRef::parse", "statement": "For every reader delivering bytes in any non-empty chunks, whenever BerRef::parse succeeds on the concatenated bytes, Ber::parse returns the same octets and leaves the reader right after them, and vice versa.", "quantifier": "every byte string and every chunking schedule", "why_tests_cant": "Exponential number of schedules times all inputs.", "anchors": ["bsn1/src/ber.rs Ber::parse", "bsn1/src/ber.rs Ber::do_parse", "bsn1/src/ber_ref.rs BerRef::parse"]}
{"id": "C32", "title": "Every DER value is a BER value", "statement": "If DerRef::parse succeeds on an input then BerRef::parse succeeds with the same octets and remainder, and both views disassemble to the same id, length and contents.", "quantifier": "every byte string", "why_tests_cant": "All inputs.", "anchors": ["bsn1/src/der_ref.rs DerRef::parse", "bsn1/src/ber_ref.rs BerRef::parse", "bsn1/src/ber_ref.rs From<&DerRef> for &BerRef"]}
{"id": "C33", "title": "Ber mutation histories", "statement": "After any sequence of push, extend_from_slice and truncate on a Ber: a definite-length value equals Ber::new(id, c') and an indefinite-length value equals Ber::new_indefinite(id, c'), where c' is the contents after the same operations on a byte vector; the kind of length never changes.", "quantifier": "all initial values, all finite sequences of operations", "why_tests_cant": "Unbounded histories.", "anchors": ["bsn1/src/ber.rs Ber::push", "bsn1/src/ber.rs Ber::extend_from_slice", "bsn1/src/ber.rs Ber::truncate", "bsn1/src/ber.rs Ber::new_indefinite"]}
{"id": "C34", "title": "Indefinite-length values built from parsable children parse back", "statement": "For any identifier and any list of parsable BER values none of which is end-of-contents, Ber::new_indefinite(id, children ++ EOC) parses with BerRef::parse to itself, and disassemble gives id, Indefinite and the children ++ EOC.", "quantifier": "all identifiers, all finite lists of BER values, any nesting", "why_tests_cant": "Unbounded trees.", "anchors": ["bsn1/src/ber.rs Ber::new_indefinite", "bsn1/src/ber_ref.rs BerRef::parse", "bsn1/src/ber_ref.rs BerRef::disassemble"]}
{"id": "C35", "title": "Small-buffer storage behaves like a byte vector (little-endian layout)", "statement": "Under any sequence of construction, reserve, push, extend, set_len (shrink), indexed write, clone and into_vec performed within the documented safety rules, the octets visible through the buffer are exactly those of an ordinary growable vector, although storage moves between the inline 23-byte overlay of the struct words and the heap.", "quantifier": "all finite operation sequences, all byte values, any sizes", "why_tests_cant": "Inline storage aliases the pointer/capacity/length words; correctness depends on the full history.", "anchors": ["bsn1/src/buffer/little_endian/mod.rs Buffer", "bsn1/src/buffer/mod.rs Buffer"]}
{"id": "C36", "title": "Small-buffer storage behaves like a byte vector (big-endian layout)", "statement": "The same as the previous property for the alternative layout compiled on big-endian targets.", "quantifier": "all finite operation sequences, all byte values, any sizes", "why_tests_cant": "This code is not even compiled on the machines where tests run.", "anchors": ["bsn1/src/buffer/universal_endian/mod.rs Buffer", "bsn1/src/buffer/mod.rs Buffer"]}
{"id": "C37", "title": "Buffer accesses stay inside the owned storage and allocations balance", "statement": "In every safe history each octet read or written lies within the buffer's current capacity, len never exceeds capacity, and exactly one heap block is owned in heap mode and none in inline mode, so dropping frees every allocation exactly once.", "quantifier": "all finite operation sequences", "why_tests_cant": "Memory safety is a property of all histories.", "anchors": ["bsn1/src/buffer/little_endian/mod.rs Buffer::reserve", "bsn1/src/buffer/little_endian/mod.rs Buffer::set_len", "bsn1/src/buffer/little_endian/mod.rs Drop for Buffer", "bsn1/src/buffer/universal_endian/mod.rs Buffer"]}
{"id": "C38", "title": "reserve guarantees capacity and preserves contents", "statement": "After reserve(n), capacity is at least len+n, and length and contents are unchanged; with_capacity(n) gives an empty buffer with capacity at least n.", "quantifier": "all buffer states and n", "why_tests_cant": "All states.", "anchors": ["bsn1/src/buffer/little_endian/mod.rs Buffer::reserve", "bsn1/src/buffer/universal_endian/mod.rs Buffer::reserve"]}
{"id": "C39", "title": "Size hints equal the octets written", "statement": "For every built-in serializable type, arbitrarily nested, and for derived structs and enums (except hash maps whose keys have no size hint, see C42): when id_len / der_contents_len return Some(n), write_id / write_der_contents write exactly n octets.", "quantifier": "all types built from the supported constructors and all their values", "why_tests_cant": "Infinitely many nested types and values; a wrong hint silently corrupts the length octets.", "anchors": ["bsn1_serde/src/ser/mod.rs Serialize", "bsn1_serde/src/ser/mod.rs der_len", "bsn1_serde/src/ser/mod.rs der_contents_len", "bsn1_serde_macros/src/data_container.rs DataContainer::der_contents_len"]}
{"id": "C40", "title": "Integer size formula", "statement": "For every primitive integer type, der_contents_len(v) equals the number of octets of Contents::from(v).", "quantifier": "every value of every primitive integer type", "why_tests_cant": "Up to 2^128 values; bit-count formula versus byte loop.", "anchors": ["bsn1_serde/src/ser/mod.rs Serialize for i8..usize", "bsn1/src/contents.rs Contents"]}
{"id": "C41", "title": "to_der output is one well-formed DER value", "statement": "Whenever to_der(value) succeeds for a type whose size hints are exact and whose write_id writes a valid identifier, the result parses with DerRef::parse to itself with no bytes left, with the written identifier and the written contents.", "quantifier": "all types obeying the Serialize contract, all values", "why_tests_cant": "Quantifies over user types and values.", "anchors": ["bsn1_serde/src/lib.rs to_der", "bsn1_serde/src/lib.rs to_ber"]}
{"id": "C42", "title": "HashMap serialization is well-formed for keys without size hint", "statement": "to_der of a HashMap whose key type gives no size hint (e.g. a derived type using `into` or `to`) produces a well-formed DER value, as BTreeMap does.", "quantifier": "all key/value types and all maps", "why_tests_cant": "Only specific combinations of hint availability expose it.", "anchors": ["bsn1_serde/src/ser/mod.rs der_contents_len of HashMap", "bsn1_serde/src/ser/mod.rs der_contents_len of BTreeMap"]}
{"id": "C43", "title": "Serialize/deserialize round-trip through DER", "statement": "For every supported type, arbitrarily nested (bool, all integers, String, OctetString, Vec, LinkedList, VecDeque, BTreeSet, BTreeMap, HashSet, HashMap, derived structs and enums), from_der(to_der(v)) is Ok(v) (as a set/map for hashed collections).", "quantifier": "all types of the universe and all their values", "why_tests_cant": "Infinitely many types and values.", "anchors": ["bsn1_serde/src/lib.rs to_der", "bsn1_serde/src/lib.rs from_der", "bsn1_serde/src/de/mod.rs Deserialize", "bsn1_serde/src/ser/mod.rs Serialize"]}
{"id": "C44", "title": "Serialize/deserialize round-trip through BER", "statement": "The same with to_ber and from_ber.", "quantifier": "all types of the universe and all their values", "why_tests_cant": "Infinitely many types and values.", "anchors": ["bsn1_serde/src/lib.rs to_ber", "bsn1_serde/src/lib.rs from_ber", "bsn1_serde/src/de/mod.rs Deserialize"]}
{"id": "C45", "title": "write_der to any writer produces the octets of to_der, and a prefix on failure", "statement": "If a writer accepts everything (in any chunks), write_der writes exactly the octets of to_der; if the writer fails at any point, the octets it accepted are a prefix of to_der's octets and the error is reported.", "quantifier": "all values, all writers, every failure point", "why_tests_cant": "Every failure point and partial-write schedule.", "anchors": ["bsn1_serde/src/lib.rs write_der", "bsn1_serde/src/lib.rs to_der"]}
{"id": "C46", "title": "Indefinite-length primitives are rejected", "statement": "from_ber of a boolean, integer, String or OctetString presented with indefinite length returns IndefiniteLength (BER forbids indefinite length for primitive encodings).", "quantifier": "all contents", "why_tests_cant": "The guard compares with ==, which is never true for Indefinite; tests never feed such input.", "anchors": ["bsn1_serde/src/de/mod.rs from_ber of bool/integers/String", "bsn1_serde/src/octet_string.rs OctetString::from_ber", "bsn1/src/length.rs PartialEq for Length"]}
{"id": "C47", "title": "Definite and indefinite encodings of collections decode alike", "statement": "For every collection type, from_ber of the indefinite-length encoding of a sequence of elements gives the same result as from_ber of the definite-length encoding, including when elements or key-value pairs themselves use indefinite length.", "quantifier": "all element types, all element lists, all choices of length form", "why_tests_cant": "Combinations of length forms at every nesting level.", "anchors": ["bsn1_serde/src/de/mod.rs exclude_eoc", "bsn1_serde/src/de/mod.rs DeserializeHelper", "bsn1_serde/src/de/mod.rs ber_to_key_val"]}
{"id": "C48", "title": "from_der accepts exactly what to_der produces", "statement": "For bool, integers, String, OctetString, Vec-like sequences and derived structs/enums of such types: if from_der succeeds on a parsed DER value then to_der of the result reproduces that DER value byte for byte.", "quantifier": "all parsed DER inputs and all such types", "why_tests_cant": "All inputs and types; establishes that a DER document has one reading and one spelling.", "anchors": ["bsn1_serde/src/lib.rs from_der", "bsn1_serde/src/lib.rs to_der"]}
{"id": "C49", "title": "A mismatched identifier is always reported", "statement": "from_der and from_ber of every built-in type return UnmatchedId whenever the identifier is not one of the identifiers of that type, whatever the contents.", "quantifier": "all identifiers and contents", "why_tests_cant": "All byte strings.", "anchors": ["bsn1_serde/src/de/mod.rs Deserialize", "bsn1_serde/src/octet_string.rs OctetString"]}
{"id": "C50", "title": "parse_der/parse_ber advance past the value even when decoding fails", "statement": "As documented: when the DER/BER octets parse but deserializing T fails, the caller's slice has been advanced exactly to the end of the value; on success too.", "quantifier": "all inputs, all types", "why_tests_cant": "All inputs and types.", "anchors": ["bsn1_serde/src/lib.rs parse_der", "bsn1_serde/src/lib.rs parse_ber"]}
{"id": "C51", "title": "read_der/read_ber give the same result as parse_der/parse_ber", "statement": "As documented: on the same bytes, read_ber returns the same value or error as parse_ber, and read_der the same as parse_der.", "quantifier": "all inputs, all types", "why_tests_cant": "All inputs; differences only in error kinds, short data and hostile lengths.", "anchors": ["bsn1_serde/src/lib.rs read_ber", "bsn1_serde/src/lib.rs parse_ber", "bsn1_serde/src/lib.rs read_der", "bsn1_serde/src/lib.rs parse_der"]}
{"id": "C52", "title": "Derived identifier attribute", "statement": "The identifier octets generated by #[bsn1_serde(id, tag_class, tag_pc, tag_num)] are exactly Id::new(class, pc, number) where each component is the attribute's value if given and that of the base id (default SEQUENCE) otherwise.", "quantifier": "all combinations of the four arguments, every u128 tag number", "why_tests_cant": "2^128 tag numbers; macro code and Id::new are separate implementations.", "anchors": ["bsn1_serde_macros/src/attribute.rs Attribute::id", "bsn1/src/identifier.rs Id::new"]}
{"id": "C53", "title": "Derived enums decode to the variant that was encoded when ids differ", "statement": "If the identifiers of all variants differ, from_der(to_der(E::V(x))) is E::V(x) for every variant V; if two variants share an identifier and the earlier one can decode the later one's contents, decoding yields the earlier variant.", "quantifier": "all enums, all values", "why_tests_cant": "All enum definitions.", "anchors": ["bsn1_serde_macros/src/de/mod.rs do_deserialize_enum", "bsn1_serde_macros/src/ser/mod.rs do_serialize_enum"]}
{"id": "C54", "title": "Skipped fields", "statement": "Fields marked skip/skip_serializing contribute nothing to the encoding, and on decoding fields marked skip/skip_deserializing take the default value while all other fields are restored; with consistent marks decoding never fails on an encoded value.", "quantifier": "all struct shapes, all attribute combinations, all values", "why_tests_cant": "All struct definitions.", "anchors": ["bsn1_serde_macros/src/data_container.rs DataContainer::write_der_contents", "bsn1_serde_macros/src/data_container.rs DataContainer::from_der_contents", "bsn1_serde_macros/src/attribute.rs Attribute::is_skip_serializing"]}
{"id": "C55", "title": "Transparent structs", "statement": "A transparent struct encodes to exactly the octets of its single non-skipped field (after its to/into conversion) and decodes from the same input.", "quantifier": "all transparent struct definitions and values", "why_tests_cant": "All definitions.", "anchors": ["bsn1_serde_macros/src/data_container.rs write_id_transparent", "bsn1_serde_macros/src/data_container.rs write_der_contents_transparent", "bsn1_serde_macros/src/data_container.rs from_der_transparent"]}
{"id": "C56", "title": "Conversion attributes", "statement": "With into/to and from/try_from conversions on a container or field, encoding is that of the converted value, and decoding composes the inner decoding with the conversion; if the conversions are inverse on the value, the round trip restores it; size hints are withheld.", "quantifier": "all conversions and values", "why_tests_cant": "All user conversion functions.", "anchors": ["bsn1_serde_macros/src/ser/mod.rs do_into_serialize", "bsn1_serde_macros/src/ser/mod.rs do_to_serialize", "bsn1_serde_macros/src/de/mod.rs do_from_deserialize", "bsn1_serde_macros/src/de/mod.rs do_try_from_deserialize"]}
{"id": "C57", "title": "Derived structs reject extra and missing fields", "statement": "Decoding a derived struct succeeds only if the contents are exactly one value per non-skipped field in order: left-over octets give ExtraContentsOctet, and missing octets give an error, for any field types.", "quantifier": "all struct shapes and inputs", "why_tests_cant": "All definitions and inputs.", "anchors": ["bsn1_serde_macros/src/data_container.rs DataContainer::from_der_contents", "bsn1_serde_macros/src/data_container.rs DataContainer::from_ber_contents"]}
{"id": "C58", "title": "Equal values have equal DER encodings", "statement": "to_der is a function of the abstract value: two equal values of a supported type give identical DER octets (DER is a canonical encoding).", "quantifier": "all pairs of equal values, including sets and maps with different internal order", "why_tests_cant": "Hash iteration order varies run to run.", "anchors": ["bsn1_serde/src/ser/mod.rs Serialize for HashSet", "bsn1_serde/src/ser/mod.rs Serialize for HashMap"]}
{"id": "C59", "title": "Ordered collections decode by insertion semantics", "statement": "from_der of BTreeSet/BTreeMap input yields the set/map obtained by inserting the decoded elements in order (later duplicates of a key replace earlier values); the result is always sorted and duplicate-free, and re-encoding is stable (decode(encode(decode(x))) = decode(x)).", "quantifier": "all inputs, all element types with a total order", "why_tests_cant": "All inputs.", "anchors": ["bsn1_serde/src/de/mod.rs Deserialize for BTreeSet", "bsn1_serde/src/de/mod.rs Deserialize for BTreeMap"]}
{"id": "C60", "title": "Attribute validation", "statement": "The attribute checks accept exactly the documented combinations: identifier, skip and conversion arguments are mutually exclusive, from excludes try_from, into excludes to, transparent excludes everything else, and each position (struct, enum, variant, field) admits only its documented arguments. A derive succeeds only if the attributes at all positions pass.", "quantifier": "all 2^13 combinations of arguments at each position", "why_tests_cant": "Tests cover single pairs.", "anchors": ["bsn1_serde_macros/src/attribute.rs Attribute::sanitize", "bsn1_serde_macros/src/attribute.rs sanitize_as_container", "bsn1_serde_macros/src/attribute.rs sanitize_as_enum", "bsn1_serde_macros/src/attribute.rs sanitize_as_variant", "bsn1_serde_macros/src/attribute.rs sanitize_as_field", "bsn1_serde_macros/src/ser/mod.rs do_serialize", "bsn1_serde_macros/src/de/mod.rs do_deserialize"]}
{"id": "C61", "title": "root_cause finds the underlying error", "statement": "As documented: for an Error that wraps a chain, root_cause returns the first Error of this crate in the chain; in particular after any number of context() calls it returns the original error.", "quantifier": "all errors and any number of context layers", "why_tests_cant": "Unbounded nesting.", "anchors": ["bsn1/src/lib.rs Error::root_cause", "bsn1/src/lib.rs Error::context", "bsn1/src/lib.rs Error::into_anyhow"]}
{"id": "C62", "title": "Error equality", "statement": "== on errors is symmetric and transitive, is reflexive exactly on the plain (non Io, non Anyhow) errors, and identifies only errors of the same kind.", "quantifier": "all errors", "why_tests_cant": "All triples of errors including wrapped ones.", "anchors": ["bsn1/src/lib.rs PartialEq for Error"]}
{"id": "C63", "title": "Malformed elements abort collection decoding", "statement": "Decoding a collection succeeds iff its contents split into a sequence of values each of which decodes as the element type; the result has the elements in order and no octet is ignored.", "quantifier": "all inputs, all element types", "why_tests_cant": "All inputs and types.", "anchors": ["bsn1_serde/src/de/mod.rs Deserialize for Vec", "bsn1_serde/src/de/mod.rs DeserializeHelper::der_to_val", "bsn1_serde/src/de/mod.rs DeserializeHelper::ber_to_val"]}
{"id": "C64", "title": "tag_num literal parsing", "statement": "The tag_num argument accepts exactly an optional '+', an optional radix prefix 0b/0o/0x (either case) and digits of that radix denoting a number below 2^128, and yields that number. (A second '+' after the prefix is tolerated too; no literal of Rust contains one.)", "quantifier": "all token strings", "why_tests_cant": "All strings.", "anchors": ["bsn1_serde_macros/src/attribute.rs parse_tag_num_value"]}
{"id": "C65", "title": "Safe constructors stay inside their memory", "statement": "Der::with_id_length and Der::from_id_iterator (and the Ber functions built on them), called from safe code with any arguments in any build profile, never write outside the memory they allocated.", "quantifier": "all identifiers, all lengths up to usize::MAX, all finite iterators of byte strings, debug and release builds", "why_tests_cant": "The failure needs lengths whose sum wraps around at 2^64; no test can allocate such inputs and no finite set of lengths covers the boundary.", "anchors": ["bsn1/src/der.rs: Der::with_id_length, Der::from_id_iterator", "bsn1/src/ber.rs: Ber::with_id_length_indefinite, Ber::from_id_iterator_indefinite", "bsn1/src/buffer/little_endian/mod.rs: Buffer::with_capacity, Buffer::extend_from_slice"]}
{"id": "C66", "title": "Different values have different, prefix-free encodings", "statement": "For types restored exactly by a round trip, to_der of two different values never gives the same octets; and no encoding is a proper prefix of another, so concatenated encodings can be split again in only one way.", "quantifier": "all pairs of values and of types, all continuations", "why_tests_cant": "Injectivity is a statement about all pairs of values.", "anchors": ["bsn1_serde/src/lib.rs to_der", "bsn1_serde/src/ser/mod.rs", "bsn1_serde/src/de/mod.rs"]}
{"id": "C67", "title": "from_ber accepts whatever from_der accepts", "statement": "If from_der succeeds on a DER value, from_ber of the same octets succeeds with the same value (DER is a subset of BER), for every supported type at any nesting.", "quantifier": "all supported types, all DER values", "why_tests_cant": "Two independent decoders per type have to agree on unboundedly many inputs.", "anchors": ["bsn1_serde/src/de/mod.rs", "bsn1_serde_macros/src/data_container.rs"]}
{"id": "C68", "title": "Decoding yields only values of the type", "statement": "Every value returned by from_der/from_ber is a proper value: integers are in the range of their type, ordered collections are sorted without duplicates, sets and maps have no duplicate keys, at any nesting.", "quantifier": "all inputs, all supported types", "why_tests_cant": "A statement about all inputs; tests decode a few.", "anchors": ["bsn1_serde/src/de/mod.rs", "bsn1/src/contents.rs"]}
{"id": "C69", "title": "Decoding untrusted octets never panics", "statement": "parse_der and parse_ber return a value or an error on every byte string, for every supported type, in every build.", "quantifier": "all byte strings, all supported types, debug and release builds", "why_tests_cant": "A single crafted input suffices to break it; tests do not find it.", "anchors": ["bsn1_serde/src/lib.rs parse_der", "bsn1_serde/src/lib.rs parse_ber", "bsn1_serde/src/de/mod.rs"]}
{"id": "C70", "title": "Constructed strings are assembled from their segments", "statement": "from_ber of a string in constructed form (identifiers 0x24, 0x2c), which String and OctetString accept, is the concatenation of its segments (X.690 8.7.3); in primitive form it is the contents.", "quantifier": "all strings and all ways to split them into segments", "why_tests_cant": "There are unboundedly many segmentations; the tests contain none.", "anchors": ["bsn1_serde/src/octet_string.rs from_ber", "bsn1_serde/src/de/mod.rs String::from_ber"]}
{"id": "C72", "title": "Attribute argument lists", "statement": "The tokens of a bsn1_serde(..) list are accepted exactly if they are a list of the thirteen arguments with well-formed values, separated by commas (which may be repeated or omitted), with no argument given twice; the parsed attribute has exactly these arguments with their values. At most one bsn1_serde list is allowed at one position, other attributes are ignored.", "quantifier": "all token sequences, all attribute lists, every path parser", "why_tests_cant": "Token sequences are unbounded; tests are a few compile-fail cases.", "anchors": ["bsn1_serde_macros/src/attribute.rs Attribute::parse", "bsn1_serde_macros/src/attribute.rs Attribute::try_from", "bsn1_serde_macros/src/attribute.rs take_value"]}
{"id": "C73", "title": "Generated code follows the arguments", "statement": "A derive generates the container's conversion if it has one; otherwise code for the struct, transparent struct or enum with the identifier of C52 and each field skipped, converted or plain exactly as its arguments say (skip means both skip_serializing and skip_deserializing, default is used only for a skipped field), a transparent struct having exactly one field that is not skipped. Serialize and Deserialize of one struct use the same identifier.", "quantifier": "all attribute lists at container, variants and fields; structs and enums with any number of fields", "why_tests_cant": "All combinations of attributes over any number of fields and variants.", "anchors": ["bsn1_serde_macros/src/ser/mod.rs do_serialize", "bsn1_serde_macros/src/de/mod.rs do_deserialize", "bsn1_serde_macros/src/data_container.rs DataContainer"]}
{"id": "C71", "title": "Truncation is told apart from garbage", "statement": "Id, Length, DerRef and BerRef parsing report UnterminatedBytes exactly on the proper prefixes of an encoding, and additionally on input that ends right after a first length octet announcing more than eight octets (which nothing can complete). Every other error is final: it stays the same whatever octets follow. parse_der and parse_ber of any type report UnterminatedBytes on every proper prefix of a value.", "quantifier": "all byte strings, all continuations, all types", "why_tests_cant": "An equivalence over all byte strings and all their continuations.", "anchors": ["bsn1/src/identifier_ref.rs parse_id", "bsn1/src/length.rs parse_length", "bsn1/src/der_ref.rs DerRef::parse", "bsn1/src/ber_ref.rs BerRef::parse", "bsn1_serde/src/lib.rs parse_der", "bsn1_serde/src/lib.rs parse_ber"]}
{"id": "C76", "title": "Readers that fail", "statement": "Whatever a reader does (short reads, failures, interruptions), a value returned by Id::parse, Length::parse, Der::parse or Ber::parse is a valid encoding and exactly the octets consumed. If the reader fails before the value is complete, the error is that failure with its kind; interrupted reads are retried.", "quantifier": "all readers, i.e. all finite sequences of chunks and failures; all builds", "why_tests_cant": "Failures at every position of every value with every chunking.", "anchors": ["bsn1/src/misc.rs read_u8", "bsn1/src/der.rs Der::parse", "bsn1/src/ber.rs Ber::parse", "bsn1/src/identifier.rs Id::parse", "bsn1/src/length.rs Length::parse"]}
{"id": "C74", "title": "Histories of changes to a Der or Ber", "statement": "After any sequence of push, extend_from_slice, truncate, mut_id().set_class, mut_id().set_pc, writes to mut_contents() by index or as a whole slice, a Der or Ber holds exactly the class, primitive/constructed flag, tag number and contents that the sequence describes, with a length that agrees with the contents (or stays indefinite): it equals the value built anew from these parts and, when definite, parses as itself. The sequence panics exactly when an index is out of range or a slice of another length is copied.", "quantifier": "all identifiers, all contents, all finite sequences of the operations whose values fit in isize::MAX octets, definite and indefinite form, all builds, all contents of uninitialised memory", "why_tests_cant": "Identifiers of any length, length octets that grow and shrink, and operations in any order.", "anchors": ["bsn1/src/der_ref.rs DerRef::mut_id, mut_contents, disassemble_mut", "bsn1/src/ber_ref.rs BerRef::mut_id, mut_contents, disassemble_mut", "bsn1/src/identifier_ref.rs IdRef::set_class, set_pc", "bsn1/src/contents_ref.rs IndexMut", "bsn1/src/der.rs push, extend_from_slice, truncate", "bsn1/src/ber.rs push, extend_from_slice, truncate"]}
{"id": "C75", "title": "Conversions of primitive values to Der and Ber", "statement": "From<bool>, From<i8..i128, u8..u128, isize, usize>, From<&str> and From<&[u8]> for Der and for Ber give the same octets, with the universal identifier of the type. Both parsers find them at the start of any longer input, the contents convert back to the value, they equal what to_der and to_ber write, and parse_der and parse_ber give the value back. For integers the octets depend on the number only, not on the type, and different numbers have different octets.", "quantifier": "all values of all these types, all octets following, all builds", "why_tests_cant": "All 128-bit integers, all strings; equality across conversion, serializer and parsers.", "anchors": ["bsn1/src/der.rs impl From for Der", "bsn1/src/ber.rs impl From for Ber", "bsn1/src/der_ref.rs DerRef::boolean"]}
{"id": "C77", "title": "Programs on real memory", "statement": "A program that creates Der, Ber, Id and Contents values (Der::new, from_id_iterator, Ber::new_indefinite, from_id_iterator_indefinite, Id::new, the parsers on any octets, Contents::from, clone; from octets or a Vec known to be an encoding: from_bytes_unchecked, from_vec_unchecked, Contents::from; from another value: Ber::from(Der), to_owned, id().to_owned(), contents().to_owned()), changes them in place (extend_from_slice, truncate, set_number, set_class, set_pc, mut_contents), turns them into vectors (into_vec) and drops them in any order never accesses memory outside of its storage, never reads freed or uninitialised memory, never frees twice and never panics; each value has exactly the octets that the calls describe. Parsers that return an error free what they allocated; when all values are dropped the heap is as before.", "quantifier": "all finite programs whose values and announced lengths fit in isize::MAX octets, all allocators satisfying the contract of GlobalAlloc (including ones that fail), all initial heaps, both Buffer layouts (little endian and universal), all builds", "why_tests_cant": "The unsafe code can be wrong for particular sizes, orders and allocator answers only; leaks and double frees are not visible to tests.", "anchors": ["bsn1/src/buffer/mod.rs Buffer", "bsn1/src/buffer/little_endian/mod.rs", "bsn1/src/buffer/universal_endian/mod.rs", "bsn1/src/der.rs Der", "bsn1/src/ber.rs Ber", "bsn1/src/identifier.rs Id", "bsn1/src/contents.rs Contents"]}
{"id": "C78", "title": "Parsing hostile input on real memory", "statement": "Der::parse, Ber::parse and Id::parse on any input do to memory exactly what their results say (a new value owning its storage, or an error and an unchanged heap), and no input makes them break the contract of the allocator.", "quantifier": "all readers and inputs, all valid allocators, both Buffer layouts, all builds", "why_tests_cant": "The storage depends on announced lengths an attacker chooses, up to 2^64.", "anchors": ["bsn1/src/der.rs Der::parse", "bsn1/src/ber.rs Ber::parse", "bsn1/src/identifier.rs Id::parse", "bsn1/src/buffer/little_endian/mod.rs reserve", "bsn1/src/buffer/universal_endian/mod.rs reserve"]}
{"id": "C79", "title": "No uninitialised octets from safe functions", "statement": "Values made by safe functions have only initialised octets: with_id_length and with_id_length_indefinite give a header followed by contents that are initialised once written, and the parsers fill all octets, whatever the reader does.", "quantifier": "all identifiers, all lengths up to isize::MAX, all readers, both Buffer layouts, all builds", "why_tests_cant": "Uninitialised memory usually reads as some octets; tests cannot see that it was never written.", "anchors": ["bsn1/src/der.rs Der::with_id_length, Der::parse", "bsn1/src/ber.rs Ber::with_id_length, with_id_length_indefinite, Ber::parse"]}
{"id": "C80", "title": "Equality and order of identifiers", "statement": "Two identifiers are equal iff they have the same class, flag and number. Ord is a total order that agrees with equality and with PartialOrd. Identifiers are ordered by class, then primitive/constructed flag, then number.", "quantifier": "all identifiers (laws: all pairs and triples)", "why_tests_cant": "Laws over all triples; the order of numbers fails only for encodings of different sizes.", "anchors": ["bsn1/src/identifier_ref.rs derive on IdRef, impl PartialEq, impl PartialOrd", "bsn1/src/identifier.rs derive on Id, impl PartialEq, impl PartialOrd", "bsn1/src/buffer/mod.rs impl Ord"]}
{"id": "C81", "title": "Length::to_bytes stays within its stack buffer", "statement": "For every length, to_bytes writes its octets through pointers only within the 9-octet array of LengthBuffer, reads only within the usize, no assertion fails, and the octets are the shortest X.690 encoding.", "quantifier": "all 2^64 definite lengths and the indefinite length, all builds", "why_tests_cant": "2^64 values; an out-of-bounds write of the stack need not be noticed.", "anchors": ["bsn1/src/length.rs Length::to_bytes", "bsn1/src/length_buffer.rs LengthBuffer"]}
{"id": "C82", "title": "Memory asked for is bounded by the input", "statement": "Der::parse, Ber::parse, Id::parse, Der::new and Der::with_id_length never ask the allocator for a block larger than the octets they have or return, so that a short input cannot exhaust memory and end the process.", "quantifier": "all readers and inputs, all allocators and heaps, both layouts of the buffer, both builds", "why_tests_cant": "Tests run with an allocator that grants what is asked; a bound on every request of every input is not observable from return values.", "anchors": ["bsn1/src/der.rs Der::parse, Der::new, Der::with_id_length", "bsn1/src/ber.rs Ber::parse, Ber::do_parse", "bsn1/src/identifier.rs Id::parse", "bsn1/src/buffer/little_endian/mod.rs reserve", "bsn1/src/buffer/universal_endian/mod.rs reserve"]}
{"id": "C83", "title": "Recursive types are encoded and decoded consistently at every depth", "statement": "For a recursive type such as struct Tree { val: i32, children: Vec<Tree> } the derived to_der writes one encoding for each value, decoding ends on every input with a result that does not depend on how deep the declaration is unfolded beyond the length of the input, and from_der and from_ber restore every value from its encoding.", "quantifier": "all recursive declarations built from the supported types, all values of any depth, all inputs, both builds", "why_tests_cant": "Values of a recursive type have unbounded depth; termination and agreement at all depths need induction.", "anchors": ["bsn1_serde_macros/src/data_container.rs write_der_contents, der_contents_len, from_der_contents, from_ber_contents", "bsn1_serde/src/de/mod.rs DeserializeHelper::der_to_val, ber_to_val", "bsn1_serde/src/lib.rs to_der, parse_der, parse_ber"]}
{"id": "C84", "title": "Decoding nests calls to a bounded depth", "statement": "from_der and from_ber into a recursive type nest calls only to a depth that does not depend on the input, so that hostile input cannot overflow the stack.", "quantifier": "all inputs, all depths", "why_tests_cant": "A bound on all inputs; a test that overflows the stack ends the test process, and smaller inputs show nothing.", "anchors": ["bsn1_serde/src/de/mod.rs Deserialize for Vec<T>, DeserializeHelper::der_to_val, ber_to_val", "bsn1_serde_macros/src/data_container.rs from_der_contents, from_ber_contents", "bsn1_serde/src/lib.rs from_der, from_ber"]}
{"id": "C85", "title": "Equality, order and hash do not depend on how a value is stored", "statement": "Two owned values are equal, ordered and hashed by their octets only, whether stored inline or on the heap and with whatever capacity; owned and borrowed forms of the same octets give the same hash, equality and order, so that a HashMap<Der, _> or BTreeMap<Id, _> can be searched by reference. Equal lengths hash alike, and different ones feed the hasher differently.", "quantifier": "all histories of buffer operations, both layouts, all values, all maps", "why_tests_cant": "The stored form depends on the whole history of a buffer; tests compare freshly made values.", "anchors": ["bsn1/src/buffer/mod.rs Hash, PartialEq, PartialOrd, Ord for Buffer", "bsn1/src/identifier.rs Id, bsn1/src/der.rs Der, bsn1/src/ber.rs Ber, bsn1/src/contents.rs Contents (derives, Borrow)", "bsn1/src/identifier_ref.rs IdRef, bsn1/src/der_ref.rs DerRef, bsn1/src/ber_ref.rs BerRef, bsn1/src/contents_ref.rs ContentsRef (derives)", "bsn1/src/length.rs Length (derive Hash)"]}
{"id": "C86", "title": "A derived enum serializer binds each field to its own variable", "statement": "For every enum variant the language accepts, derive(Serialize) produces a match arm that compiles, in which the variable used for a field holds the value of that field and shadows nothing.", "quantifier": "all variants with any number of fields and any field names, all values", "why_tests_cant": "The names are chosen by users; tests hold a few of them, none with a raw identifier.", "anchors": ["bsn1_serde_macros/src/data_container.rs to_match_arm, field_idents, field_vars", "bsn1_serde_macros/src/ser/mod.rs do_serialize, do_serialize_enum"]}
{"id": "C87", "title": "A derived impl covers the declared type at all its parameters", "statement": "The impl generated for a generic type declares each of its lifetime, type and const parameters in order, with its bounds and without its default, and applies the type to exactly these.", "quantifier": "all lists of generic parameters", "why_tests_cant": "Lists of parameters are unbounded; tests hold a few.", "anchors": ["bsn1_serde_macros/src/generics.rs ident_bounds, idents", "bsn1_serde_macros/src/ser/mod.rs do_serialize, do_serialize_enum", "bsn1_serde_macros/src/de/mod.rs do_deserialize"]}
{"id": "C88", "title": "Text and octet strings convert without loss", "statement": "A String is decoded from, and String::try_from(OctetString) succeeds on, exactly the octets that RFC 3629 assigns to some code points, and gives those code points; otherwise the octets are given back, or Error::InvalidUtf8 is returned. Text or octets sent as an OctetString through to_der/to_ber arrive unchanged at parse_der/parse_ber. Two OctetStrings with the same octets cannot be told apart, whatever they were made of and whether they borrow or own; their equality, order and hash are those of the octets, and for text the order is that of the code points.", "quantifier": "all octets, all strings, all octet strings, any input behind the value, both builds", "why_tests_cant": "Octet sequences are unbounded and most boundaries of UTF-8 are where a table entry ends; a test holds a few.", "anchors": ["bsn1_serde/src/octet_string.rs OctetString", "bsn1_serde/src/de/mod.rs Deserialize for String", "bsn1_serde/src/ser/mod.rs Serialize for String"]}
{"id": "C89", "title": "The error reported is that of the first fault", "statement": "parse_der and parse_ber fail with an error exactly if the octets start with no value, and then the error tells why (cut off, redundant identifier or length octets, length too large, indefinite length in DER), or the value at the start is not one of the type, and then the error is that of the first part, in the order of the octets, that is not what the type expects there: mismatched identifier, bad contents, missing or extra parts, failed conversion. Errors of parts get one context per enclosing collection, pair, field or transparent struct; those of the value itself are reported as they are. Every value either denotes something of the type or has exactly one such fault.", "quantifier": "all byte strings, all supported types nested to any depth, all conversions, debug and release builds", "why_tests_cant": "Tests check single faults; which of several faults is reported, and that no other input gives an error, ranges over all inputs and types.", "anchors": ["bsn1_serde/src/de/mod.rs Deserialize", "bsn1_serde_macros/src/data_container.rs from_der_contents", "bsn1_serde_macros/src/data_container.rs from_ber_contents", "bsn1/src/der_ref.rs DerRef::parse", "bsn1/src/ber_ref.rs BerRef::parse", "bsn1_serde/src/lib.rs parse_der", "bsn1_serde/src/lib.rs parse_ber"]}
{"id": "C90", "title": "Safe implementations of Serialize cannot break memory", "statement": "Serialize is a safe trait, so an implementation may announce a length that is not that of the octets it writes, and write octets that are no identifier. Whatever it does, to_der and to_ber themselves do not cause undefined behaviour or leak, and the value they return can be used through its public methods (id, length, contents, disassemble, push, extend_from_slice, truncate) without undefined behaviour.", "quantifier": "all implementations of Serialize, all octets and announced lengths, both buffer layouts, all allocators, debug and release builds", "why_tests_cant": "Tests use correct implementations; undefined behaviour shows in no assertion and depends on capacities and builds.", "anchors": ["bsn1_serde/src/lib.rs to_der", "bsn1_serde/src/lib.rs to_ber", "bsn1/src/der.rs From<Buffer> for Der", "bsn1/src/der.rs Der::extend_from_slice", "bsn1/src/der.rs Der::truncate", "bsn1/src/ber.rs Ber::extend_from_slice", "bsn1/src/ber.rs Ber::truncate", "bsn1/src/identifier_ref.rs parse_id_unchecked", "bsn1/src/length.rs parse_length_unchecked"]}
{"id": "C91", "title": "Safe iterators cannot break memory", "statement": "from_id_iterator of Der and Ber is safe and takes any iterator that is Clone with items that are AsRef<[u8]>. Whatever the iterator, its clone and its items give, the call causes no undefined behaviour, and the value it returns has the length in its header that its contents have, so that it can be parsed again and used through its public methods without undefined behaviour.", "quantifier": "all iterators (all octets given by the clone and by the iterator itself), all identifiers, both buffer layouts, all allocators, debug and release builds", "why_tests_cant": "Tests use iterators over slices, whose clones agree with them; undefined behaviour shows in no assertion and depends on capacities.", "anchors": ["bsn1/src/der.rs Der::from_id_iterator", "bsn1/src/ber.rs Ber::from_id_iterator", "bsn1/src/ber.rs Ber::from_id_iterator_indefinite", "bsn1/src/buffer/little_endian/mod.rs Buffer::extend_from_slice", "bsn1/src/buffer/universal_endian/mod.rs Buffer::extend_from_slice"]}
{"id": "C92", "title": "Decoding looks at each octet a bounded number of times", "statement": "Decoding with from_der, parse_der, from_ber or parse_ber looks at no more octets, counting each time an octet of a header or of the contents of a primitive value is gone over, than a fixed multiple of the length of the input, whatever the type (also a recursive one) and whether or not it succeeds: input from a stranger cannot cause work out of proportion to its length.", "quantifier": "all byte strings, all supported types nested to any depth, all unfoldings of recursive types, debug and release builds", "why_tests_cant": "Tests measure chosen inputs; a bound for all inputs and nestings, or its absence, shows in no single run.", "anchors": ["bsn1/src/ber_ref.rs BerRef::parse", "bsn1/src/ber_ref.rs BerRef::do_parse", "bsn1/src/der_ref.rs DerRef::parse", "bsn1_serde/src/de/mod.rs DeserializeHelper", "bsn1_serde_macros/src/data_container.rs from_ber_contents", "bsn1_serde_macros/src/data_container.rs from_der_contents", "bsn1_serde/src/lib.rs parse_ber", "bsn1_serde/src/lib.rs parse_der"]}
{"id": "C93", "title": "Encoding calls each conversion a fixed number of times", "statement": "to_der and write_der call the user's conversions (into, to) exactly once for each field that has one and exactly twice for each value of a type that has one or of a transparent struct around such a field, however deep the values are nested, in whatever collections, and whether or not sizes are known in advance; der_contents_len never calls them. So conversions with side effects or of great cost are not repeated with depth.", "quantifier": "all supported types nested to any depth, all values that can be encoded, debug and release builds", "why_tests_cant": "The tests have conversions at depth one and do not count calls; buffering of unknown sizes could repeat them at each level.", "anchors": ["bsn1_serde/src/lib.rs to_der", "bsn1_serde/src/lib.rs write_der", "bsn1_serde/src/ser/mod.rs BTreeMap::write_der_contents", "bsn1_serde_macros/src/data_container.rs write_der_contents", "bsn1_serde_macros/src/data_container.rs write_id_transparent", "bsn1_serde_macros/src/ser/mod.rs do_into_serialize"]}
{"id": "C94", "title": "Encoding computes each size a bounded number of times", "statement": "The number of calls of der_contents_len made by to_der or write_der is at most a fixed multiple of the number of values encoded, and so of the length of the encoding, whatever the type (also a recursive one): a deeply nested value does not take work out of proportion.", "quantifier": "all supported types nested to any depth, all unfoldings of recursive types, all values, debug and release builds", "why_tests_cant": "Tests measure chosen values; a bound for all values and nestings, or its absence, shows in no single run.", "anchors": ["bsn1_serde/src/lib.rs to_der", "bsn1_serde/src/lib.rs write_der", "bsn1_serde/src/ser/mod.rs der_len", "bsn1_serde/src/ser/mod.rs der_contents_len", "bsn1_serde_macros/src/data_container.rs der_contents_len"]}
{"id": "C95", "title": "The same octets mean the same on targets of other word sizes", "statement": "On 16-, 32- and 64-bit targets alike, Length, DerRef::parse, BerRef::parse, Der::parse, Ber::parse and Der::new accept and produce the same octets with the same meaning, as far as the value is not longer than isize::MAX of the target; what one target writes another one where it fits reads back as the same parts. A length the target's usize cannot hold is refused with OverFlow (never taken modulo the word size), one that it can hold but not allocate makes the readers panic. Two targets never return different values for the same octets, and their errors differ at most in OverFlow versus UnterminatedBytes. isize and usize have the same contents octets everywhere, read back as the same number or as OverFlow.", "quantifier": "word sizes of 2, 4 and 8 octets, all byte strings, all lawful readers and their states, all identifiers, contents and integers, debug and release builds", "why_tests_cant": "The tests run on one target, and lengths near the limits of the others do not fit in a test.", "anchors": ["bsn1/src/length.rs parse_length", "bsn1/src/length.rs parse_length_unchecked", "bsn1/src/length.rs Length::to_bytes", "bsn1/src/length.rs Length::len", "bsn1/src/length_buffer.rs LengthBuffer", "bsn1/src/der_ref.rs DerRef::parse", "bsn1/src/ber_ref.rs BerRef::parse", "bsn1/src/der.rs Der::new", "bsn1/src/der.rs Der::parse", "bsn1/src/ber.rs Ber::parse", "bsn1/src/contents.rs Contents::from_integer", "bsn1/src/contents_ref.rs ContentsRef::to_integer"]}
{"id": "C96", "title": "Values call the allocator seldom while they grow", "statement": "Building a value calls the allocator once, or not at all if it fits in the buffer itself (23 octets, 16 in the layout for big-endian targets); Der::truncate and Ber::truncate never call it; extend_from_slice calls it just when the value becomes longer than it ever was and than the buffer; Der::parse calls it at most once if the header fits in the buffer; to_der calls it at most once if the sizes given by id_len and der_contents_len are right; input that is rejected or cut off costs at most one call more than the octets taken beyond the buffer; over many calls the number stays small compared to the octets appended or read.", "quantifier": "all identifiers and contents, all histories of appends and cuts, all values of DER and BER read from a slice with anything after them, all input and all readers for the bound, all implementations of Serialize, all allocators, both layouts of Buffer, debug and release builds", "why_tests_cant": "Tests see octets, not calls of the allocator, and a test with some number of appends does not show how the number grows.", "anchors": ["bsn1/src/buffer/little_endian/mod.rs Buffer::reserve", "bsn1/src/buffer/universal_endian/mod.rs Buffer::reserve", "bsn1/src/buffer/mod.rs Write for Buffer", "bsn1/src/der.rs Der::new", "bsn1/src/der.rs Der::extend_from_slice", "bsn1/src/der.rs Der::truncate", "bsn1/src/der.rs Der::parse", "bsn1/src/ber.rs Ber::new_indefinite", "bsn1/src/ber.rs Ber::extend_from_slice", "bsn1/src/ber.rs Ber::truncate", "bsn1/src/ber.rs Ber::parse", "bsn1_serde/src/lib.rs to_der"]}
{"id": "C97", "title": "Identifiers with a name", "statement": "IdRef::eoc, boolean, integer, octet_string(_constructed), null, real, utf8_string(_constructed), sequence and set give the identifier of that universal type in X.680 and of the form X.690 prescribes: Id::new(class, pc, n) is equal to it iff class is Universal and pc and n are those of the type. IdRef::parse gives it exactly from input that starts with it, and no two of them are equal.", "quantifier": "all named identifiers, all classes, forms and tag numbers in u128, any input", "why_tests_cant": "That nothing else is equal to a named identifier is a statement about 2^128 numbers and any input.", "anchors": ["bsn1/src/identifier_ref.rs IdRef::eoc, boolean, integer, octet_string, octet_string_constructed, null, real, utf8_string, utf8_string_constructed, sequence, set"]}
{"id": "C98", "title": "Buffers in several threads", "statement": "Buffer is Send and Sync. Let some buffers be shared between threads by reference and the others be given to one thread each; each thread keeps the rules of the functions it calls on what it has, and reads or clones what is shared. Then, however the accesses of the threads to memory interleave and whatever the allocator answers, there is no data race, no undefined behaviour and no panic; each thread that gets its turn finishes, with the result and the contents it would have got alone with ordinary vectors; and after joining no block is lost, shared by two owners, or freed twice.", "quantifier": "both layouts and builds, any state programs get to (also by earlier threads), any distribution of the buffers, any number of threads with any code, any allocator within its contract, any schedule of single accesses", "why_tests_cant": "A data race depends on the schedule; tests see a few of the astronomically many interleavings, and none of those an allocator could cause by reusing addresses.", "anchors": ["bsn1/src/buffer/little_endian/mod.rs Send, Sync, drop, clone, reserve, as_slice", "bsn1/src/buffer/universal_endian/mod.rs Send, Sync, HeapBuffer, drop, clone, reserve, as_slice"]}
{"id": "C99", "title": "A panic leaves no trace in memory", "statement": "Let a reader, an iterator or a Serialize implementation of the caller panic at any moment inside Der::parse, Ber::parse, Id::parse, from_id_iterator, from_id_iterator_indefinite, to_der or to_ber, or let one of these, a constructor, extend_from_slice, truncate, set_number, reserve or write panic because a size is too large. When the panic has passed, every block of memory is as before the call: nothing is leaked and nothing freed twice; and a value behind &mut is as it was. A program that catches panics and goes on has the values it would have without the calls that panicked, and its further calls work.", "quantifier": "both layouts and builds, any allocator within its contract, any arguments, any reader (also one that lies or fails), any iterator (also one that differs from its clone), any Serialize implementation, a panic at any of their calls; any program, any sequence of calls and caught panics", "why_tests_cant": "A test makes the caller's code panic at a chosen moment; a half updated struct is only noticed at the moment nobody chose, and a double free or leak need not be visible in a test at all.", "anchors": ["bsn1/src/der.rs parse, from_id_iterator, with_id_length, extend_from_slice, truncate", "bsn1/src/ber.rs parse, do_parse, from_id_iterator_indefinite, extend_from_slice, truncate", "bsn1/src/identifier.rs Id::parse, set_number", "bsn1/src/buffer/little_endian/mod.rs reserve, push, drop", "bsn1/src/buffer/universal_endian/mod.rs reserve, realloc, drop", "bsn1_serde/src/lib.rs to_der"]}
{"id": "C100", "title": "Conversions hand the storage over", "statement": "Der::from_vec_unchecked, Ber::from_vec_unchecked, Contents::from(Vec), Ber::from(Der) and into_vec, chained in any number, copy nothing and do not call the allocator if the value is on the heap (or the Vec has a block): they cannot fail, memory is exactly as before and the result owns the very same block; the octets are kept. For a value that is stored inline the whole chain calls the allocator at most once, only if into_vec is among the calls, for exactly the octets of the value. clone, to_owned, id().to_owned() and contents().to_owned() call it once if the copy has more than 23 octets (16 in the universal layout), for exactly its length, and otherwise not at all; no other block changes.", "quantifier": "all programs as in C77 and all values they reach, all chains of conversions, all allocators within their contract, both layouts and builds", "why_tests_cant": "Tests compare octets; a conversion that copies, reallocates, shrinks or leaks is invisible to them, and whether the same block is passed on depends on how the value got its storage.", "anchors": ["bsn1/src/der.rs from_vec_unchecked, into_vec, from_bytes_unchecked", "bsn1/src/ber.rs from_vec_unchecked, into_vec, From<Der>, from_bytes_unchecked", "bsn1/src/contents.rs From<Vec<u8>>, into_vec", "bsn1/src/identifier.rs into_vec, from_bytes_unchecked", "bsn1/src/der_ref.rs to_owned", "bsn1/src/buffer/little_endian/mod.rs From<Vec<u8>>, From<&[u8]>, into_vec, clone", "bsn1/src/buffer/universal_endian/mod.rs From<Vec<u8>>, From<&[u8]>, into_vec, clone"]}
{"id": "C101", "title": "The pointers obey the aliasing rules", "statement": "No sequence of calls on a buffer (push, extend, index, reserve, set_len), or on the Der, Ber, Id or Contents around it (extend_from_slice, truncate, with_id_length, mut_id, mut_contents, set_class, conversion of integers), and no use of the references that parse_mut returns breaks the aliasing rules of the language, be it Stacked Borrows or Tree Borrows. (Found violated; the exact set of calls that do is proved, for both layouts, both builds and both versions of the rules.)", "quantifier": "all sequences of calls with all sizes, both layouts, debug and release, both versions of the rules, every octet of memory; for parse_mut all sequences of reads and writes through the two references", "why_tests_cant": "Undefined behaviour by aliasing has no effect until a compiler makes use of it; an interpreter that checks the rules sees single runs, and the answer depends on the layout, on whether the buffer is inline or on the heap and on what was called before.", "anchors": ["bsn1/src/buffer/little_endian/mod.rs as_ptr, as_mut_ptr, set_len, reserve, as_slice, as_mut_slice, push, extend_from_slice", "bsn1/src/buffer/universal_endian/mod.rs as_ptr, as_mut_ptr, set_len, reserve, as_slice, as_mut_slice, push, extend_from_slice", "bsn1/src/der.rs extend_from_slice, truncate, with_id_length", "bsn1/src/ber.rs extend_from_slice, with_id_length_indefinite", "bsn1/src/der_ref.rs disassemble_mut, mut_id, mut_contents, parse_mut", "bsn1/src/ber_ref.rs disassemble_mut, parse_mut", "bsn1/src/identifier_ref.rs set_class, set_pc, parse_mut", "bsn1/src/contents.rs from_positive, from_negative"]}
{"id": "C102", "title": "Parsing from a stream waits only for octets that matter", "statement": "Reading from a stream, Id::parse, Length::parse, Der::parse, Ber::parse, read_der and read_ber ask the reader for more only while what has come can still become a value: exactly while the octets so far are the beginning of an encoding, or end with a length octet announcing more than eight octets (Ber), or are the beginning of a header or a whole one (Der, which therefore asks once more after a value with empty contents, and only once for contents). A whole value is returned with its last octet, the reader right behind it, whatever comes next; a failure of the reader that lies behind it is not seen. A stream without end keeps Id::parse and Der::parse waiting if and only if it is one identifier that never ends; there is one of well-formed headers that keeps Ber::parse waiting for ever.", "quantifier": "all octets, cut in pieces of any sizes; all later answers of the reader; all types with Deserialize for read_ber and read_der; all infinite streams; debug and release", "why_tests_cant": "That a function does not ask for one octet too many, whatever has come before and whatever would come next, is about all prefixes of all streams; a test that waits for ever shows nothing, and one on a finite slice cannot tell waiting from the end.", "anchors": ["bsn1/src/identifier.rs Id::parse", "bsn1/src/identifier_ref.rs parse_id", "bsn1/src/length.rs Length::parse, parse_length", "bsn1/src/der.rs Der::parse", "bsn1/src/ber.rs Ber::parse, do_parse", "bsn1/src/misc.rs read_u8", "bsn1_serde/src/lib.rs read_ber, read_der"]}
{"id": "C103", "title": "The result of parsing from a reader that gives any answers", "statement": "Whatever a reader answers (octets in any pieces, failures of any kind any number of times, the count zero before its last octets), Id::parse, Length::parse, Ber::parse and read_ber give the result for the octets it delivers, valid or not, unless a failure or the end comes while octets are awaited: then the first such answer is reported, as that I/O error or as the end, and the reader is left right behind it. Only interruptions within the contents of a value of definite length are passed over (by Ber::parse and read_ber). Der::parse and read_der do the same within the header; after it one read, with room for all contents, decides.", "quantifier": "all finite sequences of answers, all octets (also invalid ones), all types with Deserialize, debug and release", "why_tests_cant": "The answers can be interleaved with the octets at every position and in every number; a mock reader tries a few. That nothing but the first disturbing answer matters is a statement about all of them.", "anchors": ["bsn1/src/misc.rs read_u8", "bsn1/src/identifier.rs Id::parse", "bsn1/src/length.rs Length::parse", "bsn1/src/der.rs Der::parse", "bsn1/src/ber.rs Ber::parse, do_parse", "bsn1_serde/src/lib.rs read_ber, read_der"]}
{"id": "C104", "title": "Values that follow one another in a stream are read one by one", "statement": "If BER (DER) values follow one another, as many calls of Ber::parse (Der::parse) as there are values return them in order and leave the reader right behind the last, and only then do all these calls succeed. read_ber and read_der give for each value what from_ber and from_der give, value or error; a value that does not decode does not disturb the ones after it. Values written one after another with write_der are read back. For Ber::parse and read_ber the reader may deliver its octets in any pieces. A stream that ends after a value is told from one that breaks off within the next.", "quantifier": "all sequences of values, all types (a different one for each value), all octets that follow, all pieces", "why_tests_cant": "The number of values, the types and the ways a stream is cut into pieces are unbounded; a fault in the position after one value shows only in the next.", "anchors": ["bsn1/src/der.rs Der::parse", "bsn1/src/ber.rs Ber::parse", "bsn1_serde/src/lib.rs read_der, read_ber, write_der"]}
{"id": "C105", "title": "Decoding BER and encoding again gives a normal form", "statement": "For types that are restored exactly, to_der of what from_ber gives is DER that from_der and from_ber both take back to the same value, and doing it again changes nothing. Two BER spellings have the same normal form exactly if they are spellings of the same value. For types whose values have only one encoding, from_der accepts exactly the values that this does not change.", "quantifier": "all such types, all BER values that decode, debug and release, all orders of hashing", "why_tests_cant": "The spellings of one value are infinitely many, and the claim is about all pairs of them and all types.", "anchors": ["bsn1_serde/src/lib.rs from_ber, from_der, to_der", "bsn1_serde/src/de/mod.rs", "bsn1_serde/src/ser/mod.rs"]}
{"id": "C106", "title": "Names in a declaration keep their meaning in the generated code", "statement": "A type in into, from or try_from, a function in to or default, the struct itself and the names of the prelude stand for the same in the code that derive generates as where they are written, and a generic parameter of any name may be declared. Exactly: no type in into may begin with W, no function in to may be buffer, begin with W:: or be a variable of the pattern, no function in default may be a variable of from_ber or from_der, no parameter may be called W for Serialize, and the user may not have a Some or Default of their own where these are used.", "quantifier": "all declarations of structs and enums, all paths in their attributes, all names that the user has in scope", "why_tests_cant": "Names and declarations are arbitrary; a test compiles a few declarations with names that happen not to collide.", "anchors": ["bsn1_serde_macros/src/ser/mod.rs do_into_serialize, do_to_serialize, do_serialize_struct, do_serialize_enum", "bsn1_serde_macros/src/de/mod.rs", "bsn1_serde_macros/src/data_container.rs write_der_contents, der_contents_len, from_ber_contents, from_ber_transparent", "bsn1_serde_macros/src/attribute.rs default_path"]}
{"id": "C107", "title": "Documents of values inside of values are built and taken apart without loss", "statement": "A program that builds values from the inside to the outside with Ber::new and Ber::new_indefinite (as the example of new_indefinite does) gets exactly the octets of X.690, and a program that takes octets apart with BerRef::parse at every level gets the same tree back; it accepts exactly the octets of documents whose constructed values hold whole documents and whose primitive values are leaves, two different documents never have the same octets, and other input gives an error and no panic. The same holds for Der::new and DerRef::parse for documents without indefinite lengths. Rebuilding a parsed BER document with Der::new gives DER of at most three times the length which reads back as the same tree with definite lengths.", "quantifier": "for every document (any depth, any width, any mix of definite and indefinite lengths, any identifiers and contents) whose octets fit into isize::MAX; for every octet sequence of that size; for every build profile and every earlier content of the memory", "why_tests_cant": "Tests nest one or two levels; the claim is an induction over all trees, and the converse direction (everything that is accepted is the encoding of exactly one tree) and the length bound range over all inputs.", "anchors": ["bsn1/src/ber.rs: Ber::new, Ber::new_indefinite", "bsn1/src/ber_ref.rs: BerRef::parse, BerRef::disassemble", "bsn1/src/der.rs: Der::new", "bsn1/src/der_ref.rs: DerRef::parse, DerRef::disassemble", "bsn1/src/identifier_ref.rs: IdRef::is_primitive"]}
{"id": "C108", "title": "What is serialized is a document to the innermost level, and types with the same trees are interchangeable", "statement": "Whoever takes the octets of to_der apart at every level with DerRef::parse or BerRef::parse, without knowing the type, meets no error and sees the tree of the value: collections, pairs, structs and variants are nodes with one child for each element or encoded field in order, booleans, integers and strings are leaves; a struct or variant with a primitive identifier is a leaf with its fields' octets. Data written as one type is read as another type by from_der exactly when the other type has a value with the same tree, and then gives that value (for instance Vec<u8> of two elements and a struct of an i16 and a u64).", "quantifier": "for every type built from the supported ones by collections and derives with any attributes, every value whose encoding fits into isize::MAX, every build profile; for the second part every pair of types, the type read being one whose values have one encoding each", "why_tests_cant": "Tests decode with the type they encoded with; that the octets make sense at every level to a reader without the type, and the exact relation between two different types, range over all types and values.", "anchors": ["bsn1_serde/src/lib.rs: to_der, from_der", "bsn1_serde/src/ser/mod.rs: Serialize impls", "bsn1_serde_macros/src/ser/mod.rs", "bsn1/src/der_ref.rs: DerRef::parse", "bsn1/src/ber_ref.rs: BerRef::parse"]}
{"id": "C109", "title": "The octets of to_der obey the rules of DER at every level", "statement": "What to_der writes is DER by X.690 not only in its outermost length: taken apart at every level, all lengths are definite, each BOOLEAN is 00 or FF, each INTEGER is shortest, each UTF8String is valid UTF-8, no string is constructed, no SEQUENCE or SET primitive, and the elements of each SET OF are in ascending order of their encodings (11.6), the components of a SET in the order of tags (10.3).", "quantifier": "for every type built from the supported ones by collections and derives whose own identifiers are SEQUENCE or not universal, every value whose encoding fits into isize::MAX, every build profile", "why_tests_cant": "Tests compare a few encodings; the order in which a HashSet is iterated differs from run to run, so a test sees it right or wrong by chance, and the rules have to hold at every level of every value.", "anchors": ["bsn1_serde/src/lib.rs: to_der", "bsn1_serde/src/ser/mod.rs: Serialize for HashSet, HashMap", "bsn1_serde_macros/src/attribute.rs: parse_id_value", "bsn1_serde_macros/src/ser/mod.rs"]}
{"id": "C110", "title": "The messages of a deserialization error lead to the fault", "statement": "When from_der, parse_der, from_ber or parse_ber rejects octets, the messages of the error, read from the outermost inwards, name the field, the number of the element, key or value, and so on down to the first part that is not what the type has there, and the cause is what is wrong at that place. No two different ways to a fault give the same messages. A report made from the error shows all of this: with {:#}, with into_anyhow(), and with ? in a function that returns anyhow::Result.", "quantifier": "for every type built from the supported ones by collections and derives, every octet string, every build profile, every naming of types and fields without back quotes", "why_tests_cant": "Tests compare the kind of an error with a few inputs and never look at the messages; an index that is off by one, or the message of the key at the value, shows up only for faults at certain places of certain shapes of types, of which there are infinitely many.", "anchors": ["bsn1/src/lib.rs: Display for Error, std::error::Error for Error, Error::context, Error::into_anyhow", "bsn1_serde/src/de/mod.rs: DeserializeHelper::der_to_val, ber_to_val, der_to_key_val, ber_to_key_val", "bsn1_serde_macros/src/data_container.rs: from_ber_contents, from_ber_transparent, from_der_contents, from_der_transparent", "bsn1_serde_macros/src/de/mod.rs: do_try_from_deserialize"]}
{"id": "C111", "title": "Safe functions call Deserialize::from_ber only as its contract allows", "statement": "A user's own implementation of the unsafe method Deserialize::from_ber may rely on its contract: whenever a safe function of the crate (from_ber, from_der, parse_ber, parse_der, read_ber, read_der) calls it, directly or through collections and derived types around it, the three arguments are the identifier, the length and the contents of one BER value: a definite length is the number of octets of the contents, and with an indefinite length the contents are BER values followed by end-of-contents. As documented, an indefinite length moreover comes only with an identifier that allows it.", "quantifier": "for every implementation, every collection, struct and enum around it at any depth, every octet string and reader, every build profile", "why_tests_cant": "The contract is about all calls made from generated and library code; a test observes results of a few types of the crate itself, which ignore most of the contract, and undefined behaviour in a user's implementation need not show up at all.", "anchors": ["bsn1_serde/src/de/mod.rs: Deserialize::from_ber, DeserializeHelper::ber_to_val, DeserializeHelper::ber_to_key_val", "bsn1_serde/src/lib.rs: from_ber, parse_ber, read_ber", "bsn1_serde_macros/src/data_container.rs: from_ber_contents, from_ber_transparent", "bsn1/src/ber_ref.rs: BerRef::parse"]}
{"id": "C112", "title": "Changes of a declaration that keep old encodings readable", "statement": "When a program's type is changed by any combination, at any depth, of: a new enum variant (with an identifier none of the later old variants has), a wider integer type, another kind of sequence, a skipped field added, removed or changed, a transparent wrapper put on or taken off, changed conversions that agree with the change, then (1) everything the old program could read (from octets, slices or readers, DER and BER) the new one reads as a value of the same meaning, leaving the same rest, (2) the new program can write all the octets the old one could, and (3) the old program reads from the new program's output exactly the values that mean some value of the old type, and reports an error for all others. Conversely adding or removing a field that is not skipped is never such a change (nothing is accepted by both), and a variant inserted before one that is read from the same identifier takes its values.", "quantifier": "for all pairs of types related by such changes, all octet strings and readers, all values, every build profile and order of hashed collections", "why_tests_cant": "Compatibility is a statement about pairs of programs and all their stored data; tests exercise one version of a type and a few encodings, and cannot cover all combinations of changes at all depths.", "anchors": ["bsn1_serde_macros/src/data_container.rs: from_ber_contents, from_der_contents, from_ber_transparent, from_der_transparent", "bsn1_serde_macros/src/de/mod.rs: do_deserialize_struct, do_deserialize_enum", "bsn1_serde/src/de/mod.rs: impl Deserialize for Vec, LinkedList, VecDeque, BTreeSet, BTreeMap, HashSet, HashMap", "bsn1_serde/src/lib.rs: from_ber, from_der, parse_ber, parse_der, read_ber, read_der, to_der"]}
{"id": "C113", "title": "A value inside a document is found and changed in place, and nothing else changes", "statement": "A program that searches with parse_mut and mut_contents, level by level, for the value at a path of indices in the octets of nested values finds exactly that value; what it does there leaves all octets before and behind as they were, and panics or fails exactly if the operation on that value does. After mut_id().set_class / set_pc, mut_contents()[i] = b or mut_contents().as_mut().copy_from_slice(s) the octets are read again, by parse at every level, to the same nested values with that one changed as described and no other.", "quantifier": "for all nested values of definite and indefinite lengths, all paths, all operations and arguments, BER and DER", "why_tests_cant": "A change of one octet can shift where every enclosing and following value ends; tests change the outermost value of one or two samples, not values at every depth inside every document.", "anchors": ["bsn1/src/ber_ref.rs: BerRef::parse_mut, BerRef::mut_id, BerRef::mut_contents, BerRef::disassemble_mut", "bsn1/src/der_ref.rs: DerRef::parse_mut, DerRef::mut_id, DerRef::mut_contents, DerRef::disassemble_mut", "bsn1/src/identifier_ref.rs: IdRef::set_class, IdRef::set_pc"]}
{"id": "C114", "title": "A value of indefinite length with contents that break the rule works, but its octets may be read as another value", "statement": "Ber::new_indefinite and the methods that change contents take any octets. The value then still answers with its identifier, the indefinite length and the contents a plain vector would have after the same history. Its octets, followed by any octets, are parsed to the identifier, the length and the octets up to the end-of-contents that ends the value, wherever that is: they come back whole if and only if the contents are values followed by one end-of-contents, and 'can not be parsed as a BER again' if and only if no beginning of the contents is. Adding to a value that keeps the rule is never noticed by parse, cutting it always is.", "quantifier": "for all identifiers, contents, histories of push / extend_from_slice / truncate, and octets that follow", "why_tests_cant": "The example in the documentation uses one run of octets that breaks the rule and never parses it; where the parser stops depends on the nesting of all the values in the contents and in the octets behind.", "anchors": ["bsn1/src/ber.rs: Ber (Warnings), Ber::new_indefinite, Ber::push, Ber::extend_from_slice, Ber::truncate", "bsn1/src/ber_ref.rs: BerRef (Warnings), BerRef::parse"]}
{"id": "C115", "title": "The serde layer works the same on 16-, 32- and 64-bit targets, and programs on different targets understand each other", "statement": "On a target of any word size, to_der, to_ber, write_der and write_ber give a value the octets they give it on 64 bits, if these fit into memory. parse_der and parse_ber accept the same octets as on 64 bits with isize and usize replaced by the integer types of the target's size, and return the same value, rest and error (but OverFlow for UnterminatedBytes when a header announces more than a usize holds); read_der and read_ber return a value exactly if it also fits the memory of the target. So what one target encodes is restored on another whenever the value exists there; a number too large for usize there is refused and never cut. A sequence whose encoding does not fit is refused and never written with a wrong length.", "quantifier": "for all supported types, values, octets, readers, builds and pairs of targets", "why_tests_cant": "Tests run on one word size; the sums of sizes overflow on 32 bits only with gigabytes of data, and on 64 bits never.", "anchors": ["bsn1_serde/src/lib.rs: to_der, to_ber, write_der, write_ber, from_ber, from_der, parse_ber, parse_der, read_ber, read_der", "bsn1_serde/src/ser/mod.rs: der_len, der_contents_len, Serialize", "bsn1_serde/src/de/mod.rs: Deserialize, DeserializeHelper", "bsn1_serde_macros/src/ser/mod.rs, bsn1_serde_macros/src/de/mod.rs, bsn1_serde_macros/src/data_container.rs"]}
{"id": "C116", "title": "Several edits of a document in place add up, do not disturb other values, and may be done in any order", "statement": "A program that goes through a document with parse_mut and mut_contents and changes, one edit after another, classes with mut_id().set_class and the contents of primitive values with mut_contents (one octet, or all of them with copy_from_slice), leaves the octets of the document with all these edits: as many as before, and read back as that document with BerRef (and with DerRef if it was DER). A panic occurs exactly if an edit names an octet that is not there or contents of another size. A value that no edit touches, from inside or outside, is found at its path as it was; the value edited last is found as the edit has made it. Edits of values none of which is inside another may be done in any order, with the same octets or the same panic.", "quantifier": "for all documents, lists of edits and orders of them", "why_tests_cant": "What an edit finds depends on the octets all the edits before it have left; whether a header before the place is still read as it was is a statement about all shapes of documents and all lists of edits.", "anchors": ["bsn1/src/ber_ref.rs: BerRef::parse, parse_mut, contents, mut_contents, mut_id", "bsn1/src/der_ref.rs: DerRef::parse, parse_mut, contents, mut_contents, mut_id", "bsn1/src/identifier_ref.rs: IdRef::set_class", "bsn1/src/contents_ref.rs: ContentsRef (IndexMut, AsMut)"]}
{"id": "C117", "title": "A connection that breaks at any octet yields no wrong value", "statement": "A sender writes values one after another with write_der to a writer that may take any part of the octets, be interrupted, or fail at any octet; what the writer has taken arrives at a receiver up to any octet, in any pieces, with failures of the reader in between. If the sender reports success, the writer has got the octets of all the values; if not, it reports the writer's failure, and the writer has got some of the values whole, in order, and a proper part of the next. The values that the receiver gets with read_ber or read_der, until the first answer that is not a value, are the first values sent, none left out, changed or added, and all of them have arrived whole. If the reader gives the octets that arrive without failures, read_ber gives all the values that have arrived whole, and then UnterminatedBytes or an UnexpectedEof I/O error; it does not panic.", "quantifier": "for all supported types, lists of values, behaviours of the writer and of the reader, points where the connection breaks, and builds", "why_tests_cant": "The octet where a connection breaks and the pieces in which data arrive are chosen by the network; that no prefix of any encoding is taken for another value is a statement about all encodings and all cuts.", "anchors": ["bsn1_serde/src/lib.rs: write_der, read_ber, read_der", "bsn1/src/ber.rs: Ber::parse", "bsn1/src/der.rs: Der::parse", "bsn1/src/misc.rs: read_u8, write_u8, parse_id_length"]}
{"id": "C118", "title": "A Der or Ber is built, grown and shrunk the same on 16-, 32- and 64-bit targets", "statement": "push, extend_from_slice and truncate of Der and Ber (of definite or indefinite length) change the contents as a plain vector would, with the length octets kept right, on every target; any history of them ends with that value if it is no longer than isize::MAX of the target after each operation, and panics at the first operation after which it is not, in both builds. So what succeeds on one target succeeds, with the same octets, on every bigger one. Ber::new_indefinite, Der::from_id_iterator and Ber::from_id_iterator_indefinite give the concatenation of their parts if it is no longer than isize::MAX, and panic otherwise; no safe function writes outside of its buffer.", "quantifier": "for all targets, builds, identifiers, contents, histories of operations, lists of items, and contents of fresh memory", "why_tests_cant": "Tests run on the word size of the machine that builds, and with few sizes; the arithmetic differs exactly at sizes near the limits of the target, at every step of a history.", "anchors": ["bsn1/src/der.rs: Der::push, extend_from_slice, truncate, from_id_iterator", "bsn1/src/ber.rs: Ber::push, extend_from_slice, truncate, new_indefinite, with_id_length_indefinite, from_id_iterator_indefinite", "bsn1/src/length.rs: Length::len, to_bytes", "bsn1/src/buffer/little_endian/mod.rs: Buffer::reserve, with_capacity"]}
{"id": "C119", "title": "What a derive asks of the types in a declaration", "statement": "A declaration with derive(Serialize) or derive(Deserialize) that the macro accepts compiles if and only if the types in it meet the documented requirements: each field that is not skipped is Serialize (Deserialize), or, with into/to/from/try_from, it is the other type that has to be, and the conversion has to exist; a skipped field has Default or a function for it when read; with a conversion on the declaration itself nothing is asked of the fields. The bounds written in the declaration, and no others, are available for that. What compiles with type parameters compiles for all types that meet the bounds.", "quantifier": "for all declarations (structs, enums, attributes, field types built of parameters, primitive types, collections and other types), all bounds and where clauses, all environments of impls and functions, all instances of the parameters", "why_tests_cant": "A test compiles one declaration in one environment, in a crate with the dependencies of this one; the claim is about every declaration in every crate, and about declarations that must not compile.", "anchors": ["bsn1_serde_macros/src/lib.rs: documentation of the derives", "bsn1_serde_macros/annotation_bsn1_serde.md", "bsn1_serde_macros/src/data_container.rs: write_der_contents, der_contents_len, from_ber_contents, from_der_contents and the _transparent versions", "bsn1_serde_macros/src/ser/mod.rs: do_serialize, do_enum", "bsn1_serde_macros/src/de/mod.rs: do_deserialize", "bsn1_serde_macros/src/generics.rs: Generics", "bsn1_serde/src/ser/mod.rs: impls of Serialize", "bsn1_serde/src/de/mod.rs: impls of Deserialize"]}
{"id": "C120", "title": "Implementations of the traits by hand can be used wherever those of the library can", "statement": "Serialize and Deserialize may be implemented by hand. If such an implementation keeps the promises of the traits for the values of its type (it writes an identifier and contents, its size hints are absent or right, and it gives a value back from what it wrote, from DER and from BER), then the entry points write and read the values, and so do all collections of the type, conversions to and from it, and derived structs, enums and transparent structs with fields of it, mixed in any way with types of the library and skipped or converted fields; these again keep the promises, so they may be used in the same places. Nothing else is asked of the implementation; only the elements of sets and keys of maps must come back equal, and the keys of a HashMap must have size hints.", "quantifier": "for all implementations (any functions), all types built around them, all values whose encoding fits in memory, all builds", "why_tests_cant": "The implementations are code of users that does not exist yet; a test can only try the few in the repository.", "anchors": ["bsn1_serde/README.md: impl ser::Serialize for SimpleAuth, impl de::Deserialize for SimpleAuth", "bsn1_serde/src/ser/mod.rs: Serialize", "bsn1_serde/src/de/mod.rs: Deserialize", "bsn1_serde_macros/src/data_container.rs", "bsn1_serde/src/ser/mod.rs: impls for collections", "bsn1_serde/src/de/mod.rs: impls for collections"]}
{"id": "C121", "title": "The programs in the documentation do what is said beside them", "statement": "The programs of the two READMEs exchange the bind request of LDAP: each parses what it sends and gets the same version, name and password, for all of them; both send the request of RFC 4511, so each parses what the other sends; none accepts a request with octets too many, and whatever the input is, the parsers return. Structs for which the documentation of the attribute gives an ASN.1 definition are encoded by it.", "quantifier": "for all versions, names and passwords that fit in memory, all inputs, both builds", "why_tests_cant": "The doc-tests run one name and one password, and the definitions beside the structs are comments.", "anchors": ["bsn1_serde/README.md: BindRequest, SimpleAuth, main", "bsn1/README.md: new_bind_request, parse_bind_request, parse_bind_version, parse_bind_name, parse_bind_authentication", "bsn1_serde_macros/annotation_bsn1_serde.md: struct C, struct D"]}
{"id": "C122", "title": "A declaration with its attributes stands for the encoding that the documentation describes, from the tokens to the octets", "statement": "For a struct or enum with derive(Serialize, Deserialize), whose #[bsn1_serde(..)] attributes are documented and treat each field alike on both sides: both macros accept it, and the generated implementations agree. The octets are the identifier that the arguments say, followed by the length and the fields that are not skipped, in order, each encoded by the implementation for its type, or by that for the type of into or to after the conversion that is named. Decoding gives the values of the fields back, converted by from or try_from, and for skipped fields the value of the function of default, or of Default. With transparent it is the one field that is not skipped; with a conversion on the container it is the encoding of the other type. With one derive only, or with fields that the two sides treat differently (skip_serializing alone, into without from), each side does what its own arguments say: the octets written are those of the fields not skipped by it, and a value is decoded exactly from the octets with the identifier whose contents are one value for each field not skipped by it; of an enum the first variant with the identifier. There is generated code for no other declarations than documented ones.", "quantifier": "for all token lists of the attributes, all declarations with any number of fields and variants, all field types and conversions (any implementations that keep the promises of the traits, including derived ones), all values whose encoding fits in memory, both builds", "why_tests_cant": "The macro is a program that makes programs; a test runs it on the few declarations it contains. The claim is about each declaration and each value of it.", "anchors": ["bsn1_serde_macros/annotation_bsn1_serde.md", "bsn1_serde_macros/src/ser/mod.rs: do_serialize", "bsn1_serde_macros/src/de/mod.rs: do_deserialize", "bsn1_serde_macros/src/data_container.rs: write_der_contents, from_ber_contents, from_der_contents", "bsn1_serde_macros/src/attribute.rs: Attribute"]}
{"id": "C123", "title": "A part of a serialized value is found in the encoding by its place, and can be replaced there", "statement": "For a value of a supported type, a program that only walks through the octets (parse, contents, parse of the next value, and so on) finds, for each element of a collection, key or value of a map, and field of a struct or variant, at any depth, exactly the octets that to_der gives for this part alone; from_der of its type gives the part back. If the contents of the encoding of another value of the type, with the same identifier, are copied over those of the part (parse_mut, mut_contents), the octets are what to_der gives for the whole value with this part replaced, if both encodings of the part are equally long, and otherwise copy_from_slice panics. from_der and from_ber of the whole type then give the value with the part replaced, and all parts elsewhere are found as before. Fields that are skipped do not count for the place; an element of a set or a key of a map may be replaced if the collection stays one (keys different and in order).", "quantifier": "for all supported types, nested at will, all values whose encoding fits in memory, all parts of them and all replacements, both builds", "why_tests_cant": "There are as many places as types and values; a test would follow a few paths.", "anchors": ["bsn1/src/der_ref.rs: DerRef::parse, DerRef::parse_mut, DerRef::contents, DerRef::mut_contents", "bsn1/src/ber_ref.rs: BerRef::parse, BerRef::parse_mut, BerRef::contents, BerRef::mut_contents", "bsn1_serde/src/lib.rs: to_der, from_der, from_ber", "bsn1_serde/src/ser/mod.rs: Serialize", "bsn1_serde_macros/src/data_container.rs: write_der_contents"]}
{"id": "C124", "title": "Each part of a decoded value comes from the value at its place in the input", "statement": "If parse_der or parse_ber gives a value of a supported type, then each of its parts, at any depth (element of a collection, key or value of a map, field of a struct or variant, converted or not), is exactly what from_der or from_ber of the part's own type gives for the octets found at its place in the input, by a program that only walks through the octets with parse, length and contents. For elements of lists and for fields the place is the index (fields that are skipped when deserializing do not count); an element of a set or an entry of a map is somewhere in the collection, since sets and maps are sorted or hashed and drop repetitions. Nothing in the value comes from elsewhere: not from a neighbour, from octets after the value, or from an end-of-contents. The one exception are map values of a type with the identifier of end-of-contents (00), which may be declared: one is then read from the end-of-contents of an entry of indefinite length.", "quantifier": "for all supported types, nested at will, all inputs (DER, or BER with any mixture of definite and indefinite lengths, followed by any octets), all parts of the value, both builds", "why_tests_cant": "It is about all inputs that are accepted, most of which the serializer never writes.", "anchors": ["bsn1_serde/src/lib.rs: parse_der, parse_ber, from_der, from_ber", "bsn1_serde/src/de/mod.rs: Deserialize", "bsn1_serde_macros/src/data_container.rs: from_ber_contents, from_der_contents", "bsn1/src/ber_ref.rs: BerRef::parse, BerRef::length, BerRef::contents", "bsn1/src/der_ref.rs: DerRef::parse, DerRef::contents"]}
{"id": "C125", "title": "Changing a value of the input in place changes that part of the decoded value and nothing else", "statement": "If parse_der or parse_ber gives a value, and the octets at the place of one of its parts (element of a list, value of a BTreeMap entry, field of a struct or variant, at any depth) are changed in place through parse_mut, disassemble and mut_contents to another well-formed value of the same length, then parse_der or parse_ber of the changed input gives the same value with exactly that part replaced by what from_der or from_ber of the part's type gives for the changed octets, leaves the same octets behind, and gives no value if the changed octets are none of that type. In BER the changed octets may not be an end-of-contents (00 00) unless they were, since that would end an enclosing value of indefinite length. Keys of maps and elements of sets are not included: changed to another one that is there, one of the two is lost.", "quantifier": "for all supported types, nested at will, all inputs that are accepted (DER, or BER with any mixture of forms of lengths, followed by any octets), all such parts, all changes, both builds", "why_tests_cant": "It relates two runs of the decoder on inputs that differ anywhere, for all types and all changes; a test tries a few.", "anchors": ["bsn1_serde/src/lib.rs: parse_der, parse_ber, from_der, from_ber", "bsn1_serde/src/de/mod.rs: Deserialize", "bsn1/src/ber_ref.rs: BerRef::parse_mut, BerRef::mut_contents, BerRef::disassemble_mut", "bsn1/src/der_ref.rs: DerRef::parse_mut, DerRef::mut_contents, DerRef::disassemble_mut"]}
{"id": "C126", "title": "Elements are added to an encoded collection with extend_from_slice, and cut off an encoded list with truncate, without decoding it", "statement": "If from_der decodes a value to a Vec, LinkedList, VecDeque, BTreeSet, HashSet, BTreeMap or HashMap and octets are put behind its contents with Der::extend_from_slice, then the result is well-formed, and is decoded if and only if these octets are values of the element type (for maps: SEQUENCEs of a key and a value) that parse_der decodes one after the other; it is decoded to the collection with these elements put into it after the others. The same holds in BER for a value of definite length, where an entry of a map is a value with the identifier of SEQUENCE of which the contents are just a key and a value; a value of indefinite length is not extended, the octets come after its end-of-contents and are what parse_ber leaves. Cut with Der::truncate, a list is decoded if and only if the cut is between two elements, to the elements before it. On a serialized list, and on a serialized set if the elements behind are further ones (greater ones for a BTreeSet), both give exactly the octets to_der and to_ber give for the longer or shorter one.", "quantifier": "for all element types, all collections and inputs that are accepted, all octets put behind, all places of the cut, both builds, all hash orders", "why_tests_cant": "It relates edits of octets to edits of values, for all types, lengths (the length octets change size) and octets, and says exactly when decoding fails.", "anchors": ["bsn1/src/der.rs: Der::extend_from_slice, Der::truncate", "bsn1/src/ber.rs: Ber::extend_from_slice, Ber::truncate", "bsn1_serde/src/de/mod.rs: impl Deserialize for Vec, LinkedList, VecDeque, BTreeSet, BTreeMap, HashSet, HashMap", "bsn1_serde/src/ser/mod.rs: impl Serialize for Vec, LinkedList, VecDeque"]}
{"id": "C127", "title": "Collections of one kind decode what those of another do", "statement": "With any implementation of Deserialize for the elements, also one that fails or panics: Vec, LinkedList and VecDeque decode the same octets to the same elements in the same order; a BTreeSet is decoded from exactly the octets a Vec is and has its elements in ascending order and each once, so that no input is rejected for the order or a repetition; a HashSet is decoded from the identifier of SET where a Vec is from that of SEQUENCE with the same contents; a HashMap from SET where a BTreeMap is from SEQUENCE, with the same entries. The same holds inside: a Vec or BTreeMap of one kind of collections is decoded where one of the other kind is, and the collections in it are related one by one. Where one fails the other fails with the same error. parse_der, parse_ber, read_der and read_ber leave the same octets behind and the reader in the same state. If a part of an element of an encoded BTreeSet is changed in place, the set of the changed elements is decoded. Der::new with the identifier of SET and the contents of an encoded Vec or BTreeMap is an encoded HashSet or HashMap of the same elements or entries. A Vec that is sent with to_der is received as a BTreeSet with its elements and as a VecDeque with the same elements in the same order.", "quantifier": "all implementations of Deserialize of the elements, keys and values, all lawful orders, all hash orders, all identifiers, lengths and contents, all buffers and readers, both builds; all types of elements and all changes in place", "why_tests_cant": "A test compares the collections for a few inputs and types; the agreement has to hold for every input, also for those that are rejected in the middle, and for every user-written implementation of the elements.", "anchors": ["bsn1_serde/src/de/mod.rs: Deserialize for Vec, LinkedList, VecDeque, BTreeSet, BTreeMap, HashSet, HashMap", "bsn1_serde/src/de/mod.rs: exclude_eoc", "bsn1_serde/src/lib.rs: parse_der, parse_ber, read_der, read_ber", "bsn1/src/der_ref.rs: DerRef::parse_mut"]}
