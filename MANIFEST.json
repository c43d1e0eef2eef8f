{
 "claims": [
  {
   "property": "C01",
   "status": "proved",
   "theorems": [
    "Bsn1.C01_length_roundtrip"
   ],
   "note": ""
  },
  {
   "property": "C02",
   "status": "proved",
   "theorems": [
    "Bsn1.C02_length_parse_definite_iff",
    "Bsn1.C02_length_parse_indefinite_iff",
    "Bsn1.C02_lenOctets_shortest"
   ],
   "note": ""
  },
  {
   "property": "C03",
   "status": "proved",
   "theorems": [
    "Bsn1.C03_length_len"
   ],
   "note": ""
  },
  {
   "property": "C04",
   "status": "proved",
   "theorems": [
    "Bsn1.C04_length_parse_errors"
   ],
   "note": ""
  },
  {
   "property": "C05",
   "status": "proved",
   "theorems": [
    "Bsn1.C05_length_eq",
    "Bsn1.C05_length_cmp",
    "Bsn1.C05_indefinite_ne"
   ],
   "note": ""
  },
  {
   "property": "C06",
   "status": "proved",
   "theorems": [
    "Bsn1.C06_id_new_faithful",
    "Bsn1.C06_id_new_octets"
   ],
   "note": ""
  },
  {
   "property": "C07",
   "status": "proved",
   "theorems": [
    "Bsn1.C07_id_parse_roundtrip"
   ],
   "note": ""
  },
  {
   "property": "C08",
   "status": "proved",
   "theorems": [
    "Bsn1.C08_id_parse_iff",
    "Bsn1.C08_id_number",
    "Bsn1.C08_id_parse_errors"
   ],
   "note": ""
  },
  {
   "property": "C09",
   "status": "proved",
   "theorems": [
    "Bsn1.C09_id_eq_iff",
    "Bsn1.C09_parsed_eq_iff",
    "Bsn1.C09_parsed_eq_new"
   ],
   "note": ""
  },
  {
   "property": "C10",
   "status": "proved",
   "theorems": [
    "Bsn1.C10_id_setters_octets",
    "Bsn1.C10_id_setters",
    "Bsn1.C10_id_setters_parsed"
   ],
   "note": ""
  },
  {
   "property": "C11",
   "status": "proved",
   "theorems": [
    "Bsn1.C11_id_parse_error_unchanged"
   ],
   "note": ""
  },
  {
   "property": "C12",
   "status": "proved",
   "theorems": [
    "Bsn1.C12_class_partition",
    "Bsn1.C12_pc_partition",
    "Bsn1.C12_class_bits"
   ],
   "note": ""
  },
  {
   "property": "C13",
   "status": "proved",
   "theorems": [
    "Bsn1.C13_integer_roundtrip"
   ],
   "note": ""
  },
  {
   "property": "C14",
   "status": "proved",
   "theorems": [
    "Bsn1.C14_integer_minimal",
    "Bsn1.C14_integer_shortest"
   ],
   "note": ""
  },
  {
   "property": "C15",
   "status": "proved",
   "theorems": [
    "Bsn1.C15_to_integer_ok_iff",
    "Bsn1.C15_to_integer_err_iff",
    "Bsn1.C15_to_integer_total"
   ],
   "note": ""
  },
  {
   "property": "C16",
   "status": "proved",
   "theorems": [
    "Bsn1.C16_integer_type_independent",
    "Bsn1.C16_integer_overflow"
   ],
   "note": ""
  },
  {
   "property": "C17",
   "status": "proved",
   "theorems": [
    "Bsn1.C17_to_bool_der",
    "Bsn1.C17_to_bool_ber",
    "Bsn1.C17_bool"
   ],
   "note": ""
  },
  {
   "property": "C18",
   "status": "proved",
   "theorems": [
    "Bsn1.C18_der_roundtrip",
    "Bsn1.C18_der_new_octets"
   ],
   "note": "Under the documented size limit: the total size is at most isize::MAX (larger values panic, proved)."
  },
  {
   "property": "C19",
   "status": "proved",
   "theorems": [
    "Bsn1.C19_der_parse_iff",
    "Bsn1.C19_der_parse_mut_iff",
    "Bsn1.C19_der_parse_iff_new",
    "Bsn1.C19_der_rebuild"
   ],
   "note": ""
  },
  {
   "property": "C20",
   "status": "proved",
   "theorems": [
    "Bsn1.C20_der_prefix_free",
    "Bsn1.C20_der_concat",
    "Bsn1.C20_der_concat_conv"
   ],
   "note": ""
  },
  {
   "property": "C21",
   "status": "partial",
   "theorems": [
    "Bsn1.C21_der_parse_error_violated",
    "Bsn1.C21_ber_parse_error_violated",
    "Bsn1.C21_parse_error_suffix_partial",
    "Bsn1.C21_parse_mut_error",
    "Bsn1.C21_parse_untouched_iff"
   ],
   "note": "False for DerRef::parse and BerRef::parse: counterexamples proved (_violated). Proved: the remaining slice is always a suffix of the input, the _mut variants do leave the slice unchanged, and the others only if it was empty (_iff)."
  },
  {
   "property": "C22",
   "status": "proved",
   "theorems": [
    "Bsn1.C22_id_parse_settled",
    "Bsn1.C22_der_parse_settled",
    "Bsn1.C22_ber_parse_settled"
   ],
   "note": ""
  },
  {
   "property": "C23",
   "status": "partial",
   "theorems": [
    "Bsn1.C23_parse_panic_violated",
    "Bsn1.C23_der_parse_partial",
    "Bsn1.C23_ber_parse_partial",
    "Bsn1.C23_ber_parse_panic_iff",
    "Bsn1.C23_der_parse_panic_iff"
   ],
   "note": "False: ten octets make both parsers panic (_violated). Proved: for every reader, failing or not, no panic unless a header announces more than isize::MAX octets, and exactly which inputs panic (_iff)."
  },
  {
   "property": "C24",
   "status": "proved",
   "theorems": [
    "Bsn1.C24_der_parse_slice",
    "Bsn1.C24_der_parse_slice_ok"
   ],
   "note": ""
  },
  {
   "property": "C25",
   "status": "partial",
   "theorems": [
    "Bsn1.C25_der_parse_chunking_iff",
    "Bsn1.C25_der_parse_chunking_violated",
    "Bsn1.C25_der_parse_chunking_partial"
   ],
   "note": "False: Der::parse issues a single read for the contents (_violated). Proved: any chunking of identifier and length octets is fine if one read delivers the contents, and in no other case (_iff)."
  },
  {
   "property": "C26",
   "status": "proved",
   "theorems": [
    "Bsn1.C26_der_history",
    "Bsn1.C26_der_extend_too_long"
   ],
   "note": "Under the size limit isize::MAX after each operation; exceeding it panics (proved)."
  },
  {
   "property": "C27",
   "status": "proved",
   "theorems": [
    "Bsn1.C27_from_id_iterator_indefinite",
    "Bsn1.C27_from_id_iterator",
    "Bsn1.C27_ber_from_id_iterator"
   ],
   "note": ""
  },
  {
   "property": "C28",
   "status": "partial",
   "theorems": [
    "Bsn1.C28_with_id_length_fits",
    "Bsn1.C28_with_id_length_debug",
    "Bsn1.C28_with_id_length_partial",
    "Bsn1.C28_with_id_length_violated",
    "Bsn1.C28_ber_with_id_length_fits",
    "Bsn1.C28_ber_with_id_length_debug",
    "Bsn1.C28_with_id_length_iff"
   ],
   "note": "False in release builds: the size computation wraps around (_violated). Proved: debug builds always panic; any build panics if the sum stays below 2^64; sizes that fit give the described value; and exactly which of the four outcomes occurs for every length (_iff)."
  },
  {
   "property": "C29",
   "status": "proved",
   "theorems": [
    "Bsn1.C29_ber_parse_iff",
    "Bsn1.C29_ber_parse_mut_iff",
    "Bsn1.C29_ber_parse_err_iff",
    "Bsn1.C29_ber_not_eoc_prefix"
   ],
   "note": ""
  },
  {
   "property": "C30",
   "status": "proved",
   "theorems": [
    "Bsn1.C30_ber_prefix_free",
    "Bsn1.C30_ber_concat"
   ],
   "note": ""
  },
  {
   "property": "C31",
   "status": "proved",
   "theorems": [
    "Bsn1.C31_ber_parse_chunking",
    "Bsn1.C31_ber_parse_position"
   ],
   "note": ""
  },
  {
   "property": "C32",
   "status": "proved",
   "theorems": [
    "Bsn1.C32_der_is_ber"
   ],
   "note": ""
  },
  {
   "property": "C33",
   "status": "proved",
   "theorems": [
    "Bsn1.C33_ber_history_definite",
    "Bsn1.C33_ber_history_indefinite"
   ],
   "note": ""
  },
  {
   "property": "C34",
   "status": "proved",
   "theorems": [
    "Bsn1.C34_new_indefinite_roundtrip"
   ],
   "note": ""
  },
  {
   "property": "C35",
   "status": "proved",
   "theorems": [
    "Bsn1.C35_contents",
    "Bsn1.C35_into_vec"
   ],
   "note": "Every history of Buffer operations within the safety rules, any valid allocator; memory modelled as blocks of cells, the 24 octets of the struct modelled as octets."
  },
  {
   "property": "C36",
   "status": "proved",
   "theorems": [
    "Bsn1.C36_contents",
    "Bsn1.C36_into_vec"
   ],
   "note": "As C35 for the layout of big-endian targets (a union of an array and pointer/capacity)."
  },
  {
   "property": "C37",
   "status": "partial",
   "theorems": [
    "Bsn1.C37_no_ub_partial",
    "Bsn1.C37_len",
    "Bsn1.C37_blocks",
    "Bsn1.C37_balanced",
    "Bsn1.C37_reserve_violated",
    "Bsn1.C37_reserve_ub_iff"
   ],
   "note": "No undefined operation, len <= capacity, one owner for each block, everything freed: proved for all histories in which reserve stays within isize::MAX. False beyond: safe reserve breaks the contract of realloc (_violated), and exactly when (_iff)."
  },
  {
   "property": "C38",
   "status": "partial",
   "theorems": [
    "Bsn1.C38_reserve_partial",
    "Bsn1.C38_with_capacity",
    "Bsn1.C38_reserve_wraps_violated",
    "Bsn1.C38_reserve_exact"
   ],
   "note": "with_capacity: all n. reserve: proved for len+n <= isize::MAX. False in release builds when len+n wraps (_violated). The result of every call beyond isize::MAX (_exact)."
  },
  {
   "property": "C39",
   "status": "proved",
   "theorems": [
    "Bsn1.C39_size_hints",
    "Bsn1.C39_octets_written",
    "Bsn1.C39_hints_given",
    "Bsn1.C39_contract_preserved"
   ],
   "note": ""
  },
  {
   "property": "C40",
   "status": "proved",
   "theorems": [
    "Bsn1.C40_integer_size"
   ],
   "note": ""
  },
  {
   "property": "C41",
   "status": "proved",
   "theorems": [
    "Bsn1.C41_to_der_well_formed",
    "Bsn1.C41_to_der"
   ],
   "note": ""
  },
  {
   "property": "C42",
   "status": "partial",
   "theorems": [
    "Bsn1.C42_hash_map_iff",
    "Bsn1.C42_hash_map_keys_without_hint_violated",
    "Bsn1.C42_hash_map_violated",
    "Bsn1.C42_hash_map_partial"
   ],
   "note": "False: the keys of a HashMap without size hints (conversions) make to_der write a too small length (_violated). Proved: exactly when the length is right (_iff)."
  },
  {
   "property": "C43",
   "status": "proved",
   "theorems": [
    "Bsn1.C43_der_round_trip",
    "Bsn1.C43_der_round_trip_exact",
    "Bsn1.C43_hash_round_trip"
   ],
   "note": ""
  },
  {
   "property": "C44",
   "status": "proved",
   "theorems": [
    "Bsn1.C44_ber_round_trip",
    "Bsn1.C44_ber_round_trip_exact"
   ],
   "note": ""
  },
  {
   "property": "C45",
   "status": "proved",
   "theorems": [
    "Bsn1.C45_any_writer",
    "Bsn1.C45_write_der"
   ],
   "note": ""
  },
  {
   "property": "C46",
   "status": "partial",
   "theorems": [
    "Bsn1.C46_indefinite_primitive_violated",
    "Bsn1.C46_indefinite_primitive_partial",
    "Bsn1.C46_length_ignored_violated",
    "Bsn1.C46_indefinite_primitive_exact"
   ],
   "note": "False: Length::eq never holds for two indefinite lengths, so the check is dead: release builds decode the end-of-contents octets as contents, debug builds panic (_violated). Proved: OctetString does reject, bool never succeeds; and the exact result for each primitive type (_exact)."
  },
  {
   "property": "C47",
   "status": "partial",
   "theorems": [
    "Bsn1.C47_outer_form",
    "Bsn1.C47_outer_form_octets",
    "Bsn1.C47_nested_forms_partial",
    "Bsn1.C47_indefinite_pair_violated",
    "Bsn1.C47_map_violated",
    "Bsn1.C47_nested_value",
    "Bsn1.C47_forms_iff"
   ],
   "note": "False for maps: a key-value pair of indefinite length is rejected for all keys and values (_violated). Proved: the outer length of all collections, structs and enums, with the same errors; lengths at any depth for types without maps; and for all types, maps included, two encodings that differ in forms only and are both accepted give the same value (C47_nested_value), so a wrong form is at worst refused; and exactly which forms are refused (C47_forms_iff)."
  },
  {
   "property": "C48",
   "status": "proved",
   "theorems": [
    "Bsn1.C48_der_canonical",
    "Bsn1.C48_from_der_injective"
   ],
   "note": ""
  },
  {
   "property": "C49",
   "status": "partial",
   "theorems": [
    "Bsn1.C49_der_unmatched",
    "Bsn1.C49_ber_unmatched",
    "Bsn1.C49_derived_unmatched",
    "Bsn1.C49_ber_integer_partial",
    "Bsn1.C49_ber_integer_violated",
    "Bsn1.C49_der_unmatched_iff",
    "Bsn1.C49_ber_unmatched_iff",
    "Bsn1.C49_mismatch_reported"
   ],
   "note": "False for integers in debug builds: an indefinite length panics before the identifier is checked (_violated). Proved for all else; C49_ber_unmatched_iff says exactly when UnmatchedId is returned."
  },
  {
   "property": "C50",
   "status": "proved",
   "theorems": [
    "Bsn1.C50_parse_der_advances",
    "Bsn1.C50_parse_ber_advances",
    "Bsn1.C50_parse_error"
   ],
   "note": ""
  },
  {
   "property": "C51",
   "status": "partial",
   "theorems": [
    "Bsn1.C51_read_der_slice",
    "Bsn1.C51_read_der_position",
    "Bsn1.C51_read_ber_partial",
    "Bsn1.C51_read_parse_violated",
    "Bsn1.C51_read_ber_exact"
   ],
   "note": "False: read_ber reports truncated contents as an I/O error, read_der stops at the first chunk (_violated). Proved: read_der on slices is parse_der; read_ber on any chunking gives the value or decoding error of parse_ber, whenever the octets start with a BER value, and succeeds never otherwise; and the results of both for every input: they agree, errors and positions included, unless the octets end within contents (_exact)."
  },
  {
   "property": "C52",
   "status": "proved",
   "theorems": [
    "Bsn1.C52_identifier",
    "Bsn1.C52_id_new",
    "Bsn1.C52_total"
   ],
   "note": ""
  },
  {
   "property": "C53",
   "status": "proved",
   "theorems": [
    "Bsn1.C53_variant_restored",
    "Bsn1.C53_value_restored",
    "Bsn1.C53_first_match",
    "Bsn1.C53_shared_id"
   ],
   "note": ""
  },
  {
   "property": "C54",
   "status": "proved",
   "theorems": [
    "Bsn1.C54_skip_serializing",
    "Bsn1.C54_skip_deserializing",
    "Bsn1.C54_drop_all",
    "Bsn1.C54_skip_attributes_serialize",
    "Bsn1.C54_skip_attributes_deserialize",
    "Bsn1.C54_round_trip"
   ],
   "note": ""
  },
  {
   "property": "C55",
   "status": "proved",
   "theorems": [
    "Bsn1.C55_transparent_encode",
    "Bsn1.C55_transparent_conv",
    "Bsn1.C55_transparent_decode",
    "Bsn1.C55_transparent_refused"
   ],
   "note": ""
  },
  {
   "property": "C56",
   "status": "proved",
   "theorems": [
    "Bsn1.C56_container_encode",
    "Bsn1.C56_container_encode_supported",
    "Bsn1.C56_container_decode",
    "Bsn1.C56_fields_encode",
    "Bsn1.C56_fields_decode",
    "Bsn1.C56_remove_all",
    "Bsn1.C56_container_round_trip"
   ],
   "note": ""
  },
  {
   "property": "C57",
   "status": "proved",
   "theorems": [
    "Bsn1.C57_struct_decodes",
    "Bsn1.C57_number_of_values",
    "Bsn1.C57_extra_octets",
    "Bsn1.C57_missing_octets",
    "Bsn1.C57_variants"
   ],
   "note": ""
  },
  {
   "property": "C58",
   "status": "partial",
   "theorems": [
    "Bsn1.C58_same_encoding_partial",
    "Bsn1.C58_btree_insertion_order",
    "Bsn1.C58_hash_order_violated",
    "Bsn1.C58_hash_set_iff",
    "Bsn1.C58_hash_map_iff"
   ],
   "note": "False for HashSet and HashMap: octets follow the iteration order (_violated). Proved for all types without hashed collections; hashed sets and maps have equal octets exactly if their elements do in order of iteration (_iff)."
  },
  {
   "property": "C59",
   "status": "proved",
   "theorems": [
    "Bsn1.C59_btree_decode",
    "Bsn1.C59_btree_decode_ber",
    "Bsn1.C59_reencode_stable"
   ],
   "note": ""
  },
  {
   "property": "C60",
   "status": "partial",
   "theorems": [
    "Bsn1.C60_struct_partial",
    "Bsn1.C60_enum_partial",
    "Bsn1.C60_variant_partial",
    "Bsn1.C60_field_partial",
    "Bsn1.C60_derive_struct_partial",
    "Bsn1.C60_derive_enum_partial",
    "Bsn1.C60_unchecked_violated"
   ],
   "note": "The checks accept exactly the documented arguments at each position (proved for all tokens), and a derive without a container conversion succeeds exactly if all positions are documented. False with a container conversion: variants and fields are not checked at all (_violated); C73 says exactly what is accepted in each case."
  },
  {
   "property": "C61",
   "status": "partial",
   "theorems": [
    "Bsn1.C61_root_cause_violated",
    "Bsn1.C61_context_root_cause_violated",
    "Bsn1.C61_root_cause_partial",
    "Bsn1.C61_context_layers",
    "Bsn1.C61_context_keeps_chain"
   ],
   "note": "False: root_cause stops at the outermost context (_violated). Proved: exactly when it does return the first error of this crate."
  },
  {
   "property": "C62",
   "status": "proved",
   "theorems": [
    "Bsn1.C62_eq_iff",
    "Bsn1.C62_symm",
    "Bsn1.C62_trans",
    "Bsn1.C62_refl"
   ],
   "note": ""
  },
  {
   "property": "C63",
   "status": "proved",
   "theorems": [
    "Bsn1.C63_der_collections",
    "Bsn1.C63_ber_collections",
    "Bsn1.C63_first_error"
   ],
   "note": ""
  },
  {
   "property": "C64",
   "status": "proved",
   "theorems": [
    "Bsn1.C64_tag_num",
    "Bsn1.C64_unsigned",
    "Bsn1.C64_unique"
   ],
   "note": ""
  },
  {
   "property": "C65",
   "status": "partial",
   "theorems": [
    "Bsn1.C65_with_id_length_violated",
    "Bsn1.C65_from_id_iterator_violated",
    "Bsn1.C65_constructors_debug_partial",
    "Bsn1.C65_from_id_iterator_iff",
    "Bsn1.C65_from_id_iterator_indefinite_iff",
    "Bsn1.C65_with_id_length_indefinite_iff"
   ],
   "note": "False in release builds: with_id_length and from_id_iterator write out of bounds when the length computation wraps around (_violated). Proved: never with overflow checks; and exactly when each of the constructors does (_iff)."
  },
  {
   "property": "C66",
   "status": "proved",
   "theorems": [
    "Bsn1.C66_to_der_injective",
    "Bsn1.C66_prefix_free"
   ],
   "note": ""
  },
  {
   "property": "C67",
   "status": "proved",
   "theorems": [
    "Bsn1.C67_ber_extends_der"
   ],
   "note": ""
  },
  {
   "property": "C68",
   "status": "proved",
   "theorems": [
    "Bsn1.C68_decoded_valid"
   ],
   "note": ""
  },
  {
   "property": "C69",
   "status": "partial",
   "theorems": [
    "Bsn1.C69_parse_der_settled",
    "Bsn1.C69_parse_ber_settled_partial",
    "Bsn1.C69_parse_ber_panic_violated",
    "Bsn1.C69_parse_ber_panic_iff"
   ],
   "note": "False in debug builds for BER (_violated). Proved: DER in all builds, BER in release builds, and exactly which input makes BER decoding panic in debug builds (_iff, all types)."
  },
  {
   "property": "C70",
   "status": "partial",
   "theorems": [
    "Bsn1.C70_constructed_string_violated",
    "Bsn1.C70_primitive_string_partial",
    "Bsn1.C70_constructed_string_exact"
   ],
   "note": "False: the headers of the segments become part of the string (_violated). Proved: primitive strings; and the exact result for constructed ones (_exact)."
  },
  {
   "property": "C72",
   "status": "proved",
   "theorems": [
    "Bsn1.C72_parse",
    "Bsn1.C72_attributes",
    "Bsn1.C72_unambiguous"
   ],
   "note": ""
  },
  {
   "property": "C73",
   "status": "proved",
   "theorems": [
    "Bsn1.C73_serialize",
    "Bsn1.C73_deserialize",
    "Bsn1.C73_same_identifier"
   ],
   "note": ""
  },
  {
   "property": "C71",
   "status": "proved",
   "theorems": [
    "Bsn1.C71_id_unterminated",
    "Bsn1.C71_id_final",
    "Bsn1.C71_length_unterminated",
    "Bsn1.C71_length_final",
    "Bsn1.C71_der_unterminated",
    "Bsn1.C71_der_final",
    "Bsn1.C71_wide_length_never",
    "Bsn1.C71_parse_der",
    "Bsn1.C71_ber_unterminated",
    "Bsn1.C71_ber_final",
    "Bsn1.C71_ber_wide_length_never",
    "Bsn1.C71_parse_ber"
   ],
   "note": "BER statements for input of at most isize::MAX octets (no slice is longer)."
  },
  {
   "property": "C76",
   "status": "partial",
   "theorems": [
    "Bsn1.C76_id_sound",
    "Bsn1.C76_length_sound",
    "Bsn1.C76_der_sound",
    "Bsn1.C76_ber_sound",
    "Bsn1.C76_id_failure",
    "Bsn1.C76_length_failure",
    "Bsn1.C76_ber_failure",
    "Bsn1.C76_der_failure_partial",
    "Bsn1.C76_der_failure_lost_violated",
    "Bsn1.C76_der_failure_exact",
    "Bsn1.C76_interrupted_violated",
    "Bsn1.C76_interrupted_partial",
    "Bsn1.C76_id_exact",
    "Bsn1.C76_length_exact",
    "Bsn1.C76_der_exact",
    "Bsn1.C76_ber_exact"
   ],
   "note": "Soundness: every reader, every build. Failures: reported by Id, Length and Ber parsing at every position. False: read_u8 does not retry interruptions; Der::parse loses a failure after a part of the contents (_violated). What is returned for valid octets whenever and however often the reader fails, interruptions included (_exact). Missing: the property as stated, which is false. For octets that are not valid see C103."
  },
  {
   "property": "C74",
   "status": "proved",
   "theorems": [
    "Bsn1.C74_der_history",
    "Bsn1.C74_ber_history"
   ],
   "note": "Identifier of the initial value: any class, flag and number (Spec idOctets)."
  },
  {
   "property": "C75",
   "status": "proved",
   "theorems": [
    "Bsn1.C75_bool",
    "Bsn1.C75_integer",
    "Bsn1.C75_integer_type_independent",
    "Bsn1.C75_str",
    "Bsn1.C75_bytes",
    "Bsn1.C75_integer_injective"
   ],
   "note": "Strings and octets: as long as the value fits in isize::MAX."
  },
  {
   "property": "C77",
   "status": "proved",
   "theorems": [
    "Bsn1.C77_calls",
    "Bsn1.C77_values",
    "Bsn1.C77_blocks",
    "Bsn1.C77_balanced"
   ],
   "note": "Programs whose values and announced lengths fit in isize::MAX octets (beyond: C78). Memory model: Model/Buffer, Model/Raw."
  },
  {
   "property": "C78",
   "status": "partial",
   "theorems": [
    "Bsn1.C78_parse_partial",
    "Bsn1.C78_ber_parse_violated",
    "Bsn1.C78_der_parse_violated",
    "Bsn1.C78_der_parse_exact",
    "Bsn1.C78_ber_parse_exact",
    "Bsn1.C78_ber_parse_ub_iff",
    "Bsn1.C78_der_parse_ub_iff",
    "Bsn1.C78_reader_exact",
    "Bsn1.C78_reader_ub_iff"
   ],
   "note": "All readers and inputs as long as the list model returns (C23, C76). False: lengths of about isize::MAX make reserve break the contract of realloc (_violated). Which octets do so and which panic, for slices and for readers that deliver them in any pieces (_exact, _ub_iff)."
  },
  {
   "property": "C79",
   "status": "partial",
   "theorems": [
    "Bsn1.C79_any_reader_partial",
    "Bsn1.C79_filled",
    "Bsn1.C79_with_id_length_exact",
    "Bsn1.C79_with_id_length_partial",
    "Bsn1.C79_with_id_length_violated",
    "Bsn1.C79_index_violated",
    "Bsn1.C79_lying_reader_violated"
   ],
   "note": "The header is initialised, the contents after they are written. False: with_id_length itself and parsers with a reader that does not fill the buffer give uninitialised octets (_violated). C79_with_id_length_exact says exactly which octets with_id_length gives. With any reader whatever the parsers of Der and Ber do nothing undefined to memory (C79_any_reader_partial)."
  },
  {
   "property": "C80",
   "status": "partial",
   "theorems": [
    "Bsn1.C80_id_eq_iff",
    "Bsn1.C80_id_order_laws",
    "Bsn1.C80_id_order_partial",
    "Bsn1.C80_id_order_violated",
    "Bsn1.C80_id_order_exact"
   ],
   "note": "Equality and the laws: all identifiers. Order by class, flag, number: same count of octets or a number below 128. False in general: 16383 > 16384 (_violated). The order of any two identifiers (_exact)."
  },
  {
   "property": "C81",
   "status": "proved",
   "theorems": [
    "Bsn1.C81_to_bytes_in_buffer"
   ],
   "note": "64-bit usize."
  },
  {
   "property": "C82",
   "status": "partial",
   "theorems": [
    "Bsn1.C82_requests_partial",
    "Bsn1.C82_parse_violated",
    "Bsn1.C82_slice_requests_exact",
    "Bsn1.C82_slice_refused_exact",
    "Bsn1.C82_reader_requests_exact",
    "Bsn1.C82_reader_refused_exact"
   ],
   "note": "Successful parsing, Id::parse, new and with_id_length. False: ten octets that announce a long value make Der::parse and Ber::parse ask for any amount, before reading (_violated). For slices, and for readers that deliver octets in any pieces, the amount is settled whatever is returned: at most the larger of the octets and what a due header announces up to isize::MAX, and all of that is asked for (_exact). Missing: the property as stated, which is false."
  },
  {
   "property": "C83",
   "status": "proved",
   "theorems": [
    "Bsn1.C83_encoding_unique",
    "Bsn1.C83_to_der",
    "Bsn1.C83_parse_der_depth",
    "Bsn1.C83_parse_ber_depth",
    "Bsn1.C83_depth_monotone",
    "Bsn1.C83_round_trip"
   ],
   "note": "Recursive declarations in which the type occurs inside of constructed values; the program is the limit of its cuts at a depth. Round trip for types without hashed collections and skipped fields."
  },
  {
   "property": "C84",
   "status": "partial",
   "theorems": [
    "Bsn1.C84_nesting_unbounded_violated",
    "Bsn1.C84_nesting_partial",
    "Bsn1.C84_nesting_reached"
   ],
   "note": "False: the nesting grows with the input without a limit (_violated). Proved: it is at most half the number of octets, and that is reached (C84_nesting_reached)."
  },
  {
   "property": "C85",
   "status": "proved",
   "theorems": [
    "Bsn1.C85_little",
    "Bsn1.C85_universal",
    "Bsn1.C85_hash_iff",
    "Bsn1.C85_length_hash",
    "Bsn1.C85_length_hash_iff",
    "Bsn1.C85_map_get",
    "Bsn1.C85_map_get_universal"
   ],
   "note": "Histories of C35/C36 for both layouts. Maps are lists of entries searched by hash and equality."
  },
  {
   "property": "C86",
   "status": "partial",
   "theorems": [
    "Bsn1.C86_match_arm_partial",
    "Bsn1.C86_no_shadowing",
    "Bsn1.C86_raw_violated",
    "Bsn1.C86_match_arm_iff",
    "Bsn1.C86_struct_fields"
   ],
   "note": "Every variant without raw field names; the tables of identifier characters are a parameter. False: one field named r#… makes derive(Serialize) panic (_violated)."
  },
  {
   "property": "C87",
   "status": "proved",
   "theorems": [
    "Bsn1.C87_impl_header"
   ],
   "note": "Bounds, types and defaults are opaque text. Where clauses are copied and not modelled."
  },
  {
   "property": "C88",
   "status": "proved",
   "theorems": [
    "Bsn1.C88_try_from",
    "Bsn1.C88_string_der",
    "Bsn1.C88_string_ber",
    "Bsn1.C88_only_octets",
    "Bsn1.C88_round_trip",
    "Bsn1.C88_text",
    "Bsn1.C88_octets",
    "Bsn1.C88_text_order"
   ],
   "note": "UTF-8 is specified by the table of RFC 3629, not by the strings of Lean. Lifetimes of borrowed octets are left to the compiler."
  },
  {
   "property": "C89",
   "status": "proved",
   "theorems": [
    "Bsn1.C89_der_ref_parse_error_iff",
    "Bsn1.C89_ber_ref_parse_error_iff",
    "Bsn1.C89_parse_der_error_iff",
    "Bsn1.C89_parse_ber_error_iff",
    "Bsn1.C89_value_or_fault_der",
    "Bsn1.C89_value_or_fault_ber"
   ],
   "note": "Integers, booleans and strings of indefinite length panic in debug builds instead (C69). Errors are values of the model of C61: contexts and causes, without their texts."
  },
  {
   "property": "C90",
   "status": "partial",
   "theorems": [
    "Bsn1.C90_to_der_partial",
    "Bsn1.C90_accessors_partial",
    "Bsn1.C90_extend_exact",
    "Bsn1.C90_truncate_partial",
    "Bsn1.C90_truncate_exact",
    "Bsn1.C90_push_violated",
    "Bsn1.C90_truncate_violated",
    "Bsn1.C90_ber_same"
   ],
   "note": "to_der itself and the accessors are fine for every implementation. False for push, extend_from_slice and truncate (_violated): they trust the announced length; C90_extend_exact and C90_truncate_exact say exactly when that is undefined and what is shown otherwise."
  },
  {
   "property": "C91",
   "status": "partial",
   "theorems": [
    "Bsn1.C91_from_id_iterator_exact",
    "Bsn1.C91_well_formed_iff",
    "Bsn1.C91_from_id_iterator_partial",
    "Bsn1.C91_from_id_iterator_violated",
    "Bsn1.C91_push_violated",
    "Bsn1.C91_truncate_violated"
   ],
   "note": "False (_violated): the octets are counted on a clone of the iterator and then written unchecked. C91_from_id_iterator_exact says exactly when that is undefined; it is not if the iterator gives no more octets than its clone. C91_truncate_violated: the other way round, octets that were never written are shown."
  },
  {
   "property": "C92",
   "status": "partial",
   "theorems": [
    "Bsn1.C92_same_result",
    "Bsn1.C92_der_linear",
    "Bsn1.C92_ber_levels",
    "Bsn1.C92_ber_definite",
    "Bsn1.C92_ber_quadratic_partial",
    "Bsn1.C92_ber_linear_violated"
   ],
   "note": "True for DER (3 times the length, any type) and for BER with definite lengths, or with a factor that grows with the levels of the type. False (_violated) for BER into recursive types: nested indefinite lengths take exactly n²/8; C92_ber_quadratic_partial: never more than n²/4 + 3n. Work inside the collections of the standard library is not counted."
  },
  {
   "property": "C93",
   "status": "proved",
   "theorems": [
    "Bsn1.C93_conversions"
   ],
   "note": "Counted as if no call failed; a failure ends everything. Keys of hash maps have known sizes (otherwise see C42)."
  },
  {
   "property": "C94",
   "status": "partial",
   "theorems": [
    "Bsn1.C94_depths",
    "Bsn1.C94_depths_exact",
    "Bsn1.C94_levels",
    "Bsn1.C94_quadratic_partial",
    "Bsn1.C94_linear_violated"
   ],
   "note": "True with a factor that grows with the levels of the type; exactly the sum of the depths of the values where sizes are known. False (_violated) for recursive types: n values inside each other take n(n+1)/2 calls; C94_quadratic_partial: never more than the square. Counted as if no call failed."
  },
  {
   "property": "C95",
   "status": "proved",
   "theorems": [
    "Bsn1.C95_main_model",
    "Bsn1.C95_length_octets",
    "Bsn1.C95_length_parse_iff",
    "Bsn1.C95_parse_iff",
    "Bsn1.C95_same_result",
    "Bsn1.C95_read_iff",
    "Bsn1.C95_read_panics",
    "Bsn1.C95_der_new",
    "Bsn1.C95_exchange",
    "Bsn1.C95_integers",
    "Bsn1.C95_word_types"
   ],
   "note": "Model/Target is a second model of these functions for any word size; C95_main_model: for 8 octets it is the main one. Serializers and deserializers: C115. The raw memory is modelled for 64 bits only."
  },
  {
   "property": "C96",
   "status": "partial",
   "theorems": [
    "Bsn1.C96_edits_exact",
    "Bsn1.C96_stops",
    "Bsn1.C96_parse_exact",
    "Bsn1.C96_to_der_exact",
    "Bsn1.C96_to_der_hints",
    "Bsn1.C96_bounds_partial",
    "Bsn1.C96_amortised_violated",
    "Bsn1.C96_any_reader",
    "Bsn1.C96_any_octets",
    "Bsn1.C96_reader_exact"
   ],
   "note": "The exact number is given for histories of edits, for reading a value that is there (slices, and readers that deliver in any pieces), for Der::parse that has got a header whatever comes then, and for to_der. False (_violated) as to the last part: room is made for just what is needed, so n single appends take n calls, and Ber::parse calls the allocator for nearly every octet of headers beyond the buffer. For input of any kind, rejected or cut off, there is a bound by the octets taken (C96_any_octets, C96_any_reader), not the exact number; buffers of nested values in to_der are not counted."
  },
  {
   "property": "C97",
   "status": "proved",
   "theorems": [
    "Bsn1.C97_named_iff",
    "Bsn1.C97_named_reads",
    "Bsn1.C97_named_distinct"
   ],
   "note": ""
  },
  {
   "property": "C98",
   "status": "proved",
   "theorems": [
    "Bsn1.C98_accesses",
    "Bsn1.C98_rules",
    "Bsn1.C98_no_race",
    "Bsn1.C98_result",
    "Bsn1.C98_finishes",
    "Bsn1.C98_join",
    "Bsn1.C98_blocks"
   ],
   "note": "Threads are forked and joined by one program (repeatedly; not from within threads) and do not exchange buffers while they run. Accesses are to whole blocks; memory is sequentially consistent, which the absence of races justifies."
  },
  {
   "property": "C99",
   "status": "proved",
   "theorems": [
    "Bsn1.C99_parse",
    "Bsn1.C99_from_id_iterator",
    "Bsn1.C99_new",
    "Bsn1.C99_to_der",
    "Bsn1.C99_buffer",
    "Bsn1.C99_mut",
    "Bsn1.C99_caught",
    "Bsn1.C99_goes_on"
   ],
   "note": "Undefined behaviour and aborts that C78, C79, C90 and C91 describe without panics are the same here (the theorems say: exactly where Model/Raw has them). Panics inside the allocator, or in drop of the caller's values, are not modelled."
  },
  {
   "property": "C100",
   "status": "proved",
   "theorems": [
    "Bsn1.C100_moves",
    "Bsn1.C100_moves_inline",
    "Bsn1.C100_octets",
    "Bsn1.C100_copies"
   ],
   "note": "A Vec is modelled by its pointer, capacity and length; Vec::with_capacity and its drop as in C35."
  },
  {
   "property": "C101",
   "status": "partial",
   "theorems": [
    "Bsn1.C101_aliasing_iff",
    "Bsn1.C101_universal_partial",
    "Bsn1.C101_heap_partial",
    "Bsn1.C101_little_inline_violated",
    "Bsn1.C101_mut_violated",
    "Bsn1.C101_parse_mut",
    "Bsn1.C101_from_positive_iff"
   ],
   "note": "Violated; the exact set of calls that have undefined behaviour is C101_aliasing_iff. Left out: the implicit access of Tree Borrows when a protector ends; two buffers at the same time; reads of the caller's arguments."
  },
  {
   "property": "C102",
   "status": "proved",
   "theorems": [
    "Bsn1.C102_id_iff",
    "Bsn1.C102_length_iff",
    "Bsn1.C102_ber_iff",
    "Bsn1.C102_returns_with_last_octet",
    "Bsn1.C102_der_iff",
    "Bsn1.C102_der_returns_with_contents",
    "Bsn1.C102_read_iff",
    "Bsn1.C102_endless_iff",
    "Bsn1.C102_endless_ber"
   ],
   "note": "For Ber at most isizeMax octets may have come (the buffer is no longer). What asking means is up to the reader: Der::parse of empty contents calls read with an empty buffer, which many readers answer at once."
  },
  {
   "property": "C103",
   "status": "proved",
   "theorems": [
    "Bsn1.C103_cases",
    "Bsn1.C103_id_exact",
    "Bsn1.C103_length_exact",
    "Bsn1.C103_ber_exact",
    "Bsn1.C103_der_exact",
    "Bsn1.C103_read_ber_exact",
    "Bsn1.C103_read_der_exact"
   ],
   "note": "A reader is the list of its answers. For Ber and read_ber the octets are at most isizeMax. The results for the octets themselves are those of C01 to C23, C71 and C89."
  },
  {
   "property": "C104",
   "status": "partial",
   "theorems": [
    "Bsn1.C104_ber_iff",
    "Bsn1.C104_der",
    "Bsn1.C104_der_slice_iff",
    "Bsn1.C104_sound",
    "Bsn1.C104_read_ber",
    "Bsn1.C104_read_der",
    "Bsn1.C104_round_trip",
    "Bsn1.C104_end",
    "Bsn1.C104_end_violated"
   ],
   "note": "Violated in the last sentence: the end of the stream and a header cut short give the same error. For Der::parse and read_der the reader has to deliver the octets asked for at once (C25); each value has at most isize::MAX octets, the stream may be of any length."
  },
  {
   "property": "C105",
   "status": "proved",
   "theorems": [
    "Bsn1.C105_normal_form",
    "Bsn1.C105_same_iff",
    "Bsn1.C105_fixed_iff"
   ],
   "note": "The encodings are taken to fit in memory. Types with hashed collections or skipped fields are not restored exactly; for them see C43 and C46."
  },
  {
   "property": "C106",
   "status": "partial",
   "theorems": [
    "Bsn1.C106_ser_struct_iff",
    "Bsn1.C106_ser_transparent_iff",
    "Bsn1.C106_ser_enum_iff",
    "Bsn1.C106_ser_into_iff",
    "Bsn1.C106_ser_to_iff",
    "Bsn1.C106_de_struct_iff",
    "Bsn1.C106_de_enum_iff",
    "Bsn1.C106_de_from",
    "Bsn1.C106_params_iff",
    "Bsn1.C106_de_params",
    "Bsn1.C106_struct_partial",
    "Bsn1.C106_names_violated"
   ],
   "note": "Violated for the names W, buffer, id, length, contents, Some and Default; the exact conditions are proved. Only the search for the first segment of a path is modelled, not the check of types that follows, nor macros and primitive types (whose names the user might redefine too), nor constants that turn a variable into a pattern."
  },
  {
   "property": "C107",
   "status": "proved",
   "theorems": [
    "Bsn1.C107_read_ber_iff",
    "Bsn1.C107_read_der_iff",
    "Bsn1.C107_ber_round_trip",
    "Bsn1.C107_ber_to_der",
    "Bsn1.C107_injective",
    "Bsn1.C107_settled"
   ],
   "note": "Both directions as an equivalence: the recursive readers accept exactly the octets of documents and return that document; round trip, injectivity, no panic, and BER to DER with the factor 3."
  },
  {
   "property": "C108",
   "status": "proved",
   "theorems": [
    "Bsn1.C108_to_der_document",
    "Bsn1.C108_interchange_iff"
   ],
   "note": "The tree of a value is defined by recursion over the type (Spec/Tree.lean), independent of the octets; both readers of C107 return it. Interchange is an equivalence; the type read has no sets, maps, conversions or skipped fields."
  },
  {
   "property": "C109",
   "status": "partial",
   "theorems": [
    "Bsn1.C109_conforms_iff",
    "Bsn1.C109_conforms_partial",
    "Bsn1.C109_set_order_violated",
    "Bsn1.C109_set_struct_violated"
   ],
   "note": "Violated: HashSet and HashMap are written as SET OF in the order of iteration, and a struct with id = Set in the order of the declaration. The exact condition is C109_conforms_iff; everything else of the rules holds."
  },
  {
   "property": "C110",
   "status": "partial",
   "theorems": [
    "Bsn1.C110_same_decoder",
    "Bsn1.C110_parse_der_told_iff",
    "Bsn1.C110_parse_ber_told_iff",
    "Bsn1.C110_value_or_place_der",
    "Bsn1.C110_value_or_place_ber",
    "Bsn1.C110_messages_are_steps",
    "Bsn1.C110_messages_injective",
    "Bsn1.C110_kinds_distinct",
    "Bsn1.C110_display",
    "Bsn1.C110_report_partial",
    "Bsn1.C110_report_violated"
   ],
   "note": "Violated for reports made with `?` and anyhow: `impl std::error::Error for Error {}` has no source(), so such a report shows the outermost message only (C110_report_violated, exact in C110_report_partial). Where the messages lead, that they can be read back, and what {} and {:#} print is proved without restriction (BER: octets up to isize::MAX)."
  },
  {
   "property": "C111",
   "status": "partial",
   "theorems": [
    "Bsn1.C111_contract",
    "Bsn1.C111_contract_exact",
    "Bsn1.C111_documented_partial",
    "Bsn1.C111_documented_iff",
    "Bsn1.C111_documented_violated"
   ],
   "note": "That the arguments belong to one BER value is proved without restriction (BER: octets up to isize::MAX) and is the most an implementation may rely on. Violated as documented: BerRef::parse accepts an indefinite length with a primitive identifier and from_ber is then called with it (exact in C111_documented_iff)."
  },
  {
   "property": "C112",
   "status": "proved",
   "theorems": [
    "Bsn1.C112_reads",
    "Bsn1.C112_writes",
    "Bsn1.C112_old_reads_new_iff",
    "Bsn1.C112_old_reads_new_ber_iff",
    "Bsn1.C112_field_count",
    "Bsn1.C112_insert_exact"
   ],
   "note": "Both programs iterate over hashed collections in the same order and are of the same build profile; (3) is for types without hashed collections and skipped fields, since values of these are not restored exactly (C43), and with from_ber the errors of (3) are proved for release builds (in debug builds: no value)."
  },
  {
   "property": "C113",
   "status": "partial",
   "theorems": [
    "Bsn1.C113_finds",
    "Bsn1.C113_reads",
    "Bsn1.C113_set_class_partial",
    "Bsn1.C113_violated",
    "Bsn1.C113_set_primitive_partial",
    "Bsn1.C113_set_constructed_iff",
    "Bsn1.C113_set_pc_indefinite",
    "Bsn1.C113_leaf_contents",
    "Bsn1.C113_node_contents_iff",
    "Bsn1.C113_indefinite_contents_iff",
    "Bsn1.C113_indefinite_contents_violated",
    "Bsn1.C113_der",
    "Bsn1.C113_der_set_class"
   ],
   "note": "That the value is found, the octets around it are kept, and the octets are read again as described is proved without restriction for DER and, up to isize::MAX octets, for BER, except that inside of a value of indefinite length set_class or set_pc can make an empty value with number 0 an end-of-contents (exact in C113_set_class_partial, C113_set_primitive_partial). The contents of a value of indefinite length, of which its end-of-contents is part, are changed as described exactly if the new contents are again values followed by one end-of-contents (C113_indefinite_contents_iff); otherwise what was inside can come to stand behind (C113_indefinite_contents_violated)."
  },
  {
   "property": "C114",
   "status": "partial",
   "theorems": [
    "Bsn1.C114_reparse_violated",
    "Bsn1.C114_works",
    "Bsn1.C114_parse_iff",
    "Bsn1.C114_whole_iff",
    "Bsn1.C114_refused_partial",
    "Bsn1.C114_extend",
    "Bsn1.C114_truncate"
   ],
   "note": "That the instance works, and what its octets are parsed to, is proved without restriction (up to isize::MAX octets). Violated: octets that break the rule because something comes after the end-of-contents are parsed, to a shorter value (exact in C114_parse_iff, C114_refused_partial)."
  },
  {
   "property": "C115",
   "status": "partial",
   "theorems": [
    "Bsn1.C115_main_model",
    "Bsn1.C115_encode",
    "Bsn1.C115_parse",
    "Bsn1.C115_parse_iff",
    "Bsn1.C115_valid",
    "Bsn1.C115_read_iff",
    "Bsn1.C115_exchange",
    "Bsn1.C115_long_exact",
    "Bsn1.C115_long_vec_exact",
    "Bsn1.C115_write_der_violated"
   ],
   "note": "Proved for all supported types, every build and the three word sizes, for encodings that fit isize::MAX of the target. Violated: a release build writes a wrong length for contents of more than usize::MAX octets (C115_long_exact: what becomes of such a value of any type of known size, if each of its parts fits; parts that themselves do not fit, and types without size hints, are left out). Error texts are compared for parse, not for read."
  },
  {
   "property": "C116",
   "status": "partial",
   "theorems": [
    "Bsn1.C116_history",
    "Bsn1.C116_der",
    "Bsn1.C116_get",
    "Bsn1.C116_others",
    "Bsn1.C116_last",
    "Bsn1.C116_any_order_partial",
    "Bsn1.C116_order_violated"
   ],
   "note": "Proved for edits that keep the shape of the tree (classes of any value, contents of primitive ones; `set_pc` and the contents of constructed values are in C113 for one edit). Violated: an edit that makes a value inside a value of indefinite length read 00 00 hides the values behind it, so the order matters (the exception of C113); all theorems exclude exactly these edits."
  },
  {
   "property": "C117",
   "status": "proved",
   "theorems": [
    "Bsn1.C117_sent",
    "Bsn1.C117_no_wrong_value",
    "Bsn1.C117_nothing_lost"
   ],
   "note": "The values sent must be restorable (C43) and each encoding fit isize::MAX; the second part (nothing is lost) is for read_ber only: read_der loses values when data arrive in pieces (C25), but by the first part gives no wrong one. The sender stops at the first failure: to send the same value again on the same writer is not covered (the octets already taken stay there, C45)."
  },
  {
   "property": "C118",
   "status": "partial",
   "theorems": [
    "Bsn1.C118_main_model",
    "Bsn1.C118_definite_exact",
    "Bsn1.C118_indefinite_exact",
    "Bsn1.C118_new_indefinite_exact",
    "Bsn1.C118_history_exact",
    "Bsn1.C118_bigger_target",
    "Bsn1.C118_iterator_exact",
    "Bsn1.C118_iterator_violated"
   ],
   "note": "Proved for all histories in which each slice given to extend_from_slice leaves the target room for one word (longer ones cannot be in memory along with the value). Violated: from_id_iterator and from_id_iterator_indefinite of a release build write outside of the buffer when the sum of the lengths wraps around (C118_iterator_exact says when; C118_iterator_violated: four references to one slice of a quarter of the address space)."
  },
  {
   "property": "C119",
   "status": "partial",
   "theorems": [
    "Bsn1.C119_serialize_exact",
    "Bsn1.C119_deserialize_exact",
    "Bsn1.C119_never_violated",
    "Bsn1.C119_error_violated",
    "Bsn1.C119_anyhow_violated",
    "Bsn1.C119_documented_partial",
    "Bsn1.C119_bounds_kept",
    "Bsn1.C119_bounds_exact",
    "Bsn1.C119_plain_struct_exact",
    "Bsn1.C119_no_bound_added",
    "Bsn1.C119_instances"
   ],
   "note": "Violated three times: an enum without variants does not compile with derive(Serialize) (C119_never_violated); try_from with an error that is no std::error::Error does not compile (C119_error_violated), nor does any try_from in a crate that does not depend on anyhow (C119_anyhow_violated). C119_serialize_exact and C119_deserialize_exact say exactly what is asked for; C119_documented_partial: apart from these three cases it is what the documentation says. Lifetimes, const parameters and the arguments of types unknown to bsn1_serde are not modelled; that the names in generated code mean what they should is C106."
  },
  {
   "property": "C120",
   "status": "proved",
   "theorems": [
    "Bsn1.C120_simple_auth",
    "Bsn1.C120_library",
    "Bsn1.C120_round_trip",
    "Bsn1.C120_vec",
    "Bsn1.C120_btree_set",
    "Bsn1.C120_btree_map",
    "Bsn1.C120_hash_set",
    "Bsn1.C120_hash_map",
    "Bsn1.C120_converted",
    "Bsn1.C120_struct",
    "Bsn1.C120_enum",
    "Bsn1.C120_transparent"
   ],
   "note": ""
  },
  {
   "property": "C121",
   "status": "partial",
   "theorems": [
    "Bsn1.C121_raw_exact",
    "Bsn1.C121_raw",
    "Bsn1.C121_raw_returns",
    "Bsn1.C121_serde",
    "Bsn1.C121_serde_exact",
    "Bsn1.C121_cross",
    "Bsn1.C121_same_request_violated",
    "Bsn1.C121_empty_password_violated",
    "Bsn1.C121_extra_violated",
    "Bsn1.C121_tagged_violated"
   ],
   "note": "Holds: both round trips (C121_serde, C121_raw), each parses what the other sends (C121_cross), the parser of bsn1/README.md always returns (C121_raw_returns); C121_raw_exact and C121_serde_exact say which requests are accepted. Violated: the two never send the same octets (C121_same_request_violated), an empty password breaks a request of indefinite length (C121_empty_password_violated), octets after the password are accepted by one (C121_extra_violated), and two definitions in the documentation of the attribute are not those of the structs beside them (C121_tagged_violated)."
  },
  {
   "property": "C122",
   "status": "proved",
   "theorems": [
    "Bsn1.C122_struct",
    "Bsn1.C122_round_trip",
    "Bsn1.C122_transparent",
    "Bsn1.C122_enum",
    "Bsn1.C122_converted",
    "Bsn1.C122_accepts_exact",
    "Bsn1.C122_enum_accepts_exact",
    "Bsn1.C122_serialize",
    "Bsn1.C122_deserialize_exact",
    "Bsn1.C122_enum_serialize",
    "Bsn1.C122_enum_deserialize_exact"
   ],
   "note": ""
  },
  {
   "property": "C123",
   "status": "proved",
   "theorems": [
    "Bsn1.C123_lookup",
    "Bsn1.C123_replace",
    "Bsn1.C123_decoded",
    "Bsn1.C123_others"
   ],
   "note": ""
  },
  {
   "property": "C124",
   "status": "proved",
   "theorems": [
    "Bsn1.C124_der",
    "Bsn1.C124_ber",
    "Bsn1.C124_end_of_contents",
    "Bsn1.C124_path_iff"
   ],
   "note": ""
  },
  {
   "property": "C125",
   "status": "proved",
   "theorems": [
    "Bsn1.C125_der",
    "Bsn1.C125_ber",
    "Bsn1.C125_copy",
    "Bsn1.C125_key",
    "Bsn1.C125_end_of_contents"
   ],
   "note": ""
  },
  {
   "property": "C126",
   "status": "proved",
   "theorems": [
    "Bsn1.C126_append_der",
    "Bsn1.C126_append_map",
    "Bsn1.C126_append_ber",
    "Bsn1.C126_append_map_ber",
    "Bsn1.C126_indefinite",
    "Bsn1.C126_truncate",
    "Bsn1.C126_serialized"
   ],
   "note": ""
  },
  {
   "property": "C127",
   "status": "proved",
   "theorems": [
    "Bsn1.C127_lists",
    "Bsn1.C127_btree_set",
    "Bsn1.C127_hash_set",
    "Bsn1.C127_maps",
    "Bsn1.C127_calls",
    "Bsn1.C127_inside",
    "Bsn1.C127_change_der",
    "Bsn1.C127_change_ber",
    "Bsn1.C127_sent",
    "Bsn1.C127_renamed"
   ],
   "note": ""
  }
 ]
}