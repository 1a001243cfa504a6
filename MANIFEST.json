{
 "claims": [
  {
   "property": "C01",
   "status": "proved",
   "theorems": [
    "Verif.C01_iri_validation"
   ],
   "note": ""
  },
  {
   "property": "C02",
   "status": "proved",
   "theorems": [
    "Verif.C02_iri_reference_validation"
   ],
   "note": ""
  },
  {
   "property": "C03",
   "status": "proved",
   "theorems": [
    "Verif.C03_relative_ref_validation"
   ],
   "note": ""
  },
  {
   "property": "C04",
   "status": "partial",
   "theorems": [
    "Verif.C04_public_function_partial",
    "Verif.C04_absolute_validation_partial",
    "Verif.C04_absolute_validation_no_hash_partial",
    "Verif.C04_refuted"
   ],
   "note": "The property is false of the code: an absolute IRI followed by an empty fragment '#' is accepted (C04_refuted). The exact accepted language is proved, and the property itself for text without '#'."
  },
  {
   "property": "C05",
   "status": "proved",
   "theorems": [
    "Verif.C05_public_functions",
    "Verif.C05_scheme",
    "Verif.C05_userinfo",
    "Verif.C05_reg_name",
    "Verif.C05_port",
    "Verif.C05_path",
    "Verif.C05_path_segment",
    "Verif.C05_query",
    "Verif.C05_fragment"
   ],
   "note": ""
  },
  {
   "property": "C06",
   "status": "proved",
   "theorems": [
    "Verif.C06_host",
    "Verif.C06_authority",
    "Verif.C06_ipv6",
    "Verif.C06_ipv4"
   ],
   "note": ""
  },
  {
   "property": "C07",
   "status": "proved",
   "theorems": [
    "Verif.C07_upcasts",
    "Verif.C07_uri_is_iri"
   ],
   "note": ""
  },
  {
   "property": "C08",
   "status": "proved",
   "theorems": [
    "Verif.C08_exclusive",
    "Verif.C08_to_iri"
   ],
   "note": ""
  },
  {
   "property": "C09",
   "status": "proved",
   "theorems": [
    "Verif.C09_accessors_recompose",
    "Verif.C09_components_recompose"
   ],
   "note": ""
  },
  {
   "property": "C10",
   "status": "proved",
   "theorems": [
    "Verif.C10_unique_components"
   ],
   "note": ""
  },
  {
   "property": "C11",
   "status": "partial",
   "theorems": [
    "Verif.C11_splitter_agrees",
    "Verif.C11_iri_accessors",
    "Verif.C11_relative_accessors",
    "Verif.C11_absolute_accessors_partial",
    "Verif.C11_absolute_accessors_always",
    "Verif.C11_absolute_query_exact",
    "Verif.C11_absolute_query_refuted"
   ],
   "note": "False of the code for RiAbsoluteStr::query_str on absolute IRIs ending in '#' (C11_absolute_query_refuted); everything else is proved in full. C11_absolute_query_exact gives the accessor's result on exactly those inputs, in debug and release builds."
  },
  {
   "property": "C12",
   "status": "proved",
   "theorems": [
    "Verif.C12_authority_components",
    "Verif.C12_reg_name",
    "Verif.C12_reference_authority"
   ],
   "note": ""
  },
  {
   "property": "C13",
   "status": "proved",
   "theorems": [
    "Verif.C13_set_fragment",
    "Verif.C13_set_fragment_text",
    "Verif.C13_split_fragment",
    "Verif.C13_from_prefixed"
   ],
   "note": ""
  },
  {
   "property": "C14",
   "status": "proved",
   "theorems": [
    "Verif.C14_resolve",
    "Verif.C14_resolve_absolute_base",
    "Verif.C14_resolve_and_normalize",
    "Verif.C14_undot_without_percent"
   ],
   "note": ""
  },
  {
   "property": "C15",
   "status": "proved",
   "theorems": [
    "Verif.C15_resolve_valid",
    "Verif.C15_scheme_and_fragment",
    "Verif.C15_absolute_reference"
   ],
   "note": ""
  },
  {
   "property": "C16",
   "status": "proved",
   "theorems": [
    "Verif.C16_normalize_path",
    "Verif.C16_normalize_no_dots",
    "Verif.C16_no_dot_segments",
    "Verif.C16_no_dots_unchanged",
    "Verif.C16_resolve_path"
   ],
   "note": ""
  },
  {
   "property": "C17",
   "status": "proved",
   "theorems": [
    "Verif.C17_spec_unique",
    "Verif.C17_normalize_spec",
    "Verif.C17_normalize_preserve_spec",
    "Verif.C17_normalize_valid",
    "Verif.C17_normalize_absolute"
   ],
   "note": ""
  },
  {
   "property": "C18",
   "status": "proved",
   "theorems": [
    "Verif.C18_normalize_idempotent",
    "Verif.C18_resolve_normalized"
   ],
   "note": ""
  },
  {
   "property": "C19",
   "status": "partial",
   "theorems": [
    "Verif.C19_public_methods_partial",
    "Verif.C19_is_normalized_exact",
    "Verif.C19_is_normalized_preserve_exact",
    "Verif.C19_is_normalized_rfc3986_exact",
    "Verif.C19_is_normalized_partial",
    "Verif.C19_fixed_is_normalized",
    "Verif.C19_refuted"
   ],
   "note": "False of the code for an authority ending in an empty port (C19_refuted: is_normalized ignores the ':' that normalize drops). Proved: exactly what the three checks decide on every valid IRI (_exact), and the property itself for every IRI without an empty port (_partial)."
  },
  {
   "property": "C20",
   "status": "proved",
   "theorems": [
    "Verif.C20_pctNormText_meaning",
    "Verif.C20_query_fragment",
    "Verif.C20_path",
    "Verif.C20_authority"
   ],
   "note": ""
  },
  {
   "property": "C21",
   "status": "partial",
   "theorems": [
    "Verif.C21_ensure",
    "Verif.C21_ensure_output",
    "Verif.C21_resolve",
    "Verif.C21_resolve_and_normalize_exact",
    "Verif.C21_resolve_and_normalize_refuted"
   ],
   "note": "Proved in full for ensure_rfc3986_normalizable on an IRI and for resolve without normalization; false of the code for resolve followed by and_normalize on same-document references (C21_resolve_and_normalize_refuted). C21_resolve_and_normalize_exact characterises the answer on every base and reference: right on every reference that is not same-document, always 'normalizable' on the others."
  },
  {
   "property": "C22",
   "status": "proved",
   "theorems": [
    "Verif.C22_encode",
    "Verif.C22_constructors",
    "Verif.C22_minimal",
    "Verif.C22_injective",
    "Verif.C22_normal"
   ],
   "note": ""
  },
  {
   "property": "C23",
   "status": "partial",
   "theorems": [
    "Verif.C23_next",
    "Verif.C23_fragments",
    "Verif.C23_to_bytes",
    "Verif.C23_into_bytes_partial",
    "Verif.C23_into_bytes_exact",
    "Verif.C23_refuted",
    "Verif.C23_text",
    "Verif.C23_into_string_partial",
    "Verif.C23_into_string_exact"
   ],
   "note": "Fragment iterator and to_bytes proved in full; what into_bytes and into_string return is proved exactly for every input (C23_into_bytes_exact, C23_into_string_exact), and that it is the percent-decoding exactly on inputs without both a stray % and a triplet; the full claim is false of the code (C23_refuted: %zz%41 -> %zA)."
  },
  {
   "property": "C24",
   "status": "proved",
   "theorems": [
    "Verif.C24_variants_agree",
    "Verif.C24_encode_to_uri",
    "Verif.C24_components",
    "Verif.C24_query_fragment",
    "Verif.C24_ascii",
    "Verif.C24_as_uri"
   ],
   "note": ""
  },
  {
   "property": "C25",
   "status": "partial",
   "theorems": [
    "Verif.C25_mask_password",
    "Verif.C25_mask_no_password",
    "Verif.C25_mask_hides",
    "Verif.C25_replace_no_userinfo_partial",
    "Verif.C25_replace_no_colon_partial",
    "Verif.C25_replace_refuted"
   ],
   "note": "mask_password proved in full; false of the code for replace_password on user information without a colon (C25_replace_refuted: the replacement is appended to the user name), whose exact effect is proved instead."
  },
  {
   "property": "C26",
   "status": "partial",
   "theorems": [
    "Verif.C26_remove_password_partial",
    "Verif.C26_remove_nonempty_password",
    "Verif.C26_refuted",
    "Verif.C26_no_colon_exact",
    "Verif.C26_no_colon_valid"
   ],
   "note": "remove_nonempty_password_inline proved in full; remove_password_inline proved where there is a password or no user information; false of the code for user information without a colon (C26_refuted), for which the exact effect is proved (C26_no_colon_exact)."
  },
  {
   "property": "C27",
   "status": "partial",
   "theorems": [
    "Verif.C27_replace_host_partial",
    "Verif.C27_no_authority_partial",
    "Verif.C27_debug_exact",
    "Verif.C27_debug_refuted"
   ],
   "note": "Proved for release builds, and for debug builds except RiString::replace_host on an IRI with a non-empty fragment, where the assertion uses the wrong validator and the property is false (C27_debug_refuted); C27_debug_exact: there it always panics."
  },
  {
   "property": "C28",
   "status": "partial",
   "theorems": [
    "Verif.C28_setters",
    "Verif.C28_build_raw",
    "Verif.C28_output_valid_partial",
    "Verif.C28_valid_iff",
    "Verif.C28_path_refuted",
    "Verif.C28_path_becomes_query",
    "Verif.C28_path_panics",
    "Verif.C28_normalized_any_path",
    "Verif.C28_normalized_refuted",
    "Verif.C28_chunks",
    "Verif.C28_build_exact",
    "Verif.C28_path_panics_late"
   ],
   "note": "Setters, acceptance and displayed components proved for every setting; validity of the output proved when the path is generated by the grammar (C28_valid_iff: exactly then), and (with normalization, neither scheme nor authority) the path does not normalize to exactly '/'. False of the code otherwise: the characters of the path are never checked (C28_path_refuted, C28_path_becomes_query, C28_path_panics), C28_normalized_refuted. What is built from other paths is proved too: C28_build_raw, C28_normalized_any_path (every path without a stray %), C30_root_exact. C28_build_exact: build with the early exit of the code (and all debug assertions) agrees with the text-level model of build except on settings whose value cannot be displayed."
  },
  {
   "property": "C29",
   "status": "partial",
   "theorems": [
    "Verif.C29_round_trip",
    "Verif.C29_absolute_partial",
    "Verif.C29_absolute_refuted",
    "Verif.C29_absolute_exact",
    "Verif.C29_rebuild_normalized"
   ],
   "note": "Proved in full for the reference, IRI and relative types; for the absolute type proved for every string of the RFC rule; false of the code for the other strings its validator accepts, those ending in '#' (C29_absolute_refuted): C29_absolute_exact proves that the builder rejects exactly those."
  },
  {
   "property": "C30",
   "status": "partial",
   "theorems": [
    "Verif.C30_build_normalized_partial",
    "Verif.C30_equals_normalize",
    "Verif.C30_root_refuted",
    "Verif.C30_root_exact",
    "Verif.C30_ensure"
   ],
   "note": "Proved for every grammatical path except where there is neither scheme nor authority and an absolute path normalizes to exactly '/'; false of the code there (C30_root_refuted), and the exact output there is C30_root_exact."
  },
  {
   "property": "C31",
   "status": "partial",
   "theorems": [
    "Verif.C31_accepts",
    "Verif.C31_rfc_accepted",
    "Verif.C31_accepts_partial",
    "Verif.C31_panics",
    "Verif.C31_ascii_no_panic",
    "Verif.C31_no_panic_refuted",
    "Verif.C31_zero_length_refuted",
    "Verif.C31_unicode_literal_refuted",
    "Verif.C31_append",
    "Verif.C31_varname"
   ],
   "note": "The accepted language, the panicking inputs and the accepted variable names are characterised exactly for every string; every RFC 6570 template over ASCII literals is accepted; the property as stated is false of the code (C31_no_panic_refuted: '%a\u00e9' panics; C31_zero_length_refuted: '{v:0}' accepted), and over-acceptance is confined to variable names and prefix lengths (C31_accepts_partial)."
  },
  {
   "property": "C32",
   "status": "partial",
   "theorems": [
    "Verif.C32_variables_partial",
    "Verif.C32_cover",
    "Verif.C32_variables_rfc",
    "Verif.C32_no_panic_refuted"
   ],
   "note": "Proved in full for every RFC 6570 template and, for every accepted template, exactly when it panics (a prefix length above 65535); 'never panics' is false of the code (C32_no_panic_refuted: '{v:65536}')."
  },
  {
   "property": "C33",
   "status": "partial",
   "theorems": [
    "Verif.C33_exact",
    "Verif.C33_variables_only",
    "Verif.C33_expand_partial",
    "Verif.C33_agrees",
    "Verif.C33_rfc_partial",
    "Verif.C33_plain",
    "Verif.C33_simple_ascii",
    "Verif.C33_reserved_nonascii_refuted",
    "Verif.C33_data_loss_refuted",
    "Verif.C33_prefix_debug_refuted",
    "Verif.C33_reserved_prefix_refuted",
    "Verif.C33_empty_item_refuted",
    "Verif.C33_name_refuted",
    "Verif.C33_fragments",
    "Verif.C33_reserved_exact",
    "Verif.C33_reserved_item_exact",
    "Verif.C33_reserved_prefix_exact",
    "Verif.C33_prefix_exact"
   ],
   "note": "Exact output proved for every accepted template without prefix modifier and without + and # (C33_plain, every value) and otherwise for all values that the crate can handle (C33_expand_partial; C33_simple_ascii: all plain ASCII values); equality with RFC 6570 Appendix A in the situations of Agrees (C33_rfc_partial). The property as stated is false of the code: C33_reserved_nonascii_refuted ({+v} with a value that starts with a non-ASCII character always panics), C33_data_loss_refuted, C33_prefix_debug_refuted, C33_reserved_prefix_refuted, C33_empty_item_refuted, C33_name_refuted. What the crate does with every other string value (text lost, panics) is proved exactly: C33_reserved_exact, C33_reserved_item_exact, C33_reserved_prefix_exact, C33_prefix_exact, for the unique decomposition of C33_fragments; and C33_exact gives the outcome (text, type error with position, panic) for every accepted template and every context. C33_variables_only is full."
  },
  {
   "property": "C34",
   "status": "proved",
   "theorems": [
    "Verif.C34_agree",
    "Verif.C34_same_error",
    "Verif.C34_type_error_iff",
    "Verif.C34_error_location"
   ],
   "note": "For every template text and every read-only context. If the static check reports a type error, dynamic expansion reports the same one or panics on an earlier value (it expands as it goes); it does not panic for values the crate can expand (C34_same_error)."
  },
  {
   "property": "C35",
   "status": "proved",
   "theorems": [
    "Verif.C35_literal",
    "Verif.C35_concat",
    "Verif.C35_value_text",
    "Verif.C35_no_injection"
   ],
   "note": ""
  },
  {
   "property": "C36",
   "status": "proved",
   "theorems": [
    "Verif.C36_eq_str_display",
    "Verif.C36_eq_str_display_chunks",
    "Verif.C36_eq_needs_honest",
    "Verif.C36_write_to_slice",
    "Verif.C36_write_to_slice_total",
    "Verif.C36_try_append_to_string",
    "Verif.C36_append_ok",
    "Verif.C36_try_to_string",
    "Verif.C36_normalized_dedicated",
    "Verif.C36_mapped_dedicated",
    "Verif.C36_built_dedicated",
    "Verif.C36_masked_dedicated"
   ],
   "note": "For every Display implementation that passes write errors on (C36_eq_needs_honest shows the need), every chunking, every buffer and every behaviour of the allocator; the dedicated strings of Built in the situations of C28."
  },
  {
   "property": "C37",
   "status": "proved",
   "theorems": [
    "Verif.C37_prior_byte2",
    "Verif.C37_find",
    "Verif.C37_rfind",
    "Verif.C37_memchr",
    "Verif.C37_wrapped",
    "Verif.C37_hexdigits",
    "Verif.C37_core_utf8"
   ],
   "note": ""
  },
  {
   "property": "C38",
   "status": "proved",
   "theorems": [
    "Verif.C38_from_text",
    "Verif.C38_from_bytes",
    "Verif.C38_bytes_of_text",
    "Verif.C38_no_panic",
    "Verif.C38_casts",
    "Verif.C38_cmp",
    "Verif.C38_order"
   ],
   "note": "For all seven validated types. The template constructors panic where the validator does (C31); everywhere else no constructor panics."
  },
  {
   "property": "C39",
   "status": "proved",
   "theorems": [
    "Verif.C39_insert",
    "Verif.C39_history"
   ],
   "note": ""
  },
  {
   "property": "C40",
   "status": "proved",
   "theorems": [
    "Verif.C40_scheme_host_port",
    "Verif.C40_lower_case"
   ],
   "note": ""
  },
  {
   "property": "C41",
   "status": "proved",
   "theorems": [
    "Verif.C41_expansion_chars",
    "Verif.C41_uri_ascii"
   ],
   "note": ""
  },
  {
   "property": "C42",
   "status": "proved",
   "theorems": [
    "Verif.C42_hooks"
   ],
   "note": ""
  },
  {
   "property": "C43",
   "status": "proved",
   "theorems": [
    "Verif.C43_cut_unique",
    "Verif.C43_iri_error",
    "Verif.C43_absolute_iri_error",
    "Verif.C43_relative_error",
    "Verif.C43_reference_error",
    "Verif.C43_authority_error",
    "Verif.C43_component_error",
    "Verif.C43_message_distinct",
    "Verif.C43_message_text"
   ],
   "note": ""
  },
  {
   "property": "C44",
   "status": "proved",
   "theorems": [
    "Verif.C44_builder_error"
   ],
   "note": ""
  },
  {
   "property": "C45",
   "status": "proved",
   "theorems": [
    "Verif.C45_first_fault",
    "Verif.C45_exactly_one",
    "Verif.C45_position_bound",
    "Verif.C45_points_at_fault_refuted",
    "Verif.C45_message",
    "Verif.C45_source",
    "Verif.C45_bytes",
    "Verif.C45_message_distinct"
   ],
   "note": "The position reported for a bad prefix length is one byte after the offending byte (C45_points_at_fault_refuted); the specification BadVarspec states this displacement."
  },
  {
   "property": "C46",
   "status": "proved",
   "theorems": [
    "Verif.C46_empty_reference",
    "Verif.C46_fragment_reference",
    "Verif.C46_query_reference",
    "Verif.C46_base_fragment_ignored",
    "Verif.C46_base_query_ignored",
    "Verif.C46_network_path_reference",
    "Verif.C46_absolute_path_reference",
    "Verif.C46_base_last_segment_ignored",
    "Verif.C46_resolved_is_stable",
    "Verif.C46_iri_without_dots",
    "Verif.C46_same_document_not_stable",
    "Verif.C46_normalize_after_resolve"
   ],
   "note": ""
  },
  {
   "property": "C47",
   "status": "proved",
   "theorems": [
    "Verif.C47_resolve_commutes"
   ],
   "note": ""
  },
  {
   "property": "C48",
   "status": "proved",
   "theorems": [
    "Verif.C48_normalize_commutes",
    "Verif.C48_normalize_preserve_commutes",
    "Verif.C48_equivalence_preserved",
    "Verif.C48_equivalence_iff",
    "Verif.C48_private_use"
   ],
   "note": ""
  },
  {
   "property": "C49",
   "status": "proved",
   "theorems": [
    "Verif.C49_canonical",
    "Verif.C49_equivalent_to_normal_form",
    "Verif.C49_preserve_canonical",
    "Verif.C49_preserve_refines"
   ],
   "note": ""
  },
  {
   "property": "C50",
   "status": "proved",
   "theorems": [
    "Verif.C50_ipv4",
    "Verif.C50_ipv6",
    "Verif.C50_port",
    "Verif.C50_injective"
   ],
   "note": ""
  },
  {
   "property": "C51",
   "status": "partial",
   "theorems": [
    "Verif.C51_encode_to_uri",
    "Verif.C51_replace_host",
    "Verif.C51_replace_host_no_authority",
    "Verif.C51_mask_partial",
    "Verif.C51_mask_no_userinfo_partial",
    "Verif.C51_mask_refuted",
    "Verif.C51_try_append_to_string"
   ],
   "note": "Proved for every allocator for all the operations except mask_password().try_to_dedicated_string() of references without user information, where the property is false: the code uses the infallible to_owned and aborts (C51_mask_refuted; exact behaviour in C51_mask_no_userinfo_partial)."
  },
  {
   "property": "C52",
   "status": "partial",
   "theorems": [
    "Verif.C52_history_partial",
    "Verif.C52_refuted"
   ],
   "note": "Proved for every history without the two calls for which it is false of the code: remove_password_inline on user information without a colon (C52_refuted: safe calls make a UriString that is not a URI) and, in debug builds, RiString::replace_host with a non-empty fragment (C27_debug_exact)."
  },
  {
   "property": "C53",
   "status": "partial",
   "theorems": [
    "Verif.C53_typed_accessors",
    "Verif.C53_absolute_partial",
    "Verif.C53_absolute_exact",
    "Verif.C53_absolute_refuted",
    "Verif.C53_resolver"
   ],
   "note": "Proved for references, IRIs, relative references, the resolver, and absolute IRIs without '#'. False of the code for RiAbsoluteStr::query() on accepted absolute IRIs ending in '#' (C53_absolute_refuted: debug panic, invalid query value in release). C53_absolute_exact gives the result on exactly those inputs."
  },
  {
   "property": "C54",
   "status": "proved",
   "theorems": [
    "Verif.C54_dynamic",
    "Verif.C54_dynamic_panic",
    "Verif.C54_write_failed_iff",
    "Verif.C54_infallible",
    "Verif.C54_static",
    "Verif.C54_error_position",
    "Verif.C54_hooks"
   ],
   "note": ""
  },
  {
   "property": "C55",
   "status": "partial",
   "theorems": [
    "Verif.C55_simple",
    "Verif.C55_struct_partial",
    "Verif.C55_plain",
    "Verif.C55_ascii_partial",
    "Verif.C55_integers_partial",
    "Verif.C55_negative_exact_partial",
    "Verif.C55_negative_refuted",
    "Verif.C55_type_error_iff",
    "Verif.C55_meaning"
   ],
   "note": "Proved in full for SimpleContext, for structs whose texts are each written in one call (C55_struct_partial: same outcome as the SimpleContext with the same meaning), for all structs under templates without prefix modifiers and without + and # (C55_plain), and for all plain ASCII values however written (C55_ascii_partial; C55_integers_partial gives the RFC 6570 text). False of the code for negative integers with a prefix modifier under + and # (C55_negative_refuted: {+n:3} of -1234 gives -123); exact result in C55_negative_exact_partial. C33_exact covers all values, however they are written."
  },
  {
   "property": "C56",
   "status": "proved",
   "theorems": [
    "Verif.C56_try_from",
    "Verif.C56_valid"
   ],
   "note": ""
  },
  {
   "property": "C57",
   "status": "proved",
   "theorems": [
    "Verif.C57_builder",
    "Verif.C57_userinfo",
    "Verif.C57_faithful",
    "Verif.C57_mask",
    "Verif.C57_mask_debug"
   ],
   "note": ""
  },
  {
   "property": "C58",
   "status": "partial",
   "theorems": [
    "Verif.C58_padding",
    "Verif.C58_default",
    "Verif.C58_built_partial",
    "Verif.C58_built_exact_partial",
    "Verif.C58_normalized_exact_partial",
    "Verif.C58_built_refuted",
    "Verif.C58_mask_partial",
    "Verif.C58_mask_exact_partial",
    "Verif.C58_mask_refuted"
   ],
   "note": "False of the code (C58_built_refuted, C58_mask_refuted): `{:10}` pads the user information, an IPv4 address, or the place of the masked password, giving text that is not an IRI. Proved: default options, the property for all settings that do not take options, and the exact text displayed in the other cases (_exact)."
  },
  {
   "property": "C59",
   "status": "proved",
   "theorems": [
    "Verif.C59_owned",
    "Verif.C59_borrowed",
    "Verif.C59_round_trip"
   ],
   "note": "Panics k s only holds for templates on which the validator itself panics (C31, defect 11)."
  },
  {
   "property": "C60",
   "status": "proved",
   "theorems": [
    "Verif.C60_resolve",
    "Verif.C60_normalize",
    "Verif.C60_built",
    "Verif.C60_built_raw",
    "Verif.C60_encode_to_uri",
    "Verif.C60_percent_encoded",
    "Verif.C60_mask_password",
    "Verif.C60_replace_password",
    "Verif.C60_displays_text",
    "Verif.C60_ensure_rfc3986",
    "Verif.C60_path_characteristic",
    "Verif.C60_is_pct_case_normalized"
   ],
   "note": "C60_built is for every built value whose text exists: a normalizing builder with an ill-formed path panics (C30, defect list); C60_displays_text spells out the specification `Displays`."
  },
  {
   "property": "C61",
   "status": "partial",
   "theorems": [
    "Verif.C61_validation",
    "Verif.C61_components",
    "Verif.C61_iri_conversions",
    "Verif.C61_to_iri",
    "Verif.C61_set_fragment",
    "Verif.C61_uri_conversions",
    "Verif.C61_paths_and_hosts",
    "Verif.C61_absolute_query_partial",
    "Verif.C61_refuted",
    "Verif.C61_no_overflow",
    "Verif.C61_overflow_refuted"
   ],
   "note": "C61_validation, C61_components, C61_iri_conversions, C61_to_iri, C61_set_fragment, C61_uri_conversions and C61_paths_and_hosts are full. False of the code in the places of C61_refuted and C61_overflow_refuted; overflow checks are an opaque constant of the model, so that every other theorem is about builds with and without them; C61_absolute_query_partial is the part of query_str/query for which it holds (C11_absolute_query_exact and C53_absolute_exact are the rest). The assertions of Display implementations are C60, those of template expansion C33/C34, those of edits C25-C27, of dedicated strings C36."
  },
  {
   "property": "C62",
   "status": "proved",
   "theorems": [
    "Verif.C62_dynamic",
    "Verif.C62_static",
    "Verif.C62_infallible",
    "Verif.C62_visit_all",
    "Verif.C62_rule_needed"
   ],
   "note": ""
  },
  {
   "property": "C63",
   "status": "proved",
   "theorems": [
    "Verif.C63_normalize_resolved",
    "Verif.C63_reference",
    "Verif.C63_base_iff",
    "Verif.C63_base",
    "Verif.C63_normalized_base",
    "Verif.C63_condition_needed"
   ],
   "note": ""
  },
  {
   "property": "C64",
   "status": "proved",
   "theorems": [
    "Verif.C64_components",
    "Verif.C64_anchored",
    "Verif.C64_origin",
    "Verif.C64_every_template",
    "Verif.C64_unanchored"
   ],
   "note": ""
  },
  {
   "property": "C65",
   "status": "proved",
   "theorems": [
    "Verif.C65_read_back",
    "Verif.C65_injective",
    "Verif.C65_query",
    "Verif.C65_other_operators"
   ],
   "note": ""
  },
  {
   "property": "C66",
   "status": "proved",
   "theorems": [
    "Verif.C66_components",
    "Verif.C66_step",
    "Verif.C66_history",
    "Verif.C66_progress",
    "Verif.C66_last_write_wins",
    "Verif.C66_commute"
   ],
   "note": ""
  },
  {
   "property": "C67",
   "status": "proved",
   "theorems": [
    "Verif.C67_appendix_b",
    "Verif.C67_validation",
    "Verif.C67_total"
   ],
   "note": ""
  },
  {
   "property": "C68",
   "status": "proved",
   "theorems": [
    "Verif.C68_contained",
    "Verif.C68_same_origin",
    "Verif.C68_climbs",
    "Verif.C68_iff"
   ],
   "note": ""
  },
  {
   "property": "C69",
   "status": "proved",
   "theorems": [
    "Verif.C69_normalize",
    "Verif.C69_normalize_buffer",
    "Verif.C69_resolve",
    "Verif.C69_encode_to_uri",
    "Verif.C69_percent_encode",
    "Verif.C69_percent_decode"
   ],
   "note": ""
  },
  {
   "property": "C70",
   "status": "proved",
   "theorems": [
    "Verif.C70_round_trip",
    "Verif.C70_uri",
    "Verif.C70_normalized",
    "Verif.C70_normalizing_builder"
   ],
   "note": ""
  },
  {
   "property": "C71",
   "status": "partial",
   "theorems": [
    "Verif.C71_programs_partial",
    "Verif.C71_exact_partial",
    "Verif.C71_refuted"
   ],
   "note": "False of the code for the calls of Prog.Bad (C71_refuted): remove_password_inline on some user information without a colon, replace_host of an IRI with a fragment in debug builds, query() of an absolute IRI that ends in #, UriTemplateStr::new on the texts of C31_panics, builders with an ungrammatical path or the root path case. Proved for all programs without them (C71_programs_partial); C71_exact_partial shows that, apart from builders, exactly these calls are at fault."
  },
  {
   "property": "C72",
   "status": "proved",
   "theorems": [
    "Verif.C72_follow",
    "Verif.C72_one_reference",
    "Verif.C72_condition_needed",
    "Verif.C72_base_condition_needed"
   ],
   "note": ""
  },
  {
   "property": "C73",
   "status": "proved",
   "theorems": [
    "Verif.C73_borrow",
    "Verif.C73_hash_map",
    "Verif.C73_tree_map"
   ],
   "note": ""
  },
  {
   "property": "C74",
   "status": "proved",
   "theorems": [
    "Verif.C74_normalize",
    "Verif.C74_removal",
    "Verif.C74_history",
    "Verif.C74_congruence",
    "Verif.C74_encode",
    "Verif.C74_reg_name_spelling"
   ],
   "note": ""
  },
  {
   "property": "C75",
   "status": "proved",
   "theorems": [
    "Verif.C75_edits",
    "Verif.C75_normalize",
    "Verif.C75_agrees"
   ],
   "note": ""
  },
  {
   "property": "C76",
   "status": "proved",
   "theorems": [
    "Verif.C76_normalize",
    "Verif.C76_uri",
    "Verif.C76_resolve",
    "Verif.C76_template"
   ],
   "note": ""
  },
  {
   "property": "C77",
   "status": "proved",
   "theorems": [
    "Verif.C77_mask_iff",
    "Verif.C77_history",
    "Verif.C77_same_calls",
    "Verif.C77_forgotten",
    "Verif.C77_ascii_question"
   ],
   "note": ""
  },
  {
   "property": "C78",
   "status": "proved",
   "theorems": [
    "Verif.C78_history",
    "Verif.C78_edit",
    "Verif.C78_normalized",
    "Verif.C78_foreign",
    "Verif.C78_condition_needed"
   ],
   "note": ""
  },
  {
   "property": "C79",
   "status": "proved",
   "theorems": [
    "Verif.C79_convert_last",
    "Verif.C79_step",
    "Verif.C79_uri_as_iri",
    "Verif.C79_host_needed"
   ],
   "note": ""
  },
  {
   "property": "C80",
   "status": "proved",
   "theorems": [
    "Verif.C80_percent_encode",
    "Verif.C80_expand",
    "Verif.C80_expand_valid",
    "Verif.C80_not_conversely",
    "Verif.C80_build",
    "Verif.C80_build_normalizing"
   ],
   "note": ""
  },
  {
   "property": "C81",
   "status": "proved",
   "theorems": [
    "Verif.C81_buffers",
    "Verif.C81_fragments",
    "Verif.C81_escape",
    "Verif.C81_escape_prefix",
    "Verif.C81_escape_string"
   ],
   "note": ""
  },
  {
   "property": "C82",
   "status": "proved",
   "theorems": [
    "Verif.C82_same",
    "Verif.C82_normalize",
    "Verif.C82_resolve",
    "Verif.C82_linear",
    "Verif.C82_attained",
    "Verif.C82_not_linear"
   ],
   "note": ""
  },
  {
   "property": "C83",
   "status": "proved",
   "theorems": [
    "Verif.C83_refines",
    "Verif.C83_normalize_agree_iff",
    "Verif.C83_resolve_agree_iff",
    "Verif.C83_opaque",
    "Verif.C83_contained",
    "Verif.C83_contained_refuted"
   ],
   "note": ""
  },
  {
   "property": "C84",
   "status": "proved",
   "theorems": [
    "Verif.C84_cut",
    "Verif.C84_form_continuation",
    "Verif.C84_cut_comma",
    "Verif.C84_drop",
    "Verif.C84_drop_expression",
    "Verif.C84_conditions_needed"
   ],
   "note": ""
  },
  {
   "property": "C85",
   "status": "proved",
   "theorems": [
    "Verif.C85_same",
    "Verif.C85_linear",
    "Verif.C85_full"
   ],
   "note": ""
  },
  {
   "property": "C86",
   "status": "proved",
   "theorems": [
    "Verif.C86_size",
    "Verif.C86_tight"
   ],
   "note": ""
  },
  {
   "property": "C87",
   "status": "proved",
   "theorems": [
    "Verif.C87_same",
    "Verif.C87_linear",
    "Verif.C87_scheme"
   ],
   "note": ""
  },
  {
   "property": "C88",
   "status": "proved",
   "theorems": [
    "Verif.C88_same",
    "Verif.C88_linear",
    "Verif.C88_full"
   ],
   "note": ""
  },
  {
   "property": "C89",
   "status": "proved",
   "theorems": [
    "Verif.C89_exact",
    "Verif.C89_size"
   ],
   "note": ""
  },
  {
   "property": "C90",
   "status": "proved",
   "theorems": [
    "Verif.C90_same",
    "Verif.C90_linear"
   ],
   "note": ""
  },
  {
   "property": "C91",
   "status": "proved",
   "theorems": [
    "Verif.C91_same",
    "Verif.C91_normalize",
    "Verif.C91_resolve",
    "Verif.C91_attained"
   ],
   "note": ""
  },
  {
   "property": "C92",
   "status": "proved",
   "theorems": [
    "Verif.C92_network_path",
    "Verif.C92_same_authority",
    "Verif.C92_reachable",
    "Verif.C92_sufficient",
    "Verif.C92_normalized",
    "Verif.C92_exact",
    "Verif.C92_opaque"
   ],
   "note": ""
  },
  {
   "property": "C93",
   "status": "proved",
   "theorems": [
    "Verif.C93_relative",
    "Verif.C93_empty_path",
    "Verif.C93_no_directory",
    "Verif.C93_absolute_path"
   ],
   "note": ""
  },
  {
   "property": "C94",
   "status": "proved",
   "theorems": [
    "Verif.C94_same",
    "Verif.C94_mask",
    "Verif.C94_remove_password",
    "Verif.C94_replace_host",
    "Verif.C94_set_fragment",
    "Verif.C94_full"
   ],
   "note": ""
  },
  {
   "property": "C95",
   "status": "proved",
   "theorems": [
    "Verif.C95_same",
    "Verif.C95_raw",
    "Verif.C95_normalized"
   ],
   "note": ""
  },
  {
   "property": "C96",
   "status": "proved",
   "theorems": [
    "Verif.C96_same",
    "Verif.C96_linear"
   ],
   "note": ""
  },
  {
   "property": "C97",
   "status": "proved",
   "theorems": [
    "Verif.C97_same",
    "Verif.C97_linear"
   ],
   "note": ""
  }
 ]
}