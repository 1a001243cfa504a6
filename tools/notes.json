{
 "C04": [
  "partial",
  "The property is false of the code: an absolute IRI followed by an empty fragment '#' is accepted (C04_refuted). The exact accepted language is proved, and the property itself for text without '#'."
 ],
 "C11": [
  "partial",
  "False of the code for RiAbsoluteStr::query_str on absolute IRIs ending in '#' (C11_absolute_query_refuted); everything else is proved in full. C11_absolute_query_exact gives the accessor's result on exactly those inputs, in debug and release builds."
 ],
 "C19": [
  "partial",
  "False of the code for an authority ending in an empty port (C19_refuted: is_normalized ignores the ':' that normalize drops). Proved: exactly what the three checks decide on every valid IRI (_exact), and the property itself for every IRI without an empty port (_partial)."
 ],
 "C21": [
  "partial",
  "Proved in full for ensure_rfc3986_normalizable on an IRI and for resolve without normalization; false of the code for resolve followed by and_normalize on same-document references (C21_resolve_and_normalize_refuted). C21_resolve_and_normalize_exact characterises the answer on every base and reference: right on every reference that is not same-document, always 'normalizable' on the others."
 ],
 "C25": [
  "partial",
  "mask_password proved in full; false of the code for replace_password on user information without a colon (C25_replace_refuted: the replacement is appended to the user name), whose exact effect is proved instead."
 ],
 "C26": [
  "partial",
  "remove_nonempty_password_inline proved in full; remove_password_inline proved where there is a password or no user information; false of the code for user information without a colon (C26_refuted), for which the exact effect is proved (C26_no_colon_exact)."
 ],
 "C27": [
  "partial",
  "Proved for release builds, and for debug builds except RiString::replace_host on an IRI with a non-empty fragment, where the assertion uses the wrong validator and the property is false (C27_debug_refuted); C27_debug_exact: there it always panics."
 ],
 "C23": [
  "partial",
  "Fragment iterator and to_bytes proved in full; what into_bytes and into_string return is proved exactly for every input (C23_into_bytes_exact, C23_into_string_exact), and that it is the percent-decoding exactly on inputs without both a stray % and a triplet; the full claim is false of the code (C23_refuted: %zz%41 -> %zA)."
 ],
 "C28": [
  "partial",
  "Setters, acceptance and displayed components proved for every setting; validity of the output proved when the path is generated by the grammar (C28_valid_iff: exactly then), and (with normalization, neither scheme nor authority) the path does not normalize to exactly '/'. False of the code otherwise: the characters of the path are never checked (C28_path_refuted, C28_path_becomes_query, C28_path_panics), C28_normalized_refuted. What is built from other paths is proved too: C28_build_raw, C28_normalized_any_path (every path without a stray %), C30_root_exact. C28_build_exact: build with the early exit of the code (and all debug assertions) agrees with the text-level model of build except on settings whose value cannot be displayed."
 ],
 "C29": [
  "partial",
  "Proved in full for the reference, IRI and relative types; for the absolute type proved for every string of the RFC rule; false of the code for the other strings its validator accepts, those ending in '#' (C29_absolute_refuted): C29_absolute_exact proves that the builder rejects exactly those."
 ],
 "C30": [
  "partial",
  "Proved for every grammatical path except where there is neither scheme nor authority and an absolute path normalizes to exactly '/'; false of the code there (C30_root_refuted), and the exact output there is C30_root_exact."
 ],
 "C31": [
  "partial",
  "The accepted language, the panicking inputs and the accepted variable names are characterised exactly for every string; every RFC 6570 template over ASCII literals is accepted; the property as stated is false of the code (C31_no_panic_refuted: '%aé' panics; C31_zero_length_refuted: '{v:0}' accepted), and over-acceptance is confined to variable names and prefix lengths (C31_accepts_partial)."
 ],
 "C32": [
  "partial",
  "Proved in full for every RFC 6570 template and, for every accepted template, exactly when it panics (a prefix length above 65535); 'never panics' is false of the code (C32_no_panic_refuted: '{v:65536}')."
 ],
 "C33": [
  "partial",
  "Exact output proved for every accepted template without prefix modifier and without + and # (C33_plain, every value) and otherwise for all values that the crate can handle (C33_expand_partial; C33_simple_ascii: all plain ASCII values); equality with RFC 6570 Appendix A in the situations of Agrees (C33_rfc_partial). The property as stated is false of the code: C33_reserved_nonascii_refuted ({+v} with a value that starts with a non-ASCII character always panics), C33_data_loss_refuted, C33_prefix_debug_refuted, C33_reserved_prefix_refuted, C33_empty_item_refuted, C33_name_refuted. What the crate does with every other string value (text lost, panics) is proved exactly: C33_reserved_exact, C33_reserved_item_exact, C33_reserved_prefix_exact, C33_prefix_exact, for the unique decomposition of C33_fragments; and C33_exact gives the outcome (text, type error with position, panic) for every accepted template and every context. C33_variables_only is full."
 ],
 "C34": [
  "proved",
  "For every template text and every read-only context. If the static check reports a type error, dynamic expansion reports the same one or panics on an earlier value (it expands as it goes); it does not panic for values the crate can expand (C34_same_error)."
 ],
 "C36": [
  "proved",
  "For every Display implementation that passes write errors on (C36_eq_needs_honest shows the need), every chunking, every buffer and every behaviour of the allocator; the dedicated strings of Built in the situations of C28."
 ],
 "C38": [
  "proved",
  "For all seven validated types. The template constructors panic where the validator does (C31); everywhere else no constructor panics."
 ],
 "C45": [
  "proved",
  "The position reported for a bad prefix length is one byte after the offending byte (C45_points_at_fault_refuted); the specification BadVarspec states this displacement."
 ],
 "C51": [
  "partial",
  "Proved for every allocator for all the operations except mask_password().try_to_dedicated_string() of references without user information, where the property is false: the code uses the infallible to_owned and aborts (C51_mask_refuted; exact behaviour in C51_mask_no_userinfo_partial)."
 ],
 "C52": [
  "partial",
  "Proved for every history without the two calls for which it is false of the code: remove_password_inline on user information without a colon (C52_refuted: safe calls make a UriString that is not a URI) and, in debug builds, RiString::replace_host with a non-empty fragment (C27_debug_exact)."
 ],
 "C53": [
  "partial",
  "Proved for references, IRIs, relative references, the resolver, and absolute IRIs without '#'. False of the code for RiAbsoluteStr::query() on accepted absolute IRIs ending in '#' (C53_absolute_refuted: debug panic, invalid query value in release). C53_absolute_exact gives the result on exactly those inputs."
 ],
 "C55": [
  "partial",
  "Proved in full for SimpleContext, for structs whose texts are each written in one call (C55_struct_partial: same outcome as the SimpleContext with the same meaning), for all structs under templates without prefix modifiers and without + and # (C55_plain), and for all plain ASCII values however written (C55_ascii_partial; C55_integers_partial gives the RFC 6570 text). False of the code for negative integers with a prefix modifier under + and # (C55_negative_refuted: {+n:3} of -1234 gives -123); exact result in C55_negative_exact_partial. C33_exact covers all values, however they are written."
 ],
 "C58": [
  "partial",
  "False of the code (C58_built_refuted, C58_mask_refuted): `{:10}` pads the user information, an IPv4 address, or the place of the masked password, giving text that is not an IRI. Proved: default options, the property for all settings that do not take options, and the exact text displayed in the other cases (_exact)."
 ],
 "C59": [
  "proved",
  "Panics k s only holds for templates on which the validator itself panics (C31, defect 11)."
 ],
 "C60": [
  "proved",
  "C60_built is for every built value whose text exists: a normalizing builder with an ill-formed path panics (C30, defect list); C60_displays_text spells out the specification `Displays`."
 ],
 "C61": [
  "partial",
  "C61_validation, C61_components, C61_iri_conversions, C61_to_iri, C61_set_fragment, C61_uri_conversions and C61_paths_and_hosts are full. False of the code in the places of C61_refuted and C61_overflow_refuted; overflow checks are an opaque constant of the model, so that every other theorem is about builds with and without them; C61_absolute_query_partial is the part of query_str/query for which it holds (C11_absolute_query_exact and C53_absolute_exact are the rest). The assertions of Display implementations are C60, those of template expansion C33/C34, those of edits C25-C27, of dedicated strings C36."
 ],
 "C71": [
  "partial",
  "False of the code for the calls of Prog.Bad (C71_refuted): remove_password_inline on some user information without a colon, replace_host of an IRI with a fragment in debug builds, query() of an absolute IRI that ends in #, UriTemplateStr::new on the texts of C31_panics, builders with an ungrammatical path or the root path case. Proved for all programs without them (C71_programs_partial); C71_exact_partial shows that, apart from builders, exactly these calls are at fault."
 ]
}