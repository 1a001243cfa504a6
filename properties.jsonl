{"id": "C01", "title": "IRI/URI validation is exactly the RFC rule", "statement": "For both specs, constructing an RiStr (validate::iri) from a string succeeds if and only if the string matches the `IRI` rule of RFC 3987 (IriSpec) / the `URI` rule of RFC 3986 (UriSpec).", "quantifier": "every string, both specs", "why_tests_cant": "The accepted language is infinite; a table of sample strings cannot show that no other string is wrongly accepted or rejected.", "anchors": ["src/parser/validate.rs:validate_uri", "src/parser/validate.rs:validate_uri_reference_common", "src/validate.rs:iri", "src/types/generic/normal.rs:RiStr"]}
{"id": "C02", "title": "IRI-reference validation is exactly the RFC rule", "statement": "Constructing an RiReferenceStr (validate::iri_reference) succeeds iff the string matches `IRI-reference` / `URI-reference`.", "quantifier": "every string, both specs", "why_tests_cant": "The accepted language is infinite; a table of sample strings cannot show that no other string is wrongly accepted or rejected.", "anchors": ["src/parser/validate.rs:validate_uri_reference", "src/validate.rs:iri_reference", "src/types/generic/reference.rs:RiReferenceStr"]}
{"id": "C03", "title": "relative-ref validation is exactly the RFC rule", "statement": "Constructing an RiRelativeStr (validate::relative_ref) succeeds iff the string matches `irelative-ref` / `relative-ref`.", "quantifier": "every string, both specs", "why_tests_cant": "The accepted language is infinite; a table of sample strings cannot show that no other string is wrongly accepted or rejected.", "anchors": ["src/parser/validate.rs:validate_relative_ref", "src/validate.rs:relative_ref", "src/types/generic/relative.rs:RiRelativeStr"]}
{"id": "C04", "title": "absolute-IRI validation is exactly the RFC rule", "statement": "Constructing an RiAbsoluteStr (validate::absolute_iri) succeeds iff the string matches `absolute-IRI` / `absolute-URI` (so an accepted string never contains `#`).", "quantifier": "every string, both specs", "why_tests_cant": "The accepted language is infinite; a table of sample strings cannot show that no other string is wrongly accepted or rejected.", "anchors": ["src/parser/validate.rs:validate_absolute_uri", "src/parser/validate.rs:validate_after_path", "src/validate.rs:absolute_iri", "src/types/generic/absolute.rs:RiAbsoluteStr"]}
{"id": "C05", "title": "Component validators are exactly their RFC rules", "statement": "validate::{scheme, userinfo, reg_name, port, path, path_segment, query, fragment} accept a string iff it matches the RFC rule of that name (path: any of the five path rules; reg_name: the documented `reg-name` rule minus IPv4 addresses).", "quantifier": "every string, both specs", "why_tests_cant": "The accepted language is infinite; a table of sample strings cannot show that no other string is wrongly accepted or rejected.", "anchors": ["src/validate.rs:scheme", "src/validate.rs:userinfo", "src/validate.rs:reg_name", "src/validate.rs:port", "src/validate.rs:path", "src/validate.rs:path_segment", "src/validate.rs:query", "src/validate.rs:fragment"]}
{"id": "C06", "title": "Host and authority validators are exactly their RFC rules", "statement": "validate::host accepts exactly `ihost`/`host` (IP-literal with the full nine-alternative IPv6address rule, IPvFuture, IPv4address, reg-name) and validate::authority accepts exactly `iauthority`/`authority`.", "quantifier": "every string, both specs", "why_tests_cant": "IPv6 has nine grammar alternatives over unbounded combinations of h16 groups; samples only touch a few and never show the absence of a wrongly accepted literal.", "anchors": ["src/parser/validate/authority.rs:validate_host", "src/parser/validate/authority.rs:validate_authority", "src/parser/validate/authority.rs:validate_ipv6address", "src/parser/validate/authority.rs:validate_ipv4address"]}
{"id": "C07", "title": "Type hierarchy conversions never produce an invalid value", "statement": "Every valid absolute IRI is a valid IRI, every valid IRI and every valid relative reference is a valid IRI reference, and every value valid under UriSpec is valid under IriSpec for the same type; so the unchecked upcasts keep the target type's invariant.", "quantifier": "every string, all six type pairs", "why_tests_cant": "The conversions skip validation (unsafe new_unchecked); soundness depends on inclusion of infinite languages.", "anchors": ["src/types/generic/macros.rs:impl_trivial_conv_between_iri", "src/types/iri.rs:impl_conversion_between_uri_iri"]}
{"id": "C08", "title": "An IRI reference is either an IRI or a relative reference, never both", "statement": "RiReferenceStr::to_iri returns the IRI iff the reference is a valid IRI and otherwise returns the same string as a valid relative reference; to_relative_iri is its mirror; no string is both a valid IRI and a valid relative reference.", "quantifier": "every valid IRI reference", "why_tests_cant": "Exhaustiveness and disjointness are claims about all strings.", "anchors": ["src/types/generic/reference.rs:RiReferenceStr::to_iri", "src/types/generic/reference.rs:RiReferenceStr::to_relative_iri"]}
{"id": "C09", "title": "Component accessors recompose to the original string", "statement": "For a valid reference, [scheme ':'] ['//' authority] path ['?' query] ['#' fragment] assembled from the accessors scheme_str/authority_str/path_str/query_str/fragment_str equals the string, byte for byte, and no accessor panics.", "quantifier": "every valid IRI reference", "why_tests_cant": "Splitting is done by unchecked byte offsets; a wrong offset for one shape of input corrupts or panics only on that shape.", "anchors": ["src/components.rs:Splitter", "src/components.rs:RiReferenceComponents", "src/parser/trusted.rs:decompose_iri_reference"]}
{"id": "C10", "title": "Component accessors return the grammar's components", "statement": "The components returned for a valid reference are the unique ones the RFC grammar derives: scheme matches `scheme`, authority matches `iauthority`, path a path rule, query `iquery`, fragment `ifragment`; any other grammatical way of cutting the string coincides with it.", "quantifier": "every valid IRI reference and every decomposition of it", "why_tests_cant": "Uniqueness quantifies over all ways to cut all strings.", "anchors": ["src/components.rs:Splitter", "src/types/generic/reference.rs", "src/types/generic/normal.rs", "src/types/generic/absolute.rs", "src/types/generic/relative.rs"]}
{"id": "C11", "title": "Specialised extractors agree with the full decomposition", "statement": "extract_scheme / extract_authority / extract_path / extract_query / extract_fragment style fast paths used by each type's accessors give the same answer as the full component decomposition on every value of that type.", "quantifier": "every valid value of each of the four IRI types", "why_tests_cant": "There are ~12 separate hand-written scanners; equality on all inputs is needed.", "anchors": ["src/parser/trusted.rs:extract_scheme", "src/parser/trusted.rs:extract_authority", "src/parser/trusted.rs:extract_path", "src/parser/trusted.rs:extract_query", "src/parser/trusted.rs:extract_fragment"]}
{"id": "C12", "title": "Authority components are exactly userinfo, host, port", "statement": "For a valid authority, authority_components() gives userinfo/host/port such that [userinfo '@'] host [':' port] reassembles to the authority, host matches `ihost`, userinfo matches `iuserinfo` and port is all digits.", "quantifier": "every valid authority", "why_tests_cant": "Depends on where '@' and ':' may occur, including inside IP literals and userinfo.", "anchors": ["src/components/authority.rs:AuthorityComponents", "src/parser/trusted/authority.rs:decompose_authority"]}
{"id": "C13", "title": "Fragment editing keeps validity and touches nothing else", "statement": "set_fragment / remove (without) fragment / to_absolute_and_fragment / split_fragment: the part before '#' is unchanged, the new fragment is exactly the one given (or absent), and the result is valid for its type.", "quantifier": "every valid value, every valid fragment or none", "why_tests_cant": "Edits are in-place truncations by byte offset without re-validation.", "anchors": ["src/raw.rs:set_fragment", "src/raw.rs:remove_fragment", "src/parser/trusted.rs:split_fragment", "src/types/generic/normal.rs:RiString::set_fragment"]}
{"id": "C14", "title": "Reference resolution is RFC 3986 section 5.2", "statement": "resolve_against(base) yields exactly the RFC 3986 5.2.2 target (strict mode) with paths passed through remove_dot_segments as RFC 5.2.4 defines it, except that percent-encoded dots count as dots and that an authority-less result whose path would start with '//' gets the '/.' escape.", "quantifier": "every base IRI and every IRI reference", "why_tests_cant": "The implementation never builds the merged path; it walks two path pieces backwards with a bounded queue, so equality with the RFC algorithm has to hold for all segment sequences.", "anchors": ["src/resolve.rs:FixedBaseResolver", "src/normalize.rs:NormalizationInput", "src/normalize/path.rs:PathToNormalize"]}
{"id": "C15", "title": "Resolution always yields a valid IRI", "statement": "For a valid base and a valid reference the resolution result is a valid IRI of the same spec, keeps the base's scheme unless the reference has one, and carries exactly the reference's fragment.", "quantifier": "every base and reference, both specs", "why_tests_cant": "The result string is created with new_unchecked; validity on all inputs is an obligation.", "anchors": ["src/resolve.rs:FixedBaseResolver::resolve", "src/types/generic/reference.rs:resolve_against"]}
{"id": "C16", "title": "Dot-segment removal matches RFC 5.2.4", "statement": "Normalizing an absolute path removes '.' and '..' segments exactly as RFC 3986 5.2.4 remove_dot_segments (with %2E read as '.'), with no bound on the number of segments.", "quantifier": "every path, any number of segments", "why_tests_cant": "The streaming algorithm uses a fixed-size queue of 8 segments; tests with short paths never exercise the overflow path for all shapes.", "anchors": ["src/normalize/path.rs:PathToNormalize::fmt_write_normalize", "src/normalize/path.rs:resolve_and_write_path_prefixes"]}
{"id": "C17", "title": "Normalization always yields a valid IRI", "statement": "normalize() / and_normalize() on a valid value displays a valid value of the same type and spec.", "quantifier": "every valid IRI, reference kinds, both specs", "why_tests_cant": "Output is rebuilt piecewise and wrapped with new_unchecked.", "anchors": ["src/normalize.rs:Normalized", "src/normalize.rs:NormalizationInput", "src/normalize/pct_case.rs:PctCaseNormalized"]}
{"id": "C18", "title": "Normalization is idempotent", "statement": "Normalizing an already normalized result gives the same string again.", "quantifier": "every valid IRI", "why_tests_cant": "Needs all interactions of case, percent and path normalization on arbitrary input.", "anchors": ["src/normalize.rs:Normalized", "src/normalize/pct_case.rs"]}
{"id": "C19", "title": "is_normalized agrees with normalize", "statement": "is_normalized() (and is_normalized_rfc3986 / is_normalized_but_authorityless_relative_path_preserved) is true iff the normalized output equals the input.", "quantifier": "every valid IRI", "why_tests_cant": "Two separate implementations (checker and rewriter) must agree everywhere.", "anchors": ["src/parser/trusted.rs:is_normalized", "src/types/generic/normal.rs:is_normalized", "src/normalize.rs"]}
{"id": "C20", "title": "Percent/case normalization preserves meaning", "statement": "Case and percent-encoding normalization only upper-cases hex digits of triplets and decodes triplets of unreserved characters: output and input percent-decode to the same bytes, and a triplet of a reserved character is never decoded. In the authority the user information and, up to the letter case of US-ASCII only hosts, the host stand for the same bytes too; the port stays unless it is empty.", "quantifier": "every component string with valid triplets, both specs", "why_tests_cant": "Quantifies over all interleavings of triplets and characters including multi-byte UTF-8 sequences.", "anchors": ["src/normalize/pct_case.rs:PctCaseNormalized"]}
{"id": "C21", "title": "RFC 3986 normalizability check is sound and complete", "statement": "ensure_rfc3986_normalizable() returns Ok iff the normalized output does not need the non-RFC '/.' escape in front of a '//' path.", "quantifier": "every valid IRI", "why_tests_cant": "The check looks at segment kinds without building the result.", "anchors": ["src/normalize.rs:ensure_rfc3986_normalizable", "src/normalize/path.rs:ensure_rfc3986_normalizable_with_authority_absent"]}
{"id": "C22", "title": "Percent-encoding output is valid for its context and reversible", "statement": "PercentEncoded::from_{reg_name,user,password,path_segment,path,query,fragment} and unreserve output matches the context's RFC rule, contains no raw '%' other than valid triplets, and percent-decodes back to the input's UTF-8 bytes.", "quantifier": "every string, every context, both specs", "why_tests_cant": "All Unicode strings.", "anchors": ["src/percent_encode.rs:PercentEncoded"]}
{"id": "C23", "title": "Percent-decoding (WHATWG) is correct", "statement": "The decoded byte stream equals the WHATWG percent-decode of the input: each valid triplet becomes its byte, everything else (including stray '%') is copied.", "quantifier": "every byte/str input", "why_tests_cant": "Scanner state over arbitrary positions of valid/invalid triplets.", "anchors": ["src/percent_encode/decode.rs:PercentDecodedWhatwgBytes", "src/percent_encode/decode.rs:into_bytes", "src/percent_encode/decode.rs:bytes_fragments"]}
{"id": "C24", "title": "IRI to URI conversion is valid, ASCII and idempotent", "statement": "encode_to_uri: the result is a valid URI of the corresponding kind, all ASCII, percent-decodes to the same bytes, equals the input when the input is already ASCII, and the in-place, owned and Display variants agree.", "quantifier": "every valid IRI of each kind", "why_tests_cant": "All Unicode strings, and the in-place variant rewrites a growing buffer.", "anchors": ["src/convert.rs:MappedToUri", "src/convert.rs:try_percent_encode_iri_inline", "src/types/iri.rs:encode_to_uri"]}
{"id": "C25", "title": "Password masking hides exactly the password", "statement": "mask_password(): with a password present the output is the input with exactly the password (after the first ':' of userinfo, up to '@') removed or replaced; without one the output is the input; masking by removal is a valid value and its output does not depend on the password.", "quantifier": "every valid reference and every password text", "why_tests_cant": "Non-leakage is a claim over pairs of inputs.", "anchors": ["src/mask_password.rs:PasswordMasked", "src/mask_password.rs:password_range_to_hide"]}
{"id": "C26", "title": "In-place password removal equals masking", "statement": "remove_password_inline() removes the password and its leading ':' and nothing else, leaving a valid value; remove_nonempty_password_inline() removes exactly the non-empty password.", "quantifier": "every valid reference", "why_tests_cant": "Byte-offset edits of arbitrary strings.", "anchors": ["src/types/generic/normal.rs:remove_password_inline", "src/types/generic/normal.rs:remove_nonempty_password_inline", "src/mask_password.rs:password_range_to_hide"]}
{"id": "C27", "title": "Host replacement changes only the host", "statement": "replace_host/try_replace_host(new): with an authority present and a valid new host the result is the input with exactly the host replaced and is still valid; without an authority or with an invalid host nothing changes. replace_host_reg_name acts only if the old host is a reg-name.", "quantifier": "every valid reference and every host string", "why_tests_cant": "Offsets computed through two layers; validity relies on grammar closure.", "anchors": ["src/types/generic.rs:replace_domain_impl", "src/parser/trusted/authority.rs:is_host_reg_name"]}
{"id": "C28", "title": "Builder output is always valid", "statement": "If Builder::build::<T>() succeeds, the string it displays is a valid T with exactly the components that were set.", "quantifier": "every component assignment, each of the four target types", "why_tests_cant": "Components are arbitrary strings; result is wrapped unchecked.", "anchors": ["src/build.rs:Builder::build", "src/build.rs:validate_builder"]}
{"id": "C29", "title": "Builder accepts every valid value (round trip)", "statement": "Building from the components of an existing valid value (Builder::from) succeeds for the same type and reproduces the original string.", "quantifier": "every valid value of each type", "why_tests_cant": "Infinite domain, two-way consistency of validator and builder.", "anchors": ["src/build.rs:Builder", "src/build.rs:From"]}
{"id": "C30", "title": "Builder normalization equals normalizing the built value", "statement": "With Builder::normalize() on, the built string is the normalization of the string built with it off.", "quantifier": "every valid component assignment", "why_tests_cant": "Two entry points into the normalizer with different path preconditions.", "anchors": ["src/build.rs:Builder::normalize", "src/normalize/path.rs:PathCharacteristic"]}
{"id": "C31", "title": "URI template validation is exactly RFC 6570", "statement": "UriTemplateStr::new never panics and accepts exactly the strings matching RFC 6570 `URI-Template` over ASCII literals.", "quantifier": "every string", "why_tests_cant": "The accepted language is infinite; a table of sample strings cannot show that no other string is wrongly accepted or rejected.", "anchors": ["src/template/parser/validate.rs:validate_template_str", "src/template/string.rs:UriTemplateStr"]}
{"id": "C32", "title": "Template variable listing is complete and in order", "statement": "variables() yields exactly the variable names of the template's expressions, in order with repetitions, and never panics on an accepted template.", "quantifier": "every valid template", "why_tests_cant": "Iterator state machine over arbitrary chunk sequences; relies on validator invariants.", "anchors": ["src/template/string.rs:UriTemplateVariables", "src/template/expand.rs:Chunks", "src/template/components.rs:VarListIter"]}
{"id": "C33", "title": "Template expansion follows RFC 6570", "statement": "For a valid template and any context of string/list/associative values, expansion yields the RFC 6570 section 3.2 result for every operator and modifier, does not panic, and depends on nothing but the values of the variables that variables() lists.", "quantifier": "every valid template, every context", "why_tests_cant": "Combination of 8 operators x modifiers x value kinds x arbitrary Unicode values.", "anchors": ["src/template/expand.rs:expand", "src/template/expand.rs:ValueVisitor", "src/template/expand.rs:escape_write_with_maxlen"]}
{"id": "C34", "title": "Static and dynamic template expansion agree", "statement": "expand() followed by Display and expand_dynamic() with the same read-only context produce the same text or the same type error (or, where the static type check reports an error, the dynamic expansion may instead have panicked on a value before it that the crate cannot expand, C33), and type errors arise exactly for a prefix modifier on a non-empty list/assoc.", "quantifier": "every valid template and context", "why_tests_cant": "Two code paths over arbitrary templates.", "anchors": ["src/template/expand.rs:expand_whole_dynamic", "src/template/expand.rs:typecheck_context", "src/template/string.rs:expand_dynamic"]}
{"id": "C35", "title": "Literal text and unreserved values survive template expansion", "statement": "Literal chunks are copied verbatim, and text produced from a value by a non-reserved operator consists only of unreserved characters and valid triplets, so a value can never inject a delimiter.", "quantifier": "every template and every value string", "why_tests_cant": "Injection safety is universally quantified over attacker-chosen values.", "anchors": ["src/template/expand.rs:escape_write", "src/percent_encode.rs:PercentEncoded::unreserve"]}
{"id": "C36", "title": "Displayable-to-string helpers are faithful", "statement": "For every Display implementation that passes write errors on (as the standard library asks): eq_str_display(s, d) is true iff d displays exactly s, regardless of how d splits its writes; write_to_slice writes exactly the displayed text or fails when the buffer is too small; ToDedicatedString equals Display.", "quantifier": "every string, every sequence of write chunks, every buffer size", "why_tests_cant": "Chunking of the writer is an arbitrary history.", "anchors": ["src/format.rs:eq_str_display", "src/format.rs:write_to_slice", "src/format.rs:try_append_to_string"]}
{"id": "C37", "title": "ASCII byte scanning never cuts a character", "statement": "All splitting helpers look for ASCII bytes in UTF-8; the position found is always a character boundary and is the position of the first/last such character, so no accessor can panic by slicing inside a multi-byte character.", "quantifier": "every Unicode string, every ASCII delimiter", "why_tests_cant": "All encodings of all strings.", "anchors": ["src/parser/str.rs:find_split", "src/parser/str.rs:find_split_hole", "src/parser/str.rs:rfind_split_hole"]}
{"id": "C38", "title": "Construction from bytes and owned strings is consistent", "statement": "TryFrom<&[u8]>, TryFrom<&str>, TryFrom<String>, FromStr all accept the same strings; a failed owned conversion hands back the original string; equality/ordering between the types is that of the underlying strings.", "quantifier": "every byte string / string", "why_tests_cant": "Quantifies over all byte strings.", "anchors": ["src/types/generic/macros.rs", "src/types/generic/error.rs:CreationError"]}
{"id": "C39", "title": "Simple template context is a map", "statement": "SimpleContext: after any sequence of insert/clear, get(name) returns the last value inserted for that valid variable name (undefined removes it), inserts under invalid names change nothing.", "quantifier": "every sequence of operations", "why_tests_cant": "Histories are unbounded.", "anchors": ["src/template/simple_context.rs:SimpleContext"]}
{"id": "C40", "title": "Case normalization of scheme and host", "statement": "After normalization the scheme is lower-case, an ASCII-only host is lower-case except percent-triplets which are upper-case, and an empty port's ':' is dropped; user info keeps its letter case.", "quantifier": "every valid IRI", "why_tests_cant": "Interaction of case folding with triplets decoded to upper-case letters.", "anchors": ["src/normalize.rs:normalize_scheme", "src/normalize.rs:normalize_authority", "src/normalize.rs:normalize_host_port", "src/normalize/pct_case.rs:NormalizedAsciiOnlyHost"]}
{"id": "C41", "title": "Template expansion emits only URI (IRI) text", "statement": "Whatever values a context supplies and under every operator and modifier, an expansion that returns text returns only unreserved and reserved characters (for IRIs also ucschar and iprivate) and complete percent-encoded triplets; a URI expansion is ASCII.", "quantifier": "every valid template, every context, every chunking of the values", "why_tests_cant": "Values, including malformed percent sequences split over writes, are attacker-chosen.", "anchors": ["src/template/expand.rs:escape_write", "src/template/expand.rs:escape_write_with_maxlen", "src/parser/str/maybe_pct_encoded.rs:process_percent_encoded_best_effort"]}
{"id": "C42", "title": "Dynamic template contexts are driven in order and always finished", "statement": "expand_dynamic calls on_expansion_start once before anything else and on_expansion_end once after everything else, also when a type error stops it; in between it visits every varspec in template order, first for its type and then for its value, and nothing after a type error.", "quantifier": "every valid template, every stateful context", "why_tests_cant": "The context is an arbitrary state machine; the sequence of calls depends on the template.", "anchors": ["src/template/expand.rs:expand_whole_dynamic", "src/template/expand.rs:expand_whole_dynamic_impl", "src/template/context.rs:DynamicContext"]}
{"id": "C43", "title": "A validation error names the leftmost bad component", "statement": "When a validator rejects a text, the error (its Display text) names the leftmost thing wrong with it: no colon at all / a bad scheme where a scheme is required; otherwise, cutting the text at the generic delimiters of RFC 3986 Appendix B, the first of userinfo, host and port, path, query, unexpected fragment, fragment that does not match its rule. Success and failure are exactly the grammar's; the component validators report their own component; distinct kinds have distinct texts; no validator panics.", "quantifier": "every string, both specs, every validator", "why_tests_cant": "The diagnosis depends on where the delimiters fall in arbitrary malformed text; a misplaced check reports the wrong component only on inputs with several faults.", "anchors": ["src/validate.rs:Error", "src/validate.rs:ErrorKind", "src/parser/validate.rs:validate_uri_reference_common", "src/parser/validate.rs:validate_relative_ref", "src/parser/validate.rs:validate_after_path", "src/parser/validate/authority.rs:validate_authority"]}
{"id": "C44", "title": "A builder error names the first unmet requirement", "statement": "Builder::build::<T>() fails with the kind of the first requirement the settings do not meet: what T asks (a scheme for IRIs, no fragment for absolute IRIs, no scheme for relative references), then scheme, userinfo, host, port, path shape, query and fragment from left to right; it succeeds exactly when all are met.", "quantifier": "all builder settings, all four target types, both specs (with normalization: any well-formed path)", "why_tests_cant": "Which error is reported matters on settings with several faults at once, an unbounded combination space.", "anchors": ["src/build.rs:validate_builder_for_iri_reference", "src/build.rs:Buildable", "src/validate.rs:ErrorKind"]}
{"id": "C45", "title": "Template validation reports the first fault", "statement": "When constructing a URI template from text fails (without panicking), the error message names the kind of the first fault and its byte position (for a bad prefix length: one byte after the offending byte): the text before the faulty construct is itself an acceptable template, the construct that follows is a bad literal character, a broken percent triplet, an unclosed expression, a reserved operator, or an expression whose first ill-formed variable specification is the one reported; exactly one kind and position is reported; the position never exceeds the length of the text; the owned constructor returns the source; non-UTF-8 bytes are rejected at the end of their longest well-formed prefix.", "quantifier": "all texts and byte strings", "why_tests_cant": "The first fault is a statement about every possible prefix of every ill-formed text; tests only sample a few error positions.", "anchors": ["src/template/parser/validate.rs: validate_template_str, validate_expr_body, validate_varspec", "src/template/error.rs: Error, ErrorKind, CreationError", "src/template/string.rs: TryFrom<&[u8]>", "src/template/string/owned.rs: TryFrom<String>"]}
{"id": "C46", "title": "Laws of reference resolution", "statement": "Resolving the empty reference gives the base without its fragment; \"#f\" replaces the fragment, \"?q\" replaces query and fragment; the base's fragment never matters, its query only for the empty and fragment-only references, its last path segment only for references without a path, its path and query not at all for references starting with '/', and only its scheme for references with an authority; the target of any reference with a scheme, authority or path resolves to itself against every base, and an IRI without dot segments resolves to itself; resolving with and_normalize is resolving and then normalizing.", "quantifier": "every valid base (and pair of bases), every valid reference, every mode", "why_tests_cant": "Relational statements over pairs and chains of resolutions of arbitrary texts.", "anchors": ["src/types/generic/reference.rs:resolve_against", "src/resolve.rs:FixedBaseResolver", "src/normalize.rs:create_normalization_input", "src/normalize.rs:and_normalize"]}
{"id": "C47", "title": "Resolution commutes with conversion to URI", "statement": "Converting base and reference with encode_to_uri and resolving them as URIs gives exactly the URI obtained by resolving them as IRIs and converting the result, with every normalization option.", "quantifier": "every valid IRI base, every valid IRI reference, every mode", "why_tests_cant": "A commuting square over all pairs of Unicode texts, involving UTF-8, percent-encoding, dot segments and host case at once.", "anchors": ["src/types/generic/reference.rs:resolve_against", "src/convert.rs:MappedToUri", "src/normalize.rs:NormalizationInput"]}
{"id": "C48", "title": "Normalization commutes with conversion to URI", "statement": "Converting with encode_to_uri and normalizing as a URI gives exactly the URI obtained by normalizing as an IRI and converting the result (for normalize and for the path-preserving variant); so IRIs with equal normal forms have URIs with equal normal forms, and for IRIs without private-use characters the converse holds too.", "quantifier": "every valid IRI", "why_tests_cant": "A commuting square over all Unicode texts: the IRI normalizer decodes triplets that the URI normalizer must keep.", "anchors": ["src/normalize.rs:normalize", "src/normalize/pct_case.rs:PctCaseNormalized", "src/convert.rs:MappedToUri"]}
{"id": "C49", "title": "Normalized text is a canonical form", "statement": "Two IRIs normalize to the same text if and only if they are equivalent under RFC 3986 6.2.2 / RFC 3987 5.3.2: equal up to percent-encoding of unreserved characters, letter case of hexadecimal digits, scheme and US-ASCII hosts, dot segments (also percent-encoded ones) and an empty port. Every IRI is equivalent to its normalized text. The normalization that preserves relative paths of IRIs without an authority gives equal texts exactly to the pairs equivalent when the dot segments of such paths count as ordinary segments; normalizing its result gives what normalizing the original gives, and the two normalizations agree on every IRI with an authority, an empty path or a path that starts with a slash.", "quantifier": "every pair of valid IRIs/URIs", "why_tests_cant": "Both directions quantify over all pairs of IRIs: that nothing inequivalent is merged cannot be sampled.", "anchors": ["src/normalize.rs:normalize", "src/normalize/pct_case.rs:PctCaseNormalized", "src/normalize/path.rs:PathToNormalize"]}
{"id": "C50", "title": "IP addresses and port numbers given to the builder", "statement": "When build succeeds after ip_address or a numeric port, the host (resp. port) that the authority accessors report for the built text denotes exactly the address (resp. number) that was given, with and without normalization; different IPv6 addresses give different texts.", "quantifier": "every IPv4/IPv6 address, every port number, all other builder settings with a grammatical path, all four target types", "why_tests_cant": "The 2^128 addresses cannot be enumerated; the abbreviation of zero groups depends on all eight groups.", "anchors": ["src/build.rs:Builder::ip_address", "src/build.rs:Builder::port", "src/build.rs:HostRepr", "src/build.rs:PortBuilder"]}
{"id": "C51", "title": "Fallible operations report allocation failure and lose nothing", "statement": "`try_encode_to_uri_inline()`, `try_encode_into_uri()`, `try_replace_host()`, `try_replace_host_reg_name()`, `try_append_to_string()` and `mask_password().try_to_dedicated_string()` never abort the process and never panic because of the allocator. They succeed, with the result of the infallible operation, exactly if the string's capacity suffices or the allocator grants the request; otherwise they return the error and the string's text and capacity are what they were (for try_append_to_string: what was there followed by a prefix of the text). Known to be false for try_to_dedicated_string of a masked reference without user information.", "quantifier": "every allocator (any pattern of refusals and any granted capacities), every string and capacity, every valid IRI, every new host, every Display", "why_tests_cant": "The allocator's behaviour is an unbounded adversary; tests run with an allocator that never refuses.", "anchors": ["src/convert.rs: try_percent_encode_iri_inline", "src/types/iri.rs: try_encode_to_uri_inline, try_encode_into_uri", "src/types/generic.rs: replace_domain_impl", "src/types/generic/normal.rs: try_replace_host_impl", "src/format.rs: try_append_to_string", "src/mask_password.rs: PasswordMasked::try_to_dedicated_string"]}
{"id": "C52", "title": "A value stays valid through every history of edits and conversions", "statement": "Starting from a valid owned value, any sequence of set_fragment, replace_host, replace_host_reg_name, remove_password_inline, remove_nonempty_password_inline, mask_password, encode_to_uri_inline, encode_into_uri, try_into_uri, conversions between the URI/IRI and reference/IRI/absolute/relative types, into_absolute, normalize and resolve_against leaves a text that is valid for the value's current type, and no call panics.", "quantifier": "every starting value of the eight owned types, every history of calls of any length with any well-typed arguments, debug and release builds", "why_tests_cant": "Histories are unbounded and each call's precondition is the invariant the previous calls left behind; the methods use unchecked constructors.", "anchors": ["src/types/generic/reference.rs", "src/types/generic/normal.rs", "src/types/generic/absolute.rs", "src/types/generic/relative.rs", "src/types/iri.rs", "src/types/uri.rs", "src/mask_password.rs", "src/normalize.rs", "src/raw.rs"]}
{"id": "C53", "title": "Typed accessors return valid values", "statement": "query() and fragment() of reference, IRI and relative-reference values, and query() of absolute IRIs, do not panic and return exactly the component, which is valid for the query (resp. fragment) type; the accessors of FixedBaseResolver (base, scheme_str, authority_str, path_str, query, query_str) give back the base and its grammatical components. Known to be false for query() of an absolute IRI ending in '#'.", "quantifier": "every valid value of the string types, both spec types, debug and release builds", "why_tests_cant": "The typed values are made by unchecked constructors; that the extracted slice always satisfies the type's grammar quantifies over all texts.", "anchors": ["src/types/generic/reference.rs: query, fragment", "src/types/generic/absolute.rs: query", "src/types/generic/relative.rs: query, fragment", "src/resolve.rs: FixedBaseResolver"]}
{"id": "C54", "title": "Expansion into a writer that may fail", "statement": "Expanding a template into a fmt::Write object (expand_dynamic, or write! of the value returned by expand): if no write call fails, the writer receives exactly the text, and the caller the result, that expansion to a String gives; if a write call fails, nothing more is written, what was passed to the writer is a beginning of that text, and the error is \"write failed\" with the byte offset of the literal or variable being expanded; a type error of expand is reported before anything is written; the context's start and finish hooks are called exactly once each, also when the writer fails, and no variable after the failing one is visited.", "quantifier": "every template, every static context, every dynamic context with any state, every writer (any pattern of accepted and refused calls), both spec types, debug and release builds", "why_tests_cant": "The writer is an adversary that may refuse any of unboundedly many calls; the text passes through several adaptors (prefix-once, truncation, percent-encoding) each of which must propagate the error.", "anchors": ["src/template/expand.rs: expand_whole_dynamic, expand_expr_mut, Expanded, PrefixOnceWriter, escape_write, escape_write_with_maxlen", "src/template/string.rs: expand, expand_dynamic", "src/percent_encode.rs: PercentEncoded"]}
{"id": "C55", "title": "Rust values as template variables", "statement": "A struct used as a context through impl_template_context_naive!, and a SimpleContext, expand like the RFC 6570 values they stand for: None and () are undefined, integers are their decimal texts, strings themselves, slices/vectors/sets lists in iteration order, maps associative arrays; a field is visited under its own name unless another one is given, the first of several fields with one name counts, and other variables are undefined. A prefix modifier on a non-empty list or map is a type error. Known to be false for negative integers with a prefix modifier under + and #.", "quantifier": "every template, every struct (any number of fields, names, nested options/references, integers of any size, lists and maps of any Display objects), both spec types, debug and release builds", "why_tests_cant": "The result depends on how the value's Display splits its writes, on the visitor protocol (early Break) and on the template, all unbounded.", "anchors": ["src/template/value.rs: VisitValueNaive, visit_value_naive", "src/template/context.rs: impl_template_context_naive!, Visitor, ListVisitor, AssocVisitor", "src/template/simple_context.rs: SimpleContext::visit", "src/template/expand.rs: TypeVisitor, ValueVisitor"]}
{"id": "C56", "title": "Expanded templates convert to IRI types exactly when valid", "statement": "TryFrom<Expanded> for the owned reference, IRI, absolute and relative types succeeds exactly if the expansion is a text of the grammar of the type, the value's text is the expansion, and otherwise the error gives back the expansion.", "quantifier": "every template, every context, the four types, both spec types", "why_tests_cant": "Whether an expansion is a valid IRI depends on the template and all the values together.", "anchors": ["src/template/expand.rs: impl_try_from_expanded!"]}
{"id": "C57", "title": "Debug output never shows a password", "statement": "The Debug output of a Builder, UserinfoBuilder or Built value does not depend on the password, whether the user information was given as one text or as a pair; it shows the user name, whether there is a password, and all the other settings. Display and Debug of mask_password() do not depend on the password whatever the format options, and Debug is Display in angle brackets.", "quantifier": "every pair of builders that differ in the password only (any user name, passwords, other settings, ways of giving them), every valid reference with a password, all format options", "why_tests_cant": "Secrecy is a statement about pairs of inputs: no single run shows that nothing about the password can be learnt.", "anchors": ["src/build.rs: UserinfoBuilder, Debug impls, Builder, Built", "src/mask_password.rs: PasswordMasked, PasswordReplaced", "src/format.rs: Censored"]}
{"id": "C58", "title": "Format options do not change displayed IRIs", "statement": "What a built value or mask_password() displays does not depend on the format options (width, fill, alignment, precision) given to format!, as for the string types themselves. Known to be false: user information that is not normalized, IPv4 addresses, and the place of a masked password are padded.", "quantifier": "every builder setting, every valid reference, all format options", "why_tests_cant": "The options are a further unbounded input to every formatting call, and tests use {} only.", "anchors": ["src/build.rs: AuthorityBuilder::fmt_write_to, Builder::fmt_write_to, Display for Built", "src/mask_password.rs: write_with_masked_password"]}
{"id": "C59", "title": "Serde accepts exactly the valid texts and round-trips", "statement": "Deserializing an owned value succeeds exactly for the texts of the type's language, however the deserializer hands the text over (str, borrowed str, String, char); a borrowed value is deserialized exactly if the text is lent and valid; anything else is an error, not a panic. A value is serialized as its text, and deserializing that gives the value back.", "quantifier": "every deserializer behaviour, every text, all string types and both spec types", "why_tests_cant": "The deserializer is arbitrary code calling any visitor method with any text.", "anchors": ["src/types/generic/macros.rs: __serde_slice, __serde_owned", "src/template/string.rs: __serde_slice", "src/template/string/owned.rs: __serde_owned"]}
{"id": "C60", "title": "Formatting into a writer that fails", "statement": "Formatting a resolution or normalization result, a built value, a URI-encoded or percent-encoded value, or a value with the password masked or replaced, into any fmt::Write, never panics, also with debug assertions on; the sequence of texts passed to the writer is fixed and together they are the displayed text; the first error of the writer ends the formatting with an error and nothing is written after it; with no error everything is written and the result is Ok. The internal early-stopping comparisons (normalizedness, path checks) give the same answers as comparing with the whole text.", "quantifier": "every valid base, reference, IRI and builder setting, all normalization modes, both spec types, every writer (an adversary that sees all calls so far), every way the standard library may split numbers into calls, debug assertions on or off", "why_tests_cant": "Where a writer fails is an unbounded choice, and the assertions would have to be hit by the one input that violates them.", "anchors": ["src/normalize.rs: Display for NormalizedInner", "src/normalize/path.rs: fmt_write_normalize, PathCharacteristic::from_path_to_display, ensure_rfc3986_normalizable_with_authority_absent", "src/normalize/pct_case.rs: PctCaseNormalized, NormalizedAsciiOnlyHost", "src/build.rs: Builder::fmt_write_to, AuthorityBuilder::fmt_write_to", "src/convert.rs: write_percent_encoded, percent_encode_bytes", "src/mask_password.rs: write_with_masked_password", "src/percent_encode.rs: Display for PercentEncoded", "src/format.rs: eq_str_display"]}
{"id": "C61", "title": "Debug and release builds agree", "statement": "No debug_assert! fires: for every input, validation, component access, authority components, conversions between the types (to_iri, to_absolute, to_absolute_and_fragment, into_*, as_uri, URI into IRI), set_fragment, path merging and host replacement give in a debug build what they give in a release build; the byte arithmetic of percent-decoding in normalization, resolution, percent-decoding and template expansion does not overflow. Known to be false: RiAbsoluteStr::query_str/query on accepted absolute IRIs ending in '#', RiString::replace_host with a fragment, remove_password_inline on user information without a colon, and built values whose path is not a path (in a normalizing builder the path /%zz panics in debug builds, and becomes /C in release builds).", "quantifier": "every text for validation; every valid value for the rest; both spec types, debug assertions on or off", "why_tests_cant": "An assertion only fires on the one input that violates it, and tests run one build.", "anchors": ["src/parser/validate.rs: validate_after_path", "src/parser/validate/authority.rs: split_v6_addr_part, validate_ipv6address", "src/parser/validate/path.rs: validate_path_relative_authority_absent", "src/parser/trusted.rs: decompose_query_and_fragment, extract_query_absolute_iri", "src/parser/trusted/authority.rs: is_host_reg_name", "src/components/authority.rs: userinfo, port", "src/types/generic/macros.rs: new_unchecked_justified", "src/normalize/path.rs: from_paths_to_be_resolved"]}
{"id": "C62", "title": "A context's code can be replaced by its values", "statement": "A context that is arbitrary code against the visitor interface, and that returns the result that comes with a ControlFlow::Break as the documentation of visit_item and visit_entry asks, expands exactly like the values it hands over: same text, same result, same errors, same effect on its state unless a write fails. visit_items_and_finish and visit_entries_and_finish keep that rule and hand over exactly the items of the iterator; a type check takes at most one item. With a writer that never fails the rule is needed only in the type check, and without the rule there the claim is false (a panic, a lost error).", "quantifier": "every context program (any sequence of visitor calls and any reaction to their results), any state, every template, every writer, static and dynamic expansion, both spec types", "why_tests_cant": "Contexts are user code; tests only contain the few ways of writing one that the authors thought of.", "anchors": ["src/template/context.rs: Context, DynamicContext, Visitor, ListVisitor, AssocVisitor", "src/template/expand.rs: expand_whole_dynamic, ValueVisitor, ListValueVisitor, AssocValueVisitor, TypeVisitor"]}
{"id": "C63", "title": "Resolution respects equivalence", "statement": "Normalizing what resolve returns gives what resolving and normalizing at once gives. Two spellings of a reference (RFC 3986 section 6.2.2, dot segments removed only where the path is not merged) resolve to the same normalized IRI against every base. Two equivalent bases resolve every reference to the same normalized IRI exactly if they do for the reference '.', which is guaranteed unless the path of one ends in a segment '..' in some spelling; so a base may be normalized beforehand unless it ends in such a segment, and with one it may not.", "quantifier": "every valid base, every pair of equivalent bases, every pair of equivalent references, both spec types", "why_tests_cant": "It relates the results of unboundedly many calls on infinitely many spellings of the same identifiers.", "anchors": ["src/resolve.rs: FixedBaseResolver, resolve, resolve_normalize", "src/normalize.rs: Normalized, NormalizedInner", "src/normalize/path.rs: PathToNormalize, from_paths_to_be_resolved"]}
{"id": "C64", "title": "Template values stay in their component", "statement": "A template written component by component (literal scheme and port, expressions with the operators none . / ; ? & in the places where a sample of what they write conforms to the grammar) expands, if the expansion succeeds, to the recomposition of the expansions of its components; and if the literals anchor the path (after an authority the path starts with a literal slash or a {/...} expression; without one it starts with a literal that is not a slash, or a slash and such a literal), the result is a valid reference whose scheme, authority, path, query and fragment accessors return exactly the expansions of the component templates. So no value can change the scheme or the host of a template that has them as literals. Without the anchor an empty value can: /{a}/{b} expands to //evil.", "quantifier": "every template of that kind (and every accepted template without + # / ? operators whose sample is a valid reference is of that kind), every context, every value, both spec types, both builds", "why_tests_cant": "Injection through template values is about the one value nobody thought of, over unboundedly many templates.", "anchors": ["src/template/expand.rs: Expanded, expand, ValueVisitor, escape_write", "src/template/string.rs: UriTemplateStr", "src/parser/trusted.rs: extract_*", "src/parser/validate.rs: iri_reference"]}
{"id": "C65", "title": "What an expression writes can be read back", "statement": "An expression with one of the operators none, /, ;, ? or & (variable names without '%', no prefix modifiers) writes nothing if none of its variables is defined; otherwise splitting what it writes after its leading character at the separator of the operator, at '=' and at ',', and percent-decoding each part with the crate's own decoder, gives exactly the names and values the context handed out, in order. So different values are never written alike; and if the expression is the query of a template as in C64, the query accessor of the expansion reads back that way. False for the operators . + and #, whose separators are not encoded in values.", "quantifier": "every such expression and template, every context and value, both spec types, both builds", "why_tests_cant": "Losslessness is about all values, in particular those made of the delimiters the reader splits at.", "anchors": ["src/template/expand.rs: ValueVisitor, ListValueVisitor, AssocValueVisitor, escape_write", "src/percent_encode/decode.rs: into_string", "src/types/generic/reference.rs: RiReferenceStr::query_str"]}
{"id": "C66", "title": "A history of calls acts on the components", "statement": "A value of one of the eight string types is exactly one list of components (scheme, user information, host, port, path, query, fragment). Each of the sixteen mutating and converting methods, called as its documentation allows, does not panic and gives the value whose components are the old ones with only the documented change: set_fragment the fragment, replace_host the host, mask_password and remove_*_password_inline the password, encode_to_uri_inline every component encoded on its own, the conversions only the type, into_absolute the fragment, normalize the unique normal form, resolve the RFC 3986 result. So after any sequence of calls the text is the recomposition of the components that the same sequence gives on the components; the last write to a component wins, masking twice is masking once, and writes to different components commute. Excluded are the two calls that are wrong (C26, C27).", "quantifier": "every valid value of every type and spec, every sequence of calls of any length with any arguments of the right types, both builds", "why_tests_cant": "Histories are unbounded; tests look at single calls, and at the text rather than at the components that must not change.", "anchors": ["src/types/generic/{reference,normal,absolute,relative}.rs: set_fragment, replace_host, replace_host_reg_name, remove_password_inline, remove_nonempty_password_inline, mask_password, normalize, resolve_against, into_iri, into_absolute", "src/types/iri.rs: encode_to_uri_inline, encode_into_uri, try_into_uri", "src/types/uri.rs: conversions", "src/raw.rs: set_fragment, replace_range"]}
{"id": "C67", "title": "The accessors are the groups of RFC 3986 Appendix B", "statement": "On every valid reference the regular expression of RFC 3986 Appendix B matches the whole text and the accessors return its groups: scheme $2, authority $4, path $5, query $7, fragment $9, absent exactly if the group took no part in the match. Conversely a text is accepted exactly if that expression matches it to the end, every group conforms to the rule of its component, and a path without scheme and authority does not begin with a colon.", "quantifier": "every string, both spec types", "why_tests_cant": "The regular expression is a second, independent description of how references are cut; agreement on all of the infinitely many strings cannot be tested.", "anchors": ["src/types/generic/reference.rs: scheme_str, authority_str, path_str, query_str, fragment_str", "src/parser/trusted.rs: extract_*", "src/parser/validate.rs: iri_reference"]}
{"id": "C68", "title": "A resolved reference stays in the directory of the base", "statement": "A relative path that, read segment by segment ('.' stays, '..' goes up, anything else goes down, each in any percent-encoded spelling), never climbs above the place where it starts resolves, against every base, to an IRI whose text begins with what the reference '.' resolves to, with the same scheme and authority and with a path that begins with the path of that directory; and a relative path that does climb leaves the directory of some base. A reference without scheme and authority always keeps the scheme and authority of the base. This holds for plain resolution and for resolution with normalization.", "quantifier": "every base, every reference, both spec types, plain and normalizing resolution", "why_tests_cant": "Path traversal is found by the one spelling (%2e%2E/, //, ..%2f) a test did not think of; the claim is about all of them, for every base.", "anchors": ["src/resolve.rs: FixedBaseResolver, resolve", "src/normalize/path.rs: PathToNormalize, from_paths_to_be_resolved, fmt_write_normalize, SegmentKind", "src/types/generic/reference.rs: resolve_against"]}
{"id": "C69", "title": "Results fit into buffers of known size", "statement": "Both normalizations give a text that is never longer (in bytes) than the input, in spite of the /. they may insert, so a buffer as long as the input always suffices for write_to_slice; resolution gives at most one byte more than base and reference together, and that byte only if the base has an authority and an empty path; encoding an IRI as a URI adds exactly two bytes for each byte of a non-ASCII character; percent-encoding at most triples the length; percent-decoding never lengthens. The bounds are attained.", "quantifier": "every valid IRI, base and reference, every string and every chunking of it, both spec types, all modes", "why_tests_cant": "A bound on sizes is a claim about the worst of infinitely many inputs.", "anchors": ["src/normalize.rs: Normalized", "src/normalize/path.rs: PathToNormalize", "src/resolve.rs: FixedBaseResolver", "src/convert.rs: MappedToUri, try_percent_encode_iri_inline", "src/percent_encode.rs: PercentEncoded", "src/percent_encode/decode.rs: into_bytes", "src/format.rs: write_to_slice"]}
{"id": "C70", "title": "Arbitrary data survives the trip through an IRI", "statement": "Any data (a scheme, optional user name and password, a host name, a port number, any list of path segments, a query, a fragment, made of any characters whatsoever) that is encoded piece by piece with the PercentEncoded constructors and handed to the builder gives, for each of the four target types, a valid value that displays as a text which the accessors take apart (user information at ':', path at '/') and the decoder decodes to exactly that data; the build fails exactly if the scheme is not a scheme, the type lacks or forbids a component, or a path beginning with an empty segment has no authority before it. What is read from a reference is unchanged by encode_to_uri, and normalization (by the method or by the builder) changes only the letter case of the scheme and of a US-ASCII host unless a segment is '.' or '..', in any spelling. Encoded texts are already in percent-encoding normal form.", "quantifier": "every data, every target type, both spec types; every valid reference that the reader can read", "why_tests_cant": "Tests try a few delimiters in a few places; the claim is that no character in any place leaks into another component or is lost, through five functions composed.", "anchors": ["src/percent_encode.rs: PercentEncoded::from_user, from_password, from_reg_name, from_path_segment, from_query, from_fragment", "src/percent_encode/decode.rs: into_string", "src/build.rs: Builder::build", "src/types/generic/reference.rs: scheme_str, authority_components, path_str, query_str, fragment_str", "src/components/authority.rs: userinfo, host, port", "src/convert.rs: MappedToUri", "src/normalize.rs: Normalized"]}
{"id": "C71", "title": "Every value a safe program can make belongs to its type", "statement": "A program that uses only safe functions (constructors from text and bytes, conversions between types and between the specs, fragment splitting and setting, typed query and fragment accessors, FixedBaseResolver accessors, resolution, normalization, encoding, password masking and removal, host replacement, template concatenation, builders with any setters), on any number of values and in any order, never panics, and every value that it ever holds is in the language of its type: every unsafe unchecked construction inside the crate gets a text for which its promise is true.", "quantifier": "every program, every input text, every build profile, both spec types", "why_tests_cant": "The number of programs is infinite, and one invalid value breaks every later call that trusts it; tests try one call at a time on valid samples.", "anchors": ["src/types/generic/macros.rs: new_unchecked_justified, new_unchecked", "src/types/generic/{reference,normal,absolute,relative,query,fragment}.rs", "src/types/iri.rs", "src/types/uri.rs", "src/resolve.rs: FixedBaseResolver", "src/build.rs: Builder, Built", "src/normalize.rs: Normalized", "src/convert.rs: MappedToUri", "src/mask_password.rs", "src/template/string/owned.rs: append"]}
{"id": "C72", "title": "Two references in a row are one reference", "statement": "Resolving a reference r1 against a base, and then a reference r2 against the result, gives what resolving one reference against the base gives: r2 merged with r1 by the rules of RFC 3986 section 5.2.2 (dot segments left alone), which is itself a valid reference and does not depend on the base. This holds for plain resolution and for both kinds of normalizing resolution, with one exception that the RFC itself makes: if r2 has a relative path, the path of r1 (and, if r1 has no path and results are normalized, the path of the base) must not end in '..', in any percent-encoded spelling.", "quantifier": "every base, every pair of references, both spec types, all three modes", "why_tests_cant": "A law about two calls that are composed, for all triples of texts, with paths that are escaped ('/.//') or emptied in between; a test checks a few triples.", "anchors": ["src/resolve.rs: FixedBaseResolver, resolve", "src/normalize/path.rs: PathToNormalize, from_paths_to_be_resolved, fmt_write_normalize", "src/normalize.rs: Normalized, create_task", "src/types/generic/reference.rs: resolve_against"]}
{"id": "C73", "title": "Values are keys: Hash, Eq, Ord and Borrow fit together", "statement": "A value and what Borrow gives (a str, a slice of the type) have the same hash for every hasher, are equal exactly if the texts are, and are ordered by the code points of the texts. Hence a HashMap or BTreeMap whose keys are owned values, filled and emptied by any history of insert, get and remove, asked in any of the three forms, never panics and returns exactly what a map from texts returns; a BTreeMap lists its entries by code point. Texts that differ only in case or percent-encoding are different keys.", "quantifier": "every history of calls, every hasher and way of probing the table, every key type, every form of the key, both build profiles", "why_tests_cant": "A mismatch between Hash or Ord of the owned and the borrowed type loses entries only for some hashers, table sizes and histories.", "anchors": ["src/types/generic/macros.rs: Hash, PartialEq, Ord, Borrow, AsRef", "src/template/string.rs: UriTemplateStr", "src/template/string/owned.rs: Borrow, AsRef"]}
{"id": "C74", "title": "Edits do not depend on the spelling", "statement": "Editing an IRI (fragment, host, password, into_absolute) and then normalizing gives what normalizing, editing and normalizing gives, in both modes; removing the fragment or the password commutes with normalization outright. Hence equivalent values (C49) stay equivalent under every history of the mutating and converting methods, except the three that ask about the spelling: replace_host_reg_name (it replaces the host %31.2.3.4 but not the equivalent 1.2.3.4), try_into_uri and resolve_against (C63). Likewise every edit followed by encode_into_uri is encode_into_uri followed by the same edit with the new text encoded.", "quantifier": "every valid value of every type and spec, every pair of equivalent texts, every history of calls, both builds", "why_tests_cant": "The law relates two whole computations for every pair of equivalent texts; edits work by byte ranges, which move under normalization and encoding.", "anchors": ["src/types/generic/{reference,normal,absolute,relative}.rs: set_fragment, replace_host, replace_host_reg_name, remove_password_inline, remove_nonempty_password_inline, mask_password, into_absolute, normalize", "src/types/iri.rs: encode_to_uri_inline, encode_into_uri", "src/normalize.rs: Normalized", "src/convert.rs: MappedToUri"]}
{"id": "C75", "title": "A builder made from a value edits it", "statement": "A builder made from a value of any type, after any sequence of setters and unsetters (a path that is a path, no colon in a user name given on its own, no normalization), builds a value of any type exactly if the components of the old value with the changes that the setters name are the components of such a value; then the result is exactly that value, and otherwise build fails without a panic. With normalize at the end the result is the normal form of that value. Where a setter and a method of the owned types (set_fragment, replace_host, the three password methods, into_absolute, into_reference) describe the same change, both give the same text.", "quantifier": "every valid value of every type and spec, every sequence of setters of any length, every target type", "why_tests_cant": "The builder keeps its components as separate texts and the methods work in place on byte ranges; that both are the same edit has to hold for every value and every sequence of setters.", "anchors": ["src/build.rs: Builder, From<&RiReferenceStr>, build, Built", "src/types/generic/{reference,normal,absolute,relative}.rs: set_fragment, replace_host, remove_password_inline, remove_nonempty_password_inline, mask_password, into_absolute"]}
{"id": "C76", "title": "Structured data in a query survives", "statement": "An application splits the query or the fragment at reserved characters of its choice (at '&', the parts at '=', and so on) and percent-decodes the pieces. What it reads is not changed by normalization (either mode), by conversion to a URI, or by resolution in any mode, where the query comes from the reference unless the reference has no component but a fragment. Hence values that a template expression {?...} wrote into the query are read back after expanding, resolving against any base, normalizing and converting to a URI.", "quantifier": "every valid value, every base and reference, every list of separators among the reserved characters, every context and template as in C65", "why_tests_cant": "Decoding one percent-encoded separator, or encoding one, changes what is read; that no input whatsoever triggers it is a statement about all texts, all nestings of separators and all combinations of operations.", "anchors": ["src/normalize.rs: Normalized, normalize", "src/normalize/pct_case.rs: PctCaseNormalized", "src/convert.rs: MappedToUri", "src/resolve.rs: FixedBaseResolver", "src/percent_encode/decode.rs: decode_whatwg_bytes", "src/template/expand.rs: Expanded", "src/components.rs: query_str, fragment"]}
{"id": "C77", "title": "The password influences nothing but itself", "statement": "Two values for which mask_password() shows the same text differ in nothing but the password. After any history of the mutating and converting methods, including resolution against bases that may themselves differ in their passwords, both have succeeded with values of the same type for which mask_password() still shows the same text, and the accessors for everything but the user information return the same. Once one of the password-removing methods was called, all later results are identical. The only excluded method is try_into_uri, which asks whether the whole text is US-ASCII (and, as in C66, the calls that C26 and C27 find broken).", "quantifier": "every pair of values that agree up to the password, every history of calls of any length, both spec types, all kinds, both build profiles", "why_tests_cant": "Noninterference relates two runs for every pair of secrets and every history; a test sees single runs with chosen secrets.", "anchors": ["src/mask_password.rs: password_range_to_hide, PasswordMasked", "src/types/generic/{reference,normal,absolute,relative}.rs: mask_password, remove_password_inline, remove_nonempty_password_inline, set_fragment, replace_host, resolve_against, normalize", "src/normalize.rs: Normalized", "src/resolve.rs: FixedBaseResolver", "src/types/iri.rs: encode_to_uri_inline, try_into_uri"]}
{"id": "C78", "title": "An edit of the base is an edit of the result", "statement": "Take a reference without scheme and authority. Changing the authority of the base (replacing the host, masking or removing the password, any history of such calls) and then resolving the reference against it gives exactly what resolving against the unchanged base and then making the same calls on the result gives; in the normalizing modes the latter is to be normalized (for a base with an authority). A reference with a scheme or an authority of its own resolves to the same result against the old and the new base, in every mode.", "quantifier": "every valid base (IRI or absolute IRI, both specs), every valid reference, every history of authority edits allowed by C66, every mode, both builds", "why_tests_cant": "The law relates two orders of two whole computations for every base, reference and history; edits work by byte ranges, which differ between the base and the result.", "anchors": ["src/resolve.rs: FixedBaseResolver, resolve_against", "src/types/generic/{normal,absolute}.rs: replace_host, replace_host_reg_name, remove_password_inline, remove_nonempty_password_inline, mask_password", "src/normalize.rs: Normalized"]}
{"id": "C79", "title": "Converting to URIs can wait", "statement": "Any history of the mutating and converting methods on an IRI value (edits, normalization in both modes, conversion between the types, resolution in every mode) followed by encode_into_uri gives the same as encode_into_uri first, followed by the same history on the URI value with the texts given to the methods encoded. In particular a URI that is used as an IRI, with US-ASCII texts given to the methods, comes out after conversion as it would have come out had it stayed a URI. (A text given as a new host must be a host: the encoding of a text that is no host of an IRI may be a host of a URI.)", "quantifier": "every valid value of every type, every history of any length of calls allowed by C66 that do not change the spec, both builds", "why_tests_cant": "The law relates two whole computations for every value and every history; every method is compiled twice, for the two specs, and must agree on all of them.", "anchors": ["src/spec.rs: IriSpec, UriSpec", "src/types/iri.rs: encode_into_uri, encode_to_uri_inline", "src/types/generic/{reference,normal,absolute,relative}.rs", "src/normalize.rs: Normalized", "src/resolve.rs: FixedBaseResolver", "src/convert.rs: try_percent_encode_iri_inline"]}
{"id": "C80", "title": "Text made for IRIs and then converted is text made for URIs", "statement": "Percent-encoding any text for any context as part of an IRI and then converting it to US-ASCII gives what percent-encoding it for a URI gives. Expanding any template with any context for IRIs and converting gives what expanding it for URIs gives, and the two expansions fail with the same error, or panic, in the same cases; if the IRI expansion is an IRI (of any kind) the URI expansion is a URI of that kind. A builder whose texts have been encoded builds the URI to which the IRI built from the original texts converts.", "quantifier": "every text (in any pieces), every percent-encoding context, every accepted template, every context and value (also those the expansion departs from RFC 6570 on), every builder state, with and without normalization (with it the path must not contain a stray percent sign, which panics, C28), every target kind, both builds", "why_tests_cant": "It relates two instantiations of the same generic code for every Unicode text, including prefix modifiers that count bytes, broken triplets and panics.", "anchors": ["src/percent_encode.rs: PercentEncoded", "src/template/expand.rs: Expanded, escape_write, escape_write_with_maxlen, TruncatePercentEncodeWriter", "src/build.rs: Builder, Built", "src/convert.rs: MappedToUri", "src/spec.rs: IriSpec, UriSpec"]}
{"id": "C81", "title": "The fixed buffers of the percent decoder never overflow and never leak stale bytes", "statement": "Reserved expansion ({+v}, {#v}, with or without prefix modifier) decodes a value piece by piece through two arrays of fixed size (12 and 4 bytes) whose bytes it shifts down, and a third array of 12 bytes it copies out to. For every value, cut into pieces in any way, what is handed on is exactly what the value contains according to an explicit description, and the only panics are the ones in that description: no index, slice or subtraction in the buffer code goes out of range, and no byte left from earlier content reaches the output.", "quantifier": "every value, every cutting into pieces (also inside triplets and inside characters), every sequence of valid, broken and incomplete triplets, every callback (also one that stops or panics), both builds", "why_tests_cant": "The state of the buffers depends on the whole history of pieces; overflows and stale bytes show up only after particular sequences of incomplete and broken triplets.", "anchors": ["src/parser/str/maybe_pct_encoded.rs: DecoderBuffer, write_and_pop, push_single_encoded_byte, push_encoded, flush, DecomposeWriter, output_as_undecodable, process_percent_encoded_best_effort", "src/template/expand.rs: escape_write, escape_write_with_maxlen"]}
{"id": "C82", "title": "Removing dot segments takes at most quadratically many steps", "statement": "Normalizing an IRI, or resolving a reference, reads path segments at most (n + 11)^2 / 16 times, where n is the number of slashes in the input (in both inputs, for resolution). Without a dot segment in the path, in any spelling, it reads at most n + 4 segments. The quadratic bound is attained up to lower terms: for every m the IRI a:/a/.../a/. with m segments a takes at least m^2 / 16 reads, so no linear bound holds.", "quantifier": "every valid IRI and reference of any length, both specs, every normalization mode; for the last sentence every m and every linear bound", "why_tests_cant": "A bound on work is about inputs of every size; a benchmark shows a few sizes, and the rescanning only shows with paths of more than eight segments followed by a dot segment.", "anchors": ["src/normalize/path.rs: PathToNormalize, fmt_write_normalize, resolve_and_write_path_prefixes, remove_ignorable_prefix, PathSegmentsIter", "src/normalize.rs: Normalized"]}
{"id": "C83", "title": "The mode that preserves relative paths without an authority changes only that", "statement": "Resolution in the mode of normalize_but_preserve_authorityless_relative_path gives a valid IRI that is normalized in that mode and that normalizes to what resolution with full normalization gives. Both normalizations of an IRI (and both resolutions) agree if and only if the IRI has an authority, or its path is empty or starts with a slash, or no segment of its path is a dot segment in any spelling. Where they differ, the path of the result has the segments of the input (of the merged path, for resolution) one to one, dot segments included. Against a base with an authority or a rooted path, a relative reference that never climbs above its start stays in the directory of the base in this mode too; against other bases the reference . does not give the directory.", "quantifier": "every valid base and reference, both specs", "why_tests_cant": "The mode is a condition inside the path writer that depends on the authority and on the first character of a path that is never built as a text; that it fires in exactly the stated cases is a statement about all inputs.", "anchors": ["src/normalize.rs: NormalizationMode, Normalized::enable_normalization_preserving_authorityless_relative_path, RiStr::normalize_but_preserve_authorityless_relative_path", "src/normalize/path.rs: PathToNormalize::fmt_write_normalize", "src/resolve.rs: FixedBaseResolver::resolve"]}
{"id": "C84", "title": "Template expressions can be cut, continued and shortened", "statement": "In any template: an expression with operator /, ., ; or & can be cut at any comma into two expressions with that operator ({/a,b} is {/a}{/b}), whatever the values; {?a,b} is {?a}{&b} if a variable before the cut is defined; {a,b} is {a},{b}, {+a,b} is {+a},{+b} and {#a,b} is {#a},{+b} if a variable on each side is defined; a variable that is undefined can be left out, and so can an expression whose variables are all undefined. The new text is a template again, and it expands to the same text, or both expansions report a type error, or both panic. The conditions are needed.", "quantifier": "every accepted template (any text before and after), every list of variables with any modifiers, every context and value (also values on which the crate departs from RFC 6570 or panics), both specs, both builds", "why_tests_cant": "A law about pairs of templates for all templates and all values; the state that decides between first and separator is carried through visitors that run only for defined values.", "anchors": ["src/template/expand.rs: expand, OpProps, ValueVisitor, ListValueVisitor, AssocValueVisitor, is_first_varspec", "src/template/components.rs: VarListIter, ExprBody::decompose", "src/template/string.rs: UriTemplateStr::expand"]}
{"id": "C85", "title": "Validation is linear: no text makes it look at its bytes more than ten times", "statement": "Validating any text at all as an IRI, an IRI reference, an absolute IRI or a relative reference, accepted or rejected, looks at no more than ten bytes per byte of the text, in the searches for delimiters and the tests of characters together, also where the code goes back: after a scheme that turns out not to be one, after a port that turns out not to be one, after each part of an IPv6 address. So an attacker cannot make validation slow with a crafted text. A text that is accepted has been looked at in full.", "quantifier": "every text, both character repertoires, all four entry points", "why_tests_cant": "a slow text, if there were one, would be one nobody thought of; measuring some texts says nothing about the worst one", "anchors": ["src/parser/validate.rs: validate_uri_reference_common, validate_relative_ref, validate_after_path", "src/parser/validate/authority.rs: validate_authority, validate_host, validate_ipv6address", "src/parser/str.rs: satisfy_chars_with_pct_encoded, find_split_hole, rfind_split_hole"]}
{"id": "C86", "title": "A template expansion is at most three times as long as the template and the values it uses", "statement": "If an accepted template expands, the number of bytes of the text is at most three times the number of bytes of the template plus, for every occurrence of a variable in it, the number of bytes of the value of that variable (a member of a list counting one byte and the name of the variable more, a member of an associative array one byte more). There is no value, template, operator or modifier with which a small input makes a huge output. The factor is reached.", "quantifier": "every accepted template, every context, every value (also written in pieces, also broken percent-encodings), both character repertoires, debug and release builds", "why_tests_cant": "an amplification would need a particular combination of operator, modifier and value, and of the pieces a value is written in", "anchors": ["src/template/expand.rs: expand, escape_write, escape_write_with_maxlen, ValueVisitor, ListValueVisitor, AssocValueVisitor", "src/parser/str/maybe_pct_encoded.rs: process_percent_encoded_best_effort", "src/template/string.rs: expand, variables"]}
{"id": "C87", "title": "Reading a component is linear, and reading the scheme stops at its colon", "statement": "For any text of n bytes, valid or not: reading the scheme, the authority, the path, the query or the fragment, or all of them at once, looks at no more than 2 n + 3 bytes; finding the authority and splitting it into user information, host and port at no more than 4 n + 1. When there is a scheme, reading it looks at the scheme and the colon after it and at nothing else, however long the rest is.", "quantifier": "every text, valid or not, of any length; every component", "why_tests_cant": "time bounds are about every length; a timing test of a few inputs says nothing about the worst input", "anchors": ["src/parser/trusted.rs: extract_scheme, extract_authority, extract_path, extract_query, extract_fragment, decompose_iri_reference", "src/parser/trusted/authority.rs: decompose_authority", "src/parser/str.rs: find_split2, find_split3, find_split4_hole, rfind_split2, find_split_hole", "src/components.rs: RiReferenceComponents::from, to_major"]}
{"id": "C88", "title": "Template validation and the list of variables are linear", "statement": "For any text of n bytes, accepted or not: validating it as a URI template looks at no more than 4 n bytes, and listing all the variables of a template at no more than 4 n. Accepting a template takes at least n: no byte is accepted unread.", "quantifier": "every text of any length, accepted or not", "why_tests_cant": "a text that makes validation start again from an earlier place (an unclosed brace, a long run of commas) need not be among the tested ones", "anchors": ["src/template/parser/validate.rs: validate_template_str, validate_expr_body, validate_varspec, validate_varname, validate_literal", "src/template/expand.rs: Chunks::next", "src/template/components.rs: VarListIter::next, VarSpec::parse_trusted, ExprBody::decompose", "src/template/string.rs: variables, UriTemplateVariables::next"]}
{"id": "C89", "title": "A template context may change while it is asked", "statement": "With a dynamic context, whatever state it keeps and however its answers depend on it, expand_dynamic asks for the variables of an accepted template in order, each first for its type and then for its value, and writes the literals and for every occurrence of a variable the text of the value given for this occurrence. The first variable whose type does not fit ends the expansion with an error at its byte position, and what is written then is exactly the text up to it. What is written is never longer than three times the template and the values given.", "quantifier": "every accepted template (also with prefix lengths that are too long), every context with any state, debug and release builds, both repertoires", "why_tests_cant": "the context is code written by the user; tests use contexts that always give the same answers", "anchors": ["src/template/expand.rs: expand_whole_dynamic, expand_whole_dynamic_impl, expand_expr_mut", "src/template/context.rs: DynamicContext", "src/template/string.rs: expand_dynamic, expand_dynamic_to_string"]}
{"id": "C90", "title": "Triplet normalization, decoding and conversion to a URI are linear", "statement": "For any text of n bytes, valid or not: normalizing its percent triplets looks at no more than 2 n bytes (nothing is scanned again beyond one triplet), deciding whether a host is ASCII and normalizing such a host at no more than n, decoding (to bytes or to fragments) at no more than 3 n, converting an IRI to a URI in place reads and writes no more than 10 n bytes, and writing an IRI as a URI no more than 71 n, the buffer it fills for every run of non-ASCII characters included.", "quantifier": "every text of any length, valid or not, both repertoires", "why_tests_cant": "a text with broken triplet sequences that makes a loop start again need not be among the tested ones", "anchors": ["src/normalize/pct_case.rs: PctCaseNormalized, NormalizedAsciiOnlyHost", "src/parser/trusted.rs: take_xdigits2, is_ascii_only_host", "src/percent_encode/decode.rs: try_non_allocating_decode, into_bytes, PercentDecodedBytesFragments::next", "src/convert.rs: write_percent_encoded, percent_encode_bytes, try_percent_encode_iri_inline"]}
{"id": "C91", "title": "Normalization and resolution look at no more than bytes times slashes", "statement": "Splitting and normalizing a valid IRI of n bytes with m slashes, in every mode, looks at no more than (5 n + 18) (m + 22) bytes: scans over the path for slashes, comparisons of segments with dot segments, triplets and hosts. The same holds for resolving a valid reference against a valid base, n bytes with m slashes together. The product cannot be replaced by a linear bound: some IRIs with about 2 m bytes need at least m^2 / 16.", "quantifier": "every valid base, IRI and reference of any length, both repertoires, all normalization modes", "why_tests_cant": "the slow inputs are those where many rounds walk over the same rest of the path; a timing test sees a few sizes only", "anchors": ["src/normalize/path.rs: PathToNormalize::fmt_write_normalize, resolve_and_write_path_prefixes, remove_ignorable_prefix, find_next_slash_from, PathSegmentsIter::next", "src/normalize.rs: NormalizedInner fmt, normalize_authority, normalize_host_port, with_resolution_params", "src/resolve.rs: FixedBaseResolver::resolve"]}
{"id": "C92", "title": "Which IRIs a relative reference can reach", "statement": "From every base, an IRI with the scheme of the base, an authority and no dot segment is reached by its own text without the scheme (a normalized one also by normalizing resolution). From a base with an authority or an absolute path, the relative references reach exactly these IRIs, those with the authority of the base whose path is absolute and without dot segments (with the /. escape if needed), and those that keep the base's path, whatever it is, with the base's query or another one; references without an authority reach exactly the last two kinds. So a link can always be made relative, also to a path that starts with //, and an IRI with dot segments of its own cannot be reached. From a base whose path is rootless (mailto:x, urn:a/b), rootless paths without dot segments can be reached too: all of them if the base's path has no slash, and otherwise those that share the first segment of the base's directory (after its dot segments are removed).", "quantifier": "every valid base, every valid target, all relative references, both repertoires", "why_tests_cant": "that no reference leads somewhere is a statement about infinitely many references", "anchors": ["src/resolve.rs: FixedBaseResolver::resolve", "src/normalize.rs: with_resolution_params, create_normalization_input", "src/types/generic/reference.rs: resolve_against", "src/types/generic/relative.rs: resolve_against"]}
{"id": "C93", "title": "Without dot segments, resolving is cutting and pasting", "statement": "Let base and reference contain no dot segments (in the parts that are used). Then resolving a relative path is: cut the base at its query and fragment, cut it after the last slash of its path, and append the reference as it is, query and fragment included. If the base has an authority and no path, a slash is put between; if its path has no slash and there is no authority, the path is replaced; and a reference that starts with one slash is appended to scheme and authority. No byte is changed, dropped or inserted beyond that, in particular no triplet and no empty segment.", "quantifier": "every valid base and reference of any length, both repertoires", "why_tests_cant": "slashes in queries, empty segments, colons and empty paths combine in unboundedly many ways", "anchors": ["src/resolve.rs: FixedBaseResolver::resolve", "src/normalize.rs: create_normalization_input, NormalizedInner fmt", "src/normalize/path.rs: from_paths_to_be_resolved, fmt_write_normalize", "src/types/generic/reference.rs: resolve_against"]}
{"id": "C94", "title": "Editing in place is linear work", "statement": "Showing an IRI with its password masked or replaced, removing the password in place, replacing the host in place and setting the fragment look at, write and move a number of bytes that is bounded by a fixed multiple of the lengths of the text, of the replacement and of the output, whatever the text, valid or not; a debug build adds one validation. Telling a registered name from an address takes at most 28 bytes, however long the host.", "quantifier": "every text, every replacement, the four types, debug and release builds, both repertoires", "why_tests_cant": "a bound on the work for texts of every length; tests measure a few", "anchors": ["src/mask_password.rs: password_range_to_hide, PasswordMasked, PasswordReplaced", "src/types/generic.rs: replace_domain_impl", "src/raw.rs: set_fragment, remove_fragment", "src/types/generic/normal.rs: remove_password_inline, remove_nonempty_password_inline, try_replace_host_impl", "src/parser/trusted/authority.rs: is_host_reg_name"]}
{"id": "C95", "title": "Building is linear work, and with normalization bytes times slashes", "statement": "A builder that does not normalize, whatever it was given, of n bytes in all, looks at no more than 3n + 3 bytes to build, and displaying the result costs exactly the bytes written. With normalization and a grammatical path, both look at no more than (5n + 18)(m + 22) bytes, where m is the number of slashes in the path, which is the bound for normalizing the IRI afterwards (C91).", "quantifier": "every builder and every target type, both repertoires", "why_tests_cant": "a bound on the work for texts of every length; tests measure a few", "anchors": ["src/build.rs: Builder::build, validate_builder_for_iri_reference, Builder::fmt_write_to, Built fmt", "src/normalize/path.rs: PathCharacteristic::from_path_to_display, fmt_write_normalize"]}
{"id": "C96", "title": "Template expansion is linear work", "statement": "Expanding a template into a string -- the check of the types of the variables and then the text -- looks at and copies a number of bytes bounded by a constant times the size of the template together with the values of its variables (counted once per occurrence): in how many pieces a value's Display writes it, how its percent-encoded triplets are broken, cut between pieces or undecodable, and what prefix length is asked for, does not change that.  No input makes the percent-decoder's buffer, or the retries after an undecodable sequence, cost more than a constant per byte.", "quantifier": "all specs, both build modes, all contexts with values written in any number of pieces, all accepted templates", "why_tests_cant": "A timing test measures the values it is run with; the retries of the decoding buffer depend on how the pieces of a value cut the triplets, so the worst case is not among a few samples.", "anchors": ["src/parser/str/maybe_pct_encoded.rs: process_percent_encoded_best_effort, DecomposeWriter, DecoderBuffer", "src/template/expand.rs: Expanded, typecheck_context, expand, escape_write, escape_write_with_maxlen, ValueVisitor", "src/template/string.rs: UriTemplateStr::expand"]}
{"id": "C97", "title": "Dynamic template expansion is linear work", "statement": "Expanding a template with a dynamic (mutable) context looks at and copies a number of bytes bounded by a constant times the size of the template together with the sizes of its variables, counted once per use, whatever the context answers, in whatever order its state changes, and whether the expansion succeeds or stops at a variable of the wrong type. (A variable's size bounds any answer the context gives for it.)", "quantifier": "all specs, both build modes, all dynamic contexts with any state, all accepted templates", "why_tests_cant": "The context may answer differently every time it is asked; a timing test follows one history of answers.", "anchors": ["src/template/expand.rs: expand_whole_dynamic, expand_expr_mut", "src/template/string.rs: UriTemplateStr::expand_dynamic"]}
