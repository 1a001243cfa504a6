# Formal model of lo48576/iri-string in Lean 4

## 1. Layout

    lean/Verif/Model/*    the model: one Lean definition per Rust function, each with a
                          comment citing file and lines in /repo
    lean/Verif/Spec/*     the specifications: RFC 3986/3987 ABNF, RFC 3986 5.2 and 6.2.2,
                          RFC 6570, RFC 3629, IP address texts, percent-decoding, ...
    lean/Verif/Lemmas/*   proof infrastructure
    lean/Verif/Props/*    the property theorems (one file per group), with non-vacuity
                          `example`s beside them
    properties.jsonl      the English properties (generated by tools/props.py)
    MANIFEST.json         property -> theorem names (generated by tools/manifest.py)
    seeded/LOG.jsonl      mutation experiments against the theorems
    tools/mutations/*     the hand-written mutation lists, run by tools/mutate.py
    tools/automutate.py   generated mutations (comparison, boundary, literal, branch edits)
    tools/coverage.py     which functions of /repo/src no model comment cites

The grammar is stated with ABNF combinators (`Spec/Abnf.lean`, `Spec/Grammar.lean`) as predicates on
character lists, rule by rule from RFC 3986 Appendix A and RFC 3987 2.2, and does not refer to any
model function.  `Spec/Parts.lean` defines the five components and their recomposition (RFC 3986 5.3).

## 2. Modelling decisions

* **Strings.** A Rust `str` is a `List Char` (Lean `Char` = Unicode scalar value = Rust `char`).
  `s.len()` is `blen s`, the sum of UTF-8 sizes.  Slicing by byte offset, `&s[i..j]`,
  is `Option`-valued: `none` is the Rust panic for an offset outside the string or
  inside a character.  Searching for an ASCII byte is modelled on characters; property C37
  proves that this is what the byte search on the UTF-8 encoding does (for the plain and for the
  `memchr` variants).
* **Spec parameter.** `S: Spec` is an inductive `iri | uri` (`spec/internal.rs`).
* **Errors.** A validator is modelled by `Bool`/`Option Bool`; the kinds of errors, their messages
  and positions are modelled separately (`Model/Diagnose`, `BuildDiagnose`, `TemplateError`) and
  proved to agree with the Boolean models (C43-C45).
* **Panics.** `Option.none` in the functions that may panic.  `debug_assert!`s are part of the model
  where they can be violated: such functions have a parameter `debug`/`dbg`, and theorems quantify
  over it.  Overflow of `usize` subtraction is modelled (panic in debug, wrap-around in release) in
  template expansion, where it happens; elsewhere subtractions are proved not to underflow or are
  `Option`-valued.  Additions and multiplications on `usize` are unbounded naturals: no text in
  memory overflows them.  The additions on `u8` in the decoding of a percent triplet can overflow on bytes
  that are not hexadecimal digits: with overflow checks that is a panic, without them it wraps
  (`Model/PctCase.lean`).  Which of the two is `overflowChecks`, an `opaque` Boolean constant (a definition,
  not an axiom): no proof can unfold it, so every theorem holds for both kinds of build.
* **Writers.** `fmt::Display` implementations are functions returning the text written; in `format.rs`
  (C36, C51) a `Display` is an arbitrary interactive program that writes chunks and sees the results,
  and the writer may fail at any point.  In template expansion a value is an arbitrary list of chunks;
  failing writers are modelled there too (C54), and for the other `Display` implementations in
  `Model/DisplayWriter.lean` (C60), which also has all their `debug_assert!`s.
* **Allocator.** In C36 and C51 an arbitrary oracle (`Model/Alloc.lean`); elsewhere allocation succeeds.
* **Contexts.** A template context is the value it hands to the visitor for each purpose and name; a
  dynamic context also has an arbitrary state.  C62 proves that this is no loss: there a context is
  arbitrary code against the visitor interface (`Model/TemplateCode.lean`).  That a context does not panic,
  terminates, and returns the token of the visitor it was given (`VisitDoneToken`, checked by pointer
  comparison in the code) is assumed.
* **Standard library.** `str::from_utf8` and its `valid_up_to`/`error_len` are modelled and proved to agree
  with an RFC 3629 specification on what the code uses; `Display` of integers and of `Ipv4Addr`/`Ipv6Addr`
  is modelled, and proved to denote the address (C50); `BTreeMap` is a sorted association list.
* **Loops** are structurally recursive, or have fuel that is proved sufficient (a theorem about the public
  function never mentions fuel).

## 3. Trusted base

* Lean 4.33.0's kernel.  No Mathlib module is imported.
* Axioms (`tools/axioms.py` prints them): of the 474 manifest theorems 392 depend on `propext`,
  `Classical.choice` and `Quot.sound`, 39 on `propext` and `Quot.sound` (among them C05_port,
  C28_setters, C33_agrees, C34_agree, C36_try_append_to_string, C37_memchr, C38_cmp, C40_lower_case,
  C54_static, C54_dynamic, C57_mask_debug, C58_default, C60_percent_encoded), 42 on `propext` only (the
  `_refuted` witnesses and a few more) and one on none.  No other axiom occurs; theorems added later
  depend on subsets of the same three (vcheck reports any other).
* The faithfulness of the hand transcription of the Rust text into `Verif/Model`, and the modelling
  decisions of section 2.  This is *tested*, not proved: `Verif/Conformance` evaluates, in the kernel, the
  model on the crate's own tests: every table of `/repo/tests` (138 component cases, 109 resolutions,
  193 URI pairs, 149 template expansions, the builder, percent-encoding and issue tests), 661 of the 691
  assertions in doc comments, most of the other 30 by hand, and the unit tests inside `src`.  The model
  agrees with all of them.  The files are generated by `tools/conformance.py` and `tools/doctests.py`
  (assertions left out are in `tools/doctests.skipped`).  They are tests of the transcription, no
  property rests on them and none of them is in the manifest.
* The transcription of the RFC rules into `Verif/Spec`.

### What is modelled

| file | model |
|------|-------|
| parser/char.rs, parser/str.rs, parser/str/maybe_pct_encoded.rs | Chars, Str, Bytes, MaybePct |
| parser/validate.rs, parser/validate/{authority,path}.rs, validate.rs | Validate, Diagnose, Asserts |
| parser/trusted.rs, parser/trusted/authority.rs, components.rs, components/authority.rs | Components, TypedAccess, Normalize, Asserts |
| raw.rs, types/generic/*.rs, types/iri.rs, types/uri.rs, types/generic/macros.rs | Types, TypedAccess, Edit, Encode, Construct, History, Serde, Asserts |
| normalize.rs, normalize/{pct_case,path,error}.rs, resolve.rs | PctCase, PathNorm, Normalize, DisplayWriter |
| percent_encode.rs, percent_encode/decode.rs, convert.rs | Encode, Decode, DisplayWriter |
| build.rs | Build, BuildDiagnose, Debug, DisplayWriter |
| mask_password.rs | Edit, Debug, DisplayWriter |
| format.rs | Format, Alloc |
| template/**  | Template, TemplateExpand, TemplateNaive, TemplateWriter, TemplateCode, MaybePct, TemplateError |

### What is not modelled

`Hash` (it hashes the string), serde's own code (serializers and deserializers are arbitrary), `AsRef`/`Deref`/`Borrow`/`From`
between transparent wrappers and the `unsafe` casts behind them, `Debug` output except where a
property mentions it, `Clone`, `shrink_to_fit`/`capacity`, `std::error::Error::source` except for creation errors,
the pointer comparison of `VisitDoneToken`, and the feature flags (all features on).

## 4. Plan per property

| id | model | proof |
|----|-------|-------|
| C01-C04 | parser/validate.rs, validators | two inclusions against ABNF combinators; C04 is refuted by a witness and proved in weakened form |
| C05, C06 | parser/validate/{authority,path}.rs, char.rs table | table by exhaustive case split over the 128 entries; IPv6 by counting groups |
| C07, C08 | corollaries of C01-C06 | inclusion of languages |
| C09-C11 | components.rs, parser/trusted.rs | span/delimiter lemmas |
| C12 | components/authority.rs, trusted/authority.rs | ditto |
| C13 | raw.rs, types/generic/* | grammar closure |
| C14-C16 | normalize/path.rs, resolve.rs | simulation: queue automaton vs RFC 5.2.4 stack, induction on segments from the back |
| C17-C21, C40 | normalize.rs, pct_case.rs, trusted.rs:is_normalized | induction on the character list |
| C22, C23 | percent_encode.rs, percent_encode/decode.rs | induction on the input |
| C24 | convert.rs, types/iri.rs | induction on the input, buffer invariant |
| C25, C26 | mask_password.rs, types/generic/* | offsets to cuts |
| C27 | types/generic.rs | grammar closure |
| C28-C30 | build.rs | case analysis + grammar |
| C31-C35, C39 | template/* | induction over chunks |
| C36 | format.rs | induction over write histories (interactive `Display` programs) |
| C37 | parser/str.rs vs UTF-8 bytes | structure of UTF-8 |
| C38 | types/generic/macros.rs | model of TryFrom impls |
| C41 | template/expand.rs | every piece written is URI text; induction over template, values, chunks |
| C42 | expand_dynamic with a stateful context | induction over the template with a call log |
| C43 | validate.rs errors | leftmost bad component of the Appendix B cut |
| C44 | build.rs errors | ordered list of requirements |
| C45 | template/error.rs, parser/validate.rs | first fault: the text before it is an acceptable template |
| C46 | resolve.rs | laws, from the RFC 5.2 specification |
| C47, C48 | resolve/normalize with convert.rs | homomorphism of `mapToUri` through every step |
| C49 | normalize.rs | equivalence relation of RFC 3986 6.2.2; normal forms equal iff equivalent; the same for the path-preserving normalization with its own relation |
| C50 | build.rs with std `IpAddr` | reading the text back with an independent IP text specification |
| C51 | all `try_` functions | arbitrary allocator oracle |
| C52 | all in-place edits and conversions as a transition system | invariant over reachable values |
| C53 | typed `query()`/`fragment()` with the debug assertion, `FixedBaseResolver` accessors | from C05, C10, C11 |
| C54 | the expansion once more at the level of single `write_str` calls of an arbitrary writer with state (`Model/TemplateWriter.lean`; `PrefixOnceWriter`, `TruncatePercentEncodeWriter` explicit, every `?` an early return) | simulation of the text-level model of C33/C34 (`Tracks`, `SimW`, `SimD`), two callbacks side by side for `process_percent_encoded_best_effort`; runs as a monadic composition for the position and the hooks |
| C55 | the visitor traits with `ControlFlow`, `TypeVisitor` and `ValueVisitor` as instances, contexts as functions of a visitor, `VisitValueNaive`, the macro-generated `visit` (`Model/TemplateNaive.lean`); the meaning of Rust values in `Spec/TemplateNaive.lean` | every such context "hands over" a value (`Hands`), so expansion reduces to C33/C34; decimal texts by induction on the digits |
| C56 | `TryFrom<Expanded>` as expansion followed by `TryFrom<String>` | C38 |
| C57 | `Debug` of builders as the tree of names and values given to the formatter (`Model/Debug.lean`); `Display`/`Debug` of masked values with format options | equality of the trees of two builders that differ in the password; C25 |
| C58 | the options read by `Formatter::pad`, passed on by `x.fmt(f)` and dropped by `write_str`/`write!` | case analysis over the settings; C25 |
| C59 | serde visitors; a deserializer is the visitor method it calls (`Model/Serde.lean`) | C38 |
| C60 | every `Display` implementation of normalization, resolution, building, conversion, masking and encoding once more with single calls, `?` and `debug_assert!` (`Model/DisplayWriter.lean`); the calls in which the standard library writes a number are a parameter | each function equals "write a fixed list of pieces" for every writer (`Writes`), composed bottom-up, with the text of the text-level model; buffer invariants discharge the assertions |
| C61 | the functions with a `debug_assert!` that are not in C60 and their callers, once more with the assertions (`Model/Asserts.lean`) | each equals the function without assertions, for all texts (validation) or all valid values; counterexamples by kernel evaluation.  Overflow checks: the model of the decoding of a triplet depends on the opaque `overflowChecks`, so that all other theorems cover both builds; `C61_overflow_refuted` by case distinction on it |
| C62 | contexts as trees of calls of visitor methods, with a branch for `Continue` and one for `Break`; type check, expansion and the loops over them (`Model/TemplateCode.lean`) | code and value agree per variable by induction on the code (`Agrees`), then through the loops; the rule of the documentation is shown to be needed by kernel evaluation |
| C63 | nothing new in the model; a specification of "two spellings of one reference" (`Spec/ResolveEquiv.lean`) | resolution and normalization are rewritten as functions of the parts (C14, C17); the path of a merge is normalized in two halves (`npath_append`), and the directory of a base is recovered from what `.` resolves to |
| C64 | nothing new in the model; templates by components (`Spec/TemplateComponents.lean`) | the exact expansion (C33) of an expression with an encoding operator is its leading delimiter and reg-name text; the expansion of a component then has the characters of its sample, so the parts are valid (C10 gives the accessors); conversely a valid sample can be cut at its delimiters only between pieces |
| C65 | nothing new in the model; the reader (`Spec/TemplateRead.lean`) knows only the separator | the exact expansion (C33) is the join of pieces that do not contain the separator; splitting undoes joining, decoding undoes encoding (C22, C23); with C64 for the query accessor |
| C66 | the values and calls of C52; a machine on components (`Spec/History.lean`) | simulation: for every call a case that combines the exact theorems on it (C13, C25–C27, C24, C08, C17, C14) with the injectivity of recomposition (C09) and of the normal form's specification; induction over the history |
| C67 | nothing new in the model; the regular expression with a backtracking interpreter (`Spec/AppendixB.lean`) | the greedy choices are the right ones: every text is cut by the delimiters, the run follows the cut; with the characterisation of the accessors (C10) and of validation (C02) |
| C68 | nothing new in the model; the walk through the segments of a relative path (`Spec/Contain.lean`) | the removal of dot segments is a stack of segments (lemmas of C14); a walk that stays below never pops what the base put there; for the converse, a base with a name longer than the reference |
| C69 | nothing new in the model; `blen` is `str::len` | every component shrinks under normalization (tokens: a decoded character is shorter than its triplets); for the path, removing dot segments removes nothing, or two bytes, or one byte at the end of a path whose first two characters stay, and the escape costs two |
| C70 | nothing new in the model; the writer and the reader are two small programs over the modelled API, in `Spec/RoundTrip.lean` | the builder accepts what the constructors write (C22, C28), the accessors find the pieces because no piece contains its delimiter, and decoding is inverse to encoding (C23); conversion and normalization keep the decoded bytes and the delimiters of every piece (C24, C20) |
| C71 | `Model/Program.lean`: programs as lists of calls over a store of values of all the string types; what is outside of it: references and lifetimes, smart pointers (`Box`, `Rc`, `Arc` of the same text), serde | invariant of the store, one case per call from C01–C05, C07, C13, C24, C26–C31, C52, C53; `C26_no_colon_valid` for the exact set of values that `remove_password_inline` breaks |
| C72 | resolution in the three modes, already modelled; `Spec/Compose.lean` says which reference stands for two | merging references is associative on components (`merge_assoc`, no dot segments are touched); then dot removal of a directory commutes with cutting off a last segment that is not `..` (`rds_dir_escape`), and a normalized base merges to the same (`merge_normalized`) |
| C73 | `Model/Keys.lean`: `Hash`, `Eq`, `Ord`, `Borrow` of slices and owned types over any hasher; the two maps of the standard library reduced to how they use the key type (a table that looks at least at the entries with the same hash; one sorted node) | refinement: an invariant (distinct valid keys under their hashes; strictly sorted), one case per call, induction over the history |
| C74 | nothing new: the methods of C66, normalization, encoding | the normal form as a function on the components of C66; each edit commutes with it up to the normal form of its argument (percent-encoding normalization keeps colons where they are); histories by induction; a witness for the method that is not blind to the spelling |
| C75 | nothing new: the builder of C28-C31, the methods of C66 | the builder's state abstracts to a draft of components; `from` gives the draft of the value (C31 and injectivity of the authority), setters are simulated one by one, the plain builder is acceptable (C28) exactly if the draft is valid; the methods by C66 |
| C76 | nothing new | splitting at a reserved character commutes with percent-encoding normalization and with the mapping to URIs, both keep what is decoded; induction on the list of separators; the template by C65 |
| C77 | nothing new: the methods of C66 | `mask_password` on components (C25) is idempotent and every effect of C66 is blind to what it removes; resolution by a lemma that of the authorities only their presence is seen; induction on the history |
| C78 | nothing new: the methods of C66, `resolve` | the components of the target (C14) are those of the base up to path, query and fragment, which see only whether there is an authority; the effect of an authority edit depends on the authority alone; induction on the history; modes by C63 |
| C79 | nothing new: the methods of C66 | a simulation: the encoded components of C66 are a homomorphic image under every call (edits C74, normalization and resolution C47/C48, the rest by computation); induction on the history |
| C80 | nothing new | per character for the encoder; the exact expansion of C33 is mapped piece by piece (the fragments of C33 do not depend on the spec and their triplets are ASCII: induction on the fragments relation); builder through the exact builder of C28 |
| C81 | `Model/DecoderBuffer` is `maybe_pct_encoded.rs` again, this time with its arrays, lengths and index arithmetic (`none` for anything out of range) | a simulation (`Rel`: the arrays start with the held-back text and its decoded bytes, nothing is said of the bytes behind) relates every function to the text-level model of `Model/MaybePct`, and with the exact description `Fragments` of C33 gives the output and the panics. |
| C82 | `Model/PathWork`: the path normalizer with a counter of the calls of `PathSegmentsIter::next`, one call being one segment found; the counter is the only change (`C82_same`, for every input) | the scan-queue invariant of C14 (`Lemmas/PathNorm`: a round that leaves a normal segment has written eight segments) gives a potential of one round per eight segments; the family `a:/a…/a/.` gives the lower bound by induction. |
| C83 | `Model/Normalize`, `Model/PathNorm` with `NormalizationMode::PreserveAuthoritylessRelativePath`; `resolve S .preserve` | both modes are `normParts` of the merged reference (C14, C17), so the question is about one path: percent-encoding normalization keeps its segments one to one (`pctn_split`), and a path without dot segments is unchanged by their removal (C16). |
| C84 | `Model/TemplateExpand` (`expand_to_string`); specification `Spec/TemplateLaws` (`SameResult`, `Defined`, `Undefined`) | by C33_exact the result is the first fault of the type check (which, positions aside, depends on the list of variables only: `verdict`) and the parts of the defined variables joined with the separator (`parts`, `assemble`); the laws are about appending such lists. |
| C85 | `Model/ValidateWork.lean`: the validators and the searches they use, returning also the number of bytes looked at (`T α = α × Nat`, counted at every byte a search or a test visits, with repetition) | `C85_same`: the verdicts are those of `Model/Validate.lean`; `C85_linear`: at most 10 (relative reference: 8) looks per byte, bound by bound along the call tree (IPv6 loop: 3 per byte by induction on the iterations); `C85_full`: an accepted text has been looked at at least once per byte, so the counter is not vacuous |
| C86 | nothing new in the model; `Spec/TemplateSize.lean` says how many bytes a value counts | bound by bound on the exact description of expansion (C33_exact): fragments of a value by induction on their derivation (what is lost or rearranged never gets longer than three times), prefixes, members, lists, expressions, templates; `C86_tight`: n spaces make 3n bytes |
| C87 | `Model/AccessWork.lean`: the searches of `trusted.rs` with the counter of C85 (a search counts the bytes up to and with the one it stops at; slicing counts nothing) | `C87_same`: the results are those of the functions without counter; the bounds by counting each search against the part of the text it runs over |
| C88 | `Model/TemplateWork.lean`: template validation, chunks and the variable iterator with the counter of C85 (`str::split` counts the piece and the comma) | `C88_same`: same verdicts, places, panics and lists; the loop by what is left; the iterator with a potential (4 per byte of the template still to come, 3 per byte of the open variable list); `C88_full`: lower bound for accepted texts |
| C89 | nothing new in the model; `Spec/TemplateDynamic.lean`: asking for the variables one after the other, and putting the texts together | the loops of `expand_dynamic` on a parsed template (also with too long prefix lengths) as a fold, each variable by `value_exact` (C33), one expression after another by `ask_append`; size by the bounds of C86 |
| C90 | `Model/PctWork.lean`: the loops over percent triplets, the decoders and the two converters with a counter of bytes read (for the converters also of bytes written to a buffer); writing the output of the others costs nothing (its size is C69) | same results by induction on the loops (`C90_same`); bounds by induction with what is consumed subtracted: a scan for continuation bytes gives back at most one triplet |
| C91 | `Model/NormalizeWork.lean`: normalization and resolution with a counter of bytes read, on top of the counted splitting (C87) and triplets (C90); an iteration over segments that stops early counts as a whole one, and the rest of the path counts twice (both upwards only) | same results (`C91_same`); bound by induction on the rounds of the path writer: every round but two consumes eight segments (as in C82) and looks at no more than 40 bytes per byte of the path; lower bound: every step counted in C82 looks at a byte |
| C92 | nothing new; `DotFree`, `Hierarchical`, `SameAuthority`, `SameUpToQuery` in `Props/Reach.lean` say in terms of the accessors what can be reached | reached: explicit references (`//…`, `/./…`, `?…#…`) put into C14; nothing else: the components of a result are unique, and dot segment removal leaves no dot segment (C16). `Props/ReachOpaque`, `Props/ReachExact` (`C92_opaque`, `C92_exact`): every base; the first segment of the stack of the base's directory is the only one without a slash, and once popped it does not come back (`rds_root`), while `./../..` leads back to it (`rds_reach`) |
| C93 | nothing new; statements on the texts alone (`core` cuts at query and fragment) | C14 with the merged path shown free of dot segments (C16 leaves it alone) and the position of the last slash shown unique |
| C94 | `Model/EditWork.lean`: the functions of `Model/Edit.lean` and `src/raw.rs` with the counter of C85, counting also bytes written and moved | `C94_same` ties them to the functions without a counter; bounds by composing those of C85 and C87, induction on the text for the two searches; `C94_full` shows that the counter counts |
| C95 | `Model/BuildWork.lean`: the builder with the counter of C85, on top of the counters of C91 (the path is counted as if normalized to the end when only its kind is wanted) | `C95_same` ties it to the builder without a counter; bounds by composing those of C85, C90 and C91, and a bound on the length of the normalized path |
| C96 | `Model/ExpandWork`: `Model/MaybePct` and `Model/TemplateExpand` with the counter (characters looked at, bytes moved out of or checked in the decoder's buffer, encoded fragments and names written) | `C96_same`: function by function; `C96_linear`: amortised, every byte in the decoder's buffer has 16 units set aside (`PushB`, `writeStep_snd`), then visitors against `valueSize` (C86), variables and chunks of a parsed template |
| C97 | `Model/ExpandWork`, dynamic section: the dynamic part of `Model/TemplateExpand` with the same counter | `C97_same`: function by function; `C97_linear`: from the bounds of C96 for each visitor, along the chunks, with the context's state threaded through and each answer bounded by the variable's size |

Properties that the code violates are kept in `properties.jsonl` as stated; the
violation is proved by a concrete witness (`_refuted`), the strongest true variant is
proved with the suffix `_partial`, and where possible the exact behaviour (`_exact`).  All the `partial`
entries of MANIFEST.json are of this kind.

## 5. Defects of the code found by the proofs

1. The absolute-IRI validator accepts an empty fragment, `a:#` (C04_refuted); consequences: C11 (query of
   such a value contains `#`), C53 (`query()` panics or gives an invalid query value), C61 (`query_str` panics in debug builds), C29 (builder from it).
2. `is_normalized` ignores an empty port that `normalize` removes (C19_refuted).
3. `into_bytes` loses text if there are a stray `%` and a triplet: `%zz%41` gives `%zA` (C23_refuted).
4. The builder never validates the characters of the path (C28_path_refuted, _becomes_query, _panics); a
   normalizing builder turns the path `/%zz` into `/C` in release builds, and panics in debug builds (C61_overflow_refuted).
5. Builder with normalization, neither scheme nor authority, path normalizing to exactly `/` (C28/C30).
6. `remove_password_inline` on user information without a colon (C26_refuted); in a release build it can make a
   `UriString` whose text is not a URI (C52_refuted).
7. `RiString::replace_host` debug assertion uses the absolute-IRI validator (C27_debug_refuted).
8. `{+v}`/`{#v}`: a value that starts with a non-ASCII character panics; `%E2%41b` loses `%41`; values cut
   into chunks inside a triplet lose data or panic (C33_*_refuted).
9. `ensure_rfc3986_normalizable` and `and_normalize` disagree on same-document references (C21).
10. `UserinfoBuilder` keeps the leading `:` of a password (visible in `Debug` only).
11. `UriTemplateStr::new("%aé")` panics (C31_no_panic_refuted).
12. `{v:65536}` is accepted and panics when used (C32_no_panic_refuted).
13. Variable names `a..b`, `a.` accepted; literals reject `ucschar` (C31).
14. `{v:2}` with a value `あい` panics in debug builds (C33_prefix_debug_refuted).
15. `{+v:3}` with `ab%20cd` gives four characters (C33_reserved_prefix_refuted).
16. `{;l*}` with empty items writes `=` (C33_empty_item_refuted).
17. `replace_password` on user information without a colon appends to the user name (C25_replace_refuted).
18. Template names with `%` are encoded again on repetition (C33_name_refuted).
19. The location of a bad max-length is one byte past it (C45_points_at_fault_refuted).
20. `mask_password().try_to_dedicated_string()` aborts on allocation failure if there is no user
    information (C51_mask_refuted).
21. `{+n:3}` with the integer -1234 gives `-123`: the sign, written in a call of its own, does not count
    (C55_negative_refuted).
22. `format!("{:10}", ..)` of a built value pads the user information or the IPv4 address, and of
    `mask_password()` the place of the password: the text is not an IRI (C58_built_refuted, C58_mask_refuted).

## 6. Testing the theorems against wrong programs

`tools/mutate.py` applies an edit to a model definition in a copy outside /verif, rebuilds and records the
first theorem that fails; `tools/automutate.py` generates edits (negated conditions, `<`/`≤`, `+1`/`-1`,
`&&`/`||`, swapped branches, changed literals, dropped list elements) for every model definition.  Every
result is a line of seeded/LOG.jsonl.  Surviving edits led to tightened theorems or are recorded with the reason why they
do not change the behaviour (e.g. table entries that no caller reads, dead branches of the path writer).
