import Verif.Conformance.Harness

/-! Generated by `tools/doctests.py` from the documentation examples of `/repo/src`.  Tests of the
model, not proofs. -/

namespace Verif.Conformance

/-! `src/types/generic/relative.rs` 32 -/
example : (((((some (chars! "foo")).bind fun s => newIri .iri .relative s).map Option.isSome) == some true) &&
    ((((some (chars! "foo/bar")).bind fun s => newIri .iri .relative s).map Option.isSome) == some true) &&
    ((((some (chars! "/foo")).bind fun s => newIri .iri .relative s).map Option.isSome) == some true) &&
    ((((some (chars! "//foo/bar")).bind fun s => newIri .iri .relative s).map Option.isSome) == some true) &&
    ((((some (chars! "?foo")).bind fun s => newIri .iri .relative s).map Option.isSome) == some true) &&
    ((((some (chars! "#foo")).bind fun s => newIri .iri .relative s).map Option.isSome) == some true) &&
    ((((some (chars! "foo/bar?baz#qux")).bind fun s => newIri .iri .relative s).map Option.isSome) == some true) &&
    ((((some (chars! "/foo:bar/")).bind fun s => newIri .iri .relative s).map Option.isSome) == some true) &&
    ((((some (chars! "foo/bar://baz/")).bind fun s => newIri .iri .relative s).map Option.isSome) == some true) &&
    ((((some (chars! "./foo://bar")).bind fun s => newIri .iri .relative s).map Option.isSome) == some true)) = true := by decide +kernel

/-! `src/types/generic/relative.rs` 50 -/
example : (((((some (chars! "https://example.com/")).bind fun s => newIri .iri .relative s).map Option.isNone) == some true) &&
    ((((some (chars! "foo:bar")).bind fun s => newIri .iri .relative s).map Option.isNone) == some true) &&
    ((((some (chars! "foo:")).bind fun s => newIri .iri .relative s).map Option.isNone) == some true) &&
    ((((some (chars! "foo:/")).bind fun s => newIri .iri .relative s).map Option.isNone) == some true) &&
    ((((some (chars! "foo://")).bind fun s => newIri .iri .relative s).map Option.isNone) == some true) &&
    ((((some (chars! "foo:///")).bind fun s => newIri .iri .relative s).map Option.isNone) == some true) &&
    ((((some (chars! "foo:////")).bind fun s => newIri .iri .relative s).map Option.isNone) == some true) &&
    ((((some (chars! "foo://///")).bind fun s => newIri .iri .relative s).map Option.isNone) == some true)) = true := by decide +kernel

/-! `src/types/generic/relative.rs` 65 -/
example : (((((some (chars! "<not allowed>")).bind fun s => newIri .iri .relative s).map Option.isNone) == some true) &&
    ((((some (chars! "%")).bind fun s => newIri .iri .relative s).map Option.isNone) == some true) &&
    ((((some (chars! "%GG")).bind fun s => newIri .iri .relative s).map Option.isNone) == some true)) = true := by decide +kernel

/-! `src/types/generic/relative.rs` 149 -/
example : ((agree ((((some (chars! "//user:password@example.com/path?query")).bind fun s => newIri .iri .relative s).bind id).bind mask_password_dedicated) (some (chars! "//user:@example.com/path?query"))) &&
    (agree ((((some (chars! "//user:password@example.com/path?query")).bind fun s => newIri .iri .relative s).bind id).bind fun s => replace_password_with s fun _ => (chars! "${password}")) (some (chars! "//user:${password}@example.com/path?query")))) = true := by decide +kernel

/-! `src/types/generic/relative.rs` 181 -/
example : ((agree ((((some (chars! "//example.com/pathpath?queryquery#fragfrag")).bind fun s => newIri .iri .relative s).bind id).bind fun s => authorityStr .relative s) ((some (chars! "example.com")).map some))) = true := by decide +kernel

/-! `src/types/generic/relative.rs` 190 -/
example : ((agree ((((some (chars! "foo//bar:baz")).bind fun s => newIri .iri .relative s).bind id).bind fun s => authorityStr .relative s) (some none))) = true := by decide +kernel

/-! `src/types/generic/relative.rs` 208 -/
example : ((agree ((((some (chars! "//example.com/pathpath?queryquery#fragfrag")).bind fun s => newIri .iri .relative s).bind id).bind fun s => pathStr .relative s) (some (chars! "/pathpath")))) = true := by decide +kernel

/-! `src/types/generic/relative.rs` 217 -/
example : ((agree ((((some (chars! "foo//bar:baz")).bind fun s => newIri .iri .relative s).bind id).bind fun s => pathStr .relative s) (some (chars! "foo//bar:baz")))) = true := by decide +kernel

/-! `src/types/generic/relative.rs` 237 -/
example : ((agree ((((some (chars! "//example.com/pathpath?queryquery#fragfrag")).bind fun s => newIri .iri .relative s).bind id).bind fun s => queryStr .relative s) ((((some (chars! "queryquery")).bind fun s => check (some (validate_query .iri s)) s).bind id).map some))) = true := by decide +kernel

/-! `src/types/generic/relative.rs` 247 -/
example : ((agree ((((some (chars! "foo//bar:baz?")).bind fun s => newIri .iri .relative s).bind id).bind fun s => queryStr .relative s) ((((some (chars! "")).bind fun s => check (some (validate_query .iri s)) s).bind id).map some))) = true := by decide +kernel

/-! `src/types/generic/relative.rs` 278 -/
example : ((agree ((((some (chars! "//example.com/pathpath?queryquery#fragfrag")).bind fun s => newIri .iri .relative s).bind id).bind fun s => queryStr .relative s) ((some (chars! "queryquery")).map some))) = true := by decide +kernel

/-! `src/types/generic/relative.rs` 287 -/
example : ((agree ((((some (chars! "foo//bar:baz?")).bind fun s => newIri .iri .relative s).bind id).bind fun s => queryStr .relative s) ((some (chars! "")).map some))) = true := by decide +kernel

/-! `src/types/generic/relative.rs` 309 -/
example : ((agree ((((some (chars! "?foo#bar")).bind fun s => newIri .iri .relative s).bind id).bind fun s => fragmentStr .relative s) ((((some (chars! "bar")).bind fun s => check (some (validate_fragment .iri s)) s).bind id).map some))) = true := by decide +kernel

/-! `src/types/generic/relative.rs` 317 -/
example : ((agree ((((some (chars! "#foo")).bind fun s => newIri .iri .relative s).bind id).bind fun s => fragmentStr .relative s) ((((some (chars! "foo")).bind fun s => check (some (validate_fragment .iri s)) s).bind id).map some))) = true := by decide +kernel

/-! `src/types/generic/relative.rs` 327 -/
example : ((agree ((((some (chars! "#")).bind fun s => newIri .iri .relative s).bind id).bind fun s => fragmentStr .relative s) ((((some (chars! "")).bind fun s => check (some (validate_fragment .iri s)) s).bind id).map some))) = true := by decide +kernel

/-! `src/types/generic/relative.rs` 337 -/
example : ((agree ((((some (chars! "")).bind fun s => newIri .iri .relative s).bind id).bind fun s => fragmentStr .relative s) (some none))) = true := by decide +kernel

/-! `src/types/generic/relative.rs` 366 -/
example : ((agree ((((some (chars! "?foo#bar")).bind fun s => newIri .iri .relative s).bind id).bind fun s => fragmentStr .relative s) ((some (chars! "bar")).map some))) = true := by decide +kernel

/-! `src/types/generic/relative.rs` 373 -/
example : ((agree ((((some (chars! "#foo")).bind fun s => newIri .iri .relative s).bind id).bind fun s => fragmentStr .relative s) ((some (chars! "foo")).map some))) = true := by decide +kernel

/-! `src/types/generic/relative.rs` 382 -/
example : ((agree ((((some (chars! "#")).bind fun s => newIri .iri .relative s).bind id).bind fun s => fragmentStr .relative s) ((some (chars! "")).map some))) = true := by decide +kernel

/-! `src/types/generic/relative.rs` 391 -/
example : ((agree ((((some (chars! "")).bind fun s => newIri .iri .relative s).bind id).bind fun s => fragmentStr .relative s) (some none))) = true := by decide +kernel

/-! `src/types/generic/relative.rs` 406 -/
example : ((agree ((((((some (chars! "//user:pass@example.com:8080/pathpath?queryquery")).bind fun s => newIri .iri .relative s).bind id).map fun s => RiReferenceStr.authority_components s).bind id).bind fun x => x.userinfo) ((some (chars! "user:pass")).map some)) &&
    (agree ((((((some (chars! "//user:pass@example.com:8080/pathpath?queryquery")).bind fun s => newIri .iri .relative s).bind id).map fun s => RiReferenceStr.authority_components s).bind id).bind fun x => x.host) (some (chars! "example.com"))) &&
    (agree ((((((some (chars! "//user:pass@example.com:8080/pathpath?queryquery")).bind fun s => newIri .iri .relative s).bind id).map fun s => RiReferenceStr.authority_components s).bind id).bind fun x => x.port) ((some (chars! "8080")).map some))) = true := by decide +kernel

/-! `src/types/generic/relative.rs` 419 -/
example : ((agree ((((some (chars! "foo//bar:baz")).bind fun s => newIri .iri .relative s).bind id).bind fun s => authorityStr .relative s) (some none))) = true := by decide +kernel

/-! `src/types/generic/relative.rs` 442 -/
example : ((agree ((((some (chars! "//user:password@example.com/path?query#frag.old")).bind fun s => newIri .iri .relative s).bind id).bind fun s => fragmentStr .relative s) ((some (chars! "frag.old")).map some)) &&
    (agree (((((some (chars! "//user:password@example.com/path?query#frag.old")).bind fun s => newIri .iri .relative s).bind id).map fun s => RiString.set_fragment s none).bind fun s => fragmentStr .relative s) (some none)) &&
    (agree (((((some (chars! "frag-new")).bind fun s => check (some (validate_fragment .iri s)) s).bind id).bind fun f => ((((some (chars! "//user:password@example.com/path?query#frag.old")).bind fun s => newIri .iri .relative s).bind id).map fun s => RiString.set_fragment s none).map fun s => RiString.set_fragment s (some f)).bind fun s => fragmentStr .relative s) ((some (chars! "frag-new")).map some))) = true := by decide +kernel

/-! `src/types/generic/relative.rs` 462 -/
example : ((agree (((some (chars! "/path#")).bind fun s => newIri .iri .relative s).bind id) (some (chars! "/path#"))) &&
    (agree ((((some (chars! "/path#")).bind fun s => newIri .iri .relative s).bind id).bind fun s => fragmentStr .relative s) ((some (chars! "")).map some)) &&
    (agree ((((some (chars! "/path#")).bind fun s => newIri .iri .relative s).bind id).map fun s => RiString.set_fragment s none) (some (chars! "/path"))) &&
    (agree (((((some (chars! "/path#")).bind fun s => newIri .iri .relative s).bind id).map fun s => RiString.set_fragment s none).bind fun s => fragmentStr .relative s) (some none))) = true := by decide +kernel

/-! `src/types/generic/relative.rs` 486 -/
example : ((agree ((((some (chars! "//user:password@example.com/path?query")).bind fun s => newIri .iri .relative s).bind id).bind fun s => remove_password_inline true .iri .relative s) (some (chars! "//user@example.com/path?query")))) = true := by decide +kernel

/-! `src/types/generic/relative.rs` 500 -/
example : ((agree ((((some (chars! "//user:@example.com/path?query")).bind fun s => newIri .iri .relative s).bind id).bind fun s => remove_password_inline true .iri .relative s) (some (chars! "//user@example.com/path?query")))) = true := by decide +kernel

/-! `src/types/generic/relative.rs` 536 -/
example : ((agree ((((some (chars! "//user:password@example.com/path?query")).bind fun s => newIri .iri .relative s).bind id).bind fun s => remove_nonempty_password_inline true .iri .relative s) (some (chars! "//user:@example.com/path?query")))) = true := by decide +kernel

/-! `src/types/generic/relative.rs` 550 -/
example : ((agree ((((some (chars! "//user:@example.com/path?query")).bind fun s => newIri .iri .relative s).bind id).bind fun s => remove_nonempty_password_inline true .iri .relative s) (some (chars! "//user:@example.com/path?query")))) = true := by decide +kernel

/-! `src/types/generic/relative.rs` 629 -/
example : ((agree (((((some (chars! "//user:pass@example.com:443/")).bind fun s => newIri .uri .relative s).bind id).bind fun s => (some (chars! "www.example.com")).bind fun h => replace_host true .uri .relative s h).map Prod.snd) ((some (chars! "www.example.com")).map some)) &&
    (agree ((((((((some (chars! "//user:pass@example.com:443/")).bind fun s => newIri .uri .relative s).bind id).bind fun s => (some (chars! "www.example.com")).bind fun h => replace_host true .uri .relative s h).map Prod.fst).map fun s => RiReferenceStr.authority_components s).bind id).bind fun x => x.host) (some (chars! "www.example.com"))) &&
    (agree (((((some (chars! "//user:pass@example.com:443/")).bind fun s => newIri .uri .relative s).bind id).bind fun s => (some (chars! "www.example.com")).bind fun h => replace_host true .uri .relative s h).map Prod.fst) (some (chars! "//user:pass@www.example.com:443/")))) = true := by decide +kernel

/-! `src/types/generic/relative.rs` 664 -/
example : ((agree (((((some (chars! "//user:pass@example.com:443/")).bind fun s => newIri .uri .relative s).bind id).bind fun s => (some (chars! "www.example.com")).bind fun h => replace_host true .uri .relative s h).map Prod.snd) ((some (chars! "www.example.com")).map some)) &&
    (agree ((((((((some (chars! "//user:pass@example.com:443/")).bind fun s => newIri .uri .relative s).bind id).bind fun s => (some (chars! "www.example.com")).bind fun h => replace_host true .uri .relative s h).map Prod.fst).map fun s => RiReferenceStr.authority_components s).bind id).bind fun x => x.host) (some (chars! "www.example.com"))) &&
    (agree (((((some (chars! "//user:pass@example.com:443/")).bind fun s => newIri .uri .relative s).bind id).bind fun s => (some (chars! "www.example.com")).bind fun h => replace_host true .uri .relative s h).map Prod.fst) (some (chars! "//user:pass@www.example.com:443/")))) = true := by decide +kernel

/-! `src/types/generic/relative.rs` 674 -/
example : ((agree (((((some (chars! "//192.168.0.1/")).bind fun s => newIri .uri .relative s).bind id).bind fun s => (some (chars! "localhost")).bind fun h => replace_host_reg_name true .uri .relative s h).map Prod.snd) (some none)) &&
    (agree (((((some (chars! "//192.168.0.1/")).bind fun s => newIri .uri .relative s).bind id).bind fun s => (some (chars! "localhost")).bind fun h => replace_host_reg_name true .uri .relative s h).map Prod.fst) (some (chars! "//192.168.0.1/")))) = true := by decide +kernel

/-! `src/types/generic/relative.rs` 687 -/
example : ((agree (((((((some (chars! "//\u03b1.example.com/")).bind fun s => newIri .iri .relative s).bind id).map fun s => RiReferenceStr.authority_components s).bind id).bind fun x => x.reg_name).bind id) (some (chars! "\u03b1.example.com"))) &&
    (agree (some (chars! "xn--mxa.example.com")) (some (chars! "xn--mxa.example.com"))) &&
    (agree (((((some (chars! "//\u03b1.example.com/")).bind fun s => newIri .iri .relative s).bind id).bind fun s => (some (chars! "xn--mxa.example.com")).bind fun h => replace_host true .iri .relative s h).map Prod.snd) ((some (chars! "xn--mxa.example.com")).map some)) &&
    (agree ((((((((some (chars! "//\u03b1.example.com/")).bind fun s => newIri .iri .relative s).bind id).bind fun s => (some (chars! "xn--mxa.example.com")).bind fun h => replace_host true .iri .relative s h).map Prod.fst).map fun s => RiReferenceStr.authority_components s).bind id).bind fun x => x.host) (some (chars! "xn--mxa.example.com"))) &&
    (agree (((((some (chars! "//\u03b1.example.com/")).bind fun s => newIri .iri .relative s).bind id).bind fun s => (some (chars! "xn--mxa.example.com")).bind fun h => replace_host true .iri .relative s h).map Prod.fst) (some (chars! "//xn--mxa.example.com/")))) = true := by decide +kernel


end Verif.Conformance
