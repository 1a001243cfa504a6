import Verif.Model.ValidateWork
import Verif.Model.Components

/-!
# The accessors with a counter of the bytes they look at

The functions of `Model/Components.lean` with the counter of `Model/ValidateWork.lean`.  Slicing costs nothing.  That
the results are those of the functions without a counter is theorem `C87_same`.
-/

namespace Verif.Work

/-- `find_split2`, `src/parser/str.rs` 108-115. -/
def find_split2 (s : Str) (n1 n2 : Char) : T (Option (Str × Str)) := findSplitP (fun c => c == n1 || c == n2) s

/-- `find_split3`, `src/parser/str.rs` 128-141. -/
def find_split3 (s : Str) (n1 n2 n3 : Char) : T (Option (Str × Str)) :=
  findSplitP (fun c => c == n1 || c == n2 || c == n3) s

/-- `find_split4_hole`, `src/parser/str.rs` 242-262. -/
def find_split4_hole (s : Str) (n1 n2 n3 n4 : Char) : T (Option (Str × Char × Str)) :=
  findSplitHoleP (fun c => c == n1 || c == n2 || c == n3 || c == n4) s

/-- `rfind_split2`, `src/parser/str.rs` 86-91. -/
def rfind_split2 (s : Str) (n1 n2 : Char) : T (Option (Str × Str)) :=
  bind (rfindSplitHoleP (fun c => c == n1 || c == n2) s) fun o => ret (o.map fun x => (x.1, x.2.1 :: x.2.2))

/-- `scheme_colon`, `src/parser/trusted.rs` 23-27. -/
def scheme_colon (i : Str) : T (Option (Str × Str)) :=
  bind (find_split_hole i ':') fun o => ret (o.map fun x => (x.2, x.1))

/-- `scheme_colon_opt`, `src/parser/trusted.rs` 33-38. -/
def scheme_colon_opt (i : Str) : T (Str × Option Str) :=
  bind (find_split4_hole i ':' '/' '?' '#') fun
  | some (scheme, c, rest) => ret (if c == ':' then (rest, some scheme) else (i, none))
  | none => ret (i, none)

/-- `slash_slash_authority_opt`, `src/parser/trusted.rs` 44-57. -/
def slash_slash_authority_opt (i : Str) : T (Str × Option Str) :=
  bind (strip_prefix i ['/', '/']) fun
  | none => ret (i, none)
  | some s =>
    bind (find_split3 s '/' '?' '#') fun
    | some (authority, rest) => ret (rest, some authority)
    | none => ret ([], some s)

/-- `until_query`, `src/parser/trusted.rs` 61-67. -/
def until_query (i : Str) : T (Str × Str) :=
  bind (find_split2 i '?' '#') fun
  | some (before_query, rest) => ret (rest, before_query)
  | none => ret ([], i)

/-- The part of `decompose_query_and_fragment` after the first byte, `src/parser/trusted.rs` 76-86. -/
def queryAndFragment (c : Char) (rest : Str) : T (Option Str × Option Str) :=
  if c == '?' then
    bind (find_split_hole rest '#') fun
    | some (query, fragment) => ret (some query, some fragment)
    | none => ret (some rest, none)
  else ret (none, some rest)

/-- `decompose_query_and_fragment`, `src/parser/trusted.rs` 72-87: the first byte and the search for `#`. -/
def decompose_query_and_fragment (i : Str) : T (Option (Option Str × Option Str)) :=
  match i with
  | [] => ret (some (none, none))
  | c :: _ =>
    bind (sliceFrom i 1, 1) fun
    | none => ret none
    | some rest => bind (queryAndFragment c rest) fun x => ret (some x)

/-- What `decompose_iri_reference` makes of what it has found, `src/parser/trusted.rs` 94-137. -/
def splitterOf (len : Nat) (scheme : Option Str) (afterScheme : Nat) (authority : Option Str) (afterPath : Nat)
    (qf : Option Str × Option Str) : Splitter :=
  let after_first_prefix := nonZero (len - afterPath + 1)
  let x : Option Nat × Option Nat :=
    match qf.1.isSome, qf.2 with
    | true, some fragment => (after_first_prefix, nonZero (len - blen fragment))
    | true, none => (after_first_prefix, none)
    | false, some _ => (none, after_first_prefix)
    | false, none => (none, none)
  { scheme_end := scheme.bind fun s => nonZero (blen s)
    authority_end := authority.bind fun s => nonZero (len - afterScheme + 2 + blen s)
    query_start := x.1
    fragment_start := x.2 }

/-- `decompose_iri_reference`, `src/parser/trusted.rs` 91-137. -/
def decompose_iri_reference (s : Str) : T (Option Splitter) :=
  bind (scheme_colon_opt s) fun a =>
    bind (slash_slash_authority_opt a.1) fun b =>
      bind (until_query b.1) fun c =>
        bind (decompose_query_and_fragment c.1) fun d =>
          ret (d.map fun qf => splitterOf (blen s) a.2 (blen a.1) b.2 (blen c.1) qf)

/-- `RiReferenceComponents::from(iri).to_major()`, `src/components.rs` 202-230, 262-267. -/
def components_to_major (s : Str) : T (Option Major) :=
  bind (decompose_iri_reference s) fun o => ret (o.bind fun p => p.split_into_major s)

/-- `extract_scheme`, `src/parser/trusted.rs` 146-148. -/
def extract_scheme (i : Str) : T (Option Str) := bind (scheme_colon_opt i) fun x => ret x.2

/-- `extract_scheme_absolute`, `src/parser/trusted.rs` 157-159. -/
def extract_scheme_absolute (i : Str) : T (Option Str) := bind (scheme_colon i) fun x => ret (x.map Prod.snd)

/-- `extract_authority`, `src/parser/trusted.rs` 168-171. -/
def extract_authority (i : Str) : T (Option Str) :=
  bind (scheme_colon_opt i) fun x => bind (slash_slash_authority_opt x.1) fun y => ret y.2

/-- `extract_path`, `src/parser/trusted.rs` 219-223. -/
def extract_path (i : Str) : T Str :=
  bind (scheme_colon_opt i) fun x => bind (slash_slash_authority_opt x.1) fun y => bind (until_query y.1) fun z => ret z.2

/-- `extract_query`, `src/parser/trusted.rs` 257-260. -/
def extract_query (i : Str) : T (Option (Option Str)) :=
  bind (until_query i) fun x => bind (decompose_query_and_fragment x.1) fun y => ret (y.map Prod.fst)

/-- `split_fragment`, `src/parser/trusted.rs` 291-318. -/
def split_fragment (iri : Str) : T (Str × Option Str) :=
  bind (find_split_hole iri '#') fun
  | some (pre, fragment) => ret (pre, some fragment)
  | none => ret (iri, none)

/-- `extract_fragment`, `src/parser/trusted.rs` 325-327. -/
def extract_fragment (iri : Str) : T (Option Str) := bind (split_fragment iri) fun x => ret x.2

/-- The search for the user information in `decompose_authority`, `src/parser/trusted/authority.rs` 17-21. -/
def splitUserinfo (authority : Str) : T (Str × Nat) :=
  bind (find_split_hole authority '@') fun
  | some (userinfo, rest) => ret (rest, blen userinfo + 1)
  | none => ret (authority, 0)

/-- The search for the port in `decompose_authority`, `src/parser/trusted/authority.rs` 22-26. -/
def colonPortLen (i : Str) : T Nat :=
  bind (rfind_split2 i ':' ']') fun
  | some (_, suffix) => bind (starts_with suffix [':']) fun b => ret (if b then blen suffix else 0)
  | none => ret 0

/-- `decompose_authority`, `src/parser/trusted/authority.rs` 15-32. -/
def decompose_authority (authority : Str) : T AuthorityComponents :=
  bind (splitUserinfo authority) fun x =>
    bind (colonPortLen x.1) fun n =>
      ret { authority, host_start := x.2, host_end := blen authority - n }

/-- `AuthorityComponents::from_iri` on a reference, `src/components/authority.rs` 25-28. -/
def authorityFromIri (iri : Str) : T (Option AuthorityComponents) :=
  bind (extract_authority iri) fun
  | some a => bind (decompose_authority a) fun c => ret (some c)
  | none => ret none

end Verif.Work
