import Verif.Model.Validate

/-!
# `src/parser/trusted.rs` (component extraction), `src/components.rs`,
`src/components/authority.rs`, `src/parser/trusted/authority.rs`, `src/raw.rs`
-/

namespace Verif

/-! ## `src/parser/trusted.rs` -/

/-- `scheme_colon`, `src/parser/trusted.rs` 23-27: `(rest, scheme)`; `none` is the `expect` panic. -/
def scheme_colon (i : Str) : Option (Str × Str) :=
  (find_split_hole i ':').map fun x => (x.2, x.1)

/-- `scheme_colon_opt`, `src/parser/trusted.rs` 33-38. -/
def scheme_colon_opt (i : Str) : Str × Option Str :=
  match find_split4_hole i ':' '/' '?' '#' with
  | some (scheme, c, rest) => if c == ':' then (rest, some scheme) else (i, none)
  | none => (i, none)

/-- `slash_slash_authority_opt`, `src/parser/trusted.rs` 44-57. -/
def slash_slash_authority_opt (i : Str) : Str × Option Str :=
  match strip_prefix i ['/', '/'] with
  | none => (i, none)
  | some s =>
    match find_split3 s '/' '?' '#' with
    | some (authority, rest) => (rest, some authority)
    | none => ([], some s)

/-- `until_query`, `src/parser/trusted.rs` 61-67. -/
def until_query (i : Str) : Str × Str :=
  match find_split2 i '?' '#' with
  | some (before_query, rest) => (rest, before_query)
  | none => ([], i)

/-- `decompose_query_and_fragment`, `src/parser/trusted.rs` 72-87.  Any first byte other than `?`
takes the last arm and `&i[1..]` is taken (the code's `debug_assert` says it is `#`); `&i[1..]`
is on a character boundary because the first byte found by `until_query` is ASCII; with a
non-ASCII first character it would panic (`none`). -/
def decompose_query_and_fragment (i : Str) : Option (Option Str × Option Str) :=
  match i with
  | [] => some (none, none)
  | c :: _ =>
    (sliceFrom i 1).map fun rest =>
      if c == '?' then
        match find_split_hole rest '#' with
        | some (query, fragment) => (some query, some fragment)
        | none => (some rest, none)
      else (none, some rest)

/-- `Splitter`, `src/components.rs` 14-28. -/
structure Splitter where
  scheme_end : Option Nat
  authority_end : Option Nat
  query_start : Option Nat
  fragment_start : Option Nat
  deriving DecidableEq, Repr

/-- `NonZeroUsize::new`. -/
def nonZero (n : Nat) : Option Nat := if n = 0 then none else some n

/-- `decompose`, the body of `decompose_iri_reference`, `src/parser/trusted.rs` 91-137.
`none` is a panic.  `wrapping_add(1)` is plain addition: the wrap would need a string of
`usize::MAX` bytes. -/
def decompose_iri_reference (s : Str) : Option Splitter :=
  let len := blen s
  let (i, scheme) := scheme_colon_opt s
  let scheme_end := scheme.bind fun s => nonZero (blen s)
  let start := len - blen i + 2
  let (i, authority) := slash_slash_authority_opt i
  let authority_end := authority.bind fun s => nonZero (start + blen s)
  let (i, _path) := until_query i
  let after_first_prefix := nonZero (len - blen i + 1)
  (decompose_query_and_fragment i).map fun qf =>
    let (query_start, fragment_start) :=
      match qf.1.isSome, qf.2 with
      | true, some fragment => (after_first_prefix, nonZero (len - blen fragment))
      | true, none => (after_first_prefix, none)
      | false, some _ => (none, after_first_prefix)
      | false, none => (none, none)
    { scheme_end, authority_end, query_start, fragment_start }

/-- `extract_scheme`, `src/parser/trusted.rs` 146-148. -/
def extract_scheme (i : Str) : Option Str := (scheme_colon_opt i).2

/-- `extract_scheme_absolute`, `src/parser/trusted.rs` 157-159; `none` is a panic. -/
def extract_scheme_absolute (i : Str) : Option Str := (scheme_colon i).map Prod.snd

/-- `extract_authority`, `src/parser/trusted.rs` 168-171. -/
def extract_authority (i : Str) : Option Str :=
  (slash_slash_authority_opt (scheme_colon_opt i).1).2

/-- `extract_authority_absolute`, `src/parser/trusted.rs` 180-183; outer `none` is a panic. -/
def extract_authority_absolute (i : Str) : Option (Option Str) :=
  (scheme_colon i).map fun x => (slash_slash_authority_opt x.1).2

/-- `extract_authority_relative`, `src/parser/trusted.rs` 192-194. -/
def extract_authority_relative (i : Str) : Option Str := (slash_slash_authority_opt i).2

/-- `extract_authority_and_offset`, `src/parser/trusted.rs` 203-210. -/
def extract_authority_and_offset (i : Str) : Option (Str × Nat) :=
  let (i, scheme) := scheme_colon_opt i
  (slash_slash_authority_opt i).2.map fun authority =>
    (authority, match scheme with | none => 2 | some s => blen s + 3)

/-- `extract_path`, `src/parser/trusted.rs` 219-223. -/
def extract_path (i : Str) : Str :=
  let (i, _) := scheme_colon_opt i
  let (i, _) := slash_slash_authority_opt i
  (until_query i).2

/-- `extract_path_absolute`, `src/parser/trusted.rs` 232-236; `none` is a panic. -/
def extract_path_absolute (i : Str) : Option Str :=
  (scheme_colon i).map fun x =>
    let (i, _) := slash_slash_authority_opt x.1
    (until_query i).2

/-- `extract_path_relative`, `src/parser/trusted.rs` 245-248. -/
def extract_path_relative (i : Str) : Str :=
  let (i, _) := slash_slash_authority_opt i
  (until_query i).2

/-- `extract_query`, `src/parser/trusted.rs` 257-260; outer `none` is a panic. -/
def extract_query (i : Str) : Option (Option Str) :=
  (decompose_query_and_fragment (until_query i).1).map Prod.fst

/-- `extract_query_absolute_iri`, `src/parser/trusted.rs` 268-280; outer `none` is a panic.  `debug` is
`cfg(debug_assertions)`: the assertion says that the first byte is `?`. -/
def extract_query_absolute_iri (debug : Bool) (i : Str) : Option (Option Str) :=
  let (i, _) := until_query i
  if i.isEmpty then some none
  else if debug && i.head? != some '?' then none
  else (sliceFrom i 1).map some

/-- `split_fragment`, `src/parser/trusted.rs` 291-318. -/
def split_fragment (iri : Str) : Str × Option Str :=
  match find_split_hole iri '#' with
  | some (pre, fragment) => (pre, some fragment)
  | none => (iri, none)

/-- `extract_fragment`, `src/parser/trusted.rs` 325-327. -/
def extract_fragment (iri : Str) : Option Str := (split_fragment iri).2

/-! ## `src/components.rs` -/

/-- The result of `split_into_major`: scheme, authority, path, query, fragment. -/
structure Major where
  scheme : Option Str
  authority : Option Str
  path : Str
  query : Option Str
  fragment : Option Str
  deriving DecidableEq, Repr

/-- `Option`-valued slice of an optional range: outer `none` is a panic. -/
def optSlice (o : Option (Option Str)) : Option (Option Str) :=
  match o with
  | none => some none
  | some none => none
  | some (some s) => some (some s)

/-- `Splitter::split_into_major`, `src/components.rs` 50-80; `none` is a slicing panic. -/
def Splitter.split_into_major (p : Splitter) (s : Str) : Option Major :=
  let scheme := p.scheme_end.map fun e => sliceTo s e
  let next_of_scheme := match p.scheme_end with | some e => e + 1 | none => 0
  let authority := p.authority_end.map fun e => slice s (next_of_scheme + 2) e
  let next_of_authority := match p.authority_end with | some e => e | none => next_of_scheme
  let fragment := p.fragment_start.map fun st => sliceFrom s st
  let end_of_prev_of_fragment := match p.fragment_start with | some st => st - 1 | none => blen s
  let query := p.query_start.map fun st => slice s st end_of_prev_of_fragment
  let end_of_path := match p.query_start with | some st => st - 1 | none => end_of_prev_of_fragment
  do
    let scheme ← optSlice scheme
    let authority ← optSlice authority
    let fragment ← optSlice fragment
    let query ← optSlice query
    let path ← slice s next_of_authority end_of_path
    some { scheme, authority, path, query, fragment }

/-- `Splitter::scheme_str`, `src/components.rs` 84-93. -/
def Splitter.scheme_str (p : Splitter) (s : Str) : Option (Option Str) :=
  optSlice (p.scheme_end.map fun e => sliceTo s e)

/-- `Splitter::authority_str`, `src/components.rs` 105-119. -/
def Splitter.authority_str (p : Splitter) (s : Str) : Option (Option Str) :=
  optSlice (p.authority_end.map fun e =>
    slice s (match p.scheme_end with | none => 2 | some v => v + 3) e)

/-- `Splitter::path_range`, `src/components.rs` 130-144. -/
def Splitter.path_range (p : Splitter) (full_len : Nat) : Nat × Nat :=
  let e := match p.query_start.or p.fragment_start with
    | none => full_len
    | some v => v - 1
  let st := match p.authority_end with
    | none => (match p.scheme_end with | none => 0 | some v => v + 1)
    | some v => v
  (st, e)

/-- `Splitter::path_str`, `src/components.rs` 148-150. -/
def Splitter.path_str (p : Splitter) (s : Str) : Option Str :=
  let (st, e) := p.path_range (blen s)
  slice s st e

/-- `Splitter::is_path_empty`, `src/components.rs` 155-157. -/
def Splitter.is_path_empty (p : Splitter) (full_len : Nat) : Bool :=
  let (st, e) := p.path_range full_len
  !(st < e)

/-- `Splitter::query_str`, `src/components.rs` 162-176. -/
def Splitter.query_str (p : Splitter) (s : Str) : Option (Option Str) :=
  optSlice (p.query_start.map fun st =>
    slice s st (match p.fragment_start with | none => blen s | some v => v - 1))

/-- `Splitter::fragment_str`, `src/components.rs` 187-196. -/
def Splitter.fragment_str (p : Splitter) (s : Str) : Option (Option Str) :=
  optSlice (p.fragment_start.map fun st => sliceFrom s st)

/-- `RiReferenceComponents::from(iri).to_major()`, `src/components.rs` 202-230, 262-267. -/
def components_to_major (s : Str) : Option Major :=
  (decompose_iri_reference s).bind fun p => p.split_into_major s

/-! ## `src/parser/trusted/authority.rs`, `src/components/authority.rs` -/

/-- `AuthorityComponents`, `src/components/authority.rs` 14-21. -/
structure AuthorityComponents where
  authority : Str
  host_start : Nat
  host_end : Nat
  deriving DecidableEq, Repr

/-- `decompose_authority`, `src/parser/trusted/authority.rs` 15-32. -/
def decompose_authority (authority : Str) : AuthorityComponents :=
  let (i, host_start) := match find_split_hole authority '@' with
    | some (userinfo, rest) => (rest, blen userinfo + 1)
    | none => (authority, 0)
  let colon_port_len := match rfind_split2 i ':' ']' with
    | some (_, suffix) => if starts_with suffix [':'] then blen suffix else 0
    | none => 0
  { authority, host_start, host_end := blen authority - colon_port_len }

/-- `AuthorityComponents::userinfo`, `src/components/authority.rs` 47-51; outer `none` is a panic. -/
def AuthorityComponents.userinfo (a : AuthorityComponents) : Option (Option Str) :=
  if a.host_start = 0 then some none else (sliceTo a.authority (a.host_start - 1)).map some

/-- `AuthorityComponents::host`, `src/components/authority.rs` 56-59; `none` is a panic. -/
def AuthorityComponents.host (a : AuthorityComponents) : Option Str :=
  slice a.authority a.host_start a.host_end

/-- `AuthorityComponents::reg_name`, `src/components/authority.rs` 64-71; outer `none` is a panic. -/
def AuthorityComponents.reg_name (a : AuthorityComponents) : Option (Option Str) :=
  a.host.map fun h => if is_host_reg_name h then some h else none

/-- `AuthorityComponents::port`, `src/components/authority.rs` 75-82; outer `none` is a panic. -/
def AuthorityComponents.port (a : AuthorityComponents) : Option (Option Str) :=
  if a.host_end = blen a.authority then some none
  else (sliceFrom a.authority (a.host_end + 1)).map some

/-- `AuthorityComponents::from_iri` on a reference, `src/components/authority.rs` 25-28. -/
def AuthorityComponents.from_iri (iri : Str) : Option AuthorityComponents :=
  (extract_authority iri).map decompose_authority

/-- `AuthorityComponents::from_iri_get_offset`, `src/components/authority.rs` 39-43. -/
def AuthorityComponents.from_iri_get_offset (iri : Str) : Option (AuthorityComponents × Nat) :=
  (extract_authority_and_offset iri).map fun x => (decompose_authority x.1, x.2)

/-! ## `src/raw.rs` -/

/-- `remove_fragment`, `src/raw.rs` 28-32 (`String::find` then `truncate`). -/
def remove_fragment (s : Str) : Str :=
  match find_split s '#' with
  | some (pre, _) => pre
  | none => s

/-- `set_fragment`, `src/raw.rs` 15-22. -/
def set_fragment (s : Str) (fragment : Option Str) : Str :=
  match fragment with
  | some f => remove_fragment s ++ '#' :: f
  | none => remove_fragment s

/-- `split_fragment_owned`, `src/raw.rs` 38-57; `none` is a panic (`split_off`, the two asserts). -/
def split_fragment_owned (s : Str) : Option (Str × Option Str) :=
  match split_fragment s with
  | (_, none) => some (s, none)
  | (pre, some _) =>
    match splitAtB s (blen pre + 1) with
    | none => none
    | some (s, fragment) =>
      match s.reverse with
      | '#' :: r => if blen r.reverse = blen pre then some (r.reverse, some fragment) else none
      | _ => none

end Verif
