import Verif.Model.PathNorm

/-!
# `src/normalize.rs`, `src/resolve.rs`, `is_normalized` of `src/parser/trusted.rs`

`Option` results: an outer `none` is a panic.  `Display` implementations are modelled by the text
they write.
-/

namespace Verif

/-- `Path`, `src/normalize/path.rs` 12-18. -/
inductive NPath
  | done (s : Str)
  | needsProcessing (p : PathToNormalize)
  deriving DecidableEq, Repr

/-- `NormalizationInput`, `src/normalize.rs` 157-170; `NormalizationOp` (149-153) is its only field
`mode`. -/
structure NormalizationInput where
  scheme : Str
  authority : Option Str
  path : NPath
  query : Option Str
  fragment : Option Str
  op : NormalizationMode
  deriving DecidableEq, Repr

/-- `RefToplevel`, `src/normalize.rs` 200-212; the derived order is the order of the
constructors. -/
inductive RefToplevel
  | scheme
  | authority
  | path
  | query
  | none
  deriving DecidableEq, Repr

/-- Position in the derived order. -/
def RefToplevel.rank : RefToplevel → Nat
  | .scheme => 0
  | .authority => 1
  | .path => 2
  | .query => 3
  | .none => 4

/-- `choose_then`, `src/normalize.rs` 219-230. -/
def RefToplevel.choose_then {α : Type} (self component : RefToplevel) (reference base : Unit → α) : α :=
  if self.rank ≤ component.rank then reference () else base ()

namespace NormalizationInput

/-- `ref_toplevel`, `src/normalize.rs` 233-243 (`has_scheme` etc. are `is_some` of the offset,
`src/components.rs` 95-100, 121-126, 177-182). -/
def refToplevel (r_iri : Str) (r : Splitter) : RefToplevel :=
  if r.scheme_end.isSome then .scheme
  else if r.authority_end.isSome then .authority
  else if !r.is_path_empty (blen r_iri) then .path
  else if r.query_start.isSome then .query
  else .none

/-- `path`, `src/normalize.rs` 245-271. -/
def resolvedPath (t : RefToplevel) (r_iri : Str) (r : Splitter) (b_iri : Str) (b : Splitter) :
    Option NPath :=
  match t with
  | .scheme | .authority =>
    (r.path_str r_iri).map fun p => .needsProcessing (PathToNormalize.from_single_path p)
  | .path =>
    (r.path_str r_iri).bind fun r_path =>
      if starts_with r_path ['/'] then
        some (.needsProcessing (PathToNormalize.from_single_path r_path))
      else
        (b.path_str b_iri).map fun b_path =>
          let b_path := if b.authority_end.isSome && b_path.isEmpty then ['/'] else b_path
          .needsProcessing (PathToNormalize.from_paths_to_be_resolved b_path r_path)
  | .query | .none => (b.path_str b_iri).map fun p => .done p

/-- `create_normalization_input`, `src/normalize.rs` 192-293. -/
def create_normalization_input (r_iri : Str) (r : Splitter) (b_iri : Str) (b : Splitter) :
    Option NormalizationInput := do
  let t := refToplevel r_iri r
  let path ← resolvedPath t r_iri r b_iri b
  let scheme ← (r.scheme_str r_iri).bind fun s =>
    match s with
    | some s => some s
    | none => (b.scheme_str b_iri).bind id
  let authority ← t.choose_then .authority (fun _ => r.authority_str r_iri)
    (fun _ => b.authority_str b_iri)
  let query ← t.choose_then .query (fun _ => r.query_str r_iri) (fun _ => b.query_str b_iri)
  let fragment ← r.fragment_str r_iri
  some { scheme, authority, path, query, fragment, op := .off }

/-- `with_resolution_params`, `src/normalize.rs` 176-188, on the texts of base and reference. -/
def with_resolution_params (base reference : Str) : Option NormalizationInput := do
  let b ← decompose_iri_reference base
  let r ← decompose_iri_reference reference
  create_normalization_input reference r base b

/-- `From<&RiStr>` and `From<&RiAbsoluteStr>`, `src/normalize.rs` 296-315, 325-344. -/
def from_iri (iri : Str) : Option NormalizationInput := do
  let m ← components_to_major iri
  let scheme ← m.scheme
  some {
    scheme
    authority := m.authority
    path := .needsProcessing (PathToNormalize.from_single_path m.path)
    query := m.query
    fragment := m.fragment
    op := .off }

/-- `ensure_rfc3986_normalizable`, `src/normalize.rs` 358-367: `some true` is `Ok(())`. -/
def ensure_rfc3986_normalizable (i : NormalizationInput) : Option Bool :=
  if i.authority.isSome then some true
  else
    match i.path with
    | .done _ => some true
    | .needsProcessing p => p.ensure_rfc3986_normalizable_with_authority_absent

end NormalizationInput

/-- `normalize_scheme`, `src/normalize.rs` 469-482. -/
def normalize_scheme (scheme : Str) : Str := scheme.map toLower

/-- `host_port.strip_suffix(':').unwrap_or(host_port)`, `src/normalize.rs` 513. -/
def stripColon (s : Str) : Str :=
  match s.reverse with
  | ':' :: r => r.reverse
  | _ => s

/-- `normalize_host_port`, `src/normalize.rs` 500-524. -/
def normalize_host_port (S : Spec) (host_port : Str) : Option Str :=
  let host_port := stripColon host_port
  (is_ascii_only_host host_port).bind fun b =>
    if b then normalized_ascii_only_host host_port else pct_case_normalized S host_port

/-- `normalize_authority`, `src/normalize.rs` 485-497. -/
def normalize_authority (S : Spec) (authority : Str) : Option Str :=
  match rfind_split_hole authority '@' with
  | some (userinfo, host_port) => do
    let u ← pct_case_normalized S userinfo
    let h ← normalize_host_port S host_port
    some (u ++ '@' :: h)
  | none => normalize_host_port S authority

/-- `normalize_query`, `src/normalize.rs` 527-530. -/
def normalize_query (S : Spec) (query : Str) : Option Str := pct_case_normalized S query

/-- `normalize_fragment`, `src/normalize.rs` 533-539. -/
def normalize_fragment (S : Spec) (fragment : Str) : Option Str := pct_case_normalized S fragment

/-- An optional component written with its prefix: the text, `none` on a panic. -/
def writeOpt (pre : Str) (f : Str → Option Str) : Option Str → Option Str
  | none => some []
  | some x => (f x).map fun t => pre ++ t

/-- `NormalizedInner`'s `Display`, `src/normalize.rs` 402-466. -/
def NormalizationInput.display (S : Spec) (i : NormalizationInput) : Option Str := do
  let n := i.op.case_pct
  let scheme := if n then normalize_scheme i.scheme else i.scheme
  let authority ← writeOpt ['/', '/'] (fun a => if n then normalize_authority S a else some a)
    i.authority
  let path ← match i.path with
    | .done s =>
      if n then (PathToNormalize.from_single_path s).fmt_write_normalize S i.op i.authority.isSome
      else some s
    | .needsProcessing p => p.fmt_write_normalize S i.op i.authority.isSome
  let query ← writeOpt ['?'] (fun q => if n then normalize_query S q else some q) i.query
  let fragment ← writeOpt ['#'] (fun f => if n then normalize_fragment S f else some f) i.fragment
  some (scheme ++ (':' :: (authority ++ (path ++ (query ++ fragment)))))

/-! ## API -/

/-- What the user reads from a `Normalized` value that was created from an input and then put into a
mode by `enable_normalization`, `and_normalize` etc., `src/normalize.rs` 573-624. -/
def NormalizationInput.withMode (i : NormalizationInput) (m : NormalizationMode) :
    NormalizationInput := { i with op := m }

/-- `FixedBaseResolver::new(base).resolve(reference)` (and `resolve_against`), `src/resolve.rs`
122-126, 351-354, `src/types/generic/reference.rs` 191-193, `relative.rs` 141-143, followed by
`to_dedicated_string`/`Display` in the given mode. -/
def resolve (S : Spec) (mode : NormalizationMode) (base reference : Str) : Option Str :=
  (NormalizationInput.with_resolution_params base reference).bind fun i => (i.withMode mode).display S

/-- `ensure_rfc3986_normalizable` on the result of `resolve`, `src/normalize.rs` 621-624. -/
def resolve_ensure_rfc3986_normalizable (base reference : Str) : Option Bool :=
  (NormalizationInput.with_resolution_params base reference).bind fun i =>
    i.ensure_rfc3986_normalizable

/-- `normalize()`, `src/types/generic/normal.rs` 441-443, `absolute.rs` 354-356. -/
def normalize (S : Spec) (iri : Str) : Option Str :=
  (NormalizationInput.from_iri iri).bind fun i => (i.withMode .default).display S

/-- `normalize_but_preserve_authorityless_relative_path()`, `src/types/generic/normal.rs`
496-499, `absolute.rs` 409-412. -/
def normalize_but_preserve_authorityless_relative_path (S : Spec) (iri : Str) : Option Str :=
  (NormalizationInput.from_iri iri).bind fun i => (i.withMode .preserve).display S

/-- `ensure_rfc3986_normalizable()`, `src/types/generic/normal.rs` 227-229, `absolute.rs`
139-141. -/
def ensure_rfc3986_normalizable (iri : Str) : Option Bool :=
  (NormalizationInput.from_iri iri).bind fun i => i.ensure_rfc3986_normalizable

/-! ## `is_normalized` -/

/-- `NormalizednessCheckMode`, `src/normalize.rs` 138-147. -/
inductive NormalizednessCheckMode
  | default
  | rfc3986
  | preserve
  deriving DecidableEq, Repr

/-- `str::split('/')`. -/
def splitOnSlash : Str → List Str
  | [] => [[]]
  | c :: r =>
    if c == '/' then [] :: splitOnSlash r
    else
      match splitOnSlash r with
      | [] => [[c]]
      | s :: ss => (c :: s) :: ss

/-- `path_span_no_dot_segments`, `src/parser/trusted.rs` 400-417. -/
def noDotSpan (mode : NormalizednessCheckMode) (auth : Bool) (path : Str) : Option Str :=
  let stripped := match strip_prefix path ['/', '.', '/', '/'] with | some p => p | none => path
  if auth then some path
  else
    match mode with
    | .default => some stripped
    | .rfc3986 => some path
    | .preserve => if starts_with path ['/'] then some stripped else none

/-- The check of the authority, `src/parser/trusted.rs` 366-387. -/
def authorityIsNormalized (S : Spec) (authority : Str) : Option Bool := do
  let a := decompose_authority authority
  let host ← a.host
  let ascii ← is_ascii_only_host host
  let ok? : Option Bool := if ascii then eq_str_display host (normalized_ascii_only_host host)
    else is_pct_case_normalized S host
  let ok ← ok?
  if !ok then some false
  else
    match ← a.userinfo with
    | none => some true
    | some u => is_pct_case_normalized S u

/-- The `if let Some(authority)` around it, `src/parser/trusted.rs` 364-388. -/
def optAuthorityIsNormalized (S : Spec) : Option Str → Option Bool
  | none => some true
  | some a => authorityIsNormalized S a

/-- The loop over the segments of the span, `src/parser/trusted.rs` 418-422. -/
def spanDots : Option Str → Bool
  | none => false
  | some span => (splitOnSlash span).any fun s => s == ['.'] || s == ['.', '.']

/-- `is_normalized`, `src/parser/trusted.rs` 345-425; `none` is a panic. -/
def is_normalized (S : Spec) (mode : NormalizednessCheckMode) (i : Str) : Option Bool := do
  let (i, scheme) ← scheme_colon i
  let (after_authority, authority) := slash_slash_authority_opt i
  let (_, path) := until_query after_authority
  if scheme.any isUpper then some false
  else
    let aok ← optAuthorityIsNormalized S authority
    if !aok then some false
    else
      if spanDots (noDotSpan mode authority.isSome path) then some false
      else is_pct_case_normalized S after_authority

end Verif
