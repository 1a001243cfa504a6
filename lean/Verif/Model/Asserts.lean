import Verif.Model.Types
import Verif.Model.Edit
import Verif.Model.PathNorm
import Verif.Model.TypedAccess

/-!
# Debug builds

The functions of the other model files whose code contains a `debug_assert!`, and their callers, once
more, with the assertions.  `dbg` is `cfg(debug_assertions)`; the outer `none` is a panic.
-/

namespace Verif.Dbg

/-- `strip_ascii_char_prefix`, `src/parser/str.rs` 366-373, with the assertion of line 367. -/
def strip_ascii_char_prefix (dbg : Bool) (s : Str) (p : Char) : Option (Option Str) :=
  if dbg && !isAscii p then none else some (Verif.strip_ascii_char_prefix s p)

/-- `split_v6_addr_part`, `src/parser/validate/authority.rs` 82-121, with the assertions of lines 83 and
98; `some none` is `Err`. -/
def split_v6_addr_part (dbg : Bool) (i : Str) : Option (Option (Str × V6AddrPart)) :=
  if dbg && i.isEmpty then none
  else
    match find_split_hole i ':' with
    | some (pre, rest) =>
      if 5 ≤ blen pre then some none
      else if pre.isEmpty then
        match strip_ascii_char_prefix dbg rest ':' with
        | none => none
        | some (some rest) => some (some (rest, .Omit))
        | some none => some none
      else if dbg && !(1 ≤ blen pre && blen pre ≤ 4) then none
      else if !pre.all isHex then some none
      else
        match strip_ascii_char_prefix dbg rest ':' with
        | none => none
        | some (some rest) => some (some (rest, .H16Omit))
        | some none => some (some (rest, .H16Cont))
    | none =>
      if 5 ≤ blen i then
        if validate_ipv4address i then some (some ([], .V4)) else some none
      else if i.all isHex then some (some ([], .H16End))
      else some none

/-- The loop of `validate_ipv6address`, `src/parser/validate/authority.rs` 124-174, with the assertion of
line 148; the fuel as in `Verif.v6_loop`. -/
def v6_loop (dbg : Bool) : Nat → Str → Nat → Bool → Option Bool
  | 0, i, h16_count, is_omitted => some (i.isEmpty && v6_final h16_count is_omitted)
  | fuel + 1, i, h16_count, is_omitted =>
    if i.isEmpty then some (v6_final h16_count is_omitted)
    else
      match split_v6_addr_part dbg i with
      | none => none
      | some none => some false
      | some (some (rest, .H16Omit)) =>
        if is_omitted then some false
        else if 8 < h16_count + 1 then some false
        else v6_loop dbg fuel rest (h16_count + 1) true
      | some (some (rest, .H16Cont)) =>
        if rest.isEmpty then some false
        else if 8 < h16_count + 1 then some false
        else v6_loop dbg fuel rest (h16_count + 1) is_omitted
      | some (some (_, .H16End)) => some (v6_final (h16_count + 1) is_omitted)
      | some (some (rest, .V4)) =>
        if dbg && !rest.isEmpty then none else some (v6_final (h16_count + 2) is_omitted)
      | some (some (rest, .Omit)) =>
        if is_omitted then some false
        else if 8 < h16_count then some false
        else v6_loop dbg fuel rest h16_count true

/-- `validate_ipv6address`, `src/parser/validate/authority.rs` 124-174. -/
def validate_ipv6address (dbg : Bool) (i : Str) : Option Bool := v6_loop dbg i.length i 0 false

/-- `validate_host`, `src/parser/validate/authority.rs` 203-249. -/
def validate_host (dbg : Bool) (S : Spec) (i : Str) : Option Bool :=
  match get_wrapped_inner i '[' ']' with
  | some maybe_addr => do
    let v ← strip_ascii_char_prefix dbg maybe_addr 'v'
    let v ← match v with
      | some r => some (some r)
      | none => strip_ascii_char_prefix dbg maybe_addr 'V'
    match v with
    | some maybe_addr_rest =>
      match find_split_hole maybe_addr_rest '.' with
      | none => some false
      | some (maybe_ver, maybe_addr) =>
        if maybe_ver.isEmpty || !maybe_ver.all isHex then some false
        else some (!maybe_addr.isEmpty && maybe_addr.all isAscii &&
          maybe_addr.all is_ascii_userinfo_ipvfutureaddr)
    | none => validate_ipv6address dbg maybe_addr
  | none => some (satisfy_chars_with_pct_encoded is_ascii_regname (is_nonascii_regname S) i)

/-- `validate_authority`, `src/parser/validate/authority.rs` 177-200. -/
def validate_authority (dbg : Bool) (S : Spec) (i : Str) : Option Bool :=
  let cont (i : Str) : Option Bool :=
    match rfind_split_hole i ':' with
    | some (maybe_host, maybe_port) =>
      if maybe_port.all isDigit then validate_host dbg S maybe_host else validate_host dbg S i
    | none => validate_host dbg S i
  match find_split_hole i '@' with
  | some (maybe_userinfo, i) => if !validate_userinfo S maybe_userinfo then some false else cont i
  | none => cont i

/-- `is_host_reg_name`, `src/parser/trusted/authority.rs` 46-83, with the assertion of line 49. -/
def is_host_reg_name (dbg : Bool) (host : Str) : Option Bool :=
  if starts_with host ['['] && (dbg && host.getLast? != some ']') then none
  else some (Verif.is_host_reg_name host)

/-- `validate_reg_name`, `src/parser/validate/authority.rs` 252-263. -/
def validate_reg_name (dbg : Bool) (S : Spec) (i : Str) : Option Bool :=
  if satisfy_chars_with_pct_encoded is_ascii_regname (is_nonascii_regname S) i then is_host_reg_name dbg i
  else some false

/-- `validate_path_relative_authority_absent`, `src/parser/validate/path.rs` 53-74, with the assertion of
line 64. -/
def validate_path_relative_authority_absent (dbg : Bool) (S : Spec) (i : Str) : Option Bool :=
  if starts_with i ['/', '/'] then none
  else
    match find_split2_hole i '/' ':' with
    | some (_, c, _) =>
      if c == '/' then
        some (satisfy_chars_with_pct_encoded is_ascii_pchar_slash S.is_nonascii_char_unreserved i)
      else if dbg && c != ':' then none
      else some false
    | none =>
      some (satisfy_chars_with_pct_encoded is_ascii_pchar_slash S.is_nonascii_char_unreserved i)

/-- `validate_authority_path_abempty`, `src/parser/validate.rs` 49-56. -/
def validate_authority_path_abempty (dbg : Bool) (S : Spec) (i : Str) : Option Bool := do
  let p := (find_split i '/').getD (i, [])
  let b ← validate_authority dbg S p.1
  if !b then some false else some (validate_path_abempty S p.2)

/-- `validate_after_path`, `src/parser/validate.rs` 196-211, with the assertion of line 203. -/
def validate_after_path (dbg : Bool) (S : Spec) (first : Char) (rest : Str) (accept_fragment : Bool) :
    Option Bool :=
  if first != '?' && (dbg && first != '#') then none
  else some (Verif.validate_after_path S first rest accept_fragment)

/-- The shared tail of `validate_uri_reference_common` and `validate_relative_ref`,
`src/parser/validate.rs` 138-162, 167-192. -/
def validate_hier (dbg : Bool) (S : Spec) (pathv : Str → Option Bool) (accept_fragment : Bool) (i : Str) :
    Option Bool :=
  let go (v : Str → Option Bool) (i : Str) : Option Bool :=
    match find_split2_hole i '?' '#' with
    | some (p, c, rest) => do
      let b ← v p
      if !b then some false else validate_after_path dbg S c rest accept_fragment
    | none => v i
  match strip_prefix i ['/', '/'] with
  | some i => go (validate_authority_path_abempty dbg S) i
  | none => go pathv i

/-- `validate_relative_ref`, `src/parser/validate.rs` 166-193. -/
def validate_relative_ref (dbg : Bool) (S : Spec) (i : Str) : Option Bool :=
  validate_hier dbg S (validate_path_relative_authority_absent dbg S) true i

/-- `validate_uri_reference_common`, `src/parser/validate.rs` 111-163. -/
def validate_uri_reference_common (dbg : Bool) (S : Spec) (i : Str) (rule : UriReferenceRule) :
    Option Bool :=
  match find_split_hole i ':' with
  | none => if rule.is_relative_allowed then validate_relative_ref dbg S i else some false
  | some (maybe_scheme, rest) =>
    if !validate_scheme maybe_scheme then
      if rule.is_relative_allowed then validate_relative_ref dbg S i else some false
    else
      validate_hier dbg S (validate_path_absolute_authority_absent S) rule.is_fragment_allowed rest

/-- The validators of the four IRI types, `src/parser/validate.rs` 60-74, 166. -/
def validate (dbg : Bool) (S : Spec) : IriKind → Str → Option Bool
  | .reference, s => validate_uri_reference_common dbg S s .Any
  | .iri, s => validate_uri_reference_common dbg S s .Absolute
  | .absolute, s => validate_uri_reference_common dbg S s .AbsoluteWithoutFragment
  | .relative, s => validate_relative_ref dbg S s

/-! ## Component access -/

/-- `decompose_query_and_fragment`, `src/parser/trusted.rs` 72-87, with the assertion of line 83. -/
def decompose_query_and_fragment (dbg : Bool) (i : Str) : Option (Option Str × Option Str) :=
  match i with
  | [] => some (none, none)
  | c :: _ =>
    if c != '?' && (dbg && c != '#') then none else Verif.decompose_query_and_fragment i

/-- `decompose_iri_reference`, `src/parser/trusted.rs` 91-137 (written as in `Verif.decompose_iri_reference`). -/
def decompose_iri_reference (dbg : Bool) (s : Str) : Option Splitter :=
  let len := blen s
  let (i, scheme) := scheme_colon_opt s
  let scheme_end := scheme.bind fun s => nonZero (blen s)
  let start := len - blen i + 2
  let (i, authority) := slash_slash_authority_opt i
  let authority_end := authority.bind fun s => nonZero (start + blen s)
  let (i, _path) := until_query i
  let after_first_prefix := nonZero (len - blen i + 1)
  (decompose_query_and_fragment dbg i).map fun qf =>
    let (query_start, fragment_start) :=
      match qf.1.isSome, qf.2 with
      | true, some fragment => (after_first_prefix, nonZero (len - blen fragment))
      | true, none => (after_first_prefix, none)
      | false, some _ => (none, after_first_prefix)
      | false, none => (none, none)
    { scheme_end, authority_end, query_start, fragment_start }

/-- `extract_query`, `src/parser/trusted.rs` 257-260. -/
def extract_query (dbg : Bool) (i : Str) : Option (Option Str) :=
  (decompose_query_and_fragment dbg (until_query i).1).map Prod.fst

/-- `AuthorityComponents::userinfo`, `src/components/authority.rs` 47-51, with the assertion of line 49
(which indexes the bytes of the authority). -/
def userinfo (dbg : Bool) (a : AuthorityComponents) : Option (Option Str) :=
  if a.host_start = 0 then some none
  else if dbg && (utf8s a.authority)[a.host_start - 1]? != some 0x40 then none
  else (sliceTo a.authority (a.host_start - 1)).map some

/-- `AuthorityComponents::reg_name`, `src/components/authority.rs` 64-71. -/
def reg_name (dbg : Bool) (a : AuthorityComponents) : Option (Option Str) := do
  let h ← a.host
  let b ← is_host_reg_name dbg h
  some (if b then some h else none)

/-- `AuthorityComponents::port`, `src/components/authority.rs` 75-82, with the assertion of line 80. -/
def port (dbg : Bool) (a : AuthorityComponents) : Option (Option Str) :=
  if a.host_end = blen a.authority then some none
  else if dbg && (utf8s a.authority)[a.host_end]? != some 0x3A then none
  else (sliceFrom a.authority (a.host_end + 1)).map some

/-! ## Conversions: `new_unchecked_justified` -/

/-- `new_unchecked_justified` of the IRI types, `src/types/generic/macros.rs` 248-259, 613-624. -/
def justified (dbg : Bool) (S : Spec) (k : IriKind) (s : Str) : Option Str :=
  if dbg && validate dbg S k s != some true then none else some s

/-- `to_iri`, `src/types/generic/reference.rs` 110-146, and `into_iri`, 586-612. -/
def to_iri (dbg : Bool) (S : Spec) (s : Str) : Option (Str ⊕ Str) :=
  if (extract_scheme s).isSome then (justified dbg S .iri s).map .inl
  else (justified dbg S .relative s).map .inr

/-- `to_absolute_and_fragment`, `src/types/generic/normal.rs` 155-175. -/
def to_absolute_and_fragment (dbg : Bool) (S : Spec) (s : Str) : Option (Str × Option Str) := do
  let x := split_fragment s
  let p ← justified dbg S .absolute x.1
  let f ← justifiedOpt dbg (validate_fragment S) x.2
  some (p, f)

/-- `to_absolute`, `src/types/generic/normal.rs` 196-208. -/
def to_absolute (dbg : Bool) (S : Spec) (s : Str) : Option Str :=
  (sliceTo s (blen (split_fragment s).1)).bind (justified dbg S .absolute)

/-- `into_absolute_and_fragment`, `src/types/generic/normal.rs` 807-830. -/
def into_absolute_and_fragment (dbg : Bool) (S : Spec) (s : Str) : Option (Str × Option Str) := do
  let x ← split_fragment_owned s
  let p ← justified dbg S .absolute x.1
  let f ← justifiedOpt dbg (validate_fragment S) x.2
  some (p, f)

/-- `into_absolute`, `src/types/generic/normal.rs` 850-861. -/
def into_absolute (dbg : Bool) (S : Spec) (s : Str) : Option Str :=
  justified dbg S .absolute (remove_fragment s)

/-- `set_fragment`, `src/types/generic/normal.rs` 865-868, `reference.rs` 630-633, `relative.rs` 477-480. -/
def set_fragment (dbg : Bool) (S : Spec) (k : IriKind) (s : Str) (f : Option Str) : Option Str :=
  justified dbg S k (Verif.set_fragment s f)

/-- `as_uri`, `try_into_uri`, `src/types/iri.rs` 132-146, 319-335: the URI, if there is one. -/
def as_uri (dbg : Bool) (k : IriKind) (s : Str) : Option (Option Str) :=
  if !s.all isAscii then some none else (justified dbg .uri k s).map some

/-- `AsRef<Iri..>` and `From<Uri..>`, `src/types/uri.rs` 64-75, 77-86. -/
def as_iri (dbg : Bool) (k : IriKind) (s : Str) : Option Str := justified dbg .iri k s

/-! ## Other assertions -/

/-- `from_paths_to_be_resolved`, `src/normalize/path.rs` 53-77, with the assertion of line 64. -/
def from_paths_to_be_resolved (dbg : Bool) (base reference : Str) : Option PathToNormalize :=
  if starts_with reference ['/'] then some ⟨reference, none⟩
  else
    match rfind_split_hole base '/' with
    | some (before, _) =>
      let front := before ++ ['/']
      if dbg && front.getLast? != some '/' then none
      else some ⟨front, if reference.isEmpty then none else some reference⟩
    | none => some ⟨reference, none⟩

/-- `replace_domain_impl`, `src/types/generic.rs` 59-103, with the assertions of the functions it calls. -/
def replace_domain_impl (dbg : Bool) (S : Spec) (iri_ref new_host : Str) (replace_only_reg_name : Bool) :
    Option (Str × Option (Nat × Nat)) :=
  match AuthorityComponents.from_iri_get_offset iri_ref with
  | none => some (iri_ref, none)
  | some (authority, offset) => do
    let old_host ← authority.host
    let host_start := offset + authority.host_start
    let old_host_end := host_start + blen old_host
    let ok ← validate_host dbg S new_host
    if !ok then some (iri_ref, none)
    else do
      let keep ← if replace_only_reg_name then (is_host_reg_name dbg old_host).map (!·) else some false
      if keep then some (iri_ref, none)
      else do
        let iri_ref ← replaceRange iri_ref host_start old_host_end new_host
        let new_host_end := host_start + blen new_host
        some (iri_ref, some (host_start, new_host_end))

end Verif.Dbg
