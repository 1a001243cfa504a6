import Verif.Model.Str
import Verif.Model.Chars

/-!
# `src/parser/validate.rs`, `src/parser/validate/{authority,path}.rs`

Validators are modelled as `Bool` (`Ok(())` is `true`); the error kinds are modelled in `Model/Diagnose.lean`.
-/

namespace Verif

/-- `validate_scheme`, `src/parser/validate.rs` 23-35.  `bytes[1..].all(is_ascii && ..)`: a
non-ASCII character has only non-ASCII bytes, so the test is per character. -/
def validate_scheme (i : Str) : Bool :=
  match i with
  | [] => false
  | c :: r => isAlpha c && r.all fun b => isAscii b && is_ascii_scheme_continue b

/-- `validate_query`, `src/parser/validate.rs` 38-46. -/
def validate_query (S : Spec) (i : Str) : Bool :=
  satisfy_chars_with_pct_encoded is_ascii_frag_query (is_nonascii_query S) i

/-- `validate_fragment`, `src/parser/validate.rs` 214-225. -/
def validate_fragment (S : Spec) (i : Str) : Bool :=
  satisfy_chars_with_pct_encoded is_ascii_frag_query (is_nonascii_fragment S) i

/-- `validate_userinfo`, `src/parser/validate/authority.rs` 15-26. -/
def validate_userinfo (S : Spec) (i : Str) : Bool :=
  satisfy_chars_with_pct_encoded is_ascii_userinfo_ipvfutureaddr (is_nonascii_userinfo S) i

/-- byte range pattern `lo..=hi`. -/
def btw (lo hi c : Char) : Bool := lo.toNat ≤ c.toNat && c.toNat ≤ hi.toNat

/-- `is_dec_octet`, `src/parser/validate/authority.rs` 32-41. -/
def is_dec_octet (i : Str) : Bool :=
  match i with
  | [a] => btw '0' '9' a
  | [a, b] => btw '1' '9' a && btw '0' '9' b
  | [a, b, c] =>
    (a == '1' && btw '0' '9' b && btw '0' '9' c) ||
    (a == '2' && btw '0' '4' b && btw '0' '9' c) ||
    (a == '2' && b == '5' && btw '0' '5' c)
  | _ => false

/-- `validate_ipv4address`, `src/parser/validate/authority.rs` 44-65. -/
def validate_ipv4address (i : Str) : Bool :=
  match find_split_hole i '.' with
  | none => false
  | some (first, rest) =>
    if !is_dec_octet first then false else
    match find_split_hole rest '.' with
    | none => false
    | some (second, rest) =>
      if !is_dec_octet second then false else
      match find_split_hole rest '.' with
      | none => false
      | some (third, fourth) => is_dec_octet third && is_dec_octet fourth

/-- `V6AddrPart`, `src/parser/validate/authority.rs` 69-80. -/
inductive V6AddrPart
  | H16Omit | H16Cont | H16End | V4 | Omit
  deriving DecidableEq, Repr

/-- `split_v6_addr_part`, `src/parser/validate/authority.rs` 83-121 (`none` is `Err`). -/
def split_v6_addr_part (i : Str) : Option (Str × V6AddrPart) :=
  match find_split_hole i ':' with
  | some (pre, rest) =>
    if 5 ≤ blen pre then none
    else if pre.isEmpty then
      match strip_ascii_char_prefix rest ':' with
      | some rest => some (rest, .Omit)
      | none => none
    else if !pre.all isHex then none
    else
      match strip_ascii_char_prefix rest ':' with
      | some rest => some (rest, .H16Omit)
      | none => some (rest, .H16Cont)
  | none =>
    if 5 ≤ blen i then
      if validate_ipv4address i then some ([], .V4) else none
    else if i.all isHex then some ([], .H16End)
    else none

/-- The final test of `validate_ipv6address`, lines 163-173. -/
def v6_final (h16_count : Nat) (is_omitted : Bool) : Bool :=
  if is_omitted then decide (h16_count < 8) else h16_count == 8

/-- The loop of `validate_ipv6address`, `src/parser/validate/authority.rs` 124-174.  Each
iteration consumes at least one character, so a `fuel` of `i.length` iterations is never
exhausted (running out of fuel would mean `false`; `Lemmas/Ip.lean` shows the result is
independent of the fuel given). -/
def v6_loop : Nat → Str → Nat → Bool → Bool
  | 0, i, h16_count, is_omitted => i.isEmpty && v6_final h16_count is_omitted
  | fuel + 1, i, h16_count, is_omitted =>
    if i.isEmpty then v6_final h16_count is_omitted
    else
      match split_v6_addr_part i with
      | none => false
      | some (rest, .H16Omit) =>
        if is_omitted then false
        else if 8 < h16_count + 1 then false
        else v6_loop fuel rest (h16_count + 1) true
      | some (rest, .H16Cont) =>
        if rest.isEmpty then false
        else if 8 < h16_count + 1 then false
        else v6_loop fuel rest (h16_count + 1) is_omitted
      | some (_, .H16End) => v6_final (h16_count + 1) is_omitted
      | some (_, .V4) => v6_final (h16_count + 2) is_omitted
      | some (rest, .Omit) =>
        if is_omitted then false
        else if 8 < h16_count then false
        else v6_loop fuel rest h16_count true

/-- `validate_ipv6address`, `src/parser/validate/authority.rs` 124-174. -/
def validate_ipv6address (i : Str) : Bool := v6_loop i.length i 0 false

/-- `validate_host`, `src/parser/validate/authority.rs` 203-249. -/
def validate_host (S : Spec) (i : Str) : Bool :=
  match get_wrapped_inner i '[' ']' with
  | some maybe_addr =>
    match (strip_ascii_char_prefix maybe_addr 'v').or (strip_ascii_char_prefix maybe_addr 'V') with
    | some maybe_addr_rest =>
      match find_split_hole maybe_addr_rest '.' with
      | none => false
      | some (maybe_ver, maybe_addr) =>
        if maybe_ver.isEmpty || !maybe_ver.all isHex then false
        else !maybe_addr.isEmpty && maybe_addr.all isAscii &&
          maybe_addr.all is_ascii_userinfo_ipvfutureaddr
    | none => validate_ipv6address maybe_addr
  | none => satisfy_chars_with_pct_encoded is_ascii_regname (is_nonascii_regname S) i

/-- `validate_authority`, `src/parser/validate/authority.rs` 177-200. -/
def validate_authority (S : Spec) (i : Str) : Bool :=
  let cont (i : Str) : Bool :=
    match rfind_split_hole i ':' with
    | some (maybe_host, maybe_port) =>
      if maybe_port.all isDigit then validate_host S maybe_host else validate_host S i
    | none => validate_host S i
  match find_split_hole i '@' with
  | some (maybe_userinfo, i) => validate_userinfo S maybe_userinfo && cont i
  | none => cont i

/-- `is_decimal_repr_of_octet`, `src/parser/trusted/authority.rs` 86-97. -/
def is_decimal_repr_of_octet (i : Str) : Bool :=
  match i with
  | [a] => btw '0' '9' a
  | [a, b] => btw '1' '9' a && btw '0' '9' b
  | [a, b, c] =>
    (a == '1' && btw '0' '9' b && btw '0' '9' c) ||
    (a == '2' && btw '0' '4' b && btw '0' '9' c) ||
    (a == '2' && b == '5' && btw '0' '5' c)
  | _ => false

/-- `is_host_reg_name`, `src/parser/trusted/authority.rs` 46-83. -/
def is_host_reg_name (host : Str) : Bool :=
  if starts_with host ['['] then false
  else if !(7 ≤ blen host && blen host ≤ 15) then true
  else
    match find_split_hole host '.' with
    | none => true
    | some (o0, rest) =>
      match find_split_hole rest '.' with
      | none => true
      | some (o1, rest) =>
        match find_split_hole rest '.' with
        | none => true
        | some (o2, o3) => !([o0, o1, o2, o3].all is_decimal_repr_of_octet)

/-- `validate_reg_name`, `src/parser/validate/authority.rs` 252-263. -/
def validate_reg_name (S : Spec) (i : Str) : Bool :=
  satisfy_chars_with_pct_encoded is_ascii_regname (is_nonascii_regname S) i && is_host_reg_name i

/-- `validate::port`, `src/validate.rs` (`bytes().all(is_ascii_digit)`). -/
def validate_port (i : Str) : Bool := i.all isDigit

/-- `validate_path_abempty`, `src/parser/validate/path.rs` 9-27. -/
def validate_path_abempty (S : Spec) (i : Str) : Bool :=
  if i.isEmpty then true
  else
    match strip_prefix i ['/'] with
    | some rest =>
      satisfy_chars_with_pct_encoded is_ascii_pchar_slash S.is_nonascii_char_unreserved rest
    | none => false

/-- `validate_path_absolute_authority_absent`, `src/parser/validate/path.rs` 31-49; `none` is the
`unreachable!` panic. -/
def validate_path_absolute_authority_absent (S : Spec) (i : Str) : Option Bool :=
  if i.isEmpty then some true
  else if starts_with i ['/', '/'] then none
  else some (satisfy_chars_with_pct_encoded is_ascii_pchar_slash S.is_nonascii_char_unreserved i)

/-- `validate_path_relative_authority_absent`, `src/parser/validate/path.rs` 53-74; `none` is the
`unreachable!` panic. -/
def validate_path_relative_authority_absent (S : Spec) (i : Str) : Option Bool :=
  if starts_with i ['/', '/'] then none
  else
    match find_split2_hole i '/' ':' with
    | some (_, c, _) =>
      if c == '/' then
        some (satisfy_chars_with_pct_encoded is_ascii_pchar_slash S.is_nonascii_char_unreserved i)
      else some false
    | none =>
      some (satisfy_chars_with_pct_encoded is_ascii_pchar_slash S.is_nonascii_char_unreserved i)

/-- `validate_path`, `src/parser/validate/path.rs` 77-88. -/
def validate_path (S : Spec) (i : Str) : Bool :=
  satisfy_chars_with_pct_encoded is_ascii_pchar_slash S.is_nonascii_char_unreserved i

/-- `validate_path_segment`, `src/parser/validate/path.rs` 91-99. -/
def validate_path_segment (S : Spec) (i : Str) : Bool :=
  satisfy_chars_with_pct_encoded is_ascii_pchar S.is_nonascii_char_unreserved i

/-- `validate_authority_path_abempty`, `src/parser/validate.rs` 49-56. -/
def validate_authority_path_abempty (S : Spec) (i : Str) : Bool :=
  let (maybe_authority, maybe_path) := (find_split i '/').getD (i, [])
  validate_authority S maybe_authority && validate_path_abempty S maybe_path

/-- `validate_after_path`, `src/parser/validate.rs` 196-211. -/
def validate_after_path (S : Spec) (first : Char) (rest : Str) (accept_fragment : Bool) : Bool :=
  let (maybe_query, maybe_fragment) :=
    if first == '?' then (find_split_hole rest '#').getD (rest, []) else ([], rest)
  validate_query S maybe_query &&
    (if !accept_fragment && !maybe_fragment.isEmpty then false
     else validate_fragment S maybe_fragment)

/-- The shared tail of `validate_uri_reference_common` (lines 138-162) and
`validate_relative_ref` (lines 167-192): hier-part/relative-part, then `validate_after_path`.
`pathv` is the validator used when no authority is present. -/
def validate_hier (S : Spec) (pathv : Str → Option Bool) (accept_fragment : Bool) (i : Str) :
    Option Bool :=
  let split (i : Str) : Str × Option (Char × Str) :=
    match find_split2_hole i '?' '#' with
    | some (p, c, rest) => (p, some (c, rest))
    | none => (i, none)
  let after (o : Option (Char × Str)) : Bool :=
    match o with
    | some (first, rest) => validate_after_path S first rest accept_fragment
    | none => true
  match strip_prefix i ['/', '/'] with
  | some i =>
    let (maybe_authority_path, after_path) := split i
    some (validate_authority_path_abempty S maybe_authority_path && after after_path)
  | none =>
    let (maybe_path, after_path) := split i
    match pathv maybe_path with
    | none => none
    | some b => some (b && after after_path)

/-- `validate_relative_ref`, `src/parser/validate.rs` 166-193; `none` is a panic. -/
def validate_relative_ref (S : Spec) (i : Str) : Option Bool :=
  validate_hier S (validate_path_relative_authority_absent S) true i

/-- `UriReferenceRule`, `src/parser/validate.rs` 77-92. -/
inductive UriReferenceRule
  | Absolute | AbsoluteWithoutFragment | Any
  deriving DecidableEq, Repr

/-- `is_relative_allowed`, `src/parser/validate.rs` 98-100. -/
def UriReferenceRule.is_relative_allowed (r : UriReferenceRule) : Bool := r == .Any

/-- `is_fragment_allowed`, `src/parser/validate.rs` 105-107. -/
def UriReferenceRule.is_fragment_allowed (r : UriReferenceRule) : Bool :=
  r == .Absolute || r == .Any

/-- `validate_uri_reference_common`, `src/parser/validate.rs` 111-163; `none` is a panic. -/
def validate_uri_reference_common (S : Spec) (i : Str) (rule : UriReferenceRule) : Option Bool :=
  match find_split_hole i ':' with
  | none => if rule.is_relative_allowed then validate_relative_ref S i else some false
  | some (maybe_scheme, rest) =>
    if !validate_scheme maybe_scheme then
      if rule.is_relative_allowed then validate_relative_ref S i else some false
    else validate_hier S (validate_path_absolute_authority_absent S) rule.is_fragment_allowed rest

/-- `validate_uri`, `src/parser/validate.rs` 60-62 (`validate::iri`). -/
def validate_uri (S : Spec) (i : Str) : Option Bool :=
  validate_uri_reference_common S i .Absolute

/-- `validate_uri_reference`, `src/parser/validate.rs` 66-68 (`validate::iri_reference`). -/
def validate_uri_reference (S : Spec) (i : Str) : Option Bool :=
  validate_uri_reference_common S i .Any

/-- `validate_absolute_uri`, `src/parser/validate.rs` 72-74 (`validate::absolute_iri`). -/
def validate_absolute_uri (S : Spec) (i : Str) : Option Bool :=
  validate_uri_reference_common S i .AbsoluteWithoutFragment

end Verif
