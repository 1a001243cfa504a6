import Verif.Model.Validate
import Verif.Spec.Diagnose

/-!
# Validation with error kinds

`Model/Validate.lean` models the validators as `Bool`; this file models the same functions with
the `Error` they return.  (`ErrorKind` itself is declared in `Spec/Diagnose.lean`.)
-/

namespace Verif.Diag

open Verif.Diagnose (ErrorKind)

/-- `Result<(), Error>` (`src/validate.rs` 14-31: `Error` is a wrapped `ErrorKind`). -/
abbrev Res := Except ErrorKind Unit

instance : DecidableEq Res
  | .ok _, .ok _ => .isTrue rfl
  | .ok _, .error _ => .isFalse (by simp)
  | .error _, .ok _ => .isFalse (by simp)
  | .error a, .error b =>
    if h : a = b then .isTrue (by rw [h]) else .isFalse (by simpa using h)

/-- `if is_valid { Ok(()) } else { Err(Error::with_kind(kind)) }`. -/
def check (b : Bool) (k : ErrorKind) : Res := if b then .ok () else .error k

/-- `a?; b`. -/
def andThen (a b : Res) : Res :=
  match a with
  | .ok _ => b
  | .error k => .error k

/-- `ErrorKind::description`, `src/validate.rs` 77-95. -/
def description : ErrorKind → String
  | .InvalidScheme => "invalid scheme"
  | .InvalidUserInfo => "invalid userinfo"
  | .InvalidHost => "invalid host"
  | .InvalidRegName => "invalid reg-name"
  | .InvalidPort => "invalid port"
  | .InvalidPath => "invalid path"
  | .InvalidQuery => "invalid query"
  | .InvalidFragment => "invalid fragment"
  | .UnexpectedFragment => "unexpected fragment"
  | .UnexpectedAbsolute => "expected a relative IRI but got an absolute IRI"
  | .UnexpectedRelative => "expected an absolute IRI but got a relative IRI"
  | .InvalidUtf8 => "invalid utf-8 bytes"

/-- `<Error as Display>::fmt`, `src/validate.rs` 33-38. -/
def message (k : ErrorKind) : Str := "invalid IRI: ".toList ++ (description k).toList

/-- `validate_scheme`, `src/parser/validate.rs` 23-35. -/
def validate_scheme (i : Str) : Res := check (Verif.validate_scheme i) .InvalidScheme

/-- `validate_query`, `src/parser/validate.rs` 38-46. -/
def validate_query (S : Spec) (i : Str) : Res := check (Verif.validate_query S i) .InvalidQuery

/-- `validate_fragment`, `src/parser/validate.rs` 214-225. -/
def validate_fragment (S : Spec) (i : Str) : Res :=
  check (Verif.validate_fragment S i) .InvalidFragment

/-- `validate_userinfo`, `src/parser/validate/authority.rs` 15-26. -/
def validate_userinfo (S : Spec) (i : Str) : Res :=
  check (Verif.validate_userinfo S i) .InvalidUserInfo

/-- `validate_host`, `src/parser/validate/authority.rs` 203-249.  Every error path of this function
and of the functions it calls (44-174) returns `InvalidHost`. -/
def validate_host (S : Spec) (i : Str) : Res := check (Verif.validate_host S i) .InvalidHost

/-- `validate_reg_name`, `src/parser/validate/authority.rs` 252-263. -/
def validate_reg_name (S : Spec) (i : Str) : Res :=
  check (Verif.validate_reg_name S i) .InvalidRegName

/-- `validate::port`, `src/validate.rs` 482-488. -/
def validate_port (i : Str) : Res := check (Verif.validate_port i) .InvalidPort

/-- `validate_authority`, `src/parser/validate/authority.rs` 177-200. -/
def validate_authority (S : Spec) (i : Str) : Res :=
  let cont (i : Str) : Res :=
    match rfind_split_hole i ':' with
    | some (maybe_host, maybe_port) =>
      if maybe_port.all isDigit then validate_host S maybe_host else validate_host S i
    | none => validate_host S i
  match find_split_hole i '@' with
  | some (maybe_userinfo, i) => andThen (validate_userinfo S maybe_userinfo) (cont i)
  | none => cont i

/-- `validate_path`, `src/parser/validate/path.rs` 77-88. -/
def validate_path (S : Spec) (i : Str) : Res := check (Verif.validate_path S i) .InvalidPath

/-- `validate_path_segment`, `src/parser/validate/path.rs` 91-99. -/
def validate_path_segment (S : Spec) (i : Str) : Res :=
  check (Verif.validate_path_segment S i) .InvalidPath

/-- `validate_path_abempty`, `src/parser/validate/path.rs` 9-27: both errors are `InvalidPath`. -/
def validate_path_abempty (S : Spec) (i : Str) : Res :=
  check (Verif.validate_path_abempty S i) .InvalidPath

/-- `validate_path_absolute_authority_absent`, `src/parser/validate/path.rs` 31-49; `none` is the
`unreachable!` panic. -/
def validate_path_absolute_authority_absent (S : Spec) (i : Str) : Option Res :=
  (Verif.validate_path_absolute_authority_absent S i).map (check · .InvalidPath)

/-- `validate_path_relative_authority_absent`, `src/parser/validate/path.rs` 53-74; both errors are
`InvalidPath`; `none` is the `unreachable!` panic. -/
def validate_path_relative_authority_absent (S : Spec) (i : Str) : Option Res :=
  (Verif.validate_path_relative_authority_absent S i).map (check · .InvalidPath)

/-- `validate_authority_path_abempty`, `src/parser/validate.rs` 49-56. -/
def validate_authority_path_abempty (S : Spec) (i : Str) : Res :=
  let (maybe_authority, maybe_path) := (find_split i '/').getD (i, [])
  andThen (validate_authority S maybe_authority) (validate_path_abempty S maybe_path)

/-- `validate_after_path`, `src/parser/validate.rs` 196-211. -/
def validate_after_path (S : Spec) (first : Char) (rest : Str) (accept_fragment : Bool) : Res :=
  let (maybe_query, maybe_fragment) :=
    if first == '?' then (find_split_hole rest '#').getD (rest, []) else ([], rest)
  andThen (validate_query S maybe_query)
    (if !accept_fragment && !maybe_fragment.isEmpty then .error .UnexpectedFragment
     else validate_fragment S maybe_fragment)

/-- The shared tail of `validate_uri_reference_common` (`src/parser/validate.rs` 138-162) and
`validate_relative_ref` (167-192). -/
def validate_hier (S : Spec) (pathv : Str → Option Res) (accept_fragment : Bool) (i : Str) :
    Option Res :=
  let split (i : Str) : Str × Option (Char × Str) :=
    match find_split2_hole i '?' '#' with
    | some (p, c, rest) => (p, some (c, rest))
    | none => (i, none)
  let after (o : Option (Char × Str)) : Res :=
    match o with
    | some (first, rest) => validate_after_path S first rest accept_fragment
    | none => .ok ()
  match strip_prefix i ['/', '/'] with
  | some i =>
    let (maybe_authority_path, after_path) := split i
    some (andThen (validate_authority_path_abempty S maybe_authority_path) (after after_path))
  | none =>
    let (maybe_path, after_path) := split i
    (pathv maybe_path).map fun r => andThen r (after after_path)

/-- `validate_relative_ref`, `src/parser/validate.rs` 166-193 (`validate::relative_ref`). -/
def validate_relative_ref (S : Spec) (i : Str) : Option Res :=
  validate_hier S (validate_path_relative_authority_absent S) true i

/-- `validate_uri_reference_common`, `src/parser/validate.rs` 111-163. -/
def validate_uri_reference_common (S : Spec) (i : Str) (rule : UriReferenceRule) : Option Res :=
  match find_split_hole i ':' with
  | none =>
    if rule.is_relative_allowed then validate_relative_ref S i
    else some (.error .UnexpectedRelative)
  | some (maybe_scheme, rest) =>
    match validate_scheme maybe_scheme with
    | .error _ =>
      if rule.is_relative_allowed then validate_relative_ref S i
      else some (.error .InvalidScheme)
    | .ok _ =>
      validate_hier S (validate_path_absolute_authority_absent S) rule.is_fragment_allowed rest

/-- `validate_uri`, `src/parser/validate.rs` 60-62 (`validate::iri`). -/
def validate_uri (S : Spec) (i : Str) : Option Res := validate_uri_reference_common S i .Absolute

/-- `validate_uri_reference`, `src/parser/validate.rs` 66-68 (`validate::iri_reference`). -/
def validate_uri_reference (S : Spec) (i : Str) : Option Res :=
  validate_uri_reference_common S i .Any

/-- `validate_absolute_uri`, `src/parser/validate.rs` 72-74 (`validate::absolute_iri`). -/
def validate_absolute_uri (S : Spec) (i : Str) : Option Res :=
  validate_uri_reference_common S i .AbsoluteWithoutFragment

end Verif.Diag
