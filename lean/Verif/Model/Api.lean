import Verif.Model.Validate
import Verif.Model.Types
import Verif.Model.Normalize

/-!
# Public functions that only call an internal one

The functions of the module `validate` and the `is_normalized*` methods of the two types that have them.
-/

namespace Verif.Api

/-- The functions of the public module `iri_string::validate`. -/
inductive ValidateFn
  | iri | iri_reference | absolute_iri | relative_ref | scheme | authority | host | reg_name | port
  | userinfo | path | path_segment | query | fragment
  deriving DecidableEq, Repr

/-- Their results, `src/validate.rs` 153-155, 199-201, 263-265, 320-322, 350-352, 388-390, 419-421, 456-458,
482-488, 510-512, 538-540, 557-559, 602-604, 645-647: whether `Ok(())` is returned; `none` is a panic. -/
def ValidateFn.call (S : Spec) (s : Str) : ValidateFn → Option Bool
  | .iri => validate_uri S s
  | .iri_reference => validate_uri_reference S s
  | .absolute_iri => validate_absolute_uri S s
  | .relative_ref => validate_relative_ref S s
  | .scheme => some (validate_scheme s)
  | .authority => some (validate_authority S s)
  | .host => some (validate_host S s)
  | .reg_name => some (validate_reg_name S s)
  | .port => some (validate_port s)
  | .userinfo => some (validate_userinfo S s)
  | .path => some (validate_path S s)
  | .path_segment => some (validate_path_segment S s)
  | .query => some (validate_query S s)
  | .fragment => some (validate_fragment S s)

/-- `RiStr::is_normalized`, `src/types/generic/normal.rs` 284-286, and `RiAbsoluteStr::is_normalized`,
`src/types/generic/absolute.rs` 196-198. -/
def is_normalized (S : Spec) (s : Str) : Option Bool := Verif.is_normalized S .default s

/-- `is_normalized_rfc3986`, `src/types/generic/normal.rs` 342-344, `absolute.rs` 254-256. -/
def is_normalized_rfc3986 (S : Spec) (s : Str) : Option Bool := Verif.is_normalized S .rfc3986 s

/-- `is_normalized_but_authorityless_relative_path_preserved`, `src/types/generic/normal.rs` 404-409,
`absolute.rs` 316-321. -/
def is_normalized_but_authorityless_relative_path_preserved (S : Spec) (s : Str) : Option Bool :=
  Verif.is_normalized S .preserve s

end Verif.Api
