import Verif.Spec.Construct
import Verif.Model.Encode
import Verif.Model.Edit
import Verif.Model.Template

/-!
# Construction and conversion of values: `src/types/generic/macros.rs`, `src/types/generic/error.rs`,
`src/template/string.rs`, `src/template/string/owned.rs`

A value of a validated type is modelled by its text.  An outer `none` is a panic.  Of a validation
error only whether it is "invalid UTF-8" is kept (the crate also says which component is at fault).
-/

namespace Verif

/-- `crate::validate::Error`, `src/validate.rs`, and `crate::template::Error`. -/
inductive ValidationError
  | invalidUtf8
  | invalid
  deriving DecidableEq, Repr

/-- `Result`. -/
inductive RResult (ε α : Type)
  | ok (a : α)
  | err (e : ε)
  deriving DecidableEq, Repr

/-- `Result::map`. -/
def RResult.map {ε α β : Type} (f : α → β) : RResult ε α → RResult ε β
  | .ok a => .ok (f a)
  | .err e => .err e

/-- The result of the template validator without the kind and position of the error. -/
def template_result : Tpl.Res Unit → Option (RResult ValidationError Unit)
  | .ok () => some (.ok ())
  | .err _ _ => some (.err .invalid)
  | .panic => none

/-- `$ty::validate`: the validator given to the macro, `src/types/generic/macros.rs` 261-264 and
627-631, with the instances of `src/types/generic/normal.rs`, `absolute.rs`, `relative.rs`,
`reference.rs`, `query.rs`, `fragment.rs` and `UriTemplateStr::validate`, `src/template/string.rs`
193-196. -/
def TypeKind.validate (S : Spec) : TypeKind → Str → Option (RResult ValidationError Unit)
  | .iriLike k, s => (k.validate S s).map fun b => if b then .ok () else .err .invalid
  | .query, s => some (if validate_query S s then .ok () else .err .invalid)
  | .fragment, s => some (if validate_fragment S s then .ok () else .err .invalid)
  | .template, s => template_result (Tpl.validate_template_str s)

/-- `CreationError<T>`, `src/types/generic/error.rs` 18-23, and its template twin,
`src/template/error.rs`. -/
structure CreationError where
  source : Str
  error : ValidationError
  deriving DecidableEq, Repr

/-- `CreationError::into_source`, `src/types/generic/error.rs` 26-30. -/
def CreationError.into_source (e : CreationError) : Str := e.source

/-- `CreationError::validation_error`, `src/types/generic/error.rs` 32-36. -/
def CreationError.validation_error (e : CreationError) : ValidationError := e.error

/-- The match that follows each call of `validate`. -/
def checked (s : Str) : RResult ValidationError Unit → RResult ValidationError Str
  | .ok () => .ok s
  | .err e => .err e

/-- `TryFrom<&str> for &$ty`, `src/types/generic/macros.rs` 371-382, `src/template/string.rs`
472-483 (also `$ty::new`, and `visit_borrowed_str` of the deserializer, 437-444). -/
def try_from_str (S : Spec) (k : TypeKind) (s : Str) : Option (RResult ValidationError Str) :=
  (k.validate S s).map (checked s)

/-- `TryFrom<&[u8]> for &$ty`, `src/types/generic/macros.rs` 384-399, `src/template/string.rs`
485-497. -/
def try_from_bytes (S : Spec) (k : TypeKind) (bytes : List Nat) :
    Option (RResult ValidationError Str) :=
  match from_utf8 bytes with
  | none => some (.err .invalidUtf8)
  | some s => (k.validate S s).map (checked s)

/-- `From<&$slice> for $ty`, `src/types/generic/macros.rs` 764-773. -/
def to_owned (s : Str) : Str := s

/-- `TryFrom<&str> for $ty` (owned), `src/types/generic/macros.rs` 806-813,
`src/template/string/owned.rs` 198-205 (also `visit_str`, 906-912). -/
def owned_try_from_str (S : Spec) (k : TypeKind) (s : Str) : Option (RResult ValidationError Str) :=
  (try_from_str S k s).map (RResult.map to_owned)

/-- `TryFrom<&[u8]> for $ty` (owned), `src/types/generic/macros.rs` 815-825,
`src/template/string/owned.rs` 207-216. -/
def owned_try_from_bytes (S : Spec) (k : TypeKind) (bytes : List Nat) :
    Option (RResult ValidationError Str) :=
  match from_utf8 bytes with
  | none => some (.err .invalidUtf8)
  | some s => (try_from_str S k s).map (RResult.map to_owned)

/-- The match of `TryFrom<String>`. -/
def checkedOwned (s : Str) : RResult ValidationError Unit → RResult CreationError Str
  | .ok () => .ok s
  | .err e => .err ⟨s, e⟩

/-- `TryFrom<String> for $ty`, `src/types/generic/macros.rs` 827-840,
`src/template/string/owned.rs` 218-232 (also `visit_string`, 914-921). -/
def owned_try_from_string (S : Spec) (k : TypeKind) (s : Str) : Option (RResult CreationError Str) :=
  (k.validate S s).map (checkedOwned s)

/-- `FromStr for $ty`, `src/types/generic/macros.rs` 842-849, `src/template/string/owned.rs` 234-241. -/
def from_str (S : Spec) (k : TypeKind) (s : Str) : Option (RResult ValidationError Str) :=
  owned_try_from_str S k s

/-- `TryFrom<$to_owned> for $from_owned` (for example `IriReferenceString` to `IriString`),
`src/types/generic/macros.rs` 1046-1057. -/
def downcast_owned (S : Spec) (k : IriKind) (s : Str) : Option (RResult CreationError Str) :=
  owned_try_from_string S (.iriLike k) s

/-- `TryFrom<&$to_slice> for &$from_slice`, `src/types/generic/macros.rs` 1034-1043. -/
def downcast (S : Spec) (k : IriKind) (s : Str) : Option (RResult ValidationError Str) :=
  try_from_str S (.iriLike k) s

/-- `AsRef<$to_slice> for $from_slice` and `From<$from_owned> for $to_owned`,
`src/types/generic/macros.rs` 988-1032: unchecked, with a `debug_assert` on the target's validator. -/
def upcast (debug : Bool) (S : Spec) (to : IriKind) (s : Str) : Option Str :=
  if debug && !((TypeKind.iriLike to).validate S s == some (.ok ())) then none else some s

/-- `PartialEq` between any two of the types, `str`, `String` and `Cow`: equality of `str`, which is
equality of the bytes.  `src/types/generic/macros.rs` 31-121, 294-299, 690-695, 861-870. -/
def str_eq (a b : Str) : Bool := utf8s a == utf8s b

/-- `PartialOrd`, `Ord`: comparison of `str`, which is lexicographic comparison of the bytes.
`src/types/generic/macros.rs` 31-121, 303-315, 699-711. -/
def str_cmp (a b : Str) : Ordering := lexCmp (utf8s a) (utf8s b)

end Verif
