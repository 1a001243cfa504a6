import Verif.Model.Components

/-!
# `src/types/generic/*`: accessors, conversions and fragment editing of the string types

A value of `RiStr<S>` etc. is the underlying text; the type invariant is "the type's validator
accepts the text".  `Option` results: an outer `none` is a panic.
-/

namespace Verif

/-! ## `RiReferenceStr`, `src/types/generic/reference.rs` -/

/-- `scheme_str`, `src/types/generic/reference.rs` 250-252. -/
def RiReferenceStr.scheme_str (s : Str) : Option Str := extract_scheme s
/-- `authority_str`, `src/types/generic/reference.rs` 288-290. -/
def RiReferenceStr.authority_str (s : Str) : Option Str := extract_authority s
/-- `path_str`, `src/types/generic/reference.rs` 324-326. -/
def RiReferenceStr.path_str (s : Str) : Str := extract_path s
/-- `query_str` (and `query`), `src/types/generic/reference.rs` 364-375, 412-414. -/
def RiReferenceStr.query_str (s : Str) : Option (Option Str) := extract_query s
/-- `fragment_str` (and `fragment`), `src/types/generic/reference.rs` 474-485, 542-544. -/
def RiReferenceStr.fragment_str (s : Str) : Option Str := extract_fragment s
/-- `authority_components`, `src/types/generic/reference.rs` 573-575, `normal.rs` 759-761, `relative.rs`
429-431, `absolute.rs` 617-619. -/
def RiReferenceStr.authority_components (s : Str) : Option AuthorityComponents :=
  AuthorityComponents.from_iri s

/-- `to_iri` (`into_iri` for the owned type), `src/types/generic/reference.rs` 112-143, 586-615:
`inl` is `Ok(RiStr)`, `inr` is `Err(RiRelativeStr)`. -/
def RiReferenceStr.to_iri (s : Str) : Str ⊕ Str :=
  if (extract_scheme s).isSome then .inl s else .inr s

/-- `to_relative_iri`, `src/types/generic/reference.rs` 152-157, 620-625: `inl` is
`Ok(RiRelativeStr)`. -/
def RiReferenceStr.to_relative_iri (s : Str) : Str ⊕ Str :=
  match RiReferenceStr.to_iri s with
  | .inl iri => .inr iri
  | .inr relative => .inl relative

/-! ## `RiStr`, `src/types/generic/normal.rs` -/

/-- `scheme_str`, `src/types/generic/normal.rs` 547-549. -/
def RiStr.scheme_str (s : Str) : Option Str := extract_scheme_absolute s
/-- `authority_str`, `src/types/generic/normal.rs` 576-578. -/
def RiStr.authority_str (s : Str) : Option (Option Str) := extract_authority_absolute s
/-- `path_str`, `src/types/generic/normal.rs` 603-605. -/
def RiStr.path_str (s : Str) : Option Str := extract_path_absolute s
/-- `query_str`, `src/types/generic/normal.rs` 662-664. -/
def RiStr.query_str (s : Str) : Option (Option Str) := extract_query s
/-- `fragment_str`, `src/types/generic/normal.rs` 728-730. -/
def RiStr.fragment_str (s : Str) : Option Str := RiReferenceStr.fragment_str s

/-- `to_absolute_and_fragment`, `src/types/generic/normal.rs` 154-174. -/
def RiStr.to_absolute_and_fragment (s : Str) : Str × Option Str := split_fragment s
/-- `to_absolute`, `src/types/generic/normal.rs` 196-206; `none` is a panic. -/
def RiStr.to_absolute (s : Str) : Option Str := sliceTo s (blen (split_fragment s).1)
/-- `RiString::into_absolute_and_fragment`, `src/types/generic/normal.rs` 807-828; `none` is a
panic. -/
def RiString.into_absolute_and_fragment (s : Str) : Option (Str × Option Str) :=
  split_fragment_owned s
/-- `RiString::into_absolute`, `src/types/generic/normal.rs` 850-860. -/
def RiString.into_absolute (s : Str) : Str := remove_fragment s
/-- `RiString::set_fragment`, `src/types/generic/normal.rs` 865-868 (same code in
`reference.rs` 630-633 and `relative.rs` 477-480). -/
def RiString.set_fragment (s : Str) (f : Option Str) : Str := Verif.set_fragment s f

/-! ## `RiAbsoluteStr`, `src/types/generic/absolute.rs` -/

/-- `scheme_str`, `src/types/generic/absolute.rs` 460-462. -/
def RiAbsoluteStr.scheme_str (s : Str) : Option Str := extract_scheme_absolute s
/-- `authority_str`, `src/types/generic/absolute.rs` 489-491. -/
def RiAbsoluteStr.authority_str (s : Str) : Option (Option Str) := extract_authority_absolute s
/-- `path_str`, `src/types/generic/absolute.rs` 516-518. -/
def RiAbsoluteStr.path_str (s : Str) : Option Str := extract_path_absolute s
/-- `query_str` (and `query`), `src/types/generic/absolute.rs` 546-558, 586-588. -/
def RiAbsoluteStr.query_str (debug : Bool) (s : Str) : Option (Option Str) :=
  extract_query_absolute_iri debug s

/-! ## `RiRelativeStr`, `src/types/generic/relative.rs` -/

/-- `authority_str`, `src/types/generic/relative.rs` 200-202. -/
def RiRelativeStr.authority_str (s : Str) : Option Str := extract_authority_relative s
/-- `path_str`, `src/types/generic/relative.rs` 227-229. -/
def RiRelativeStr.path_str (s : Str) : Str := extract_path_relative s
/-- `query_str`, `src/types/generic/relative.rs` 297-299. -/
def RiRelativeStr.query_str (s : Str) : Option (Option Str) := extract_query s
/-- `fragment_str`, `src/types/generic/relative.rs` 398-400. -/
def RiRelativeStr.fragment_str (s : Str) : Option Str := extract_fragment s

/-! ## `RiQueryStr`, `RiFragmentStr` -/

/-- `RiQueryStr::from_prefixed`, `src/types/generic/query.rs` 104-109: `some` is the accepted
text, `none` is `Err` (`&s[1..]` cannot panic after `starts_with('?')`). -/
def RiQueryStr.from_prefixed (S : Spec) (s : Str) : Option Str :=
  match s with
  | '?' :: r => if validate_query S r then some r else none
  | _ => none

/-- `RiFragmentStr::from_prefixed`, `src/types/generic/fragment.rs` 100-105. -/
def RiFragmentStr.from_prefixed (S : Spec) (s : Str) : Option Str :=
  match s with
  | '#' :: r => if validate_fragment S r then some r else none
  | _ => none

end Verif
