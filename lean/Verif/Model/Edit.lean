import Verif.Model.Types
import Verif.Model.Validate

/-!
# Passwords and hosts: `src/mask_password.rs`, `replace_domain_impl` of `src/types/generic.rs`, and
the in-place methods of `src/types/generic/{reference,normal,absolute,relative}.rs`

`none` is a panic.  `debug` is `cfg(debug_assertions)`: whether `debug_assert!` is compiled in.
Memory allocation does not fail.
-/

namespace Verif

/-- The four string types: `RiReferenceStr`, `RiStr`, `RiAbsoluteStr`, `RiRelativeStr`. -/
inductive IriKind
  | reference
  | iri
  | absolute
  | relative
  deriving DecidableEq, Repr

/-- `Self::validate` of the type, `src/types/generic/{reference,normal,absolute,relative}.rs`
(`impl_custom_slice_spec`/`validator = ...` of the type definitions). -/
def IriKind.validate (S : Spec) : IriKind → Str → Option Bool
  | .reference => validate_uri_reference S
  | .iri => validate_uri S
  | .absolute => validate_absolute_uri S
  | .relative => validate_relative_ref S

/-- `str::find(&str)`: byte offset of the first occurrence. -/
def findStr (s pat : Str) : Option Nat :=
  if starts_with s pat then some 0
  else
    match s with
    | [] => none
    | c :: r => (findStr r pat).map (· + c.utf8Size)

/-- `str::find(char)`: byte offset of the first occurrence. -/
def findChar (s : Str) (d : Char) : Option Nat :=
  match s with
  | [] => none
  | c :: r => if c == d then some 0 else (findChar r d).map (· + c.utf8Size)

/-- `String::drain(i..j)` and `String::replace_range(i..j, new)`: panics like slicing. -/
def replaceRange (s : Str) (i j : Nat) (new : Str) : Option Str :=
  if i ≤ j then do
    let a ← sliceTo s i
    let b ← sliceFrom s j
    some (a ++ (new ++ b))
  else none

/-- `password_range_to_hide`, `src/mask_password.rs` 22-39; the outer `none` is a panic. -/
def password_range_to_hide (iri : Str) : Option (Option (Nat × Nat)) :=
  match AuthorityComponents.from_iri iri with
  | none => some none
  | some authority_components => do
    let userinfo ← authority_components.userinfo
    match userinfo with
    | none => some none
    | some userinfo => do
      let authority_start ← findStr iri ['/', '/']
      let authority_start := 2 + authority_start
      let e := authority_start + blen userinfo
      let start := authority_start +
        (match findChar userinfo ':' with
          | none => blen userinfo
          | some v => v + 1)
      some (some (start, e))

/-- `write_with_masked_password`, `src/mask_password.rs` 42-60 (the text written; the two slices
are the only panics). -/
def write_with_masked_password (s : Str) (st e : Nat) (alt : Str) : Option Str := do
  let a ← sliceTo s st
  let b ← sliceFrom s e
  some (a ++ (alt ++ b))

/-- `mask_password()` displayed, `src/mask_password.rs` 62-65, 180-189, of the types:
`src/types/generic/normal.rs` 524-526, `reference.rs` 218-220, `relative.rs` 168-170, `absolute.rs` 437-439. -/
def mask_password (s : Str) : Option Str := do
  match ← password_range_to_hide s with
  | some (st, e) => write_with_masked_password s st e []
  | none => some s

/-- `mask_password().to_dedicated_string()`, `src/mask_password.rs` 200-224 (text of the string). -/
def mask_password_dedicated (s : Str) : Option Str := do
  match ← password_range_to_hide s with
  | none => some s
  | some (st, e) => do
    let a ← sliceTo s st
    let b ← sliceFrom s e
    some (a ++ b)

/-- `mask_password().replace_password_with(replace)` displayed (`replace_password(alt)` is the
constant function), `src/mask_password.rs` 133-138, 169-178, 262-273, 279-288. -/
def replace_password_with (s : Str) (replace : Str → Str) : Option Str := do
  match ← password_range_to_hide s with
  | some (st, e) => do
    let pw ← slice s st e
    write_with_masked_password s st e (replace pw)
  | none => some s

/-- `remove_password_inline`, `src/types/generic/normal.rs` 899-917 (same code in
`reference.rs` 664-682, `absolute.rs` 653-671, `relative.rs` 511-529).  The result is the text after
the call. -/
def remove_password_inline (debug : Bool) (S : Spec) (k : IriKind) (s : Str) : Option Str := do
  match ← password_range_to_hide s with
  | none => some s
  | some (st, e) => do
    let separator_colon := st - 1
    let buf ← replaceRange s separator_colon e []
    if debug && k.validate S buf != some true then none else some buf

/-- `remove_nonempty_password_inline`, `src/types/generic/normal.rs` 949-971 (same code in
`reference.rs` 714-737, `absolute.rs` 703-724, `relative.rs` 561-584).  The debug assertion that the
byte before the range is `:` is modelled by "the text before the range ends with `:`". -/
def remove_nonempty_password_inline (debug : Bool) (S : Spec) (k : IriKind) (s : Str) :
    Option Str := do
  match ← password_range_to_hide s with
  | none => some s
  | some (st, e) =>
    if e ≤ st then some s
    else do
      let pre ← sliceTo s st
      if debug && pre.getLast? != some ':' then none
      else do
        let buf ← replaceRange s st e []
        if debug && k.validate S buf != some true then none else some buf

/-- `replace_domain_impl`, `src/types/generic.rs` 59-103: the text after the call, and the range
returned. -/
def replace_domain_impl (S : Spec) (iri_ref new_host : Str) (replace_only_reg_name : Bool) :
    Option (Str × Option (Nat × Nat)) :=
  match AuthorityComponents.from_iri_get_offset iri_ref with
  | none => some (iri_ref, none)
  | some (authority, offset) => do
    let old_host ← authority.host
    let host_start := offset + authority.host_start
    let old_host_end := host_start + blen old_host
    if !validate_host S new_host then some (iri_ref, none)
    else if replace_only_reg_name && !is_host_reg_name old_host then some (iri_ref, none)
    else do
      let iri_ref ← replaceRange iri_ref host_start old_host_end new_host
      let new_host_end := host_start + blen new_host
      some (iri_ref, some (host_start, new_host_end))

/-- The type whose validator the debug assertion of `try_replace_host_impl` uses:
`src/types/generic/normal.rs` 992-996 (`RiAbsoluteStr`), `reference.rs` 758-762,
`absolute.rs` 745-749, `relative.rs` 605-609. -/
def IriKind.replaceHostAssertion : IriKind → IriKind
  | .reference => .reference
  | .iri => .absolute
  | .absolute => .absolute
  | .relative => .relative

/-- `try_replace_host_impl`, `src/types/generic/normal.rs` 979-1000 (same code in the other types
but for the debug assertion): the text after the call, and the new host returned. -/
def try_replace_host_impl (debug : Bool) (S : Spec) (k : IriKind) (s new_host : Str)
    (replace_only_reg_name : Bool) : Option (Str × Option Str) := do
  let (strbuf, result) ← replace_domain_impl S s new_host replace_only_reg_name
  if debug && k.replaceHostAssertion.validate S strbuf != some true then none
  else
    match result with
    | none => some (strbuf, none)
    | some (st, e) => (slice strbuf st e).map fun h => (strbuf, some h)

/-- `replace_host` / `try_replace_host`, `src/types/generic/normal.rs` 1025-1037, `reference.rs` 791-803,
`relative.rs` 638-650, `absolute.rs` 778-790. -/
def replace_host (debug : Bool) (S : Spec) (k : IriKind) (s new_host : Str) :
    Option (Str × Option Str) := try_replace_host_impl debug S k s new_host false

/-- `replace_host_reg_name` / `try_replace_host_reg_name`, `src/types/generic/normal.rs`
1108-1124, `reference.rs` 874-890, `relative.rs` 721-737, `absolute.rs` 861-877. -/
def replace_host_reg_name (debug : Bool) (S : Spec) (k : IriKind) (s new_host : Str) :
    Option (Str × Option Str) := try_replace_host_impl debug S k s new_host true

end Verif
