import Verif.Model.Types
import Verif.Model.Edit
import Verif.Model.Encode
import Verif.Model.Normalize

/-!
# A value and the methods that modify or convert it

A value of one of the eight owned types `{Iri,Uri}{Reference,,Absolute,Relative}String`, and one step of
its life: a call of a method that takes `&mut self` or `self`, or a method whose result is again a value of
one of these types.  A method that a type does not have leaves the value alone.  `none` is a panic.
-/

namespace Verif

/-- An owned value: its spec (`IriSpec`, `UriSpec`), its type and its text. -/
structure Val where
  spec : Spec
  kind : IriKind
  text : Str
  deriving DecidableEq, Repr

/-- The methods. -/
inductive Call
  | set_fragment (f : Option Str)
  | replace_host (new : Str)
  | replace_host_reg_name (new : Str)
  | remove_password_inline
  | remove_nonempty_password_inline
  | mask_password
  | encode_to_uri_inline
  | encode_into_uri
  | try_into_uri
  | into_iri_spec
  | into_reference
  | into_iri
  | into_absolute
  | normalize
  | normalize_preserve
  | resolve_against (mode : NormalizationMode) (base : Str)
  deriving DecidableEq, Repr

/-- The debug assertion that a value is valid for its type: `new_unchecked_justified`,
`src/types/generic/macros.rs` 248-259, 613-624; `set_fragment`, `src/types/generic/{normal,reference,relative}.rs`
867, 632, 479. -/
def Val.asserted (debug : Bool) (v : Val) : Option Val :=
  if debug && v.kind.validate v.spec v.text != some true then none else some v

/-- A call.  The methods are those cited at the functions used here: `set_fragment` (not on absolute
IRIs), `src/types/generic/{normal,reference,relative}.rs` 865, 630, 477; `replace_host`,
`replace_host_reg_name`, `remove_password_inline`, `remove_nonempty_password_inline` in the same files;
`mask_password().to_dedicated_string()`, `src/mask_password.rs` 202-223; `encode_to_uri_inline` (with its
debug assertion), `encode_into_uri` (that of `new_unchecked_justified`) and `try_into_uri`,
`src/types/iri.rs` 179-182, 213-226, 283-296, 319-335; the conversion of URI types into IRI types,
`src/types/uri.rs` 80-85; the conversions between the types of one spec, `src/types/generic/macros.rs` 16-26;
`into_iri` of a reference (its `Err` is a relative reference), `src/types/generic/reference.rs` 586-615;
`into_absolute`, `src/types/generic/normal.rs` 850-855; `normalize().to_dedicated_string()` and its variant;
`resolve_against(base)`, the options of the result, and `to_dedicated_string`,
`src/types/generic/reference.rs` 191-193, `relative.rs` 141-143. -/
def Val.step (debug : Bool) (v : Val) : Call → Option Val
  | .set_fragment f =>
    if v.kind = .absolute then some v
    else { v with text := RiString.set_fragment v.text f }.asserted debug
  | .replace_host new =>
    (Verif.replace_host debug v.spec v.kind v.text new).map fun r => { v with text := r.1 }
  | .replace_host_reg_name new =>
    (Verif.replace_host_reg_name debug v.spec v.kind v.text new).map fun r => { v with text := r.1 }
  | .remove_password_inline =>
    (Verif.remove_password_inline debug v.spec v.kind v.text).map fun t => { v with text := t }
  | .remove_nonempty_password_inline =>
    (Verif.remove_nonempty_password_inline debug v.spec v.kind v.text).map fun t => { v with text := t }
  | .mask_password =>
    (mask_password_dedicated v.text).bind fun t =>
      { v with text := t }.asserted debug
  | .encode_to_uri_inline =>
    if v.spec = .uri then some v
    else (Verif.encode_to_uri_inline v.text).bind fun t =>
      { v with text := t }.asserted debug
  | .encode_into_uri =>
    if v.spec = .uri then some v
    else (Verif.encode_to_uri_inline v.text).bind fun t =>
      { v with spec := .uri, text := t }.asserted debug
  | .try_into_uri =>
    match as_uri v.text with
    | some t => { v with spec := .uri, text := t }.asserted debug
    | none => some v
  | .into_iri_spec => if v.spec = .iri then some v else { v with spec := .iri }.asserted debug
  | .into_reference => if v.kind = .reference then some v else { v with kind := .reference }.asserted debug
  | .into_iri =>
    match v.kind with
    | .absolute => { v with kind := .iri }.asserted debug
    | .reference =>
      match RiReferenceStr.to_iri v.text with
      | .inl t => { v with kind := .iri, text := t }.asserted debug
      | .inr t => { v with kind := .relative, text := t }.asserted debug
    | _ => some v
  | .into_absolute =>
    if v.kind = .iri then { v with kind := .absolute, text := RiString.into_absolute v.text }.asserted debug
    else some v
  | .normalize =>
    if v.kind = .iri ∨ v.kind = .absolute then
      (Verif.normalize v.spec v.text).bind fun t =>
        { v with text := t }.asserted debug
    else some v
  | .normalize_preserve =>
    if v.kind = .iri ∨ v.kind = .absolute then
      (normalize_but_preserve_authorityless_relative_path v.spec v.text).bind fun t =>
        { v with text := t }.asserted debug
    else some v
  | .resolve_against mode base =>
    if v.kind = .reference ∨ v.kind = .relative then
      (resolve v.spec mode base v.text).bind fun t =>
        { v with kind := .iri, text := t }.asserted debug
    else some v

end Verif
