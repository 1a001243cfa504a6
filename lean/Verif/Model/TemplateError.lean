import Verif.Model.Template
import Verif.Model.Encode
import Verif.Spec.Lit

/-!
# `src/template/error.rs`, and construction of templates from bytes
-/

namespace Verif.Tpl

/-- `ErrorKind::as_str`, `src/template/error.rs` 29-44. -/
def ErrorKind.as_str : ErrorKind → Str
  | .writeFailed => chars! "failed to write to the backend writer"
  | .expressionNotClosed => chars! "expression not closed"
  | .invalidCharacter => chars! "invalid character"
  | .invalidExpression => chars! "invalid expression"
  | .invalidPercentEncoding => chars! "invalid percent-encoded triplets"
  | .invalidUtf8 => chars! "invalid utf-8 byte sequence"
  | .unexpectedValueType => chars! "unexpected value type for the variable"
  | .unsupportedOperator => chars! "unsupported operator"

/-- `Display for usize` (standard library): decimal, without leading zeros. -/
def displayNat (n : Nat) : Str := Nat.toDigits 10 n

/-- `Display for Error`, `src/template/error.rs` 80-90 (and of `CreationError`, 147-151). -/
def errorMessage (kind : ErrorKind) (location : Nat) : Str :=
  chars! "invalid URI template: " ++ kind.as_str ++ chars! " (at " ++ displayNat location ++
    chars! "-th byte)"

/-- `Utf8Error::valid_up_to` (standard library): the number of bytes that decode. -/
def valid_up_to : Nat → List Nat → Nat
  | 0, _ => 0
  | fuel + 1, bs =>
    match decodeOne bs with
    | none => 0
    | some (_, r) => (bs.length - r.length) + valid_up_to fuel r

/-- `TryFrom<&[u8]> for &UriTemplateStr`, `src/template/string.rs` 485-497 (and for
`UriTemplateString`, `src/template/string/owned.rs` 207-216). -/
def template_try_from_bytes (bytes : List Nat) : Res Str :=
  match from_utf8 bytes with
  | none => .err .invalidUtf8 (valid_up_to bytes.length bytes)
  | some s => (validate_template_str s).bind fun _ => .ok s

/-- `TryFrom<String> for UriTemplateString`, `src/template/string/owned.rs` 218-232:
`CreationError { source, error }` is the pair of the source with the error. -/
def template_try_from_string (s : Str) : Option (Except (Str × ErrorKind × Nat) Str) :=
  match validate_template_str s with
  | .panic => none
  | .ok () => some (.ok s)
  | .err k l => some (.error (s, k, l))

end Verif.Tpl
