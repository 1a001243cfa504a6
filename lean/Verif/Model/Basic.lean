/-!
# Basic types of the model

A Rust `str` is modelled as the list of its characters.  Byte lengths and byte offsets are
computed with the UTF-8 size of each character; slicing at an offset that is out of range or
inside a character is the Rust panic and is modelled by `none`.
-/

namespace Verif

/-- Rust `&str` / `String` (UTF-8 text) as a list of Unicode scalar values. -/
abbrev Str := List Char

/-- The spec type parameter `S: Spec`: `IriSpec` or `UriSpec`.
Models `src/spec.rs` lines 1-34. -/
inductive Spec
  | iri
  | uri
  deriving DecidableEq, Repr

/-- `str::len` (length in UTF-8 bytes). -/
def blen : Str → Nat
  | [] => 0
  | c :: r => c.utf8Size + blen r

/-- `str::split_at`; `none` is the panic for an offset past the end or not on a character
boundary. -/
def splitAtB : Str → Nat → Option (Str × Str)
  | s, 0 => some ([], s)
  | [], _ + 1 => none
  | c :: r, n + 1 =>
    if c.utf8Size ≤ n + 1 then
      (splitAtB r (n + 1 - c.utf8Size)).map fun p => (c :: p.1, p.2)
    else none

/-- `&s[i..]`; `none` is the panic. -/
def sliceFrom (s : Str) (i : Nat) : Option Str := (splitAtB s i).map Prod.snd

/-- `&s[..i]`; `none` is the panic. -/
def sliceTo (s : Str) (i : Nat) : Option Str := (splitAtB s i).map Prod.fst

/-- `&s[i..j]`; `none` is the panic. -/
def slice (s : Str) (i j : Nat) : Option Str :=
  if i ≤ j then (sliceTo s j).bind fun p => sliceFrom p i else none

/-- `char::is_ascii`. -/
def isAscii (c : Char) : Bool := c.toNat < 128

/-- `is_ascii_digit`. -/
def isDigit (c : Char) : Bool := 48 ≤ c.toNat && c.toNat ≤ 57

/-- `is_ascii_alphabetic`. -/
def isAlpha (c : Char) : Bool :=
  (65 ≤ c.toNat && c.toNat ≤ 90) || (97 ≤ c.toNat && c.toNat ≤ 122)

/-- `is_ascii_uppercase`. -/
def isUpper (c : Char) : Bool := 65 ≤ c.toNat && c.toNat ≤ 90

/-- `is_ascii_hexdigit`. -/
def isHex (c : Char) : Bool :=
  (48 ≤ c.toNat && c.toNat ≤ 57) || (65 ≤ c.toNat && c.toNat ≤ 70) ||
  (97 ≤ c.toNat && c.toNat ≤ 102)

/-- `char::to_ascii_lowercase`. -/
def toLower (c : Char) : Char := if isUpper c then Char.ofNat (c.toNat + 32) else c

end Verif
