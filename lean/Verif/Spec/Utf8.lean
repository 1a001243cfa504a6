import Verif.Model.Basic

/-!
# UTF-8 (RFC 3629 section 3)

Specification file (only the type `Str` is imported from the model).  A byte is a `Nat` below 256.
-/

namespace Verif

/-- The UTF-8 encoding of a scalar value. -/
def utf8 (c : Char) : List Nat :=
  let v := c.toNat
  if v < 0x80 then [v]
  else if v < 0x800 then [0xC0 + v / 64, 0x80 + v % 64]
  else if v < 0x10000 then [0xE0 + v / 4096, 0x80 + v / 64 % 64, 0x80 + v % 64]
  else [0xF0 + v / 262144, 0x80 + v / 4096 % 64, 0x80 + v / 64 % 64, 0x80 + v % 64]

/-- The UTF-8 encoding of a text. -/
def utf8s (s : Str) : List Nat := s.flatMap utf8

end Verif
