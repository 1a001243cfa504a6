import Verif.Model.Basic

/-!
# `src/parser/char.rs` and `src/spec/internal.rs`: character classes
-/

namespace Verif

/-- `TABLE`, `src/parser/char.rs` 38-167 (mechanically extracted from the source text). -/
def TABLE : List Nat := [
  0x00, 0x00, 0x00, 0x00, 0x00, 0x00, 0x00, 0x00,
  0x00, 0x00, 0x00, 0x00, 0x00, 0x00, 0x00, 0x00,
  0x00, 0x00, 0x00, 0x00, 0x00, 0x00, 0x00, 0x00,
  0x00, 0x00, 0x00, 0x00, 0x00, 0x00, 0x00, 0x00,
  0x00, 0xF8, 0x00, 0x04, 0xF8, 0x00, 0xF8, 0xF8,
  0xF8, 0xF8, 0xF8, 0xF9, 0xF8, 0xF3, 0xF3, 0xA4,
  0xF3, 0xF3, 0xF3, 0xF3, 0xF3, 0xF3, 0xF3, 0xF3,
  0xF3, 0xF3, 0xF4, 0xF8, 0x00, 0xF8, 0x00, 0x24,
  0xB4, 0xF3, 0xF3, 0xF3, 0xF3, 0xF3, 0xF3, 0xF3,
  0xF3, 0xF3, 0xF3, 0xF3, 0xF3, 0xF3, 0xF3, 0xF3,
  0xF3, 0xF3, 0xF3, 0xF3, 0xF3, 0xF3, 0xF3, 0xF3,
  0xF3, 0xF3, 0xF3, 0x04, 0x00, 0x04, 0x00, 0xF2,
  0x00, 0xF3, 0xF3, 0xF3, 0xF3, 0xF3, 0xF3, 0xF3,
  0xF3, 0xF3, 0xF3, 0xF3, 0xF3, 0xF3, 0xF3, 0xF3,
  0xF3, 0xF3, 0xF3, 0xF3, 0xF3, 0xF3, 0xF3, 0xF3,
  0xF3, 0xF3, 0xF3, 0x00, 0x00, 0x00, 0xF2, 0x00]

/-- `(TABLE[c as usize] & mask) != 0`.  The Rust functions are only called with ASCII bytes;
outside the table (a Rust panic) the model answers `false`. -/
def tableTest (mask : Nat) (c : Char) : Bool := (TABLE.getD c.toNat 0) &&& mask != 0

/-- `is_ascii_scheme_continue`, `src/parser/char.rs` 172-174 (mask `1 << 0`, line 7). -/
def is_ascii_scheme_continue : Char → Bool := tableTest 1

/-- `is_ascii_unreserved`, `src/parser/char.rs` 179-181 (mask `1 << 1`, line 11). -/
def is_ascii_unreserved : Char → Bool := tableTest 2

/-- `is_ascii_pchar`, `src/parser/char.rs` 218-220 (mask `1 << 4`, line 23). -/
def is_ascii_pchar : Char → Bool := tableTest 16

/-- `is_ascii_frag_query`, `src/parser/char.rs` 225-227 (mask `1 << 5`, line 28). -/
def is_ascii_frag_query : Char → Bool := tableTest 32

/-- `is_ascii_userinfo_ipvfutureaddr`, `src/parser/char.rs` 246-248 (mask `1 << 6`, line 32). -/
def is_ascii_userinfo_ipvfutureaddr : Char → Bool := tableTest 64

/-- `is_ascii_regname`, `src/parser/char.rs` 260-262 (masks `1 << 1 | 1 << 3`). -/
def is_ascii_regname : Char → Bool := tableTest (2 ||| 8)

/-- `is_ascii_pchar_slash`, `src/parser/char.rs` 274-276 (mask `1 << 7`, line 35). -/
def is_ascii_pchar_slash : Char → Bool := tableTest 128

/-- `is_ascii_unreserved_or_reserved`, `src/parser/char.rs` 320-322. -/
def is_ascii_unreserved_or_reserved : Char → Bool := tableTest (2 ||| 4 ||| 8)

/-- `lo..=hi` range pattern on `u32::from(c)`. -/
def inRange (lo hi : Nat) (c : Char) : Bool := lo ≤ c.toNat && c.toNat ≤ hi

/-- `is_ucschar`, `src/parser/char.rs` 280-301. -/
def is_ucschar (c : Char) : Bool :=
  inRange 0xA0 0xD7FF c ||
  inRange 0xF900 0xFDCF c ||
  inRange 0xFDF0 0xFFEF c ||
  inRange 0x10000 0x1FFFD c ||
  inRange 0x20000 0x2FFFD c ||
  inRange 0x30000 0x3FFFD c ||
  inRange 0x40000 0x4FFFD c ||
  inRange 0x50000 0x5FFFD c ||
  inRange 0x60000 0x6FFFD c ||
  inRange 0x70000 0x7FFFD c ||
  inRange 0x80000 0x8FFFD c ||
  inRange 0x90000 0x9FFFD c ||
  inRange 0xA0000 0xAFFFD c ||
  inRange 0xB0000 0xBFFFD c ||
  inRange 0xC0000 0xCFFFD c ||
  inRange 0xD0000 0xDFFFD c ||
  inRange 0xE1000 0xEFFFD c

/-- `SpecInternal::is_nonascii_char_unreserved`, `src/spec/internal.rs` 33-36 and 49-52. -/
def Spec.is_nonascii_char_unreserved : Spec → Char → Bool
  | .iri, c => is_ucschar c
  | .uri, _ => false

/-- `SpecInternal::is_nonascii_char_private`, `src/spec/internal.rs` 38-45 and 54-57. -/
def Spec.is_nonascii_char_private : Spec → Char → Bool
  | .iri, c => inRange 0xE000 0xF8FF c || inRange 0xF0000 0xFFFFD c || inRange 0x100000 0x10FFFD c
  | .uri, _ => false

/-- `is_unreserved`, `src/parser/char.rs` 186-192. -/
def is_unreserved (S : Spec) (c : Char) : Bool :=
  if isAscii c then is_ascii_unreserved c else S.is_nonascii_char_unreserved c

/-- `is_nonascii_query`, `src/parser/char.rs` 232-234. -/
def is_nonascii_query (S : Spec) (c : Char) : Bool :=
  S.is_nonascii_char_unreserved c || S.is_nonascii_char_private c

/-- `is_nonascii_fragment`, `src/parser/char.rs` 239-241. -/
def is_nonascii_fragment (S : Spec) (c : Char) : Bool := S.is_nonascii_char_unreserved c

/-- `is_nonascii_userinfo`, `src/parser/char.rs` 253-255. -/
def is_nonascii_userinfo (S : Spec) (c : Char) : Bool := S.is_nonascii_char_unreserved c

/-- `is_nonascii_regname`, `src/parser/char.rs` 267-269. -/
def is_nonascii_regname (S : Spec) (c : Char) : Bool := S.is_nonascii_char_unreserved c

end Verif
