import Verif.Model.Basic

/-!
# `src/parser/str.rs`

Searching for ASCII bytes is modelled on characters (that this is what the byte search in the
UTF-8 encoding does is property C37, `Verif/Props/Utf8.lean`).  The non-`memchr` variants are
modelled.
-/

namespace Verif

/-- `haystack.bytes().position(p).map(|pos| haystack.split_at(pos))`, the common shape of
`src/parser/str.rs` lines 64-155. -/
def findSplitP (p : Char → Bool) : Str → Option (Str × Str)
  | [] => none
  | c :: r => if p c then some ([], c :: r) else (findSplitP p r).map fun x => (c :: x.1, x.2)

/-- Same, but returns the text before the needle, the needle, and the text after it: the common
shape of `src/parser/str.rs` lines 161-275. -/
def findSplitHoleP (p : Char → Bool) : Str → Option (Str × Char × Str)
  | [] => none
  | c :: r => if p c then some ([], c, r) else (findSplitHoleP p r).map fun x => (c :: x.1, x.2)

/-- `haystack.bytes().rposition(p)` followed by removal of the needle: shape of
`src/parser/str.rs` lines 82-100, 281-301. -/
def rfindSplitHoleP (p : Char → Bool) : Str → Option (Str × Char × Str)
  | [] => none
  | c :: r =>
    match rfindSplitHoleP p r with
    | some x => some (c :: x.1, x.2)
    | none => if p c then some ([], c, r) else none

/-- `find_split`, `src/parser/str.rs` 64-71. -/
def find_split (s : Str) (n : Char) : Option (Str × Str) := findSplitP (· == n) s

/-- `find_split2`, `src/parser/str.rs` 108-115. -/
def find_split2 (s : Str) (n1 n2 : Char) : Option (Str × Str) :=
  findSplitP (fun c => c == n1 || c == n2) s

/-- `find_split3`, `src/parser/str.rs` 128-141. -/
def find_split3 (s : Str) (n1 n2 n3 : Char) : Option (Str × Str) :=
  findSplitP (fun c => c == n1 || c == n2 || c == n3) s

/-- `find_split_hole`, `src/parser/str.rs` 161-176. -/
def find_split_hole (s : Str) (n : Char) : Option (Str × Str) :=
  (findSplitHoleP (· == n) s).map fun x => (x.1, x.2.2)

/-- `find_split2_hole`, `src/parser/str.rs` 199-217. -/
def find_split2_hole (s : Str) (n1 n2 : Char) : Option (Str × Char × Str) :=
  findSplitHoleP (fun c => c == n1 || c == n2) s

/-- `find_split4_hole`, `src/parser/str.rs` 242-262. -/
def find_split4_hole (s : Str) (n1 n2 n3 n4 : Char) : Option (Str × Char × Str) :=
  findSplitHoleP (fun c => c == n1 || c == n2 || c == n3 || c == n4) s

/-- `rfind_split_hole`, `src/parser/str.rs` 293-298. -/
def rfind_split_hole (s : Str) (n : Char) : Option (Str × Str) :=
  (rfindSplitHoleP (· == n) s).map fun x => (x.1, x.2.2)

/-- `rfind_split2`, `src/parser/str.rs` 86-91. -/
def rfind_split2 (s : Str) (n1 n2 : Char) : Option (Str × Str) :=
  (rfindSplitHoleP (fun c => c == n1 || c == n2) s).map fun x => (x.1, x.2.1 :: x.2.2)

/-- `get_wrapped_inner`, `src/parser/str.rs` 14-24.  `open`/`close` are ASCII.  The byte pattern
`[prefix, suffix] | [prefix, .., suffix]` (at least two bytes) with both ends ASCII is the same
as: at least two characters. -/
def get_wrapped_inner (s : Str) (op cl : Char) : Option Str :=
  match s with
  | [] => none
  | c :: r =>
    match r.reverse with
    | [] => none
    | d :: m => if c == op && d == cl then some m.reverse else none

/-- `strip_ascii_char_prefix`, `src/parser/str.rs` 366-373. -/
def strip_ascii_char_prefix (s : Str) (p : Char) : Option Str :=
  match s with
  | c :: r => if c == p then some r else none
  | [] => none

/-- `str::strip_prefix(&str)`. -/
def strip_prefix : Str → Str → Option Str
  | s, [] => some s
  | [], _ :: _ => none
  | c :: s, p :: ps => if c == p then strip_prefix s ps else none

/-- `str::starts_with(&str)`. -/
def starts_with (s p : Str) : Bool := (strip_prefix s p).isSome

/-- `satisfy_chars_with_pct_encoded`, `src/parser/str.rs` 305-335. -/
def satisfy_chars_with_pct_encoded (pred_ascii pred_nonascii : Char → Bool) : Str → Bool
  | [] => true
  | c :: r =>
    if isAscii c then
      if c == '%' then
        match r with
        | h :: l :: r' =>
          isHex h && isHex l && satisfy_chars_with_pct_encoded pred_ascii pred_nonascii r'
        | _ => false
      else pred_ascii c && satisfy_chars_with_pct_encoded pred_ascii pred_nonascii r
    else pred_nonascii c && satisfy_chars_with_pct_encoded pred_ascii pred_nonascii r

/-- `starts_with_double_hexdigits`, `src/parser/str.rs` 339-344 (on text; a byte of a multi-byte
character is not a hex digit, just like the character). -/
def starts_with_double_hexdigits (s : Str) : Bool :=
  match s with
  | x :: y :: _ => isHex x && isHex y
  | _ => false

end Verif
