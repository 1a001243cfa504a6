import Verif.Spec.Utf8
import Verif.Model.Str

/-!
# `src/parser/str.rs` at the byte level

The functions of `Model/Str.lean` again, this time exactly as the Rust text has them: a search over
the UTF-8 bytes of the haystack, then slicing of the text at the byte position found.  An outer
`none` is a slicing panic.  Property C37 relates the two levels.
-/

namespace Verif.Bytes

/-- `Iterator::position` over bytes (also the contract of `memchr::memchr{,2,3}`). -/
def position (p : Nat → Bool) : List Nat → Option Nat
  | [] => none
  | b :: r => if p b then some 0 else (position p r).map (· + 1)

/-- `Iterator::rposition` over bytes (also the contract of `memchr::memrchr{,2}`). -/
def rposition (p : Nat → Bool) : List Nat → Option Nat
  | [] => none
  | b :: r =>
    match rposition p r with
    | some n => some (n + 1)
    | none => if p b then some 0 else none

/-- `haystack.split_at(pos)` of an optional position. -/
def splitAtPos (s : Str) (pos : Option Nat) : Option (Option (Str × Str)) :=
  match pos with
  | none => some none
  | some pos => (splitAtB s pos).map some

/-- `(&haystack[..pos], haystack.as_bytes()[pos], &haystack[(pos + 1)..])` of an optional position. -/
def holeAtPos (s : Str) (pos : Option Nat) : Option (Option (Str × Nat × Str)) :=
  match pos with
  | none => some none
  | some pos => do
    let pre ← sliceTo s pos
    let b ← (utf8s s)[pos]?
    let post ← sliceFrom s (pos + 1)
    some (some (pre, b, post))

/-- `prior_byte2`, `src/parser/str.rs` 30-35. -/
def prior_byte2 (s : Str) (n1 n2 : Nat) : Option Nat := (utf8s s).find? fun b => b == n1 || b == n2

/-- `rfind`, `src/parser/str.rs` 49-51. -/
def rfind (s : Str) (n : Nat) : Option Nat := rposition (· == n) (utf8s s)

/-- `find_split`, `src/parser/str.rs` 66-71, 78-80. -/
def find_split (s : Str) (n : Nat) : Option (Option (Str × Str)) :=
  splitAtPos s (position (· == n) (utf8s s))

/-- `rfind_split2`, `src/parser/str.rs` 87-92, 99-101. -/
def rfind_split2 (s : Str) (n1 n2 : Nat) : Option (Option (Str × Str)) :=
  splitAtPos s (rposition (fun b => b == n1 || b == n2) (utf8s s))

/-- `find_split2`, `src/parser/str.rs` 108-113, 120-122. -/
def find_split2 (s : Str) (n1 n2 : Nat) : Option (Option (Str × Str)) :=
  splitAtPos s (position (fun b => b == n1 || b == n2) (utf8s s))

/-- `find_split3`, `src/parser/str.rs` 129-139, 146-154. -/
def find_split3 (s : Str) (n1 n2 n3 : Nat) : Option (Option (Str × Str)) :=
  splitAtPos s (position (fun b => b == n1 || b == n2 || b == n3) (utf8s s))

/-- `find_split_hole`, `src/parser/str.rs` 161-173, 180-188 (the byte itself is not returned). -/
def find_split_hole (s : Str) (n : Nat) : Option (Option (Str × Str)) :=
  (holeAtPos s (position (· == n) (utf8s s))).map (Option.map fun x => (x.1, x.2.2))

/-- `find_split2_hole`, `src/parser/str.rs` 195-212, 217-230. -/
def find_split2_hole (s : Str) (n1 n2 : Nat) : Option (Option (Str × Nat × Str)) :=
  holeAtPos s (position (fun b => b == n1 || b == n2) (utf8s s))

/-- `find_split4_hole`, `src/parser/str.rs` 236-255. -/
def find_split4_hole (s : Str) (n1 n2 n3 n4 : Nat) : Option (Option (Str × Nat × Str)) :=
  holeAtPos s (position (fun b => b == n1 || b == n2 || b == n3 || b == n4) (utf8s s))

/-- `find_split4_hole` with feature `memchr`, `src/parser/str.rs` 260-281: `memchr3` first, then
`memchr` in the prefix. -/
def find_split4_hole_memchr (s : Str) (n1 n2 n3 n4 : Nat) : Option (Option (Str × Nat × Str)) :=
  let bytes := utf8s s
  let pos := match position (fun b => b == n1 || b == n2 || b == n3) bytes with
    | some prefix_len => (position (· == n4) (bytes.take prefix_len)).or (some prefix_len)
    | none => position (· == n4) bytes
  holeAtPos s pos

/-- `rfind_split_hole`, `src/parser/str.rs` 286-291, 298-301. -/
def rfind_split_hole (s : Str) (n : Nat) : Option (Option (Str × Str)) :=
  (holeAtPos s (rposition (· == n) (utf8s s))).map (Option.map fun x => (x.1, x.2.2))

/-- `get_wrapped_inner`, `src/parser/str.rs` 14-24. -/
def get_wrapped_inner (s : Str) (op cl : Nat) : Option (Option Str) :=
  match utf8s s with
  | [] => some none
  | [_] => some none
  | pre :: x :: r =>
    if pre == op && (x :: r).getLast? == some cl then (slice s 1 (blen s - 1)).map some else some none

/-- `strip_ascii_char_prefix`, `src/parser/str.rs` 366-373. -/
def strip_ascii_char_prefix (s : Str) (p : Nat) : Option (Option Str) :=
  if (utf8s s).head? == some p then (sliceFrom s 1).map some else some none

/-- `starts_with_double_hexdigits`, `src/parser/str.rs` 339-344, on bytes. -/
def starts_with_double_hexdigits (bs : List Nat) : Bool :=
  match bs with
  | x :: y :: _ => isHex (Char.ofNat x) && isHex (Char.ofNat y)
  | _ => false

end Verif.Bytes
