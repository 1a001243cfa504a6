import Verif.Model.Chars
import Verif.Model.Str
import Verif.Spec.Utf8

/-!
# `src/normalize/pct_case.rs` and the percent-triplet helpers of `src/parser/trusted.rs`

A `Display` implementation is modelled by the text it writes; `none` is a panic.  The two `while`
loops take a fuel argument that bounds the number of iterations; the initial fuel is the number of
characters plus one and running out of it would be `none` (it is proved not to happen).
-/

namespace Verif

/-- `cfg(overflow_checks)`: whether the crate is built with overflow checks (by default, in debug
builds).  The constant is opaque: no proof can use its value, so what is proved is proved for both kinds
of build. -/
opaque overflowChecks : Bool

/-- `a + b` on `u8`: an overflow is a panic with overflow checks, and wraps without them. -/
def u8add (a b : Nat) : Option Nat :=
  if 256 ≤ a + b && overflowChecks then none else some ((a + b) % 256)

/-- `hexdigits_to_byte`, `src/parser/trusted.rs` 433-440.  `upper << 4` drops the high bits (in every
build); `none` is a panic, when an addition overflows. -/
def hexdigits_to_byte (upper lower : Nat) : Option Nat :=
  let upper_offset := if upper ≥ 0x40 then 9 * 16 else 0
  let lower_offset := if lower ≥ 0x40 then 9 else 0
  (u8add (upper * 16 % 256) upper_offset).bind fun v =>
    (u8add v (lower % 16)).bind fun v => u8add v lower_offset

/-- `take_xdigits2` on a `str`, `src/parser/trusted.rs` 447-457: the first two *bytes* are decoded
(fewer than two is a panic), then `&s[2..]`. -/
def take_xdigits2 (s : Str) : Option (Nat × Str) :=
  match utf8s s with
  | upper :: lower :: _ => (hexdigits_to_byte upper lower).bind fun v => (sliceFrom s 2).map fun r => (v, r)
  | _ => none

/-- `is_ascii_only_host`, `src/parser/trusted.rs` 465-481; `none` is a panic. -/
def is_ascii_only_host_go : Nat → Str → Option Bool
  | 0, _ => none
  | fuel + 1, host =>
    match findSplitHoleP (fun c => !isAscii c || c == '%') host with
    | none => some true
    | some (_, c, after_pct) =>
      if c != '%' then some false
      else
        match take_xdigits2 after_pct with
        | none => none
        | some (byte, rest) => if byte < 128 then is_ascii_only_host_go fuel rest else some false

def is_ascii_only_host (host : Str) : Option Bool := is_ascii_only_host_go (host.length + 1) host

/-- Upper-case hexadecimal digit of `{:02X}`. -/
def hexU (n : Nat) : Char := Char.ofNat (if n < 10 then 48 + n else 55 + n)

/-- `write!(f, "%{:02X}", b)`. -/
def writePct (b : Nat) : Str := ['%', hexU (b / 16), hexU (b % 16)]

/-- `is_utf8_byte_continue`, `src/parser/char.rs` 306-316: `(byte as i8) < -64`. -/
def is_utf8_byte_continue (b : Nat) : Bool :=
  (if b < 128 then (b : Int) else (b : Int) - 256) < -64

/-- `char::from_u32`. -/
def charFromU32 (n : Nat) : Option Char := if n.isValidChar then some (Char.ofNat n) else none

/-- `into_char_trusted`, `src/normalize/pct_case.rs` 26-59.  Outer `none` is the `unreachable!`
panic, inner `none` is `Err(())`. -/
def into_char_trusted (bytes : List Nat) : Option (Option Char) :=
  match bytes with
  | [b0, b1] =>
    let c := ((b0 &&& 0b00011111) <<< 6) ||| (b1 &&& 0b00111111)
    some (if c < 0x80 then none else charFromU32 c)
  | [b0, b1, b2] =>
    let c := ((b0 &&& 0b00001111) <<< 12) ||| ((b1 &&& 0b00111111) <<< 6) ||| (b2 &&& 0b00111111)
    some (if c < 0x800 then none else charFromU32 c)
  | [b0, b1, b2, b3] =>
    let c := ((b0 &&& 0b00000111) <<< 18) ||| ((b1 &&& 0b00111111) <<< 12) |||
      ((b2 &&& 0b00111111) <<< 6) ||| (b3 &&& 0b00111111)
    some (if c < 0x10000 then none else charFromU32 c)
  | _ => none

/-- How the scan for continuation bytes ends, `src/normalize/pct_case.rs` 132-174. -/
inductive ContRes
  /-- all expected bytes were read: `c_buf` and `rest` -/
  | full (buf : List Nat) (rest : Str)
  /-- `continue 'outer_loop` after writing `out` -/
  | again (out : Str) (rest : Str)
  /-- `break 'outer_loop` after writing `out` -/
  | stop (out : Str)
  deriving DecidableEq, Repr

/-- The `for` loop over `c_buf[1..]`, `src/normalize/pct_case.rs` 132-174.  `n` is the number of
bytes still to read, `buf` the part of `c_buf` already filled. -/
def takeCont : Nat → List Nat → Str → Option ContRes
  | 0, buf, rest => some (.full buf rest)
  | n + 1, buf, rest =>
    match rest with
    | [] => some (.stop (buf.flatMap writePct))
    | c :: after =>
      if c == '%' then
        match take_xdigits2 after with
        | none => none
        | some (byte, after_triplet) =>
          if !is_utf8_byte_continue byte then some (.again (buf.flatMap writePct) rest)
          else takeCont n (buf ++ [byte]) after_triplet
      else some (.again (buf.flatMap writePct ++ [c]) after)

/-- `expected_char_len`, `src/normalize/pct_case.rs` 107-130; `none` for the two arms that
`continue` at once. -/
def expectedLen (b : Nat) : Option Nat :=
  if 0xC2 ≤ b ∧ b ≤ 0xDF then some 2
  else if 0xE0 ≤ b ∧ b ≤ 0xEF then some 3
  else if 0xF0 ≤ b ∧ b ≤ 0xF4 then some 4
  else none

/-- The `'outer_loop`, `src/normalize/pct_case.rs` 95-222. -/
def pct_case_go (S : Spec) : Nat → Str → Option Str
  | 0, _ => none
  | fuel + 1, rest =>
    match find_split_hole rest '%' with
    | none => some rest
    | some (pre, after_percent) =>
      match take_xdigits2 after_percent with
      | none => none
      | some (first, after_first) =>
        if first < 0x80 then
          (pct_case_go S fuel after_first).map fun t =>
            pre ++ ((if is_ascii_unreserved (Char.ofNat first) then [Char.ofNat first]
              else writePct first) ++ t)
        else
          match expectedLen first with
          | none => (pct_case_go S fuel after_first).map fun t => pre ++ (writePct first ++ t)
          | some n =>
            match takeCont (n - 1) [first] after_first with
            | none => none
            | some (.stop out) => some (pre ++ out)
            | some (.again out rest) => (pct_case_go S fuel rest).map fun t => pre ++ (out ++ t)
            | some (.full buf rest) =>
              match into_char_trusted buf with
              | none => none
              | some (some c) =>
                (pct_case_go S fuel rest).map fun t =>
                  pre ++ ((if is_unreserved S c then [c] else buf.flatMap writePct) ++ t)
              | some none =>
                match sliceFrom after_first ((n - 1) * 3) with
                | none => none
                | some rest => (pct_case_go S fuel rest).map fun t =>
                    pre ++ (buf.flatMap writePct ++ t)

/-- `PctCaseNormalized`'s `Display`, `src/normalize/pct_case.rs` 91-223. -/
def pct_case_normalized (S : Spec) (s : Str) : Option Str := pct_case_go S (s.length + 1) s

/-- The loop of `NormalizedAsciiOnlyHost`'s `Display`, `src/normalize/pct_case.rs` 252-287. -/
def ascii_host_go : Nat → Str → Option Str
  | 0, _ => none
  | fuel + 1, rest =>
    match find_split_hole rest '%' with
    | none => some (rest.map toLower)
    | some (pre, after_percent) =>
      match take_xdigits2 after_percent with
      | none => none
      | some (first, after_triplet) =>
        if first < 128 then
          (ascii_host_go fuel after_triplet).map fun t =>
            pre.map toLower ++ ((if is_ascii_unreserved (Char.ofNat first)
              then [toLower (Char.ofNat first)] else writePct first) ++ t)
        else none

/-- `NormalizedAsciiOnlyHost`'s `Display`; `none` is a panic (including the `assert!`). -/
def normalized_ascii_only_host (s : Str) : Option Str := ascii_host_go (s.length + 1) s

/-- `eq_str_display`, `src/format.rs` 116-136: comparison with the displayed text.  (How the text is
split into writes does not matter: property C36.) -/
def eq_str_display (s : Str) (d : Option Str) : Option Bool := d.map fun t => s == t

/-- `is_pct_case_normalized`, `src/normalize/pct_case.rs` 17-19; `none` is a panic. -/
def is_pct_case_normalized (S : Spec) (s : Str) : Option Bool :=
  eq_str_display s (pct_case_normalized S s)

end Verif
