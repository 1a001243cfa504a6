import Verif.Model.Encode
import Verif.Model.Bytes

/-!
# `src/percent_encode/decode.rs`: percent-decoding

Byte slices are lists of numbers.  An outer `none` is a panic.  Loops take fuel.
-/

namespace Verif

/-- `u8::is_ascii_hexdigit`. -/
def isHexByte (b : Nat) : Bool :=
  (48 ≤ b && b ≤ 57) || (65 ≤ b && b ≤ 70) || (97 ≤ b && b ≤ 102)

/-- `starts_with_double_hexdigits`, `src/parser/str.rs` 339-344, on bytes. -/
def startsWithHexB (s : List Nat) : Bool :=
  match s with
  | x :: y :: _ => isHexByte x && isHexByte y
  | _ => false

/-- `take_xdigits2`, `src/parser/trusted.rs` 447-457, on bytes. -/
def takeXdigits2B (s : List Nat) : Option (Nat × List Nat) :=
  match s with
  | upper :: lower :: r => (hexdigits_to_byte upper lower).map fun v => (v, r)
  | _ => none

/-- `strip_decode_xdigits2`, `src/parser/str.rs` 348-358, on bytes. -/
def stripDecodeXdigits2B (s : List Nat) : Option (Option Nat × List Nat) :=
  if startsWithHexB s then (takeXdigits2B s).map fun x => (some x.1, x.2) else some (none, s)

/-- `PercentDecodedWhatwgBytes::try_non_allocating_decode`, `src/percent_encode/decode.rs` 86-110.
`some none` is `None`. -/
def tryDecodeGo : Nat → List Nat → Option (Option (Nat × Nat × List Nat))
  | 0, _ => none
  | fuel + 1, rest =>
    if rest.isEmpty then some none
    else
      match Bytes.position (· == 0x25) rest with
      | none => some none
      | some pct_pos =>
        let after_pct := rest.drop (pct_pos + 1)
        match stripDecodeXdigits2B after_pct with
        | none => none
        | some (some decoded, rest) => some (some (pct_pos, decoded, rest))
        | some (none, _) => tryDecodeGo fuel after_pct

def try_non_allocating_decode (bs : List Nat) : Option (Option (Nat × Nat × List Nat)) :=
  tryDecodeGo (bs.length + 1) bs

/-- `to_bytes`, `src/percent_encode/decode.rs` 125-130. -/
def to_bytes (bs : List Nat) : Option (Option (List Nat)) :=
  (try_non_allocating_decode bs).map fun
    | none => some bs
    | some _ => none

/-- The `while !rest.is_empty()` loop of `into_bytes`, `src/percent_encode/decode.rs` 159-172. -/
def intoBytesGo : Nat → List Nat → Option (List Nat)
  | 0, _ => none
  | fuel + 1, rest =>
    if rest.isEmpty then some []
    else
      match Bytes.position (· == 0x25) rest with
      | none => some rest
      | some pos => do
        let (decoded, rest') ← stripDecodeXdigits2B (rest.drop (pos + 1))
        let r ← intoBytesGo fuel rest'
        some (rest.take pos ++ (decoded.toList ++ r))

/-- `into_bytes`, `src/percent_encode/decode.rs` 147-175. -/
def into_bytes (bs : List Nat) : Option (List Nat) := do
  let d ← try_non_allocating_decode bs
  match d with
  | none => some bs
  | some (prefix_len, decoded, rest) => do
    let r ← intoBytesGo (rest.length + 1) rest
    some (bs.take prefix_len ++ (decoded :: r))

/-- `into_string`, `src/percent_encode/decode.rs` 194-196; inner `none` is `Err`. -/
def into_string (bs : List Nat) : Option (Option Str) := (into_bytes bs).map from_utf8

/-- `DecodedFragment`, `src/percent_encode/decode.rs` 236-244. -/
inductive DecodedFragment
  | direct (bs : List Nat)
  | decodedByte (b : Nat)
  | strayPercent
  deriving DecidableEq, Repr

/-- `PercentDecodedBytesFragments::next`, `src/percent_encode/decode.rs` 296-326: the item and the
new `rest`; `some none` is `None`. -/
def fragNext (rest : List Nat) : Option (Option (DecodedFragment × List Nat)) :=
  match rest with
  | [] => some none
  | b :: after =>
    if b = 0x25 then
      match stripDecodeXdigits2B after with
      | none => none
      | some (some decoded, rest) => some (some (.decodedByte decoded, rest))
      | some (none, _) => some (some (.strayPercent, after))
    else
      match Bytes.position (· == 0x25) after with
      | none => some (some (.direct rest, []))
      | some pos => some (some (.direct (rest.take (pos + 1)), rest.drop (pos + 1)))

/-- The items a `for` loop over `bytes_fragments()` sees. -/
def fragAll : Nat → List Nat → Option (List DecodedFragment)
  | 0, _ => none
  | fuel + 1, rest =>
    match fragNext rest with
    | none => none
    | some none => some []
    | some (some (f, rest)) => (fragAll fuel rest).map (f :: ·)

/-- `bytes_fragments`, `src/percent_encode/decode.rs` 219-223, collected. -/
def bytes_fragments (bs : List Nat) : Option (List DecodedFragment) := fragAll (bs.length + 1) bs

end Verif
