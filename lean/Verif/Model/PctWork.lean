import Verif.Model.ValidateWork
import Verif.Model.Decode

/-!
# Percent-triplet processing with a counter of the bytes it looks at

The functions of `Model/PctCase.lean`, `Model/Decode.lean` and of the in-place and writing encoders of
`Model/Encode.lean`, with the counter of `Model/ValidateWork.lean`.  Slicing costs nothing; writing the output costs
nothing where the output is a piece of the input or of a fixed size per triplet (its size is property C69), except
for the two encoders, whose writes to a byte buffer are counted too.  That the results are those of the functions
without a counter is theorem `C90_same`.
-/

namespace Verif.Work

/-- `take_xdigits2` on a `str`, `src/parser/trusted.rs` 447-457: two bytes. -/
def take_xdigits2 (s : Str) : T (Option (Nat × Str)) := (Verif.take_xdigits2 s, min 2 (blen s))

/-- The loop of `is_ascii_only_host`, `src/parser/trusted.rs` 465-481. -/
def is_ascii_only_host_go : Nat → Str → T (Option Bool)
  | 0, _ => ret none
  | fuel + 1, host =>
    bind (findSplitHoleP (fun c => !isAscii c || c == '%') host) fun
    | none => ret (some true)
    | some (_, c, after_pct) =>
      if c != '%' then ret (some false)
      else
        bind (take_xdigits2 after_pct) fun
        | none => ret none
        | some (byte, rest) => if byte < 128 then is_ascii_only_host_go fuel rest else ret (some false)

/-- `is_ascii_only_host`, `src/parser/trusted.rs` 465-481. -/
def is_ascii_only_host (host : Str) : T (Option Bool) := is_ascii_only_host_go (host.length + 1) host

/-- The `for` loop over `c_buf[1..]`, `src/normalize/pct_case.rs` 132-174: the character after the last triplet, and
the two digits if it is `%`. -/
def takeCont : Nat → List Nat → Str → T (Option ContRes)
  | 0, buf, rest => ret (some (.full buf rest))
  | n + 1, buf, rest =>
    match rest with
    | [] => ret (some (.stop (buf.flatMap writePct)))
    | c :: after =>
      bind (c == '%', c.utf8Size) fun
      | true =>
        bind (take_xdigits2 after) fun
        | none => ret none
        | some (byte, after_triplet) =>
          if !is_utf8_byte_continue byte then ret (some (.again (buf.flatMap writePct) (c :: after)))
          else takeCont n (buf ++ [byte]) after_triplet
      | false => ret (some (.again (buf.flatMap writePct ++ [c]) after))

/-- The `'outer_loop`, `src/normalize/pct_case.rs` 95-222. -/
def pct_case_go (S : Spec) : Nat → Str → T (Option Str)
  | 0, _ => ret none
  | fuel + 1, rest =>
    bind (find_split_hole rest '%') fun
    | none => ret (some rest)
    | some (pre, after_percent) =>
      bind (take_xdigits2 after_percent) fun
      | none => ret none
      | some (first, after_first) =>
        if first < 0x80 then
          bind (pct_case_go S fuel after_first) fun o => ret (o.map fun t =>
            pre ++ ((if is_ascii_unreserved (Char.ofNat first) then [Char.ofNat first]
              else writePct first) ++ t))
        else
          match expectedLen first with
          | none => bind (pct_case_go S fuel after_first) fun o => ret (o.map fun t => pre ++ (writePct first ++ t))
          | some n =>
            bind (takeCont (n - 1) [first] after_first) fun
            | none => ret none
            | some (.stop out) => ret (some (pre ++ out))
            | some (.again out rest) =>
              bind (pct_case_go S fuel rest) fun o => ret (o.map fun t => pre ++ (out ++ t))
            | some (.full buf rest) =>
              match into_char_trusted buf with
              | none => ret none
              | some (some c) =>
                bind (pct_case_go S fuel rest) fun o => ret (o.map fun t =>
                  pre ++ ((if is_unreserved S c then [c] else buf.flatMap writePct) ++ t))
              | some none =>
                match sliceFrom after_first ((n - 1) * 3) with
                | none => ret none
                | some rest => bind (pct_case_go S fuel rest) fun o => ret (o.map fun t =>
                    pre ++ (buf.flatMap writePct ++ t))

/-- `PctCaseNormalized`'s `Display`, `src/normalize/pct_case.rs` 91-223. -/
def pct_case_normalized (S : Spec) (s : Str) : T (Option Str) := pct_case_go S (s.length + 1) s

/-- The loop of `NormalizedAsciiOnlyHost`'s `Display`, `src/normalize/pct_case.rs` 252-287. -/
def ascii_host_go : Nat → Str → T (Option Str)
  | 0, _ => ret none
  | fuel + 1, rest =>
    bind (find_split_hole rest '%') fun
    | none => ret (some (rest.map toLower))
    | some (pre, after_percent) =>
      bind (take_xdigits2 after_percent) fun
      | none => ret none
      | some (first, after_triplet) =>
        if first < 128 then
          bind (ascii_host_go fuel after_triplet) fun o => ret (o.map fun t =>
            pre.map toLower ++ ((if is_ascii_unreserved (Char.ofNat first)
              then [toLower (Char.ofNat first)] else writePct first) ++ t))
        else ret none

/-- `NormalizedAsciiOnlyHost`'s `Display`, `src/normalize/pct_case.rs` 252-287. -/
def normalized_ascii_only_host (s : Str) : T (Option Str) := ascii_host_go (s.length + 1) s

/-! ### Percent-decoding -/

/-- `iter().position(p)` on bytes (standard library): the bytes up to the one that is found. -/
def position (p : Nat → Bool) : List Nat → T (Option Nat)
  | [] => (none, 0)
  | b :: r => if p b then (some 0, 1) else ((position p r).1.map (· + 1), 1 + (position p r).2)

/-- `starts_with_double_hexdigits`, `src/parser/str.rs` 339-344, on bytes: the second byte is looked at if the first
is a digit. -/
def startsWithHexB (s : List Nat) : T Bool :=
  match s with
  | x :: y :: _ => (isHexByte x && isHexByte y, if isHexByte x then 2 else 1)
  | _ => (false, 0)

/-- `strip_decode_xdigits2`, `src/parser/str.rs` 348-358, on bytes: the test and then `take_xdigits2`. -/
def stripDecodeXdigits2B (s : List Nat) : T (Option (Option Nat × List Nat)) :=
  bind (startsWithHexB s) fun
  | true => ((takeXdigits2B s).map fun x => (some x.1, x.2), 2)
  | false => ret (some (none, s))

/-- `PercentDecodedWhatwgBytes::try_non_allocating_decode`, `src/percent_encode/decode.rs` 86-110. -/
def tryDecodeGo : Nat → List Nat → T (Option (Option (Nat × Nat × List Nat)))
  | 0, _ => ret none
  | fuel + 1, rest =>
    if rest.isEmpty then ret (some none)
    else
      bind (position (· == 0x25) rest) fun
      | none => ret (some none)
      | some pct_pos =>
        bind (stripDecodeXdigits2B (rest.drop (pct_pos + 1))) fun
        | none => ret none
        | some (some decoded, rest') => ret (some (some (pct_pos, decoded, rest')))
        | some (none, _) => tryDecodeGo fuel (rest.drop (pct_pos + 1))

/-- `try_non_allocating_decode`, `src/percent_encode/decode.rs` 86-110. -/
def try_non_allocating_decode (bs : List Nat) : T (Option (Option (Nat × Nat × List Nat))) :=
  tryDecodeGo (bs.length + 1) bs

/-- The `while !rest.is_empty()` loop of `into_bytes`, `src/percent_encode/decode.rs` 159-172. -/
def intoBytesGo : Nat → List Nat → T (Option (List Nat))
  | 0, _ => ret none
  | fuel + 1, rest =>
    if rest.isEmpty then ret (some [])
    else
      bind (position (· == 0x25) rest) fun
      | none => ret (some rest)
      | some pos =>
        bind (stripDecodeXdigits2B (rest.drop (pos + 1))) fun
        | none => ret none
        | some (decoded, rest') =>
          bind (intoBytesGo fuel rest') fun o => ret (o.map fun r => rest.take pos ++ (decoded.toList ++ r))

/-- `into_bytes`, `src/percent_encode/decode.rs` 147-175. -/
def into_bytes (bs : List Nat) : T (Option (List Nat)) :=
  bind (try_non_allocating_decode bs) fun
  | none => ret none
  | some none => ret (some bs)
  | some (some (prefix_len, decoded, rest)) =>
    bind (intoBytesGo (rest.length + 1) rest) fun o => ret (o.map fun r => bs.take prefix_len ++ (decoded :: r))

/-- `PercentDecodedBytesFragments::next`, `src/percent_encode/decode.rs` 296-326. -/
def fragNext (rest : List Nat) : T (Option (Option (DecodedFragment × List Nat))) :=
  match rest with
  | [] => ret (some none)
  | b :: after =>
    bind (decide (b = 0x25), 1) fun
    | true =>
      bind (stripDecodeXdigits2B after) fun
      | none => ret none
      | some (some decoded, rest) => ret (some (some (.decodedByte decoded, rest)))
      | some (none, _) => ret (some (some (.strayPercent, after)))
    | false =>
      bind (position (· == 0x25) after) fun
      | none => ret (some (some (.direct (b :: after), [])))
      | some pos => ret (some (some (.direct ((b :: after).take (pos + 1)), (b :: after).drop (pos + 1))))

/-- The items a `for` loop over `bytes_fragments()` sees, `src/percent_encode/decode.rs` 296-326. -/
def fragAll : Nat → List Nat → T (Option (List DecodedFragment))
  | 0, _ => ret none
  | fuel + 1, rest =>
    bind (fragNext rest) fun
    | none => ret none
    | some none => ret (some [])
    | some (some (f, rest)) => bind (fragAll fuel rest) fun o => ret (o.map (f :: ·))

/-- `bytes_fragments`, `src/percent_encode/decode.rs` 219-223, collected. -/
def bytes_fragments (bs : List Nat) : T (Option (List DecodedFragment)) := fragAll (bs.length + 1) bs

/-! ### Encoding as a URI -/

/-- The `for` loop of `fill_by_percent_encoded`, `src/convert.rs` 175-190: one byte is read and two are written for
every chunk of three. -/
def fillZip : List Nat → List Nat → T (Option (List Nat × List Nat))
  | d0 :: d1 :: d2 :: buf, bytes =>
    match bytes with
    | [] => ret (some (d0 :: d1 :: d2 :: buf, []))
    | byte :: bytes =>
      if d0 == 37 then
        bind (HEXDIGITS[byte >>> 4]?, 2) fun
        | none => ret none
        | some hi =>
          bind (HEXDIGITS[byte &&& 0b1111]?, 1) fun
          | none => ret none
          | some lo =>
            bind (fillZip buf bytes) fun o => ret (o.map fun r => (d0 :: hi :: lo :: r.1, r.2))
      else ret none
  | buf, bytes => ret (some (buf, bytes))

/-- `fill_by_percent_encoded`, `src/convert.rs` 172-200. -/
def fill_by_percent_encoded (buf bytes : List Nat) : T (Option (List Nat × List Nat × List Nat)) :=
  bind (fillZip buf bytes) fun
  | none => ret none
  | some r =>
    let num_dest_written := (bytes.length - r.2.length) * 3
    ret (if num_dest_written ≤ r.1.length then some (r.1.take num_dest_written, r.1, r.2) else none)

/-- The `while bytes.len() != 0` loop of `percent_encode_bytes`, `src/convert.rs` 218-221. -/
def percentEncodeLoop : Nat → List Nat → List Nat → T (Option Str)
  | 0, _, _ => ret none
  | fuel + 1, buf, bytes =>
    if bytes.length = 0 then ret (some [])
    else
      bind (fill_by_percent_encoded buf bytes) fun
      | none => ret none
      | some (encoded, buf, bytes) =>
        bind (percentEncodeLoop fuel buf bytes) fun o => ret (o.map fun r => encoded.map Char.ofNat ++ r)

/-- `percent_encode_bytes`, `src/convert.rs` 160-224: the buffer is filled once with `%`. -/
def percent_encode_bytes (s : Str) (buf : List Nat) : T (Option Str) :=
  if buf.length ≥ 3 then
    let buf_len := buf.length / 3 * 3
    bind ((buf.take buf_len).map fun _ => 37, buf_len) fun buf =>
      percentEncodeLoop ((utf8s s).length + 1) buf (utf8s s)
  else ret none

/-- `s.split_at(s.bytes().position(p).unwrap_or(s.len()))`, `src/convert.rs` 118-119, 130-131. -/
def splitAtFirst (p : Char → Bool) (s : Str) : T (Str × Str) :=
  bind (findSplitP p s) fun o => ret (o.getD (s, []))

/-- `write_percent_encoded`, `src/convert.rs` 115-149; a new buffer of 63 zeros for every run of non-ASCII
characters. -/
def writePercentEncodedGo : Nat → Str → T (Option Str)
  | 0, _ => ret none
  | fuel + 1, s =>
    if s.isEmpty then ret (some [])
    else
      bind (splitAtFirst (fun c => !isAscii c) s) fun x =>
        let s := if x.1.isEmpty then s else x.2
        if s.isEmpty then ret (some x.1)
        else
          bind (splitAtFirst isAscii s) fun y =>
            if y.1.isEmpty then ret none
            else
              bind (List.replicate (21 * 3) 0, 21 * 3) fun buf =>
                bind (percent_encode_bytes y.1 buf) fun
                | none => ret none
                | some e =>
                  bind (writePercentEncodedGo fuel y.2) fun o => ret (o.map fun r => x.1 ++ (e ++ r))

/-- `Display` of `MappedToUri`, `src/convert.rs` 67-71. -/
def encode_to_uri (s : Str) : T (Option Str) := writePercentEncodedGo (s.length + 1) s

/-- One iteration of the loop of `try_percent_encode_iri_inline`, `src/convert.rs` 251-271: one byte is read, and one
or three are written. -/
def inlineLoop : Nat → List Nat → Nat → Nat → Nat → T (Option (List Nat))
  | fuel, buf, dest_end, src_end, rest_nonascii =>
    if rest_nonascii > 0 then
      match fuel with
      | 0 => ret none
      | fuel + 1 =>
        bind (do
          let src_end ← subB src_end 1
          let dest_end ← subB dest_end 1
          let byte ← buf[src_end]?
          some (src_end, dest_end, byte), 1) fun
        | none => ret none
        | some (src_end, dest_end, byte) =>
          if byte < 128 then
            bind (setB buf dest_end byte, 1) fun
            | none => ret none
            | some buf => inlineLoop fuel buf dest_end src_end rest_nonascii
          else
            bind (do
              let dest_end ← subB dest_end 2
              let buf ← setB buf dest_end 37
              let hi ← HEXDIGITS[byte >>> 4]?
              let buf ← setB buf (dest_end + 1) hi
              let lo ← HEXDIGITS[byte &&& 0b1111]?
              let buf ← setB buf (dest_end + 2) lo
              some (dest_end, buf), 3) fun
            | none => ret none
            | some (dest_end, buf) => inlineLoop fuel buf dest_end src_end (rest_nonascii - 1)
    else ret (some buf)

/-- `count_nonascii`, `src/convert.rs` 282-284: all bytes. -/
def count_nonascii (s : Str) : T Nat := (Verif.count_nonascii s, blen s)

/-- `String::from_utf8` (standard library): all bytes. -/
def from_utf8 (bs : List Nat) : T (Option Str) := (Verif.from_utf8 bs, bs.length)

/-- `try_percent_encode_iri_inline`, `src/convert.rs` 228-277 (`encode_to_uri_inline`, `encode_into_uri`): the count,
the zeros appended, the loop and the check of the result. -/
def encode_to_uri_inline (iri : Str) : T (Option Str) :=
  bind (count_nonascii iri) fun num_nonascii =>
    if num_nonascii == 0 then ret (some iri)
    else
      let additional := num_nonascii * 2
      let src_len := blen iri
      bind (utf8s iri ++ List.replicate additional 0, additional) fun buf =>
        bind (inlineLoop src_len buf buf.length src_len num_nonascii) fun
        | none => ret none
        | some buf => from_utf8 buf

end Verif.Work
