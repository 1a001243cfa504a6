import Verif.Model.PctCase

/-!
# `src/percent_encode.rs` and `src/convert.rs`: percent-encoding

Text written to a formatter is modelled by the text itself; a `Display` value `raw` is modelled by
the list of pieces (`chunks`) it writes.  `none` is a panic (an index out of range, an arithmetic
underflow, a failed assertion).  Memory allocation does not fail.
-/

namespace Verif

/-- `Context`, `src/percent_encode.rs` 24-50. -/
inductive Context
  | regName
  | userOrPassword
  | pathSegment
  | path
  | query
  | fragment
  | unreserve
  | character
  deriving DecidableEq, Repr

/-- The `is_valid_char` of `Filter::write_char`, `src/percent_encode.rs` 342-364. -/
def Context.isValidChar (S : Spec) (ctx : Context) (c : Char) : Bool :=
  match ctx, isAscii c with
  | .regName, true => is_ascii_regname c
  | .regName, false => is_nonascii_regname S c
  | .userOrPassword, true => c != ':' && is_ascii_userinfo_ipvfutureaddr c
  | .userOrPassword, false => is_nonascii_userinfo S c
  | .pathSegment, true => is_ascii_pchar c
  | .pathSegment, false => S.is_nonascii_char_unreserved c
  | .path, true => c == '/' || is_ascii_pchar c
  | .path, false => S.is_nonascii_char_unreserved c
  | .query, true => c == '/' || is_ascii_frag_query c
  | .query, false => is_nonascii_query S c
  | .fragment, true => c == '/' || is_ascii_frag_query c
  | .fragment, false => is_nonascii_fragment S c
  | .unreserve, true => is_ascii_unreserved c
  | .unreserve, false => S.is_nonascii_char_unreserved c
  | .character, true => is_ascii_unreserved_or_reserved c
  | .character, false => S.is_nonascii_char_unreserved c || S.is_nonascii_char_private c

/-- `write_pct_encoded_char`, `src/percent_encode.rs` 380-386. -/
def write_pct_encoded_char (c : Char) : Str := (utf8 c).flatMap writePct

/-- `Filter::write_char`, `src/percent_encode.rs` 341-370. -/
def encWriteChar (S : Spec) (ctx : Context) (c : Char) : Str :=
  if ctx.isValidChar S c then [c] else write_pct_encoded_char c

/-- `Filter::write_str`, `src/percent_encode.rs` 338-340. -/
def encWriteStr (S : Spec) (ctx : Context) (s : Str) : Str := s.flatMap (encWriteChar S ctx)

/-- `Display` of `PercentEncoded`, `src/percent_encode.rs` 326-379, for a `raw` that writes the given
pieces. -/
def percent_encode (S : Spec) (ctx : Context) (chunks : List Str) : Str :=
  chunks.flatMap (encWriteStr S ctx)

/-- `PercentEncoded::from_reg_name`, `src/percent_encode.rs` 85-91. -/
def from_reg_name (S : Spec) : List Str → Str := percent_encode S .regName
/-- `PercentEncoded::from_user`, `src/percent_encode.rs` 111-117. -/
def from_user (S : Spec) : List Str → Str := percent_encode S .userOrPassword
/-- `PercentEncoded::from_password`, `src/percent_encode.rs` 139-145. -/
def from_password (S : Spec) : List Str → Str := percent_encode S .userOrPassword
/-- `PercentEncoded::from_path_segment`, `src/percent_encode.rs` 165-171. -/
def from_path_segment (S : Spec) : List Str → Str := percent_encode S .pathSegment
/-- `PercentEncoded::from_path`, `src/percent_encode.rs` 191-197. -/
def from_path (S : Spec) : List Str → Str := percent_encode S .path
/-- `PercentEncoded::from_query`, `src/percent_encode.rs` 216-222. -/
def from_query (S : Spec) : List Str → Str := percent_encode S .query
/-- `PercentEncoded::from_fragment`, `src/percent_encode.rs` 241-247. -/
def from_fragment (S : Spec) : List Str → Str := percent_encode S .fragment
/-- `PercentEncoded::unreserve`, `src/percent_encode.rs` 276-282. -/
def unreserve (S : Spec) : List Str → Str := percent_encode S .unreserve
/-- `PercentEncoded::characters`, `src/percent_encode.rs` 317-323. -/
def characters (S : Spec) : List Str → Str := percent_encode S .character

/-! ## `src/convert.rs` -/

/-- `HEXDIGITS`, `src/convert.rs` 23. -/
def HEXDIGITS : List Nat := [48, 49, 50, 51, 52, 53, 54, 55, 56, 57, 65, 66, 67, 68, 69, 70]

/-- The `for (dest, byte) in buf.chunks_exact_mut(3).zip(bytes.by_ref())` loop of
`fill_by_percent_encoded`, `src/convert.rs` 175-190: the buffer after the loop and the bytes that
are left.  A chunk is taken before a byte, so no byte is lost when the chunks run out.  A trailing
incomplete chunk is not visited. -/
def fillZip : List Nat → List Nat → Option (List Nat × List Nat)
  | d0 :: d1 :: d2 :: buf, bytes =>
    match bytes with
    | [] => some (d0 :: d1 :: d2 :: buf, [])
    | byte :: bytes =>
      if d0 == 37 then do
        let hi ← HEXDIGITS[byte >>> 4]?
        let lo ← HEXDIGITS[byte &&& 0b1111]?
        let r ← fillZip buf bytes
        some (d0 :: hi :: lo :: r.1, r.2)
      else none
  | buf, bytes => some (buf, bytes)

/-- `fill_by_percent_encoded`, `src/convert.rs` 172-200: the filled part of the buffer, the new
buffer, the remaining bytes. -/
def fill_by_percent_encoded (buf bytes : List Nat) : Option (List Nat × List Nat × List Nat) := do
  let r ← fillZip buf bytes
  let num_dest_written := (bytes.length - r.2.length) * 3
  if num_dest_written ≤ r.1.length then some (r.1.take num_dest_written, r.1, r.2) else none

/-- The `while bytes.len() != 0` loop of `percent_encode_bytes`, `src/convert.rs` 218-221, with
fuel.  The bytes written are ASCII, so the text is the same numbers as characters. -/
def percentEncodeLoop : Nat → List Nat → List Nat → Option Str
  | 0, _, _ => none
  | fuel + 1, buf, bytes =>
    if bytes.length = 0 then some []
    else do
      let (encoded, buf, bytes) ← fill_by_percent_encoded buf bytes
      let r ← percentEncodeLoop fuel buf bytes
      some (encoded.map Char.ofNat ++ r)

/-- `percent_encode_bytes`, `src/convert.rs` 160-224. -/
def percent_encode_bytes (s : Str) (buf : List Nat) : Option Str :=
  if buf.length ≥ 3 then
    let buf_len := buf.length / 3 * 3
    let buf := (buf.take buf_len).map fun _ => 37
    percentEncodeLoop ((utf8s s).length + 1) buf (utf8s s)
  else none

/-- `s.split_at(s.bytes().position(p).unwrap_or(s.len()))` for a test that separates ASCII from
non-ASCII bytes; the first such byte is the first byte of the first such character (C37). -/
def splitAtFirst (p : Char → Bool) (s : Str) : Str × Str := (findSplitP p s).getD (s, [])

/-- `write_percent_encoded`, `src/convert.rs` 115-149, with fuel. -/
def writePercentEncodedGo : Nat → Str → Option Str
  | 0, _ => none
  | fuel + 1, s =>
    if s.isEmpty then some []
    else
      let (ascii, rest) := splitAtFirst (fun c => !isAscii c) s
      let s := if ascii.isEmpty then s else rest
      if s.isEmpty then some ascii
      else
        let (nonasciis, rest) := splitAtFirst isAscii s
        if nonasciis.isEmpty then none
        else do
          let e ← percent_encode_bytes nonasciis (List.replicate (21 * 3) 0)
          let r ← writePercentEncodedGo fuel rest
          some (ascii ++ (e ++ r))

/-- `Display` of `MappedToUri`, `src/convert.rs` 67-71 (`encode_to_uri()`, `src/types/iri.rs`
105-107). -/
def encode_to_uri (s : Str) : Option Str := writePercentEncodedGo (s.length + 1) s

/-- `core::str::from_utf8` (standard library): one step of strict UTF-8 decoding. -/
def decodeOne : List Nat → Option (Char × List Nat)
  | [] => none
  | b0 :: r =>
    let cont (b : Nat) : Bool := 0x80 ≤ b && b < 0xC0
    if b0 < 0x80 then some (Char.ofNat b0, r)
    else if 0xC0 ≤ b0 && b0 < 0xE0 then
      match r with
      | b1 :: r =>
        let v := (b0 - 0xC0) * 64 + (b1 - 0x80)
        if cont b1 && 0x80 ≤ v then some (Char.ofNat v, r) else none
      | _ => none
    else if 0xE0 ≤ b0 && b0 < 0xF0 then
      match r with
      | b1 :: b2 :: r =>
        let v := (b0 - 0xE0) * 4096 + (b1 - 0x80) * 64 + (b2 - 0x80)
        if cont b1 && cont b2 && 0x800 ≤ v && !(0xD800 ≤ v && v < 0xE000) then some (Char.ofNat v, r)
        else none
      | _ => none
    else if 0xF0 ≤ b0 && b0 < 0xF8 then
      match r with
      | b1 :: b2 :: b3 :: r =>
        let v := (b0 - 0xF0) * 262144 + (b1 - 0x80) * 4096 + (b2 - 0x80) * 64 + (b3 - 0x80)
        if cont b1 && cont b2 && cont b3 && 0x10000 ≤ v && v < 0x110000 then some (Char.ofNat v, r)
        else none
      | _ => none
    else none

def from_utf8_go : Nat → List Nat → Option Str
  | _, [] => some []
  | 0, _ :: _ => none
  | fuel + 1, b :: r =>
    match decodeOne (b :: r) with
    | none => none
    | some (c, r) => (from_utf8_go fuel r).map (c :: ·)

/-- `core::str::from_utf8`, `String::from_utf8` (standard library); `none` is `Err`. -/
def from_utf8 (bs : List Nat) : Option Str := from_utf8_go bs.length bs

/-- `buf[i] = b`; `none` is the index panic. -/
def setB (buf : List Nat) (i b : Nat) : Option (List Nat) :=
  if i < buf.length then some (buf.set i b) else none

/-- `i - n` on `usize` (overflow checks on). -/
def subB (i n : Nat) : Option Nat := if n ≤ i then some (i - n) else none

/-- The `while rest_nonascii > 0` loop of `try_percent_encode_iri_inline`, `src/convert.rs` 251-271;
every iteration lowers `src_end`, which bounds the fuel. -/
def inlineLoop : Nat → List Nat → Nat → Nat → Nat → Option (List Nat)
  | fuel, buf, dest_end, src_end, rest_nonascii =>
    if rest_nonascii > 0 then
      match fuel with
      | 0 => none
      | fuel + 1 => do
        let src_end ← subB src_end 1
        let dest_end ← subB dest_end 1
        let byte ← buf[src_end]?
        if byte < 128 then
          let buf ← setB buf dest_end byte
          inlineLoop fuel buf dest_end src_end rest_nonascii
        else
          let dest_end ← subB dest_end 2
          let buf ← setB buf dest_end 37
          let upper := byte >>> 4
          let lower := byte &&& 0b1111
          let hi ← HEXDIGITS[upper]?
          let buf ← setB buf (dest_end + 1) hi
          let lo ← HEXDIGITS[lower]?
          let buf ← setB buf (dest_end + 2) lo
          inlineLoop fuel buf dest_end src_end (rest_nonascii - 1)
    else some buf

/-- `count_nonascii`, `src/convert.rs` 282-284. -/
def count_nonascii (s : Str) : Nat := ((utf8s s).filter fun b => !(b < 128)).length

/-- `try_percent_encode_iri_inline`, `src/convert.rs` 228-277 (`encode_to_uri_inline`,
`encode_into_uri`, `src/types/iri.rs` 179-297): the new content of the string. -/
def encode_to_uri_inline (iri : Str) : Option Str :=
  let num_nonascii := count_nonascii iri
  if num_nonascii == 0 then some iri
  else do
    let additional := num_nonascii * 2
    let src_len := blen iri
    let buf := utf8s iri ++ List.replicate additional 0
    let buf ← inlineLoop src_len buf buf.length src_len num_nonascii
    from_utf8 buf

/-- `as_uri`, `src/types/iri.rs` 131-146, and `try_into_uri`, 319-335 (`none` is `None`/`Err`). -/
def as_uri (s : Str) : Option Str := if !s.all isAscii then none else some s

end Verif
