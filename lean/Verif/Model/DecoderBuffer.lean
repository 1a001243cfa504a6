import Verif.Model.MaybePct
import Verif.Model.TemplateExpand

/-!
# `src/parser/str/maybe_pct_encoded.rs` with its buffers

`Model/MaybePct.lean` models the decoder's state by the text it holds back.  Here are the fixed-size
arrays, the length counter, the destination buffer and the index arithmetic of the Rust text; bytes are
`Nat`.  `none` is a panic (index or slice out of range, failed assertion or `expect`, and in a debug
build arithmetic overflow); `dbg` is a debug build.  Property C81 relates the two levels.
-/

namespace Verif.DecBuf

open Verif.MaybePct

/-- `l[i]`. -/
def get (l : List Nat) (i : Nat) : Option Nat := l[i]?

/-- `l[i] = v`. -/
def set (l : List Nat) (i v : Nat) : Option (List Nat) := if i < l.length then some (l.set i v) else none

/-- `&l[i..j]`. -/
def range (l : List Nat) (i j : Nat) : Option (List Nat) :=
  if i ≤ j ∧ j ≤ l.length then some ((l.take j).drop i) else none

/-- `dest[..n].copy_from_slice(&src[..n])`. -/
def copyTo (dest src : List Nat) (n : Nat) : Option (List Nat) :=
  (range dest 0 n).bind fun _ => (range src 0 n).map fun x => x ++ dest.drop n

/-- `l.copy_within(i..j, 0)`. -/
def copyWithin (l : List Nat) (i j : Nat) : Option (List Nat) :=
  (range l i j).map fun x => x ++ l.drop x.length

/-- `a - b` on `u8`. -/
def u8sub (dbg : Bool) (a b : Nat) : Option Nat :=
  if b ≤ a then some (a - b) else if dbg then none else some (256 + a - b)

/-- `DecoderBuffer`, `src/parser/str/maybe_pct_encoded.rs` 202-215, with its `Default`. -/
structure DecoderBuffer where
  encoded : List Nat := List.replicate 12 0
  decoded : List Nat := List.replicate 4 0
  len_encoded : Nat := 0
  deriving DecidableEq, Repr

/-- `DecoderBuffer::write_and_pop`, `src/parser/str/maybe_pct_encoded.rs` 219-233: the buffer and the
destination. -/
def write_and_pop (dbg : Bool) (self : DecoderBuffer) (dest : List Nat) (remove_len : Nat) :
    Option (DecoderBuffer × List Nat) := do
  let new_len ← u8sub dbg self.len_encoded remove_len
  let dest ← copyTo dest self.encoded remove_len
  if new_len = 0 then return ({}, dest)
  let encoded ← copyWithin self.encoded remove_len self.len_encoded
  let decoded ← copyWithin self.decoded (remove_len / 3) (self.len_encoded / 3)
  return (⟨encoded, decoded, new_len⟩, dest)

/-- `u8::is_ascii_hexdigit` (standard library). -/
def isHexdigit (b : Nat) : Bool := (48 ≤ b && b ≤ 57) || (65 ≤ b && b ≤ 70) || (97 ≤ b && b ≤ 102)

/-- `DecoderBuffer::push_single_encoded_byte`, `src/parser/str/maybe_pct_encoded.rs` 236-257.
(`len_encoded += 1` cannot overflow: the index before it is in range.) -/
def push_single_encoded_byte (dbg : Bool) (self : DecoderBuffer) (byte : Nat) : Option DecoderBuffer := do
  if dbg && !(self.len_encoded < 12) then none
  let pos_enc := self.len_encoded
  let len_encoded := self.len_encoded + 1
  let encoded ← set self.encoded pos_enc byte
  if len_encoded % 3 = 0 then
    let pos_dec := len_encoded / 3 - 1
    let upper ← get encoded (pos_enc - 1)
    if dbg && !(isHexdigit upper && isHexdigit byte) then none
    let v ← hexdigits_to_byte upper byte
    let decoded ← set self.decoded pos_dec v
    return ⟨encoded, decoded, len_encoded⟩
  return { self with encoded, len_encoded }

/-- `PushResult`, `src/parser/str/maybe_pct_encoded.rs` 187-200 (the decoded character is not modelled:
nothing looks at it). -/
inductive PushResult
  | needMoreBytes
  | decoded (len : Nat)
  | undecodable (len : Nat)
  deriving DecidableEq, Repr

/-- What `push_encoded` returns, with the new buffer and destination. -/
structure Pushed where
  self : DecoderBuffer
  buf : List Nat
  consumed : Nat
  result : PushResult

/-- The `Undecodable` exits of `push_encoded` for a character that does not go on,
`src/parser/str/maybe_pct_encoded.rs` 281-287, 294-300; `k` is `s.len() - chars.as_str().len()`. -/
def giveUp (dbg : Bool) (self : DecoderBuffer) (buf : List Nat) (k : Nat) : Option Pushed := do
  let len_result := self.len_encoded
  let (self, buf) ← write_and_pop dbg self buf len_result
  return ⟨self, buf, k - 1, .undecodable len_result⟩

/-- The check after a complete triplet, `src/parser/str/maybe_pct_encoded.rs` 312-344: `none` inside is
`continue`. -/
def tryDecode (dbg : Bool) (self : DecoderBuffer) (buf : List Nat) (k : Nat) : Option (Option Pushed) := do
  let len_decoded := self.len_encoded / 3
  let bytes ← range self.decoded 0 len_decoded
  match utf8Check 4 0 bytes with
  | .valid =>
    if bytes = [] ∨ self.len_encoded = 0 then none
    let len_result := self.len_encoded
    let (self, buf) ← write_and_pop dbg self buf len_result
    return some ⟨self, buf, k, .decoded len_result⟩
  | .err valid_up_to error_len =>
    if valid_up_to ≠ 0 then none
    match error_len with
    | none => return none
    | some v =>
      let len_result := v % 256 * 3
      if dbg && 256 ≤ len_result then none
      if v = 0 then none
      let (self, buf) ← write_and_pop dbg self buf (len_result % 256)
      return some ⟨self, buf, k, .undecodable (len_result % 256)⟩

/-- The loop of `DecoderBuffer::push_encoded`, `src/parser/str/maybe_pct_encoded.rs` 275-348: `inc` is
`len_triplet_incomplete`, `k` the number of bytes the iterator has taken. -/
def pushLoop (dbg : Bool) : DecoderBuffer → List Nat → Nat → Nat → Str → Option Pushed
  | self, buf, _, k, [] => some ⟨self, buf, k, .needMoreBytes⟩
  | self, buf, inc, k, c :: r =>
    if inc = 0 then
      if c ≠ '%' then giveUp dbg self buf (k + c.utf8Size)
      else (push_single_encoded_byte dbg self 37).bind fun self => pushLoop dbg self buf 1 (k + c.utf8Size) r
    else if !isHex c then giveUp dbg self buf (k + c.utf8Size)
    else
      (push_single_encoded_byte dbg self (c.toNat % 256)).bind fun self =>
        if inc = 1 then pushLoop dbg self buf 2 (k + c.utf8Size) r
        else if dbg && inc ≠ 2 then none
        else
          match tryDecode dbg self buf (k + c.utf8Size) with
          | none => none
          | some (some p) => some p
          | some none => pushLoop dbg self buf 0 (k + c.utf8Size) r

/-- `DecoderBuffer::push_encoded`, `src/parser/str/maybe_pct_encoded.rs` 268-349. -/
def push_encoded (dbg : Bool) (self : DecoderBuffer) (buf : List Nat) (s : Str) : Option Pushed :=
  if dbg && !(12 ≤ buf.length) then none else pushLoop dbg self buf (self.len_encoded % 3) 0 s

/-- `DecoderBuffer::flush`, `src/parser/str/maybe_pct_encoded.rs` 353-362: the length written. -/
def flush (dbg : Bool) (self : DecoderBuffer) (buf : List Nat) : Option (DecoderBuffer × List Nat × Option Nat) :=
  if self.len_encoded = 0 then some (self, buf, none)
  else do
    let len_result := self.len_encoded
    let (self, buf) ← write_and_pop dbg self buf len_result
    if dbg && self.len_encoded ≠ 0 then none
    return (self, buf, some len_result)

variable {σ : Type}

/-- `DecomposeWriter::output_as_undecodable`, `src/parser/str/maybe_pct_encoded.rs` 104-133. -/
def output_as_undecodable (dbg : Bool) (f : Callback σ) (st : σ) (buf : List Nat) (len_written : Nat) :
    Option (σ × Bool) := do
  let bytes ← range buf 0 len_written
  let frag ← from_utf8 bytes
  let len_incomplete := len_written % 3
  let len_complete := len_written - len_incomplete
  let o ← (sliceTo frag len_complete).bind fun t => f st (.invalid t)
  if o.2 then return o
  if 0 < len_incomplete then
    let o ← f o.1 .stray
    if o.2 then return o
    if 1 < len_incomplete then
      if dbg && len_incomplete ≠ 2 then none
      (slice frag (len_complete + 1) len_written).bind fun t => f o.1 (.noPct t)
    else return o
  else return o

/-- State of the loop in `write_str`: the callback's state with the stop flag, decoder, buffer, `rest`. -/
structure WState (σ : Type) where
  st : σ
  stop : Bool
  decoder : DecoderBuffer
  buf : List Nat
  rest : Str

/-- The branch `len_consumed == 0` of `DecomposeWriter::write_str`,
`src/parser/str/maybe_pct_encoded.rs` 143-162. -/
def plainRound (dbg : Bool) (f : Callback σ) (st : σ) (decoder : DecoderBuffer) (buf : List Nat) (rest : Str) :
    Option (WState σ) := do
  let (decoder, buf, flushed) ← flush dbg decoder buf
  match flushed with
  | some len_written =>
    let o ← output_as_undecodable dbg f st buf len_written
    if o.2 then return ⟨o.1, true, decoder, buf, rest⟩
    let rest ← sliceFrom rest len_written
    let p := (find_split rest '%').getD (rest, [])
    if dbg && p.1.isEmpty then none
    let o ← f o.1 (.noPct p.1)
    return ⟨o.1, o.2, decoder, buf, p.2⟩
  | none =>
    let p := (find_split rest '%').getD (rest, [])
    if dbg && p.1.isEmpty then none
    let o ← f st (.noPct p.1)
    return ⟨o.1, o.2, decoder, buf, p.2⟩

/-- Processing the push result, `src/parser/str/maybe_pct_encoded.rs` 165-179. -/
def processResult (dbg : Bool) (f : Callback σ) (st : σ) (buf : List Nat) : PushResult → Option (σ × Bool)
  | .decoded len_written => do
    let bytes ← range buf 0 len_written
    let frag ← from_utf8 bytes
    f st (.char frag)
  | .undecodable len_written => output_as_undecodable dbg f st buf len_written
  | .needMoreBytes => some (st, false)

/-- One round of the loop in `DecomposeWriter::write_str`, `src/parser/str/maybe_pct_encoded.rs`
142-181. -/
def round (dbg : Bool) (f : Callback σ) (st : σ) (decoder : DecoderBuffer) (buf : List Nat) (rest : Str) :
    Option (WState σ) := do
  let p ← push_encoded dbg decoder buf rest
  if p.consumed = 0 then plainRound dbg f st p.self p.buf rest
  else
    let o ← processResult dbg f st p.buf p.result
    if o.2 then return ⟨o.1, true, p.self, p.buf, rest⟩
    let rest ← sliceFrom rest p.consumed
    return ⟨o.1, false, p.self, p.buf, rest⟩

/-- `DecomposeWriter::write_str`, `src/parser/str/maybe_pct_encoded.rs` 138-184, with fuel. -/
def write_str (dbg : Bool) (f : Callback σ) : Nat → σ → DecoderBuffer → List Nat → Str → Option (WState σ)
  | 0, _, _, _, _ => none
  | fuel + 1, st, decoder, buf, rest =>
    if rest.isEmpty then some ⟨st, false, decoder, buf, rest⟩
    else (round dbg f st decoder buf rest).bind fun w =>
      if w.stop then some w else write_str dbg f fuel w.st w.decoder w.buf w.rest

/-- `write!(writer, "{v}")`: the pieces one after the other, until the callback stops. -/
def write_all (dbg : Bool) (f : Callback σ) : σ → DecoderBuffer → List Nat → List Str → Option (WState σ)
  | st, decoder, buf, [] => some ⟨st, false, decoder, buf, []⟩
  | st, decoder, buf, s :: r =>
    (write_str dbg f (2 * s.length + 2) st decoder buf s).bind fun w =>
      if w.stop then some w else write_all dbg f w.st w.decoder w.buf r

/-- The calls after the flush at the end of `process_percent_encoded_best_effort`,
`src/parser/str/maybe_pct_encoded.rs` 50-72. -/
def finish (f : Callback σ) (st : σ) (buf : List Nat) (len : Nat) : Option σ := do
  let len_suffix := len % 3
  let triplets_end := len - len_suffix
  let bytes ← range buf 0 triplets_end
  let triplets ← from_utf8 bytes
  let o ← f st (.invalid triplets)
  if o.2 then return o.1
  let o ← if 0 < len_suffix then f o.1 .stray else some (o.1, false)
  if o.2 then return o.1
  if 1 < len_suffix then
    let bytes ← range buf (triplets_end + 1) (triplets_end + len_suffix)
    let after_percent ← from_utf8 bytes
    let o ← f o.1 (.noPct after_percent)
    return o.1
  return o.1

/-- `process_percent_encoded_best_effort`, `src/parser/str/maybe_pct_encoded.rs` 25-75: the final state
of the callback. -/
def process_percent_encoded_best_effort (dbg : Bool) (f : Callback σ) (st : σ) (v : List Str) : Option σ := do
  let w ← write_all dbg f st {} (List.replicate 12 0) v
  if w.stop then return w.st
  let (_, buf, flushed) ← flush dbg w.decoder w.buf
  match flushed with
  | some len => finish f w.st buf len
  | none => return w.st

/-- `escape_write` with `allow_reserved`, `src/template/expand.rs` 401-445 (the other branch does not
use the decoder). -/
def escape_write (S : Spec) (dbg : Bool) (v : List Str) : Option Str :=
  process_percent_encoded_best_effort dbg (Tpl.escapeFrag S) [] v

/-- `escape_write_with_maxlen` with `allow_reserved`, `src/template/expand.rs` 448-513 (the other branch
does not use the decoder). -/
def escape_write_with_maxlen (S : Spec) (dbg : Bool) (v : List Str) (max_len : Option Nat) : Option Str :=
  match max_len with
  | some n => (process_percent_encoded_best_effort dbg (Tpl.truncFrag S dbg) ([], n) v).map Prod.fst
  | none => process_percent_encoded_best_effort dbg (Tpl.unboundedFrag S) [] v

end Verif.DecBuf
