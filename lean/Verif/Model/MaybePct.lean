import Verif.Model.PctCase

/-!
# `src/parser/str/maybe_pct_encoded.rs`: decomposition of possibly percent-encoded text

`none` is a panic.  `dbg` is `cfg(debug_assertions)`.  A `Display` value is the list of the pieces it
writes.  The callback returns `none` for a panic, or its new state with `true` for
`ControlFlow::Break`.  Callbacks never report a formatting error (writers do not fail in the model).
-/

namespace Verif.MaybePct

/-- `PctEncodedFragments`, `src/parser/str/maybe_pct_encoded.rs` 12-22.  The decoded character of
`Char` is not modelled: nothing in the crate looks at it. -/
inductive Frag
  | noPct (s : Str)
  | stray
  | char (s : Str)
  | invalid (s : Str)
  deriving DecidableEq, Repr

/-- Outcome of `core::str::from_utf8` (standard library): valid, or `Utf8Error` with `valid_up_to()`
and `error_len()`. -/
inductive Utf8Res
  | valid
  | err (upTo : Nat) (len : Option Nat)
  deriving DecidableEq, Repr

/-- A UTF-8 continuation byte. -/
def isCont (b : Nat) : Bool := 0x80 ≤ b && b < 0xC0

/-- The second byte of a three-byte sequence, as the standard library checks it. -/
def second3 (b0 b1 : Nat) : Bool :=
  (b0 == 0xE0 && 0xA0 ≤ b1 && b1 < 0xC0) || (0xE1 ≤ b0 && b0 ≤ 0xEC && isCont b1) ||
  (b0 == 0xED && 0x80 ≤ b1 && b1 < 0xA0) || (0xEE ≤ b0 && b0 ≤ 0xEF && isCont b1)

/-- The second byte of a four-byte sequence, as the standard library checks it. -/
def second4 (b0 b1 : Nat) : Bool :=
  (b0 == 0xF0 && 0x90 ≤ b1 && b1 < 0xC0) || (0xF1 ≤ b0 && b0 ≤ 0xF3 && isCont b1) ||
  (b0 == 0xF4 && 0x80 ≤ b1 && b1 < 0x90)

/-- One step of `core::str::from_utf8` (standard library, `run_utf8_validation`): the bytes after the
first character, or the `error_len()`. -/
def utf8Step (b0 : Nat) (r : List Nat) : Except (Option Nat) (List Nat) :=
  if b0 < 0x80 then .ok r
  else if 0xC2 ≤ b0 && b0 < 0xE0 then
    match r with
    | [] => .error none
    | b1 :: r => if isCont b1 then .ok r else .error (some 1)
  else if 0xE0 ≤ b0 && b0 < 0xF0 then
    match r with
    | [] => .error none
    | b1 :: r =>
      if second3 b0 b1 then
        match r with
        | [] => .error none
        | b2 :: r => if isCont b2 then .ok r else .error (some 2)
      else .error (some 1)
  else if 0xF0 ≤ b0 && b0 < 0xF5 then
    match r with
    | [] => .error none
    | b1 :: r =>
      if second4 b0 b1 then
        match r with
        | [] => .error none
        | b2 :: r =>
          if isCont b2 then
            match r with
            | [] => .error none
            | b3 :: r => if isCont b3 then .ok r else .error (some 3)
          else .error (some 2)
      else .error (some 1)
  else .error (some 1)

/-- `core::str::from_utf8` (standard library) from position `upTo`, with fuel. -/
def utf8Check : Nat → Nat → List Nat → Utf8Res
  | _, _, [] => .valid
  | 0, upTo, _ :: _ => .err upTo none
  | fuel + 1, upTo, b :: r =>
    match utf8Step b r with
    | .error e => .err upTo e
    | .ok r' => utf8Check fuel (upTo + (r.length + 1 - r'.length)) r'

/-- The bytes of the complete triplets in the buffer: `DecoderBuffer::decoded` up to
`len_encoded / 3`, `src/parser/str/maybe_pct_encoded.rs` 205-215, 236-257; `none` is a panic. -/
def decodedBytes : Str → Option (List Nat)
  | _ :: upper :: lower :: r =>
    (hexdigits_to_byte upper.toNat lower.toNat).bind fun b => (decodedBytes r).map (b :: ·)
  | _ => some []

/-- `PushResult`, `src/parser/str/maybe_pct_encoded.rs` 187-200, with the text written to `buf` in
place of its length. -/
inductive Push
  | needMore
  | decoded (s : Str)
  | undecodable (s : Str)
  deriving DecidableEq, Repr

/-- The body of the loop in `DecoderBuffer::push_encoded` after a triplet has been completed,
`src/parser/str/maybe_pct_encoded.rs` 308-343: the result, or to go on. -/
def checkTriplets (enc : Str) : Option (Option (Str × Push)) :=
  (decodedBytes enc).bind fun decoded =>
    match utf8Check 4 0 decoded with
    | .valid => some (some ([], .decoded enc))
    | .err upTo len =>
      if upTo ≠ 0 then none
      else
        match len with
        | none => some none
        | some v => some (some (enc.drop (v * 3), .undecodable (enc.take (v * 3))))

/-- `DecoderBuffer::push_encoded`, `src/parser/str/maybe_pct_encoded.rs` 266-349: `enc` is the content
of the buffer (`encoded[..len_encoded]`), `k` the number of bytes of the argument already taken by the
iterator.  Result: the new buffer, `len_consumed`, and the push result.  The thirteenth byte pushed
panics (`debug_assert!` or index out of bounds). -/
def pushLoop : Str → Nat → Str → Option (Str × Nat × Push)
  | enc, k, [] => some (enc, k, .needMore)
  | enc, k, c :: r =>
    if enc.length % 3 = 0 then
      if c ≠ '%' then some ([], k + c.utf8Size - 1, .undecodable enc)
      else if 12 ≤ enc.length then none
      else pushLoop (enc ++ ['%']) (k + c.utf8Size) r
    else if !isHex c then some ([], k + c.utf8Size - 1, .undecodable enc)
    else if enc.length % 3 = 1 then pushLoop (enc ++ [c]) (k + c.utf8Size) r
    else
      match checkTriplets (enc ++ [c]) with
      | none => none
      | some (some (enc', res)) => some (enc', k + c.utf8Size, res)
      | some none => pushLoop (enc ++ [c]) (k + c.utf8Size) r

variable {σ : Type}

/-- The callback `f`: `none` is a panic, `true` is `ControlFlow::Break`. -/
abbrev Callback (σ : Type) := σ → Frag → Option (σ × Bool)

/-- Calling the callback with the next fragment unless it has asked to stop. -/
def andThen (f : Callback σ) (frag : Frag) : σ × Bool → Option (σ × Bool)
  | (st, true) => some (st, true)
  | (st, false) => f st frag

/-- `DecomposeWriter::output_as_undecodable`, `src/parser/str/maybe_pct_encoded.rs` 104-133, and the
same sequence of calls at the end of `process_percent_encoded_best_effort`, 50-72. -/
def output_as_undecodable (f : Callback σ) (st : σ) (frag : Str) : Option (σ × Bool) :=
  let complete := frag.take (frag.length - frag.length % 3)
  let incomplete := frag.drop (frag.length - frag.length % 3)
  (f st (.invalid complete)).bind fun o =>
    if incomplete.length = 0 then some o
    else (andThen f .stray o).bind fun o =>
      if incomplete.length = 1 then some o else andThen f (.noPct (incomplete.drop 1)) o

/-- The flush in `DecomposeWriter::write_str`, `src/parser/str/maybe_pct_encoded.rs` 145-150. -/
def flushRest (f : Callback σ) (st : σ) (enc rest : Str) : Option ((σ × Bool) × Str) :=
  if enc.isEmpty then some ((st, false), rest)
  else (output_as_undecodable f st enc).bind fun o =>
    if o.2 then some (o, rest) else (sliceFrom rest enc.length).map fun rest => (o, rest)

/-- The plain prefix, `src/parser/str/maybe_pct_encoded.rs` 152-161. -/
def plainPrefix (dbg : Bool) (f : Callback σ) (o : (σ × Bool) × Str) : Option ((σ × Bool) × Str) :=
  if o.1.2 then some o
  else
    let p := (find_split o.2 '%').getD (o.2, [])
    if dbg && p.1.isEmpty then none
    else (f o.1.1 (.noPct p.1)).map fun o' => (o', p.2)

/-- Processing the push result, `src/parser/str/maybe_pct_encoded.rs` 164-179. -/
def processPush (f : Callback σ) (st : σ) : Push → Option (σ × Bool)
  | .decoded s => f st (.char s)
  | .undecodable s => output_as_undecodable f st s
  | .needMore => some (st, false)

/-- One round of the loop in `DecomposeWriter::write_str`, `src/parser/str/maybe_pct_encoded.rs`
143-181: the callback state with the stop flag, the new buffer, the new `rest`. -/
def writeStep (dbg : Bool) (f : Callback σ) (st : σ) (enc rest : Str) :
    Option ((σ × Bool) × Str × Str) :=
  (pushLoop enc 0 rest).bind fun (enc', consumed, res) =>
    if consumed = 0 then
      ((flushRest f st enc' rest).bind (plainPrefix dbg f)).map fun (o, rest) => (o, [], rest)
    else
      (processPush f st res).bind fun o =>
        if o.2 then some (o, enc', rest)
        else (sliceFrom rest consumed).map fun rest => (o, enc', rest)

/-- `DecomposeWriter::write_str`, `src/parser/str/maybe_pct_encoded.rs` 140-184, with fuel. -/
def writeStr (dbg : Bool) (f : Callback σ) : Nat → σ → Str → Str → Option ((σ × Bool) × Str)
  | 0, _, _, _ => none
  | fuel + 1, st, enc, rest =>
    if rest.isEmpty then some ((st, false), enc)
    else
      (writeStep dbg f st enc rest).bind fun (o, enc, rest) =>
        if o.2 then some (o, enc) else writeStr dbg f fuel o.1 enc rest

/-- `write!(writer, "{v}")`: the pieces one after the other, until the callback stops. -/
def writeAll (dbg : Bool) (f : Callback σ) : σ → Str → List Str → Option ((σ × Bool) × Str)
  | st, enc, [] => some ((st, false), enc)
  | st, enc, s :: r =>
    (writeStr dbg f (2 * s.length + 2) st enc s).bind fun (o, enc) =>
      if o.2 then some (o, enc) else writeAll dbg f o.1 enc r

/-- `process_percent_encoded_best_effort`, `src/parser/str/maybe_pct_encoded.rs` 25-75: the final
state of the callback. -/
def process_percent_encoded_best_effort (dbg : Bool) (f : Callback σ) (st : σ) (v : List Str) :
    Option σ :=
  (writeAll dbg f st [] v).bind fun (o, enc) =>
    if o.2 then some o.1
    else if enc.isEmpty then some o.1
    else (output_as_undecodable f o.1 enc).map Prod.fst

end Verif.MaybePct
