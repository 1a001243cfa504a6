import Verif.Spec.Format
import Verif.Model.Encode
import Verif.Model.Types

/-!
# `src/format.rs`

A `fmt::Write` is a state and a step function that says what `write_str` does to the state and
whether it returns `Ok`.  An outer `none` is a panic.
-/

namespace Verif

namespace Display

/-- `write!(writer, "{}", value)`: run the `Display` program against a writer. -/
def run {σ : Type} (step : σ → Str → σ × Bool) : Display → σ → σ × Bool
  | done ok, w => (w, ok)
  | write s next, w => (next (step w s).2).run step (step w s).1

end Display

namespace Fmt

/-- `str::strip_prefix(&str)`. -/
def stripPrefix : Str → Str → Option Str
  | [], s => some s
  | _ :: _, [] => none
  | c :: p, d :: s => if c = d then stripPrefix p s else none

/-- `CmpWriter::write_str`, `src/format.rs` 120-129. -/
def cmpWrite (w : Str) (s : Str) : Str × Bool :=
  match stripPrefix s w with
  | some rest => (rest, true)
  | none => (w, false)

/-- `eq_str_display`, `src/format.rs` 113-134. -/
def eq_str_display (s : Str) (d : Display) : Bool :=
  let r := d.run cmpWrite s
  r.2 && r.1.isEmpty

/-- `ByteBufWriter`, `src/format.rs` 27-32.  `front` is the part of the caller's buffer that is
already split off. -/
structure ByteBufWriter where
  front : List Nat
  buffer : List Nat
  len_written : Nat

/-- `ByteBufWriter::write_str`, `src/format.rs` 35-46. -/
def ByteBufWriter.write (w : ByteBufWriter) (s : Str) : ByteBufWriter × Bool :=
  let len := blen s
  if w.buffer.length < len then (w, false)
  else ({ front := w.front ++ utf8s s, buffer := w.buffer.drop len,
          len_written := w.len_written + len }, true)

/-- `write_to_slice`, `src/format.rs` 50-65: the result (`none` is `Err(CapacityOverflowError)`) and
the contents of `buf` afterwards. -/
def write_to_slice (buf : List Nat) (d : Display) : Option (Option Str × List Nat) :=
  let r := d.run ByteBufWriter.write ⟨[], buf, 0⟩
  let buf' := r.1.front ++ r.1.buffer
  if r.2 = false then some (none, buf')
  else
    if r.1.len_written ≤ buf'.length then
      match from_utf8 (buf'.take r.1.len_written) with
      | some t => some (some t, buf')
      | none => none
    else none

/-- `StringWriter`, `src/format.rs` 67-74, with the number of `try_reserve` calls so far. -/
structure StringWriter where
  buffer : Str
  error : Bool
  calls : Nat

/-- `StringWriter::write_str`, `src/format.rs` 76-90.  `alloc n` says whether the allocator grants
the `n`-th `try_reserve`. -/
def StringWriter.write (alloc : Nat → Bool) (w : StringWriter) (s : Str) : StringWriter × Bool :=
  if w.error then (w, false)
  else if alloc w.calls = false then ({ w with error := true, calls := w.calls + 1 }, false)
  else ({ w with buffer := w.buffer ++ s, calls := w.calls + 1 }, true)

/-- `try_append_to_string`, `src/format.rs` 92-111: whether it returns `Ok`, and `dest` afterwards. -/
def try_append_to_string (alloc : Nat → Bool) (dest : Str) (d : Display) : Option (Bool × Str) :=
  let r := d.run (StringWriter.write alloc) ⟨dest, false, 0⟩
  if r.2 = false then
    if r.1.error then some (false, r.1.buffer) else none
  else some (true, r.1.buffer)

/-- `ToStringFallible::try_to_string`, `src/format.rs` 153-163; `some none` is
`Err(TryReserveError)`. -/
def try_to_string (alloc : Nat → Bool) (d : Display) : Option (Option Str) :=
  match try_append_to_string alloc [] d with
  | none => none
  | some (true, s) => some (some s)
  | some (false, _) => some none

/-- `try_to_dedicated_string` of `Normalized`, `MappedToUri` and `Built`: `src/normalize.rs` 644-655
and 676-690, `src/convert.rs` 77-88, `src/build.rs` 1162-1172.  In a debug build
`new_unchecked_justified` asserts that the text is valid (`src/types/generic/macros.rs` 250-259 and its owned twin). -/
def try_to_dedicated_string (debug : Bool) (validate : Str → Option Bool) (alloc : Nat → Bool)
    (d : Display) : Option (Option Str) :=
  match try_to_string alloc d with
  | none => none
  | some none => some none
  | some (some s) => if debug && !(validate s == some true) then none else some (some s)

end Fmt

end Verif
