import Verif.Model.Edit
import Verif.Model.Encode
import Verif.Model.Format

/-!
# The `try_` functions and the allocator

A `String` is a text and a capacity.  The allocator is an arbitrary oracle: for the `n`-th request, for
a capacity of at least `m` bytes, it answers `none` (refused) or the capacity granted.

`String::try_reserve` turns a refusal into `Err(TryReserveError)`; every other growth of a string or
vector (`extend`, `push_str`, `replace_range`, `to_owned`) does not return: `abort`.
-/

namespace Verif.Heap

/-- The allocator: number of the request and bytes needed to the capacity granted. -/
abbrev Alloc := Nat → Nat → Option Nat

/-- `String`, with the number of requests made to the allocator so far. -/
structure Buf where
  text : Str
  cap : Nat
  calls : Nat
  deriving DecidableEq, Repr

/-- How a call ends; the buffer is the caller's string after the call. -/
inductive Run (α : Type)
  /-- `Ok(_)` -/
  | ok (b : Buf) (a : α)
  /-- `Err(TryReserveError)` -/
  | err (b : Buf)
  /-- an allocation failure that is not returned to the caller -/
  | abort
  /-- panic -/
  | panic
  deriving DecidableEq, Repr

/-- The `?` operator and sequencing. -/
def Run.bind {α β : Type} (r : Run α) (f : Buf → α → Run β) : Run β :=
  match r with
  | .ok b a => f b a
  | .err b => .err b
  | .abort => .abort
  | .panic => .panic

/-- Growth of the capacity to at least `need` bytes (standard library): `none` if the allocator
refuses. -/
def grow (alloc : Alloc) (b : Buf) (need : Nat) : Option Buf :=
  if need ≤ b.cap then some b
  else
    match alloc b.calls need with
    | some c => some { b with cap := max c need, calls := b.calls + 1 }
    | none => none

/-- `String::try_reserve`. -/
def try_reserve (alloc : Alloc) (b : Buf) (additional : Nat) : Run Unit :=
  match grow alloc b (blen b.text + additional) with
  | some b => .ok b ()
  | none => .err { b with calls := b.calls + 1 }

/-- Growth by an infallible function. -/
def reserve (alloc : Alloc) (b : Buf) (need : Nat) : Run Unit :=
  match grow alloc b need with
  | some b => .ok b ()
  | none => .abort

/-- `String::push_str`. -/
def push_str (alloc : Alloc) (b : Buf) (s : Str) : Run Unit :=
  (reserve alloc b (blen b.text + blen s)).bind fun b _ => .ok { b with text := b.text ++ s } ()

/-- `String::replace_range(i..j, new)`. -/
def replace_range (alloc : Alloc) (b : Buf) (i j : Nat) (new : Str) : Run Unit :=
  match replaceRange b.text i j new with
  | none => .panic
  | some t => (reserve alloc b (blen t)).bind fun b _ => .ok { b with text := t } ()

/-- `str::to_owned` / `String::from(&str)`: a new string. -/
def to_owned (alloc : Alloc) (calls : Nat) (s : Str) : Run Unit := push_str alloc ⟨[], 0, calls⟩ s

/-- `try_percent_encode_iri_inline`, `src/convert.rs` 228-276.  The buffer is taken out of the string
(242), so that the string would be left empty by an unwinding panic; this is not represented: a panic
has no buffer here. -/
def try_percent_encode_iri_inline (alloc : Alloc) (iri : Buf) : Run Unit :=
  let num_nonascii := count_nonascii iri.text
  if num_nonascii == 0 then .ok iri ()
  else
    let additional := num_nonascii * 2
    (try_reserve alloc iri additional).bind fun iri _ =>
    let src_len := blen iri.text
    -- `buf.extend(repeat(b'\0').take(additional))`
    (reserve alloc iri (src_len + additional)).bind fun iri _ =>
    let buf := utf8s iri.text ++ List.replicate additional 0
    match inlineLoop src_len buf buf.length src_len num_nonascii with
    | none => .panic
    | some buf =>
      match from_utf8 buf with
      | none => .panic
      | some s => .ok { iri with text := s } ()

/-- `try_encode_to_uri_inline`, `src/types/iri.rs` 213-226, of the IRI type `k`, with its debug
assertion. -/
def try_encode_to_uri_inline (debug : Bool) (alloc : Alloc) (k : IriKind) (self : Buf) : Run Unit :=
  (try_percent_encode_iri_inline alloc self).bind fun self _ =>
    if debug && k.validate .iri self.text != some true then .panic else .ok self ()

/-- `try_encode_into_uri`, `src/types/iri.rs` 283-296; `new_unchecked_justified` asserts that the
text is valid in a debug build. -/
def try_encode_into_uri (debug : Bool) (alloc : Alloc) (k : IriKind) (self : Buf) : Run Str :=
  (try_encode_to_uri_inline debug alloc k self).bind fun self _ =>
    if debug && k.validate .uri self.text != some true then .panic else .ok self self.text

/-- `replace_domain_impl`, `src/types/generic.rs` 66-103: the range returned. -/
def replace_domain_impl (alloc : Alloc) (S : Spec) (iri_ref : Buf) (new_host : Str)
    (replace_only_reg_name : Bool) : Run (Option (Nat × Nat)) :=
  match AuthorityComponents.from_iri_get_offset iri_ref.text with
  | none => .ok iri_ref none
  | some (authority, offset) =>
    match authority.host with
    | none => .panic
    | some old_host =>
      let host_start := offset + authority.host_start
      let old_host_end := host_start + blen old_host
      if !validate_host S new_host then .ok iri_ref none
      else if replace_only_reg_name && !is_host_reg_name old_host then .ok iri_ref none
      else
        (if blen old_host ≤ blen new_host then
            try_reserve alloc iri_ref (blen new_host - blen old_host)
          else .ok iri_ref ()).bind fun iri_ref _ =>
        (replace_range alloc iri_ref host_start old_host_end new_host).bind fun iri_ref _ =>
        .ok iri_ref (some (host_start, host_start + blen new_host))

/-- `try_replace_host_impl`, `src/types/generic/normal.rs` 979-1000 (same code in the other types but
for the debug assertion, which is evaluated after a failed allocation, too). -/
def try_replace_host_impl (debug : Bool) (alloc : Alloc) (S : Spec) (k : IriKind) (self : Buf)
    (new_host : Str) (replace_only_reg_name : Bool) : Run (Option Str) :=
  let check (b : Buf) (r : Run (Option Str)) : Run (Option Str) :=
    if debug && k.replaceHostAssertion.validate S b.text != some true then .panic else r
  match replace_domain_impl alloc S self new_host replace_only_reg_name with
  | .ok b none => check b (.ok b none)
  | .ok b (some (st, e)) =>
    check b (match slice b.text st e with
      | some h => .ok b (some h)
      | none => .panic)
  | .err b => check b (.err b)
  | .abort => .abort
  | .panic => .panic

/-- `PasswordMasked::try_to_dedicated_string`, `src/mask_password.rs` 202-223, without the debug
assertion of `new_unchecked_justified`: the new string. -/
def masked_try_to_dedicated_string (alloc : Alloc) (calls : Nat) (iri_ref : Str) : Run Unit :=
  match password_range_to_hide iri_ref with
  | none => .panic
  | some none => to_owned alloc calls iri_ref
  | some (some (st, e)) =>
    (try_reserve alloc ⟨[], 0, calls⟩ (blen iri_ref - (e - st))).bind fun s _ =>
    match sliceTo iri_ref st, sliceFrom iri_ref e with
    | some a, some c =>
      (push_str alloc s a).bind fun s _ => push_str alloc s c
    | _, _ => .panic

/-- `StringWriter`, `src/format.rs` 67-74. -/
structure StringWriter where
  buffer : Buf
  error : Bool
  /-- an infallible allocation has failed -/
  aborted : Bool

/-- `StringWriter::write_str`, `src/format.rs` 76-90 (after an `abort` nothing happens any more). -/
def StringWriter.write (alloc : Alloc) (w : StringWriter) (s : Str) : StringWriter × Bool :=
  if w.aborted then (w, false)
  else if w.error then (w, false)
  else
    match try_reserve alloc w.buffer (blen s) with
    | .err b => ({ w with buffer := b, error := true }, false)
    | .ok b _ =>
      match push_str alloc b s with
      | .ok b _ => ({ w with buffer := b }, true)
      | _ => ({ w with aborted := true }, false)
    | _ => ({ w with aborted := true }, false)

/-- `try_append_to_string`, `src/format.rs` 92-111. -/
def try_append_to_string (alloc : Alloc) (dest : Buf) (d : Display) : Run Unit :=
  let r := d.run (StringWriter.write alloc) ⟨dest, false, false⟩
  if r.1.aborted then .abort
  else if r.2 = false then
    if r.1.error then .err r.1.buffer else .panic
  else .ok r.1.buffer ()

end Verif.Heap
