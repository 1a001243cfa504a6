import Verif.Spec.Parts
import Verif.Spec.Pct
import Verif.Spec.Lit

/-!
# Dot segments and reference resolution (RFC 3986 sections 5.2.2, 5.2.3, 5.2.4)

Specification file, transcribed from the text of the RFC.
-/

namespace Verif.Rfc

/-- "remove the last segment and its preceding "/" (if any) from the output buffer" -/
def removeLastSegment (out : Str) : Str := ((out.reverse.dropWhile (· != '/')).drop 1).reverse

/-- "the first path segment in the input buffer [...], including the initial "/" character (if any)
and any subsequent characters up to, but not including, the next "/" character or the end of the
input buffer", and the remaining input. -/
def firstSegment (input : Str) : Str × Str :=
  match input with
  | [] => ([], [])
  | c :: r => (c :: r.takeWhile (· != '/'), r.dropWhile (· != '/'))

/-- One round of RFC 3986 section 5.2.4, step 2: new input buffer and new output buffer. -/
def removeDotsStep (input out : Str) : Str × Str :=
  match input with
  -- 2.A
  | '.' :: '.' :: '/' :: r => (r, out)
  | '.' :: '/' :: r => (r, out)
  -- 2.B
  | '/' :: '.' :: '/' :: r => ('/' :: r, out)
  | ['/', '.'] => (['/'], out)
  -- 2.C
  | '/' :: '.' :: '.' :: '/' :: r => ('/' :: r, removeLastSegment out)
  | ['/', '.', '.'] => (['/'], removeLastSegment out)
  -- 2.D
  | ['.'] => ([], out)
  | ['.', '.'] => ([], out)
  -- 2.E
  | i => ((firstSegment i).2, out ++ (firstSegment i).1)

/-- RFC 3986 section 5.2.4, steps 2 and 3.  Every round shortens the input buffer, so as many
rounds as there are characters suffice. -/
def removeDotsLoop : Nat → Str → Str → Str
  | 0, _, out => out
  | n + 1, input, out =>
    if input.isEmpty then out
    else removeDotsLoop n (removeDotsStep input out).1 (removeDotsStep input out).2

/-- RFC 3986 section 5.2.4, `remove_dot_segments`. -/
def remove_dot_segments (path : Str) : Str := removeDotsLoop path.length path []

/-- Splits a path at every `/` (never the empty list). -/
def splitSlash : Str → List Str
  | [] => [[]]
  | c :: r =>
    if c == '/' then [] :: splitSlash r
    else
      match splitSlash r with
      | [] => [[c]]
      | s :: ss => (c :: s) :: ss

/-- Joins segments with `/`. -/
def joinSlash : List Str → Str
  | [] => []
  | [s] => s
  | s :: ss => s ++ '/' :: joinSlash ss

/-- A segment whose percent-decoding is `.` or `..` is that dot segment (RFC 3986 section 2.4: "."
is unreserved, so its percent-encoded spelling is equivalent). -/
def undotSegment (s : Str) : Str :=
  if pctDecode s = [0x2E] then ['.']
  else if pctDecode s = [0x2E, 0x2E] then ['.', '.']
  else s

/-- The path with percent-encoded spellings of whole dot segments replaced by the dot segments. -/
def undot (path : Str) : Str := joinSlash ((splitSlash path).map undotSegment)

/-- The URL Standard's serialisation of a path that starts with `//` when there is no authority:
`/.` is put in front, so that the path is not read as an authority. -/
def escapePath (hasAuthority : Bool) (path : Str) : Str :=
  if !hasAuthority && path.take 2 == ['/', '/'] then '/' :: '.' :: path else path

/-- RFC 3986 section 5.2.3, "Merge Paths". -/
def mergePaths (base : Parts) (refPath : Str) : Str :=
  if base.authority.isSome && base.path.isEmpty then '/' :: refPath
  else (base.path.reverse.dropWhile (· != '/')).reverse ++ refPath

/-- RFC 3986 section 5.2.2, "Transform References" (strict), without the removal of dot segments. -/
def mergeReference (base r : Parts) : Parts :=
  if r.scheme.isSome then r
  else if r.authority.isSome then { r with scheme := base.scheme }
  else if r.path.isEmpty then
    { scheme := base.scheme, authority := base.authority, path := base.path,
      query := if r.query.isSome then r.query else base.query, fragment := r.fragment }
  else
    { scheme := base.scheme, authority := base.authority,
      path := if r.path.take 1 == ['/'] then r.path else mergePaths base r.path,
      query := r.query, fragment := r.fragment }

/-- RFC 3986 section 5.2.2, "Transform References" (strict), with percent-encoded dot segments
recognised. -/
def transform (base r : Parts) : Parts :=
  if r.scheme.isSome then
    { r with path := remove_dot_segments (undot r.path) }
  else if r.authority.isSome then
    { r with scheme := base.scheme, path := remove_dot_segments (undot r.path) }
  else if r.path.isEmpty then
    { scheme := base.scheme, authority := base.authority, path := base.path,
      query := if r.query.isSome then r.query else base.query, fragment := r.fragment }
  else
    { scheme := base.scheme, authority := base.authority,
      path := remove_dot_segments (undot
        (if r.path.take 1 == ['/'] then r.path else mergePaths base r.path)),
      query := r.query, fragment := r.fragment }

example : remove_dot_segments (chars! "/a/b/c/./../../g") = chars! "/a/g" := by decide +kernel
example : remove_dot_segments (chars! "mid/content=5/../6") = chars! "mid/6" := by decide +kernel
example : remove_dot_segments (chars! "../../a/..") = chars! "/" := by decide +kernel
example : undot (chars! "/a/%2e%2E/b%2e") = chars! "/a/../b%2e" := by decide +kernel

end Verif.Rfc
