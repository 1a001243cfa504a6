import Verif.Model.PctCase
import Verif.Model.Components

/-!
# `src/normalize/path.rs`

`Option` results: `none` is a panic.  Text written to a `fmt::Write` is modelled by the text; writes
never fail (the two internal writers that stop early are modelled below, they only look at the
text written so far).  `debug_assert!`s are not modelled, `assert!`s are.

Loops take a fuel argument that bounds the number of iterations; the initial fuel is large enough
and running out of it is `none` (it is proved not to happen).  Iterators are modelled by the list
of their items.
-/

namespace Verif

/-- `NormalizationMode`, `src/normalize.rs` 104-120: `None`, `Default`,
`PreserveAuthoritylessRelativePath`. -/
inductive NormalizationMode
  | off
  | default
  | preserve
  deriving DecidableEq, Repr

/-- `case_pct_normalization`, `src/normalize.rs` 128-135. -/
def NormalizationMode.case_pct : NormalizationMode → Bool
  | .off => false
  | .default => true
  | .preserve => true

/-- `PathToNormalize`, `src/normalize/path.rs` 31-38. -/
structure PathToNormalize where
  front : Str
  back : Option Str
  deriving DecidableEq, Repr

namespace PathToNormalize

/-- `from_single_path`, `src/normalize/path.rs` 44-49. -/
def from_single_path (path : Str) : PathToNormalize := ⟨path, none⟩

/-- `from_paths_to_be_resolved`, `src/normalize/path.rs` 53-77. -/
def from_paths_to_be_resolved (base reference : Str) : PathToNormalize :=
  if starts_with reference ['/'] then ⟨reference, none⟩
  else
    match rfind_split_hole base '/' with
    | some (before, _) => ⟨before ++ ['/'], if reference.isEmpty then none else some reference⟩
    | none => ⟨reference, none⟩

/-- `is_empty`, `src/normalize/path.rs` 82-88. -/
def is_empty (p : PathToNormalize) : Bool := p.front.isEmpty

/-- `len`, `src/normalize/path.rs` 93-95. -/
def len (p : PathToNormalize) : Nat :=
  blen p.front + match p.back with | none => 0 | some b => blen b

/-- `starts_with_slash`, `src/normalize/path.rs` 99-101. -/
def starts_with_slash (p : PathToNormalize) : Bool := starts_with p.front ['/']

/-- `byte_at`, `src/normalize/path.rs` 109-116. -/
def byte_at (p : PathToNormalize) (i : Nat) : Option Nat :=
  if i < blen p.front then (utf8s p.front)[i]?
  else p.back.bind fun b => (utf8s b)[i - blen p.front]?

/-- `str::find(char)`: byte position. -/
def findB (s : Str) (c : Char) : Option Nat := (find_split s c).map fun x => blen x.1

/-- `find_next_slash_from`, `src/normalize/path.rs` 121-136; outer `none` is a slicing panic. -/
def find_next_slash_from (p : PathToNormalize) (start : Nat) : Option (Option Nat) :=
  if start < blen p.front then
    (sliceFrom p.front start).map fun s => (findB s '/').map fun pos => start + pos
  else
    match p.back with
    | none => some none
    | some b =>
      (sliceFrom b (start - blen p.front)).map fun s => (findB s '/').map fun pos => start + pos

/-- `remove_start`, `src/normalize/path.rs` 139-149. -/
def remove_start (p : PathToNormalize) (n : Nat) : Option PathToNormalize :=
  if n < blen p.front then (sliceFrom p.front n).map fun f => ⟨f, p.back⟩
  else some ⟨(p.back.bind fun s => sliceFrom s (n - blen p.front)).getD [], none⟩

end PathToNormalize

/-- `SegmentKind`, `src/normalize/path.rs` 596-604. -/
inductive SegmentKind
  | dot
  | dotDot
  | normal
  deriving DecidableEq, Repr

/-- `SegmentKind::from_segment`, `src/normalize/path.rs` 609-624. -/
def SegmentKind.from_segment (s : Str) : SegmentKind :=
  if !(1 ≤ blen s && blen s ≤ 6) then .normal
  else if !(starts_with s ['.'] || starts_with s ['%']) then .normal
  else if [['.'], ['%', '2', 'E'], ['%', '2', 'e']].contains s then .dot
  else if [['.', '.'], ['.', '%', '2', 'E'], ['.', '%', '2', 'e'], ['%', '2', 'E', '.'],
      ['%', '2', 'E', '%', '2', 'E'], ['%', '2', 'E', '%', '2', 'e'], ['%', '2', 'e', '.'],
      ['%', '2', 'e', '%', '2', 'E'], ['%', '2', 'e', '%', '2', 'e']].contains s then .dotDot
  else .normal

/-- `PathSegment`, `src/normalize/path.rs` 629-634. -/
structure PathSegment where
  has_leading_slash : Bool
  start : Nat
  stop : Nat
  deriving DecidableEq, Repr

/-- `PathSegment::segment`, `src/normalize/path.rs` 640-650; `none` is a panic. -/
def PathSegment.segment (g : PathSegment) (p : PathToNormalize) : Option Str :=
  match slice p.front g.start g.stop with
  | some s => some s
  | none =>
    match p.back with
    | none => none
    | some b =>
      if g.start < blen p.front then none
      else slice b (g.start - blen p.front) (g.stop - blen p.front)

/-- `PathSegment::kind`, `src/normalize/path.rs` 655-657. -/
def PathSegment.kind (g : PathSegment) (p : PathToNormalize) : Option SegmentKind :=
  (g.segment p).map SegmentKind.from_segment

/-- `PathSegmentsIter::next`, `src/normalize/path.rs` 682-702: inner `none` is the end of the
iteration; otherwise the segment (the new cursor is its end). -/
def iterNext (p : PathToNormalize) (cursor : Nat) : Option (Option PathSegment) :=
  match p.byte_at cursor with
  | none => some none
  | some b =>
    let has_leading_slash := b == 47
    let start := if has_leading_slash then cursor + 1 else cursor
    (p.find_next_slash_from start).map fun o =>
      some ⟨has_leading_slash, start, match o with | some e => e | none => p.len⟩

/-- All items of `PathSegmentsIter` from a cursor position. -/
def iterList (p : PathToNormalize) : Nat → Nat → Option (List PathSegment)
  | 0, _ => none
  | fuel + 1, cursor =>
    match iterNext p cursor with
    | none => none
    | some none => some []
    | some (some g) => (iterList p fuel g.stop).map fun r => g :: r

/-- `PathSegmentsIter::new(path)` as a list. -/
def segments (p : PathToNormalize) : Option (List PathSegment) := iterList p (p.len + 1) 0

namespace PathToNormalize

/-- The loop of `remove_ignorable_prefix`, `src/normalize/path.rs` 156-169. -/
def remove_ignorable_go : Nat → PathToNormalize → Option PathToNormalize
  | 0, _ => none
  | fuel + 1, p =>
    match iterNext p 0 with
    | none => none
    | some none => some p
    | some (some seg) =>
      if seg.has_leading_slash then some p
      else
        match seg.kind p with
        | none => none
        | some .normal => some p
        | some _ =>
          match p.remove_start (min (blen p.front) (seg.stop + 1)) with
          | none => none
          | some p => remove_ignorable_go fuel p

/-- `remove_ignorable_prefix`, `src/normalize/path.rs` 155-170. -/
def remove_ignorable_prefix (p : PathToNormalize) : Option PathToNormalize :=
  remove_ignorable_go (p.len + 1) p

/-- Writing a text with or without percent/case normalisation (used in `src/normalize/path.rs`
258-270 and 431-435). -/
def writeText (S : Spec) (op : NormalizationMode) (s : Str) : Option Str :=
  if op.case_pct then pct_case_normalized S s else some s

/-- The `map_while(..).last().unwrap_or(0)` of `src/normalize/path.rs` 302-314. -/
def skippedLen (p : PathToNormalize) : List PathSegment → Nat → Option Nat
  | [], acc => some acc
  | g :: r, acc =>
    match g.kind p with
    | none => none
    | some .normal => some acc
    | some _ => skippedLen p r g.stop

/-- `QUEUE_SIZE`, `src/normalize/path.rs` 224. -/
def QUEUE_SIZE : Nat := 8

/-- The mutable variables of the `for` loop, `src/normalize/path.rs` 336-344. -/
structure QState where
  queue : List (Option Str)
  first_has_slash : Bool
  resolved_end : Nat
  level : Nat
  may : Bool
  deriving DecidableEq, Repr

/-- The `for` loop, `src/normalize/path.rs` 345-369. -/
def scan (p : PathToNormalize) : List PathSegment → QState → Option QState
  | [], st => some st
  | g :: r, st =>
    match g.kind p with
    | none => none
    | some .dot => scan p r { st with may := true }
    | some .dotDot =>
      scan p r { st with
        level := st.level - 1
        may := true
        queue := st.queue.set (st.level - 1) none }
    | some .normal =>
      if st.level < st.queue.length then
        match g.segment p with
        | none => none
        | some name =>
          scan p r {
            queue := st.queue.set st.level (some name)
            may := false
            resolved_end := g.stop
            first_has_slash := if st.level = 0 then g.has_leading_slash else st.first_has_slash
            level := st.level + 1 }
      else scan p r { st with level := st.level + 1 }

/-- `emit_segment`, `src/normalize/path.rs` 396-436: the text written and the new value of
`only_a_slash_is_written`. -/
def emit_segment (S : Spec) (only_a_slash : Option Bool) (first_has_slash : Bool) (segname : Str)
    (authority_is_present : Bool) (op : NormalizationMode) : Option (Str × Option Bool) :=
  (writeText S op segname).map fun t =>
    match only_a_slash with
    | none =>
      ((if first_has_slash then ['/'] else []) ++ t, some (first_has_slash && segname.isEmpty))
    | some only =>
      if only && !authority_is_present then (['.', '/', '/'] ++ t, some false)
      else (['/'] ++ t, some only)

/-- The loop over the queue, `src/normalize/path.rs` 376-385. -/
def emitQueue (S : Spec) (first_has_slash auth : Bool) (op : NormalizationMode) :
    List (Option Str) → Option Bool → Option (Str × Option Bool)
  | [], o => some ([], o)
  | none :: r, o => emitQueue S first_has_slash auth op r o
  | some seg :: r, o =>
    match emit_segment S o first_has_slash seg auth op with
    | none => none
    | some (t, o) => (emitQueue S first_has_slash auth op r o).map fun x => (t ++ x.1, x.2)

/-- Result of `resolve_and_write_path_prefixes`. -/
inductive Resolved
  /-- `ControlFlow::Break` after writing -/
  | brk (out : Str)
  /-- `ControlFlow::Continue`: written text, `only_a_slash_is_written`,
  `may_have_not_yet_resolved_dot_segments`, remaining path -/
  | cont (out : Str) (only_a_slash : Option Bool) (may : Bool) (rest : PathToNormalize)
  deriving DecidableEq, Repr

/-- `resolve_and_write_path_prefixes`, `src/normalize/path.rs` 285-391. -/
def resolve_and_write_path_prefixes (S : Spec) (op : NormalizationMode) (auth : Bool)
    (only_a_slash : Option Bool) (may : Bool) (p : PathToNormalize) : Option Resolved := do
  if p.is_empty || !may then none
  else
    let segs ← segments p
    let skipped ← skippedLen p segs 0
    let p ← p.remove_start skipped
    if p.is_empty then
      some (.brk (if !auth && only_a_slash == some true then ['.', '/', '/'] else ['/']))
    else
      let segs ← segments p
      let st ← scan p segs ⟨List.replicate QUEUE_SIZE none, false, 0, 0, may⟩
      let (out, o) ← emitQueue S st.first_has_slash auth op st.queue only_a_slash
      let p ← p.remove_start st.resolved_end
      some (.cont out o st.may p)

/-- The `while` loop, `src/normalize/path.rs` 219-237: the text written, and unless the function
returned, `only_a_slash_is_written` and the remaining path. -/
def whileLoop (S : Spec) (op : NormalizationMode) (auth : Bool) :
    Nat → Option Bool → Bool → PathToNormalize → Option (Str × Option (Option Bool × PathToNormalize))
  | 0, _, _, _ => none
  | fuel + 1, o, may, p =>
    if !p.is_empty && may then
      match resolve_and_write_path_prefixes S op auth o may p with
      | none => none
      | some (.brk out) => some (out, none)
      | some (.cont out o may p) => (whileLoop S op auth fuel o may p).map fun x => (out ++ x.1, x.2)
    else some ([], some (o, p))

/-- The part after the loop, `src/normalize/path.rs` 239-279. -/
def writeRest (S : Spec) (op : NormalizationMode) (auth : Bool) (o : Option Bool)
    (p : PathToNormalize) : Option Str := do
  if p.is_empty then some []
  else
    let (pre, p) ←
      if !auth then
        match o with
        | none =>
          if (p.front == ['/'] && (match p.back with
              | some b => starts_with b ['/']
              | none => false)) || starts_with p.front ['/', '/'] then
            (p.remove_start 2).map fun p => (['/', '.', '/', '/'], p)
          else some ([], p)
        | some true =>
          if p.starts_with_slash then (p.remove_start 1).map fun p => (['.', '/', '/'], p)
          else some ([], p)
        | some false => some ([], p)
      else some ([], p)
    let f ← writeText S op p.front
    let b ← match p.back with
      | none => some []
      | some b => writeText S op b
    some (pre ++ (f ++ b))

/-- `fmt_write_normalize`, `src/normalize/path.rs` 174-282. -/
def fmt_write_normalize (S : Spec) (op : NormalizationMode) (auth : Bool) (p : PathToNormalize) :
    Option Str := do
  if p.is_empty then some []
  else if op == .preserve && !auth && !p.starts_with_slash then
    let f ← pct_case_normalized S p.front
    let b ← match p.back with
      | none => some []
      | some b => pct_case_normalized S b
    some (f ++ b)
  else
    let p ← p.remove_ignorable_prefix
    if p.is_empty then some (if auth then ['/'] else [])
    else
      let (out, r) ← whileLoop S op auth (p.len + 1) none true p
      match r with
      | none => some out
      | some (o, p) => (writeRest S op auth o p).map fun t => out ++ t

/-- `PrefixRetriever` after the writes of the given chunks: at most three bytes are kept,
`src/normalize/path.rs` 443-470. -/
def prefixRetriever (written : Str) : List Nat := (utf8s written).take 3

/-- `ensure_rfc3986_normalizable_with_authority_absent`, `src/normalize/path.rs` 441-490:
`some true` is `Ok(())`. -/
def ensure_rfc3986_normalizable_with_authority_absent (p : PathToNormalize) : Option Bool :=
  (fmt_write_normalize .uri .off false p).map fun t => !(prefixRetriever t == [47, 46, 47])

end PathToNormalize

end Verif
