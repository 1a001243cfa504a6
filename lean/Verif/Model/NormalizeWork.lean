import Verif.Model.PctWork
import Verif.Model.AccessWork
import Verif.Model.Normalize

/-!
# Normalization and resolution with a counter of the bytes they look at

The functions of `Model/PathNorm.lean` and `Model/Normalize.lean` with the counter of `Model/ValidateWork.lean`, on
top of `Model/AccessWork.lean` (splitting) and `Model/PctWork.lean` (triplets).  Simplifications, all but the first
towards a higher count: comparing a segment with the spellings of dot segments counts each of its bytes (at most six)
once; an iteration over path segments that stops early counts as if it went to the end; the rest of a path that is
written at once counts twice its bytes (the bound of C90), also if it is copied.  That the results are those
of the functions without a counter is theorem `C91_same`.
-/

namespace Verif.Work

/-- `find_next_slash_from`, `src/normalize/path.rs` 121-136. -/
def find_next_slash_from (p : PathToNormalize) (start : Nat) : T (Option (Option Nat)) :=
  if start < blen p.front then
    match sliceFrom p.front start with
    | none => ret none
    | some s => bind (find_split s '/') fun o => ret (some (o.map fun x => start + blen x.1))
  else
    match p.back with
    | none => ret (some none)
    | some b =>
      match sliceFrom b (start - blen p.front) with
      | none => ret none
      | some s => bind (find_split s '/') fun o => ret (some (o.map fun x => start + blen x.1))

/-- `PathSegmentsIter::next`, `src/normalize/path.rs` 682-702: the byte at the cursor and the search. -/
def iterNext (p : PathToNormalize) (cursor : Nat) : T (Option (Option PathSegment)) :=
  bind (p.byte_at cursor, 1) fun
  | none => ret (some none)
  | some b =>
    let has_leading_slash := b == 47
    let start := if has_leading_slash then cursor + 1 else cursor
    bind (find_next_slash_from p start) fun x =>
      ret (x.map fun o => some ⟨has_leading_slash, start, o.getD p.len⟩)

/-- All items of `PathSegmentsIter` from a cursor position, `src/normalize/path.rs` 682-702. -/
def iterList (p : PathToNormalize) : Nat → Nat → T (Option (List PathSegment))
  | 0, _ => ret none
  | fuel + 1, cursor =>
    bind (iterNext p cursor) fun
    | none => ret none
    | some none => ret (some [])
    | some (some g) => bind (iterList p fuel g.stop) fun o => ret (o.map fun r => g :: r)

/-- `PathSegmentsIter::new(path)`, `src/normalize/path.rs` 673-675, to the end. -/
def segments (p : PathToNormalize) : T (Option (List PathSegment)) := iterList p (p.len + 1) 0

/-- `PathSegment::kind`, `src/normalize/path.rs` 655-657, 609-624: at most six bytes. -/
def kind (g : PathSegment) (p : PathToNormalize) : T (Option SegmentKind) := (g.kind p, min 6 (g.stop - g.start))

/-- The loop of `remove_ignorable_prefix`, `src/normalize/path.rs` 156-169. -/
def remove_ignorable_go : Nat → PathToNormalize → T (Option PathToNormalize)
  | 0, _ => ret none
  | fuel + 1, p =>
    bind (iterNext p 0) fun
    | none => ret none
    | some none => ret (some p)
    | some (some seg) =>
      if seg.has_leading_slash then ret (some p)
      else
        bind (kind seg p) fun
        | none => ret none
        | some .normal => ret (some p)
        | some _ =>
          match p.remove_start (min (blen p.front) (seg.stop + 1)) with
          | none => ret none
          | some p => remove_ignorable_go fuel p

/-- Writing a text with or without percent/case normalisation, `src/normalize/path.rs` 258-270 and 431-435. -/
def writeText (S : Spec) (op : NormalizationMode) (s : Str) : T (Option Str) :=
  if op.case_pct then pct_case_normalized S s else ret (some s)

/-- The `map_while(..).last().unwrap_or(0)` of `src/normalize/path.rs` 302-314. -/
def skippedLen (p : PathToNormalize) : List PathSegment → Nat → T (Option Nat)
  | [], acc => ret (some acc)
  | g :: r, acc =>
    bind (kind g p) fun
    | none => ret none
    | some .normal => ret (some acc)
    | some _ => skippedLen p r g.stop

/-- The `for` loop, `src/normalize/path.rs` 345-369. -/
def scan (p : PathToNormalize) : List PathSegment → PathToNormalize.QState → T (Option PathToNormalize.QState)
  | [], st => ret (some st)
  | g :: r, st =>
    bind (kind g p) fun
    | none => ret none
    | some .dot => scan p r { st with may := true }
    | some .dotDot =>
      scan p r { st with
        level := st.level - 1
        may := true
        queue := st.queue.set (st.level - 1) none }
    | some .normal =>
      if st.level < st.queue.length then
        match g.segment p with
        | none => ret none
        | some name =>
          scan p r {
            queue := st.queue.set st.level (some name)
            may := false
            resolved_end := g.stop
            first_has_slash := if st.level = 0 then g.has_leading_slash else st.first_has_slash
            level := st.level + 1 }
      else scan p r { st with level := st.level + 1 }

/-- `emit_segment`, `src/normalize/path.rs` 396-436. -/
def emit_segment (S : Spec) (only_a_slash : Option Bool) (first_has_slash : Bool) (segname : Str)
    (authority_is_present : Bool) (op : NormalizationMode) : T (Option (Str × Option Bool)) :=
  (PathToNormalize.emit_segment S only_a_slash first_has_slash segname authority_is_present op,
    (writeText S op segname).2)

/-- The loop over the queue, `src/normalize/path.rs` 376-385. -/
def emitQueue (S : Spec) (first_has_slash auth : Bool) (op : NormalizationMode) :
    List (Option Str) → Option Bool → T (Option (Str × Option Bool))
  | [], o => ret (some ([], o))
  | none :: r, o => emitQueue S first_has_slash auth op r o
  | some seg :: r, o =>
    bind (emit_segment S o first_has_slash seg auth op) fun
    | none => ret none
    | some (t, o) => bind (emitQueue S first_has_slash auth op r o) fun y => ret (y.map fun x => (t ++ x.1, x.2))

/-- `resolve_and_write_path_prefixes`, `src/normalize/path.rs` 285-391. -/
def resolve_and_write_path_prefixes (S : Spec) (op : NormalizationMode) (auth : Bool)
    (only_a_slash : Option Bool) (may : Bool) (p : PathToNormalize) : T (Option PathToNormalize.Resolved) :=
  if p.is_empty || !may then ret none
  else
    bind (segments p) fun
    | none => ret none
    | some segs =>
      bind (skippedLen p segs 0) fun
      | none => ret none
      | some skipped =>
        match p.remove_start skipped with
        | none => ret none
        | some p =>
          if p.is_empty then
            ret (some (.brk (if !auth && only_a_slash == some true then ['.', '/', '/'] else ['/'])))
          else
            bind (segments p) fun
            | none => ret none
            | some segs =>
              bind (scan p segs ⟨List.replicate PathToNormalize.QUEUE_SIZE none, false, 0, 0, may⟩) fun
              | none => ret none
              | some st =>
                bind (emitQueue S st.first_has_slash auth op st.queue only_a_slash) fun
                | none => ret none
                | some (out, o) => ret ((p.remove_start st.resolved_end).map fun p => .cont out o st.may p)

/-- The `while` loop, `src/normalize/path.rs` 219-237. -/
def whileLoop (S : Spec) (op : NormalizationMode) (auth : Bool) :
    Nat → Option Bool → Bool → PathToNormalize → T (Option (Str × Option (Option Bool × PathToNormalize)))
  | 0, _, _, _ => ret none
  | fuel + 1, o, may, p =>
    if !p.is_empty && may then
      bind (resolve_and_write_path_prefixes S op auth o may p) fun
      | none => ret none
      | some (.brk out) => ret (some (out, none))
      | some (.cont out o may p) =>
        bind (whileLoop S op auth fuel o may p) fun y => ret (y.map fun x => (out ++ x.1, x.2))
    else ret (some ([], some (o, p)))

/-- The part after the loop, `src/normalize/path.rs` 239-279: up to three bytes for the tests at its start, and the
rest of the path. -/
def writeRest (S : Spec) (op : NormalizationMode) (auth : Bool) (o : Option Bool)
    (p : PathToNormalize) : T (Option Str) :=
  (PathToNormalize.writeRest S op auth o p, 3 + (2 * blen p.front + 2 * (p.back.elim 0 blen)))

/-- `fmt_write_normalize`, `src/normalize/path.rs` 174-282. -/
def fmt_write_normalize (S : Spec) (op : NormalizationMode) (auth : Bool) (p : PathToNormalize) : T (Option Str) :=
  if p.is_empty then ret (some [])
  else if op == .preserve && !auth && !p.starts_with_slash then
    bind (pct_case_normalized S p.front) fun
    | none => ret none
    | some f =>
      match p.back with
      | none => ret (some (f ++ []))
      | some b => bind (pct_case_normalized S b) fun y => ret (y.map fun b => f ++ b)
  else
    bind (remove_ignorable_go (p.len + 1) p) fun
    | none => ret none
    | some p =>
      if p.is_empty then ret (some (if auth then ['/'] else []))
      else
        bind (whileLoop S op auth (p.len + 1) none true p) fun
        | none => ret none
        | some (out, none) => ret (some out)
        | some (out, some (o, p)) => bind (writeRest S op auth o p) fun y => ret (y.map fun t => out ++ t)

/-- `normalize_scheme`, `src/normalize.rs` 469-482. -/
def normalize_scheme (scheme : Str) : T Str := (Verif.normalize_scheme scheme, blen scheme)

/-- `normalize_host_port`, `src/normalize.rs` 500-524: the last byte, the check, and the text. -/
def normalize_host_port (S : Spec) (host_port : Str) : T (Option Str) :=
  bind (stripColon host_port, 1) fun h =>
    bind (is_ascii_only_host h) fun
    | none => ret none
    | some true => normalized_ascii_only_host h
    | some false => pct_case_normalized S h

/-- `normalize_authority`, `src/normalize.rs` 485-497. -/
def normalize_authority (S : Spec) (authority : Str) : T (Option Str) :=
  bind (rfind_split_hole authority '@') fun
  | some (userinfo, host_port) =>
    bind (pct_case_normalized S userinfo) fun
    | none => ret none
    | some u => bind (normalize_host_port S host_port) fun y => ret (y.map fun h => u ++ '@' :: h)
  | none => normalize_host_port S authority

/-- An optional component written with its prefix. -/
def writeOpt (pre : Str) (f : Str → T (Option Str)) : Option Str → T (Option Str)
  | none => ret (some [])
  | some x => bind (f x) fun y => ret (y.map fun t => pre ++ t)

/-- The path written by `NormalizedInner`'s `Display`, `src/normalize.rs` 427-451. -/
def displayPath (S : Spec) (i : NormalizationInput) : T (Option Str) :=
  match i.path with
  | .done s =>
    if i.op.case_pct then
      fmt_write_normalize S i.op i.authority.isSome (PathToNormalize.from_single_path s)
    else ret (some s)
  | .needsProcessing p => fmt_write_normalize S i.op i.authority.isSome p

/-- `NormalizedInner`'s `Display`, `src/normalize.rs` 402-466. -/
def display (S : Spec) (i : NormalizationInput) : T (Option Str) :=
  let n := i.op.case_pct
  bind (if n then normalize_scheme i.scheme else ret i.scheme) fun scheme =>
    bind (writeOpt ['/', '/'] (fun a => if n then normalize_authority S a else ret (some a)) i.authority) fun
    | none => ret none
    | some authority =>
      bind (displayPath S i) fun
      | none => ret none
      | some path =>
        bind (writeOpt ['?'] (fun q => if n then pct_case_normalized S q else ret (some q)) i.query) fun
        | none => ret none
        | some query =>
          bind (writeOpt ['#'] (fun f => if n then pct_case_normalized S f else ret (some f)) i.fragment) fun
          | none => ret none
          | some fragment => ret (some (scheme ++ (':' :: (authority ++ (path ++ (query ++ fragment))))))

/-- `From<&RiStr>`, `src/normalize.rs` 296-315, 325-344. -/
def from_iri (iri : Str) : T (Option NormalizationInput) :=
  (NormalizationInput.from_iri iri, (components_to_major iri).2)

/-- `with_resolution_params`, `src/normalize.rs` 176-293: both are split; choosing between them looks at the first
byte of the reference's path, and merging looks for the last slash of the base's path. -/
def with_resolution_params (base reference : Str) : T (Option NormalizationInput) :=
  (NormalizationInput.with_resolution_params base reference,
    (decompose_iri_reference base).2 + (decompose_iri_reference reference).2 + 2 + blen base)

/-- `normalize()` (mode `.default`), `src/types/generic/normal.rs` 441-443, and
`normalize_but_preserve_authorityless_relative_path()` (mode `.preserve`), 496-499. -/
def normalize (S : Spec) (mode : NormalizationMode) (iri : Str) : T (Option Str) :=
  bind (from_iri iri) fun
  | none => ret none
  | some i => display S (i.withMode mode)

/-- Displaying the result of resolution, `src/resolve.rs` 351-354. -/
def resolve (S : Spec) (mode : NormalizationMode) (base reference : Str) : T (Option Str) :=
  bind (with_resolution_params base reference) fun
  | none => ret none
  | some i => display S (i.withMode mode)

end Verif.Work
