import Verif.Model.Normalize

/-!
# `src/normalize/path.rs` with a counter

The functions of `Model/PathNorm.lean` that walk over path segments, again, returning also how many times
`PathSegmentsIter::next` is called (`src/normalize/path.rs` 682-702; one call looks for one slash from the
place where the previous call stopped).  That they compute the same texts is proved (C82).
-/

namespace Verif

namespace PathToNormalize

/-- The loop of `remove_ignorable_prefix`, `src/normalize/path.rs` 156-169: one call per round. -/
def removeIgnorableT : Nat → PathToNormalize → Option (PathToNormalize × Nat)
  | 0, _ => none
  | fuel + 1, p =>
    match iterNext p 0 with
    | none => none
    | some none => some (p, 1)
    | some (some seg) =>
      if seg.has_leading_slash then some (p, 1)
      else
        match seg.kind p with
        | none => none
        | some .normal => some (p, 1)
        | some _ =>
          match p.remove_start (min (blen p.front) (seg.stop + 1)) with
          | none => none
          | some p => (removeIgnorableT fuel p).map fun x => (x.1, x.2 + 1)

/-- The `map_while(..).last().unwrap_or(0)` of `src/normalize/path.rs` 302-314: one call for every
leading dot segment and one for what comes after them (a segment, or the end). -/
def skippedLenT (p : PathToNormalize) : List PathSegment → Nat → Option (Nat × Nat)
  | [], acc => some (acc, 1)
  | g :: r, acc =>
    match g.kind p with
    | none => none
    | some .normal => some (acc, 1)
    | some _ => (skippedLenT p r g.stop).map fun x => (x.1, x.2 + 1)

/-- `resolve_and_write_path_prefixes`, `src/normalize/path.rs` 285-391: the `for` loop (345-369) calls
`next` once for every segment and once for the end. -/
def resolvePrefixesT (S : Spec) (op : NormalizationMode) (auth : Bool)
    (only_a_slash : Option Bool) (may : Bool) (p : PathToNormalize) : Option (Resolved × Nat) := do
  if p.is_empty || !may then none
  else
    let segs ← segments p
    let (skipped, k) ← skippedLenT p segs 0
    let p ← p.remove_start skipped
    if p.is_empty then
      some (.brk (if !auth && only_a_slash == some true then ['.', '/', '/'] else ['/']), k)
    else
      let segs ← segments p
      let st ← scan p segs ⟨List.replicate QUEUE_SIZE none, false, 0, 0, may⟩
      let (out, o) ← emitQueue S st.first_has_slash auth op st.queue only_a_slash
      let p ← p.remove_start st.resolved_end
      some (.cont out o st.may p, k + (segs.length + 1))

/-- The `while` loop, `src/normalize/path.rs` 219-237. -/
def whileLoopT (S : Spec) (op : NormalizationMode) (auth : Bool) :
    Nat → Option Bool → Bool → PathToNormalize →
      Option ((Str × Option (Option Bool × PathToNormalize)) × Nat)
  | 0, _, _, _ => none
  | fuel + 1, o, may, p =>
    if !p.is_empty && may then
      match resolvePrefixesT S op auth o may p with
      | none => none
      | some (.brk out, k) => some ((out, none), k)
      | some (.cont out o may p, k) =>
        (whileLoopT S op auth fuel o may p).map fun x => ((out ++ x.1.1, x.1.2), k + x.2)
    else some (([], some (o, p)), 0)

/-- `fmt_write_normalize`, `src/normalize/path.rs` 174-282: the text written and the number of calls. -/
def fmtWriteNormalizeT (S : Spec) (op : NormalizationMode) (auth : Bool) (p : PathToNormalize) :
    Option (Str × Nat) := do
  if p.is_empty then some ([], 0)
  else if op == .preserve && !auth && !p.starts_with_slash then
    let f ← pct_case_normalized S p.front
    let b ← match p.back with
      | none => some []
      | some b => pct_case_normalized S b
    some (f ++ b, 0)
  else
    let (p, k) ← removeIgnorableT (p.len + 1) p
    if p.is_empty then some (if auth then ['/'] else [], k)
    else
      let ((out, r), n) ← whileLoopT S op auth (p.len + 1) none true p
      match r with
      | none => some (out, k + n)
      | some (o, p) => (writeRest S op auth o p).map fun t => (out ++ t, k + n)

end PathToNormalize

/-- The path written by `NormalizedInner`'s `Display`, `src/normalize.rs` 427-451, with the number of
calls. -/
def NormalizationInput.pathT (S : Spec) (i : NormalizationInput) : Option (Str × Nat) :=
  match i.path with
  | .done s =>
    if i.op.case_pct then
      (PathToNormalize.from_single_path s).fmtWriteNormalizeT S i.op i.authority.isSome
    else some (s, 0)
  | .needsProcessing p => p.fmtWriteNormalizeT S i.op i.authority.isSome

/-- `NormalizedInner`'s `Display`, `src/normalize.rs` 402-466: the text written and the number of calls. -/
def NormalizationInput.displayT (S : Spec) (i : NormalizationInput) : Option (Str × Nat) := do
  let n := i.op.case_pct
  let scheme := if n then normalize_scheme i.scheme else i.scheme
  let authority ← writeOpt ['/', '/'] (fun a => if n then normalize_authority S a else some a)
    i.authority
  let (path, calls) ← i.pathT S
  let query ← writeOpt ['?'] (fun q => if n then normalize_query S q else some q) i.query
  let fragment ← writeOpt ['#'] (fun f => if n then normalize_fragment S f else some f) i.fragment
  some (scheme ++ (':' :: (authority ++ (path ++ (query ++ fragment)))), calls)

/-- Displaying the result of resolution, as in `resolve` of `Model/Normalize.lean` (`src/resolve.rs`
351-354), with the number of calls. -/
def resolveT (S : Spec) (mode : NormalizationMode) (base reference : Str) : Option (Str × Nat) :=
  (NormalizationInput.with_resolution_params base reference).bind fun i => (i.withMode mode).displayT S

/-- `normalize()`, `src/types/generic/normal.rs` 441-443, and (mode `.preserve`)
`normalize_but_preserve_authorityless_relative_path()`, 496-499, with the number of calls. -/
def normalizeT (S : Spec) (mode : NormalizationMode) (iri : Str) : Option (Str × Nat) :=
  (NormalizationInput.from_iri iri).bind fun i => (i.withMode mode).displayT S

end Verif
