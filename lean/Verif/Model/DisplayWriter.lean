import Verif.Model.TemplateWriter
import Verif.Model.Build
import Verif.Model.Format
import Verif.Model.Edit
import Verif.Model.Normalize

/-!
# `Display` implementations at the level of the single calls of the writer

`src/normalize/pct_case.rs`, `src/normalize/path.rs`, `src/normalize.rs`, `src/build.rs`,
`src/convert.rs` and `src/mask_password.rs` once more, now with the single calls of
`write_str`/`write_char`, every `?`, and every `debug_assert!` of these functions (`dbg` is
`cfg(debug_assertions)`).  Here no simplification is made for writers that stop early.

A piece of code that writes and yields a value of type `α` is a `WM τ α`: from the state of the
writer, `none` is a panic, `some (t, none)` is `Err(fmt::Error)`, `some (t, some a)` is `Ok(a)`.
-/

namespace Verif.Out

open Verif.Tpl (Writer)

/-- Code with access to a writer with the state `τ`. -/
def WM (τ α : Type) := τ → Option (τ × Option α)

/-- `m?; k`. -/
def WM.andThen {τ α β : Type} (m : WM τ α) (k : α → WM τ β) : WM τ β := fun t =>
  match m t with
  | none => none
  | some (t, none) => some (t, none)
  | some (t, some a) => k a t

instance {τ : Type} : Monad (WM τ) where
  pure a := fun t => some (t, some a)
  bind := WM.andThen

variable {τ : Type}

/-- A computation that may panic and does not write. -/
def lift {α : Type} (x : Option α) : WM τ α := fun t => x.map fun a => (t, some a)

/-- A panic. -/
def panic {α : Type} : WM τ α := lift none

/-- `debug_assert!`. -/
def assertD (dbg cond : Bool) : WM τ Unit := if dbg && !cond then panic else pure ()

/-- `f.write_str(s)` (and `f.write_char(c)` for a single character). -/
def put (w : Writer τ) (s : Str) : WM τ Unit := fun t =>
  (w t s).map fun o => (o.1, if o.2 then some () else none)

/-- Several calls: `try_for_each`, and the pieces in which the standard library writes a value. -/
def putAll (w : Writer τ) : List Str → WM τ Unit
  | [] => pure ()
  | s :: r => do
    put w s
    putAll w r

/-- The pieces in which the standard library writes the values that are written through it:
`hex b` for `write!(f, "%{:02X}", b)`, `colonInt n` for `write!(f, ":{v}")` with an integer, `colonStr s`
for the same with a string, `v4` and `v6` for the addresses (the latter in `[` and `]`). -/
structure StdPieces where
  hex : Nat → List Str
  colonInt : UInt16 → List Str
  colonStr : Str → List Str
  v4 : UInt8 → UInt8 → UInt8 → UInt8 → List Str
  v6 : Ipv6Addr → List Str

/-! ## `src/normalize/pct_case.rs` -/

/-- How the `for` loop over the continuation bytes ends, `src/normalize/pct_case.rs` 132-174. -/
inductive ContW
  | full (buf : List Nat) (rest : Str)
  | again (rest : Str)
  | stop
  deriving DecidableEq, Repr

/-- The `for` loop over `c_buf[1..]`, `src/normalize/pct_case.rs` 132-174. -/
def takeContW (F : StdPieces) (w : Writer τ) : Nat → List Nat → Str → WM τ ContW
  | 0, buf, rest => pure (.full buf rest)
  | n + 1, buf, rest =>
    match rest with
    | [] => do
      putAll w (buf.flatMap F.hex)
      pure .stop
    | c :: after =>
      if c == '%' then do
        let r ← lift (take_xdigits2 after)
        if !is_utf8_byte_continue r.1 then do
          putAll w (buf.flatMap F.hex)
          pure (.again rest)
        else takeContW F w n (buf ++ [r.1]) r.2
      else do
        putAll w (buf.flatMap F.hex)
        put w [c]
        pure (.again after)

/-- The `'outer_loop`, `src/normalize/pct_case.rs` 95-220, with fuel. -/
def pctCaseGo (F : StdPieces) (dbg : Bool) (S : Spec) (w : Writer τ) : Nat → Str → WM τ Unit
  | 0, _ => panic
  | fuel + 1, rest =>
    if rest.isEmpty then pure ()
    else
      match find_split_hole rest '%' with
      | none => put w rest
      | some (pre, after_percent) => do
        put w pre
        let r ← lift (take_xdigits2 after_percent)
        if r.1 < 0x80 then do
          assertD dbg (r.1 < 128)
          if is_ascii_unreserved (Char.ofNat r.1) then put w [Char.ofNat r.1] else putAll w (F.hex r.1)
          pctCaseGo F dbg S w fuel r.2
        else
          match expectedLen r.1 with
          | none => do
            putAll w (F.hex r.1)
            pctCaseGo F dbg S w fuel r.2
          | some n => do
            let c ← takeContW F w (n - 1) [r.1] r.2
            match c with
            | .stop => pure ()
            | .again rest => pctCaseGo F dbg S w fuel rest
            | .full buf rest => do
              let d ← lift (into_char_trusted buf)
              match d with
              | some c => do
                if is_unreserved S c then put w [c] else putAll w (buf.flatMap F.hex)
                pctCaseGo F dbg S w fuel rest
              | none => do
                assertD dbg (buf.tail.all is_utf8_byte_continue)
                let rest ← lift (sliceFrom r.2 ((n - 1) * 3))
                putAll w (buf.flatMap F.hex)
                pctCaseGo F dbg S w fuel rest

/-- `PctCaseNormalized`'s `Display`, `src/normalize/pct_case.rs` 91-223. -/
def pctCaseW (F : StdPieces) (dbg : Bool) (S : Spec) (w : Writer τ) (s : Str) : WM τ Unit :=
  pctCaseGo F dbg S w (s.length + 1) s

/-- The loop of `NormalizedAsciiOnlyHost`'s `Display`, `src/normalize/pct_case.rs` 252-287, with
fuel. -/
def asciiHostGo (F : StdPieces) (w : Writer τ) : Nat → Str → WM τ Unit
  | 0, _ => panic
  | fuel + 1, rest =>
    if rest.isEmpty then pure ()
    else
      match find_split_hole rest '%' with
      | none => putAll w (rest.map fun c => [toLower c])
      | some (pre, after_percent) => do
        putAll w (pre.map fun c => [toLower c])
        let r ← lift (take_xdigits2 after_percent)
        if r.1 < 128 then do
          if is_ascii_unreserved (Char.ofNat r.1) then put w [toLower (Char.ofNat r.1)]
          else putAll w (F.hex r.1)
          asciiHostGo F w fuel r.2
        else panic

/-- `NormalizedAsciiOnlyHost`'s `Display`, `src/normalize/pct_case.rs` 252-287. -/
def asciiHostW (F : StdPieces) (w : Writer τ) (s : Str) : WM τ Unit := asciiHostGo F w (s.length + 1) s

/-! ## `src/normalize/path.rs` -/

/-- `is_empty`, `src/normalize/path.rs` 80-88, with its assertion. -/
def isEmptyW (dbg : Bool) (p : PathToNormalize) : Option Bool :=
  if dbg && (p.front.isEmpty && p.back.isSome) then none else some p.front.isEmpty

/-- `find_next_slash_from`, `src/normalize/path.rs` 121-136, with its assertion. -/
def findNextSlashW (dbg : Bool) (p : PathToNormalize) (start : Nat) : Option (Option Nat) :=
  if start < blen p.front then
    (sliceFrom p.front start).bind fun s =>
      match PathToNormalize.findB s '/' with
      | some pos => some (some (start + pos))
      | none => if dbg && p.back.isSome then none else some none
  else
    match p.back with
    | none => some none
    | some b =>
      (sliceFrom b (start - blen p.front)).map fun s =>
        (PathToNormalize.findB s '/').map fun pos => start + pos

/-- `PathSegmentsIter::next`, `src/normalize/path.rs` 682-702. -/
def iterNextW (dbg : Bool) (p : PathToNormalize) (cursor : Nat) : Option (Option PathSegment) :=
  match p.byte_at cursor with
  | none => some none
  | some b =>
    let has_leading_slash := b == 47
    let start := if has_leading_slash then cursor + 1 else cursor
    (findNextSlashW dbg p start).map fun o =>
      some ⟨has_leading_slash, start, match o with | some e => e | none => p.len⟩

/-- All items of `PathSegmentsIter` from a cursor position, with fuel. -/
def iterListW (dbg : Bool) (p : PathToNormalize) : Nat → Nat → Option (List PathSegment)
  | 0, _ => none
  | fuel + 1, cursor =>
    match iterNextW dbg p cursor with
    | none => none
    | some none => some []
    | some (some g) => (iterListW dbg p fuel g.stop).map fun r => g :: r

/-- `PathSegmentsIter::new(path)` as a list. -/
def segmentsW (dbg : Bool) (p : PathToNormalize) : Option (List PathSegment) :=
  iterListW dbg p (p.len + 1) 0

/-- The loop of `remove_ignorable_prefix`, `src/normalize/path.rs` 155-170, with fuel. -/
def removeIgnorableW (dbg : Bool) : Nat → PathToNormalize → Option PathToNormalize
  | 0, _ => none
  | fuel + 1, p =>
    match iterNextW dbg p 0 with
    | none => none
    | some none => some p
    | some (some seg) =>
      if seg.has_leading_slash then some p
      else
        match seg.kind p with
        | none => none
        | some .normal => some p
        | some _ =>
          match p.remove_start (min (blen p.front) (seg.stop + 1)) with
          | none => none
          | some p => removeIgnorableW dbg fuel p

/-- The `map_while(..).last().unwrap_or(0)`, `src/normalize/path.rs` 302-314, with its assertion. -/
def skippedLenW (dbg : Bool) (p : PathToNormalize) : List PathSegment → Nat → Option Nat
  | [], acc => some acc
  | g :: r, acc =>
    match g.kind p with
    | none => none
    | some .normal => some acc
    | some _ => if dbg && !g.has_leading_slash then none else skippedLenW dbg p r g.stop

/-- Writing a text with or without percent/case normalization, `src/normalize/path.rs` 258-270,
431-435. -/
def writeTextW (F : StdPieces) (dbg : Bool) (S : Spec) (op : NormalizationMode) (w : Writer τ) (s : Str) :
    WM τ Unit :=
  if op.case_pct then pctCaseW F dbg S w s else put w s

/-- `emit_segment`, `src/normalize/path.rs` 396-436: the new `only_a_slash_is_written`. -/
def emitSegmentW (F : StdPieces) (dbg : Bool) (S : Spec) (w : Writer τ) (only_a_slash : Option Bool)
    (first_has_slash : Bool) (segname : Str) (auth : Bool) (op : NormalizationMode) :
    WM τ (Option Bool) :=
  match only_a_slash with
  | none => do
    if first_has_slash then put w ['/'] else pure ()
    writeTextW F dbg S op w segname
    pure (some (first_has_slash && segname.isEmpty))
  | some only =>
    if only && !auth then do
      put w ['.', '/']
      put w ['/']
      writeTextW F dbg S op w segname
      pure (some false)
    else do
      put w ['/']
      writeTextW F dbg S op w segname
      pure (some only)

/-- The loop over the queue, `src/normalize/path.rs` 376-385. -/
def emitQueueW (F : StdPieces) (dbg : Bool) (S : Spec) (w : Writer τ) (first_has_slash auth : Bool)
    (op : NormalizationMode) : List (Option Str) → Option Bool → WM τ (Option Bool)
  | [], o => pure o
  | none :: r, o => emitQueueW F dbg S w first_has_slash auth op r o
  | some seg :: r, o => do
    let o ← emitSegmentW F dbg S w o first_has_slash seg auth op
    emitQueueW F dbg S w first_has_slash auth op r o

/-- `ControlFlow` of `resolve_and_write_path_prefixes`; `cont` with `only_a_slash_is_written`,
`may_have_not_yet_resolved_dot_segments` and the remaining path. -/
inductive FlowW
  | brk
  | cont (only_a_slash : Option Bool) (may : Bool) (rest : PathToNormalize)
  deriving DecidableEq, Repr

/-- `resolve_and_write_path_prefixes`, `src/normalize/path.rs` 285-391. -/
def resolvePrefixesW (F : StdPieces) (dbg : Bool) (S : Spec) (w : Writer τ) (op : NormalizationMode)
    (auth : Bool) (only_a_slash : Option Bool) (may : Bool) (p : PathToNormalize) : WM τ FlowW := do
  let e ← lift (isEmptyW dbg p)
  if e || !may then panic
  else do
    let segs ← lift (segmentsW dbg p)
    let skipped ← lift (skippedLenW dbg p segs 0)
    let p ← lift (p.remove_start skipped)
    let e ← lift (isEmptyW dbg p)
    if e then do
      if !auth && only_a_slash == some true then put w ['.', '/', '/'] else put w ['/']
      pure .brk
    else do
      let segs ← lift (segmentsW dbg p)
      let st ← lift (p.scan segs ⟨List.replicate PathToNormalize.QUEUE_SIZE none, false, 0, 0, may⟩)
      let o ← emitQueueW F dbg S w st.first_has_slash auth op st.queue only_a_slash
      let p ← lift (p.remove_start st.resolved_end)
      pure (.cont o st.may p)

/-- The `while` loop, `src/normalize/path.rs` 219-237, with fuel: `none` if the function returned. -/
def whileLoopW (F : StdPieces) (dbg : Bool) (S : Spec) (w : Writer τ) (op : NormalizationMode)
    (auth : Bool) : Nat → Option Bool → Bool → PathToNormalize →
      WM τ (Option (Option Bool × PathToNormalize))
  | 0, _, _, _ => panic
  | fuel + 1, o, may, p => do
    let e ← lift (isEmptyW dbg p)
    if !e && may then do
      let r ← resolvePrefixesW F dbg S w op auth o may p
      match r with
      | .brk => pure none
      | .cont o may p => whileLoopW F dbg S w op auth fuel o may p
    else pure (some (o, p))

/-- The two buffers, `src/normalize/path.rs` 194-197, 258-270. -/
def writeBuffersW (F : StdPieces) (dbg : Bool) (S : Spec) (op : NormalizationMode) (w : Writer τ)
    (p : PathToNormalize) : WM τ Unit := do
  writeTextW F dbg S op w p.front
  match p.back with
  | none => pure ()
  | some b => writeTextW F dbg S op w b

/-- The part after the loop, `src/normalize/path.rs` 239-279. -/
def writeRestW (F : StdPieces) (dbg : Bool) (S : Spec) (w : Writer τ) (op : NormalizationMode)
    (auth : Bool) (o : Option Bool) (p : PathToNormalize) : WM τ Unit := do
  let e ← lift (isEmptyW dbg p)
  if e then pure ()
  else if auth then writeBuffersW F dbg S op w p
  else
    match o with
    | none =>
      if (p.front == ['/'] && (match p.back with
          | some b => starts_with b ['/']
          | none => false)) || starts_with p.front ['/', '/'] then do
        put w ['/', '.', '/', '/']
        let p ← lift (p.remove_start 2)
        writeBuffersW F dbg S op w p
      else writeBuffersW F dbg S op w p
    | some true =>
      if p.starts_with_slash then do
        put w ['.', '/', '/']
        let p ← lift (p.remove_start 1)
        writeBuffersW F dbg S op w p
      else writeBuffersW F dbg S op w p
    | some false => writeBuffersW F dbg S op w p

/-- `fmt_write_normalize`, `src/normalize/path.rs` 174-282. -/
def fmtWriteNormalizeW (F : StdPieces) (dbg : Bool) (S : Spec) (w : Writer τ) (op : NormalizationMode)
    (auth : Bool) (p : PathToNormalize) : WM τ Unit := do
  let e ← lift (isEmptyW dbg p)
  if e then pure ()
  else if op == .preserve && !auth && !p.starts_with_slash then do
    assertD dbg op.case_pct
    pctCaseW F dbg S w p.front
    match p.back with
    | none => pure ()
    | some b => pctCaseW F dbg S w b
  else do
    let p ← lift (removeIgnorableW dbg (p.len + 1) p)
    let e ← lift (isEmptyW dbg p)
    if e then
      if auth then put w ['/'] else pure ()
    else do
      let r ← whileLoopW F dbg S w op auth (p.len + 1) none true p
      match r with
      | none => pure ()
      | some (o, p) => writeRestW F dbg S w op auth o p

/-- `PrefixRetriever::write_str`, `src/normalize/path.rs` 455-470: the state is the part of the buffer
that has been filled. -/
def prefixRetrieverW : Writer (List Nat) := fun buf s =>
  if !s.isEmpty && 3 ≤ buf.length then some (buf, false)
  else some ((buf ++ utf8s s).take 3, true)

/-- `ensure_rfc3986_normalizable_with_authority_absent`, `src/normalize/path.rs` 441-490. -/
def ensureRfc3986W (F : StdPieces) (dbg : Bool) (p : PathToNormalize) : Option Bool :=
  (fmtWriteNormalizeW F dbg .uri prefixRetrieverW .off false p []).map fun r => !(r.1 == [47, 46, 47])

/-- The local `Writer` of `from_path_to_display`, `src/normalize/path.rs` 519-581. -/
def charWriterW : Writer CharWriter := fun st s => some (st.write_str s)

/-- `from_path_to_display`, `src/normalize/path.rs` 515-591, with the `NormalizationOp` of its caller
(`src/build.rs` 1321-1325). -/
def fromPathToDisplayW (F : StdPieces) (dbg : Bool) (S : Spec) (p : PathToNormalize) (auth : Bool) :
    Option PathCharacteristic :=
  match fmtWriteNormalizeW F dbg S charWriterW .default auth p {} with
  | none => none
  | some (_, some _) => some .commonRelative
  | some (st, none) => st.result

/-! ## `src/normalize.rs` -/

/-- `normalize_scheme`, `src/normalize.rs` 469-482. -/
def normalizeSchemeW (w : Writer τ) (scheme : Str) : WM τ Unit :=
  putAll w (scheme.map fun c => [toLower c])

/-- `normalize_host_port`, `src/normalize.rs` 500-524. -/
def normalizeHostPortW (F : StdPieces) (dbg : Bool) (S : Spec) (w : Writer τ) (host_port : Str) :
    WM τ Unit := do
  let host_port := stripColon host_port
  let b ← lift (is_ascii_only_host host_port)
  if b then asciiHostW F w host_port else pctCaseW F dbg S w host_port

/-- `normalize_authority`, `src/normalize.rs` 485-497. -/
def normalizeAuthorityW (F : StdPieces) (dbg : Bool) (S : Spec) (w : Writer τ) (authority : Str) :
    WM τ Unit :=
  match rfind_split_hole authority '@' with
  | some (userinfo, host_port) => do
    pctCaseW F dbg S w userinfo
    put w ['@']
    normalizeHostPortW F dbg S w host_port
  | none => normalizeHostPortW F dbg S w authority

/-- `if let Some(x) = o { write the prefix; write x }`. -/
def optW (w : Writer τ) (pre : Str) (f : Str → WM τ Unit) : Option Str → WM τ Unit
  | none => pure ()
  | some x => do
    put w pre
    f x

/-- `NormalizedInner`'s `Display`, `src/normalize.rs` 402-466 (`normalize_query` and
`normalize_fragment`, 527-539, included). -/
def normalizedW (F : StdPieces) (dbg : Bool) (S : Spec) (i : NormalizationInput) (w : Writer τ) :
    WM τ Unit := do
  if i.op.case_pct then normalizeSchemeW w i.scheme else put w i.scheme
  put w [':']
  optW w ['/', '/'] (fun a => if i.op.case_pct then normalizeAuthorityW F dbg S w a else put w a)
    i.authority
  match i.path with
  | .done s =>
    if i.op.case_pct then
      fmtWriteNormalizeW F dbg S w i.op i.authority.isSome (PathToNormalize.from_single_path s)
    else put w s
  | .needsProcessing p => fmtWriteNormalizeW F dbg S w i.op i.authority.isSome p
  optW w ['?'] (fun q => if i.op.case_pct then pctCaseW F dbg S w q else put w q) i.query
  optW w ['#'] (fun q => if i.op.case_pct then pctCaseW F dbg S w q else put w q) i.fragment

/-- `Display` of the value returned by `resolve_against` (`FixedBaseResolver::resolve`), see `resolve`. -/
def resolveW (F : StdPieces) (dbg : Bool) (S : Spec) (mode : NormalizationMode) (base reference : Str)
    (w : Writer τ) : WM τ Unit := do
  let i ← lift (NormalizationInput.with_resolution_params base reference)
  normalizedW F dbg S (i.withMode mode) w

/-- `Display` of the value returned by `normalize()` (mode `default`) and
`normalize_but_preserve_authorityless_relative_path()` (mode `preserve`), see `normalize`. -/
def normalizeW (F : StdPieces) (dbg : Bool) (S : Spec) (mode : NormalizationMode) (iri : Str)
    (w : Writer τ) : WM τ Unit := do
  let i ← lift (NormalizationInput.from_iri iri)
  normalizedW F dbg S (i.withMode mode) w

/-! ## `eq_str_display` -/

/-- `CmpWriter::write_str`, `src/format.rs` 122-131. -/
def cmpWriterW : Writer Str := fun rest s =>
  match Fmt.stripPrefix s rest with
  | some rest => some (rest, true)
  | none => some (rest, false)

/-- `eq_str_display`, `src/format.rs` 113-136. -/
def eqStrDisplayW (s : Str) (d : Writer Str → WM Str Unit) : Option Bool :=
  (d cmpWriterW s).map fun r => r.2.isSome && r.1.isEmpty

/-! ## `src/build.rs` -/

/-- A text that is percent/case normalized or not. -/
def pctIfW (F : StdPieces) (dbg : Bool) (S : Spec) (normalize : Bool) (w : Writer τ) (s : Str) :
    WM τ Unit :=
  if normalize then pctCaseW F dbg S w s else put w s

/-- Userinfo part of `AuthorityBuilder::fmt_write_to`, `src/build.rs` 186-212.  (`userinfo.fmt(f)` is one
call: no format options are given here.) -/
def userinfoW (F : StdPieces) (dbg : Bool) (S : Spec) (normalize : Bool) (w : Writer τ) :
    UserinfoRepr → WM τ Unit
  | .absent => pure ()
  | .direct u => do
    pctIfW F dbg S normalize w u
    put w ['@']
  | .userPass u none => do
    pctIfW F dbg S normalize w u
    put w ['@']
  | .userPass u (some p) => do
    pctIfW F dbg S normalize w u
    put w [':']
    pctIfW F dbg S normalize w p
    put w ['@']

/-- Host part of `AuthorityBuilder::fmt_write_to`, `src/build.rs` 214-227. -/
def hostW (F : StdPieces) (dbg : Bool) (S : Spec) (normalize : Bool) (w : Writer τ) : HostRepr → WM τ Unit
  | .string h => if normalize then normalizeHostPortW F dbg S w h else put w h
  | .ipv4 a b c d => putAll w (F.v4 a b c d)
  | .ipv6 a => putAll w (F.v6 a)

/-- Port part of `AuthorityBuilder::fmt_write_to`, `src/build.rs` 229-238. -/
def portW (F : StdPieces) (normalize : Bool) (w : Writer τ) : PortRepr → WM τ Unit
  | .empty => pure ()
  | .integer n => putAll w (F.colonInt n)
  | .string s => if !(s.isEmpty && normalize) then putAll w (F.colonStr s) else pure ()

/-- `AuthorityBuilder::fmt_write_to`, `src/build.rs` 185-241. -/
def authorityW (F : StdPieces) (dbg : Bool) (S : Spec) (normalize : Bool) (w : Writer τ)
    (a : AuthorityBuilder) : WM τ Unit := do
  userinfoW F dbg S normalize w a.userinfo
  hostW F dbg S normalize w a.host
  portW F normalize w a.port

/-- `Builder::fmt_write_to`, `src/build.rs` 356-414. -/
def builderW (F : StdPieces) (dbg : Bool) (S : Spec) (b : Builder) (path_is_absolute : Bool)
    (w : Writer τ) : WM τ Unit := do
  match b.scheme with
  | none => pure ()
  | some s => do
    if b.normalize then normalizeSchemeW w s else put w s
    put w [':']
  match b.authority with
  | none => pure ()
  | some a => do
    put w ['/', '/']
    authorityW F dbg S b.normalize w a
  if !b.normalize then put w b.path
  else if b.scheme.isSome || b.authority.isSome || path_is_absolute then
    fmtWriteNormalizeW F dbg S w .default b.authority.isSome (PathToNormalize.from_single_path b.path)
  else pctCaseW F dbg S w b.path
  optW w ['?'] (fun q => if b.normalize then pctCaseW F dbg S w q else put w q) b.query
  optW w ['#'] (fun q => if b.normalize then pctCaseW F dbg S w q else put w q) b.fragment

/-- `Display` of `Built`, `src/build.rs` 1151-1195. -/
def builtW (F : StdPieces) (dbg : Bool) (S : Spec) (b : Built) (w : Writer τ) : WM τ Unit :=
  builderW F dbg S b.builder b.path_is_absolute w

/-- Path checks, `src/build.rs` 1314-1361, see `Builder.pathCheck`; here the formatting stops as soon as
the characteristic of the path is known, as in the code. -/
def pathCheckW (F : StdPieces) (dbg : Bool) (S : Spec) (b : Builder) : Option (Bool × Bool) :=
  if b.normalize then
    if b.scheme.isSome || b.authority.isSome || starts_with b.path ['/'] then
      let acceptable :=
        if b.authority.isSome then b.path.isEmpty || starts_with b.path ['/'] else true
      (fromPathToDisplayW F dbg S (PathToNormalize.from_single_path b.path) b.authority.isSome).map fun ch =>
        (acceptable && (match ch with
          | .commonAbsolute | .commonRelative => true
          | .startsWithDoubleSlash | .relativeFirstSegmentHasColon =>
            b.scheme.isSome || b.authority.isSome), ch.is_absolute)
    else some (prior_byte2 b.path '/' ':' != some ':', false)
  else
    let path_is_absolute := starts_with b.path ['/']
    let acceptable :=
      if b.authority.isSome then path_is_absolute || b.path.isEmpty
      else if b.scheme.isSome || path_is_absolute then !starts_with b.path ['/', '/']
      else prior_byte2 b.path '/' ':' != some ':'
    some (acceptable, path_is_absolute)

/-- `validate_builder_for_iri_reference`, `src/build.rs` 1274-1375, see `Builder.validate`. -/
def validateW (F : StdPieces) (dbg : Bool) (S : Spec) (b : Builder) : Option (Option Bool) :=
  if !optOk validate_scheme b.scheme then some none
  else if !optOk (AuthorityBuilder.ok S) b.authority then some none
  else
    (pathCheckW F dbg S b).map fun (acceptable, path_is_absolute) =>
      if !acceptable then none
      else if !optOk (validate_query S) b.query then none
      else if !optOk (validate_fragment S) b.fragment then none
      else some path_is_absolute

/-- `Builder::build::<T>()`, `src/build.rs` 447-452, 1207-1269, see `Builder.build`. -/
def buildW (F : StdPieces) (dbg : Bool) (S : Spec) (k : IriKind) (b : Builder) : Option (Option Built) :=
  if !b.kindOk k then some none
  else (validateW F dbg S b).map fun r => r.map fun path_is_absolute => ⟨b, path_is_absolute⟩

/-! ## `src/convert.rs` -/

/-- The `while` loop of `percent_encode_bytes`, `src/convert.rs` 218-221, with fuel. -/
def encodeLoopW (w : Writer τ) : Nat → List Nat → List Nat → WM τ Unit
  | 0, _, _ => panic
  | fuel + 1, buf, bytes =>
    if bytes.length = 0 then pure ()
    else do
      let r ← lift (fill_by_percent_encoded buf bytes)
      put w (r.1.map Char.ofNat)
      encodeLoopW w fuel r.2.1 r.2.2

/-- `percent_encode_bytes`, `src/convert.rs` 160-224. -/
def encodeBytesW (w : Writer τ) (s : Str) (buf : List Nat) : WM τ Unit :=
  if buf.length ≥ 3 then
    encodeLoopW w ((utf8s s).length + 1) ((buf.take (buf.length / 3 * 3)).map fun _ => 37) (utf8s s)
  else panic

/-- `write_percent_encoded`, `src/convert.rs` 115-149, with fuel. -/
def writePercentEncodedW (dbg : Bool) (w : Writer τ) : Nat → Str → WM τ Unit
  | 0, _ => panic
  | fuel + 1, s =>
    if s.isEmpty then pure ()
    else do
      let a := splitAtFirst (fun c => !isAscii c) s
      if !a.1.isEmpty then put w a.1 else pure ()
      let s := if !a.1.isEmpty then a.2 else s
      if s.isEmpty then pure ()
      else do
        let n := splitAtFirst isAscii s
        assertD dbg (!n.1.isEmpty)
        encodeBytesW w n.1 (List.replicate (21 * 3) 0)
        writePercentEncodedW dbg w fuel n.2

/-- `Display` of `MappedToUri`, `src/convert.rs` 67-71. -/
def encodeToUriW (dbg : Bool) (s : Str) (w : Writer τ) : WM τ Unit :=
  writePercentEncodedW dbg w (s.length + 1) s

/-! ## `src/mask_password.rs` -/

/-- `write_with_masked_password`, `src/mask_password.rs` 42-60; `alt` writes the given pieces. -/
def maskedW (dbg : Bool) (w : Writer τ) (s : Str) (st e : Nat) (alt : List Str) : WM τ Unit := do
  assertD dbg (e ≤ blen s)
  let a ← lift (sliceTo s st)
  put w a
  putAll w alt
  let b ← lift (sliceFrom s e)
  put w b

/-- `Display` of `PasswordMasked`, `src/mask_password.rs` 62-65, 180-189. -/
def maskPasswordW (dbg : Bool) (s : Str) (w : Writer τ) : WM τ Unit := do
  let r ← lift (password_range_to_hide s)
  match r with
  | some (st, e) => maskedW dbg w s st e [[]]
  | none => put w s

/-- `Display` of `PasswordReplaced`, `src/mask_password.rs` 262-288: the replacement is computed from
the password and is a value that writes the given pieces. -/
def replacePasswordW (dbg : Bool) (s : Str) (replace : Str → List Str) (w : Writer τ) : WM τ Unit := do
  let r ← lift (password_range_to_hide s)
  match r with
  | some (st, e) => do
    let pw ← lift (slice s st e)
    maskedW dbg w s st e (replace pw)
  | none => put w s

/-! ## `src/percent_encode.rs` -/

/-- `Display` of `PercentEncoded`, `src/percent_encode.rs` 326-379, of a value that writes the given
pieces. -/
def percentEncodedW (F : StdPieces) (S : Spec) (ctx : Context) (raw : List Str) (w : Writer τ) : WM τ Unit :=
  fun t => (Verif.Tpl.writeEncoded S F.hex ctx w t raw).map fun o => (o.1, if o.2 then some () else none)

end Verif.Out
