import Verif.Model.TemplateExpand

/-!
# Template expansion into a writer that may fail

`src/template/expand.rs` and `src/percent_encode.rs` once more, at the level of the single calls of
`write_str`/`write_char` of the writer.  Here no simplification is made for `PrefixOnceWriter`, and every
`?` is an early return.  `none` is a panic.  A `Display` value is the list of the pieces it writes; it
stops at the first error of the writer, as `Display` implementations must.
-/

namespace Verif.Tpl

open Verif.MaybePct

/-- A `fmt::Write` object with the state `τ`: the new state, and `true` for `Ok(())`. -/
abbrev Writer (τ : Type) := τ → Str → Option (τ × Bool)

variable {τ : Type}

/-- `first?; rest`. -/
def seqW (first : Option (τ × Bool)) (rest : τ → Option (τ × Bool)) : Option (τ × Bool) :=
  match first with
  | none => none
  | some (t, false) => some (t, false)
  | some (t, true) => rest t

/-- `Ok(())`. -/
def okW (t : τ) : Option (τ × Bool) := some (t, true)

/-- Writing the pieces of a `Display` value (`write!(w, "{v}")`). -/
def writePieces (w : Writer τ) : τ → Disp → Option (τ × Bool)
  | t, [] => okW t
  | t, s :: r => seqW (w t s) fun t => writePieces w t r

/-- `write_pct_encoded_char`, `src/percent_encode.rs` 380-386.  `hex b` are the pieces in which the
standard library writes `format_args!("%{:02X}", b)`. -/
def writePctChar (hex : Nat → List Str) (w : Writer τ) (t : τ) (c : Char) : Option (τ × Bool) :=
  writePieces w t ((utf8 c).flatMap hex)

/-- `Filter::write_char`, `src/percent_encode.rs` 341-370. -/
def filterChar (S : Spec) (hex : Nat → List Str) (ctx : Context) (w : Writer τ) (t : τ) (c : Char) :
    Option (τ × Bool) :=
  if ctx.isValidChar S c then w t [c] else writePctChar hex w t c

/-- `Filter::write_str`, `src/percent_encode.rs` 338-340. -/
def filterStr (S : Spec) (hex : Nat → List Str) (ctx : Context) (w : Writer τ) : Writer τ
  | t, [] => okW t
  | t, c :: r => seqW (filterChar S hex ctx w t c) fun t => filterStr S hex ctx w t r

/-- `write!(w, "{}", PercentEncoded { context, raw })`, `src/percent_encode.rs` 326-379. -/
def writeEncoded (S : Spec) (hex : Nat → List Str) (ctx : Context) (w : Writer τ) (t : τ) (v : Disp) :
    Option (τ × Bool) :=
  writePieces (filterStr S hex ctx w) t v

/-- `if result.is_err() { return Break(result) }; Continue(())`, `src/template/expand.rs` 415-418,
496-499: the state of the callback is that of the writer and whether the result is `Ok`. -/
def breakOnErr : Option (τ × Bool) → Option ((τ × Bool) × Bool)
  | none => none
  | some (t, ok) => some ((t, ok), !ok)

/-- The callback of `escape_write`, `src/template/expand.rs` 407-420. -/
def escapeFragW (S : Spec) (hex : Nat → List Str) (w : Writer τ) (st : τ × Bool) (frag : Frag) :
    Option ((τ × Bool) × Bool) :=
  match frag with
  | .char s => breakOnErr (w st.1 s)
  | .noPct s => breakOnErr (writeEncoded S hex .character w st.1 [s])
  | .stray => breakOnErr (w st.1 ['%', '2', '5'])
  | .invalid s => breakOnErr (w st.1 s)

/-- `escape_write`, `src/template/expand.rs` 401-445 (the struct `UnreservePercentEncodeWriter` included). -/
def escapeWriteW (S : Spec) (hex : Nat → List Str) (dbg : Bool) (w : Writer τ) (t : τ) (v : Disp)
    (allow_reserved : Bool) : Option (τ × Bool) :=
  if allow_reserved then
    process_percent_encoded_best_effort dbg (escapeFragW S hex w) (t, true) v
  else writePieces (fun t s => writeEncoded S hex .unreserve w t [s]) t v

/-- The callback of `escape_write_with_maxlen`, `src/template/expand.rs` 457-499, for a bounded
`max_len`. -/
def truncFragW (S : Spec) (hex : Nat → List Str) (dbg : Bool) (w : Writer τ) (st : (τ × Bool) × Nat)
    (frag : Frag) : Option (((τ × Bool) × Nat) × Bool) :=
  if st.2 = 0 then some (((st.1.1, true), 0), true)
  else
    let go (m : Nat) (r : Option (τ × Bool)) := (breakOnErr r).map fun o => ((o.1, m), o.2)
    match frag with
    | .char s => go (st.2 - 1) (w st.1.1 s)
    | .noPct s =>
      (lastIdx (s.take st.2)).bind fun count =>
        (usizeSub dbg st.2 count).bind fun m =>
          go m (writeEncoded S hex .character w st.1.1 [s.take st.2])
    | .stray => go (st.2 - 1) (w st.1.1 ['%', '2', '5'])
    | .invalid s =>
      let count := min st.2 (s.length / 3)
      go (st.2 - count) (w st.1.1 (s.take (count * 3)))

/-- The callback of `escape_write_with_maxlen` for `max_len` `None` (bound `usize::MAX`, see
`unboundedFrag`). -/
def unboundedFragW (S : Spec) (hex : Nat → List Str) (w : Writer τ) (st : τ × Bool) (frag : Frag) :
    Option ((τ × Bool) × Bool) :=
  match frag with
  | .noPct s => if s.isEmpty then none else escapeFragW S hex w st frag
  | _ => escapeFragW S hex w st frag

/-- `TruncatePercentEncodeWriter::write_str`, `src/template/expand.rs` 516-547: the state is that of
the inner writer and `rest_num_chars`. -/
def truncateW (S : Spec) (hex : Nat → List Str) (dbg : Bool) (w : Writer τ) : Writer (τ × Nat)
  | (t, rest), s =>
    if rest = 0 then okW (t, rest)
    else
      match writeEncoded S hex .unreserve w t [s.take rest] with
      | none => none
      | some (t, false) => some ((t, rest), false)
      | some (t, true) =>
        (usizeSub dbg rest (((lastIdx (s.take rest)).map (· + 1)).getD 0)).map fun rest => ((t, rest), true)

/-- Forgetting a part of the state of the writer. -/
def dropState {ρ : Type} : Option ((τ × ρ) × Bool) → Option (τ × Bool)
  | none => none
  | some ((t, _), ok) => some (t, ok)

/-- `escape_write_with_maxlen`, `src/template/expand.rs` 448-513. -/
def escapeWriteMaxW (S : Spec) (hex : Nat → List Str) (dbg : Bool) (w : Writer τ) (t : τ) (v : Disp)
    (allow_reserved : Bool) (max_len : Option Nat) : Option (τ × Bool) :=
  if allow_reserved then
    match max_len with
    | some n =>
      (process_percent_encoded_best_effort dbg (truncFragW S hex dbg w) ((t, true), n) v).map Prod.fst
    | none => process_percent_encoded_best_effort dbg (unboundedFragW S hex w) (t, true) v
  else
    match max_len with
    | some n => dropState (writePieces (truncateW S hex dbg w) (t, n) v)
    | none => writeEncoded S hex .unreserve w t v

/-- `PrefixOnceWriter::write_str`, `src/template/expand.rs` 550-594: the state is that of the inner
writer and the prefix that has not been written yet. -/
def prefixOnce (w : Writer τ) : Writer (τ × Option Str)
  | (t, none), s => (w t s).map fun o => ((o.1, none), o.2)
  | (t, some p), s => (seqW (w t p) fun t => w t s).map fun o => ((o.1, none), o.2)

/-- `ValueVisitor::visit_string`, `src/template/expand.rs` 693-718. -/
def visitStringW (S : Spec) (hex : Nat → List Str) (dbg : Bool) (w : Writer τ) (op : Operator)
    (spec : VarSpec) (first : Bool) (t : τ) (v : Disp) : Option (τ × Bool) :=
  let p := opProps op
  let max_len := maxLenOf spec.modifier
  seqW (w t (leader p first)) fun t =>
    seqW (if p.named then w t spec.name else okW t) fun t =>
      match escapeWriteMaxW S hex dbg (prefixOnce w) (t, if p.named then some ['='] else none) v
          p.allow_reserved max_len with
      | none => none
      | some ((t, _), false) => some (t, false)
      | some ((t, pre), true) => if pre.isSome then w t p.ifemp else okW t

/-- `ListValueVisitor::visit_item_impl`, `src/template/expand.rs` 764-811. -/
def visitItemW (S : Spec) (hex : Nat → List Str) (dbg : Bool) (w : Writer τ) (op : Operator)
    (spec : VarSpec) (first : Bool) (num_elems : Nat) (t : τ) (item : Disp) : Option (τ × Bool) :=
  let p := opProps op
  match isExplode spec.modifier with
  | none => none
  | some is_explode =>
    seqW
      (if num_elems = 0 then
        seqW (w t (leader p first)) fun t =>
          if p.named then seqW (w t spec.name) fun t => w t ['='] else okW t
      else if !is_explode then w t [',']
      else if !p.named then w t p.sep
      else
        seqW (w t p.sep) fun t =>
          seqW (escapeWriteW S hex dbg w t [spec.name] p.allow_reserved) fun t => w t ['='])
      fun t => escapeWriteW S hex dbg w t item p.allow_reserved

/-- `visit_items_and_finish`, `src/template/context.rs` 517-526, with `ListValueVisitor`. -/
def visitItemsW (S : Spec) (hex : Nat → List Str) (dbg : Bool) (w : Writer τ) (op : Operator)
    (spec : VarSpec) (first : Bool) : Nat → τ → List Disp → Option (τ × Bool)
  | _, t, [] => okW t
  | n, t, item :: r =>
    seqW (visitItemW S hex dbg w op spec first n t item) fun t =>
      visitItemsW S hex dbg w op spec first (n + 1) t r

/-- `AssocValueVisitor::visit_entry_impl`, `src/template/expand.rs` 855-918. -/
def visitEntryW (S : Spec) (hex : Nat → List Str) (dbg : Bool) (w : Writer τ) (op : Operator)
    (spec : VarSpec) (first : Bool) (num_elems : Nat) (t : τ) (entry : Disp × Disp) :
    Option (τ × Bool) :=
  let p := opProps op
  let esc (t : τ) (v : Disp) := escapeWriteW S hex dbg w t v p.allow_reserved
  match isExplode spec.modifier with
  | none => none
  | some is_explode =>
    seqW
      (if num_elems = 0 then
        seqW (w t (leader p first)) fun t =>
          if is_explode then seqW (esc t entry.1) fun t => w t ['=']
          else
            seqW (if p.named then seqW (esc t [spec.name]) fun t => w t ['='] else okW t) fun t =>
              seqW (esc t entry.1) fun t => w t [',']
      else if !is_explode then
        seqW (w t [',']) fun t => seqW (esc t entry.1) fun t => w t [',']
      else
        seqW (w t p.sep) fun t => seqW (esc t entry.1) fun t => w t ['='])
      fun t => esc t entry.2

/-- `visit_entries_and_finish`, `src/template/context.rs` 556-569, with `AssocValueVisitor`. -/
def visitEntriesW (S : Spec) (hex : Nat → List Str) (dbg : Bool) (w : Writer τ) (op : Operator)
    (spec : VarSpec) (first : Bool) : Nat → τ → List (Disp × Disp) → Option (τ × Bool)
  | _, t, [] => okW t
  | n, t, e :: r =>
    seqW (visitEntryW S hex dbg w op spec first n t e) fun t =>
      visitEntriesW S hex dbg w op spec first (n + 1) t r

/-- `ValueVisitor` (`src/template/expand.rs` 670-739) given a value. -/
def visitValueW (S : Spec) (hex : Nat → List Str) (dbg : Bool) (w : Writer τ) (op : Operator)
    (spec : VarSpec) (first : Bool) (t : τ) : Value → Option (τ × Bool)
  | .undefined => okW t
  | .string v => visitStringW S hex dbg w op spec first t v
  | .list items => visitItemsW S hex dbg w op spec first 0 t items
  | .assoc entries => visitEntriesW S hex dbg w op spec first 0 t entries

/-- `is_first_varspec` after a successful visit (`mem::replace(self.is_first_varspec, false)`,
`src/template/expand.rs` 696, 776, 870). -/
def stillFirst (first : Bool) : Value → Bool
  | .undefined => first
  | .string _ => false
  | .list items => first && items.isEmpty
  | .assoc entries => first && entries.isEmpty

/-! ## Static contexts: `Display` of `Expanded` -/

/-- The loop over the varspecs in `expand`, `src/template/expand.rs` 385-394, with fuel. -/
def expandVarsW (S : Spec) (hex : Nat → List Str) (dbg : Bool) (w : Writer τ) (ctx : Ctx)
    (op : Operator) : Nat → Bool → τ → Str → Option (τ × Bool)
  | 0, _, _, _ => none
  | fuel + 1, first, t, varlist =>
    match varListNext varlist with
    | none => none
    | some none => okW t
    | some (some ((_, spec), rest)) =>
      let v := ctx .expand spec.name
      seqW (visitValueW S hex dbg w op spec first t v) fun t =>
        expandVarsW S hex dbg w ctx op fuel (stillFirst first v) t rest

/-- `Display` of `Expanded`, `src/template/expand.rs` 136-151 and 377-397, with fuel. -/
def displayExpandedW (S : Spec) (hex : Nat → List Str) (dbg : Bool) (w : Writer τ) (ctx : Ctx) :
    Nat → τ → Str → Option (τ × Bool)
  | 0, _, _ => none
  | fuel + 1, t, template =>
    match chunksNext template with
    | none => none
    | some none => okW t
    | some (some (.literal lit, rest)) =>
      seqW (w t lit) fun t => displayExpandedW S hex dbg w ctx fuel t rest
    | some (some (.expr body, rest)) =>
      match decompose body with
      | none => none
      | some (op, varlist) =>
        seqW (expandVarsW S hex dbg w ctx op (varlist.length + 1) true t varlist) fun t =>
          displayExpandedW S hex dbg w ctx fuel t rest

/-- `UriTemplateStr::expand` followed by `write!(w, "{expanded}")`: `err` is the error of `expand`,
`ok` the result of the formatting. -/
def expand_and_write (S : Spec) (hex : Nat → List Str) (dbg : Bool) (w : Writer τ) (ctx : Ctx)
    (template : Str) (t : τ) : Res (τ × Bool) :=
  (typecheck ctx (template.length + 1) 0 template).bind fun _ =>
    match displayExpandedW S hex dbg w ctx (template.length + 1) t template with
    | some o => .ok o
    | none => .panic

/-! ## Dynamic contexts -/

/-- Outcome of dynamic expansion that does not panic: the result, the state of the writer and that of
the context. -/
structure DynOutW (τ σ α : Type) where
  result : Except (ErrorKind × Nat) α
  writer : τ
  state : σ

variable {σ : Type}

/-- The loop over the varspecs in `expand_expr_mut`, `src/template/expand.rs` 236-266, with fuel. -/
def expandVarsMutW (S : Spec) (hex : Nat → List Str) (dbg : Bool) (w : Writer τ) (ctx : DynCtx σ)
    (op : Operator) : Nat → Bool → Nat → Str → τ → σ → Option (DynOutW τ σ Nat)
  | 0, _, _, _, _, _ => none
  | fuel + 1, first, pos, varlist, t, st =>
    match varListNext varlist with
    | none => none
    | some none => some ⟨.ok pos, t, st⟩
    | some (some ((len, spec), rest)) =>
      let ty := ctx.visit .typecheck spec.name st
      if badType spec.modifier (typeOf ty.1) then some ⟨.error (.unexpectedValueType, pos), t, ty.2⟩
      else
        let v := ctx.visit .expand spec.name ty.2
        match visitValueW S hex dbg w op spec first t v.1 with
        | none => none
        | some (t, false) => some ⟨.error (.writeFailed, pos), t, v.2⟩
        | some (t, true) =>
          expandVarsMutW S hex dbg w ctx op fuel (stillFirst first v.1) (pos + (len + 1)) rest t v.2

/-- `expand_expr_mut`, `src/template/expand.rs` 224-270. -/
def expandExprMutW (S : Spec) (hex : Nat → List Str) (dbg : Bool) (w : Writer τ) (ctx : DynCtx σ)
    (pos : Nat) (body : Str) (t : τ) (st : σ) : Option (DynOutW τ σ Nat) :=
  match decompose body with
  | none => none
  | some (op, varlist) =>
    match expandVarsMutW S hex dbg w ctx op (varlist.length + 1) true (pos + (op.len + 1)) varlist t st with
    | none => none
    | some ⟨.error e, t, st⟩ => some ⟨.error e, t, st⟩
    | some ⟨.ok pos', t, st⟩ => if pos' = pos + blen body + 2 then some ⟨.ok pos', t, st⟩ else none

/-- `expand_whole_dynamic_impl`, `src/template/expand.rs` 200-221, with fuel. -/
def expandDynLoopW (S : Spec) (hex : Nat → List Str) (dbg : Bool) (w : Writer τ) (ctx : DynCtx σ) :
    Nat → Nat → Str → τ → σ → Option (DynOutW τ σ Unit)
  | 0, _, _, _, _ => none
  | fuel + 1, pos, template, t, st =>
    match chunksNext template with
    | none => none
    | some none => some ⟨.ok (), t, st⟩
    | some (some (.literal lit, rest)) =>
      match w t lit with
      | none => none
      | some (t, false) => some ⟨.error (.writeFailed, pos), t, st⟩
      | some (t, true) => expandDynLoopW S hex dbg w ctx fuel (pos + blen lit) rest t st
    | some (some (.expr body, rest)) =>
      match expandExprMutW S hex dbg w ctx pos body t st with
      | none => none
      | some ⟨.error e, t, st⟩ => some ⟨.error e, t, st⟩
      | some ⟨.ok pos, t, st⟩ => expandDynLoopW S hex dbg w ctx fuel pos rest t st

/-- `UriTemplateStr::expand_dynamic`, `src/template/string.rs` 280-286 (`expand_whole_dynamic`,
`src/template/expand.rs` 186-195), into any writer. -/
def expand_dynamic_into (S : Spec) (hex : Nat → List Str) (dbg : Bool) (w : Writer τ) (ctx : DynCtx σ)
    (template : Str) (t : τ) (st : σ) : Option (DynOutW τ σ Unit) :=
  match expandDynLoopW S hex dbg w ctx (template.length + 1) 0 template t (ctx.start st) with
  | none => none
  | some d => some ⟨d.result, d.writer, ctx.finish d.state⟩

end Verif.Tpl
