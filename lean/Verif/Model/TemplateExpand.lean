import Verif.Model.Template
import Verif.Model.Encode
import Verif.Model.MaybePct

/-!
# Template expansion: `src/template/expand.rs`, `src/template/context.rs`, `src/template.rs`

`none` is a panic.  `dbg` is a debug build: `debug_assert!` and overflow checks are compiled in; in a
release build `usize` subtraction wraps (64-bit).  A `Display` value is the list of the pieces it
writes; writers do not fail.  A context is modelled by the value it hands to the visitor; the
`VisitDoneToken` checks (`expand.rs` 255-261, 388-393) are about contexts that return a token of
another visitor and are not modelled.
-/

namespace Verif.Tpl

open Verif.MaybePct

/-- A `Display` value: the pieces it writes. -/
abbrev Disp := List Str

/-- What a context does with a visitor (`src/template/context.rs`, trait `Visitor`): it calls
`visit_undefined`, or `visit_string`, or `visit_list` with some items, or `visit_assoc` with some
entries. -/
inductive Value
  | undefined
  | string (v : Disp)
  | list (items : List Disp)
  | assoc (entries : List (Disp × Disp))
  deriving DecidableEq, Repr

/-- `ValueType`, `src/template.rs` 149-158. -/
inductive ValueType
  | undefined
  | string
  | list
  | assoc
  deriving DecidableEq, Repr

/-- `VisitPurpose`, `src/template/context.rs`. -/
inductive Purpose
  | typecheck
  | expand
  deriving DecidableEq, Repr

/-- A value visited by `TypeVisitor`, `src/template/expand.rs` 964-1037, `src/template.rs` 160-202:
the first item stops the visit; without any the type is `Undefined`. -/
def typeOf : Value → ValueType
  | .undefined => .undefined
  | .string _ => .string
  | .list [] => .undefined
  | .list (_ :: _) => .list
  | .assoc [] => .undefined
  | .assoc (_ :: _) => .assoc

/-- `Context::visit`: the value handed to the visitor of the given purpose and variable name. -/
abbrev Ctx := Purpose → Str → Value

/-- `OpProps`, `src/template/expand.rs` 276-289. -/
structure OpProps where
  first : Str
  sep : Str
  named : Bool
  ifemp : Str
  allow_reserved : Bool
  deriving DecidableEq, Repr

/-- `OpProps::from_op` and `OpProps::PROPS`, `src/template/expand.rs` 291-374. -/
def opProps : Operator → OpProps
  | .string => ⟨[], [','], false, [], false⟩
  | .reserved => ⟨[], [','], false, [], true⟩
  | .fragment => ⟨['#'], [','], false, [], true⟩
  | .label => ⟨['.'], ['.'], false, [], false⟩
  | .pathSegments => ⟨['/'], ['/'], false, [], false⟩
  | .pathParams => ⟨[';'], [';'], true, [], false⟩
  | .formQuery => ⟨['?'], ['&'], true, ['='], false⟩
  | .formQueryCont => ⟨['&'], ['&'], true, ['='], false⟩

/-- `a - b` on `usize`: an overflow panics in a debug build and wraps in a release build. -/
def usizeSub (dbg : Bool) (a b : Nat) : Option Nat :=
  if b ≤ a then some (a - b) else if dbg then none else some (2 ^ 64 + a - b)

/-- The callback of `escape_write`, `src/template/expand.rs` 407-420. -/
def escapeFrag (S : Spec) (out : Str) : Frag → Option (Str × Bool)
  | .char s => some (out ++ s, false)
  | .noPct s => some (out ++ characters S [s], false)
  | .stray => some (out ++ ['%', '2', '5'], false)
  | .invalid s => some (out ++ s, false)

/-- `escape_write`, `src/template/expand.rs` 401-445: the text written. -/
def escape_write (S : Spec) (dbg : Bool) (v : Disp) (allow_reserved : Bool) : Option Str :=
  if allow_reserved then process_percent_encoded_best_effort dbg (escapeFrag S) [] v
  else some (v.flatMap fun s => unreserve S [s])

/-- Byte index of the last character (`char_indices().last()`). -/
def lastIdx (s : Str) : Option Nat := if s.isEmpty then none else some (blen s.dropLast)

/-- The callback of `escape_write_with_maxlen`, `src/template/expand.rs` 457-499, for a bounded
`max_len`. -/
def truncFrag (S : Spec) (dbg : Bool) (st : Str × Nat) (frag : Frag) : Option ((Str × Nat) × Bool) :=
  if st.2 = 0 then some (st, true)
  else
    match frag with
    | .char s => some ((st.1 ++ s, st.2 - 1), false)
    | .noPct s =>
      (lastIdx (s.take st.2)).bind fun count =>
        (usizeSub dbg st.2 count).map fun m => ((st.1 ++ characters S [s.take st.2], m), false)
    | .stray => some ((st.1 ++ ['%', '2', '5'], st.2 - 1), false)
    | .invalid s =>
      let count := min st.2 (s.length / 3)
      some ((st.1 ++ s.take (count * 3), st.2 - count), false)

/-- The callback of `escape_write_with_maxlen` for `max_len` `None`: the bound is `usize::MAX`, which
no text in memory exceeds, so it is modelled as no bound; only the `expect` for an empty fragment is
left. -/
def unboundedFrag (S : Spec) (out : Str) (frag : Frag) : Option (Str × Bool) :=
  match frag with
  | .noPct s => if s.isEmpty then none else escapeFrag S out frag
  | _ => escapeFrag S out frag

/-- `TruncatePercentEncodeWriter`, `src/template/expand.rs` 516-547, fed with the pieces of a value:
the text written. -/
def truncateWrite (S : Spec) (dbg : Bool) : Nat → Disp → Option Str
  | _, [] => some []
  | rest, s :: r =>
    if rest = 0 then truncateWrite S dbg rest r
    else
      (usizeSub dbg rest (((lastIdx (s.take rest)).map (· + 1)).getD 0)).bind fun rest' =>
        (truncateWrite S dbg rest' r).map fun t => unreserve S [s.take rest] ++ t

/-- `escape_write_with_maxlen`, `src/template/expand.rs` 448-513: the text written. -/
def escape_write_with_maxlen (S : Spec) (dbg : Bool) (v : Disp) (allow_reserved : Bool)
    (max_len : Option Nat) : Option Str :=
  if allow_reserved then
    match max_len with
    | some n => (process_percent_encoded_best_effort dbg (truncFrag S dbg) ([], n) v).map Prod.fst
    | none => process_percent_encoded_best_effort dbg (unboundedFrag S) [] v
  else
    match max_len with
    | some n => truncateWrite S dbg n v
    | none => some (unreserve S v)

/-- `first` or `sep` according to `mem::replace(self.is_first_varspec, false)`,
`src/template/expand.rs` 696-700, 776-780, 870-874. -/
def leader (p : OpProps) (first : Bool) : Str := if first then p.first else p.sep

/-- `max_len` in `visit_string`, `src/template/expand.rs` 708-711. -/
def maxLenOf : Modifier → Option Nat
  | .none | .explode => none
  | .maxLen n => some n

/-- `ValueVisitor::visit_string`, `src/template/expand.rs` 693-718: the text written.
`PrefixOnceWriter` (550-594) writes `=` before the first write; the encoders make a write exactly for
a non-empty text (an empty write, which the reserved encoder can make, only meets the writer without
prefix, since no operator is both named and reserved). -/
def visit_string (S : Spec) (dbg : Bool) (op : Operator) (spec : VarSpec) (first : Bool) (v : Disp) :
    Option Str :=
  let p := opProps op
  (escape_write_with_maxlen S dbg v p.allow_reserved (maxLenOf spec.modifier)).map fun t =>
    leader p first ++
      (if p.named then spec.name ++ (if t.isEmpty then p.ifemp else '=' :: t) else t)

/-- `is_explode` in `visit_item_impl` and `visit_entry_impl`, `src/template/expand.rs` 766-773,
860-867; the prefix modifier panics. -/
def isExplode : Modifier → Option Bool
  | .maxLen _ => none
  | .none => some false
  | .explode => some true

/-- `ListValueVisitor::visit_item_impl`, `src/template/expand.rs` 764-811: the text written. -/
def visit_item (S : Spec) (dbg : Bool) (op : Operator) (spec : VarSpec) (first : Bool)
    (num_elems : Nat) (item : Disp) : Option Str :=
  let p := opProps op
  (isExplode spec.modifier).bind fun is_explode =>
    (if num_elems = 0 then
      some (leader p first ++ (if p.named then spec.name ++ ['='] else []))
    else if !is_explode then some [',']
    else if !p.named then some p.sep
    else (escape_write S dbg [spec.name] p.allow_reserved).map fun n => p.sep ++ n ++ ['=']).bind
      fun pre => (escape_write S dbg item p.allow_reserved).map fun t => pre ++ t

/-- `visit_items_and_finish`, `src/template/context.rs`, with `ListValueVisitor`. -/
def visit_items (S : Spec) (dbg : Bool) (op : Operator) (spec : VarSpec) (first : Bool) :
    Nat → List Disp → Option Str
  | _, [] => some []
  | n, item :: r =>
    (visit_item S dbg op spec first n item).bind fun a =>
      (visit_items S dbg op spec first (n + 1) r).map fun b => a ++ b

/-- `AssocValueVisitor::visit_entry_impl`, `src/template/expand.rs` 855-918: the text written. -/
def visit_entry (S : Spec) (dbg : Bool) (op : Operator) (spec : VarSpec) (first : Bool)
    (num_elems : Nat) (entry : Disp × Disp) : Option Str :=
  let p := opProps op
  (isExplode spec.modifier).bind fun is_explode =>
    (if num_elems = 0 then
      if is_explode then
        (escape_write S dbg entry.1 p.allow_reserved).map fun k => leader p first ++ k ++ ['=']
      else
        (if p.named then
          (escape_write S dbg [spec.name] p.allow_reserved).map fun n => n ++ ['=']
        else some []).bind fun n =>
          (escape_write S dbg entry.1 p.allow_reserved).map fun k => leader p first ++ n ++ k ++ [',']
    else if !is_explode then
      (escape_write S dbg entry.1 p.allow_reserved).map fun k => [','] ++ k ++ [',']
    else
      (escape_write S dbg entry.1 p.allow_reserved).map fun k => p.sep ++ k ++ ['=']).bind
      fun pre => (escape_write S dbg entry.2 p.allow_reserved).map fun t => pre ++ t

/-- `visit_entries_and_finish`, `src/template/context.rs`, with `AssocValueVisitor`. -/
def visit_entries (S : Spec) (dbg : Bool) (op : Operator) (spec : VarSpec) (first : Bool) :
    Nat → List (Disp × Disp) → Option Str
  | _, [] => some []
  | n, e :: r =>
    (visit_entry S dbg op spec first n e).bind fun a =>
      (visit_entries S dbg op spec first (n + 1) r).map fun b => a ++ b

/-- `ValueVisitor` (`src/template/expand.rs` 670-739) given a value: the text written, and the new
`is_first_varspec`. -/
def visit_value (S : Spec) (dbg : Bool) (op : Operator) (spec : VarSpec) (first : Bool) :
    Value → Option (Str × Bool)
  | .undefined => some ([], first)
  | .string v => (visit_string S dbg op spec first v).map fun t => (t, false)
  | .list items =>
    (visit_items S dbg op spec first 0 items).map fun t => (t, first && items.isEmpty)
  | .assoc entries =>
    (visit_entries S dbg op spec first 0 entries).map fun t => (t, first && entries.isEmpty)

/-- The loop over the varspecs in `expand`, `src/template/expand.rs` 385-394, with fuel. -/
def expandVars (S : Spec) (dbg : Bool) (ctx : Ctx) (op : Operator) :
    Nat → Bool → Str → Option Str
  | 0, _, _ => none
  | fuel + 1, first, varlist =>
    match varListNext varlist with
    | none => none
    | some none => some []
    | some (some ((_, spec), rest)) =>
      (visit_value S dbg op spec first (ctx .expand spec.name)).bind fun o =>
        (expandVars S dbg ctx op fuel o.2 rest).map fun t => o.1 ++ t

/-- `expand`, `src/template/expand.rs` 377-397. -/
def expandExpr (S : Spec) (dbg : Bool) (ctx : Ctx) (body : Str) : Option Str :=
  (decompose body).bind fun d => expandVars S dbg ctx d.1 (d.2.length + 1) true d.2

/-- `Display` of `Expanded`, `src/template/expand.rs` 136-151, with fuel. -/
def displayExpanded (S : Spec) (dbg : Bool) (ctx : Ctx) : Nat → Str → Option Str
  | 0, _ => none
  | fuel + 1, template =>
    match chunksNext template with
    | none => none
    | some none => some []
    | some (some (.literal lit, rest)) => (displayExpanded S dbg ctx fuel rest).map fun t => lit ++ t
    | some (some (.expr body, rest)) =>
      (expandExpr S dbg ctx body).bind fun a =>
        (displayExpanded S dbg ctx fuel rest).map fun t => a ++ t

/-- `matches!(modifier, Modifier::MaxLen(_)) && matches!(ty, ValueType::List | ValueType::Assoc)`,
`src/template/expand.rs` 116-118, 241-243. -/
def badType (m : Modifier) (ty : ValueType) : Bool :=
  match m with
  | .maxLen _ => ty == .list || ty == .assoc
  | _ => false

/-- The loop over the varspecs in `typecheck_context`, `src/template/expand.rs` 112-128, with fuel:
the new `pos`. -/
def typecheckVars (ctx : Ctx) : Nat → Nat → Str → Res Nat
  | 0, _, _ => .panic
  | fuel + 1, pos, varlist =>
    match varListNext varlist with
    | none => .panic
    | some none => .ok pos
    | some (some ((len, spec), rest)) =>
      if badType spec.modifier (typeOf (ctx .typecheck spec.name)) then .err .unexpectedValueType pos
      else typecheckVars ctx fuel (pos + (len + 1)) rest

/-- `Operator::len` and the `+1` of the brace, then the varspecs and `assert_eq!(pos, chunk_end_pos)`,
`src/template/expand.rs` 101-129, for an expression: the new `pos`. -/
def typecheckExpr (ctx : Ctx) (pos : Nat) (body : Str) : Res Nat :=
  match decompose body with
  | none => .panic
  | some (op, varlist) =>
    (typecheckVars ctx (varlist.length + 1) (pos + (op.len + 1)) varlist).bind fun pos' =>
      if pos' = pos + blen body + 2 then .ok pos' else .panic

/-- `Expanded::typecheck_context`, `src/template/expand.rs` 99-132, with fuel. -/
def typecheck (ctx : Ctx) : Nat → Nat → Str → Res Unit
  | 0, _, _ => .panic
  | fuel + 1, pos, template =>
    match chunksNext template with
    | none => .panic
    | some none => .ok ()
    | some (some (.literal lit, rest)) => typecheck ctx fuel (pos + blen lit) rest
    | some (some (.expr body, rest)) =>
      (typecheckExpr ctx pos body).bind fun pos' => typecheck ctx fuel pos' rest

/-- `UriTemplateStr::expand` (`src/template/string.rs` 262-267, `Expanded::new`,
`src/template/expand.rs` 88-95) followed by `to_string()` of the result. -/
def expand_to_string (S : Spec) (dbg : Bool) (ctx : Ctx) (template : Str) : Res Str :=
  (typecheck ctx (template.length + 1) 0 template).bind fun _ =>
    match displayExpanded S dbg ctx (template.length + 1) template with
    | some t => .ok t
    | none => .panic

/-! ## Dynamic contexts -/

/-- `DynamicContext`, `src/template/context.rs`: a context with a state that its three methods can
change. -/
structure DynCtx (σ : Type) where
  visit : Purpose → Str → σ → Value × σ
  start : σ → σ
  finish : σ → σ

/-- The blanket implementation of `DynamicContext` for a `Context`, `src/template/context.rs`. -/
def Ctx.toDyn (ctx : Ctx) : DynCtx Unit := ⟨fun p n s => (ctx p n, s), id, id⟩

/-- Outcome of dynamic expansion that does not panic: the result, what has been written, and the
state of the context. -/
structure DynOut (σ : Type) (α : Type) where
  result : Except (ErrorKind × Nat) α
  out : Str
  state : σ

variable {σ : Type}

/-- The loop over the varspecs in `expand_expr_mut`, `src/template/expand.rs` 236-266, with fuel: the
result is the new `pos`. -/
def expandVarsMut (S : Spec) (dbg : Bool) (ctx : DynCtx σ) (op : Operator) :
    Nat → Bool → Nat → Str → σ → Option (DynOut σ Nat)
  | 0, _, _, _, _ => none
  | fuel + 1, first, pos, varlist, st =>
    match varListNext varlist with
    | none => none
    | some none => some ⟨.ok pos, [], st⟩
    | some (some ((len, spec), rest)) =>
      let ty := ctx.visit .typecheck spec.name st
      if badType spec.modifier (typeOf ty.1) then some ⟨.error (.unexpectedValueType, pos), [], ty.2⟩
      else
        let v := ctx.visit .expand spec.name ty.2
        (visit_value S dbg op spec first v.1).bind fun o =>
          (expandVarsMut S dbg ctx op fuel o.2 (pos + (len + 1)) rest v.2).map fun d =>
            ⟨d.result, o.1 ++ d.out, d.state⟩

/-- The assertion at the end of `expand_expr_mut`, `src/template/expand.rs` 267. -/
def checkEnd (endPos : Nat) (d : DynOut σ Nat) : Option (DynOut σ Nat) :=
  match d.result with
  | .ok pos => if pos = endPos then some d else none
  | .error _ => some d

/-- `expand_expr_mut`, `src/template/expand.rs` 224-270. -/
def expandExprMut (S : Spec) (dbg : Bool) (ctx : DynCtx σ) (pos : Nat) (body : Str) (st : σ) :
    Option (DynOut σ Nat) :=
  match decompose body with
  | none => none
  | some (op, varlist) =>
    (expandVarsMut S dbg ctx op (varlist.length + 1) true (pos + (op.len + 1)) varlist st).bind
      (checkEnd (pos + blen body + 2))

/-- Going on after an expression unless it failed. -/
def dynThen (d : DynOut σ Nat) (k : Nat → σ → Option (DynOut σ Unit)) : Option (DynOut σ Unit) :=
  match d.result with
  | .error e => some ⟨.error e, d.out, d.state⟩
  | .ok pos => (k pos d.state).map fun d' => ⟨d'.result, d.out ++ d'.out, d'.state⟩

/-- `expand_whole_dynamic_impl`, `src/template/expand.rs` 200-221, with fuel. -/
def expandDynLoop (S : Spec) (dbg : Bool) (ctx : DynCtx σ) :
    Nat → Nat → Str → σ → Option (DynOut σ Unit)
  | 0, _, _, _ => none
  | fuel + 1, pos, template, st =>
    match chunksNext template with
    | none => none
    | some none => some ⟨.ok (), [], st⟩
    | some (some (.literal lit, rest)) =>
      (expandDynLoop S dbg ctx fuel (pos + blen lit) rest st).map fun d =>
        ⟨d.result, lit ++ d.out, d.state⟩
    | some (some (.expr body, rest)) =>
      (expandExprMut S dbg ctx pos body st).bind fun d =>
        dynThen d fun pos st => expandDynLoop S dbg ctx fuel pos rest st

/-- `expand_whole_dynamic`, `src/template/expand.rs` 186-195 (`UriTemplateStr::expand_dynamic`,
`src/template/string.rs` 280-286). -/
def expand_dynamic (S : Spec) (dbg : Bool) (ctx : DynCtx σ) (template : Str) (st : σ) :
    Option (DynOut σ Unit) :=
  (expandDynLoop S dbg ctx (template.length + 1) 0 template (ctx.start st)).map fun d =>
    ⟨d.result, d.out, ctx.finish d.state⟩

/-- `UriTemplateStr::expand_dynamic_to_string`, `src/template/string.rs` 359-366: the result and the
state of the context. -/
def expand_dynamic_to_string (S : Spec) (dbg : Bool) (ctx : DynCtx σ) (template : Str) (st : σ) :
    Option (Except (ErrorKind × Nat) Str × σ) :=
  (expand_dynamic S dbg ctx template st).map fun d => (d.result.map fun _ => d.out, d.state)

/-- `SimpleContext` as a `Context`, `src/template/simple_context.rs` 199-212: strings and list items
are `String`s, which write themselves in one piece. -/
def Ctx.ofSimple (m : Variables) : Ctx := fun _ name =>
  match mapGet m name with
  | none => .undefined
  | some .undefined => .undefined
  | some (.string s) => .string [s]
  | some (.list l) => .list (l.map fun s => [s])
  | some (.assoc l) => .assoc (l.map fun e => ([e.1], [e.2]))

end Verif.Tpl
