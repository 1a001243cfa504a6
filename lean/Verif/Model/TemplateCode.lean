import Verif.Model.TemplateWriter

/-!
# Contexts as code

In the other template files a context is the value it hands to the visitor.  Here it is code against the
visitor interface of `src/template/context.rs`: it calls methods of the visitor one after another, sees the
`ControlFlow` each call of `visit_item`/`visit_entry` returns, and can do anything then: go on, finish, or
return what came with the `Break`.  (The result type of a visitor is opaque for a context, so there is
nothing else that it could return.)  A context that panics or does not terminate is not modelled.
-/

namespace Verif.Tpl

variable {σ α τ : Type}

/-- Code that owns a `ListVisitor` (`src/template/context.rs` 499-527; items `α` are values) or an
`AssocVisitor` (533-570; items are pairs).  The index says whether a `Break` has been received: only
then the code has a result other than that of `finish`.  `st` is the state of the context in the end. -/
inductive SeqCode (σ α : Type) : Bool → Type
  /-- `visitor.finish()` -/
  | finish {b : Bool} (st : σ) : SeqCode σ α b
  /-- returning the result that came with the last `Break` -/
  | ret (st : σ) : SeqCode σ α true
  /-- `visitor.visit_item(v)`, then the code for `Continue` or that for `Break` -/
  | item {b : Bool} (v : α) (onContinue : SeqCode σ α b) (onBreak : SeqCode σ α true) : SeqCode σ α b

/-- Code that owns a `Visitor` (`src/template/context.rs` 431-493). -/
inductive Code (σ : Type)
  | undefined (st : σ)
  | string (v : Disp) (st : σ)
  | list (c : SeqCode σ Disp false)
  | assoc (c : SeqCode σ (Disp × Disp) false)

/-- A context (`DynamicContext::visit_dynamic`, `src/template/context.rs` 382-411): the code it runs for a
visitor of the given purpose, for a variable name and in a state. -/
structure CodeCtx (σ : Type) where
  visit : Purpose → Str → σ → Code σ
  start : σ → σ
  finish : σ → σ

/-- `visit_items_and_finish` and `visit_entries_and_finish`, `src/template/context.rs` 517-526, 556-569
(`visit_list_direct`, `visit_assoc_direct`, 476-492): `try_for_each` stops at the first `Break`, whose
result is returned.  `st n` is the state of the context when `n` items have been taken from the iterator. -/
def visit_all {b : Bool} (st : Nat → σ) : Nat → List α → SeqCode σ α b
  | n, [] => .finish (st n)
  | n, v :: r => .item v (visit_all st (n + 1) r) (.ret (st (n + 1)))

/-- Code run with `ListTypeVisitor` or `AssocTypeVisitor`, `src/template/expand.rs` 994-1037: every item is
answered by `Break`.  The result is whether the type is that of a nonempty list or array. -/
def SeqCode.runType {b : Bool} : SeqCode σ α b → Bool × σ
  | .finish st => (false, st)
  | .ret st => (true, st)
  | .item _ _ onBreak => onBreak.runType

/-- Code run with `TypeVisitor`, `src/template/expand.rs` 946-990 (and `ValueType`, `src/template.rs`
160-202). -/
def Code.runType : Code σ → ValueType × σ
  | .undefined st => (.undefined, st)
  | .string _ st => (.string, st)
  | .list c => (if c.runType.1 then .list else .undefined, c.runType.2)
  | .assoc c => (if c.runType.1 then .assoc else .undefined, c.runType.2)

/-- What is left of an expansion of a variable: the writer, whether the result is `Ok`, the new
`is_first_varspec`, and the state of the context. -/
structure Left (τ σ : Type) where
  writer : τ
  ok : Bool
  first : Bool
  state : σ

/-- Code run with `ListValueVisitor` or `AssocValueVisitor`, `src/template/expand.rs` 751-943.  `visit` is
`visit_item_impl` or `visit_entry_impl`; on an error `num_elems` is not incremented (810, 917), and
`is_first_varspec` is cleared as soon as an item is visited with `num_elems` 0 (776, 870). -/
def SeqCode.run {b : Bool} (visit : Nat → Bool → τ → α → Option (τ × Bool)) :
    SeqCode σ α b → Nat → Bool → τ → Option (Left τ σ)
  | .finish st, _, first, t => some ⟨t, true, first, st⟩
  | .ret st, _, first, t => some ⟨t, false, first, st⟩
  | .item v onContinue onBreak, n, first, t =>
    match visit n first t v with
    | none => none
    | some (t, true) => onContinue.run visit (n + 1) (if n = 0 then false else first) t
    | some (t, false) => onBreak.run visit n (if n = 0 then false else first) t

/-- Code run with `ValueVisitor`, `src/template/expand.rs` 670-739. -/
def Code.run (S : Spec) (hex : Nat → List Str) (dbg : Bool) (w : Writer τ) (op : Operator) (spec : VarSpec)
    (first : Bool) (t : τ) : Code σ → Option (Left τ σ)
  | .undefined st => some ⟨t, true, first, st⟩
  | .string v st => (visitStringW S hex dbg w op spec first t v).map fun o => ⟨o.1, o.2, false, st⟩
  | .list c => c.run (fun n first t v => visitItemW S hex dbg w op spec first n t v) 0 first t
  | .assoc c => c.run (fun n first t v => visitEntryW S hex dbg w op spec first n t v) 0 first t

/-- The loop over the varspecs in `expand_expr_mut`, `src/template/expand.rs` 236-266, with fuel. -/
def expandVarsCode (S : Spec) (hex : Nat → List Str) (dbg : Bool) (w : Writer τ) (ctx : CodeCtx σ)
    (op : Operator) : Nat → Bool → Nat → Str → τ → σ → Option (DynOutW τ σ Nat)
  | 0, _, _, _, _, _ => none
  | fuel + 1, first, pos, varlist, t, st =>
    match varListNext varlist with
    | none => none
    | some none => some ⟨.ok pos, t, st⟩
    | some (some ((len, spec), rest)) =>
      let ty := (ctx.visit .typecheck spec.name st).runType
      if badType spec.modifier ty.1 then some ⟨.error (.unexpectedValueType, pos), t, ty.2⟩
      else
        match (ctx.visit .expand spec.name ty.2).run S hex dbg w op spec first t with
        | none => none
        | some ⟨t, false, _, st⟩ => some ⟨.error (.writeFailed, pos), t, st⟩
        | some ⟨t, true, first, st⟩ =>
          expandVarsCode S hex dbg w ctx op fuel first (pos + (len + 1)) rest t st

/-- `expand_expr_mut`, `src/template/expand.rs` 224-270. -/
def expandExprCode (S : Spec) (hex : Nat → List Str) (dbg : Bool) (w : Writer τ) (ctx : CodeCtx σ)
    (pos : Nat) (body : Str) (t : τ) (st : σ) : Option (DynOutW τ σ Nat) :=
  match decompose body with
  | none => none
  | some (op, varlist) =>
    match expandVarsCode S hex dbg w ctx op (varlist.length + 1) true (pos + (op.len + 1)) varlist t st with
    | none => none
    | some ⟨.error e, t, st⟩ => some ⟨.error e, t, st⟩
    | some ⟨.ok pos', t, st⟩ => if pos' = pos + blen body + 2 then some ⟨.ok pos', t, st⟩ else none

/-- `expand_whole_dynamic_impl`, `src/template/expand.rs` 200-221, with fuel. -/
def expandLoopCode (S : Spec) (hex : Nat → List Str) (dbg : Bool) (w : Writer τ) (ctx : CodeCtx σ) :
    Nat → Nat → Str → τ → σ → Option (DynOutW τ σ Unit)
  | 0, _, _, _, _ => none
  | fuel + 1, pos, template, t, st =>
    match chunksNext template with
    | none => none
    | some none => some ⟨.ok (), t, st⟩
    | some (some (.literal lit, rest)) =>
      match w t lit with
      | none => none
      | some (t, false) => some ⟨.error (.writeFailed, pos), t, st⟩
      | some (t, true) => expandLoopCode S hex dbg w ctx fuel (pos + blen lit) rest t st
    | some (some (.expr body, rest)) =>
      match expandExprCode S hex dbg w ctx pos body t st with
      | none => none
      | some ⟨.error e, t, st⟩ => some ⟨.error e, t, st⟩
      | some ⟨.ok pos, t, st⟩ => expandLoopCode S hex dbg w ctx fuel pos rest t st

/-- `UriTemplateStr::expand_dynamic`, `src/template/string.rs` 280-286 (`expand_whole_dynamic`,
`src/template/expand.rs` 186-195), into any writer. -/
def expand_dynamic_code (S : Spec) (hex : Nat → List Str) (dbg : Bool) (w : Writer τ) (ctx : CodeCtx σ)
    (template : Str) (t : τ) (st : σ) : Option (DynOutW τ σ Unit) :=
  match expandLoopCode S hex dbg w ctx (template.length + 1) 0 template t (ctx.start st) with
  | none => none
  | some d => some ⟨d.result, d.writer, ctx.finish d.state⟩

/-! ## Static contexts -/

/-- `Context::visit`, `src/template/context.rs`: without a state. -/
abbrev StaticCode := Purpose → Str → Code Unit

/-- The loop over the varspecs in `typecheck_context`, `src/template/expand.rs` 112-128, with fuel. -/
def typecheckVarsCode (ctx : StaticCode) : Nat → Nat → Str → Res Nat
  | 0, _, _ => .panic
  | fuel + 1, pos, varlist =>
    match varListNext varlist with
    | none => .panic
    | some none => .ok pos
    | some (some ((len, spec), rest)) =>
      if badType spec.modifier (ctx .typecheck spec.name).runType.1 then .err .unexpectedValueType pos
      else typecheckVarsCode ctx fuel (pos + (len + 1)) rest

/-- `Expanded::typecheck_context`, `src/template/expand.rs` 99-132, with fuel. -/
def typecheckCode (ctx : StaticCode) : Nat → Nat → Str → Res Unit
  | 0, _, _ => .panic
  | fuel + 1, pos, template =>
    match chunksNext template with
    | none => .panic
    | some none => .ok ()
    | some (some (.literal lit, rest)) => typecheckCode ctx fuel (pos + blen lit) rest
    | some (some (.expr body, rest)) =>
      match decompose body with
      | none => .panic
      | some (op, varlist) =>
        match typecheckVarsCode ctx (varlist.length + 1) (pos + (op.len + 1)) varlist with
        | .panic => .panic
        | .err k l => .err k l
        | .ok pos' =>
          if pos' = pos + blen body + 2 then typecheckCode ctx fuel pos' rest else .panic

/-- The loop over the varspecs in `expand`, `src/template/expand.rs` 385-394, with fuel. -/
def displayVarsCode (S : Spec) (hex : Nat → List Str) (dbg : Bool) (w : Writer τ) (ctx : StaticCode)
    (op : Operator) : Nat → Bool → τ → Str → Option (τ × Bool)
  | 0, _, _, _ => none
  | fuel + 1, first, t, varlist =>
    match varListNext varlist with
    | none => none
    | some none => okW t
    | some (some ((_, spec), rest)) =>
      match (ctx .expand spec.name).run S hex dbg w op spec first t with
      | none => none
      | some ⟨t, false, _, _⟩ => some (t, false)
      | some ⟨t, true, first, _⟩ => displayVarsCode S hex dbg w ctx op fuel first t rest

/-- `Display` of `Expanded`, `src/template/expand.rs` 136-151 and 377-397, with fuel. -/
def displayCode (S : Spec) (hex : Nat → List Str) (dbg : Bool) (w : Writer τ) (ctx : StaticCode) :
    Nat → τ → Str → Option (τ × Bool)
  | 0, _, _ => none
  | fuel + 1, t, template =>
    match chunksNext template with
    | none => none
    | some none => okW t
    | some (some (.literal lit, rest)) =>
      seqW (w t lit) fun t => displayCode S hex dbg w ctx fuel t rest
    | some (some (.expr body, rest)) =>
      match decompose body with
      | none => none
      | some (op, varlist) =>
        seqW (displayVarsCode S hex dbg w ctx op (varlist.length + 1) true t varlist) fun t =>
          displayCode S hex dbg w ctx fuel t rest

/-- `UriTemplateStr::expand` followed by `write!(w, "{expanded}")`. -/
def expand_and_write_code (S : Spec) (hex : Nat → List Str) (dbg : Bool) (w : Writer τ) (ctx : StaticCode)
    (template : Str) (t : τ) : Res (τ × Bool) :=
  match typecheckCode ctx (template.length + 1) 0 template with
  | .panic => .panic
  | .err k l => .err k l
  | .ok () =>
    match displayCode S hex dbg w ctx (template.length + 1) t template with
    | some o => .ok o
    | none => .panic

end Verif.Tpl
