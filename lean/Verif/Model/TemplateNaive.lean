import Verif.Model.TemplateExpand
import Verif.Model.Validate
import Verif.Model.Construct

/-!
# Visitors and Rust values as template values: `src/template/context.rs`, `src/template/value.rs`

`Model/TemplateExpand.lean` models a context by the value it hands to the visitor.  Here a context is
what it is in the crate: code that is given a visitor and calls its methods.  `none` is a panic.
-/

namespace Verif.Tpl

/-! ## The visitor traits -/

/-- `core::ops::ControlFlow`. -/
inductive Flow (ρ τ : Type)
  | brk (r : ρ)
  | cont (t : τ)

/-- `ListVisitor` (with `α := Disp`), `src/template/context.rs` 499-514, and `AssocVisitor` (with
`α := Disp × Disp`), 534-553: the state `τ` that `visit_item`/`visit_entry` change, and the result `ρ`. -/
structure SeqVisitor (τ ρ α : Type) where
  visit : τ → α → Flow ρ τ
  finish : τ → ρ

/-- `visit_items_and_finish`, `src/template/context.rs` 517-527, and `visit_entries_and_finish`,
556-571: `try_for_each` stops at the first `Break`. -/
def SeqVisitor.all_and_finish {τ ρ α : Type} (v : SeqVisitor τ ρ α) : τ → List α → ρ
  | t, [] => v.finish t
  | t, a :: r =>
    match v.visit t a with
    | .brk x => x
    | .cont t => v.all_and_finish t r

/-- `Visitor`, `src/template/context.rs` 431-493 (the name and the purpose are arguments of the
context's method here). -/
structure Visitor (ρ : Type) where
  visit_undefined : ρ
  visit_string : Disp → ρ
  L : Type
  list : SeqVisitor L ρ Disp
  visit_list : L
  A : Type
  assoc : SeqVisitor A ρ (Disp × Disp)
  visit_assoc : A

/-- `Visitor::visit_list_direct`, `src/template/context.rs` 476-482. -/
def Visitor.visit_list_direct {ρ : Type} (v : Visitor ρ) (items : List Disp) : ρ :=
  v.list.all_and_finish v.visit_list items

/-- `Visitor::visit_assoc_direct`, `src/template/context.rs` 485-492. -/
def Visitor.visit_assoc_direct {ρ : Type} (v : Visitor ρ) (entries : List (Disp × Disp)) : ρ :=
  v.assoc.all_and_finish v.visit_assoc entries

/-- `TypeVisitor`, `src/template/expand.rs` 960-990, `ListTypeVisitor`, 993-1012, and
`AssocTypeVisitor`, 1015-1037, with the constructors of `ValueType`, `src/template.rs` 160-202. -/
def typeVisitor : Visitor ValueType where
  visit_undefined := .undefined
  visit_string _ := .string
  L := Unit
  list := ⟨fun _ _ => .brk .list, fun _ => .undefined⟩
  visit_list := ()
  A := Unit
  assoc := ⟨fun _ _ => .brk .assoc, fun _ => .undefined⟩
  visit_assoc := ()

/-- State of `ListValueVisitor`, `src/template/expand.rs` 752-759, and `AssocValueVisitor`, 844-851:
what has been written, and `num_elems`; `*is_first_varspec` after the elements is
`first && num_elems = 0`. -/
structure SeqState where
  out : Str
  num_elems : Nat

/-- What a list or associative array visitor does with the text of an element (writers do not fail:
`visit_item`, `src/template/expand.rs` 819-824, never returns `Break`; a panic ends everything). -/
def SeqState.push (s : SeqState) : Option Str → Flow (Option (Str × Bool)) SeqState
  | none => .brk none
  | some t => .cont ⟨s.out ++ t, s.num_elems + 1⟩

/-- `finish`, `src/template/expand.rs` 828-830, 940-942. -/
def SeqState.done (first : Bool) (s : SeqState) : Option (Str × Bool) :=
  some (s.out, first && s.num_elems == 0)

/-- `ValueVisitor`, `src/template/expand.rs` 670-739, `ListValueVisitor`, 761-831, and
`AssocValueVisitor`, 853-943: the text written and the new `*is_first_varspec`. -/
def valueVisitor (S : Spec) (dbg : Bool) (op : Operator) (spec : VarSpec) (first : Bool) :
    Visitor (Option (Str × Bool)) where
  visit_undefined := some ([], first)
  visit_string v := (visit_string S dbg op spec first v).map fun t => (t, false)
  L := SeqState
  list := ⟨fun s item => s.push (visit_item S dbg op spec first s.num_elems item), SeqState.done first⟩
  visit_list := ⟨[], 0⟩
  A := SeqState
  assoc := ⟨fun s e => s.push (visit_entry S dbg op spec first s.num_elems e), SeqState.done first⟩
  visit_assoc := ⟨[], 0⟩

/-! ## Contexts -/

/-- `Context::visit`, `src/template/context.rs` 282-287: for a purpose and a variable name, code that
works with every visitor. -/
abbrev VCtx := Purpose → Str → (ρ : Type) → Visitor ρ → ρ

/-- The loop over the varspecs in `expand`, `src/template/expand.rs` 385-394, with a context that is
given the visitor; with fuel. -/
def expandVarsV (S : Spec) (dbg : Bool) (ctx : VCtx) (op : Operator) : Nat → Bool → Str → Option Str
  | 0, _, _ => none
  | fuel + 1, first, varlist =>
    match varListNext varlist with
    | none => none
    | some none => some []
    | some (some ((_, spec), rest)) =>
      (ctx .expand spec.name _ (valueVisitor S dbg op spec first)).bind fun o =>
        (expandVarsV S dbg ctx op fuel o.2 rest).map fun t => o.1 ++ t

/-- `expand`, `src/template/expand.rs` 377-397. -/
def expandExprV (S : Spec) (dbg : Bool) (ctx : VCtx) (body : Str) : Option Str :=
  (decompose body).bind fun d => expandVarsV S dbg ctx d.1 (d.2.length + 1) true d.2

/-- `Display` of `Expanded`, `src/template/expand.rs` 136-151, with fuel. -/
def displayExpandedV (S : Spec) (dbg : Bool) (ctx : VCtx) : Nat → Str → Option Str
  | 0, _ => none
  | fuel + 1, template =>
    match chunksNext template with
    | none => none
    | some none => some []
    | some (some (.literal lit, rest)) => (displayExpandedV S dbg ctx fuel rest).map fun t => lit ++ t
    | some (some (.expr body, rest)) =>
      (expandExprV S dbg ctx body).bind fun a =>
        (displayExpandedV S dbg ctx fuel rest).map fun t => a ++ t

/-- The loop over the varspecs in `typecheck_context`, `src/template/expand.rs` 112-128, with fuel. -/
def typecheckVarsV (ctx : VCtx) : Nat → Nat → Str → Res Nat
  | 0, _, _ => .panic
  | fuel + 1, pos, varlist =>
    match varListNext varlist with
    | none => .panic
    | some none => .ok pos
    | some (some ((len, spec), rest)) =>
      if badType spec.modifier (ctx .typecheck spec.name _ typeVisitor) then
        .err .unexpectedValueType pos
      else typecheckVarsV ctx fuel (pos + (len + 1)) rest

/-- `src/template/expand.rs` 101-129 for an expression. -/
def typecheckExprV (ctx : VCtx) (pos : Nat) (body : Str) : Res Nat :=
  match decompose body with
  | none => .panic
  | some (op, varlist) =>
    (typecheckVarsV ctx (varlist.length + 1) (pos + (op.len + 1)) varlist).bind fun pos' =>
      if pos' = pos + blen body + 2 then .ok pos' else .panic

/-- `Expanded::typecheck_context`, `src/template/expand.rs` 99-132, with fuel. -/
def typecheckV (ctx : VCtx) : Nat → Nat → Str → Res Unit
  | 0, _, _ => .panic
  | fuel + 1, pos, template =>
    match chunksNext template with
    | none => .panic
    | some none => .ok ()
    | some (some (.literal lit, rest)) => typecheckV ctx fuel (pos + blen lit) rest
    | some (some (.expr body, rest)) =>
      (typecheckExprV ctx pos body).bind fun pos' => typecheckV ctx fuel pos' rest

/-- `UriTemplateStr::expand` (`src/template/string.rs` 262-267, `src/template/expand.rs` 88-95)
followed by `to_string()`. -/
def expand_with (S : Spec) (dbg : Bool) (ctx : VCtx) (template : Str) : Res Str :=
  (typecheckV ctx (template.length + 1) 0 template).bind fun _ =>
    match displayExpandedV S dbg ctx (template.length + 1) template with
    | some t => .ok t
    | none => .panic

/-! ## Rust values -/

/-- `Display` of the integer types (standard library, `Formatter::pad_integral` without options): the
sign in one call, the digits in another. -/
def displayInt : Int → Disp
  | .ofNat n => [Nat.toDigits 10 n]
  | .negSucc n => [['-'], Nat.toDigits 10 (n + 1)]

/-- The values that implement `VisitValueNaive`, `src/template/value.rs` 28-127.  The elements of lists
and maps are any `Display` objects, in the order of iteration; the integer types are `int`; `str`,
`String`, `Box<str>` and `Cow<str>` are `str`; slices, arrays, `Vec`, `BTreeSet` and `HashSet` are
`list`; `BTreeMap` and `HashMap` are `map`. -/
inductive RustValue
  | unit
  | none
  | some (v : RustValue)
  | ref (v : RustValue)
  | int (i : Int)
  | str (s : Str)
  | list (items : List Disp)
  | map (entries : List (Disp × Disp))

/-- `VisitValueNaive::visit_value`, `src/template/value.rs` 28-127, and `visit_value_naive`, 10-16. -/
def RustValue.visit_value {ρ : Type} (v : Visitor ρ) : RustValue → ρ
  | .unit => v.visit_undefined
  | .none => v.visit_undefined
  | .some x => x.visit_value v
  | .ref x => x.visit_value v
  | .int i => v.visit_string (displayInt i)
  | .str s => v.visit_string [s]
  | .list items => v.list.all_and_finish v.visit_list items
  | .map entries => v.assoc.all_and_finish v.visit_assoc entries

/-- The visit function of a field: `visit_value_naive`, or a custom function, which calls one of the
methods of the visitor. -/
inductive FieldVisit
  | naive (v : RustValue)
  | undefined
  | string (d : Disp)
  | listDirect (items : List Disp)
  | assocDirect (entries : List (Disp × Disp))

/-- A visit function applied to the visitor. -/
def FieldVisit.run {ρ : Type} (v : Visitor ρ) : FieldVisit → ρ
  | .naive x => x.visit_value v
  | .undefined => v.visit_undefined
  | .string d => v.visit_string d
  | .listDirect items => v.visit_list_direct items
  | .assocDirect entries => v.visit_assoc_direct entries

/-- A field in `impl_template_context_naive!`: the field, the name if one is given, and how the field
is visited. -/
structure Field where
  field : Str
  var_name : Option Str
  visit : FieldVisit

/-- `@ var_name` of `impl_template_context_naive!`, `src/template/context.rs` 254-259. -/
def Field.name (f : Field) : Str :=
  match f.var_name with
  | some n => n
  | none => f.field

/-- The `visit` method generated by `impl_template_context_naive!`, `src/template/context.rs` 236-252:
the first arm whose name is that of the variable, otherwise undefined. -/
def structVisit : List Field → VCtx
  | [], _, _, _, v => v.visit_undefined
  | f :: r, p, name, ρ, v =>
    if f.name = name then f.visit.run v else structVisit r p name ρ v

/-- `SimpleContext::visit`, `src/template/simple_context.rs` 199-231, with the visitor. -/
def simpleVisit (m : Variables) : VCtx := fun _ name _ v =>
  match mapGet m name with
  | none => v.visit_undefined
  | some .undefined => v.visit_undefined
  | some (.string s) => v.visit_string [s]
  | some (.list l) => v.list.all_and_finish v.visit_list (l.map fun s => [s])
  | some (.assoc l) => v.assoc.all_and_finish v.visit_assoc (l.map fun e => ([e.1], [e.2]))

/-- `TryFrom<Expanded<..>>` for `RiReferenceString`, `RiString`, `RiAbsoluteString` and
`RiRelativeString`, `src/template/expand.rs` 154-173, after `UriTemplateStr::expand`. -/
def expand_try_into (S : Spec) (dbg : Bool) (ctx : VCtx) (k : IriKind) (template : Str) :
    Res (Option (RResult CreationError Str)) :=
  (typecheckV ctx (template.length + 1) 0 template).bind fun _ =>
    match displayExpandedV S dbg ctx (template.length + 1) template with
    | some t => .ok (owned_try_from_string S (.iriLike k) t)
    | none => .panic

end Verif.Tpl
