import Verif.Model.ValidateWork
import Verif.Model.Template

/-!
# Template validation and the list of variables with a counter of the bytes they look at

The functions of `Model/Template.lean` with the counter of `Model/ValidateWork.lean`.  `str::len`, slicing and
`is_empty` cost nothing.  That the results are those of the functions without a counter is theorem `C88_same`.
-/

namespace Verif.Work

/-- The `?` operator: what comes after an error or a panic is not done. -/
def rb {α β : Type} (x : T (Tpl.Res α)) (f : α → T (Tpl.Res β)) : T (Tpl.Res β) :=
  match x with
  | (.panic, n) => (.panic, n)
  | (.err k l, n) => (.err k l, n)
  | (.ok a, n) => ((f a).1, n + (f a).2)

/-- `Iterator::position`: the characters up to and with the one that is found. -/
def charPosition (p : Char → Bool) : Str → T (Option Nat)
  | [] => (none, 0)
  | c :: r =>
    if p c then (some 0, c.utf8Size)
    else ((charPosition p r).1.map (· + 1), c.utf8Size + (charPosition p r).2)

/-- `validate_literal`, `src/template/parser/validate.rs` 14-22. -/
def validate_literal (s : Str) (offset : Nat) : T (Tpl.Res Unit) :=
  bind (charPosition (fun c => !isAscii c || !Tpl.is_ascii_literal_char c) s) fun
  | some pos => ret (.err .invalidCharacter (offset + pos))
  | none => ret (.ok ())

/-- The `rest` of `validate_varname`, `src/template/parser/validate.rs` 59-63: the first character, and, if it is
`%`, at most two bytes more. -/
def varnameRest (s : Str) : T (Option Str) :=
  match s with
  | [] => ret none
  | c :: r => (Tpl.varnameRest (c :: r), c.utf8Size + if c == '%' then min 2 (blen r) else 0)

/-- `validate_varname`, `src/template/parser/validate.rs` 58-69. -/
def validate_varname (s : Str) (offset : Nat) : T (Tpl.Res Unit) :=
  bind (varnameRest s) fun
  | none => ret (.err .invalidExpression offset)
  | some rest =>
    bind (satisfy Tpl.is_ascii_varchar_continue (fun _ => false) rest) fun b =>
      ret (if b then .ok () else .err .invalidExpression offset)

/-- The tests of the `max-length` text, `src/template/parser/validate.rs` 29-40. -/
def validate_max_len (varname_len : Nat) (maybe_len : Str) (offset : Nat) : T (Tpl.Res Unit) :=
  if !(1 ≤ blen maybe_len && blen maybe_len ≤ 5) then
    ret (.err .invalidExpression (offset + varname_len + 2))
  else
    bind (charPosition (fun c => !isDigit c) maybe_len) fun
    | some pos => ret (.err .invalidExpression (offset + varname_len + 2 + pos))
    | none => ret (.ok ())

/-- `validate_varspec`, `src/template/parser/validate.rs` 25-55. -/
def validate_varspec (s : Str) (offset : Nat) : T (Tpl.Res Unit) :=
  bind (find_split2_hole s ':' '*') fun
  | some (maybe_varname, sep, rest) =>
    if sep = ':' then
      rb (validate_varname maybe_varname offset) fun _ => validate_max_len (blen maybe_varname) rest offset
    else
      rb (validate_varname maybe_varname offset) fun _ =>
        ret (if !rest.isEmpty then .err .invalidExpression (offset + blen maybe_varname + 1) else .ok ())
  | none => validate_varname s offset

/-- One step of `str::split(',')`: the bytes of the piece and the comma after it, if there is one. -/
def pieceCost (v : Str) (vs : List Str) : Nat := blen v + if vs.isEmpty then 0 else 1

/-- The loop of `validate_expr_body`, `src/template/parser/validate.rs` 91-99. -/
def validateVarspecs : Bool → List Str → Nat → T (Tpl.Res Unit)
  | _, [], _ => ret (.ok ())
  | first, v :: vs, offset =>
    bind ((), pieceCost v vs) fun _ =>
      rb (validate_varspec v (if first then offset else offset + 1)) fun _ =>
        validateVarspecs false vs ((if first then offset else offset + 1) + blen v)

/-- `validate_expr_body`, `src/template/parser/validate.rs` 74-102: the first byte, and the pieces. -/
def validate_expr_body (s : Str) (offset : Nat) : T (Tpl.Res Unit) :=
  match s with
  | [] => ret (.err .invalidExpression offset)
  | c :: r =>
    bind (Tpl.MaybeOperator.from_byte c, 1) fun
    | some (.operator _) => validateVarspecs true (Tpl.splitComma r) (offset + 1)
    | some .reserved => ret (.err .unsupportedOperator offset)
    | none => validateVarspecs true (Tpl.splitComma (c :: r)) offset

/-- The two digits, `src/template/parser/validate.rs` 116-132: at most two bytes. -/
def pctDigits (lit : Nat) (xdigits2_and_rest : Str) (offset : Nat) : Tpl.Res Str :=
  if blen xdigits2_and_rest < 2 then .err .invalidPercentEncoding (offset + lit)
  else
    match splitAtB xdigits2_and_rest 2 with
    | none => .panic
    | some (xdigits2, new_rest) =>
      if !Tpl.isHexB ((utf8s xdigits2).getD 0 0) then .err .invalidPercentEncoding (offset + lit + 1)
      else if !Tpl.isHexB ((utf8s xdigits2).getD 1 0) then .err .invalidPercentEncoding (offset + lit + 2)
      else .ok new_rest

/-- The `%` arm of the loop of `validate_template_str`, `src/template/parser/validate.rs` 112-134. -/
def validatePct (literal xdigits2_and_rest : Str) (offset : Nat) : T (Tpl.Res Str) :=
  rb (validate_literal literal offset) fun _ =>
    (pctDigits (blen literal) xdigits2_and_rest offset, min 2 (blen xdigits2_and_rest))

/-- The rest of the `{` arm of the loop, `src/template/parser/validate.rs` 138-151. -/
def closeExpr (lit : Nat) (expr_and_rest : Str) (offset : Nat) : T (Tpl.Res Str) :=
  bind (find_split_hole expr_and_rest '}') fun
  | none => ret (.err .expressionNotClosed (offset + lit))
  | some (expr, new_rest) => rb (validate_expr_body expr (offset + lit + 1)) fun _ => ret (.ok new_rest)

/-- The `{` arm of the loop of `validate_template_str`, `src/template/parser/validate.rs` 135-152. -/
def validateExpr (literal expr_and_rest : Str) (offset : Nat) : T (Tpl.Res Str) :=
  rb (validate_literal literal offset) fun _ => closeExpr (blen literal) expr_and_rest offset

/-- The loop of `validate_template_str`, `src/template/parser/validate.rs` 110-158, with fuel. -/
def validateLoop : Nat → Nat → Str → Nat → T (Tpl.Res Unit)
  | 0, _, _, _ => ret .panic
  | fuel + 1, total, rest, offset =>
    if rest.isEmpty then ret (.ok ())
    else
      bind (find_split2_hole rest '%' '{') fun
      | some (literal, c, after) =>
        rb (if c = '%' then validatePct literal after offset else validateExpr literal after offset)
          fun rest => validateLoop fuel total rest (total - blen rest)
      | none => validate_literal rest offset

/-- `validate_template_str`, `src/template/parser/validate.rs` 107-161. -/
def validate_template_str (s : Str) : T (Tpl.Res Unit) := validateLoop (s.length + 1) (blen s) s 0

/-- `VarSpec::parse_trusted`, `src/template/components.rs` 144-170: the last byte, the search for `:` and the
digits. -/
def parse_trusted (s : Str) : T (Option Tpl.VarSpec) :=
  bind (Tpl.strip_suffix_char s '*', min 1 (blen s)) fun
  | some varname => ret (some ⟨varname, .explode⟩)
  | none =>
    bind (find_split_hole s ':') fun
    | some (varname, max_len) =>
      bind (Tpl.parse_u16 max_len, blen max_len) fun o => ret (o.map fun n => ⟨varname, .maxLen n⟩)
    | none => ret (some ⟨s, .none⟩)

/-- `VarListIter::next`, `src/template/components.rs` 209-228. -/
def varListNext (rest : Str) : T (Option (Option ((Nat × Tpl.VarSpec) × Str))) :=
  bind (find_split_hole rest ',') fun
  | some (pre, new_rest) => bind (parse_trusted pre) fun o => ret (o.map fun v => some ((blen pre, v), new_rest))
  | none =>
    if rest.isEmpty then ret (some none)
    else bind (parse_trusted rest) fun o => ret (o.map fun v => some ((blen rest, v), []))

/-- `Chunks::next`, `src/template/expand.rs` 55-73. -/
def chunksNext (template : Str) : T (Option (Option (Tpl.Chunk × Str))) :=
  if template.isEmpty then ret (some none)
  else
    bind (find_split template '{') fun
    | some (lit, rest) =>
      if lit.isEmpty then
        bind (find_split_hole (template.drop 1) '}') fun
        | some (expr_body, rest) => ret (some (some (.expr expr_body, rest)))
        | none => ret none
      else ret (some (some (.literal lit, rest)))
    | none => ret (some (some (.literal template, [])))

/-- `self.chunks.find_map(..)` in `UriTemplateVariables::next`, `src/template/string.rs` 588-591, with fuel. -/
def nextExpr : Nat → Str → T (Option (Option (Str × Str)))
  | 0, _ => ret none
  | fuel + 1, template =>
    bind (chunksNext template) fun
    | none => ret none
    | some none => ret (some none)
    | some (some (.literal _, rest)) => nextExpr fuel rest
    | some (some (.expr body, rest)) => ret (some (some (body, rest)))

/-- `vars.next()` in `UriTemplateVariables::next`, `src/template/string.rs` 582-587. -/
def firstVar (it : Tpl.VarsIter) : T (Option (Option ((Nat × Tpl.VarSpec) × Str))) :=
  match it.vars_in_chunk with
  | some vars => varListNext vars
  | none => ret (some none)

/-- `UriTemplateVariables::next`, `src/template/string.rs` 580-594, with fuel; `ExprBody::decompose`
(`src/template/components.rs` 38-57) looks at one byte. -/
def varsNext : Nat → Tpl.VarsIter → T (Option (Option (Str × Tpl.VarsIter)))
  | 0, _ => ret none
  | fuel + 1, it =>
    bind (firstVar it) fun
    | none => ret none
    | some (some ((_, spec), vars)) => ret (some (some (spec.name, ⟨it.chunks, some vars⟩)))
    | some none =>
      bind (nextExpr (it.chunks.length + 1) it.chunks) fun
      | none => ret none
      | some none => ret (some none)
      | some (some (body, rest)) =>
        bind (Tpl.decompose body, 1) fun
        | none => ret none
        | some (_, varlist) => varsNext fuel ⟨rest, some varlist⟩

/-- Collecting the iterator, with fuel. -/
def varsCollect : Nat → Tpl.VarsIter → T (Option (List Str))
  | 0, _ => ret none
  | fuel + 1, it =>
    bind (varsNext (it.chunks.length + 2) it) fun
    | none => ret none
    | some none => ret (some [])
    | some (some (name, it)) => bind (varsCollect fuel it) fun o => ret (o.map (name :: ·))

/-- `UriTemplateStr::variables`, `src/template/string.rs` 386-388, collected. -/
def variables (s : Str) : T (Option (List Str)) := varsCollect (s.length + 1) ⟨s, none⟩

end Verif.Work
