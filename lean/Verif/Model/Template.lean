import Verif.Model.Str
import Verif.Spec.Utf8

/-!
# URI templates: `src/template/parser/`, `src/template/components.rs`, `src/template/string.rs`,
# `src/template/simple_context.rs`

Validation, splitting of a template into literals and expressions, and the variable list.
Expansion is in `Model/TemplateExpand.lean`.
-/

namespace Verif.Tpl

/-- `ErrorKind`, `src/template/error.rs` 10-27. -/
inductive ErrorKind
  | writeFailed
  | expressionNotClosed
  | invalidCharacter
  | invalidExpression
  | invalidPercentEncoding
  | invalidUtf8
  | unexpectedValueType
  | unsupportedOperator
  deriving DecidableEq, Repr

/-- Outcome of a Rust function returning `Result<α, Error>`: it panics, or returns `Err` with kind and
location (`Error`, `src/template/error.rs` 52-57), or `Ok`. -/
inductive Res (α : Type)
  | panic
  | err (kind : ErrorKind) (location : Nat)
  | ok (a : α)
  deriving DecidableEq, Repr

/-- The `?` operator. -/
def Res.bind {α β : Type} : Res α → (α → Res β) → Res β
  | .panic, _ => .panic
  | .err k l, _ => .err k l
  | .ok a, f => f a

instance : Monad Res where
  pure := .ok
  bind := Res.bind

/-- `CHARS_TABLE`, `src/template/parser/char.rs` 7-136 (mechanically extracted from the source text). -/
def CHARS_TABLE : List Nat := [
  0, 0, 0, 0, 0, 0, 0, 0, 0, 0, 0, 0, 0, 0, 0, 0,
  0, 0, 0, 0, 0, 0, 0, 0, 0, 0, 0, 0, 0, 0, 0, 0,
  0, 1, 0, 1, 1, 0, 1, 1, 1, 1, 1, 1, 1, 1, 5, 1,
  7, 7, 7, 7, 7, 7, 7, 7, 7, 7, 1, 1, 0, 1, 0, 1,
  1, 7, 7, 7, 7, 7, 7, 7, 7, 7, 7, 7, 7, 7, 7, 7,
  7, 7, 7, 7, 7, 7, 7, 7, 7, 7, 7, 1, 0, 1, 0, 7,
  0, 7, 7, 7, 7, 7, 7, 7, 7, 7, 7, 7, 7, 7, 7, 7,
  7, 7, 7, 7, 7, 7, 7, 7, 7, 7, 7, 0, 0, 0, 1, 0]

/-- `(CHARS_TABLE[c as usize] & mask) != 0`; the Rust functions are only called with ASCII bytes. -/
def charsTest (mask : Nat) (c : Char) : Bool := (CHARS_TABLE.getD c.toNat 0) &&& mask != 0

/-- `is_ascii_literal_char`, `src/template/parser/char.rs` 160-162 (mask `1 << 0`). -/
def is_ascii_literal_char : Char → Bool := charsTest 1
/-- `is_ascii_varchar_start`, `src/template/parser/char.rs` 174-176 (mask `1 << 1`). -/
def is_ascii_varchar_start : Char → Bool := charsTest 2
/-- `is_ascii_varchar_continue`, `src/template/parser/char.rs` 188-190 (mask `1 << 2`). -/
def is_ascii_varchar_continue : Char → Bool := charsTest 4

/-- `Iterator::position` over characters. -/
def charPosition (p : Char → Bool) : Str → Option Nat
  | [] => none
  | c :: r => if p c then some 0 else (charPosition p r).map (· + 1)

/-- `validate_literal`, `src/template/parser/validate.rs` 14-22. -/
def validate_literal (s : Str) (offset : Nat) : Res Unit :=
  match charPosition (fun c => !isAscii c || !is_ascii_literal_char c) s with
  | some pos => .err .invalidCharacter (offset + pos)
  | none => .ok ()

/-- The `rest` of `validate_varname`, `src/template/parser/validate.rs` 59-63 (`none`: the `Err` arm).
The first byte of a non-ASCII character is neither `%` nor ASCII. -/
def varnameRest : Str → Option Str
  | [] => none
  | c :: r =>
    if c == '%' && starts_with_double_hexdigits r then some (r.drop 2)
    else if isAscii c && is_ascii_varchar_start c then some r
    else none

/-- `validate_varname`, `src/template/parser/validate.rs` 58-69. -/
def validate_varname (s : Str) (offset : Nat) : Res Unit :=
  match varnameRest s with
  | none => .err .invalidExpression offset
  | some rest =>
    if satisfy_chars_with_pct_encoded is_ascii_varchar_continue (fun _ => false) rest then .ok ()
    else .err .invalidExpression offset

/-- The tests of the `max-length` text, `src/template/parser/validate.rs` 29-40.  The position of the
first non-digit byte is the position of the first non-digit character: only digits precede it. -/
def validate_max_len (varname_len : Nat) (maybe_len : Str) (offset : Nat) : Res Unit :=
  if !(1 ≤ blen maybe_len && blen maybe_len ≤ 5) then
    .err .invalidExpression (offset + varname_len + 2)
  else
    match charPosition (fun c => !isDigit c) maybe_len with
    | some pos => .err .invalidExpression (offset + varname_len + 2 + pos)
    | none => .ok ()

/-- `validate_varspec`, `src/template/parser/validate.rs` 25-55. -/
def validate_varspec (s : Str) (offset : Nat) : Res Unit :=
  match find_split2_hole s ':' '*' with
  | some (maybe_varname, sep, rest) =>
    if sep = ':' then
      (validate_varname maybe_varname offset).bind fun _ =>
        validate_max_len (blen maybe_varname) rest offset
    else
      (validate_varname maybe_varname offset).bind fun _ =>
        if !rest.isEmpty then .err .invalidExpression (offset + blen maybe_varname + 1) else .ok ()
  | none => validate_varname s offset

/-- `Operator`, `src/template/components.rs` 271-289. -/
inductive Operator
  | string
  | reserved
  | fragment
  | label
  | pathSegments
  | pathParams
  | formQuery
  | formQueryCont
  deriving DecidableEq, Repr

/-- `Operator::from_byte`, `src/template/components.rs` 294-305. -/
def Operator.from_byte (b : Char) : Option Operator :=
  if b = '+' then some .reserved
  else if b = '#' then some .fragment
  else if b = '.' then some .label
  else if b = '/' then some .pathSegments
  else if b = ';' then some .pathParams
  else if b = '?' then some .formQuery
  else if b = '&' then some .formQueryCont
  else none

/-- `Operator::len`, `src/template/components.rs` 310-316. -/
def Operator.len (op : Operator) : Nat := if op = .string then 0 else 1

/-- `MaybeOperator`, `src/template/components.rs` 241-246 (the reserved operators are not told apart). -/
inductive MaybeOperator
  | operator (op : Operator)
  | reserved
  deriving DecidableEq, Repr

/-- `MaybeOperator::from_byte`, `src/template/components.rs` 250-267. -/
def MaybeOperator.from_byte (b : Char) : Option MaybeOperator :=
  if b = '+' then some (.operator .reserved)
  else if b = '#' then some (.operator .fragment)
  else if b = '.' then some (.operator .label)
  else if b = '/' then some (.operator .pathSegments)
  else if b = ';' then some (.operator .pathParams)
  else if b = '?' then some (.operator .formQuery)
  else if b = '&' then some (.operator .formQueryCont)
  else if b = '=' then some .reserved
  else if b = ',' then some .reserved
  else if b = '!' then some .reserved
  else if b = '@' then some .reserved
  else if b = '|' then some .reserved
  else none

/-- `str::split(',')`: the pieces between the commas (always at least one). -/
def splitComma : Str → List Str
  | [] => [[]]
  | c :: r =>
    if c == ',' then [] :: splitComma r
    else match splitComma r with
      | [] => [[c]]
      | p :: ps => (c :: p) :: ps

/-- The loop of `validate_expr_body`, `src/template/parser/validate.rs` 91-99; `first` is
`spec_i == 0`. -/
def validateVarspecs : Bool → List Str → Nat → Res Unit
  | _, [], _ => .ok ()
  | first, v :: vs, offset =>
    let offset := if first then offset else offset + 1
    (validate_varspec v offset).bind fun _ => validateVarspecs false vs (offset + blen v)

/-- `validate_expr_body`, `src/template/parser/validate.rs` 74-102. -/
def validate_expr_body (s : Str) (offset : Nat) : Res Unit :=
  match s with
  | [] => .err .invalidExpression offset
  | c :: r =>
    match MaybeOperator.from_byte c with
    | some (.operator _) => validateVarspecs true (splitComma r) (offset + 1)
    | some .reserved => .err .unsupportedOperator offset
    | none => validateVarspecs true (splitComma s) offset

/-- `u8::is_ascii_hexdigit`. -/
def isHexB (b : Nat) : Bool := isHex (Char.ofNat b)

/-- The `%` arm of the loop of `validate_template_str`, `src/template/parser/validate.rs` 112-134: the
new `rest`. -/
def validatePct (literal xdigits2_and_rest : Str) (offset : Nat) : Res Str :=
  (validate_literal literal offset).bind fun _ =>
    if blen xdigits2_and_rest < 2 then .err .invalidPercentEncoding (offset + blen literal)
    else
      match splitAtB xdigits2_and_rest 2 with
      | none => .panic
      | some (xdigits2, new_rest) =>
        if !isHexB ((utf8s xdigits2).getD 0 0) then
          .err .invalidPercentEncoding (offset + blen literal + 1)
        else if !isHexB ((utf8s xdigits2).getD 1 0) then
          .err .invalidPercentEncoding (offset + blen literal + 2)
        else .ok new_rest

/-- The `{` arm of the loop of `validate_template_str`, `src/template/parser/validate.rs` 135-152: the
new `rest`. -/
def validateExpr (literal expr_and_rest : Str) (offset : Nat) : Res Str :=
  (validate_literal literal offset).bind fun _ =>
    match find_split_hole expr_and_rest '}' with
    | none => .err .expressionNotClosed (offset + blen literal)
    | some (expr, new_rest) =>
      (validate_expr_body expr (offset + blen literal + 1)).bind fun _ => .ok new_rest

/-- The loop of `validate_template_str`, `src/template/parser/validate.rs` 110-158, with fuel (every
iteration shortens `rest`); `total` is `s.len()`. -/
def validateLoop : Nat → Nat → Str → Nat → Res Unit
  | 0, _, _, _ => .panic
  | fuel + 1, total, rest, offset =>
    if rest.isEmpty then .ok ()
    else
      match find_split2_hole rest '%' '{' with
      | some (literal, c, after) =>
        (if c = '%' then validatePct literal after offset else validateExpr literal after offset).bind
          fun rest => validateLoop fuel total rest (total - blen rest)
      | none => validate_literal rest offset

/-- `validate_template_str`, `src/template/parser/validate.rs` 107-161 (`UriTemplateStr::new`,
`src/template/string.rs` 105-112). -/
def validate_template_str (s : Str) : Res Unit := validateLoop (s.length + 1) (blen s) s 0

/-- `Modifier`, `src/template/components.rs` 231-239. -/
inductive Modifier
  | none
  | maxLen (n : Nat)
  | explode
  deriving DecidableEq, Repr

/-- `VarSpec`, `src/template/components.rs` 115-121. -/
structure VarSpec where
  name : Str
  modifier : Modifier
  deriving DecidableEq, Repr

/-- `str::strip_suffix(char)`. -/
def strip_suffix_char (s : Str) (c : Char) : Option Str :=
  if s.getLast? = some c then some s.dropLast else none

/-- The number written by the decimal digits `s`, if `s` consists of digits only. -/
def digitsVal : Nat → Str → Option Nat
  | acc, [] => some acc
  | acc, c :: r => if isDigit c then digitsVal (acc * 10 + (c.toNat - 48)) r else Option.none

/-- `<u16 as FromStr>::from_str` (standard library): an optional `+`, at least one digit, at most
65535. -/
def parse_u16 (s : Str) : Option Nat := do
  let ds := match s with
    | c :: r => if c = '+' then r else s
    | [] => s
  if ds.isEmpty then Option.none
  else do
    let n ← digitsVal 0 ds
    if n ≤ 65535 then some n else Option.none

/-- `VarSpec::parse_trusted`, `src/template/components.rs` 144-170. -/
def parse_trusted (s : Str) : Option VarSpec :=
  match strip_suffix_char s '*' with
  | some varname => some ⟨varname, .explode⟩
  | none =>
    match find_split_hole s ':' with
    | some (varname, max_len) => (parse_u16 max_len).map fun n => ⟨varname, .maxLen n⟩
    | none => some ⟨s, .none⟩

/-- `VarListIter::next`, `src/template/components.rs` 209-228: panic, or the item with the new `rest`.
The item carries the length of the varspec. -/
def varListNext (rest : Str) : Option (Option ((Nat × VarSpec) × Str)) :=
  match find_split_hole rest ',' with
  | some (pre, new_rest) => (parse_trusted pre).map fun v => some ((blen pre, v), new_rest)
  | none =>
    if rest.isEmpty then some none
    else (parse_trusted rest).map fun v => some ((blen rest, v), [])

/-- The test of the first byte in `ExprBody::decompose`, `src/template/components.rs` 44. -/
def startsVarList (c : Char) : Bool := isDigit c || isAlpha c || c == '_' || c == '%'

/-- `ExprBody::decompose`, `src/template/components.rs` 38-57. -/
def decompose (body : Str) : Option (Operator × Str) :=
  match body with
  | [] => none
  | c :: r =>
    if startsVarList c then some (.string, body)
    else (Operator.from_byte c).map fun op => (op, r)

/-- `Chunk`, `src/template/expand.rs` 25-32. -/
inductive Chunk
  | literal (s : Str)
  | expr (body : Str)
  deriving DecidableEq, Repr

/-- `Chunks::next`, `src/template/expand.rs` 55-73: panic, or the chunk with the new `template`.  The
`debug_assert!` of `ExprBody::new` (`src/template/components.rs` 22-26) panics in debug builds for an
empty body; `decompose`, which every user of an expression chunk calls, panics for it anyway. -/
def chunksNext (template : Str) : Option (Option (Chunk × Str)) :=
  if template.isEmpty then some none
  else
    match find_split template '{' with
    | some (lit, rest) =>
      if lit.isEmpty then
        match find_split_hole (template.drop 1) '}' with
        | some (expr_body, rest) => some (some (.expr expr_body, rest))
        | none => none
      else some (some (.literal lit, rest))
    | none => some (some (.literal template, []))

/-- `UriTemplateVariables`, `src/template/string.rs` 557-562. -/
structure VarsIter where
  chunks : Str
  vars_in_chunk : Option Str
  deriving DecidableEq, Repr

/-- `self.chunks.find_map(..)` in `UriTemplateVariables::next`, `src/template/string.rs` 588-591, with
fuel: the next expression body and the rest of the template. -/
def nextExpr : Nat → Str → Option (Option (Str × Str))
  | 0, _ => none
  | fuel + 1, template =>
    match chunksNext template with
    | none => none
    | some none => some none
    | some (some (.literal _, rest)) => nextExpr fuel rest
    | some (some (.expr body, rest)) => some (some (body, rest))

/-- `UriTemplateVariables::next`, `src/template/string.rs` 580-594, with fuel. -/
def varsNext : Nat → VarsIter → Option (Option (Str × VarsIter))
  | 0, _ => none
  | fuel + 1, it =>
    let first : Option (Option ((Nat × VarSpec) × Str)) :=
      match it.vars_in_chunk with
      | some vars => varListNext vars
      | none => some none
    match first with
    | none => none
    | some (some ((_, spec), vars)) => some (some (spec.name, ⟨it.chunks, some vars⟩))
    | some none =>
      match nextExpr (it.chunks.length + 1) it.chunks with
      | none => none
      | some none => some none
      | some (some (body, rest)) =>
        match decompose body with
        | none => none
        | some (_, varlist) => varsNext fuel ⟨rest, some varlist⟩

/-- Collecting the iterator, with fuel. -/
def varsCollect : Nat → VarsIter → Option (List Str)
  | 0, _ => none
  | fuel + 1, it =>
    match varsNext (it.chunks.length + 2) it with
    | none => none
    | some none => some []
    | some (some (name, it)) => (varsCollect fuel it).map (name :: ·)

/-- `UriTemplateStr::variables`, `src/template/string.rs` 386-388, collected. -/
def variables (s : Str) : Option (List Str) := varsCollect (s.length + 1) ⟨s, none⟩

/-- `UriTemplateString::append`, `src/template/string/owned.rs` 112-117; the `debug_assert!` of the
result is `C31_append`. -/
def append (s other : Str) : Str := s ++ other

/-! ## `SimpleContext` -/

/-- `Value`, `src/template/simple_context.rs` 16-25. -/
inductive SValue
  | undefined
  | string (s : Str)
  | list (l : List Str)
  | assoc (l : List (Str × Str))
  deriving DecidableEq, Repr

/-- `BTreeMap<String, Value>` (standard library): at most one entry per key.  The order of the
entries is not observable through `SimpleContext`. -/
abbrev Variables := List (Str × SValue)

/-- `BTreeMap::get`. -/
def mapGet : Variables → Str → Option SValue
  | [], _ => none
  | (k, v) :: r, key => if k = key then some v else mapGet r key

/-- `BTreeMap::remove`: the new map; the returned value is `mapGet` of the old one. -/
def mapRemove : Variables → Str → Variables
  | [], _ => []
  | (k, v) :: r, key => if k = key then r else (k, v) :: mapRemove r key

/-- `BTreeMap::insert`: the new map; the returned value is `mapGet` of the old one. -/
def mapInsert (m : Variables) (key : Str) (v : SValue) : Variables := (key, v) :: mapRemove m key

/-- `SimpleContext::insert`, `src/template/simple_context.rs` 136-152: the returned value and the new
map. -/
def ctxInsert (m : Variables) (key : Str) (value : SValue) : Option SValue × Variables :=
  if validate_varname key 0 = .ok () then
    if value = .undefined then (mapGet m key, mapRemove m key)
    else (mapGet m key, mapInsert m key value)
  else (none, m)

/-- `SimpleContext::clear`, `src/template/simple_context.rs` 184-186. -/
def ctxClear (_ : Variables) : Variables := []

/-- `VarName::new(key)` followed by `SimpleContext::get`, `src/template/components.rs` 99-104 and
`src/template/simple_context.rs` 194-196; `none` is the `Err` of `VarName::new`. -/
def ctxGet (m : Variables) (key : Str) : Option (Option SValue) :=
  if validate_varname key 0 = .ok () then some (mapGet m key) else none

end Verif.Tpl
