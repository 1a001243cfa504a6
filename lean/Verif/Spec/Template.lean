import Verif.Spec.Encode

/-!
# RFC 6570: URI Template

Specification file: it imports only other specification files.
-/

namespace Verif.Rfc6570

open Verif.Abnf Verif.Rfc

/-! ## Grammar (RFC 6570 sections 2 - 2.4) -/

/-- The ASCII characters of `literals` (section 2.1, with errata 6937, which adds `'` %x27):
`%x21 / %x23-24 / %x26-3B / %x3D / %x3F-5B / %x5D / %x5F / %x61-7A / %x7E`. -/
def literalChar (c : Char) : Bool :=
  let n := c.toNat
  n = 0x21 || (0x23 ≤ n && n ≤ 0x24) || (0x26 ≤ n && n ≤ 0x3B) || n = 0x3D ||
  (0x3F ≤ n && n ≤ 0x5B) || n = 0x5D || n = 0x5F || (0x61 ≤ n && n ≤ 0x7A) || n = 0x7E

/-- `literals`, restricted to ASCII. -/
def asciiLiterals : Lang := chr literalChar ∕ pct_encoded

/-- `literals = … / ucschar / iprivate / pct-encoded`. -/
def literals : Lang := chr literalChar ∕ chr ucschar ∕ chr iprivate ∕ pct_encoded

/-- `op-level2 = "+" / "#"`, `op-level3 = "." / "/" / ";" / "?" / "&"`. -/
def isOp (c : Char) : Bool := c ∈ ['+', '#', '.', '/', ';', '?', '&']

/-- `op-reserve = "=" / "," / "!" / "@" / "|"`. -/
def isOpReserve (c : Char) : Bool := c ∈ ['=', ',', '!', '@', '|']

/-- `ALPHA / DIGIT / "_"`. -/
def varcharPlain (c : Char) : Bool := ALPHA c || DIGIT c || c = '_'

/-- `varchar = ALPHA / DIGIT / "_" / pct-encoded`. -/
def varchar : Lang := chr varcharPlain ∕ pct_encoded

/-- `varname = varchar *( ["."] varchar )`. -/
def varname : Lang := varchar ⬝ star (opt (lit ['.']) ⬝ varchar)

/-- `max-length = %x31-39 0*3DIGIT`. -/
def maxLength : Lang := chr (fun c => 0x31 ≤ c.toNat && c.toNat ≤ 0x39) ⬝ upTo 3 (chr DIGIT)

/-- `varspec = varname [ ":" max-length / "*" ]`. -/
def varspecOf (name len : Lang) : Lang := name ⬝ opt ((lit [':'] ⬝ len) ∕ lit ['*'])

/-- `variable-list = varspec *( "," varspec )`. -/
def varListOf (name len : Lang) : Lang :=
  varspecOf name len ⬝ star (lit [','] ⬝ varspecOf name len)

/-- `expression = "{" [ operator ] variable-list "}"`. -/
def expressionOf (op name len : Lang) : Lang :=
  lit ['{'] ⬝ opt op ⬝ varListOf name len ⬝ lit ['}']

/-- `URI-Template = *( literals / expression )`. -/
def templateOf (lits op name len : Lang) : Lang := star (lits ∕ expressionOf op name len)

/-- RFC 6570 `URI-Template`, as in the RFC. -/
def uriTemplate : Lang := templateOf literals (chr isOp ∕ chr isOpReserve) varname maxLength

/-- RFC 6570 `URI-Template` with ASCII literals and without the operators reserved for future
extensions. -/
def asciiTemplate : Lang := templateOf asciiLiterals (chr isOp) varname maxLength

/-! ### The language that the crate accepts -/

/-- Like `varname`, but periods may occur anywhere after the first `varchar`. -/
def varnameX : Lang := varchar ⬝ star (varchar ∕ lit ['.'])

/-- One to five digits (RFC 6570 has: one to four digits, not starting with `0`). -/
def maxLengthX : Lang := between 1 5 (chr DIGIT)

/-- The templates the crate accepts. -/
def acceptedTemplate : Lang := templateOf asciiLiterals (chr isOp) varnameX maxLengthX

/-! ## Abstract syntax -/

/-- Modifier of a varspec. -/
inductive Mod
  | none
  | pre (digits : Str)
  | explode
  deriving DecidableEq, Repr

structure Var where
  name : Str
  mod : Mod
  deriving DecidableEq, Repr

/-- A part of a template. -/
inductive Piece
  | lit (s : Str)
  | expr (op : Option Char) (vars : List Var)
  deriving DecidableEq, Repr

/-- Text of a varspec. -/
def Var.render (v : Var) : Str :=
  v.name ++ match v.mod with
    | .none => []
    | .pre ds => ':' :: ds
    | .explode => ['*']

/-- Texts joined with a separator. -/
def joinWith (sep : Str) : List Str → Str
  | [] => []
  | [x] => x
  | x :: y :: r => x ++ sep ++ joinWith sep (y :: r)

/-- Text of a part. -/
def Piece.render : Piece → Str
  | .lit s => s
  | .expr op vars => '{' :: (op.toList ++ joinWith [','] (vars.map Var.render) ++ ['}'])

/-- Text of a template. -/
def text (t : List Piece) : Str := t.flatMap Piece.render

/-- The varspec conforms to the given grammars of names and lengths. -/
def Var.WF (name len : Lang) (v : Var) : Prop :=
  name v.name ∧ match v.mod with
    | .pre ds => len ds
    | _ => True

/-- The part conforms to the given grammars. -/
def Piece.WF (lits name len : Lang) : Piece → Prop
  | .lit s => lits s
  | .expr op vars => (∀ c, op = some c → isOp c = true) ∧ vars ≠ [] ∧ ∀ v ∈ vars, v.WF name len

/-- The parts of a template the crate accepts. -/
def Accepted (t : List Piece) : Prop := ∀ p ∈ t, p.WF asciiLiterals varnameX maxLengthX

/-- The parts of an RFC 6570 template with ASCII literals. -/
def Strict (t : List Piece) : Prop := ∀ p ∈ t, p.WF asciiLiterals varname maxLength

/-- The variable names of a template, in order, with repetitions. -/
def names (t : List Piece) : List Str :=
  t.flatMap fun
    | .lit _ => []
    | .expr _ vars => vars.map Var.name

/-- Value of a decimal number. -/
def decimal (ds : Str) : Nat := ds.foldl (fun n c => n * 10 + (c.toNat - 48)) 0

/-- No prefix length of the template exceeds 65535. -/
def SmallLengths (t : List Piece) : Prop :=
  ∀ op vars, Piece.expr op vars ∈ t → ∀ v ∈ vars, ∀ ds, v.mod = .pre ds → decimal ds ≤ 65535

end Verif.Rfc6570
