import Verif.Spec.Template
import Verif.Spec.Lit

/-!
# What is wrong with an ill-formed URI template, and where

Specification file: it imports only other specification files.
-/

namespace Verif.Rfc6570

open Verif.Abnf Verif.Rfc

/-- The reasons a template can be rejected for. -/
inductive Fault
  /-- a character that cannot occur in literals -/
  | character
  /-- `%` without two hexadecimal digits after it, in literals -/
  | percent
  /-- `{` without `}` -/
  | notClosed
  /-- an operator reserved for future extensions -/
  | operator
  /-- an ill-formed variable specification -/
  | expression
  deriving DecidableEq, Repr

/-- The wording of the reason in the error message. -/
def Fault.reason : Fault → Str
  | .character => chars! "invalid character"
  | .percent => chars! "invalid percent-encoded triplets"
  | .notClosed => chars! "expression not closed"
  | .operator => chars! "unsupported operator"
  | .expression => chars! "invalid expression"

/-- Number of bytes of a text. -/
def byteCount (s : Str) : Nat := (utf8s s).length

/-- `BadVarspec v d`: `v` is not a variable specification, and the first problem is reported `d` bytes
after its start. -/
inductive BadVarspec : Str → Nat → Prop
  /-- what comes before the modifier is not a variable name: reported at the start -/
  | name {n m : Str} : ':' ∉ n → '*' ∉ n →
      (m = [] ∨ m.head? = some ':' ∨ m.head? = some '*') → ¬ varnameX n → BadVarspec (n ++ m) 0
  /-- the prefix length is empty or longer than five bytes: reported one byte after the start of the
  length -/
  | length {n len : Str} : varnameX n → ¬ (1 ≤ byteCount len ∧ byteCount len ≤ 5) →
      BadVarspec (n ++ ':' :: len) (byteCount n + 2)
  /-- the prefix length has something else than a digit: reported one byte after the start of it -/
  | digit {n ds r : Str} {c : Char} : varnameX n → byteCount (ds ++ c :: r) ≤ 5 →
      (∀ x ∈ ds, DIGIT x = true) → DIGIT c = false →
      BadVarspec (n ++ ':' :: (ds ++ c :: r)) (byteCount n + 2 + byteCount ds)
  /-- something comes after the explode modifier: reported there -/
  | explode {n x : Str} : varnameX n → x ≠ [] → BadVarspec (n ++ '*' :: x) (byteCount n + 1)

/-- `BadStart s f d`: the text `s` starts with something that is not a literal and not an expression;
the fault `f` is reported `d` bytes after the start of `s`. -/
inductive BadStart : Str → Fault → Nat → Prop
  | character {c : Char} {r : Str} : c ≠ '%' → c ≠ '{' → literalChar c = false →
      BadStart (c :: r) .character 0
  /-- fewer than two bytes after `%`: reported at the `%` -/
  | short {r : Str} : byteCount r < 2 → BadStart ('%' :: r) .percent 0
  /-- the first digit is wrong: reported there -/
  | first {x : Char} {r : Str} : 2 ≤ byteCount (x :: r) → HEXDIG x = false →
      BadStart ('%' :: x :: r) .percent 1
  /-- the second digit is wrong: reported there -/
  | second {x y : Char} {r : Str} : HEXDIG x = true → HEXDIG y = false →
      BadStart ('%' :: x :: y :: r) .percent 2
  /-- reported at the `{` -/
  | notClosed {r : Str} : '}' ∉ r → BadStart ('{' :: r) .notClosed 0
  /-- reported at the operator -/
  | operator {c : Char} {b r : Str} : isOpReserve c = true → '}' ∉ b →
      BadStart ('{' :: c :: (b ++ '}' :: r)) .operator 1
  /-- reported inside the first bad variable specification -/
  | expression {op : Option Char} {goods : List Str} {v tail r : Str} {d : Nat} :
      (∀ c, op = some c → isOp c = true) →
      (op = none → ∀ c, (goods.flatMap (· ++ [',']) ++ v ++ tail).head? = some c →
        isOp c = false ∧ isOpReserve c = false) →
      (∀ g ∈ goods, varspecOf varnameX maxLengthX g) →
      BadVarspec v d → ',' ∉ v → '}' ∉ v →
      (tail = [] ∨ tail.head? = some ',') → '}' ∉ tail →
      BadStart ('{' :: (op.toList ++ goods.flatMap (· ++ [',']) ++ v ++ tail ++ '}' :: r)) .expression
        (1 + op.toList.length + byteCount (goods.flatMap (· ++ [','])) + d)

end Verif.Rfc6570
