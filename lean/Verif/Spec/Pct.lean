import Verif.Spec.Utf8
import Verif.Spec.Grammar

/-!
# Percent-encoding (RFC 3986 section 2.1, 2.4, 6.2.2; WHATWG "percent-decode")

Specification file.
-/

namespace Verif

/-- A text read as a sequence of plain characters and percent-encoded bytes. -/
inductive Tok
  | ch (c : Char)
  | pct (b : Nat)
  deriving DecidableEq, Repr

/-- Value of a hexadecimal digit. -/
def hexVal (c : Char) : Nat :=
  if c.toNat ≤ 57 then c.toNat - 48
  else if c.toNat ≤ 70 then c.toNat - 55
  else c.toNat - 87

/-- Reads a text as tokens: `%` followed by two hexadecimal digits is a percent-encoded byte,
everything else (also a stray `%`) stands for itself. -/
def tokens : Str → List Tok
  | [] => []
  | '%' :: h :: l :: r =>
    if Rfc.HEXDIG h && Rfc.HEXDIG l then .pct (hexVal h * 16 + hexVal l) :: tokens r
    else .ch '%' :: tokens (h :: l :: r)
  | c :: r => .ch c :: tokens r

/-- Upper-case hexadecimal digit. -/
def hexUpper (n : Nat) : Char := Char.ofNat (if n < 10 then 48 + n else 55 + n)

/-- The normalised spelling of a percent-encoded byte: upper-case hexadecimal digits. -/
def pctUpper (b : Nat) : Str := ['%', hexUpper (b / 16), hexUpper (b % 16)]

/-- Text of a token, with upper-case hexadecimal digits. -/
def Tok.render : Tok → Str
  | .ch c => [c]
  | .pct b => pctUpper b

def render (ts : List Tok) : Str := ts.flatMap Tok.render

/-- Bytes that a token stands for. -/
def Tok.bytes : Tok → List Nat
  | .ch c => utf8 c
  | .pct b => [b]

/-- Percent-decoding of a text to bytes. -/
def pctDecode (s : Str) : List Nat := (tokens s).flatMap Tok.bytes

/-- Percent-encoding normalisation (RFC 3986 section 6.2.2.2) as a relation on token sequences:
a plain character stays; the percent-encoded UTF-8 bytes of an unreserved character become that
character; any other percent-encoded byte stays percent-encoded.  The last rule applies only where
no unreserved character is spelled, so the relation also says that every percent-encoded unreserved
character *is* decoded. -/
inductive PctNorm (S : Spec) : List Tok → List Tok → Prop
  | nil : PctNorm S [] []
  | ch {c r t} : PctNorm S r t → PctNorm S (.ch c :: r) (.ch c :: t)
  | decode {c r t} : Rfc.iunreserved S c = true → PctNorm S r t →
      PctNorm S ((utf8 c).map .pct ++ r) (.ch c :: t)
  | keep {b r t} :
      (∀ c r', Rfc.iunreserved S c = true → Tok.pct b :: r ≠ (utf8 c).map .pct ++ r') →
      PctNorm S r t → PctNorm S (.pct b :: r) (.pct b :: t)

end Verif
