import Verif.Spec.Pct

/-!
# Percent-decoding of bytes (WHATWG URL Standard, "percent-decode")

Specification file.  A byte is a `Nat` below 256.
-/

namespace Verif

/-- ASCII hex digit, as a byte. -/
def hexByte (b : Nat) : Bool :=
  (48 ≤ b && b ≤ 57) || (65 ≤ b && b ≤ 70) || (97 ≤ b && b ≤ 102)

/-- Value of a hexadecimal digit. -/
def hexByteVal (b : Nat) : Nat := if b ≤ 57 then b - 48 else if b ≤ 70 then b - 55 else b - 87

/-- How a byte sequence is read. -/
inductive DecTok
  /-- a byte other than `%` -/
  | plain (b : Nat)
  /-- `%` with two hexadecimal digits -/
  | triplet (b : Nat)
  /-- any other `%` -/
  | stray
  deriving DecidableEq, Repr

/-- Reads a byte sequence from left to right. -/
def decToks : List Nat → List DecTok
  | [] => []
  | 0x25 :: h :: l :: r =>
    if hexByte h && hexByte l then .triplet (hexByteVal h * 16 + hexByteVal l) :: decToks r
    else .stray :: decToks (h :: l :: r)
  | b :: r => (if b = 0x25 then .stray else .plain b) :: decToks r

/-- The bytes a token stands for. -/
def DecTok.bytes : DecTok → List Nat
  | .plain b => [b]
  | .triplet b => [b]
  | .stray => [0x25]

/-- WHATWG "percent-decode": each triplet becomes its byte, everything else is copied. -/
def percentDecode (bs : List Nat) : List Nat := (decToks bs).flatMap DecTok.bytes

end Verif
