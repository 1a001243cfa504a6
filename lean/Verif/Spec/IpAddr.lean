import Verif.Spec.Abnf
import Verif.Spec.Pct

/-!
# What the text of an IP address denotes

RFC 3986 section 3.2.2 (and RFC 4291 section 2.2).  Specification file.
-/

namespace Verif.IpSpec

open Verif.Rfc

/-- The pieces of a text between the occurrences of a character. -/
def pieces (d : Char) : Str → List Str
  | [] => [[]]
  | c :: r =>
    if c = d then [] :: pieces d r
    else match pieces d r with
      | [] => [[c]]
      | p :: ps => (c :: p) :: ps

/-- The number written in the given base (up to 16). -/
def number (base : Nat) (s : Str) : Nat := s.foldl (fun n c => n * base + hexVal c) 0

/-- The octets of a text in dotted notation. -/
def v4 (t : Str) : List Nat := (pieces '.' t).map (number 10)

/-- The 16-bit numbers of a piece of an IPv6 address: a hexadecimal number, or two numbers in dotted
notation. -/
def group (t : Str) : List Nat :=
  if '.' ∈ t then
    match v4 t with
    | [a, b, c, d] => [a * 256 + b, c * 256 + d]
    | _ => []
  else [number 16 t]

/-- The 16-bit numbers of a text without `::`. -/
def groups (t : Str) : List Nat := if t = [] then [] else (pieces ':' t).flatMap group

/-- The text before and after the first `::`. -/
def cut : Str → Option (Str × Str)
  | [] => none
  | c :: r => if c = ':' ∧ r.take 1 = [':'] then some ([], r.drop 1)
    else (cut r).map fun (a, b) => (c :: a, b)

/-- The eight 16-bit numbers of an IPv6 address. -/
def v6 (t : Str) : List Nat :=
  match cut t with
  | none => groups t
  | some (a, b) =>
    groups a ++ List.replicate (8 - ((groups a).length + (groups b).length)) 0 ++ groups b

end Verif.IpSpec
