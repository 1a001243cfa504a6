import Verif.Spec.Grammar
import Verif.Spec.Build

/-!
# Types of the crate and the order of strings

`IriKind` (the four IRI types), the query and fragment types, and the URI template type.
-/

namespace Verif

/-- The string types of the crate that are built by validation. -/
inductive TypeKind
  | iriLike (k : IriKind)
  | query
  | fragment
  | template
  deriving DecidableEq, Repr

/-- Lexicographic comparison. -/
def lexCmp : List Nat → List Nat → Ordering
  | [], [] => .eq
  | [], _ :: _ => .lt
  | _ :: _, [] => .gt
  | a :: r, b :: t => if a < b then .lt else if b < a then .gt else lexCmp r t

/-- Order of texts by Unicode code points. -/
def codePointCmp (a b : Str) : Ordering := lexCmp (a.map Char.toNat) (b.map Char.toNat)

end Verif
