import Verif.Spec.TemplateValues

/-!
# How much there is to write for a value

Specification file.
-/

namespace Verif.Rfc6570

open Verif.Tpl

/-- The number of bytes of the value of the variable `name`: a string counts its bytes; every member of a list
counts its bytes, one byte for the separator and the bytes of the name (which is written again before every item
if the list is exploded under `;`, `?` or `&`); every member of an associative array counts the bytes of its key
and of its value and one for the separator. -/
def valueSize (name : Str) : Value → Nat
  | .undefined => 0
  | .string d => bytes d.flatten
  | .list items => (items.map fun d => bytes d.flatten + bytes name + 1).sum
  | .assoc entries => (entries.map fun e => bytes e.1.flatten + bytes e.2.flatten + 1).sum

end Verif.Rfc6570
