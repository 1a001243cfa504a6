import Lean

/-!
`chars! "abc"` is the explicit list `['a', 'b', 'c']`.  It is used to state concrete cases in a form
that the kernel can compute with.
-/

namespace Verif

open Lean in
macro "chars!" s:str : term => do
  let cs := s.getString.toList
  let elems : Array (TSyntax `term) := (cs.map fun c => (⟨Syntax.mkCharLit c⟩ : TSyntax `term)).toArray
  `(([$elems,*] : List Char))

end Verif
