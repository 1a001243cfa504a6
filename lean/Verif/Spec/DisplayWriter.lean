import Verif.Spec.Writer
import Verif.Model.DisplayWriter

/-!
# Formatting a value into a writer that may fail

Specification file.  `run` is `write!(w, "{}", value)` for a writer `w`.
-/

namespace Verif.Out

open Verif.Tpl (Writer sink)

/-- The value has a fixed sequence of pieces, which together are `text`.  For every adversary, formatting
does not panic; it passes the pieces to the writer in their order; it ends with `Ok(())` after the last piece
if the writer accepts all of them, and otherwise at once with `Err(fmt::Error)` after the first piece that
the writer does not accept. -/
def Displays (run : Writer (List Str) → WM (List Str) Unit) (text : Str) : Prop :=
  ∃ pieces : List Str, pieces.flatten = text ∧ ∀ ok : List Str → Bool,
    (AllAccepted ok pieces ∧ run (sink ok) [] = some (pieces, some ())) ∨
    ∃ calls, calls <+: pieces ∧ LastFailed ok calls ∧ run (sink ok) [] = some (calls, none)

end Verif.Out
