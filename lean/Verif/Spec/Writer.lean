import Verif.Model.TemplateWriter

/-!
# Writers that may fail

Specification file.  A writer (a `fmt::Write` object) is an adversary `ok`: given all the texts that have
been passed to it so far, including the present one, it accepts the present call or returns an error.
-/

namespace Verif

/-- `calls` are the calls of a program that stops at the first error of the writer: every call but
the last is accepted. -/
def StopsAtError (ok : List Str → Bool) (calls : List Str) : Prop :=
  ∀ xs ys, calls = xs ++ ys → xs ≠ [] → ys ≠ [] → ok xs = true

/-- No call failed. -/
def AllAccepted (ok : List Str → Bool) (calls : List Str) : Prop :=
  ∀ xs ys, calls = xs ++ ys → xs ≠ [] → ok xs = true

/-- The last call failed. -/
def LastFailed (ok : List Str → Bool) (calls : List Str) : Prop :=
  StopsAtError ok calls ∧ calls ≠ [] ∧ ok calls = false

namespace Tpl

/-- The writer that the adversary `ok` makes; its state is the list of the calls so far. -/
def sink (ok : List Str → Bool) : Writer (List Str) := fun calls s =>
  some (calls ++ [s], ok (calls ++ [s]))

/-- The pieces in which the standard library writes a triplet. -/
def HexOk (hex : Nat → List Str) : Prop := ∀ b, (hex b).flatten = writePct b ∧ [] ∉ hex b

end Tpl

end Verif
