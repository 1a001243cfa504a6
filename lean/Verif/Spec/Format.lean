import Verif.Model.Basic

/-!
# `Display` implementations as programs

A `Display::fmt` implementation is, seen from a `fmt::Write`, a program that performs `write_str`
calls one after the other, may look at whether each of them succeeded, and at the end returns
`Ok(())` or `Err(fmt::Error)`.  (`write_char` and `write_fmt` are `write_str` calls.)
-/

namespace Verif

/-- A run of `Display::fmt`. -/
inductive Display
  /-- Return `Ok(())` (`true`) or `Err(fmt::Error)` (`false`). -/
  | done (ok : Bool)
  /-- `f.write_str(s)`, then go on according to its result. -/
  | write (s : Str) (next : Bool → Display)

namespace Display

/-- What is displayed: the text written, and the result, when no write fails (`to_string`). -/
def text : Display → Str × Bool
  | done ok => ([], ok)
  | write s next => (s ++ ((next true).text).1, ((next true).text).2)

/-- Whatever the writer does, the result is `Err`. -/
inductive Fails : Display → Prop
  | done : Fails (done false)
  | write (s : Str) (next : Bool → Display) : (∀ b, Fails (next b)) → Fails (write s next)

/-- The contract of `Display`: an error of the writer is propagated. -/
inductive Honest : Display → Prop
  | done (ok : Bool) : Honest (done ok)
  | write (s : Str) (next : Bool → Display) : Honest (next true) → Fails (next false) →
      Honest (write s next)

/-- `f.write_str(c)?` for each of the chunks and then `Ok(())`: the form of every implementation
in the crate. -/
def chunks : List Str → Display
  | [] => done true
  | s :: r => write s fun ok => if ok then chunks r else done false

end Display

end Verif
