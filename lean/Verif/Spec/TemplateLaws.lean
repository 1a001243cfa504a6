import Verif.Spec.TemplateValues

/-!
# When two templates expand alike

Specification file.
-/

namespace Verif.Rfc6570

open Verif.Tpl

/-- Two expansions give the same text, or both a type error (its position aside), or both panic. -/
structure SameResult (a b : Res Str) : Prop where
  text : ∀ out, a = .ok out ↔ b = .ok out
  error : (∃ k l, a = .err k l) ↔ ∃ k l, b = .err k l
  panic : a = .panic ↔ b = .panic

/-- The variable is defined: neither undefined nor a list or an associative array without members. -/
def Defined (ctx : Ctx) (v : Var) : Prop := (flat (ctx .expand v.name)).defined = true

/-- The variable is undefined, in the type check and in the expansion. -/
def Undefined (ctx : Ctx) (v : Var) : Prop := ∀ p, (flat (ctx p v.name)).defined = false

end Verif.Rfc6570
