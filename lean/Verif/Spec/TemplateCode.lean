import Verif.Model.TemplateCode

/-!
# What the code of a context means

Specification file.
-/

namespace Verif.Tpl

variable {σ α : Type}

/-- The rule of the documentation of `visit_item` and `visit_entry` ("If this returned
`ControlFlow::Break(v)`, `Context::visit` should also return this `v`"). -/
def SeqCode.ReturnsBreak {b : Bool} : SeqCode σ α b → Prop
  | .finish _ => True
  | .ret _ => True
  | .item _ onContinue onBreak => (∃ st, onBreak = .ret st) ∧ onContinue.ReturnsBreak

/-- The rule for all code that a context runs. -/
def Code.ReturnsBreak : Code σ → Prop
  | .undefined _ => True
  | .string _ _ => True
  | .list c => c.ReturnsBreak
  | .assoc c => c.ReturnsBreak

/-- The items visited when nothing fails, and the state in the end. -/
def SeqCode.items {b : Bool} : SeqCode σ α b → List α × σ
  | .finish st => ([], st)
  | .ret st => ([], st)
  | .item v onContinue _ => (v :: onContinue.items.1, onContinue.items.2)

/-- The value that the code hands to the visitor when nothing fails. -/
def Code.value : Code σ → Value
  | .undefined _ => .undefined
  | .string v _ => .string v
  | .list c => .list c.items.1
  | .assoc c => .assoc c.items.1

/-- The state of the context when nothing has failed. -/
def Code.endState : Code σ → σ
  | .undefined st => st
  | .string _ st => st
  | .list c => c.items.2
  | .assoc c => c.items.2

/-- The value-level context that the code denotes.  A type check ends at the first item. -/
def CodeCtx.denote (ctx : CodeCtx σ) : DynCtx σ where
  visit := fun p n st =>
    let c := ctx.visit p n st
    (c.value, if p = .typecheck then c.runType.2 else c.endState)
  start := ctx.start
  finish := ctx.finish

/-- The value-level context that the code of a static context denotes. -/
def StaticCode.denote (ctx : StaticCode) : Ctx := fun p n => (ctx p n).value

/-- A writer that accepts everything. -/
def NeverFails {τ : Type} (w : Writer τ) : Prop := ∀ t s, ∃ t', w t s = some (t', true)

end Verif.Tpl
