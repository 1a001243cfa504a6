import Verif.Spec.TemplateExact

/-!
# Expansion with a context that changes while it is asked

What `expand_dynamic` does with a context whose answers may be different every time: the variables are asked for one
after the other, each first for its type and then for its value.
-/

namespace Verif.Rfc6570

open Verif.Abnf Verif.Rfc Verif.Tpl Verif.MaybePct

/-- The variables of a template with their operator and byte position. -/
def visitsOf : Nat → List Piece → List (OpRow × Nat × Var)
  | _, [] => []
  | pos, p :: t =>
    (match p with
      | .lit _ => []
      | .expr op vars => (placeVars (pos + 1 + bytes op.toList) vars).map fun x => (row op, x)) ++
    visitsOf (pos + bytes p.render) t

/-- What has come of asking the context: the byte position of the variable whose type did not fit, if there was one
(nothing is asked after it); the values that were given, with the name they were given for; the texts of the variables
that were asked for and written (nothing for an undefined one); and the context as it is then. -/
structure Answers (σ : Type) where
  error : Option Nat
  values : List (Str × Value)
  texts : List (Option Str)
  state : σ

/-- The text of a value, nothing if it is undefined; the outer `none` is a panic. -/
noncomputable def valueText (S : Spec) (dbg : Bool) (o : OpRow) (v : Var) (val : Value) : Option (Option Str) :=
  if (flat val).defined then (varExact S dbg o v val).map some else some none

/-- A variable written. -/
def Answers.add {σ : Type} (v : Var) (val : Value) (t : Option Str) (x : Answers σ) : Answers σ :=
  { x with values := (v.name, val) :: x.values, texts := t :: x.texts }

/-- Asking for the variables one after the other; `none` is a panic (a prefix length above 65535, or a value that the
crate cannot write). -/
noncomputable def ask {σ : Type} (S : Spec) (dbg : Bool) (ctx : DynCtx σ) :
    List (OpRow × Nat × Var) → σ → Option (Answers σ)
  | [], st => some ⟨none, [], [], st⟩
  | (o, pos, v) :: r, st =>
    if v.tooLong then none
    else if v.misfits (flat (ctx.visit .typecheck v.name st).1) then
      some ⟨some pos, [], [], (ctx.visit .typecheck v.name st).2⟩
    else
      (valueText S dbg o v (ctx.visit .expand v.name (ctx.visit .typecheck v.name st).2).1).bind fun t =>
        (ask S dbg ctx r (ctx.visit .expand v.name (ctx.visit .typecheck v.name st).2).2).map
          (Answers.add v (ctx.visit .expand v.name (ctx.visit .typecheck v.name st).2).1 t)

/-- An expression, given the texts of its defined variables. -/
def exprOfTexts (o : OpRow) : List Str → Str
  | [] => []
  | parts => o.first ++ joinWith o.sep parts

/-- A template, given the texts of its variables in their order (undefined ones are nothing).  If the texts end
in the middle of an expression (a type error), so does what is written. -/
def assemble : List Piece → List (Option Str) → Str
  | [], _ => []
  | .lit s :: t, ts => s ++ assemble t ts
  | .expr op vars :: t, ts =>
    exprOfTexts (row op) ((ts.take vars.length).filterMap id) ++
      if ts.length < vars.length then [] else assemble t (ts.drop vars.length)

/-- The result: the error, if there was one. -/
def resultOf : Option Nat → Except (ErrorKind × Nat) Unit
  | none => .ok ()
  | some pos => .error (.unexpectedValueType, pos)

end Verif.Rfc6570
