import Verif.Model.TemplateExpand
import Verif.Spec.TemplateExpand

/-!
# Values handed to template expansion, as values of RFC 6570

The types `Value` and `Ctx` describe what a context of the crate passes to a visitor.
-/

namespace Verif.Rfc6570

open Verif.Tpl

/-- The value of RFC 6570 that a value of the crate stands for: a `Display` object is the text it
writes. -/
def flat : Value → Val
  | .undefined => .undefined
  | .string d => .str d.flatten
  | .list items => .list (items.map List.flatten)
  | .assoc entries => .assoc (entries.map fun e => (e.1.flatten, e.2.flatten))

/-- Section 2.4.1: a prefix modifier is not applicable to a list or an associative array (one without
members is undefined). -/
def TypeOk (m : Mod) (v : Val) : Prop :=
  ∀ ds, m = .pre ds → match v with
    | .undefined => True
    | .str _ => True
    | .list l => l = []
    | .assoc l => l = []

/-- The value is one of those that the crate expands without a failure. -/
def Handled (dbg : Bool) (o : OpRow) (m : Mod) : Value → Prop
  | .undefined => True
  | .string d =>
    match m with
    | .pre ds => if o.reserved then PrefixOkR dbg (decimal ds) d else PrefixOk dbg (decimal ds) d
    | _ => o.reserved = true → TidyAll d
  | .list items => o.reserved = true → ∀ d ∈ items, TidyAll d
  | .assoc entries => o.reserved = true → ∀ e ∈ entries, TidyAll e.1 ∧ TidyAll e.2

/-- Every variable of the template has an applicable type. -/
def WellTyped (val : Str → Val) (t : List Piece) : Prop :=
  ∀ op vars, Piece.expr op vars ∈ t → ∀ v ∈ vars, TypeOk v.mod (val v.name)

/-- Every variable of the template has a value that the crate expands without a failure. -/
def AllHandled (dbg : Bool) (val : Str → Value) (t : List Piece) : Prop :=
  ∀ op vars, Piece.expr op vars ∈ t → ∀ v ∈ vars, Handled dbg (row op) v.mod (val v.name)

end Verif.Rfc6570
