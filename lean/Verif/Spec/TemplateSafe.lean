import Verif.Spec.TemplateValues

/-!
# What a value can contribute to an expansion

Specification file.
-/

namespace Verif.Rfc6570

open Verif.Abnf Verif.Rfc Verif.Tpl

/-- The delimiters (`gen-delims` and `sub-delims`) of a text, in order. -/
def delims (s : Str) : Str := s.filter fun c => gen_delims c || sub_delims c

/-- The values have the same kind, the same number of members, and are both empty strings or not. -/
def SameShape : Val → Val → Prop
  | .undefined, .undefined => True
  | .str a, .str b => a = [] ↔ b = []
  | .list a, .list b => a.length = b.length
  | .assoc a, .assoc b => a.length = b.length
  | _, _ => False

/-! ## Events of a dynamic context -/

/-- A call of a method of a dynamic context. -/
inductive Event
  | start
  | visit (p : Purpose) (name : Str)
  | finish
  deriving DecidableEq, Repr

/-- A dynamic context that records the calls; `f` decides on the values, from the record, the purpose
and the name. -/
def recorder (f : List Event → Purpose → Str → Value) : DynCtx (List Event) where
  visit p n log := (f log p n, log ++ [.visit p n])
  start log := log ++ [.start]
  finish log := log ++ [.finish]

/-- The visits of one varspec. -/
def visits (n : Str) : List Event := [.visit .typecheck n, .visit .expand n]

end Verif.Rfc6570
