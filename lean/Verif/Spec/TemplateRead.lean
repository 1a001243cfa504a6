import Verif.Spec.TemplateExpand

/-!
# Reading an expansion back

Specification file for C65: the reader splits a text at a separator, every part at `=`, every part of that at
`,`, and decodes what remains; no knowledge of the template or the values goes into it.
-/

namespace Verif.Rfc6570

/-- The parts of a text between the occurrences of a character (at least one). -/
def splitAt (c : Char) : Str → List Str
  | [] => [[]]
  | d :: s =>
    if d = c then [] :: splitAt c s
    else match splitAt c s with
      | [] => [[d]]
      | x :: r => (d :: x) :: r

/-- The reader. -/
def readBack {α : Type} (decode : Str → α) (sep : Char) (s : Str) : List (List (List α)) :=
  (splitAt sep s).map fun x => (splitAt '=' x).map fun y => (splitAt ',' y).map decode

/-- What the members of a list that is not exploded are read as: they are separated by commas, which is also
what separates variables in a simple expression `{…}`. -/
def membersRead (o : OpRow) (name : Str) (members : List Str) : List (List (List Str)) :=
  if o.named then [[[name], members]]
  else if o.sep = [','] then members.map fun m => [[m]]
  else [[members]]

/-- What the reader should find for a variable. -/
def varRead (o : OpRow) (v : Var) : Val → List (List (List Str))
  | .undefined => []
  | .str s =>
    [if o.named then (if s = [] ∧ o.ifemp = [] then [[v.name]] else [[v.name], [s]]) else [[s]]]
  | .list items =>
    if v.mod = .explode then items.map fun i => if o.named then [[v.name], [i]] else [[i]]
    else membersRead o v.name items
  | .assoc entries =>
    if v.mod = .explode then entries.map fun e => [[e.1], [e.2]]
    else membersRead o v.name (entries.flatMap fun e => [e.1, e.2])

/-- What the reader should find for an expression. -/
def exprRead (val : Str → Val) (op : Option Char) (vars : List Var) : List (List (List Str)) :=
  (vars.filter fun v => (val v.name).defined).flatMap fun v => varRead (row op) v (val v.name)

end Verif.Rfc6570
