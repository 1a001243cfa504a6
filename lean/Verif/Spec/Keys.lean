import Verif.Spec.Construct

/-!
# A map from texts

Specification file: what a program that uses values as keys of a map is to see.
-/

namespace Verif.KeySpec

/-- In which of the forms that `Borrow` allows a map is asked: by a `str`, by a slice type (`IriStr`), or
by the type of the keys itself (`IriString`). -/
inductive Form
  | str
  | slice
  | owned
  deriving DecidableEq, Repr

/-- Calls on a map. -/
inductive Op (V : Type)
  | insert (key : Str) (v : V)
  | get (form : Form) (key : Str)
  | remove (form : Form) (key : Str)

/-- The text in a call. -/
def Op.text {V : Type} : Op V → Str
  | .insert s _ => s
  | .get _ s => s
  | .remove _ s => s

/-- The map after a call, and what the call returns: always what was there before. -/
def step {V : Type} (m : Str → Option V) : Op V → (Str → Option V) × Option V
  | .insert s v => (fun t => if t = s then some v else m t, m s)
  | .get _ s => (m, m s)
  | .remove _ s => (fun t => if t = s then none else m t, m s)

/-- A history of calls: the map in the end, and what was returned. -/
def run {V : Type} (m : Str → Option V) : List (Op V) → (Str → Option V) × List (Option V)
  | [] => (m, [])
  | o :: r => ((run (step m o).1 r).1, (step m o).2 :: (run (step m o).1 r).2)

example : (run (V := Nat) (fun _ => none) [.insert (chars! "a:b") 1, .insert (chars! "a:B") 2,
    .get .str (chars! "a:b"), .remove .slice (chars! "a:b"), .get .owned (chars! "a:b")]).2 =
    [none, none, some 1, some 1, none] := by decide +kernel

end Verif.KeySpec
