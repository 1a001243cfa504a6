import Verif.Spec.Parts

/-!
# RFC 3986 Appendix B: parsing a URI reference with a regular expression

Specification file for C67: the regular expression of the appendix and an interpreter for the part of the POSIX /
Perl syntax that it uses.  It uses nothing of the model.
-/

namespace Verif.AppendixB

/-- Regular expressions: a character of a class, `e e`, `(e)` (group `n`), `e?`, `[..]*`, `[..]+`. -/
inductive Re
  | char (p : Char → Bool)
  | seq (a b : Re)
  | group (n : Nat) (e : Re)
  | opt (e : Re)
  | star (p : Char → Bool)
  | plus (p : Char → Bool)

/-- What the groups have matched. -/
abbrev Groups := Nat → Option Str

def Groups.set (g : Groups) (n : Nat) (s : Str) : Groups := fun m => if m = n then some s else g m

/-- `[..]*`, longest match first. -/
def starMatch {α : Type} (p : Char → Bool) (k : Str → Option α) : Str → Option α
  | [] => k []
  | c :: r => if p c then (starMatch p k r).or (k (c :: r)) else k (c :: r)

/-- Match at the beginning of the text: the alternatives are tried in order, the longer match first, and the
first one with which the rest of the expression (`k`) matches is taken. -/
def Re.run {α : Type} : Re → Str → Groups → (Str → Groups → Option α) → Option α
  | .char p, s, g, k =>
    match s with
    | [] => none
    | c :: r => if p c then k r g else none
  | .seq a b, s, g, k => a.run s g fun s' g' => b.run s' g' k
  | .group n e, s, g, k => e.run s g fun s' g' => k s' (Groups.set g' n (s.take (s.length - s'.length)))
  | .opt e, s, g, k => (e.run s g k).or (k s g)
  | .star p, s, g, k => starMatch p (fun s' => k s' g) s
  | .plus p, s, g, k =>
    match s with
    | [] => none
    | c :: r => if p c then starMatch p (fun s' => k s' g) r else none

/-- One given character. -/
def lit (c : Char) : Re := .char (· == c)

/-- `[^...]`. -/
def noneOf (l : List Char) (c : Char) : Bool := !l.contains c

/-- `^(([^:/?#]+):)?(//([^/?#]*))?([^?#]*)(\?([^#]*))?(#(.*))?` with the groups numbered 1 to 9 as in the appendix;
`.` is every character except the end of a line. -/
def regex : Re :=
  .seq (.opt (.group 1 (.seq (.group 2 (.plus (noneOf [':', '/', '?', '#']))) (lit ':'))))
  (.seq (.opt (.group 3 (.seq (lit '/') (.seq (lit '/') (.group 4 (.star (noneOf ['/', '?', '#'])))))))
  (.seq (.group 5 (.star (noneOf ['?', '#'])))
  (.seq (.opt (.group 6 (.seq (lit '?') (.group 7 (.star (noneOf ['#']))))))
    (.opt (.group 8 (.seq (lit '#') (.group 9 (.star (noneOf ['\n'])))))))))

/-- The groups of the first match, and the text that is left. -/
def groups (s : Str) : Option (Groups × Str) := regex.run s (fun _ => none) fun r g => some (g, r)

end Verif.AppendixB
