import Verif.Spec.Parts
import Verif.Spec.TemplateExpand

/-!
# Templates written component by component

Specification file for C64.  A template such as `http://{user}@h.example/a/{v}{/seg*}{?q,r}#{f}` is given by
its components: each is a list of literals and expressions, the delimiters between them are literals, and
the query may also be brought by an expression `{?…}`.
-/

namespace Verif.Rfc6570

open Verif.Rfc

/-- A text as a template without expressions. -/
def literally (s : Str) : List Piece := s.map fun c => .lit [c]

/-- The authority of a template; the port has no expressions. -/
structure TemplateAuth where
  userinfo : Option (List Piece)
  host : List Piece
  port : Option Str
  deriving DecidableEq, Repr

/-- The query of a template: none, a literal `?` and a template, or one expression `{?…}`. -/
inductive TemplateQuery
  | absent
  | after (t : List Piece)
  | expr (vars : List Var)
  deriving DecidableEq, Repr

/-- A template, by components; the scheme has no expressions. -/
structure TemplateParts where
  scheme : Option Str
  authority : Option TemplateAuth
  path : List Piece
  query : TemplateQuery
  fragment : Option (List Piece)
  deriving DecidableEq, Repr

/-- `[ userinfo "@" ]`. -/
def TemplateAuth.userinfoPieces (a : TemplateAuth) : List Piece :=
  match a.userinfo with
  | some u => u ++ literally ['@']
  | none => []

/-- `[ userinfo "@" ] host [ ":" port ]`. -/
def TemplateAuth.pieces (a : TemplateAuth) : List Piece :=
  a.userinfoPieces ++ (a.host ++ literally (optSuf [':'] a.port))

/-- `[ "?" query ]`. -/
def TemplateQuery.pieces : TemplateQuery → List Piece
  | .absent => []
  | .after t => literally ['?'] ++ t
  | .expr vars => [.expr (some '?') vars]

/-- `[ "//" authority ]`. -/
def TemplateParts.authorityPieces (T : TemplateParts) : List Piece :=
  match T.authority with
  | some a => literally ['/', '/'] ++ a.pieces
  | none => []

/-- `[ "#" fragment ]`. -/
def TemplateParts.fragmentPieces (T : TemplateParts) : List Piece :=
  match T.fragment with
  | some t => literally ['#'] ++ t
  | none => []

/-- The template. -/
def TemplateParts.pieces (T : TemplateParts) : List Piece :=
  literally (optPre T.scheme [':']) ++ (T.authorityPieces ++ (T.path ++ (T.query.pieces ++ T.fragmentPieces)))

/-- A sample of what the template expands to: every expression writes what its operator puts first, and a
triplet. -/
def sample (t : List Piece) : Str :=
  t.flatMap fun
    | .lit s => s
    | .expr op _ => (row op).first ++ ['%', '2', 'F']

/-- The sample of each component conforms to its grammar rule, and no expression has an operator (`+`, `#`)
that lets values through unencoded. -/
structure TemplateParts.Fits (S : Spec) (T : TemplateParts) : Prop where
  scheme : ∀ x, T.scheme = some x → Rfc.scheme x
  userinfo : ∀ a u, T.authority = some a → a.userinfo = some u → Rfc.userinfo S (sample u)
  host : ∀ a, T.authority = some a → Rfc.host S (sample a.host)
  port : ∀ a x, T.authority = some a → a.port = some x → Rfc.port x
  path : Rfc.path S (sample T.path)
  query : ∀ t, T.query = .after t → Rfc.query S (sample t)
  fragment : ∀ t, T.fragment = some t → Rfc.fragment S (sample t)
  encoded : ∀ op vars, Piece.expr op vars ∈ T.pieces → op ≠ some '+' ∧ op ≠ some '#'

/-- `p` consists of what the components of `T` expand to; `e t x` says that `t` expands to `x`. -/
def TemplateParts.ExpandsTo (e : List Piece → Str → Prop) (T : TemplateParts) (p : Parts) : Prop :=
  p.scheme = T.scheme ∧
  (match T.authority with
    | none => p.authority = none
    | some a => ∃ u h, p.authority = some (AuthParts.recompose ⟨u, h, a.port⟩) ∧
        e a.userinfoPieces (optPre u ['@']) ∧ e a.host h) ∧
  e T.path p.path ∧ e T.query.pieces (optSuf ['?'] p.query) ∧ e T.fragmentPieces (optSuf ['#'] p.fragment)

/-- The three constraints of RFC 3986 section 3.3 on the path, given the scheme and the authority. -/
def PathFits (p : Parts) : Prop :=
  (p.authority ≠ none → p.path = [] ∨ ∃ r, p.path = '/' :: r) ∧
  (p.authority = none → ∀ r, p.path ≠ '/' :: '/' :: r) ∧
  (p.scheme = none → p.authority = none → ¬ ColonInFirstSegment p.path)

/-- The literals of the path keep it in its place, whatever the expressions expand to.

* After an authority: the path starts with a literal slash, or has only expressions `{/…}` before it (or
  nothing else at all).
* Without an authority, the path is empty or starts with a literal that is not a slash, or with a slash
  and such a literal; and if there is no scheme, no literal colon occurs before the first literal slash. -/
def TemplateParts.Anchored (T : TemplateParts) : Prop :=
  if T.authority ≠ none then
    ∃ es r, T.path = es ++ r ∧ (∀ p ∈ es, ∃ vars, p = .expr (some '/') vars) ∧
      (r = [] ∨ ∃ r', r = .lit ['/'] :: r')
  else
    T.path = [] ∨ ∃ (slash : Bool) (s : Str) (r : List Piece),
      T.path = (if slash then [.lit ['/']] else []) ++ .lit s :: r ∧ s ≠ ['/'] ∧
        (slash = true ∨ T.scheme ≠ none ∨
          ∃ a b, .lit s :: r = a ++ b ∧ .lit [':'] ∉ a ∧ (b = [] ∨ ∃ b', b = .lit ['/'] :: b'))

end Verif.Rfc6570
