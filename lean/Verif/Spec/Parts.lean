import Verif.Spec.Grammar

/-!
# The five components of a reference (RFC 3986 section 3, 5.3)

Specification file: it imports only the grammar.
-/

namespace Verif

/-- The five major components.  An absent component is `none`, an empty one is `some []`. -/
structure Parts where
  scheme : Option Str
  authority : Option Str
  path : Str
  query : Option Str
  fragment : Option Str
  deriving DecidableEq, Repr

/-- Optional text followed by a delimiter. -/
def optPre (o : Option Str) (d : Str) : Str :=
  match o with
  | some u => u ++ d
  | none => []

/-- Optional text preceded by a delimiter. -/
def optSuf (d : Str) (o : Option Str) : Str :=
  match o with
  | some u => d ++ u
  | none => []

/-- RFC 3986 section 5.3, "Component Recomposition". -/
def Parts.recompose (p : Parts) : Str :=
  optPre p.scheme [':'] ++ (optSuf ['/', '/'] p.authority ++
    (p.path ++ (optSuf ['?'] p.query ++ optSuf ['#'] p.fragment)))

/-- The first path segment contains a colon: some colon has no slash before it. -/
def ColonInFirstSegment (s : Str) : Prop := ∃ a b, s = a ++ ':' :: b ∧ '/' ∉ a

/-- Each component is generated by its grammar rule, and the path satisfies the three
constraints of RFC 3986 section 3.3: it is empty or begins with `/` when there is an authority; it
does not begin with `//` when there is none; and a reference with neither scheme nor authority
has no colon in its first path segment. -/
structure Parts.Valid (S : Spec) (p : Parts) : Prop where
  scheme : ∀ x, p.scheme = some x → Rfc.scheme x
  authority : ∀ x, p.authority = some x → Rfc.authority S x
  path : Rfc.path S p.path
  query : ∀ x, p.query = some x → Rfc.query S x
  fragment : ∀ x, p.fragment = some x → Rfc.fragment S x
  withAuthority : p.authority ≠ none → p.path = [] ∨ ∃ r, p.path = '/' :: r
  withoutAuthority : p.authority = none → ∀ r, p.path ≠ '/' :: '/' :: r
  withoutScheme : p.scheme = none → p.authority = none → ¬ ColonInFirstSegment p.path

/-- The three components of an authority. -/
structure AuthParts where
  userinfo : Option Str
  host : Str
  port : Option Str
  deriving DecidableEq, Repr

/-- `[ userinfo "@" ] host [ ":" port ]`. -/
def AuthParts.recompose (a : AuthParts) : Str :=
  optPre a.userinfo ['@'] ++ (a.host ++ optSuf [':'] a.port)

/-- Each component is generated by its grammar rule. -/
structure AuthParts.Valid (S : Spec) (a : AuthParts) : Prop where
  userinfo : ∀ x, a.userinfo = some x → Rfc.userinfo S x
  host : Rfc.host S a.host
  port : ∀ x, a.port = some x → Rfc.port x

end Verif
