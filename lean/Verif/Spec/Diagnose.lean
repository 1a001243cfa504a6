import Verif.Spec.Parts

/-!
# What a validation error should say

Specification file.  A rejected string is cut into components at the generic delimiters only, the
way RFC 3986 Appendix B cuts any string; the problem reported is the leftmost component of that cut
that does not have the form the grammar asks for.
-/

namespace Verif.Diagnose

open Verif Abnf

/-- The kinds of validation error (`ErrorKind`, `src/validate.rs` 49-75; the type is private, its
text is what a user sees). -/
inductive ErrorKind
  | InvalidScheme | InvalidUserInfo | InvalidHost | InvalidRegName | InvalidPort | InvalidPath
  | InvalidQuery | InvalidFragment | UnexpectedFragment | UnexpectedAbsolute | UnexpectedRelative
  | InvalidUtf8
  deriving DecidableEq, Repr

/-- `p` is the generic cut (RFC 3986 Appendix B, without the scheme) of an arbitrary text `s`: an
authority after a leading `//` up to the next `/`, `?` or `#`; a path up to the next `?` or `#`; a
query after `?` up to the next `#`; a fragment after that `#`. -/
structure Cut (s : Str) (p : Parts) : Prop where
  scheme : p.scheme = none
  whole : p.recompose = s
  authority : ∀ a, p.authority = some a → '/' ∉ a ∧ '?' ∉ a ∧ '#' ∉ a
  path : '?' ∉ p.path ∧ '#' ∉ p.path
  query : ∀ q, p.query = some q → '#' ∉ q
  withAuthority : p.authority ≠ none → p.path = [] ∨ ∃ r, p.path = '/' :: r
  withoutAuthority : p.authority = none → ∀ r, p.path ≠ '/' :: '/' :: r

/-- `host [ ":" port ]`. -/
def hostPort (S : Spec) : Lang := Rfc.host S ⬝ opt (lit [':'] ⬝ Rfc.port)

/-- `r` is the authority `a` without the userinfo: what follows its first `@`, or all of it when
there is none. -/
def AfterUserinfo (a r : Str) : Prop := ('@' ∉ a ∧ r = a) ∨ ∃ u, a = u ++ '@' :: r ∧ '@' ∉ u

/-- What it means for a cut to have the problem `k`.  `rel` says that the text is read as a
relative reference (so the first path segment must have no colon unless there is an authority),
`fragmentAllowed` that a fragment may be present. -/
def Problem (S : Spec) (rel fragmentAllowed : Bool) (p : Parts) : ErrorKind → Prop
  | .InvalidUserInfo => ∃ u r, p.authority = some (u ++ '@' :: r) ∧ '@' ∉ u ∧ ¬ Rfc.userinfo S u
  | .InvalidHost => ∃ a r, p.authority = some a ∧ AfterUserinfo a r ∧ ¬ hostPort S r
  | .InvalidPath => ¬ Rfc.path S p.path ∨
      (rel = true ∧ p.authority = none ∧ ColonInFirstSegment p.path)
  | .InvalidQuery => ∃ q, p.query = some q ∧ ¬ Rfc.query S q
  | .UnexpectedFragment => fragmentAllowed = false ∧ ∃ c r, p.fragment = some (c :: r)
  | .InvalidFragment => ∃ f, p.fragment = some f ∧ ¬ Rfc.fragment S f
  | _ => False

/-- Left-to-right rank of the problems of a cut. -/
def rank : ErrorKind → Nat
  | .InvalidUserInfo => 1
  | .InvalidHost => 2
  | .InvalidPath => 3
  | .InvalidQuery => 4
  | .UnexpectedFragment => 5
  | .InvalidFragment => 6
  | _ => 7

/-- `k` is the leftmost problem of the cut. -/
def Leftmost (S : Spec) (rel fragmentAllowed : Bool) (p : Parts) (k : ErrorKind) : Prop :=
  Problem S rel fragmentAllowed p k ∧
    ∀ k', rank k' < rank k → ¬ Problem S rel fragmentAllowed p k'

/-- `x` is the text before the first colon of `s`, `rest` the text after it. -/
def FirstColon (s x rest : Str) : Prop := s = x ++ ':' :: rest ∧ ':' ∉ x

/-- The diagnosis of a text that must be an IRI (`fragmentAllowed`) or an absolute IRI. -/
inductive IriProblem (S : Spec) (fragmentAllowed : Bool) (s : Str) : ErrorKind → Prop
  | noColon : ':' ∉ s → IriProblem S fragmentAllowed s .UnexpectedRelative
  | badScheme (x rest : Str) : FirstColon s x rest → ¬ Rfc.scheme x →
      IriProblem S fragmentAllowed s .InvalidScheme
  | afterScheme (x rest : Str) (p : Parts) (k : ErrorKind) : FirstColon s x rest → Rfc.scheme x →
      Cut rest p → Leftmost S false fragmentAllowed p k → IriProblem S fragmentAllowed s k

/-- The diagnosis of a text that must be a relative reference. -/
inductive RelativeProblem (S : Spec) (s : Str) : ErrorKind → Prop
  | intro (p : Parts) (k : ErrorKind) : Cut s p → Leftmost S true true p k → RelativeProblem S s k

/-- The diagnosis of a text that must be a reference: read after the scheme when the text before
the first colon is a scheme, as a relative reference otherwise. -/
inductive ReferenceProblem (S : Spec) (s : Str) : ErrorKind → Prop
  | absolute (x rest : Str) (p : Parts) (k : ErrorKind) : FirstColon s x rest → Rfc.scheme x →
      Cut rest p → Leftmost S false true p k → ReferenceProblem S s k
  | relative (k : ErrorKind) : (∀ x rest, FirstColon s x rest → ¬ Rfc.scheme x) →
      RelativeProblem S s k → ReferenceProblem S s k

end Verif.Diagnose
