import Verif.Spec.Equivalence

/-!
# When two references mean the same to a resolver

Specification file.
-/

namespace Verif.Rfc

/-- The last segment of a path: what comes after the last `/`. -/
def lastSegment (path : Str) : Str := (path.reverse.takeWhile (· != '/')).reverse

/-- A reference whose path is not merged with that of the base. -/
def Rooted (r : Parts) : Prop := r.scheme ≠ none ∨ r.authority ≠ none ∨ ∃ t, r.path = '/' :: t

/-- References that are equivalent (RFC 3986 section 6.2.2), where dot segments may be removed only from
a path that is not merged with the path of the base. -/
structure SameReference (S : Spec) (p q : Parts) : Prop where
  scheme : p.scheme.map (List.map lower) = q.scheme.map (List.map lower)
  authority : OptRel (AuthTextEquiv S) p.authority q.authority
  path : PctEquiv S p.path q.path ∨ (Rooted p ∧ Rooted q ∧
    PctEquiv S (remove_dot_segments (undot p.path)) (remove_dot_segments (undot q.path)))
  query : OptRel (PctEquiv S) p.query q.query
  fragment : OptRel (PctEquiv S) p.fragment q.fragment

/-- The same for texts. -/
def SameReferenceText (S : Spec) (s t : Str) : Prop :=
  ∃ p q : Parts, (p.Valid S ∧ p.recompose = s) ∧ (q.Valid S ∧ q.recompose = t) ∧ SameReference S p q

end Verif.Rfc
