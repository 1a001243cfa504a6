import Verif.Spec.Normalize

/-!
# Equivalence of IRIs under syntax-based normalization (RFC 3986 section 6.2.2, RFC 3987 5.3.2)

Specification file.  It does not mention normal forms: two references are equivalent if their
components can be turned into each other by replacing percent-encoded unreserved characters by the
characters and vice versa, by changing the letter case of scheme and US-ASCII host, by adding or
dropping an empty port, and by removing dot segments.  (The letter case of hexadecimal digits does
not appear: `tokens` reads `%3a` and `%3A` as the same encoded byte.)
-/

namespace Verif.Rfc

/-- Reflexive, symmetric and transitive closure. -/
inductive Closure {α : Type} (R : α → α → Prop) : α → α → Prop
  | refl (a) : Closure R a a
  | step {a b} : R a b → Closure R a b
  | symm {a b} : Closure R a b → Closure R b a
  | trans {a b c} : Closure R a b → Closure R b c → Closure R a c

/-- One percent-encoded unreserved character is replaced by the character. -/
inductive DecodeStep (S : Spec) : List Tok → List Tok → Prop
  | mk (a b : List Tok) (c : Char) : iunreserved S c = true →
      DecodeStep S (a ++ (utf8 c).map .pct ++ b) (a ++ .ch c :: b)

/-- Equal up to percent-encoding of unreserved characters. -/
def PctEquiv (S : Spec) (s t : Str) : Prop := Closure (DecodeStep S) (tokens s) (tokens t)

/-- A step on hosts: the same, or the letter case of one character in a US-ASCII host. -/
inductive HostStep (S : Spec) : List Tok → List Tok → Prop
  | decode {a b} : DecodeStep S a b → HostStep S a b
  | case (a b : List Tok) (c : Char) : (a ++ .ch c :: b).all tokAscii = true →
      HostStep S (a ++ .ch c :: b) (a ++ .ch (lower c) :: b)

def HostEquiv (S : Spec) (s t : Str) : Prop := Closure (HostStep S) (tokens s) (tokens t)

/-- Equivalent authorities: an empty port is no port. -/
structure AuthEquiv (S : Spec) (a b : AuthParts) : Prop where
  userinfo : OptRel (PctEquiv S) a.userinfo b.userinfo
  host : HostEquiv S a.host b.host
  port : a.port.getD [] = b.port.getD []

def AuthTextEquiv (S : Spec) (x y : Str) : Prop :=
  ∃ a b : AuthParts, (a.Valid S ∧ a.recompose = x) ∧ (b.Valid S ∧ b.recompose = y) ∧ AuthEquiv S a b

/-- Equivalent references. -/
structure Equivalent (S : Spec) (p q : Parts) : Prop where
  scheme : p.scheme.map (List.map lower) = q.scheme.map (List.map lower)
  authority : OptRel (AuthTextEquiv S) p.authority q.authority
  path : PctEquiv S (remove_dot_segments (undot p.path)) (remove_dot_segments (undot q.path))
  query : OptRel (PctEquiv S) p.query q.query
  fragment : OptRel (PctEquiv S) p.fragment q.fragment

/-- Equivalent texts. -/
def EquivalentText (S : Spec) (s t : Str) : Prop :=
  ∃ p q : Parts, (p.Valid S ∧ p.recompose = s) ∧ (q.Valid S ∧ q.recompose = t) ∧ Equivalent S p q

/-- Equivalent references, where dot segments of a relative path without an authority are kept. -/
structure EquivalentKeepingRelativePath (S : Spec) (p q : Parts) : Prop where
  scheme : p.scheme.map (List.map lower) = q.scheme.map (List.map lower)
  authority : OptRel (AuthTextEquiv S) p.authority q.authority
  path : (OpaquePath p ∧ OpaquePath q ∧ PctEquiv S p.path q.path) ∨
    (¬ OpaquePath p ∧ ¬ OpaquePath q ∧
      PctEquiv S (remove_dot_segments (undot p.path)) (remove_dot_segments (undot q.path)))
  query : OptRel (PctEquiv S) p.query q.query
  fragment : OptRel (PctEquiv S) p.fragment q.fragment

/-- The same for texts. -/
def EquivalentTextKeepingRelativePath (S : Spec) (s t : Str) : Prop :=
  ∃ p q : Parts, (p.Valid S ∧ p.recompose = s) ∧ (q.Valid S ∧ q.recompose = t) ∧
    EquivalentKeepingRelativePath S p q

end Verif.Rfc
