import Verif.Spec.Resolve

/-!
# Syntax-based normalization (RFC 3986 section 6.2.2, RFC 3987 section 5.3.2)

Specification file.  Normalization is a relation between the components of a reference before and
after: case normalization (6.2.2.1), percent-encoding normalization (6.2.2.2), path segment
normalization (6.2.2.3) and removal of an empty port (3.2.3).
-/

namespace Verif.Rfc

/-- US-ASCII lower case. -/
def lower (c : Char) : Char :=
  if 'A' ≤ c ∧ c ≤ 'Z' then Char.ofNat (c.toNat + 32) else c

/-- Percent-encoding normalization of a text: triplets of unreserved characters are decoded, the
others are written with upper-case digits. -/
def PctNormText (S : Spec) (s t : Str) : Prop := ∃ ts, PctNorm S (tokens s) ts ∧ t = render ts

/-- A plain US-ASCII character or the encoding of a US-ASCII byte. -/
def tokAscii : Tok → Bool
  | .ch c => c.toNat < 128
  | .pct b => b < 128

/-- Lower case, percent-encoded bytes excepted. -/
def tokLower : Tok → Tok
  | .ch c => .ch (lower c)
  | .pct b => .pct b

/-- Host: percent-encoding normalization, and lower case if the host is US-ASCII only (RFC 3987
section 5.3.2.1: "the scheme and US-ASCII only host are case insensitive and therefore should be
normalized to lowercase"). -/
def HostNorm (S : Spec) (h t : Str) : Prop :=
  ∃ ts, PctNorm S (tokens h) ts ∧
    t = render (if (tokens h).all tokAscii then ts.map tokLower else ts)

/-- Two optional texts are both absent or related. -/
def OptRel (R : Str → Str → Prop) : Option Str → Option Str → Prop
  | none, none => True
  | some a, some b => R a b
  | _, _ => False

/-- Authority components: user info without change of letter case, host, and the port unless it is
empty. -/
structure AuthNorm (S : Spec) (a b : AuthParts) : Prop where
  userinfo : OptRel (PctNormText S) a.userinfo b.userinfo
  host : HostNorm S a.host b.host
  port : b.port = if a.port = some [] then none else a.port

/-- Authority text. -/
def AuthTextNorm (S : Spec) (x y : Str) : Prop :=
  ∃ a b : AuthParts, a.Valid S ∧ a.recompose = x ∧ AuthNorm S a b ∧ y = b.recompose

/-- A path that the "preserve" mode treats as opaque: relative, and no authority. -/
def OpaquePath (p : Parts) : Prop := p.authority = none ∧ p.path ≠ [] ∧ ∀ r, p.path ≠ '/' :: r

/-- Path: dot segments removed (percent-encoded ones too), percent-encoding normalization, and the
`/.` escape where it is needed. -/
def PathNorm (S : Spec) (hasAuthority : Bool) (x y : Str) : Prop :=
  ∃ t, PctNormText S (remove_dot_segments (undot x)) t ∧ y = escapePath hasAuthority t

/-- Normalization of the five components.  `preserve` leaves the dot segments of an opaque path. -/
structure Normal (S : Spec) (preserve : Bool) (p q : Parts) : Prop where
  scheme : q.scheme = p.scheme.map (List.map lower)
  authority : OptRel (AuthTextNorm S) p.authority q.authority
  path : ¬ (preserve = true ∧ OpaquePath p) → PathNorm S p.authority.isSome p.path q.path
  opaquePath : preserve = true → OpaquePath p → PctNormText S p.path q.path
  query : OptRel (PctNormText S) p.query q.query
  fragment : OptRel (PctNormText S) p.fragment q.fragment

/-- An authority without its final `:`, i.e. without an empty port (only a port can be what makes an
authority end in `:`). -/
def dropEmptyPort (a : Str) : Str := if a.getLast? = some ':' then a.dropLast else a

/-- The reference with the colon of an empty port removed. -/
def dropPortColon (p : Parts) : Parts := { p with authority := p.authority.map dropEmptyPort }

end Verif.Rfc
