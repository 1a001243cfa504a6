import Verif.Model.Build
import Verif.Spec.Normalize

/-!
# What a builder denotes

Specification file (of the model only the input types are used: `Builder`, `BuilderOp`, the three
`…Repr` types, `IriKind`; and the standard library's `Display` of numbers and IP addresses).
-/

namespace Verif.BuildSpec

/-- The user info that was set: a text, or a user with or without password. -/
def userinfoText : UserinfoRepr → Option Str
  | .absent => none
  | .direct u => some u
  | .userPass u none => some u
  | .userPass u (some p) => some (u ++ ':' :: p)

/-- The host that was set: a text or an IP address. -/
def hostText : HostRepr → Str
  | .string s => s
  | .ipv4 a b c d => ipv4Display a.toNat b.toNat c.toNat d.toNat
  | .ipv6 a => '[' :: (a.display ++ [']'])

/-- The port that was set: a number or a text. -/
def portText : PortRepr → Option Str
  | .empty => none
  | .integer n => some (decimal n.toNat)
  | .string s => some s

/-- The authority that was set. -/
def authParts (a : AuthorityBuilder) : AuthParts :=
  ⟨userinfoText a.userinfo, hostText a.host, portText a.port⟩

/-- The components that were set. -/
def parts (b : Builder) : Parts where
  scheme := b.scheme
  authority := b.authority.map fun a => (authParts a).recompose
  path := b.path
  query := b.query
  fragment := b.fragment

/-- The grammar of the four target types. -/
def grammar (S : Spec) : IriKind → Str → Prop
  | .reference => Rfc.IRI_reference S
  | .iri => Rfc.IRI S
  | .absolute => Rfc.absolute_IRI S
  | .relative => Rfc.relative_ref S

/-- The user name given separately has no colon. -/
def UserOk : UserinfoRepr → Prop
  | .userPass u _ => ':' ∉ u
  | _ => True

/-- What the type asks of the components. -/
def KindOk (b : Builder) : IriKind → Prop
  | .reference => True
  | .iri => b.scheme ≠ none
  | .absolute => b.scheme ≠ none ∧ b.fragment = none
  | .relative => b.scheme = none

/-- The settings that `build` is documented to accept, apart from the characters of the path: every
other component is generated by its grammar rule, a user name has no colon, and the path satisfies
the constraints of RFC 3986 section 3.3 (a leading `//` is no obstacle if normalization is on: it is
then escaped). -/
structure Acceptable (S : Spec) (k : IriKind) (b : Builder) : Prop where
  kind : KindOk b k
  scheme : ∀ x, b.scheme = some x → Rfc.scheme x
  authority : ∀ a, b.authority = some a → (authParts a).Valid S ∧ UserOk a.userinfo
  withAuthority : b.authority ≠ none → b.path = [] ∨ ∃ r, b.path = '/' :: r
  withoutAuthority : b.authority = none → b.normalize = false → ∀ r, b.path ≠ '/' :: '/' :: r
  withoutScheme : b.scheme = none → b.authority = none → ¬ ColonInFirstSegment b.path
  query : ∀ x, b.query = some x → Rfc.query S x
  fragment : ∀ x, b.fragment = some x → Rfc.fragment S x

/-- Every `%` begins a triplet. -/
def NoStrayPercent (s : Str) : Prop :=
  ∀ a r, s = a ++ '%' :: r → ∃ h l t, r = h :: l :: t ∧ Rfc.HEXDIG h = true ∧ Rfc.HEXDIG l = true

/-! ### Setters -/

/-- The answer of the last operation that has one. -/
def lastSet {α : Type} (f : BuilderOp → Option α) (init : α) (ops : List BuilderOp) : α :=
  (ops.reverse.findSome? f).getD init

/-- Scheme: the last `scheme`/`unset_scheme`. -/
def scheme : BuilderOp → Option (Option Str)
  | .scheme v => some (some v)
  | .unset_scheme => some none
  | _ => none

/-- Path: the last `path`. -/
def path : BuilderOp → Option Str
  | .path v => some v
  | _ => none

/-- Query: the last `query`/`unset_query`. -/
def query : BuilderOp → Option (Option Str)
  | .query v => some (some v)
  | .unset_query => some none
  | _ => none

/-- Fragment: the last `fragment`/`unset_fragment`. -/
def fragment : BuilderOp → Option (Option Str)
  | .fragment v => some (some v)
  | .unset_fragment => some none
  | _ => none

/-- Normalization: the last `normalize`/`unset_normalize`. -/
def normalize : BuilderOp → Option Bool
  | .normalize => some true
  | .unset_normalize => some false
  | _ => none

/-- There is an authority if a part of it was set or unset after the last `unset_authority`. -/
def hasAuthority : BuilderOp → Option Bool
  | .unset_authority => some false
  | .userinfo _ | .unset_userinfo | .host _ | .ip_address_v4 .. | .ip_address_v6 _ | .port _
  | .unset_port => some true
  | _ => none

/-- User info: the last one set after the last `unset_authority`. -/
def userinfo : BuilderOp → Option UserinfoRepr
  | .unset_authority => some .absent
  | .userinfo v => some v
  | .unset_userinfo => some .absent
  | _ => none

/-- Host: the last one set after the last `unset_authority`; empty if none was set. -/
def host : BuilderOp → Option HostRepr
  | .unset_authority => some (.string [])
  | .host v => some (.string v)
  | .ip_address_v4 a b c d => some (.ipv4 a b c d)
  | .ip_address_v6 a => some (.ipv6 a)
  | _ => none

/-- Port: the last one set after the last `unset_authority`. -/
def port : BuilderOp → Option PortRepr
  | .unset_authority => some .empty
  | .port v => some v
  | .unset_port => some .empty
  | _ => none

end Verif.BuildSpec
