import Verif.Spec.Build
import Verif.Spec.Encode

/-!
# The builder of a URI that corresponds to the builder of an IRI

Specification file for C80: every text that was given is mapped as RFC 3987 section 3.1 says.  IP
addresses, ports and schemes have no non-ASCII characters.
-/

namespace Verif.BuildSpec

open Verif.Rfc

/-- The user information. -/
def uriUserinfo : UserinfoRepr → UserinfoRepr
  | .absent => .absent
  | .direct u => .direct (mapToUri u)
  | .userPass u p => .userPass (mapToUri u) (p.map mapToUri)

/-- The host. -/
def uriHost : HostRepr → HostRepr
  | .string s => .string (mapToUri s)
  | h => h

/-- The authority. -/
def uriAuthority (a : AuthorityBuilder) : AuthorityBuilder where
  userinfo := uriUserinfo a.userinfo
  host := uriHost a.host
  port := a.port

/-- The builder. -/
def uriBuilder (b : Builder) : Builder where
  scheme := b.scheme
  authority := b.authority.map uriAuthority
  path := mapToUri b.path
  query := b.query.map mapToUri
  fragment := b.fragment.map mapToUri
  normalize := b.normalize

end Verif.BuildSpec
