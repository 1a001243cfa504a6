import Verif.Spec.Grammar
import Verif.Model.Api

/-!
# What the functions of the module `validate` should accept

The name of the function and the rule of RFC 3986 / RFC 3987 with that name.  (`reg_name` is documented to
reject what is an IPv4 address: RFC 3986, section 3.2.2, "first-match-wins".)
-/

namespace Verif.Api

open Rfc

def ValidateFn.Accepts (S : Spec) (s : Str) : ValidateFn → Prop
  | .iri => IRI S s
  | .iri_reference => IRI_reference S s
  | .absolute_iri => absolute_IRI S s
  | .relative_ref => Rfc.relative_ref S s
  | .scheme => Rfc.scheme s
  | .authority => Rfc.authority S s
  | .host => Rfc.host S s
  | .reg_name => Rfc.reg_name S s ∧ ¬ IPv4address s
  | .port => Rfc.port s
  | .userinfo => Rfc.userinfo S s
  | .path => Rfc.path S s
  | .path_segment => segment S s
  | .query => Rfc.query S s
  | .fragment => Rfc.fragment S s

end Verif.Api
