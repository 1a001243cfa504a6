import Verif.Spec.Build
import Verif.Spec.Diagnose

/-!
# What a builder error should say

Specification file: the requirements on the settings in the order in which the documentation and
RFC 3986 list the components, and "the first requirement that is not met".
-/

namespace Verif.BuildSpec

open Verif.Diagnose (ErrorKind)

/-- `k` is the kind attached to the first requirement in the list that is not met. -/
inductive FirstFail : List (ErrorKind × Prop) → ErrorKind → Prop
  | here {k : ErrorKind} {P : Prop} {l} : ¬ P → FirstFail ((k, P) :: l) k
  | there {k k' : ErrorKind} {P : Prop} {l} : P → FirstFail l k' → FirstFail ((k, P) :: l) k'

/-- What the target type requires. -/
def kindRequirements (b : Builder) : IriKind → List (ErrorKind × Prop)
  | .reference => []
  | .iri => [(.InvalidScheme, b.scheme ≠ none)]
  | .absolute => [(.InvalidScheme, b.scheme ≠ none), (.UnexpectedFragment, b.fragment = none)]
  | .relative => [(.UnexpectedAbsolute, b.scheme = none)]

/-- What each component requires, from left to right. -/
def componentRequirements (S : Spec) (b : Builder) : List (ErrorKind × Prop) :=
  [ (.InvalidScheme, ∀ x, b.scheme = some x → Rfc.scheme x),
    (.InvalidUserInfo, ∀ a, b.authority = some a →
      UserOk a.userinfo ∧ ∀ x, userinfoText a.userinfo = some x → Rfc.userinfo S x),
    (.InvalidHost, ∀ a, b.authority = some a → Rfc.host S (hostText a.host)),
    (.InvalidPort, ∀ a, b.authority = some a → ∀ x, portText a.port = some x → Rfc.port x),
    (.InvalidPath,
      (b.authority ≠ none → b.path = [] ∨ ∃ r, b.path = '/' :: r) ∧
      (b.authority = none → b.normalize = false → ∀ r, b.path ≠ '/' :: '/' :: r) ∧
      (b.scheme = none → b.authority = none → ¬ ColonInFirstSegment b.path)),
    (.InvalidQuery, ∀ x, b.query = some x → Rfc.query S x),
    (.InvalidFragment, ∀ x, b.fragment = some x → Rfc.fragment S x) ]

/-- All requirements, in order. -/
def requirements (S : Spec) (k : IriKind) (b : Builder) : List (ErrorKind × Prop) :=
  kindRequirements b k ++ componentRequirements S b

end Verif.BuildSpec
