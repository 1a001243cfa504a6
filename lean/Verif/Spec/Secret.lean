import Verif.Spec.History
import Verif.Model.Edit

/-!
# The password influences nothing but itself

Specification file for C77.  Two values are the same but for their passwords if `mask_password()` makes the same text
of them; two histories of calls are, if the calls are the same, except that bases of resolutions may differ in
their passwords too.
-/

namespace Verif.Rfc

/-- The same call, the base apart, which may have another password. -/
inductive SameCall : Call → Call → Prop
  | same (c : Call) : SameCall c c
  | base (mode : NormalizationMode) (base base' : Str) : mask_password base = mask_password base' →
      SameCall (.resolve_against mode base) (.resolve_against mode base')

/-- The same calls. -/
inductive SameCalls : List Call → List Call → Prop
  | nil : SameCalls [] []
  | cons {c c' : Call} {cs cs' : List Call} : SameCall c c' → SameCalls cs cs' → SameCalls (c :: cs) (c' :: cs')

/-- The components are the same, the password apart. -/
def DifferInPassword (a b : Comps) : Prop :=
  a = b ∨ ∃ (x : AuthParts) (user pw pw' : Str), ':' ∉ user ∧ a.authority = some { x with userinfo := some (user ++ ':' :: pw) } ∧
    b = { a with authority := some { x with userinfo := some (user ++ ':' :: pw') } }

end Verif.Rfc
