import Verif.Spec.History

/-!
# Edits of the authority

Specification file for C78: the methods that change the authority of a value and nothing else.
-/

namespace Verif.Rfc

/-- The methods that change the user information or the host. -/
def IsAuthorityEdit : Call → Prop
  | .replace_host _ | .replace_host_reg_name _ | .remove_password_inline | .remove_nonempty_password_inline
  | .mask_password => True
  | _ => False

/-- The mode of resolution and the method that normalize in the same way. -/
def SameMode (mode : NormalizationMode) (n : Call) : Prop :=
  (mode = .default ∧ n = .normalize) ∨ (mode = .preserve ∧ n = .normalize_preserve)

end Verif.Rfc
