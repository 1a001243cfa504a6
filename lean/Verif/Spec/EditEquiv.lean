import Verif.Spec.History
import Verif.Spec.Equivalence

/-!
# Edits and equivalence

Specification file for C74: which methods are edits, which of the methods of C66 must not depend on how a value is
spelled, and the edit of a URI that corresponds to an edit of an IRI.
-/

namespace Verif.Rfc

/-- The methods that change a component and nothing else. -/
def IsEdit : Call → Prop
  | .set_fragment _ | .replace_host _ | .remove_password_inline | .remove_nonempty_password_inline
  | .mask_password | .into_absolute => True
  | _ => False

/-- The edits that take no text. -/
def IsRemoval : Call → Prop
  | .set_fragment f => f = none
  | .remove_password_inline | .remove_nonempty_password_inline | .mask_password | .into_absolute => True
  | _ => False

/-- Normalization, in the two modes. -/
def IsNormalization (c : Call) : Prop := c = .normalize ∨ c = .normalize_preserve

/-- The methods that do to equivalent values equivalent things.  Not among them: `replace_host_reg_name`, which asks
for the kind of the host; `try_into_uri`, which asks whether the text is US-ASCII; `resolve_against`, see C63. -/
def KeepsEquivalence : Call → Prop
  | .replace_host_reg_name _ | .try_into_uri | .resolve_against _ _ => False
  | _ => True

/-- The same edit on a URI: the text that it puts in is encoded. -/
def encodedCall : Call → Call
  | .set_fragment f => .set_fragment (f.map mapToUri)
  | .replace_host new => .replace_host (mapToUri new)
  | .replace_host_reg_name new => .replace_host_reg_name (mapToUri new)
  | c => c

/-- The new host, if there is one, is a host. -/
def HostArgument (S : Spec) : Call → Prop
  | .replace_host new | .replace_host_reg_name new => host S new
  | _ => True

/-- The call is allowed (see C66) on the value. -/
def AllowedOn (debug : Bool) (c : Call) (v : Val) : Prop := ∀ a : Comps, a.Valid → a.val = v → Allowed debug c a

end Verif.Rfc
