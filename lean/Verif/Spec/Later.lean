import Verif.Spec.EditEquiv

/-!
# Working with IRIs and converting at the end

Specification file for C79: the history of a URI that corresponds to a history of an IRI.
-/

namespace Verif.Rfc

/-- The methods that do not change between IRI types and URI types. -/
def KeepsSpec : Call → Prop
  | .encode_into_uri | .try_into_uri | .into_iri_spec => False
  | _ => True

/-- The same call on a URI: every text given to it is encoded. -/
def uriCall : Call → Call
  | .resolve_against mode base => .resolve_against mode (mapToUri base)
  | c => encodedCall c

/-- The texts given to a method. -/
def callTexts : Call → List Str
  | .set_fragment (some f) => [f]
  | .replace_host new | .replace_host_reg_name new => [new]
  | .resolve_against _ base => [base]
  | _ => []

/-- All of them are US-ASCII. -/
def AsciiTexts (c : Call) : Prop := ∀ x ∈ callTexts c, ∀ ch ∈ x, ch.toNat < 128

end Verif.Rfc
