import Verif.Spec.Api
import Verif.Props.Validation
import Verif.Props.IsNormalized

/-!
# C05 and C19 for the public functions
-/

namespace Verif

open Rfc

/-- **C05** for the module `validate`: no function panics, and each accepts exactly the texts of the rule with its
name.  `absolute_iri` is C04: it accepts too much. -/
theorem C05_public_functions (S : Spec) (s : Str) (f : Api.ValidateFn) (hf : f ≠ .absolute_iri) :
    (f.call S s = some true ↔ f.Accepts S s) ∧ (f.call S s = some false ↔ ¬ f.Accepts S s) := by
  have key : ∀ {b : Bool} {P : Prop}, (b = true ↔ P) → (some b = some true ↔ P) ∧ (some b = some false ↔ ¬ P) := by
    intro b P h
    rw [← h]
    cases b <;> simp
  cases f with
  | iri => exact C01_iri_validation S s
  | iri_reference => exact C02_iri_reference_validation S s
  | absolute_iri => exact absurd rfl hf
  | relative_ref => exact C03_relative_ref_validation S s
  | scheme => exact key (C05_scheme s)
  | authority => exact key (C06_authority S s)
  | host => exact key (C06_host S s)
  | reg_name => exact key (C05_reg_name S s)
  | port => exact key (C05_port s)
  | userinfo => exact key (C05_userinfo S s)
  | path => exact key (C05_path S s)
  | path_segment => exact key (C05_path_segment S s)
  | query => exact key (C05_query S s)
  | fragment => exact key (C05_fragment S s)

/-- **C04** for the module `validate`, exactly what `absolute_iri` accepts. -/
theorem C04_public_function_partial (S : Spec) (s : Str) :
    (Api.ValidateFn.absolute_iri.call S s = some true ↔
      absolute_IRI S s ∨ ∃ t, s = t ++ ['#'] ∧ absolute_IRI S t) ∧
    (Api.ValidateFn.absolute_iri.call S s = some false ↔
      ¬ (absolute_IRI S s ∨ ∃ t, s = t ++ ['#'] ∧ absolute_IRI S t)) :=
  C04_absolute_validation_partial S s

/-- **C19** for the three methods, of every IRI whose authority does not end in an empty port.  Missing: the
other IRIs, for which it is false (`C19_refuted`). -/
theorem C19_public_methods_partial (S : Spec) (s : Str) (h : validate_uri S s = some true)
    (ha : ∀ a, RiReferenceStr.authority_str s = some a → a.getLast? ≠ some ':') :
    ∃ b1 b2 b3, Api.is_normalized S s = some b1 ∧
      Api.is_normalized_but_authorityless_relative_path_preserved S s = some b2 ∧
      Api.is_normalized_rfc3986 S s = some b3 ∧
      (b1 = true ↔ normalize S s = some s) ∧
      (b2 = true ↔ normalize_but_preserve_authorityless_relative_path S s = some s) ∧
      (b3 = true ↔ normalize S s = some s ∧ ensure_rfc3986_normalizable s = some true) :=
  C19_is_normalized_partial S s h ha

example : Api.ValidateFn.path_segment.call .uri (chars! "a/b") = some false ∧
    Api.ValidateFn.path.call .uri (chars! "a/b") = some true ∧
    Api.ValidateFn.query.call .iri ['?', Char.ofNat 0xE000] = some true ∧
    Api.ValidateFn.fragment.call .iri ['?', Char.ofNat 0xE000] = some false ∧
    Api.ValidateFn.reg_name.call .uri (chars! "1.2.3.4") = some false ∧
    Api.ValidateFn.host.call .uri (chars! "1.2.3.4") = some true := by decide +kernel

/-- The three methods differ on the same IRI. -/
example : Api.is_normalized .uri (chars! "a:/.//b") = some true ∧
    Api.is_normalized_rfc3986 .uri (chars! "a:/.//b") = some false ∧
    Api.is_normalized .uri (chars! "a:b/../c") = some false ∧
    Api.is_normalized_but_authorityless_relative_path_preserved .uri (chars! "a:b/../c") = some true := by
  decide +kernel

end Verif
