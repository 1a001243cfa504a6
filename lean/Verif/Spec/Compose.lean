import Verif.Spec.ResolveEquiv

/-!
# Two references in a row

Specification file.  Following the reference `r₁` and then, from where it leads, the reference `r₂` is to
be the same as following one reference: `r₂` merged with `r₁` as RFC 3986 section 5.2.2 merges a reference
with a base, where `r₁` need not have a scheme.
-/

namespace Verif.Rfc

/-- A reference whose path is merged with that of the base: no scheme, no authority, and a path that is
neither empty nor begins with a slash. -/
def MergesPath (r : Parts) : Prop :=
  r.scheme = none ∧ r.authority = none ∧ r.path ≠ [] ∧ ∀ t, r.path ≠ '/' :: t

/-- A reference that names the document of the base: no scheme, no authority, and no path. -/
def SameDocumentPath (r : Parts) : Prop := r.scheme = none ∧ r.authority = none ∧ r.path = []

/-- The path ends in a segment `..`, in any spelling. -/
def EndsInDotDot (r : Parts) : Prop := pctDecode (lastSegment r.path) = [0x2E, 0x2E]

/-- The reference that stands for `r₁` followed by `r₂`; dot segments are left alone. -/
def follow (r₁ r₂ : Parts) : Parts := mergeReference r₁ r₂

example : (follow ⟨none, none, chars! "../a/b", some (chars! "q"), none⟩
    ⟨none, none, chars! "../c", none, some (chars! "f")⟩).recompose = chars! "../a/../c#f" := by decide +kernel
example : (follow ⟨none, some (chars! "h"), [], none, none⟩
    ⟨none, none, chars! "c", none, none⟩).recompose = chars! "//h/c" := by decide +kernel
example : (follow ⟨none, none, chars! "a", some (chars! "q"), some (chars! "f")⟩
    ⟨none, none, [], none, none⟩).recompose = chars! "a?q" := by decide +kernel

end Verif.Rfc
