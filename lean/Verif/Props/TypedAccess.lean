import Verif.Model.TypedAccess
import Verif.Props.Components

/-!
# C53: typed accessors return valid values
-/

namespace Verif

open Rfc

theorem justifiedOpt_ok {debug : Bool} {validate : Str → Bool} {o : Option Str}
    (h : ∀ x, o = some x → validate x = true) : justifiedOpt debug validate o = some o := by
  cases o with
  | none => rfl
  | some x => simp [justifiedOpt, new_unchecked_justified, h x rfl]

/-- **C53** (`query()`, `fragment()` of references, IRIs and relative references): they do not panic, in
any build, are the grammatical components, and what they return is valid for its type. -/
theorem C53_typed_accessors (debug : Bool) (S : Spec) (s : Str) (h : validate_uri_reference S s = some true) :
    ∃ q f : Option Str, RiReferenceStr.query debug S s = some q ∧ RiReferenceStr.fragment debug S s = some f ∧
      RiReferenceStr.query_str s = some q ∧ RiReferenceStr.fragment_str s = f ∧
      (∀ x, q = some x → validate_query S x = true) ∧ (∀ x, f = some x → validate_fragment S x = true) := by
  obtain ⟨p, ⟨hv, _⟩, _, _, _, _, h1, h2, _⟩ := C10_unique_components S s h
  have hq : ∀ x, p.query = some x → validate_query S x = true := fun x e => (C05_query S x).2 (hv.query x e)
  have hf : ∀ x, p.fragment = some x → validate_fragment S x = true :=
    fun x e => (C05_fragment S x).2 (hv.fragment x e)
  refine ⟨p.query, p.fragment, ?_, ?_, h1, h2, hq, hf⟩
  · unfold RiReferenceStr.query
    rw [show extract_query s = some p.query from h1]
    exact justifiedOpt_ok hq
  · unfold RiReferenceStr.fragment
    rw [show extract_fragment s = p.fragment from h2]
    exact justifiedOpt_ok hf

/-- **C53** (`RiAbsoluteStr::query()`), for absolute IRIs without `#`.  Missing: the absolute IRIs ending
in `#` that the validator wrongly accepts (C04), for which it is false (`C53_absolute_refuted`). -/
theorem C53_absolute_partial (debug : Bool) (S : Spec) (s : Str) (h : validate_absolute_uri S s = some true)
    (hh : '#' ∉ s) :
    ∃ q : Option Str, RiAbsoluteStr.query debug S s = some q ∧ RiAbsoluteStr.query_str debug s = some q ∧
      (∀ x, q = some x → validate_query S x = true) := by
  obtain ⟨_, _, _, h4, _⟩ := C11_absolute_accessors_partial debug S s h hh
  have href := (C07_upcasts S s).2.1 ((C07_upcasts S s).1 h)
  obtain ⟨q, _, _, _, h5, _, h6, _⟩ := C53_typed_accessors debug S s href
  rw [h5] at h4
  refine ⟨q, ?_, h4, h6⟩
  unfold RiAbsoluteStr.query
  rw [show extract_query_absolute_iri debug s = some q from h4]
  exact justifiedOpt_ok h6

/-- **C53**, exactly what `RiAbsoluteStr::query()` does on the accepted absolute IRIs that end in `#`: it
panics in a debug build; in a release build it returns an invalid query if there is a query, and an empty
query if there is none. -/
theorem C53_absolute_exact (S : Spec) (t : Str) (h : absolute_IRI S t) :
    ∃ q : Option Str, RiReferenceStr.query_str (t ++ ['#']) = some q ∧
      RiAbsoluteStr.query true S (t ++ ['#']) = none ∧
      (q = none → RiAbsoluteStr.query false S (t ++ ['#']) = some (some [])) ∧
      (∀ x, q = some x → RiAbsoluteStr.query false S (t ++ ['#']) = some (some (x ++ ['#'])) ∧
        validate_query S (x ++ ['#']) = false) := by
  obtain ⟨_, q, h1, h2, h3⟩ := C11_absolute_query_exact S t h
  have hx : ∀ x, validate_query S (x ++ ['#']) = false := fun x => by
    rw [Bool.eq_false_iff]
    intro hq
    exact query_no_hash ((C05_query S _).1 hq) (by simp)
  refine ⟨q, h1, ?_, ?_, ?_⟩
  · unfold RiAbsoluteStr.query
    cases hq : q with
    | none => rw [show extract_query_absolute_iri true (t ++ ['#']) = none from (h3 hq).1]; rfl
    | some x =>
      rw [show extract_query_absolute_iri true (t ++ ['#']) = some (some (x ++ ['#'])) from h2 x hq true]
      simp [justifiedOpt, new_unchecked_justified, hx]
  · intro hq
    unfold RiAbsoluteStr.query
    rw [show extract_query_absolute_iri false (t ++ ['#']) = some (some []) from (h3 hq).2]
    rfl
  · intro x hq
    refine ⟨?_, hx x⟩
    unfold RiAbsoluteStr.query
    rw [show extract_query_absolute_iri false (t ++ ['#']) = some (some (x ++ ['#'])) from h2 x hq false]
    simp [justifiedOpt, new_unchecked_justified]

/-- `query()` of an accepted absolute IRI panics in a debug build, and in a release build returns a
query type whose text is not a query. -/
theorem C53_absolute_refuted :
    validate_absolute_uri .uri (chars! "s:?q#") = some true ∧
    RiAbsoluteStr.query true .uri (chars! "s:?q#") = none ∧
    RiAbsoluteStr.query false .uri (chars! "s:?q#") = some (some (chars! "q#")) ∧
    validate_query .uri (chars! "q#") = false := by decide +kernel

/-- **C53** (`FixedBaseResolver`): for every absolute IRI that the validator accepts, the accessors of the
resolver do not panic and give back the base and its grammatical components. -/
theorem C53_resolver (debug : Bool) (S : Spec) (s : Str) (h : validate_absolute_uri S s = some true) :
    ∃ r, FixedBaseResolver.new s = some r ∧ r.base debug S = some s ∧
      ∃ p : Parts, (p.Valid S ∧ p.recompose = s) ∧ ∃ x, p.scheme = some x ∧
        r.scheme_str = some x ∧ r.authority_str = some p.authority ∧ r.path_str = some p.path ∧
        r.query_str = some p.query ∧ r.query debug S = some p.query := by
  have hI := (C07_upcasts S s).1 h
  have href := (C07_upcasts S s).2.1 hI
  obtain ⟨sp, h0, h1, h2, h3, _, h5, _⟩ := C11_splitter_agrees S s href
  obtain ⟨p, hv, _, g1, g2, g3, g4, _⟩ := C10_unique_components S s href
  obtain ⟨⟨x, _, hx⟩, _⟩ := C11_iri_accessors S s hI
  rw [g1] at hx
  have hq : ∀ x, p.query = some x → validate_query S x = true :=
    fun x e => (C05_query S x).2 (hv.1.query x e)
  refine ⟨⟨s, sp⟩, ?_, ?_, p, hv, x, hx, ?_, ?_, ?_, ?_, ?_⟩
  · simp [FixedBaseResolver.new, h0]
  · simp [FixedBaseResolver.base, h]
  · simp [FixedBaseResolver.scheme_str, h1, g1, hx]
  · simp [FixedBaseResolver.authority_str, h2, g2]
  · simp [FixedBaseResolver.path_str, h3, g3]
  · simp [FixedBaseResolver.query_str, h5, g4]
  · simp only [FixedBaseResolver.query, FixedBaseResolver.query_str, h5, g4, Option.bind_some]
    exact justifiedOpt_ok hq

example : validate_absolute_uri .uri (chars! "http://h/a?b") = some true ∧
    RiAbsoluteStr.query true .uri (chars! "http://h/a?b") = some (some (chars! "b")) ∧
    RiReferenceStr.fragment true .uri (chars! "http://h/a?b#%41") = some (some (chars! "%41")) ∧
    (FixedBaseResolver.new (chars! "http://h/a?b")).bind (·.query true .uri) = some (some (chars! "b")) ∧
    (FixedBaseResolver.new (chars! "http://h/a?b")).bind (·.path_str) = some (chars! "/a") := by
  decide +kernel

end Verif
