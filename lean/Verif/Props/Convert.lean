import Verif.Lemmas.Convert

/-!
# C24: IRI to URI
-/

namespace Verif

open Rfc

/-- **C24.**  The three ways of encoding an IRI (displaying `encode_to_uri()`, the in-place
`encode_to_uri_inline()` and the owned `encode_into_uri()`, which is the in-place one) never panic and
compute the mapping of RFC 3987 section 3.1. -/
theorem C24_variants_agree (s : Str) :
    encode_to_uri s = some (mapToUri s) ∧ encode_to_uri_inline s = some (mapToUri s) :=
  ⟨writeGo_spec _ s (by omega), encode_inline_spec s⟩

/-- **C24.**  For a valid value of any of the four IRI kinds (of either spec) the result is a valid
URI of the same kind, is ASCII, and percent-decodes to the same bytes. -/
theorem C24_encode_to_uri (S : Spec) (k : IriKind) (s : Str) (h : k.validate S s = some true) :
    ∃ u, encode_to_uri s = some u ∧ encode_to_uri_inline s = some u ∧
      k.validate .uri u = some true ∧ (∀ c ∈ u, c.toNat < 128) ∧ pctDecode u = pctDecode s := by
  obtain ⟨h1, h2⟩ := C24_variants_agree s
  refine ⟨_, h1, h2, ?_, mapToUri_all_ascii s, ?_⟩
  · obtain ⟨p, hp, hf, rfl⟩ := (kind_validate_iff S k s).1 h
    refine (kind_validate_iff .uri k _).2 ⟨mapParts p, mapParts_valid hp, ?_, mapParts_recompose hp⟩
    cases k with
    | reference => trivial
    | iri => exact hf
    | relative => exact hf
    | absolute =>
      refine ⟨hf.1, ?_⟩
      rcases hf.2 with h | h
      · left; simp [mapParts, h]
      · right; simp [mapParts, h, mapToUri_nil]
  · obtain ⟨p, hp, _, rfl⟩ := (kind_validate_iff S k s).1 h
    exact mapToUri_wf_decode (valid_recompose_wf hp)

/-- **C24.**  The components are mapped one by one: nothing moves between components. -/
theorem C24_components (S : Spec) (p : Parts) (hp : p.Valid S) :
    encode_to_uri p.recompose = some (Parts.recompose
      { scheme := p.scheme, authority := p.authority.map mapToUri, path := mapToUri p.path,
        query := p.query.map mapToUri, fragment := p.fragment.map mapToUri }) ∧
    Parts.Valid .uri
      { scheme := p.scheme, authority := p.authority.map mapToUri, path := mapToUri p.path,
        query := p.query.map mapToUri, fragment := p.fragment.map mapToUri } := by
  refine ⟨?_, mapParts_valid hp⟩
  rw [(C24_variants_agree _).1, ← mapParts_recompose hp]; rfl

/-- **C24.**  Queries and fragments (`IriQueryStr`, `IriFragmentStr`) become valid URI queries and
fragments. -/
theorem C24_query_fragment (S : Spec) (s : Str) :
    (query S s → ∃ u, encode_to_uri s = some u ∧ encode_to_uri_inline s = some u ∧ query .uri u ∧
      (∀ c ∈ u, c.toNat < 128) ∧ pctDecode u = pctDecode s) ∧
    (fragment S s → ∃ u, encode_to_uri s = some u ∧ encode_to_uri_inline s = some u ∧ fragment .uri u ∧
      (∀ c ∈ u, c.toNat < 128) ∧ pctDecode u = pctDecode s) := by
  obtain ⟨h1, h2⟩ := C24_variants_agree s
  constructor
  · intro h
    exact ⟨_, h1, h2, map_query h, mapToUri_all_ascii s, mapToUri_wf_decode ((query_iff S s).1 h).wf⟩
  · intro h
    exact ⟨_, h1, h2, map_fragment h, mapToUri_all_ascii s, mapToUri_wf_decode ((fragment_iff S s).1 h).wf⟩

/-- **C24.**  An ASCII text is left alone, so encoding is idempotent; and `as_uri` / `try_into_uri`
succeed exactly for ASCII values, without change. -/
theorem C24_ascii (s : Str) :
    ((∀ c ∈ s, c.toNat < 128) → encode_to_uri s = some s ∧ encode_to_uri_inline s = some s) ∧
    (∀ u, encode_to_uri s = some u → encode_to_uri u = some u) ∧
    (∀ u, as_uri s = some u ↔ u = s ∧ ∀ c ∈ s, c.toNat < 128) := by
  have hid : ∀ s : Str, (∀ c ∈ s, c.toNat < 128) → encode_to_uri s = some s := fun s h => by
    rw [(C24_variants_agree s).1, mapToUri_ascii h]
  refine ⟨fun h => ⟨hid s h, by rw [(C24_variants_agree s).2, mapToUri_ascii h]⟩, ?_, ?_⟩
  · intro u hu
    rw [(C24_variants_agree s).1] at hu
    simp only [Option.some.injEq] at hu
    subst hu
    exact hid _ (mapToUri_all_ascii s)
  · intro u
    unfold as_uri
    by_cases h : s.all isAscii = true
    · have h' := h
      rw [List.all_eq_true] at h'
      simp only [h, Bool.not_true, Bool.false_eq_true, if_false, Option.some.injEq]
      constructor
      · rintro rfl; exact ⟨rfl, fun c hc => isAscii_true.1 (h' c hc)⟩
      · rintro ⟨rfl, _⟩; rfl
    · have h' := h
      rw [Bool.not_eq_true] at h'
      simp only [h', Bool.not_false, if_true]
      constructor
      · intro e; cases e
      · rintro ⟨rfl, hc⟩
        exact absurd (List.all_eq_true.2 fun c hcm => isAscii_true.2 (hc c hcm)) h

/-- **C24.**  What `as_uri` returns for a valid IRI of a kind is a valid URI of that kind, and
`as_uri` succeeds exactly if the text is a valid URI of the kind (the documented equivalence with
`UriStr::new(..).ok()`). -/
theorem C24_as_uri (S : Spec) (k : IriKind) (s : Str) (h : k.validate S s = some true) :
    (as_uri s = some s ∧ k.validate .uri s = some true) ∨
    (as_uri s = none ∧ k.validate .uri s ≠ some true) := by
  by_cases ha : ∀ c ∈ s, c.toNat < 128
  · left
    refine ⟨((C24_ascii s).2.2 s).2 ⟨rfl, ha⟩, ?_⟩
    obtain ⟨u, h1, _, h3, _⟩ := C24_encode_to_uri S k s h
    rw [((C24_ascii s).1 ha).1] at h1
    cases h1; exact h3
  · right
    refine ⟨?_, ?_⟩
    · cases hu : as_uri s with
      | none => rfl
      | some u => exact absurd (((C24_ascii s).2.2 u).1 hu).2 ha
    · intro hv
      apply ha
      obtain ⟨p, hp, _, rfl⟩ := (kind_validate_iff .uri k s).1 hv
      exact uri_recompose_ascii hp

/-- Concrete cases. -/
example : IriKind.iri.validate .iri (chars! "http://exämple.com/?α=é#日本") = some true := by decide +kernel
example : encode_to_uri (chars! "http://example.com/?α") = some (chars! "http://example.com/?%CE%B1") := by
  decide +kernel
example : encode_to_uri_inline (chars! "http://日.com/aα") = some (chars! "http://%E6%97%A5.com/a%CE%B1") := by
  decide +kernel

end Verif
