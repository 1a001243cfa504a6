import Verif.Lemmas.Commute
import Verif.Props.Resolve
import Verif.Props.Normalize
import Verif.Props.Convert

/-!
# C47, C48: resolution and normalization commute with `encode_to_uri`

An application may convert IRIs to URIs at any point of its pipeline: converting first and then
resolving (or normalizing) as URIs gives the same URI as resolving (or normalizing) as IRIs and
converting the result.  RFC 3987 section 3.1 and 5.3 take this for granted.
-/

namespace Verif

open Rfc

/-- **C47**: `resolve` then `encode_to_uri` is `encode_to_uri` (of base and reference) then
`resolve`, in every normalization mode. -/
theorem C47_resolve_commutes (S : Spec) (mode : NormalizationMode) (base ref : Str)
    (hb : validate_uri S base = some true) (hr : validate_uri_reference S ref = some true) :
    ∃ base' ref' t, encode_to_uri base = some base' ∧ encode_to_uri ref = some ref' ∧
      validate_uri .uri base' = some true ∧ validate_uri_reference .uri ref' = some true ∧
      resolve S mode base ref = some t ∧
      resolve .uri mode base' ref' = encode_to_uri t := by
  obtain ⟨b, hbv, hbs, rfl⟩ := iri_parts' hb
  obtain ⟨r, hrv, rfl⟩ := reference_parts hr
  obtain ⟨hm, hms⟩ := merge_valid hbv hbs hrv
  have hbv' := mapParts_valid hbv
  have hrv' := mapParts_valid hrv
  have hbs' : (mapParts b).scheme ≠ none := hbs
  have key : ∃ q : Parts, q.Valid S ∧ resolve S mode b.recompose r.recompose = some q.recompose ∧
      resolve .uri mode (mapParts b).recompose (mapParts r).recompose =
        some (mapParts q).recompose := by
    by_cases ho : mode.case_pct = true
    · refine ⟨_, normParts_valid hm hms, resolve_norm_eq hbv hbs hrv ho, ?_⟩
      rw [resolve_norm_eq hbv' hbs' hrv' ho, mergeReference_map, normParts_map hm]
    · have : mode = .off := by cases mode <;> first | rfl | exact absurd rfl ho
      subst this
      have hm' := mapParts_valid hm
      cases hsp : samePath r with
      | true =>
        refine ⟨_, hm, ?_, ?_⟩
        · rw [resolve_off_eq hbv hbs hrv, transform_eq, hsp]
          simp only [if_true, escape_valid hm]
        · rw [resolve_off_eq hbv' hbs' hrv', transform_eq, samePath_map, hsp, mergeReference_map]
          simp only [if_true, escape_valid hm']
      | false =>
        refine ⟨_, normParts_valid (op := .off) hm hms, ?_, ?_⟩
        · rw [resolve_off_eq hbv hbs hrv, transform_eq, hsp, normParts_off]
          rfl
        · rw [resolve_off_eq hbv' hbs' hrv', transform_eq, samePath_map, hsp, mergeReference_map,
            ← normParts_map (S := S) hm, normParts_off]
          rfl
  obtain ⟨q, hq, e1, e2⟩ := key
  refine ⟨_, _, _, (C24_variants_agree _).1, (C24_variants_agree _).1, ?_, ?_, e1, ?_⟩
  · rw [← mapParts_recompose hbv]; exact validate_uri_of_parts hbv' hbs'
  · rw [← mapParts_recompose hrv]; exact validate_reference_of_parts hrv'
  · rw [(C24_variants_agree _).1, ← mapParts_recompose hbv, ← mapParts_recompose hrv, e2,
      mapParts_recompose hq]

/-- **C48**: `normalize` then `encode_to_uri` is `encode_to_uri` then `normalize`. -/
theorem C48_normalize_commutes (S : Spec) (s : Str) (h : validate_uri S s = some true) :
    ∃ u t, encode_to_uri s = some u ∧ validate_uri .uri u = some true ∧ normalize S s = some t ∧
      normalize .uri u = encode_to_uri t := by
  obtain ⟨p, hp, hs, rfl⟩ := iri_parts' h
  have hp' := mapParts_valid hp
  have hs' : (mapParts p).scheme ≠ none := hs
  refine ⟨_, _, (C24_variants_agree _).1, ?_, normalize_eq hp hs, ?_⟩
  · rw [← mapParts_recompose hp]; exact validate_uri_of_parts hp' hs'
  · rw [(C24_variants_agree _).1, ← mapParts_recompose hp, normalize_eq hp' hs', normParts_map hp,
      mapParts_recompose (normParts_valid hp hs)]

/-- **C48** for the variant that keeps authority-less relative paths. -/
theorem C48_normalize_preserve_commutes (S : Spec) (s : Str) (h : validate_uri S s = some true) :
    ∃ u t, encode_to_uri s = some u ∧ validate_uri .uri u = some true ∧
      normalize_but_preserve_authorityless_relative_path S s = some t ∧
      normalize_but_preserve_authorityless_relative_path .uri u = encode_to_uri t := by
  obtain ⟨p, hp, hs, rfl⟩ := iri_parts' h
  have hp' := mapParts_valid hp
  have hs' : (mapParts p).scheme ≠ none := hs
  refine ⟨_, _, (C24_variants_agree _).1, ?_, normalize_preserve_eq hp hs, ?_⟩
  · rw [← mapParts_recompose hp]; exact validate_uri_of_parts hp' hs'
  · rw [(C24_variants_agree _).1, ← mapParts_recompose hp, normalize_preserve_eq hp' hs',
      normParts_map hp, mapParts_recompose (normParts_valid hp hs)]

/-- **C48**: hence two IRIs with the same normal form are mapped to URIs with the same normal
form. -/
theorem C48_equivalence_preserved (S : Spec) (s s' : Str) (h : validate_uri S s = some true)
    (h' : validate_uri S s' = some true) (he : normalize S s = normalize S s') :
    ∃ u u', encode_to_uri s = some u ∧ encode_to_uri s' = some u' ∧
      normalize .uri u = normalize .uri u' := by
  obtain ⟨u, t, h1, _, h2, h3⟩ := C48_normalize_commutes S s h
  obtain ⟨u', t', h1', _, h2', h3'⟩ := C48_normalize_commutes S s' h'
  refine ⟨u, u', h1, h1', ?_⟩
  rw [h2, h2'] at he
  cases he
  rw [h3, h3']

/-- Concrete cases. -/
example : resolve .iri .default (chars! "http://É/a/é") (chars! "../%c3%a9%7E") =
      some (chars! "http://É/é~") ∧
    resolve .uri .default (chars! "http://%C3%89/a/%C3%A9") (chars! "../%c3%a9%7E") =
      some (chars! "http://%C3%89/%C3%A9~") ∧
    encode_to_uri (chars! "http://É/é~") = some (chars! "http://%C3%89/%C3%A9~") := by decide +kernel
example : normalize .iri (chars! "A://B/%c3%a9") = some (chars! "a://b/é") ∧
    normalize .uri (chars! "A://B/%c3%a9") = some (chars! "a://b/%C3%A9") := by decide +kernel

end Verif
