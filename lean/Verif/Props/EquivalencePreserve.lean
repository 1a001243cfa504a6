import Verif.Props.Equivalence
import Verif.Props.ResolveEquiv

/-!
# C49 for the normalization that keeps relative paths
-/

namespace Verif

open Rfc

theorem keeps_iff (p : Parts) : OpaquePath p ↔ (NormalizationMode.preserve = .preserve ∧
    p.authority.isSome = false ∧ p.path ≠ [] ∧ p.path.take 1 ≠ ['/']) := by
  unfold OpaquePath
  have h1 : p.authority = none ↔ p.authority.isSome = false := by cases p.authority <;> simp
  have h2 : (∀ r, p.path ≠ '/' :: r) ↔ p.path.take 1 ≠ ['/'] := by
    rw [Ne, take1_slash]
    exact ⟨fun h ⟨r, e⟩ => h r e, fun h r e => h ⟨r, e⟩⟩
  rw [h1, h2]
  simp

theorem pathn_preserve (S : Spec) (p : Parts) :
    (OpaquePath p → pathn S .preserve p.authority.isSome p.path = pctn S p.path) ∧
    (¬ OpaquePath p → pathn S .preserve p.authority.isSome p.path =
      escapePath p.authority.isSome (npath S p.path)) := by
  rw [keeps_iff]
  constructor
  · intro h; unfold pathn; rw [if_pos h]
  · intro h; unfold pathn; rw [if_neg h]; rfl

theorem normParts_preserve_mk (S : Spec) (p : Parts) : normParts S .preserve p = ⟨p.scheme.map (List.map toLower),
    p.authority.map (authn S), pathn S .preserve p.authority.isSome p.path, p.query.map (pctn S),
      p.fragment.map (pctn S)⟩ := rfl

/-- The normalized path says whether the path was kept. -/
theorem keeps_normal {S : Spec} {p : Parts} (h : p.Valid S) (hs : p.scheme ≠ none) :
    OpaquePath (normParts S .preserve p) ↔ OpaquePath p := by
  rw [normParts_preserve_mk]
  constructor
  · rintro ⟨h1, h2, h3⟩
    simp only [Option.map_eq_none_iff] at h1 h2 h3
    refine Classical.byContradiction fun hn => ?_
    rw [(pathn_preserve S p).2 hn, h1] at h2 h3
    have hc : p.path = [] ∨ ∃ t, p.path = '/' :: t := by
      refine Classical.byContradiction fun hc => hn ⟨h1, fun e => hc (.inl e), fun r e => hc (.inr ⟨r, e⟩)⟩
    rcases hc with e | ⟨t, e⟩
    · rw [e] at h2
      unfold npath at h2
      rw [rds_nil, pctn_nil] at h2
      exact h2 rfl
    · obtain ⟨u, hu⟩ := rds_slash_head t
      have w := rds_PC (p := fun _ => true) rfl h.pathPC.wf
      rw [e, hu] at w
      have : npath S p.path = '/' :: pctn S u := by
        unfold npath
        rw [e, hu, pctn_ch S (by decide) (wf_slash_split (d := []) w).2]
      rw [this] at h3
      unfold escapePath at h3
      split at h3 <;> exact h3 _ rfl
  · intro ho
    obtain ⟨h1, h2, h3⟩ := ho
    have hw := h.pathPC.wf
    refine ⟨by simp [h1], ?_, ?_⟩
    · show pathn S .preserve p.authority.isSome p.path ≠ []
      rw [(pathn_preserve S p).1 ⟨h1, h2, h3⟩]
      exact fun e => h2 ((pctn_empty S hw).1 e)
    · intro r
      show pathn S .preserve p.authority.isSome p.path ≠ _
      rw [(pathn_preserve S p).1 ⟨h1, h2, h3⟩]
      intro e
      obtain ⟨t, ht⟩ := pctn_head hw e
      exact h3 t ht

theorem equivalent_keeping_iff {S : Spec} {p q : Parts} (hp : p.Valid S) (hps : p.scheme ≠ none)
    (hq : q.Valid S) (hqs : q.scheme ≠ none) :
    EquivalentKeepingRelativePath S p q ↔ normParts S .preserve p = normParts S .preserve q := by
  have e1 : p.scheme.map (List.map lower) = q.scheme.map (List.map lower) ↔
      p.scheme.map (List.map toLower) = q.scheme.map (List.map toLower) := by rw [lower_eq]
  have e2 : OptRel (AuthTextEquiv S) p.authority q.authority ↔
      p.authority.map (authn S) = q.authority.map (authn S) :=
    map_rel_iff fun x y hx hy => authn_iff (hp.authority x hx) (hq.authority y hy)
  have e3 : OptRel (PctEquiv S) p.query q.query ↔ p.query.map (pctn S) = q.query.map (pctn S) :=
    map_rel_iff fun x y hx hy => pctEquiv_iff (query_wf hp hx) (query_wf hq hy)
  have e4 : OptRel (PctEquiv S) p.fragment q.fragment ↔
      p.fragment.map (pctn S) = q.fragment.map (pctn S) :=
    map_rel_iff fun x y hx hy => pctEquiv_iff (fragment_wf hp hx) (fragment_wf hq hy)
  have e5 := pctEquiv_iff (S := S) (rds_PC (by decide) hp.pathPC.wf) (rds_PC (by decide) hq.pathPC.wf)
  have e6 := pctEquiv_iff (S := S) hp.pathPC.wf hq.pathPC.wf
  constructor
  · intro h
    have ha : p.authority.isSome = q.authority.isSome := by
      have := congrArg Option.isSome (e2.1 h.authority); simpa using this
    rw [normParts_preserve_mk, normParts_preserve_mk, Parts.mk.injEq]
    refine ⟨e1.1 h.scheme, e2.1 h.authority, ?_, e3.1 h.query, e4.1 h.fragment⟩
    rcases h.path with ⟨h1, h2, h3⟩ | ⟨h1, h2, h3⟩
    · rw [(pathn_preserve S p).1 h1, (pathn_preserve S q).1 h2, e6.1 h3]
    · rw [(pathn_preserve S p).2 h1, (pathn_preserve S q).2 h2, ha]
      unfold npath
      rw [e5.1 h3]
  · intro h
    have hk : OpaquePath p ↔ OpaquePath q := by
      rw [← keeps_normal hp hps, h, keeps_normal hq hqs]
    rw [normParts_preserve_mk, normParts_preserve_mk, Parts.mk.injEq] at h
    obtain ⟨h1, h2, h3, h4, h5⟩ := h
    have ha : p.authority.isSome = q.authority.isSome := by
      have := congrArg Option.isSome h2; simpa using this
    refine ⟨e1.2 h1, e2.2 h2, ?_, e3.2 h4, e4.2 h5⟩
    by_cases ho : OpaquePath p
    · have ho' := hk.1 ho
      rw [(pathn_preserve S p).1 ho, (pathn_preserve S q).1 ho'] at h3
      exact .inl ⟨ho, ho', e6.2 h3⟩
    · have ho' : ¬ OpaquePath q := fun x => ho (hk.2 x)
      rw [(pathn_preserve S p).2 ho, (pathn_preserve S q).2 ho', ha] at h3
      exact .inr ⟨ho, ho', e5.2 (escape_pctn_inj hp.pathPC.wf hq.pathPC.wf h3)⟩

/-- **C49** for the normalization that keeps relative paths without an authority: two IRIs normalize to the
same text if and only if they are equivalent where dot segments of such paths are kept. -/
theorem C49_preserve_canonical (S : Spec) (s s' : Str)
    (hs : validate_uri S s = some true) (hs' : validate_uri S s' = some true) :
    normalize_but_preserve_authorityless_relative_path S s =
      normalize_but_preserve_authorityless_relative_path S s' ↔
    EquivalentTextKeepingRelativePath S s s' := by
  obtain ⟨p, hp, hps, rfl⟩ := iri_parts' hs
  obtain ⟨q, hq, hqs, rfl⟩ := iri_parts' hs'
  rw [normalize_preserve_eq hp hps, normalize_preserve_eq hq hqs, Option.some.injEq]
  constructor
  · intro h
    have := recompose_inj (normParts_valid (op := .preserve) hp hps).delim
      (normParts_valid (op := .preserve) hq hqs).delim h
    exact ⟨p, q, ⟨hp, rfl⟩, ⟨hq, rfl⟩, (equivalent_keeping_iff hp hps hq hqs).2 this⟩
  · rintro ⟨p', q', ⟨hp', ep⟩, ⟨hq', eq⟩, h⟩
    obtain rfl := recompose_inj hp'.delim hp.delim ep
    obtain rfl := recompose_inj hq'.delim hq.delim eq
    rw [(equivalent_keeping_iff hp hps hq hqs).1 h]

/-- **C49**: that normalization changes nothing that the other one keeps: normalizing its result is
normalizing the original; and the two agree unless the path is relative and there is no authority. -/
theorem C49_preserve_refines (S : Spec) (s : Str) (hs : validate_uri S s = some true) :
    ∃ t, normalize_but_preserve_authorityless_relative_path S s = some t ∧ normalize S t = normalize S s ∧
      (RiReferenceStr.authority_str s ≠ none ∨ RiReferenceStr.path_str s = [] ∨
        (∃ r, RiReferenceStr.path_str s = '/' :: r) → normalize S s = some t) := by
  obtain ⟨p, hp, hps, rfl⟩ := iri_parts' hs
  have hv := normParts_valid (op := .preserve) hp hps
  have hvs := normParts_scheme (S := S) (op := .preserve) hps
  refine ⟨_, normalize_preserve_eq hp hps, ?_, ?_⟩
  · by_cases ho : OpaquePath p
    · rw [normalize_eq hv hvs, normalize_eq hp hps, Option.some.injEq]
      congr 1
      rw [normParts_mk, normParts_mk, normParts_preserve_mk, (pathn_preserve S p).1 ho]
      have hi : ∀ o : Option Str, (∀ x, o = some x → WF x) → (o.map (pctn S)).map (pctn S) = o.map (pctn S) := by
        intro o ho
        cases o with
        | none => rfl
        | some x => simp [pctn_idem (ho x rfl)]
      simp only [hi p.query fun x hx => query_wf hp hx, hi p.fragment fun x hx => fragment_wf hp hx]
      congr 1
      · cases p.scheme with
        | none => rfl
        | some x => simp [Function.comp_def, toLower_idem]
      · cases ha : p.authority with
        | none => rfl
        | some x => simp [authn_idem (hp.authority x ha)]
      · unfold npath
        rw [pctn_rds (pctn_wf hp.pathPC.wf), pctn_idem hp.pathPC.wf, pctn_rds hp.pathPC.wf]
        simp
    · have : normParts S .preserve p = normParts S .default p := by
        rw [normParts_preserve_mk, normParts_mk, (pathn_preserve S p).2 ho]
      rw [this, normalize_eq hp hps, normalize_eq (normParts_valid hp hps) (normParts_scheme hps),
        normParts_idem hp (by decide)]
  · intro hc
    simp only [RiReferenceStr.authority_str, hp.delim.extract_authority_eq, RiReferenceStr.path_str,
      hp.delim.extract_path_eq] at hc
    have ho : ¬ OpaquePath p := by
      rintro ⟨h1, h2, h3⟩
      rcases hc with hc | hc | ⟨r, hc⟩
      · exact hc h1
      · exact h2 hc
      · exact h3 r hc
    rw [normalize_eq hp hps, normParts_mk, normParts_preserve_mk, (pathn_preserve S p).2 ho]

example : ¬ EquivalentTextKeepingRelativePath .uri (chars! "urn:a/../b") (chars! "urn:b") ∧
    EquivalentText .uri (chars! "urn:a/../b") (chars! "urn:/b") ∧
    EquivalentTextKeepingRelativePath .uri (chars! "urn:a/../%62") (chars! "URN:a/../b") :=
  ⟨fun h => absurd ((C49_preserve_canonical .uri _ _ (by decide +kernel) (by decide +kernel)).2 h)
    (by decide +kernel),
   (C49_canonical .uri _ _ (by decide +kernel) (by decide +kernel)).1 (by decide +kernel),
   (C49_preserve_canonical .uri _ _ (by decide +kernel) (by decide +kernel)).1 (by decide +kernel)⟩

end Verif
