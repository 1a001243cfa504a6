import Verif.Lemmas.Equivalence
import Verif.Props.Normalize
import Verif.Props.Commute

/-!
# C49: normalized text is a canonical form

Two IRIs normalize to the same text exactly if they are equivalent in the sense of RFC 3986
section 6.2.2 (`Spec/Equivalence.lean`): normalization identifies everything the RFC calls
equivalent and nothing else.
-/

namespace Verif

open Rfc

theorem map_rel_iff {R : Str → Str → Prop} {f : Str → Str} {o o' : Option Str}
    (h : ∀ x y, o = some x → o' = some y → (R x y ↔ f x = f y)) :
    OptRel R o o' ↔ o.map f = o'.map f := by
  cases o with
  | none => cases o' <;> simp [OptRel]
  | some x =>
    cases o' with
    | none => simp [OptRel]
    | some y => simpa [OptRel] using h x y rfl rfl

theorem portn_iff {o o' : Option Str} : portn o = portn o' ↔ o.getD [] = o'.getD [] := by
  cases o <;> cases o' <;> simp [portn] <;> (repeat' split) <;> simp_all [eq_comm]

theorem authn_iff {S : Spec} {x y : Str} (hx : authority S x) (hy : authority S y) :
    AuthTextEquiv S x y ↔ authn S x = authn S y := by
  obtain ⟨a, ha, rfl⟩ := (authority_auth_parts S x).1 hx
  obtain ⟨b, hb, rfl⟩ := (authority_auth_parts S y).1 hy
  have key : AuthEquiv S a b ↔ a.norm S = b.norm S := by
    have h1 : OptRel (PctEquiv S) a.userinfo b.userinfo ↔
        a.userinfo.map (pctn S) = b.userinfo.map (pctn S) :=
      map_rel_iff fun x y hx hy => pctEquiv_iff ((userinfo_iff S _).1 (ha.userinfo x hx)).wf
        ((userinfo_iff S _).1 (hb.userinfo y hy)).wf
    have h2 := hostEquiv_iff (S := S) (host_wf ha.host) (host_wf hb.host)
    unfold AuthParts.norm
    rw [AuthParts.mk.injEq, portn_iff, ← h1, ← h2]
    exact ⟨fun h => ⟨h.1, h.2, h.3⟩, fun h => ⟨h.1, h.2.1, h.2.2⟩⟩
  constructor
  · rintro ⟨a', b', ⟨ha', ea⟩, ⟨hb', eb⟩, h⟩
    obtain rfl := auth_recompose_inj ha' ha ea
    obtain rfl := auth_recompose_inj hb' hb eb
    rw [authn_eq ha, authn_eq hb, key.1 h]
  · intro h
    rw [authn_eq ha, authn_eq hb] at h
    exact ⟨a, b, ⟨ha, rfl⟩, ⟨hb, rfl⟩, key.2 (auth_recompose_inj ha.norm hb.norm h)⟩

theorem equivalent_iff {S : Spec} {p q : Parts} (hp : p.Valid S) (hq : q.Valid S) :
    Equivalent S p q ↔ normParts S .default p = normParts S .default q := by
  have e1 : p.scheme.map (List.map lower) = q.scheme.map (List.map lower) ↔
      p.scheme.map (List.map toLower) = q.scheme.map (List.map toLower) := by rw [lower_eq]
  have e2 : OptRel (AuthTextEquiv S) p.authority q.authority ↔
      p.authority.map (authn S) = q.authority.map (authn S) :=
    map_rel_iff fun x y hx hy => authn_iff (hp.authority x hx) (hq.authority y hy)
  have e3 : OptRel (PctEquiv S) p.query q.query ↔ p.query.map (pctn S) = q.query.map (pctn S) :=
    map_rel_iff fun x y hx hy => pctEquiv_iff (query_wf hp hx) (query_wf hq hy)
  have e4 : OptRel (PctEquiv S) p.fragment q.fragment ↔
      p.fragment.map (pctn S) = q.fragment.map (pctn S) :=
    map_rel_iff fun x y hx hy => pctEquiv_iff (fragment_wf hp hx) (fragment_wf hq hy)
  have e5 := pctEquiv_iff (S := S) (rds_PC (by decide) hp.pathPC.wf) (rds_PC (by decide) hq.pathPC.wf)
  have w : ∀ x, wr S .default x = pctn S x := fun _ => rfl
  have hn : ∀ p : Parts, normParts S .default p = ⟨p.scheme.map (List.map toLower),
      p.authority.map (authn S), escapePath p.authority.isSome
        (pctn S (remove_dot_segments (undot p.path))), p.query.map (pctn S),
        p.fragment.map (pctn S)⟩ := fun _ => rfl
  rw [hn, hn, Parts.mk.injEq]
  constructor
  · intro h
    refine ⟨e1.1 h.scheme, e2.1 h.authority, ?_, e3.1 h.query, e4.1 h.fragment⟩
    have : p.authority.isSome = q.authority.isSome := by
      have := congrArg Option.isSome (e2.1 h.authority); simpa using this
    rw [this, e5.1 h.path]
  · rintro ⟨h1, h2, h3, h4, h5⟩
    refine ⟨e1.2 h1, e2.2 h2, e5.2 ?_, e3.2 h4, e4.2 h5⟩
    have : p.authority.isSome = q.authority.isSome := by
      have := congrArg Option.isSome h2; simpa using this
    rw [this] at h3
    exact escape_pctn_inj hp.pathPC.wf hq.pathPC.wf h3

/-- **C49**: two IRIs normalize to the same text if and only if they are equivalent under the
rules of RFC 3986 section 6.2.2. -/
theorem C49_canonical (S : Spec) (s s' : Str)
    (hs : validate_uri S s = some true) (hs' : validate_uri S s' = some true) :
    normalize S s = normalize S s' ↔ EquivalentText S s s' := by
  obtain ⟨p, hp, hps, rfl⟩ := iri_parts' hs
  obtain ⟨q, hq, hqs, rfl⟩ := iri_parts' hs'
  rw [normalize_eq hp hps, normalize_eq hq hqs, Option.some.injEq]
  constructor
  · intro h
    have := recompose_inj (normParts_valid (op := .default) hp hps).delim
      (normParts_valid (op := .default) hq hqs).delim h
    exact ⟨p, q, ⟨hp, rfl⟩, ⟨hq, rfl⟩, (equivalent_iff hp hq).2 this⟩
  · rintro ⟨p', q', ⟨hp', ep⟩, ⟨hq', eq⟩, h⟩
    obtain rfl := recompose_inj hp'.delim hp.delim ep
    obtain rfl := recompose_inj hq'.delim hq.delim eq
    rw [(equivalent_iff hp hq).1 h]

/-- Every IRI is equivalent to its normalized text. -/
theorem C49_equivalent_to_normal_form (S : Spec) (s : Str) (hs : validate_uri S s = some true) :
    ∃ t, normalize S s = some t ∧ validate_uri S t = some true ∧ EquivalentText S s t := by
  obtain ⟨p, hp, hps, rfl⟩ := iri_parts' hs
  have hv := normParts_valid (op := .default) hp hps
  have hvs := normParts_scheme (S := S) (op := .default) hps
  have ht := validate_uri_of_parts hv hvs
  refine ⟨_, normalize_eq hp hps, ht, ?_⟩
  rw [← C49_canonical S _ _ hs ht, normalize_eq hp hps, normalize_eq hv hvs,
    normParts_idem hp (by decide)]

/-- The host's letter case, an unreserved character's encoding, the case of hexadecimal digits, dot
segments and an empty port do not matter. -/
example : EquivalentText .iri (chars! "HTTP://user@Ex%41mple.COM:/a/./b/../%7ec?%e3%81%82#x")
    (chars! "http://user@example.com/a/~c?あ#%78") :=
  (C49_canonical .iri _ _ (by decide +kernel) (by decide +kernel)).1 (by decide +kernel)

example : EquivalentText .uri (chars! "a:/b/%2e%2E/c") (chars! "A:/c") :=
  (C49_canonical .uri _ _ (by decide +kernel) (by decide +kernel)).1 (by decide +kernel)

/-- The letter case of a path does matter, and so does an encoded reserved character. -/
example : ¬ EquivalentText .iri (chars! "http://example.com/A") (chars! "http://example.com/a") :=
  fun h => absurd ((C49_canonical .iri _ _ (by decide +kernel) (by decide +kernel)).2 h)
    (by decide +kernel)
example : ¬ EquivalentText .iri (chars! "http://example.com/%2F") (chars! "http://example.com//") :=
  fun h => absurd ((C49_canonical .iri _ _ (by decide +kernel) (by decide +kernel)).2 h)
    (by decide +kernel)

end Verif
