import Verif.Lemmas.Valid
import Verif.Model.Types
import Verif.Spec.Lit

/-!
# C01-C08: validation is exactly the RFC grammar

`Rfc.*` is the transcription of RFC 3986/3987 in `Spec/Grammar.lean`.  A validator returns
`some true` for `Ok`, `some false` for `Err`, `none` for a panic, so stating both directions
also states that it never panics.
-/

namespace Verif

open Abnf Rfc

/-- **C01**: `validate::iri` (`RiStr::new`) accepts exactly the `IRI` / `URI` rule and never
panics. -/
theorem C01_iri_validation (S : Spec) (s : Str) :
    (validate_uri S s = some true ↔ IRI S s) ∧ (validate_uri S s = some false ↔ ¬ IRI S s) := by
  obtain ⟨b, h1, h2⟩ := common_valid S s .Absolute
  have e : b = true ↔ IRI S s := by
    rw [h2, IRI_parts]
    constructor
    · rintro ⟨p, a, b, _, c⟩
      exact ⟨p, a, fun h => by simpa [UriReferenceRule.is_relative_allowed] using b h, c⟩
    · rintro ⟨p, a, b, c⟩; exact ⟨p, a, fun h => absurd h b, by simp [FragOK, UriReferenceRule.is_fragment_allowed], c⟩
  unfold validate_uri
  rw [h1, ← e]
  cases b <;> simp

/-- **C02**: `validate::iri_reference` accepts exactly `IRI-reference`. -/
theorem C02_iri_reference_validation (S : Spec) (s : Str) :
    (validate_uri_reference S s = some true ↔ IRI_reference S s) ∧
    (validate_uri_reference S s = some false ↔ ¬ IRI_reference S s) := by
  obtain ⟨b, h1, h2⟩ := common_valid S s .Any
  have e : b = true ↔ IRI_reference S s := by
    rw [h2, IRI_reference_parts]
    constructor
    · rintro ⟨p, a, _, _, c⟩; exact ⟨p, a, c⟩
    · rintro ⟨p, a, c⟩; exact ⟨p, a, fun _ => rfl, by simp [FragOK, UriReferenceRule.is_fragment_allowed], c⟩
  unfold validate_uri_reference
  rw [h1, ← e]
  cases b <;> simp

/-- **C03**: `validate::relative_ref` accepts exactly `irelative-ref`. -/
theorem C03_relative_ref_validation (S : Spec) (s : Str) :
    (validate_relative_ref S s = some true ↔ relative_ref S s) ∧
    (validate_relative_ref S s = some false ↔ ¬ relative_ref S s) := by
  obtain ⟨b, h1, h2⟩ := relative_ref_valid S s
  rw [h1, relative_parts, ← h2]
  cases b <;> simp

theorem absolute_valid (S : Spec) (s : Str) : ∃ b, validate_absolute_uri S s = some b ∧
    (b = true ↔ (absolute_IRI S s ∨ ∃ t, s = t ++ ['#'] ∧ absolute_IRI S t)) := by
  obtain ⟨b, h1, h2⟩ := common_valid S s .AbsoluteWithoutFragment
  refine ⟨b, h1, ?_⟩
  rw [h2]
  constructor
  · rintro ⟨p, hv, h3, h4, he⟩
    have hs : p.scheme ≠ none := fun h => by simpa [UriReferenceRule.is_relative_allowed] using h3 h
    rcases h4 rfl with hf | hf
    · exact .inl ((absolute_parts S s).2 ⟨p, hv, hs, hf, he⟩)
    · refine .inr ⟨({ p with fragment := none } : Parts).recompose, ?_, (absolute_parts S _).2
        ⟨{ p with fragment := none }, ⟨hv.1, hv.2, hv.3, hv.4, by simp, hv.6, hv.7, hv.8⟩, hs, rfl, rfl⟩⟩
      rw [← he, recompose_eq, recompose_eq, Parts.tail, Parts.tail, hf]
      simp [qfStr, optSuf]
  · rintro (h | ⟨t, rfl, h⟩)
    · obtain ⟨p, hv, hs, hf, he⟩ := (absolute_parts S s).1 h
      exact ⟨p, hv, fun h => absurd h hs, fun _ => .inl hf, he⟩
    · obtain ⟨p, hv, hs, hf, he⟩ := (absolute_parts S t).1 h
      refine ⟨{ p with fragment := some [] }, ⟨hv.1, hv.2, hv.3, hv.4, ?_, hv.6, hv.7, hv.8⟩,
        fun h => absurd h hs, fun _ => .inr rfl, ?_⟩
      · intro x hx; cases hx; exact fragment_nil S
      · rw [← he, recompose_eq, recompose_eq, Parts.tail, Parts.tail, hf]
        simp [qfStr, optSuf]

/-- **C04**, partial: what `validate::absolute_iri` really accepts is `absolute-IRI`, optionally
followed by an *empty* fragment `#`.  Missing from the full property: the second alternative
should be rejected (see `C04_refuted`). -/
theorem C04_absolute_validation_partial (S : Spec) (s : Str) :
    (validate_absolute_uri S s = some true ↔
      absolute_IRI S s ∨ ∃ t, s = t ++ ['#'] ∧ absolute_IRI S t) ∧
    (validate_absolute_uri S s = some false ↔
      ¬ (absolute_IRI S s ∨ ∃ t, s = t ++ ['#'] ∧ absolute_IRI S t)) := by
  obtain ⟨b, h1, h2⟩ := absolute_valid S s
  rw [h1, ← h2]
  cases b <;> simp

/-- No `absolute-IRI` contains `#`. -/
theorem absolute_IRI_no_hash {S : Spec} {s : Str} (h : absolute_IRI S s) : '#' ∉ s := by
  obtain ⟨p, hv, hs, hf, rfl⟩ := (absolute_parts S s).1 h
  have := hv.delim.split_fragment_eq
  unfold split_fragment at this
  intro hm
  cases hh : find_split_hole p.recompose '#' with
  | none => exact find_split_hole_none.1 hh hm
  | some x =>
    rw [hh, hf] at this
    simp at this

/-- **C04** for text without `#`: the validator is exactly the RFC rule. -/
theorem C04_absolute_validation_no_hash_partial (S : Spec) (s : Str) (h : '#' ∉ s) :
    (validate_absolute_uri S s = some true ↔ absolute_IRI S s) ∧
    (validate_absolute_uri S s = some false ↔ ¬ absolute_IRI S s) := by
  have := C04_absolute_validation_partial S s
  have hn : ¬ ∃ t, s = t ++ ['#'] ∧ absolute_IRI S t := by
    rintro ⟨t, rfl, _⟩; simp at h
  simpa [hn] using this

/-- **C04 is false of the code**: `http://a#` is accepted as an absolute IRI although no
`absolute-IRI` contains `#`. -/
theorem C04_refuted : ∃ s, validate_absolute_uri .uri s = some true ∧ ¬ absolute_IRI .uri s :=
  ⟨(chars! "http://a#"), by decide +kernel, fun h => absolute_IRI_no_hash h (by decide +kernel)⟩

/-! ### C05: component validators -/

/-- **C05** (scheme). -/
theorem C05_scheme (s : Str) : validate_scheme s = true ↔ scheme s := (scheme_iff s).symm

/-- **C05** (userinfo). -/
theorem C05_userinfo (S : Spec) (s : Str) : validate_userinfo S s = true ↔ userinfo S s :=
  (validate_userinfo_iff S s).symm

theorem is_decimal_eq (s : Str) : is_decimal_repr_of_octet s = is_dec_octet s := rfl

/-- `is_host_reg_name` on a text without brackets decides "not an IPv4 address". -/
theorem is_host_reg_name_iff {h : Str} (hb : ∀ r, h ≠ '[' :: r) :
    is_host_reg_name h = true ↔ ¬ IPv4address h := by
  have hs : starts_with h ['['] = false := by
    cases e : starts_with h ['['] with
    | false => rfl
    | true => obtain ⟨r, e⟩ := starts_with_iff.1 e; exact absurd e (hb r)
  rw [ipv4_iff]
  unfold is_host_reg_name
  rw [hs]
  simp only [Bool.false_eq_true, if_false]
  by_cases hl : 7 ≤ blen h ∧ blen h ≤ 15
  · have : (!(decide (7 ≤ blen h) && decide (blen h ≤ 15))) = false := by simp [hl]
    rw [this]
    simp only [Bool.false_eq_true, if_false]
    unfold validate_ipv4address
    cases find_split_hole h '.' with
    | none => simp
    | some x =>
      simp only
      cases find_split_hole x.2 '.' with
      | none => simp
      | some y =>
        simp only
        cases find_split_hole y.2 '.' with
        | none => simp
        | some z =>
          simp only [List.all_cons, List.all_nil, is_decimal_eq]
          cases is_dec_octet x.1 <;> cases is_dec_octet y.1 <;> cases is_dec_octet z.1 <;>
            cases is_dec_octet z.2 <;> simp
  · have : (!(decide (7 ≤ blen h) && decide (blen h ≤ 15))) = true := by
      simp only [Bool.not_eq_true', Bool.and_eq_false_iff, decide_eq_false_iff_not]; omega
    rw [this]
    simp only [if_true, true_iff]
    intro hv
    have h4 := ipv4_chars hv
    have : blen h = h.length := blen_ascii fun c hc => by
      rcases h4.1 c hc with h | h
      · exact isHex_ascii (isDigit_isHex h)
      · subst h; decide
    omega

/-- **C05** (reg-name): the documented rule, `reg-name` excluding IPv4 addresses. -/
theorem C05_reg_name (S : Spec) (s : Str) :
    validate_reg_name S s = true ↔ reg_name S s ∧ ¬ IPv4address s := by
  unfold validate_reg_name
  rw [Bool.and_eq_true, satisfy_iff, cls_regname, reg_name_iff]
  constructor
  · rintro ⟨h1, h2⟩
    refine ⟨h1, (is_host_reg_name_iff ?_).1 h2⟩
    rintro r rfl
    exact h1.not_mem (d := '[') (by decide) (by decide) (regnameC_bracket S) (by simp)
  · rintro ⟨h1, h2⟩
    refine ⟨h1, (is_host_reg_name_iff ?_).2 h2⟩
    rintro r rfl
    exact h1.not_mem (d := '[') (by decide) (by decide) (regnameC_bracket S) (by simp)

/-- **C05** (port). -/
theorem C05_port (s : Str) : validate_port s = true ↔ port s := (port_iff s).symm

/-- **C05** (path). -/
theorem C05_path (S : Spec) (s : Str) : validate_path S s = true ↔ path S s := by
  unfold validate_path; rw [satisfy_path_iff, path_iff]

/-- **C05** (path segment). -/
theorem C05_path_segment (S : Spec) (s : Str) : validate_path_segment S s = true ↔ segment S s := by
  unfold validate_path_segment; rw [satisfy_iff, cls_pchar, segment_iff]

/-- **C05** (query). -/
theorem C05_query (S : Spec) (s : Str) : validate_query S s = true ↔ query S s :=
  validate_query_iff S s

/-- **C05** (fragment). -/
theorem C05_fragment (S : Spec) (s : Str) : validate_fragment S s = true ↔ fragment S s :=
  validate_fragment_iff S s

/-! ### C06: host and authority -/

/-- **C06** (host), including the nine-alternative `IPv6address` rule. -/
theorem C06_host (S : Spec) (s : Str) : validate_host S s = true ↔ host S s := (host_iff S s).symm

/-- **C06** (authority). -/
theorem C06_authority (S : Spec) (s : Str) : validate_authority S s = true ↔ authority S s :=
  (authority_iff S s).symm

/-- **C06** (IPv6 literal on its own). -/
theorem C06_ipv6 (s : Str) : validate_ipv6address s = true ↔ IPv6address s := (ipv6_iff s).symm

/-- **C06** (IPv4 on its own). -/
theorem C06_ipv4 (s : Str) : validate_ipv4address s = true ↔ IPv4address s := (ipv4_iff s).symm

/-! ### C07: the type hierarchy -/

theorem iunreserved_mono {c : Char} (h : iunreserved .uri c = true) : iunreserved .iri c = true := by
  simp [iunreserved] at h ⊢; exact .inl h

theorem pcharC_mono {c : Char} (h : pcharC .uri c = true) : pcharC .iri c = true := by
  simp only [pcharC, Bool.or_eq_true] at h ⊢
  rcases h with ((h | h) | h) | h
  · simp [iunreserved_mono h]
  · simp [h]
  · simp [h]
  · simp [h]

theorem host_mono {s : Str} (h : host .uri s) : host .iri s := by
  rw [host_iff'] at h ⊢
  rcases h with h | h
  · exact .inl h
  · refine .inr (h.mono fun c hc => ?_)
    simp only [regnameC, Bool.or_eq_true] at hc ⊢
    rcases hc with h | h
    · simp [iunreserved_mono h]
    · simp [h]

theorem userinfo_mono {s : Str} (h : userinfo .uri s) : userinfo .iri s := by
  rw [userinfo_iff] at h ⊢
  refine h.mono fun c hc => ?_
  simp only [userinfoC, Bool.or_eq_true] at hc ⊢
  rcases hc with (h | h) | h
  · simp [iunreserved_mono h]
  · simp [h]
  · simp [h]

theorem authority_mono {s : Str} (h : authority .uri s) : authority .iri s := by
  rw [authority_grammar] at h ⊢
  obtain ⟨u, h, p, rfl, hu, hh, hp⟩ := h
  exact ⟨u, h, p, rfl, fun x hx => userinfo_mono (hu x hx), host_mono hh, hp⟩

theorem path_mono {s : Str} (h : path .uri s) : path .iri s := by
  rw [path_iff] at h ⊢
  refine h.mono fun c hc => ?_
  simp only [pcharSlashC, Bool.or_eq_true] at hc ⊢
  rcases hc with h | h
  · exact .inl (pcharC_mono h)
  · exact .inr h

theorem query_mono {s : Str} (h : query .uri s) : query .iri s := by
  rw [query_iff] at h ⊢
  refine h.mono fun c hc => ?_
  simp only [queryC, Bool.or_eq_true] at hc ⊢
  rcases hc with ((h | h) | h) | h
  · simp [pcharC_mono h]
  · simp [h]
  · simp [h]
  · simp [queryPrivate] at h

theorem fragment_mono {s : Str} (h : fragment .uri s) : fragment .iri s := by
  rw [fragment_iff] at h ⊢
  refine h.mono fun c hc => ?_
  simp only [fragC, Bool.or_eq_true] at hc ⊢
  rcases hc with (h | h) | h
  · simp [pcharC_mono h]
  · simp [h]
  · simp [h]

theorem Parts.Valid.mono {p : Parts} (h : p.Valid .uri) : p.Valid .iri where
  scheme := h.scheme
  authority := fun x hx => authority_mono (h.authority x hx)
  path := path_mono h.path
  query := fun x hx => query_mono (h.query x hx)
  fragment := fun x hx => fragment_mono (h.fragment x hx)
  withAuthority := h.withAuthority
  withoutAuthority := h.withoutAuthority
  withoutScheme := h.withoutScheme

/-- **C07** (upcasts inside one spec): absolute ⊆ IRI ⊆ reference, relative ⊆ reference. -/
theorem C07_upcasts (S : Spec) (s : Str) :
    (validate_absolute_uri S s = some true → validate_uri S s = some true) ∧
    (validate_uri S s = some true → validate_uri_reference S s = some true) ∧
    (validate_relative_ref S s = some true → validate_uri_reference S s = some true) := by
  refine ⟨?_, ?_, ?_⟩
  · intro h
    rw [(C04_absolute_validation_partial S s).1] at h
    rw [(C01_iri_validation S s).1, IRI_parts]
    rcases h with h | ⟨t, rfl, h⟩
    · obtain ⟨p, a, b, _, c⟩ := (absolute_parts S s).1 h; exact ⟨p, a, b, c⟩
    · obtain ⟨p, hv, b, hf, rfl⟩ := (absolute_parts S t).1 h
      refine ⟨{ p with fragment := some [] }, ⟨hv.1, hv.2, hv.3, hv.4, ?_, hv.6, hv.7, hv.8⟩, b, ?_⟩
      · intro x hx; cases hx; exact fragment_nil S
      · rw [recompose_eq, recompose_eq, Parts.tail, Parts.tail, hf]; simp [qfStr, optSuf]
  · intro h
    rw [(C01_iri_validation S s).1] at h
    exact ((C02_iri_reference_validation S s).1).2 (.inl h)
  · intro h
    rw [(C03_relative_ref_validation S s).1] at h
    exact ((C02_iri_reference_validation S s).1).2 (.inr h)

/-- **C07** (URI types into IRI types): each validator accepts under `IriSpec` whatever it accepts
under `UriSpec`, for all six string types. -/
theorem C07_uri_is_iri (s : Str) :
    (validate_uri .uri s = some true → validate_uri .iri s = some true) ∧
    (validate_uri_reference .uri s = some true → validate_uri_reference .iri s = some true) ∧
    (validate_relative_ref .uri s = some true → validate_relative_ref .iri s = some true) ∧
    (validate_absolute_uri .uri s = some true → validate_absolute_uri .iri s = some true) ∧
    (validate_query .uri s = true → validate_query .iri s = true) ∧
    (validate_fragment .uri s = true → validate_fragment .iri s = true) := by
  have habs : ∀ t, absolute_IRI .uri t → absolute_IRI .iri t := by
    intro t h
    obtain ⟨p, hv, b, hf, rfl⟩ := (absolute_parts _ t).1 h
    exact (absolute_parts _ _).2 ⟨p, hv.mono, b, hf, rfl⟩
  refine ⟨?_, ?_, ?_, ?_, ?_, ?_⟩
  · rw [(C01_iri_validation _ s).1, (C01_iri_validation _ s).1, IRI_parts, IRI_parts]
    rintro ⟨p, hv, h⟩; exact ⟨p, hv.mono, h⟩
  · rw [(C02_iri_reference_validation _ s).1, (C02_iri_reference_validation _ s).1,
      IRI_reference_parts, IRI_reference_parts]
    rintro ⟨p, hv, h⟩; exact ⟨p, hv.mono, h⟩
  · rw [(C03_relative_ref_validation _ s).1, (C03_relative_ref_validation _ s).1,
      relative_parts, relative_parts]
    rintro ⟨p, hv, h⟩; exact ⟨p, hv.mono, h⟩
  · rw [(C04_absolute_validation_partial _ s).1, (C04_absolute_validation_partial _ s).1]
    rintro (h | ⟨t, rfl, h⟩)
    · exact .inl (habs _ h)
    · exact .inr ⟨t, rfl, habs _ h⟩
  · rw [validate_query_iff, validate_query_iff]; exact query_mono
  · rw [validate_fragment_iff, validate_fragment_iff]; exact fragment_mono

/-! ### C08: reference = IRI or relative reference, exclusively -/

/-- **C08** (exclusivity): no text is both an IRI and a relative reference. -/
theorem C08_exclusive (S : Spec) (s : Str) : ¬ (IRI S s ∧ relative_ref S s) := by
  rintro ⟨h1, h2⟩
  obtain ⟨p, hp, hs, he⟩ := (IRI_parts S s).1 h1
  obtain ⟨q, hq, hs', he'⟩ := (relative_parts S s).1 h2
  have := recompose_inj hp.delim hq.delim (he.trans he'.symm)
  subst this; exact hs hs'

/-- **C08** (`to_iri`, `to_relative_iri`): on a valid reference, `to_iri` returns `Ok` with the same
text iff the text is an IRI, and otherwise `Err` with the same text, which is then a valid
relative reference; `to_relative_iri` is the mirror image. -/
theorem C08_to_iri (S : Spec) (s : Str) (h : validate_uri_reference S s = some true) :
    (IRI S s → RiReferenceStr.to_iri s = .inl s ∧ RiReferenceStr.to_relative_iri s = .inr s) ∧
    (¬ IRI S s → RiReferenceStr.to_iri s = .inr s ∧ RiReferenceStr.to_relative_iri s = .inl s ∧
      relative_ref S s) := by
  rw [(C02_iri_reference_validation S s).1, IRI_reference_parts] at h
  obtain ⟨p, hv, rfl⟩ := h
  have hsc : extract_scheme p.recompose = p.scheme := by
    unfold extract_scheme; rw [hv.delim.scheme_colon_opt_eq]
  cases hs : p.scheme with
  | some x =>
    have hI : IRI S p.recompose := (IRI_parts S _).2 ⟨p, hv, by simp [hs], rfl⟩
    simp [RiReferenceStr.to_relative_iri, RiReferenceStr.to_iri, hsc, hs, hI]
  | none =>
    have hR : relative_ref S p.recompose := (relative_parts S _).2 ⟨p, hv, hs, rfl⟩
    have hI : ¬ IRI S p.recompose := fun h => C08_exclusive S _ ⟨h, hR⟩
    simp [RiReferenceStr.to_relative_iri, RiReferenceStr.to_iri, hsc, hs, hI, hR]

/-! ### Non-vacuity and sanity checks (concrete cases, not proofs of the properties) -/

example : validate_uri .uri (chars! "http://user:pw@[2001:db8::192.0.2.1]:80/a/%7Eb;c?q=1#frag") = some true := by
  decide +kernel
example : IRI .uri (chars! "http://user:pw@[2001:db8::192.0.2.1]:80/a/%7Eb;c?q=1#frag") :=
  ((C01_iri_validation _ _).1).1 (by decide +kernel)
example : ¬ IRI .uri (chars! "http://[1:2:3:4:5:6:7:8:9]/") :=
  ((C01_iri_validation _ _).2).1 (by decide +kernel)
example : relative_ref .iri (chars! "../é?x#y") := ((C03_relative_ref_validation _ _).1).1 (by decide +kernel)
example : ¬ relative_ref .iri (chars! "a:b") := ((C03_relative_ref_validation _ _).2).1 (by decide +kernel)
example : validate_uri_reference .uri (chars! "//h/p") = some true := by decide +kernel
example : reg_name .uri (chars! "a.example") ∧ ¬ IPv4address (chars! "a.example") :=
  (C05_reg_name _ _).1 (by decide +kernel)
example : IPv6address (chars! "::") ∧ ¬ IPv6address (chars! ":::") :=
  ⟨(C06_ipv6 _).1 (by decide +kernel), fun h => by have := (C06_ipv6 _).2 h; revert this; decide +kernel⟩

end Verif
