import Verif.Lemmas.AuthDecomp
import Verif.Props.Validation

/-!
# C09-C13: component accessors and fragment editing

`Parts`, `Parts.recompose`, `Parts.Valid` and the same for `AuthParts` are in `Spec/Parts.lean`.
-/

namespace Verif

open Abnf Rfc

/-- A validated reference is the recomposition of grammatical components. -/
theorem reference_parts {S : Spec} {s : Str} (h : validate_uri_reference S s = some true) :
    ∃ p : Parts, p.Valid S ∧ p.recompose = s :=
  (IRI_reference_parts S s).1 (((C02_iri_reference_validation S s).1).1 h)

theorem iri_parts' {S : Spec} {s : Str} (h : validate_uri S s = some true) :
    ∃ p : Parts, p.Valid S ∧ p.scheme ≠ none ∧ p.recompose = s :=
  (IRI_parts S s).1 (((C01_iri_validation S s).1).1 h)

theorem relative_parts' {S : Spec} {s : Str} (h : validate_relative_ref S s = some true) :
    ∃ p : Parts, p.Valid S ∧ p.scheme = none ∧ p.recompose = s :=
  (relative_parts S s).1 (((C03_relative_ref_validation S s).1).1 h)

/-! ### Reference accessors on `Parts` -/

theorem Parts.Delim.extract_scheme_eq {p : Parts} (h : p.Delim) :
    extract_scheme p.recompose = p.scheme := by
  unfold extract_scheme; rw [h.scheme_colon_opt_eq]

theorem Parts.Delim.extract_authority_eq {p : Parts} (h : p.Delim) :
    extract_authority p.recompose = p.authority := by
  unfold extract_authority; rw [h.scheme_colon_opt_eq, h.slash_slash_eq]

theorem Parts.Delim.extract_path_eq {p : Parts} (h : p.Delim) :
    extract_path p.recompose = p.path := by
  unfold extract_path
  simp only [h.scheme_colon_opt_eq, h.slash_slash_eq, h.until_query_path]

theorem Parts.Delim.extract_query_eq {p : Parts} (h : p.Delim) :
    extract_query p.recompose = some p.query := by
  unfold extract_query; rw [h.until_query_all, h.decompose_qf]; rfl

theorem Parts.Delim.extract_fragment_eq {p : Parts} (h : p.Delim) :
    extract_fragment p.recompose = p.fragment := by
  unfold extract_fragment; rw [h.split_fragment_eq]

/-- **C09**: on every valid reference, the accessors `scheme_str`, `authority_str`, `path_str`,
`query_str`, `fragment_str` do not panic and the RFC 3986 5.3 recomposition of what they return is
the reference itself. -/
theorem C09_accessors_recompose (S : Spec) (s : Str) (h : validate_uri_reference S s = some true) :
    ∃ query : Option Str, RiReferenceStr.query_str s = some query ∧
      Parts.recompose { scheme := RiReferenceStr.scheme_str s
                        authority := RiReferenceStr.authority_str s
                        path := RiReferenceStr.path_str s
                        query := query
                        fragment := RiReferenceStr.fragment_str s } = s := by
  obtain ⟨p, hv, rfl⟩ := reference_parts h
  have d := hv.delim
  refine ⟨p.query, d.extract_query_eq, ?_⟩
  simp only [RiReferenceStr.scheme_str, RiReferenceStr.authority_str, RiReferenceStr.path_str,
    RiReferenceStr.fragment_str, d.extract_scheme_eq, d.extract_authority_eq, d.extract_path_eq,
    d.extract_fragment_eq]

/-- **C09** for the one-pass decomposition (`RiReferenceComponents::from(..).to_major()`). -/
theorem C09_components_recompose (S : Spec) (s : Str) (h : validate_uri_reference S s = some true) :
    ∃ m : Major, components_to_major s = some m ∧
      Parts.recompose ⟨m.scheme, m.authority, m.path, m.query, m.fragment⟩ = s := by
  obtain ⟨p, hv, rfl⟩ := reference_parts h
  exact ⟨p.toMajor, to_major_eq hv.delim, rfl⟩

/-- **C10**: on every valid reference the accessors return grammatical components, and every
grammatical way to cut the text into components is the one they return. -/
theorem C10_unique_components (S : Spec) (s : Str) (h : validate_uri_reference S s = some true) :
    ∃ p : Parts, (p.Valid S ∧ p.recompose = s) ∧
      (∀ q : Parts, q.Valid S → q.recompose = s → q = p) ∧
      RiReferenceStr.scheme_str s = p.scheme ∧
      RiReferenceStr.authority_str s = p.authority ∧
      RiReferenceStr.path_str s = p.path ∧
      RiReferenceStr.query_str s = some p.query ∧
      RiReferenceStr.fragment_str s = p.fragment ∧
      components_to_major s = some ⟨p.scheme, p.authority, p.path, p.query, p.fragment⟩ := by
  obtain ⟨p, hv, rfl⟩ := reference_parts h
  have d := hv.delim
  exact ⟨p, ⟨hv, rfl⟩, fun q hq e => recompose_inj hq.delim d e, d.extract_scheme_eq,
    d.extract_authority_eq, d.extract_path_eq, d.extract_query_eq, d.extract_fragment_eq,
    to_major_eq d⟩

/-- **C11** (`Splitter`): the lazily sliced accessors of `RiReferenceComponents` equal the fast
per-component extractors, on every valid reference. -/
theorem C11_splitter_agrees (S : Spec) (s : Str) (h : validate_uri_reference S s = some true) :
    ∃ sp : Splitter, decompose_iri_reference s = some sp ∧
      sp.scheme_str s = some (RiReferenceStr.scheme_str s) ∧
      sp.authority_str s = some (RiReferenceStr.authority_str s) ∧
      sp.path_str s = some (RiReferenceStr.path_str s) ∧
      sp.is_path_empty (blen s) = (RiReferenceStr.path_str s).isEmpty ∧
      sp.query_str s = RiReferenceStr.query_str s ∧
      sp.fragment_str s = some (RiReferenceStr.fragment_str s) := by
  obtain ⟨p, hv, rfl⟩ := reference_parts h
  have d := hv.delim
  refine ⟨p.splitter, decompose_eq d, ?_⟩
  simp only [RiReferenceStr.scheme_str, RiReferenceStr.authority_str, RiReferenceStr.path_str,
    RiReferenceStr.query_str,
    RiReferenceStr.fragment_str, d.extract_scheme_eq, d.extract_authority_eq, d.extract_path_eq,
    d.extract_fragment_eq, d.extract_query_eq]
  exact ⟨splitter_scheme_str p, splitter_authority_str p, splitter_path_str p,
    splitter_path_empty p, splitter_query_str p, splitter_fragment_str p⟩

/-- **C11** (`RiStr`): the accessors of an IRI agree with those of the reference type, and the
scheme is always there. -/
theorem C11_iri_accessors (S : Spec) (s : Str) (h : validate_uri S s = some true) :
    (∃ x, RiStr.scheme_str s = some x ∧ RiReferenceStr.scheme_str s = some x) ∧
    RiStr.authority_str s = some (RiReferenceStr.authority_str s) ∧
    RiStr.path_str s = some (RiReferenceStr.path_str s) ∧
    RiStr.query_str s = RiReferenceStr.query_str s ∧
    RiStr.fragment_str s = RiReferenceStr.fragment_str s := by
  obtain ⟨p, hv, hs, rfl⟩ := iri_parts' h
  have d := hv.delim
  obtain ⟨x, hx⟩ := Option.ne_none_iff_exists'.1 hs
  refine ⟨⟨x, ?_, ?_⟩, ?_, ?_, rfl, rfl⟩
  · simp [RiStr.scheme_str, extract_scheme_absolute, d.scheme_colon_eq hx]
  · exact d.extract_scheme_eq.trans hx
  · simp [RiStr.authority_str, extract_authority_absolute, d.scheme_colon_eq hx,
      RiReferenceStr.authority_str, d.extract_authority_eq, d.slash_slash_eq]
  · simp [RiStr.path_str, extract_path_absolute, d.scheme_colon_eq hx,
      RiReferenceStr.path_str, d.extract_path_eq, d.slash_slash_eq, d.until_query_path]

/-- **C11** (`RiRelativeStr`). -/
theorem C11_relative_accessors (S : Spec) (s : Str) (h : validate_relative_ref S s = some true) :
    RiReferenceStr.scheme_str s = none ∧
    RiRelativeStr.authority_str s = RiReferenceStr.authority_str s ∧
    RiRelativeStr.path_str s = RiReferenceStr.path_str s ∧
    RiRelativeStr.query_str s = RiReferenceStr.query_str s ∧
    RiRelativeStr.fragment_str s = RiReferenceStr.fragment_str s := by
  obtain ⟨p, hv, hs, rfl⟩ := relative_parts' h
  have d := hv.delim
  have e : p.recompose = p.tail := by rw [recompose_eq, hs]; rfl
  refine ⟨d.extract_scheme_eq.trans hs, ?_, ?_, rfl, rfl⟩
  · simp only [RiRelativeStr.authority_str, extract_authority_relative,
      RiReferenceStr.authority_str, d.extract_authority_eq]
    rw [e, d.slash_slash_eq]
  · simp only [RiRelativeStr.path_str, extract_path_relative,
      RiReferenceStr.path_str, d.extract_path_eq]
    rw [e, d.slash_slash_eq]
    simp only [d.until_query_path]

/-- **C11** (`RiAbsoluteStr`), partial: proved for absolute IRIs without `#`.  Missing: the absolute
IRIs ending in `#` that the validator wrongly accepts (C04); there `query_str` is wrong, see
`C11_absolute_query_refuted`. -/
theorem C11_absolute_accessors_partial (debug : Bool) (S : Spec) (s : Str) (h : validate_absolute_uri S s = some true)
    (hh : '#' ∉ s) :
    (∃ x, RiAbsoluteStr.scheme_str s = some x ∧ RiReferenceStr.scheme_str s = some x) ∧
    RiAbsoluteStr.authority_str s = some (RiReferenceStr.authority_str s) ∧
    RiAbsoluteStr.path_str s = some (RiReferenceStr.path_str s) ∧
    RiAbsoluteStr.query_str debug s = RiReferenceStr.query_str s ∧
    RiReferenceStr.fragment_str s = none := by
  have hI := (C07_upcasts S s).1 h
  obtain ⟨h1, h2, h3, _⟩ := C11_iri_accessors S s hI
  obtain ⟨p, hv, hs, hf, rfl⟩ := (absolute_parts S s).1
    (((C04_absolute_validation_no_hash_partial S s hh).1).1 h)
  have d := hv.delim
  refine ⟨h1, h2, h3, ?_, d.extract_fragment_eq.trans hf⟩
  simp only [RiAbsoluteStr.query_str, extract_query_absolute_iri, d.until_query_all,
    RiReferenceStr.query_str, d.extract_query_eq, hf]
  cases hq : p.query with
  | none => rfl
  | some q =>
    have := sliceFrom_one_ascii (c := '?') (by decide) q
    simp [qfStr, optSuf, this]

/-- The scheme, authority and path accessors are right on *every* validated absolute IRI. -/
theorem C11_absolute_accessors_always (S : Spec) (s : Str) (h : validate_absolute_uri S s = some true) :
    (∃ x, RiAbsoluteStr.scheme_str s = some x ∧ RiReferenceStr.scheme_str s = some x) ∧
    RiAbsoluteStr.authority_str s = some (RiReferenceStr.authority_str s) ∧
    RiAbsoluteStr.path_str s = some (RiReferenceStr.path_str s) := by
  obtain ⟨h1, h2, h3, _⟩ := C11_iri_accessors S s ((C07_upcasts S s).1 h)
  exact ⟨h1, h2, h3⟩

/-- **C11**, exactly what `RiAbsoluteStr::query_str` returns on the accepted absolute IRIs that end in
`#`: with a query, the query with `#` behind it; without one, it panics in a debug build and returns
the empty text in a release build. -/
theorem C11_absolute_query_exact (S : Spec) (t : Str) (h : absolute_IRI S t) :
    validate_absolute_uri S (t ++ ['#']) = some true ∧
    ∃ q : Option Str, RiReferenceStr.query_str (t ++ ['#']) = some q ∧
      (∀ x, q = some x → ∀ debug, RiAbsoluteStr.query_str debug (t ++ ['#']) = some (some (x ++ ['#']))) ∧
      (q = none → RiAbsoluteStr.query_str true (t ++ ['#']) = none ∧
        RiAbsoluteStr.query_str false (t ++ ['#']) = some (some [])) := by
  refine ⟨(C04_absolute_validation_partial S _).1.2 (.inr ⟨t, rfl, h⟩), ?_⟩
  obtain ⟨p, hv, hs, hf, rfl⟩ := (absolute_parts S t).1 h
  have e : p.recompose ++ ['#'] = Parts.recompose { p with fragment := some [] } := by
    obtain ⟨a, b, c, d, f⟩ := p
    simp only at hf
    subst hf
    simp [Parts.recompose, optSuf]
  have hv' : Parts.Valid S { p with fragment := some [] } :=
    { hv with fragment := by intro x hx; cases hx; exact star_nil _ }
  rw [e]
  have d := hv'.delim
  refine ⟨p.query, d.extract_query_eq, ?_⟩
  simp only [RiAbsoluteStr.query_str, extract_query_absolute_iri, d.until_query_all]
  refine ⟨fun q hq debug => ?_, fun hq => ?_⟩
  · have := sliceFrom_one_ascii (c := '?') (by decide) (q ++ ['#'])
    simp [qfStr, optSuf, this, hq]
  · have := sliceFrom_one_ascii (c := '#') (by decide) []
    simp [qfStr, optSuf, this, hq]

/-- **C11 is false of the code** for `RiAbsoluteStr::query_str`: on the accepted `s:?q#` the
query comes out as `q#`, on `s:#` as the empty query (with a panic in a debug build); the reference type says `q` and absent. -/
theorem C11_absolute_query_refuted :
    (validate_absolute_uri .uri (chars! "s:?q#") = some true ∧
      RiAbsoluteStr.query_str false (chars! "s:?q#") = some (some (chars! "q#")) ∧
      RiReferenceStr.query_str (chars! "s:?q#") = some (some (chars! "q"))) ∧
    (validate_absolute_uri .uri (chars! "s:#") = some true ∧
      RiAbsoluteStr.query_str false (chars! "s:#") = some (some []) ∧
      RiAbsoluteStr.query_str true (chars! "s:#") = none ∧
      RiReferenceStr.query_str (chars! "s:#") = some none) := by
  decide +kernel

/-! ### C12: authority components -/

/-- **C12**: on every valid authority, `userinfo()`, `host()`, `port()` do not panic, are
grammatical, reassemble to the authority, and are the only grammatical way to cut it. -/
theorem C12_authority_components (S : Spec) (s : Str) (h : validate_authority S s = true) :
    ∃ a : AuthParts, a.Valid S ∧ a.recompose = s ∧
      (∀ b : AuthParts, b.Valid S → b.recompose = s → b = a) ∧
      (decompose_authority s).userinfo = some a.userinfo ∧
      (decompose_authority s).host = some a.host ∧
      (decompose_authority s).port = some a.port := by
  obtain ⟨a, hv, rfl⟩ := (authority_auth_parts S s).1 ((C06_authority S s).1 h)
  rw [decompose_authority_eq hv]
  exact ⟨a, hv, rfl, fun b hb e => auth_recompose_inj hb hv e, offsets_userinfo a, offsets_host a,
    offsets_port a⟩

theorem ip_literal_bracket {s : Str} (h : IP_literal s) : ∃ r, s = '[' :: r := by
  obtain ⟨a, b, rfl, ha, hb⟩ := h
  exact ⟨b, by rw [ha]; rfl⟩

/-- `is_host_reg_name` on any host. -/
theorem is_host_reg_name_host {S : Spec} {h : Str} (hh : host S h) :
    is_host_reg_name h = true ↔ ¬ (IP_literal h ∨ IPv4address h) := by
  by_cases hl : IP_literal h
  · obtain ⟨r, rfl⟩ := ip_literal_bracket hl
    have : starts_with ('[' :: r) ['['] = true := starts_with_iff.2 ⟨r, rfl⟩
    simp [hl, is_host_reg_name, this]
  · have hr := ((host_iff' h).1 hh).resolve_left (by
      intro h'; exact hl ((ip_literal_iff h).2 h'))
    rw [is_host_reg_name_iff]
    · simp [hl]
    · rintro r rfl
      exact hr.not_mem (d := '[') (by decide) (by decide) (regnameC_bracket S) (by simp)

/-- **C12** (`reg_name()`): it returns the host exactly when the host is neither an IP literal nor an
IPv4 address. -/
theorem C12_reg_name (S : Spec) (a : AuthParts) (h : a.Valid S) :
    (decompose_authority a.recompose).reg_name =
      some (open Classical in if IP_literal a.host ∨ IPv4address a.host then none else some a.host) := by
  rw [decompose_authority_eq h]
  unfold AuthorityComponents.reg_name
  rw [offsets_host]
  have := is_host_reg_name_host h.host
  by_cases hc : IP_literal a.host ∨ IPv4address a.host
  · rw [if_pos hc]
    have : is_host_reg_name a.host = false := by
      cases e : is_host_reg_name a.host with
      | false => rfl
      | true => exact absurd hc (this.1 e)
    simp [this]
  · rw [if_neg hc]; simp [this.2 hc]

/-- **C12** through a reference: `authority_components()` on a valid reference is present iff an
authority is, and then has the components of that authority. -/
theorem C12_reference_authority (S : Spec) (s : Str) (h : validate_uri_reference S s = some true) :
    (RiReferenceStr.authority_str s = none → RiReferenceStr.authority_components s = none) ∧
    (∀ x, RiReferenceStr.authority_str s = some x → validate_authority S x = true ∧
      RiReferenceStr.authority_components s = some (decompose_authority x)) := by
  obtain ⟨p, hv, rfl⟩ := reference_parts h
  have d := hv.delim
  simp only [RiReferenceStr.authority_str, RiReferenceStr.authority_components,
    AuthorityComponents.from_iri, d.extract_authority_eq]
  refine ⟨fun e => by rw [e]; rfl, fun x hx => ⟨(C06_authority S x).2 (hv.authority x hx), by rw [hx]; rfl⟩⟩

/-! ### C13: fragment editing -/

theorem remove_fragment_eq (s : Str) : remove_fragment s = (split_fragment s).1 := by
  unfold remove_fragment split_fragment
  cases h : find_split_hole s '#' with
  | none =>
    have : find_split s '#' = none := find_split_none.2 (find_split_hole_none.1 h)
    rw [this]
  | some x =>
    obtain ⟨a, b⟩ := x
    obtain ⟨rfl, hn⟩ := find_split_hole_some.1 h
    rw [find_split_eq hn]

theorem split_fragment_recompose {p : Parts} (h : p.Delim) :
    (split_fragment p.recompose).1 ++ optSuf ['#'] p.fragment = p.recompose := by
  rw [h.split_fragment_eq]
  simp [recompose_eq, Parts.tail, qfStr]
  simp [optSuf]

theorem with_fragment_recompose (p : Parts) (f : Option Str) :
    ({ p with fragment := f } : Parts).recompose =
      ({ p with fragment := none } : Parts).recompose ++ optSuf ['#'] f := by
  simp [recompose_eq, Parts.tail, qfStr]
  simp [optSuf]

theorem Parts.Valid.setFragment {S : Spec} {p : Parts} (hv : p.Valid S) {f : Option Str}
    (hf : ∀ x, f = some x → Rfc.fragment S x) : ({ p with fragment := f } : Parts).Valid S :=
  ⟨hv.1, hv.2, hv.3, hv.4, hf, hv.6, hv.7, hv.8⟩

theorem set_fragment_parts {p : Parts} (h : p.Delim) (f : Option Str) :
    set_fragment p.recompose f = ({ p with fragment := f } : Parts).recompose := by
  rw [with_fragment_recompose p f]
  unfold set_fragment
  rw [remove_fragment_eq, h.split_fragment_eq]
  cases f with
  | none => simp [optSuf]
  | some f => simp [optSuf]

/-- **C13** (`set_fragment`): on a valid reference (or IRI, or relative reference), replacing or
removing the fragment keeps the string valid for its type, sets exactly the given fragment and
leaves the other four components as they were. -/
theorem C13_set_fragment (S : Spec) (s : Str) (f : Option Str)
    (hf : ∀ x, f = some x → validate_fragment S x = true)
    (h : validate_uri_reference S s = some true) :
    validate_uri_reference S (RiString.set_fragment s f) = some true ∧
    (validate_uri S s = some true → validate_uri S (RiString.set_fragment s f) = some true) ∧
    (validate_relative_ref S s = some true →
      validate_relative_ref S (RiString.set_fragment s f) = some true) ∧
    RiReferenceStr.fragment_str (RiString.set_fragment s f) = f ∧
    RiReferenceStr.scheme_str (RiString.set_fragment s f) = RiReferenceStr.scheme_str s ∧
    RiReferenceStr.authority_str (RiString.set_fragment s f) = RiReferenceStr.authority_str s ∧
    RiReferenceStr.path_str (RiString.set_fragment s f) = RiReferenceStr.path_str s ∧
    RiReferenceStr.query_str (RiString.set_fragment s f) = RiReferenceStr.query_str s := by
  obtain ⟨p, hv, rfl⟩ := reference_parts h
  have d := hv.delim
  have hv' : ({ p with fragment := f } : Parts).Valid S :=
    hv.setFragment fun x hx => (C05_fragment S x).1 (hf x hx)
  have d' := hv'.delim
  unfold RiString.set_fragment
  rw [set_fragment_parts d]
  refine ⟨?_, ?_, ?_, d'.extract_fragment_eq, ?_, ?_, ?_, ?_⟩
  · exact ((C02_iri_reference_validation S _).1).2 ((IRI_reference_parts S _).2 ⟨_, hv', rfl⟩)
  · intro hi
    obtain ⟨q, hq, hs, he⟩ := iri_parts' hi
    have := recompose_inj hq.delim d he
    subst this
    exact ((C01_iri_validation S _).1).2 ((IRI_parts S _).2 ⟨_, hv', hs, rfl⟩)
  · intro hi
    obtain ⟨q, hq, hs, he⟩ := relative_parts' hi
    have := recompose_inj hq.delim d he
    subst this
    exact ((C03_relative_ref_validation S _).1).2 ((relative_parts S _).2 ⟨_, hv', hs, rfl⟩)
  · exact d'.extract_scheme_eq.trans d.extract_scheme_eq.symm
  · exact d'.extract_authority_eq.trans d.extract_authority_eq.symm
  · exact d'.extract_path_eq.trans d.extract_path_eq.symm
  · exact d'.extract_query_eq.trans d.extract_query_eq.symm

/-- **C13** (`set_fragment` changes nothing before `#`): stated on the text itself, for every
text. -/
theorem C13_set_fragment_text (pre : Str) (old : Option Str) (f : Option Str) (h : '#' ∉ pre) :
    RiString.set_fragment (pre ++ optSuf ['#'] old) f = pre ++ optSuf ['#'] f := by
  have : remove_fragment (pre ++ optSuf ['#'] old) = pre := by
    unfold remove_fragment
    cases old with
    | none =>
      have : find_split (pre ++ optSuf ['#'] none) '#' = none := by
        simp [find_split_none, optSuf, h]
      rw [this]; simp [optSuf]
    | some o =>
      show (match find_split (pre ++ '#' :: o) '#' with | some (pre, _) => pre | none => _) = pre
      rw [find_split_eq h]
  unfold RiString.set_fragment set_fragment
  rw [this]
  cases f <;> simp [optSuf]

/-- **C13** (splitting): `to_absolute_and_fragment`, `into_absolute_and_fragment`, `to_absolute` and
`into_absolute` on a valid IRI do not panic, agree, return an absolute IRI (in the RFC sense, so
without `#`) and the IRI's fragment, and the two pieces put back together are the IRI. -/
theorem C13_split_fragment (S : Spec) (s : Str) (h : validate_uri S s = some true) :
    ∃ (a : Str) (f : Option Str),
      RiStr.to_absolute_and_fragment s = (a, f) ∧
      RiString.into_absolute_and_fragment s = some (a, f) ∧
      RiStr.to_absolute s = some a ∧
      RiString.into_absolute s = a ∧
      absolute_IRI S a ∧ validate_absolute_uri S a = some true ∧
      f = RiStr.fragment_str s ∧
      (∀ x, f = some x → validate_fragment S x = true) ∧
      a ++ optSuf ['#'] f = s := by
  obtain ⟨p, hv, hs, rfl⟩ := iri_parts' h
  have d := hv.delim
  have hv' : ({ p with fragment := none } : Parts).Valid S := hv.setFragment (by simp)
  have ha : absolute_IRI S ({ p with fragment := none } : Parts).recompose :=
    (absolute_parts S _).2 ⟨_, hv', hs, rfl, rfl⟩
  have he := with_fragment_recompose p p.fragment
  refine ⟨({ p with fragment := none } : Parts).recompose, p.fragment, d.split_fragment_eq, ?_, ?_, ?_,
    ha, ?_, d.extract_fragment_eq.symm, fun x hx => (C05_fragment S x).2 (hv.fragment x hx), he.symm⟩
  · unfold RiString.into_absolute_and_fragment split_fragment_owned
    rw [d.split_fragment_eq]
    cases hf : p.fragment with
    | none =>
      simp only
      obtain ⟨a, b, c, e, f⟩ := p
      simp only at hf; subst hf; rfl
    | some f =>
      have e1 : p.recompose = (({ p with fragment := none } : Parts).recompose ++ ['#']) ++ f := by
        have : p.recompose = ({ p with fragment := none } : Parts).recompose ++ optSuf ['#'] p.fragment := he
        rw [this, hf]; simp [optSuf]
      have e2 : splitAtB p.recompose (blen ({ p with fragment := none } : Parts).recompose + 1) =
          some (({ p with fragment := none } : Parts).recompose ++ ['#'], f) := by
        rw [e1]
        have := splitAtB_append (({ p with fragment := none } : Parts).recompose ++ ['#']) f
        have e1 : ('#').utf8Size = 1 := by decide
        simpa [blen_append, e1] using this
      simp only
      rw [e2]
      simp
  · unfold RiStr.to_absolute
    rw [d.split_fragment_eq]
    exact sliceTo_eq he rfl
  · unfold RiString.into_absolute
    rw [remove_fragment_eq, d.split_fragment_eq]
  · exact ((C04_absolute_validation_partial S _).1).2 (.inl ha)

/-- **C13** (`from_prefixed`): a query or fragment is accepted from prefixed text iff the text is
the delimiter followed by a grammatical query or fragment, and that is the value produced. -/
theorem C13_from_prefixed (S : Spec) (s x : Str) :
    (RiQueryStr.from_prefixed S s = some x ↔ s = '?' :: x ∧ query S x) ∧
    (RiFragmentStr.from_prefixed S s = some x ↔ s = '#' :: x ∧ fragment S x) := by
  constructor
  · rw [← C05_query]
    unfold RiQueryStr.from_prefixed
    split
    · next r =>
      by_cases h : validate_query S r = true
      · rw [if_pos h]
        constructor
        · intro e; cases e; exact ⟨rfl, h⟩
        · rintro ⟨e, _⟩; cases e; rfl
      · rw [if_neg h]
        constructor
        · intro e; cases e
        · rintro ⟨e, hx⟩; cases e; exact absurd hx h
    · next hn =>
      constructor
      · intro e; cases e
      · rintro ⟨e, _⟩; exact absurd e (hn x)
  · rw [← C05_fragment]
    unfold RiFragmentStr.from_prefixed
    split
    · next r =>
      by_cases h : validate_fragment S r = true
      · rw [if_pos h]
        constructor
        · intro e; cases e; exact ⟨rfl, h⟩
        · rintro ⟨e, _⟩; cases e; rfl
      · rw [if_neg h]
        constructor
        · intro e; cases e
        · rintro ⟨e, hx⟩; cases e; exact absurd hx h
    · next hn =>
      constructor
      · intro e; cases e
      · rintro ⟨e, _⟩; exact absurd e (hn x)

/-! ### Concrete cases meeting the hypotheses -/

example : validate_uri_reference .iri (chars! "http://é@h:8/p?q#f") = some true ∧
    components_to_major (chars! "http://é@h:8/p?q#f") =
      some ⟨some (chars! "http"), some (chars! "é@h:8"), chars! "/p", some (chars! "q"), some (chars! "f")⟩ := by
  decide +kernel
example : validate_relative_ref .uri (chars! "//h/p?#") = some true ∧
    RiRelativeStr.authority_str (chars! "//h/p?#") = some ['h'] := by decide +kernel
example : validate_absolute_uri .uri (chars! "s:/a?b") = some true ∧ '#' ∉ (chars! "s:/a?b") := by
  decide +kernel
example : validate_authority .uri (chars! "u:p@[::1]:80") = true ∧
    (decompose_authority (chars! "u:p@[::1]:80")).host = some (chars! "[::1]") := by decide +kernel
example : validate_uri .uri (chars! "s:/a?b#f") = some true ∧
    RiString.into_absolute_and_fragment (chars! "s:/a?b#f") = some (chars! "s:/a?b", some ['f']) ∧
    RiString.set_fragment (chars! "s:/a?b#f") (some (chars! "xy")) = (chars! "s:/a?b#xy") := by
  decide +kernel
example : (⟨some (chars! "u"), chars! "h", some (chars! "1")⟩ : AuthParts).Valid .uri :=
  ⟨by intro x hx; cases hx; exact (C05_userinfo _ _).1 (by decide), (C06_host _ _).1 (by decide),
   by intro x hx; cases hx; exact (C05_port _).1 (by decide)⟩

end Verif
