import Verif.Lemmas.Resolve
import Verif.Props.Components

/-!
# C14-C16 (resolution): reference resolution is RFC 3986 section 5.2

`Rfc.transform`, `Rfc.remove_dot_segments`, `Rfc.escapePath` are in `Spec/Resolve.lean`.  A base is any
text that `RiStr` accepts (this includes everything `RiAbsoluteStr` accepts, C07).
-/

namespace Verif

open Rfc

theorem validate_uri_of_parts {S : Spec} {p : Parts} (h : p.Valid S) (hs : p.scheme ≠ none) :
    validate_uri S p.recompose = some true :=
  ((C01_iri_validation S _).1).2 ((IRI_parts S _).2 ⟨p, h, hs, rfl⟩)

theorem validate_reference_of_parts {S : Spec} {p : Parts} (h : p.Valid S) :
    validate_uri_reference S p.recompose = some true :=
  ((C02_iri_reference_validation S _).1).2 ((IRI_reference_parts S _).2 ⟨p, h, rfl⟩)

/-- **C14**: for every valid base and every valid reference, resolution does not panic and
displays the recomposition of the RFC 3986 5.2.2 target (with the `/.` escape where the target
would otherwise start with `//` without an authority). -/
theorem C14_resolve (S : Spec) (base ref : Str) (hb : validate_uri S base = some true)
    (hr : validate_uri_reference S ref = some true) :
    ∃ b r : Parts, (b.Valid S ∧ b.recompose = base) ∧ (r.Valid S ∧ r.recompose = ref) ∧
      resolve S .off base ref = some (Parts.recompose { transform b r with
        path := escapePath (transform b r).authority.isSome (transform b r).path }) := by
  obtain ⟨b, hbv, hbs, rfl⟩ := iri_parts' hb
  obtain ⟨r, hrv, rfl⟩ := reference_parts hr
  exact ⟨b, r, ⟨hbv, rfl⟩, ⟨hrv, rfl⟩, resolve_off_eq hbv hbs hrv⟩

/-- **C14** for a base of type `RiAbsoluteStr`, the type that the API asks for. -/
theorem C14_resolve_absolute_base (S : Spec) (base ref : Str)
    (hb : validate_absolute_uri S base = some true)
    (hr : validate_uri_reference S ref = some true) :
    ∃ b r : Parts, (b.Valid S ∧ b.recompose = base) ∧ (r.Valid S ∧ r.recompose = ref) ∧
      resolve S .off base ref = some (Parts.recompose { transform b r with
        path := escapePath (transform b r).authority.isSome (transform b r).path }) :=
  C14_resolve S base ref ((C07_upcasts S base).1 hb) hr

/-- **C14** in the normalizing modes (`and_normalize`): the result is the normal form of the
merged, not yet dot-removed reference. -/
theorem C14_resolve_and_normalize (S : Spec) (base ref : Str) (preserve : Bool)
    (hb : validate_uri S base = some true)
    (hr : validate_uri_reference S ref = some true) :
    ∃ b r q : Parts, (b.Valid S ∧ b.recompose = base) ∧ (r.Valid S ∧ r.recompose = ref) ∧
      Normal S preserve (mergeReference b r) q ∧
      resolve S (if preserve then .preserve else .default) base ref = some q.recompose := by
  obtain ⟨b, hbv, hbs, rfl⟩ := iri_parts' hb
  obtain ⟨r, hrv, rfl⟩ := reference_parts hr
  have hm := (merge_valid hbv hbs hrv).1
  cases preserve with
  | false => exact ⟨b, r, _, ⟨hbv, rfl⟩, ⟨hrv, rfl⟩, normParts_spec hm (op := .default) rfl,
      resolve_norm_eq hbv hbs hrv rfl⟩
  | true => exact ⟨b, r, _, ⟨hbv, rfl⟩, ⟨hrv, rfl⟩, normParts_spec hm (op := .preserve) rfl,
      resolve_norm_eq hbv hbs hrv rfl⟩

/-- `Rfc.undot` only concerns percent-encoded dots: without `%` it is the identity, so that
`Rfc.transform` is RFC 3986 5.2.2 to the letter. -/
theorem C14_undot_without_percent (s : Str) (h : '%' ∉ s) : undot s = s := by
  obtain ⟨hok, ht⟩ := pathSegs_spec s
  have hu := undot_pathText hok
  rw [ht] at hu
  rw [hu]
  have : undotSegs (pathSegs s) = pathSegs s := by
    unfold undotSegs
    refine Eq.trans (List.map_congr_left ?_) (List.map_id _)
    intro g hg
    have hn : '%' ∉ g.2 := by
      intro hc
      apply h
      rw [← ht]
      obtain ⟨L1, L2, e⟩ := List.append_of_mem hg
      rw [e, pathText_append, pathText_cons, segText]
      simp [hc]
    have e : undotSegment g.2 = g.2 := by
      unfold undotSegment pctDecode
      rw [tokens_no_pct hn]
      have hb : (List.map Tok.ch g.2).flatMap Tok.bytes = utf8s g.2 := by
        generalize g.2 = n
        induction n with
        | nil => rfl
        | cons c n ih => simp [List.flatMap_cons, ih, Tok.bytes, utf8s]
      rw [hb]
      split
      · rename_i h1; exact utf8s_inj (a := ['.']) (by rw [h1]; decide +kernel)
      · split
        · rename_i h1; exact utf8s_inj (a := ['.', '.']) (by rw [h1]; decide +kernel)
        · rfl
    exact Prod.ext rfl e
  rw [this, ht]

/-- The components displayed by `resolve`. -/
theorem resolve_parts {S : Spec} {b r : Parts} (hb : b.Valid S) (hs : b.scheme ≠ none)
    (hr : r.Valid S) (mode : NormalizationMode) :
    ∃ q : Parts, q.Valid S ∧ q.scheme ≠ none ∧ resolve S mode b.recompose r.recompose =
        some q.recompose ∧
      q.fragment = r.fragment.map (wr S mode) ∧
      q.scheme = (if r.scheme.isSome then r.scheme else b.scheme).map
        (if mode.case_pct then List.map toLower else id) := by
  obtain ⟨hm, hms⟩ := merge_valid hb hs hr
  have hf : (mergeReference b r).fragment = r.fragment := by
    unfold mergeReference
    split
    · rfl
    · split
      · rfl
      · split <;> rfl
  have hsc : (mergeReference b r).scheme = if r.scheme.isSome then r.scheme else b.scheme := by
    unfold mergeReference
    split
    · rfl
    · split
      · rfl
      · split <;> rfl
  have hscn : (normParts S mode (mergeReference b r)).scheme =
      (if r.scheme.isSome then r.scheme else b.scheme).map
        (if mode.case_pct then List.map toLower else id) := by
    unfold normParts
    simp only [hsc]
    split
    · rfl
    · simp
  have hfn : (normParts S mode (mergeReference b r)).fragment = r.fragment.map (wr S mode) := by
    unfold normParts; simp only [hf]
  by_cases ho : mode.case_pct = true
  · exact ⟨_, normParts_valid hm hms, normParts_scheme hms, resolve_norm_eq hb hs hr ho, hfn, hscn⟩
  · have : mode = .off := by cases mode <;> first | rfl | exact absurd rfl ho
    subst this
    have hw : wr S .off = id := by funext s; rfl
    obtain ⟨x, np, hx, hin, h1, h2⟩ := resolution_input hb hs hr
    unfold resolve
    rw [hin, Option.bind_some]
    simp only [NormalizationInput.withMode]
    cases h : samePath r with
    | true =>
      rw [h1 h]
      refine ⟨_, hm, hms, display_done_off hm hx, ?_, ?_⟩
      · rw [hf, hw]; simp
      · rw [hsc]; simp [NormalizationMode.case_pct]
    | false =>
      obtain ⟨q, rfl, hi, ht⟩ := h2 h
      exact ⟨_, normParts_valid hm hms, normParts_scheme hms, display_needs hm hx hi ht, hfn, hscn⟩

/-- **C15**: resolution of a valid reference against a valid base, in every mode, displays a valid
IRI/URI of the same spec. -/
theorem C15_resolve_valid (S : Spec) (mode : NormalizationMode) (base ref : Str)
    (hb : validate_uri S base = some true) (hr : validate_uri_reference S ref = some true) :
    ∃ t, resolve S mode base ref = some t ∧ validate_uri S t = some true := by
  obtain ⟨b, hbv, hbs, rfl⟩ := iri_parts' hb
  obtain ⟨r, hrv, rfl⟩ := reference_parts hr
  obtain ⟨q, hq, hqs, e, _⟩ := resolve_parts hbv hbs hrv mode
  exact ⟨_, e, validate_uri_of_parts hq hqs⟩

/-- **C15**: plain resolution keeps the base's scheme unless the reference has one, and carries
exactly the reference's fragment. -/
theorem C15_scheme_and_fragment (S : Spec) (base ref : Str) (hb : validate_uri S base = some true)
    (hr : validate_uri_reference S ref = some true) :
    ∃ t, resolve S .off base ref = some t ∧
      RiReferenceStr.fragment_str t = RiReferenceStr.fragment_str ref ∧
      RiReferenceStr.scheme_str t =
        (match RiReferenceStr.scheme_str ref with
          | some x => some x
          | none => RiReferenceStr.scheme_str base) := by
  obtain ⟨b, hbv, hbs, rfl⟩ := iri_parts' hb
  obtain ⟨r, hrv, rfl⟩ := reference_parts hr
  obtain ⟨q, hq, hqs, e, hf, hsc⟩ := resolve_parts hbv hbs hrv .off
  refine ⟨_, e, ?_, ?_⟩
  · simp only [RiReferenceStr.fragment_str, hq.delim.extract_fragment_eq,
      hrv.delim.extract_fragment_eq, hf]
    have hw : wr S .off = id := by funext s; rfl
    rw [hw]; simp
  · simp only [RiReferenceStr.scheme_str, hq.delim.extract_scheme_eq,
      hrv.delim.extract_scheme_eq, hbv.delim.extract_scheme_eq, hsc]
    cases r.scheme <;> simp [NormalizationMode.case_pct]

/-- **C15**: resolution of a text that is itself an IRI ignores the base. -/
theorem C15_absolute_reference (S : Spec) (base base' ref : Str)
    (hb : validate_uri S base = some true) (hb' : validate_uri S base' = some true)
    (hr : validate_uri S ref = some true) :
    resolve S .off base ref = resolve S .off base' ref := by
  obtain ⟨b, hbv, hbs, rfl⟩ := iri_parts' hb
  obtain ⟨b', hbv', hbs', rfl⟩ := iri_parts' hb'
  obtain ⟨r, hrv, hrs, rfl⟩ := iri_parts' hr
  rw [resolve_off_eq hbv hbs hrv, resolve_off_eq hbv' hbs' hrv]
  have : r.scheme.isSome = true := by
    cases h : r.scheme with
    | none => exact absurd h hrs
    | some x => rfl
  simp [transform, this]

/-- A segment that is not read as a dot segment. -/
def NotDot (s : Str) : Prop := pctDecode s ≠ [0x2E] ∧ pctDecode s ≠ [0x2E, 0x2E]

theorem notDot_iff (g : PSeg) : isDots g = false ↔ NotDot g.2 := by
  have h1 := from_segment_dot g.2
  have h2 := from_segment_dotdot g.2
  unfold NotDot
  constructor
  · intro h
    simp [isDots] at h
    exact ⟨fun e => (by rw [h1.2 e] at h; cases h), fun e => (by rw [h2.2 e] at h; cases h)⟩
  · rintro ⟨ha, hb⟩
    simp only [isDots]
    cases hk : SegmentKind.from_segment g.2 with
    | dot => exact absurd (h1.1 hk) ha
    | dotDot => exact absurd (h2.1 hk) hb
    | normal => rfl

theorem notDot_nil : NotDot [] := by constructor <;> decide +kernel

/-- Segments of a path as split at slashes. -/
theorem splitSlash_pathSegs {L : List PSeg} (hok : OKSegs L) {n : Str}
    (hn : n ∈ splitSlash (pathText L)) : n = [] ∨ ∃ g ∈ L, g.2 = n := by
  match L with
  | [] => left; simpa [pathText_nil, splitSlash] using hn
  | (true, m) :: L =>
    have hal : AllSlash ((true, m) :: L) := by
      intro g hg
      rcases List.mem_cons.1 hg with rfl | hg
      · exact ⟨rfl, hok.1⟩
      · exact hok.2.2 g hg
    have := splitSlash_pathText hal (a := []) (by simp)
    rw [List.nil_append] at this
    rw [this] at hn
    rcases List.mem_cons.1 hn with h | h
    · exact .inl h
    · right
      obtain ⟨g, hg, e⟩ := List.mem_map.1 h
      exact ⟨g, hg, e⟩
  | (false, m) :: L =>
    have := splitSlash_pathText hok.2.2 (a := m) hok.1
    rw [pathText_cons, segText] at hn
    simp only [Bool.false_eq_true, if_false, List.nil_append] at hn
    rw [this] at hn
    right
    rcases List.mem_cons.1 hn with h | h
    · exact ⟨(false, m), by simp, h.symm⟩
    · obtain ⟨g, hg, e⟩ := List.mem_map.1 h
      exact ⟨g, by simp [hg], e⟩

/-- **C16** (about the RFC algorithm, which C14 and C17 identify with the code's): no segment of the
result of dot-segment removal is a dot segment, however it is spelled. -/
theorem C16_no_dot_segments (s : Str) :
    ∀ n ∈ splitSlash (remove_dot_segments (undot s)), NotDot n := by
  intro n hn
  rw [rds_eq] at hn
  rcases splitSlash_pathSegs (rdsSegs_ok s) hn with rfl | ⟨g, hg, rfl⟩
  · exact notDot_nil
  · exact (notDot_iff g).1 (rdsSegs_mem g hg)

/-- **C16**: a path without dot segments is unchanged. -/
theorem C16_no_dots_unchanged (s : Str) (h : ∀ n ∈ splitSlash s, NotDot n) :
    remove_dot_segments (undot s) = s := by
  obtain ⟨hok, ht⟩ := pathSegs_spec s
  have : ∀ g ∈ pathSegs s, isDots g = false := by
    intro g hg
    apply (notDot_iff g).2
    apply h
    generalize hL : pathSegs s = L at *
    rw [← ht]
    match L with
    | (true, m) :: L =>
      have hal : AllSlash ((true, m) :: L) := by
        intro g hg
        rcases List.mem_cons.1 hg with rfl | hg
        · exact ⟨rfl, hok.1⟩
        · exact hok.2.2 g hg
      have := splitSlash_pathText hal (a := []) (by simp)
      rw [List.nil_append] at this
      rw [this]
      exact List.mem_cons_of_mem _ (List.mem_map.2 ⟨g, hg, rfl⟩)
    | (false, m) :: L =>
      have := splitSlash_pathText hok.2.2 (a := m) hok.1
      rw [pathText_cons, segText]
      simp only [Bool.false_eq_true, if_false, List.nil_append]
      rw [this]
      rcases List.mem_cons.1 hg with rfl | hg
      · simp
      · exact List.mem_cons_of_mem _ (List.mem_map.2 ⟨g, hg, rfl⟩)
  have e := rds_normal hok this
  rwa [ht] at e

/-- **C16**: plain resolution of a reference that is not same-document removes all dot
segments of the target path; the only dot segment that can occur is the `/.` escape. -/
theorem C16_resolve_path (S : Spec) (base ref : Str) (hb : validate_uri S base = some true)
    (hr : validate_uri_reference S ref = some true)
    (hne : RiReferenceStr.scheme_str ref ≠ none ∨ RiReferenceStr.authority_str ref ≠ none ∨
      RiReferenceStr.path_str ref ≠ []) :
    ∃ t, resolve S .off base ref = some t ∧
      ((∀ n ∈ splitSlash (RiReferenceStr.path_str t), NotDot n) ∨
        (RiReferenceStr.authority_str t = none ∧
          ∃ rest, RiReferenceStr.path_str t = '/' :: '.' :: '/' :: '/' :: rest ∧
            ∀ n ∈ splitSlash rest, NotDot n)) := by
  obtain ⟨b, hbv, hbs, rfl⟩ := iri_parts' hb
  obtain ⟨r, hrv, rfl⟩ := reference_parts hr
  have hsp : samePath r = false := by
    simp only [RiReferenceStr.scheme_str, hrv.delim.extract_scheme_eq,
      RiReferenceStr.authority_str, hrv.delim.extract_authority_eq, RiReferenceStr.path_str,
      hrv.delim.extract_path_eq] at hne
    unfold samePath
    rcases hne with h | h | h
    · cases h' : r.scheme with
      | none => exact absurd h' h
      | some x => simp
    · cases h' : r.authority with
      | none => exact absurd h' h
      | some x => simp
    · have : r.path.isEmpty = false := by simpa using h
      simp [this]
  obtain ⟨hm, hms⟩ := merge_valid hbv hbs hrv
  obtain ⟨x, np, hx, hin, _, h2⟩ := resolution_input hbv hbs hrv
  obtain ⟨q, rfl, hi, ht⟩ := h2 hsp
  have e : resolve S .off b.recompose r.recompose =
      some (normParts S .off (mergeReference b r)).recompose := by
    unfold resolve
    rw [hin, Option.bind_some]
    exact display_needs hm hx hi ht
  have hv := (normParts_valid (op := .off) hm hms).delim
  refine ⟨_, e, ?_⟩
  simp only [RiReferenceStr.path_str, RiReferenceStr.authority_str, hv.extract_path_eq,
    hv.extract_authority_eq]
  rw [normParts_off]
  simp only
  have hnd := C16_no_dot_segments (mergeReference b r).path
  generalize remove_dot_segments (undot (mergeReference b r).path) = y at hnd
  unfold escapePath
  split
  · rename_i hesc
    right
    simp only [Bool.and_eq_true, Bool.not_eq_true', Option.isSome_eq_false_iff,
      Option.isNone_iff_eq_none] at hesc
    obtain ⟨rest, rfl⟩ := take2_slash.1 hesc.2
    refine ⟨hesc.1, rest, rfl, ?_⟩
    intro n hn
    apply hnd
    rw [splitSlash_slash, splitSlash_slash]
    simp [hn]
  · exact .inl hnd

/-! ### The hypotheses are met: concrete cases (RFC 3986 section 5.4) -/

example : validate_absolute_uri .uri (chars! "http://a/b/c/d;p?q") = some true ∧
    validate_uri_reference .uri (chars! "../../../g") = some true ∧
    resolve .uri .off (chars! "http://a/b/c/d;p?q") (chars! "../../../g") = some (chars! "http://a/g") := by
  decide +kernel
example : resolve .uri .off (chars! "http://a/b/c/d;p?q") (chars! "?y") =
    some (chars! "http://a/b/c/d;p?y") := by decide +kernel
example : resolve .uri .off (chars! "foo:/a") (chars! ".//b") = some (chars! "foo:/.//b") := by decide +kernel
example : RiReferenceStr.path_str (chars! "../g") ≠ [] := by decide +kernel
example : '%' ∉ chars! "/a/../b" ∧ undot (chars! "/a/%2e%2E/b") = chars! "/a/../b" := by decide +kernel
example : ∀ n ∈ splitSlash (chars! "/a/b"), NotDot n := by
  intro n hn
  have : splitSlash (chars! "/a/b") = [[], ['a'], ['b']] := by decide +kernel
  rw [this] at hn
  simp at hn
  rcases hn with rfl | rfl | rfl <;> constructor <;> decide +kernel

end Verif
