import Verif.Lemmas.ResolveLaws
import Verif.Props.Resolve

/-!
# C46: algebraic laws of reference resolution

What a caller of `resolve_against` relies on without thinking of the RFC's algorithm: which parts
of the base matter for which kind of reference, what the short references (empty, `#f`, `?q`) give,
and that resolving is done once and for all.  `List.takeWhile` cuts a text at a delimiter.
-/

namespace Verif

open Rfc

theorem resolve_congr {S : Spec} {b b' r : Parts} (hb : b.Valid S) (hs : b.scheme ≠ none)
    (hb' : b'.Valid S) (hs' : b'.scheme ≠ none) (hr : r.Valid S)
    (h : mergeReference b r = mergeReference b' r) (mode : NormalizationMode) :
    resolve S mode b.recompose r.recompose = resolve S mode b'.recompose r.recompose := by
  cases mode with
  | off => rw [resolve_off_eq hb hs hr, resolve_off_eq hb' hs' hr, transform_congr h]
  | default => rw [resolve_norm_eq hb hs hr rfl, resolve_norm_eq hb' hs' hr rfl, h]
  | preserve => rw [resolve_norm_eq hb hs hr rfl, resolve_norm_eq hb' hs' hr rfl, h]

/-- **C46**: the empty reference names the base without its fragment (RFC 3986 section 4.4). -/
theorem C46_empty_reference (S : Spec) (base : Str) (hb : validate_uri S base = some true) :
    resolve S .off base [] = some (base.takeWhile (· != '#')) := by
  obtain ⟨b, hbv, hbs, rfl⟩ := iri_parts' hb
  have hr : (⟨none, none, [], none, none⟩ : Parts).Valid S :=
    ⟨by simp, by simp, path_iff.2 .nil, by simp, by simp, by simp, by simp,
      fun _ _ h => by obtain ⟨a, b, h, _⟩ := h; cases a <;> cases h⟩
  have := resolve_off_eq hbv hbs hr
  simp only [transform, Option.isSome_none, Bool.false_eq_true, if_false, List.isEmpty_nil,
    if_true] at this
  rw [show (⟨none, none, [], none, none⟩ : Parts).recompose = [] from rfl] at this
  rw [this, cut_fragment hbv.delim, escape_valid hbv]

/-- **C46**: a fragment-only reference replaces the fragment of the base. -/
theorem C46_fragment_reference (S : Spec) (base f : Str) (hb : validate_uri S base = some true)
    (hf : validate_fragment S f = true) :
    resolve S .off base ('#' :: f) = some (base.takeWhile (· != '#') ++ '#' :: f) := by
  obtain ⟨b, hbv, hbs, rfl⟩ := iri_parts' hb
  have hr : (⟨none, none, [], none, some f⟩ : Parts).Valid S :=
    ⟨by simp, by simp, path_iff.2 .nil, by simp, by
        intro x hx; cases hx; exact (C05_fragment S f).1 hf, by simp, by simp,
      fun _ _ h => by obtain ⟨a, b, h, _⟩ := h; cases a <;> cases h⟩
  have := resolve_off_eq hbv hbs hr
  simp only [transform, Option.isSome_none, Bool.false_eq_true, if_false, List.isEmpty_nil,
    if_true] at this
  rw [show (⟨none, none, [], none, some f⟩ : Parts).recompose = '#' :: f from rfl] at this
  rw [this, cut_fragment hbv.delim, escape_valid hbv]
  simp [Parts.recompose, optSuf]

/-- **C46**: a reference that starts with a query replaces query and fragment of the base. -/
theorem C46_query_reference (S : Spec) (base q : Str) (f : Option Str)
    (hb : validate_uri S base = some true) (hq : validate_query S q = true)
    (hf : ∀ x, f = some x → validate_fragment S x = true) :
    resolve S .off base ('?' :: q ++ optSuf ['#'] f) =
      some (base.takeWhile (fun c => c != '?' && c != '#') ++ ('?' :: q ++ optSuf ['#'] f)) := by
  obtain ⟨b, hbv, hbs, rfl⟩ := iri_parts' hb
  have hr : (⟨none, none, [], some q, f⟩ : Parts).Valid S :=
    ⟨by simp, by simp, path_iff.2 .nil, by
        intro x hx; cases hx; exact (C05_query S q).1 hq, by
        intro x hx; exact (C05_fragment S x).1 (hf x hx), by simp, by simp,
      fun _ _ h => by obtain ⟨a, b, h, _⟩ := h; cases a <;> cases h⟩
  have := resolve_off_eq hbv hbs hr
  simp only [transform, Option.isSome_none, Bool.false_eq_true, if_false, List.isEmpty_nil,
    if_true, Option.isSome_some] at this
  rw [show (⟨none, none, [], some q, f⟩ : Parts).recompose = '?' :: q ++ optSuf ['#'] f from rfl]
    at this
  rw [this, cut_query hbv.delim, escape_valid hbv]
  simp [Parts.recompose, optSuf]

/-- **C46**: the fragment of the base never matters, in any mode. -/
theorem C46_base_fragment_ignored (S : Spec) (mode : NormalizationMode) (base ref : Str)
    (hb : validate_uri S base = some true) (hr : validate_uri_reference S ref = some true) :
    validate_uri S (base.takeWhile (· != '#')) = some true ∧
      resolve S mode base ref = resolve S mode (base.takeWhile (· != '#')) ref := by
  obtain ⟨b, hbv, hbs, rfl⟩ := iri_parts' hb
  obtain ⟨r, hrv, rfl⟩ := reference_parts hr
  rw [cut_fragment hbv.delim]
  have hv := valid_drop_fragment hbv
  refine ⟨validate_uri_of_parts hv hbs, resolve_congr hbv hbs hv hbs hrv ?_ mode⟩
  exact mergeReference_congr rfl (fun _ _ => rfl) (fun _ _ _ => rfl) (fun _ _ _ _ => rfl)
    (fun _ _ _ _ => rfl)

/-- **C46**: the query of the base matters only for the empty and the fragment-only reference. -/
theorem C46_base_query_ignored (S : Spec) (mode : NormalizationMode) (base ref : Str)
    (hb : validate_uri S base = some true) (hr : validate_uri_reference S ref = some true)
    (hne : ref ≠ []) (hnf : ∀ t, ref ≠ '#' :: t) :
    validate_uri S (base.takeWhile (fun c => c != '?' && c != '#')) = some true ∧
      resolve S mode base ref =
        resolve S mode (base.takeWhile (fun c => c != '?' && c != '#')) ref := by
  obtain ⟨b, hbv, hbs, rfl⟩ := iri_parts' hb
  obtain ⟨r, hrv, rfl⟩ := reference_parts hr
  rw [cut_query hbv.delim]
  have hv := valid_drop_query hbv
  refine ⟨validate_uri_of_parts hv hbs, resolve_congr hbv hbs hv hbs hrv ?_ mode⟩
  refine mergeReference_congr rfl (fun _ _ => rfl) (fun _ _ _ => rfl) ?_ (fun _ _ _ _ => rfl)
  intro h1 h2 h3 h4
  exfalso
  cases hf : r.fragment with
  | none => apply hne; simp [Parts.recompose, h1, h2, h3, h4, hf, optPre, optSuf]
  | some f => apply hnf f; simp [Parts.recompose, h1, h2, h3, h4, hf, optPre, optSuf]

/-- **C46**: for a reference with an authority only the scheme of the base matters, in any mode. -/
theorem C46_network_path_reference (S : Spec) (mode : NormalizationMode) (base base' ref : Str)
    (hb : validate_uri S base = some true) (hb' : validate_uri S base' = some true)
    (hr : validate_uri_reference S ref = some true)
    (ha : RiReferenceStr.authority_str ref ≠ none)
    (hsch : RiReferenceStr.scheme_str base = RiReferenceStr.scheme_str base') :
    resolve S mode base ref = resolve S mode base' ref := by
  obtain ⟨b, hbv, hbs, rfl⟩ := iri_parts' hb
  obtain ⟨b', hbv', hbs', rfl⟩ := iri_parts' hb'
  obtain ⟨r, hrv, rfl⟩ := reference_parts hr
  simp only [RiReferenceStr.authority_str, hrv.delim.extract_authority_eq] at ha
  simp only [RiReferenceStr.scheme_str, hbv.delim.extract_scheme_eq,
    hbv'.delim.extract_scheme_eq] at hsch
  refine resolve_congr hbv hbs hbv' hbs' hrv ?_ mode
  exact mergeReference_congr hsch (fun _ h => absurd h ha) (fun _ h => absurd h ha)
    (fun _ h => absurd h ha) (fun _ h => absurd h ha)

/-- **C46**: for a reference whose path starts with a slash only scheme and authority of the base
matter, in any mode. -/
theorem C46_absolute_path_reference (S : Spec) (mode : NormalizationMode) (base base' ref : Str)
    (hb : validate_uri S base = some true) (hb' : validate_uri S base' = some true)
    (hr : validate_uri_reference S ref = some true)
    (hp : ∃ t, RiReferenceStr.path_str ref = '/' :: t)
    (hsch : RiReferenceStr.scheme_str base = RiReferenceStr.scheme_str base')
    (hau : RiReferenceStr.authority_str base = RiReferenceStr.authority_str base') :
    resolve S mode base ref = resolve S mode base' ref := by
  obtain ⟨b, hbv, hbs, rfl⟩ := iri_parts' hb
  obtain ⟨b', hbv', hbs', rfl⟩ := iri_parts' hb'
  obtain ⟨r, hrv, rfl⟩ := reference_parts hr
  simp only [RiReferenceStr.path_str, hrv.delim.extract_path_eq] at hp
  simp only [RiReferenceStr.scheme_str, hbv.delim.extract_scheme_eq,
    hbv'.delim.extract_scheme_eq] at hsch
  simp only [RiReferenceStr.authority_str, hbv.delim.extract_authority_eq,
    hbv'.delim.extract_authority_eq] at hau
  obtain ⟨t, hp⟩ := hp
  refine resolve_congr hbv hbs hbv' hbs' hrv ?_ mode
  refine mergeReference_congr hsch (fun _ _ => hau) ?_ ?_ ?_
  · intro _ _ h; rw [hp] at h; cases h
  · intro _ _ h; rw [hp] at h; cases h
  · intro _ _ _ h; rw [hp] at h; exact absurd rfl h

/-- **C46**: for a reference with a nonempty path, what follows the last slash of the base's path
does not matter, in any mode ("remove everything after the right-most slash"). -/
theorem C46_base_last_segment_ignored (S : Spec) (mode : NormalizationMode) (base base' ref : Str)
    (hb : validate_uri S base = some true) (hb' : validate_uri S base' = some true)
    (hr : validate_uri_reference S ref = some true)
    (hp : RiReferenceStr.path_str ref ≠ [])
    (hsch : RiReferenceStr.scheme_str base = RiReferenceStr.scheme_str base')
    (hau : RiReferenceStr.authority_str base = RiReferenceStr.authority_str base')
    (dir n n' : Str) (hn : '/' ∉ n) (hn' : '/' ∉ n')
    (hbp : RiReferenceStr.path_str base = dir ++ '/' :: n)
    (hbp' : RiReferenceStr.path_str base' = dir ++ '/' :: n') :
    resolve S mode base ref = resolve S mode base' ref := by
  obtain ⟨b, hbv, hbs, rfl⟩ := iri_parts' hb
  obtain ⟨b', hbv', hbs', rfl⟩ := iri_parts' hb'
  obtain ⟨r, hrv, rfl⟩ := reference_parts hr
  simp only [RiReferenceStr.path_str, hrv.delim.extract_path_eq, hbv.delim.extract_path_eq,
    hbv'.delim.extract_path_eq] at hp hbp hbp'
  simp only [RiReferenceStr.scheme_str, hbv.delim.extract_scheme_eq,
    hbv'.delim.extract_scheme_eq] at hsch
  simp only [RiReferenceStr.authority_str, hbv.delim.extract_authority_eq,
    hbv'.delim.extract_authority_eq] at hau
  refine resolve_congr hbv hbs hbv' hbs' hrv ?_ mode
  refine mergeReference_congr hsch (fun _ _ => hau) (fun _ _ h => absurd h hp)
    (fun _ _ h => absurd h hp) ?_
  intro _ _ _ _
  have key : ∀ (x : Parts) (m : Str), '/' ∉ m → x.path = dir ++ '/' :: m →
      mergePaths x r.path = dir ++ '/' :: r.path := by
    intro x m hm hx
    rcases mergePaths_cases x r.path with ⟨_, h, _⟩ | ⟨_, _, h⟩ | ⟨a, c, _, h2, h3⟩
    · rw [hx] at h; cases dir <;> cases h
    · rw [rfind_split_hole_none, hx] at h; simp at h
    · rw [hx, rfind_split_hole_some.2 ⟨rfl, hm⟩] at h3
      cases h3
      exact h2
  rw [key b n hn hbp, key b' n' hn' hbp']

/-- **C46**: resolving is done once and for all.  The target of a reference that is not
same-document (not empty, not query- or fragment-only) resolves to itself against every base. -/
theorem C46_resolved_is_stable (S : Spec) (base base' ref : Str)
    (hb : validate_uri S base = some true) (hb' : validate_uri S base' = some true)
    (hr : validate_uri_reference S ref = some true)
    (hne : RiReferenceStr.scheme_str ref ≠ none ∨ RiReferenceStr.authority_str ref ≠ none ∨
      RiReferenceStr.path_str ref ≠ []) :
    ∃ t, resolve S .off base ref = some t ∧ resolve S .off base' t = some t := by
  obtain ⟨b, hbv, hbs, rfl⟩ := iri_parts' hb
  obtain ⟨b', hbv', hbs', rfl⟩ := iri_parts' hb'
  obtain ⟨r, hrv, rfl⟩ := reference_parts hr
  have hsp : samePath r = false := by
    simp only [RiReferenceStr.scheme_str, hrv.delim.extract_scheme_eq,
      RiReferenceStr.authority_str, hrv.delim.extract_authority_eq, RiReferenceStr.path_str,
      hrv.delim.extract_path_eq] at hne
    unfold samePath
    rcases hne with h | h | h
    · cases h' : r.scheme with
      | none => exact absurd h' h
      | some x => simp
    · cases h' : r.authority with
      | none => exact absurd h' h
      | some x => simp
    · have : r.path.isEmpty = false := by simpa using h
      simp [this]
  obtain ⟨hm, hms⟩ := merge_valid hbv hbs hrv
  have hv : (normParts S .off (mergeReference b r)).Valid S := normParts_valid hm hms
  have e : transform b r = { mergeReference b r with
      path := remove_dot_segments (undot (mergeReference b r).path) } := by
    rw [transform_eq, hsp]; rfl
  have e1 := resolve_off_eq hbv hbs hrv
  rw [e] at e1
  simp only at e1
  refine ⟨_, e1, ?_⟩
  have hv' := normParts_off (S := S) (mergeReference b r)
  rw [hv'] at hv
  have e2 := resolve_off_eq hbv' hbs' hv
  rw [e2]
  have hsome : (mergeReference b r).scheme.isSome = true := by
    cases h : (mergeReference b r).scheme with
    | none => exact absurd h hms
    | some x => rfl
  simp only [transform, hsome, if_true, rds_escape]

/-- **C46**: an IRI without dot segments resolves to itself, against every base. -/
theorem C46_iri_without_dots (S : Spec) (base iri : Str) (hb : validate_uri S base = some true)
    (hi : validate_uri S iri = some true)
    (hd : ∀ n ∈ splitSlash (RiReferenceStr.path_str iri), NotDot n) :
    resolve S .off base iri = some iri := by
  obtain ⟨b, hbv, hbs, rfl⟩ := iri_parts' hb
  obtain ⟨r, hrv, hrs, rfl⟩ := iri_parts' hi
  simp only [RiReferenceStr.path_str, hrv.delim.extract_path_eq] at hd
  have hsome : r.scheme.isSome = true := by
    cases h : r.scheme with
    | none => exact absurd h hrs
    | some x => rfl
  rw [resolve_off_eq hbv hbs hrv]
  simp only [transform, hsome, if_true, C16_no_dots_unchanged _ hd, escape_valid hrv]

/-- **C46**: same-document references are *not* resolved once and for all: they keep the dot
segments of the base (RFC 3986 section 5.2.2 takes the base's path as it is), which a second
resolution removes. -/
theorem C46_same_document_not_stable :
    ∃ base t t', validate_uri .uri base = some true ∧ resolve .uri .off base [] = some t ∧
      resolve .uri .off base t = some t' ∧ t ≠ t' :=
  ⟨chars! "a:/b/../c", chars! "a:/b/../c", chars! "a:/c", by decide +kernel, by decide +kernel,
    by decide +kernel, by decide +kernel⟩

/-- **C46**: `and_normalize` while resolving gives the same text as resolving first and normalizing
the result. -/
theorem C46_normalize_after_resolve (S : Spec) (base ref : Str)
    (hb : validate_uri S base = some true) (hr : validate_uri_reference S ref = some true) :
    resolve S .default base ref = (resolve S .off base ref).bind (normalize S) := by
  obtain ⟨b, hbv, hbs, rfl⟩ := iri_parts' hb
  obtain ⟨r, hrv, rfl⟩ := reference_parts hr
  obtain ⟨hm, hms⟩ := merge_valid hbv hbs hrv
  rw [resolve_norm_eq hbv hbs hrv rfl, resolve_off_eq hbv hbs hrv, Option.bind_some, transform_eq]
  cases hsp : samePath r with
  | true =>
    simp only [if_true, escape_valid hm]
    exact (normalize_eq hm hms).symm
  | false =>
    have hv : (normParts S .off (mergeReference b r)).Valid S := normParts_valid hm hms
    rw [normParts_off] at hv
    simp only [Bool.false_eq_true, if_false]
    rw [normalize_eq hv hms]
    congr 2
    unfold normParts pathn
    simp only [reduceCtorEq, false_and, if_false, rds_escape]

/-! ### The hypotheses are met: concrete cases -/

example : validate_uri .iri (chars! "http://é/b?q#f") = some true ∧
    resolve .iri .off (chars! "http://é/b?q#f") [] = some (chars! "http://é/b?q") ∧
    resolve .iri .off (chars! "http://é/b?q#f") (chars! "#g") = some (chars! "http://é/b?q#g") ∧
    resolve .iri .off (chars! "http://é/b?q#f") (chars! "?y#g") = some (chars! "http://é/b?y#g") := by
  decide +kernel
example : validate_fragment .uri (chars! "g") = true ∧ validate_query .uri (chars! "y") = true := by
  decide +kernel
example : RiReferenceStr.authority_str (chars! "//x/y") = some (chars! "x") ∧
    RiReferenceStr.scheme_str (chars! "a:b") = RiReferenceStr.scheme_str (chars! "a://c") ∧
    resolve .uri .off (chars! "a:b") (chars! "//x/y") = some (chars! "a://x/y") := by decide +kernel
example : RiReferenceStr.path_str (chars! "/y") = chars! "/y" ∧
    resolve .uri .off (chars! "a://c/p/q") (chars! "/y") = some (chars! "a://c/y") := by decide +kernel
example : RiReferenceStr.path_str (chars! "a://c/p/q") = chars! "/p" ++ '/' :: chars! "q" ∧
    resolve .uri .off (chars! "a://c/p/q") (chars! "y") = some (chars! "a://c/p/y") ∧
    resolve .uri .off (chars! "a://c/p/") (chars! "y") = some (chars! "a://c/p/y") := by decide +kernel
example : resolve .uri .off (chars! "a:/b") (chars! ".//c") = some (chars! "a:/.//c") ∧
    resolve .uri .off (chars! "x:") (chars! "a:/.//c") = some (chars! "a:/.//c") := by decide +kernel
example : resolve .uri .default (chars! "A:/b/c") (chars! "../%7e") = some (chars! "a:/~") := by
  decide +kernel

end Verif
