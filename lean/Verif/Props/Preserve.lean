import Verif.Props.EquivalencePreserve
import Verif.Props.EditEquiv
import Verif.Props.Contain

/-!
# C83: the mode that keeps relative paths without an authority

What resolution and normalization do in the mode of
`normalize_but_preserve_authorityless_relative_path`, compared with the default mode.
-/

namespace Verif

open Rfc PathToNormalize

/-- The reference, resolved against the base, has neither an authority nor a rooted path: the reference is
such an IRI itself, or it is one without scheme and authority and so is the base. -/
def OpaqueTarget (base ref : Str) : Prop :=
  RiReferenceStr.authority_str ref = none ∧ (∀ t, RiReferenceStr.path_str ref ≠ '/' :: t) ∧
  ((RiReferenceStr.scheme_str ref ≠ none ∧ RiReferenceStr.path_str ref ≠ []) ∨
   (RiReferenceStr.scheme_str ref = none ∧ RiReferenceStr.authority_str base = none ∧
    (∀ t, RiReferenceStr.path_str base ≠ '/' :: t) ∧
    (RiReferenceStr.path_str base ≠ [] ∨ RiReferenceStr.path_str ref ≠ [])))

theorem not_rooted_append {x y : Str} (h : ∀ t, x ≠ '/' :: t) (hy : ∀ t, y ≠ '/' :: t) :
    ∀ t, x ++ y ≠ '/' :: t := by
  intro t e
  cases x with
  | nil => exact hy t e
  | cons c r =>
    simp only [List.cons_append, List.cons.injEq] at e
    exact h r (by rw [e.1])

theorem dir_prefix (s : Str) : (s.reverse.dropWhile (· != '/')).reverse <+: s := by
  have := (List.dropWhile_suffix (l := s.reverse) (p := (· != '/')))
  have := List.reverse_prefix.2 this
  rwa [List.reverse_reverse] at this

theorem rooted_take {s : Str} : (∀ t, s ≠ '/' :: t) ↔ (s.take 1 == ['/']) = false := by
  rw [beq_eq_false_iff_ne, Ne, take1_slash]
  exact ⟨fun h ⟨t, e⟩ => h t e, fun h t e => h ⟨t, e⟩⟩

theorem opaqueTarget_iff {S : Spec} {b r : Parts} (hb : b.Valid S) (hr : r.Valid S) :
    OpaqueTarget b.recompose r.recompose ↔ OpaquePath (mergeReference b r) := by
  unfold OpaqueTarget
  simp only [RiReferenceStr.scheme_str, hr.delim.extract_scheme_eq, RiReferenceStr.authority_str,
    hr.delim.extract_authority_eq, hb.delim.extract_authority_eq, RiReferenceStr.path_str,
    hr.delim.extract_path_eq, hb.delim.extract_path_eq]
  unfold mergeReference OpaquePath
  cases hs : r.scheme with
  | some x =>
    simp only [Option.isSome_some, if_true]
    constructor
    · rintro ⟨h1, h2, ⟨-, h3⟩ | ⟨h, -⟩⟩
      · exact ⟨h1, h3, h2⟩
      · cases h
    · rintro ⟨h1, h2, h3⟩
      exact ⟨h1, h3, .inl ⟨by simp, h2⟩⟩
  | none =>
    simp only [Option.isSome_none, Bool.false_eq_true, if_false]
    cases ha : r.authority with
    | some x => simp
    | none =>
      simp only [Option.isSome_none, Bool.false_eq_true, if_false]
      by_cases hp : r.path = []
      · simp only [hp, List.isEmpty_nil, if_true]
        constructor
        · rintro ⟨-, -, ⟨h, -⟩ | ⟨-, h1, h2, h3⟩⟩
          · exact absurd rfl h
          · exact ⟨h1, by simpa using h3, h2⟩
        · rintro ⟨h1, h2, h3⟩
          exact ⟨trivial, by simp, .inr ⟨trivial, h1, h3, .inl h2⟩⟩
      · have he : r.path.isEmpty = false := by simpa using hp
        simp only [he, Bool.false_eq_true, if_false]
        constructor
        · rintro ⟨-, h2, ⟨h, -⟩ | ⟨-, h3, h4, -⟩⟩
          · exact absurd rfl h
          · rw [rooted_take] at h2
            rw [h2]
            simp only [Bool.false_eq_true, if_false]
            refine ⟨h3, ?_, ?_⟩
            · unfold mergePaths; split <;> simp [hp]
            · unfold mergePaths
              rw [h3]
              simp only [Option.isSome_none, Bool.false_and, Bool.false_eq_true, if_false]
              refine not_rooted_append ?_ (rooted_take.2 h2)
              intro t e
              obtain ⟨z, hz⟩ := dir_prefix b.path
              rw [e] at hz
              exact h4 _ hz.symm
        · rintro ⟨h1, h2, h3⟩
          cases hr1 : r.path.take 1 == ['/'] with
          | true =>
            rw [beq_iff_eq, take1_slash] at hr1
            obtain ⟨t, e⟩ := hr1
            exact absurd (by rw [e]; simp) (h3 t)
          | false =>
            rw [hr1] at h3
            simp only [Bool.false_eq_true, if_false] at h3
            refine ⟨trivial, rooted_take.2 hr1, .inr ⟨trivial, h1, ?_, .inr hp⟩⟩
            intro t e
            unfold mergePaths at h3
            rw [h1, e] at h3
            simp only [Option.isSome_none, Bool.false_and, Bool.false_eq_true, if_false] at h3
            obtain ⟨u, hu⟩ : ∃ u, ((('/' :: t).reverse.dropWhile (· != '/')).reverse) = '/' :: u := by
              obtain ⟨z, hz⟩ := dir_prefix ('/' :: t)
              cases hd : ((('/' :: t).reverse.dropWhile (· != '/')).reverse) with
              | nil =>
                exfalso
                have : ('/' :: t).reverse.dropWhile (· != '/') = [] := by simpa using hd
                have e1 := List.takeWhile_append_dropWhile (p := (· != '/')) (l := ('/' :: t).reverse)
                rw [this, List.append_nil] at e1
                have e2 := List.all_takeWhile (p := (· != '/')) (l := ('/' :: t).reverse)
                rw [e1] at e2
                simp at e2
              | cons c u =>
                rw [hd] at hz
                simp only [List.cons_append, List.cons.injEq] at hz
                exact ⟨u, by rw [hz.1]⟩
            rw [hu] at h3
            exact h3 _ rfl

/-! ### Segments -/

theorem pctn_segments {S : Spec} {s : Str} (hw : WF s) :
    pathSegs (pctn S s) = (pathSegs s).map fun g => (g.1, pctn S g.2) := by
  obtain ⟨hok, ht⟩ := pathSegs_spec s
  have hT : TextOK .default (pathText (pathSegs s)) := by rw [ht]; exact fun _ => hw
  have e := wr_path (S := S) hok hT
  have hn := names_ok hok hT
  rw [ht, wr, if_pos (by rfl)] at e
  rw [e, pathSegs_unique (wrSegs_ok hn hok), wrSegs]
  rfl

theorem names_wf {s : Str} (hw : WF s) : ∀ g ∈ pathSegs s, WF g.2 := by
  obtain ⟨hok, ht⟩ := pathSegs_spec s
  have hT : TextOK .default (pathText (pathSegs s)) := by rw [ht]; exact fun _ => hw
  exact fun g hg => names_ok hok hT g hg rfl

theorem splitSlash_segs (s : Str) :
    splitSlash s = (if s.take 1 == ['/'] ∨ s = [] then [[]] else []) ++ (pathSegs s).map Prod.snd := by
  obtain ⟨hok, ht⟩ := pathSegs_spec s
  generalize hL : pathSegs s = L at *
  rw [← ht]
  match L with
  | [] => simp [pathText_nil, splitSlash]
  | (true, m) :: L =>
    have hal : AllSlash ((true, m) :: L) := by
      intro g hg
      rcases List.mem_cons.1 hg with rfl | hg
      · exact ⟨rfl, hok.1⟩
      · exact hok.2.2 g hg
    have := splitSlash_pathText hal (a := []) (by simp)
    rw [List.nil_append] at this
    rw [this]
    simp [pathText_cons, segText]
  | (false, m) :: L =>
    have := splitSlash_pathText hok.2.2 (a := m) hok.1
    rw [pathText_cons, segText]
    simp only [Bool.false_eq_true, if_false, List.nil_append]
    rw [this]
    have hm : m ≠ [] := hok.2.1 rfl
    cases m with
    | nil => exact absurd rfl hm
    | cons c m =>
      have hc : c ≠ '/' := fun e => hok.1 (by simp [e])
      simp [hc]

/-- Percent-encoding normalization keeps the segments of a path one to one, with what they mean. -/
theorem pctn_split {S : Spec} {s : Str} (hw : WF s) :
    (splitSlash (pctn S s)).map pctDecode = (splitSlash s).map pctDecode := by
  have h1 : ((pctn S s).take 1 == ['/']) = (s.take 1 == ['/']) := by
    rw [Bool.eq_iff_iff, beq_iff_eq, beq_iff_eq, take1_slash, take1_slash]
    constructor
    · rintro ⟨r, e⟩; exact pctn_head hw e
    · rintro ⟨r, e⟩
      subst e
      rw [pctn_ch S (by decide) (wf_slash_split (d := []) hw).2]
      exact ⟨_, rfl⟩
  have h2 : pctn S s = [] ↔ s = [] := pctn_empty S hw
  rw [splitSlash_segs, splitSlash_segs s, pctn_segments hw, h1]
  simp only [h2, List.map_append, List.map_map]
  congr 1
  refine List.map_congr_left (f := _) (g := _) fun g hg => ?_
  exact pctn_decode (names_wf hw g hg)

theorem notDot_split {s t : Str} (h : (splitSlash s).map pctDecode = (splitSlash t).map pctDecode)
    (hs : ∀ n ∈ splitSlash s, NotDot n) : ∀ n ∈ splitSlash t, NotDot n := by
  intro n hn
  have := List.mem_map_of_mem (f := pctDecode) hn
  rw [← h] at this
  obtain ⟨m, hm, e⟩ := List.mem_map.1 this
  have := hs m hm
  unfold NotDot at this ⊢
  rwa [← e]

theorem opaque_agree {S : Spec} {s : Str} (hw : WF s) (h : ∀ r, s ≠ '/' :: r) :
    pctn S s = escapePath false (npath S s) ↔ ∀ n ∈ splitSlash s, NotDot n := by
  have hh : ∀ r, pctn S s ≠ '/' :: r := fun r e => by
    obtain ⟨t, ht⟩ := pctn_head hw e
    exact h t ht
  constructor
  · intro e
    have := pathn_notDot (S := S) (op := .default) (auth := false) (s := s) (fun _ => hw) (by simp)
    rw [pathn_default_eq] at this
    change (∀ n ∈ splitSlash (escapePath false (npath S s)), NotDot n) ∨ (false = false ∧ ∃ rest,
      escapePath false (npath S s) = _ ∧ _) at this
    rw [← e] at this
    rcases this with h1 | ⟨-, rest, h1, -⟩
    · exact notDot_split (pctn_split hw) h1
    · exact absurd h1 (hh _)
  · intro hn
    unfold npath
    rw [C16_no_dots_unchanged s hn]
    unfold escapePath
    split
    · rename_i hc
      simp only [Bool.and_eq_true, Bool.not_eq_true'] at hc
      obtain ⟨rest, hr⟩ := take2_slash.1 hc.2
      exact absurd hr (hh _)
    · rfl

theorem modes_agree_iff {S : Spec} {p : Parts} (hp : p.Valid S) (hps : p.scheme ≠ none) :
    (normParts S .preserve p).recompose = (normParts S .default p).recompose ↔
      (OpaquePath p → ∀ n ∈ splitSlash p.path, NotDot n) := by
  constructor
  · intro h ho
    have := recompose_inj (normParts_valid (op := .preserve) hp hps).delim
      (normParts_valid (op := .default) hp hps).delim h
    have := congrArg Parts.path this
    rw [normParts_preserve_mk, normParts_mk] at this
    simp only [(pathn_preserve S p).1 ho] at this
    rw [ho.1] at this
    exact (opaque_agree hp.pathPC.wf ho.2.2).1 this
  · intro h
    congr 1
    rw [normParts_preserve_mk, normParts_mk]
    congr 1
    by_cases ho : OpaquePath p
    · rw [(pathn_preserve S p).1 ho]
      have := (opaque_agree (S := S) hp.pathPC.wf ho.2.2).2 (h ho)
      rw [ho.1]
      exact this
    · rw [(pathn_preserve S p).2 ho]

/-! ### The theorems -/

/-- **C83**: resolution in this mode gives a valid IRI; normalizing it gives what resolution with
normalization gives, and normalizing it in the same mode changes nothing. -/
theorem C83_refines (S : Spec) (base ref : Str) (hb : validate_uri S base = some true)
    (hr : validate_uri_reference S ref = some true) :
    ∃ t, resolve S .preserve base ref = some t ∧ validate_uri S t = some true ∧
      normalize S t = resolve S .default base ref ∧
      normalize_but_preserve_authorityless_relative_path S t = some t := by
  obtain ⟨b, hbv, hbs, rfl⟩ := iri_parts' hb
  obtain ⟨r, hrv, rfl⟩ := reference_parts hr
  obtain ⟨hm, hms⟩ := merge_valid hbv hbs hrv
  have hv := normParts_valid (op := .preserve) hm hms
  have hvs := normParts_scheme (S := S) (op := .preserve) hms
  refine ⟨_, resolve_norm_eq hbv hbs hrv rfl, ?_, ?_, ?_⟩
  · exact validate_uri_of_parts hv hvs
  · rw [normalize_eq hv hvs, normParts_preserve_default hm hms, resolve_norm_eq hbv hbs hrv rfl]
  · rw [normalize_preserve_eq hv hvs, normParts_idem hm (by decide)]

example : resolve .uri .preserve (chars! "urn:A/b") (chars! "../%7e/./c") = some (chars! "urn:A/../~/./c") ∧
    normalize .uri (chars! "urn:A/../~/./c") = some (chars! "urn:/~/c") ∧
    resolve .uri .default (chars! "urn:A/b") (chars! "../%7e/./c") = some (chars! "urn:/~/c") := by
  decide +kernel

/-- **C83**: the two normalizations of an IRI agree if and only if it has an authority, or its path is empty
or starts with a slash, or no segment of its path is a dot segment. -/
theorem C83_normalize_agree_iff (S : Spec) (s : Str) (hs : validate_uri S s = some true) :
    normalize_but_preserve_authorityless_relative_path S s = normalize S s ↔
      (RiReferenceStr.authority_str s ≠ none ∨ RiReferenceStr.path_str s = [] ∨
        (∃ t, RiReferenceStr.path_str s = '/' :: t) ∨
        ∀ n ∈ splitSlash (RiReferenceStr.path_str s), NotDot n) := by
  obtain ⟨p, hp, hps, rfl⟩ := iri_parts' hs
  rw [normalize_preserve_eq hp hps, normalize_eq hp hps, Option.some.injEq, modes_agree_iff hp hps]
  simp only [RiReferenceStr.authority_str, hp.delim.extract_authority_eq, RiReferenceStr.path_str,
    hp.delim.extract_path_eq]
  constructor
  · intro h
    refine Classical.byContradiction fun hc => ?_
    simp only [not_or] at hc
    obtain ⟨h1, h2, h3, h4⟩ := hc
    exact h4 (h ⟨Classical.not_not.1 h1, h2, fun t e => h3 ⟨t, e⟩⟩)
  · rintro (h | h | ⟨t, h⟩ | h) ⟨h1, h2, h3⟩
    · exact absurd h1 h
    · exact absurd h h2
    · exact absurd h (h3 t)
    · exact h

example : normalize_but_preserve_authorityless_relative_path .uri (chars! "urn:a/%2E./b") ≠
    normalize .uri (chars! "urn:a/%2E./b") ∧
    normalize_but_preserve_authorityless_relative_path .uri (chars! "urn:a/.../b%7E") =
      normalize .uri (chars! "urn:a/.../b%7E") ∧
    normalize_but_preserve_authorityless_relative_path .uri (chars! "urn:/a/../b%7E") =
      normalize .uri (chars! "urn:/a/../b%7E") := by decide +kernel

/-- **C83**: the two resolutions agree if and only if the target is not such an IRI, or no segment of the
merged path is a dot segment. -/
theorem C83_resolve_agree_iff (S : Spec) (base ref : Str) (b r : Parts) (hb : b.Valid S)
    (hbs : b.scheme ≠ none) (hr : r.Valid S) (eb : b.recompose = base) (er : r.recompose = ref) :
    resolve S .preserve base ref = resolve S .default base ref ↔
      (OpaqueTarget base ref → ∀ n ∈ splitSlash (mergeReference b r).path, NotDot n) := by
  subst eb er
  obtain ⟨hm, hms⟩ := merge_valid hb hbs hr
  rw [resolve_norm_eq hb hbs hr rfl, resolve_norm_eq hb hbs hr rfl, Option.some.injEq,
    modes_agree_iff hm hms, opaqueTarget_iff hb hr]

example : OpaqueTarget (chars! "urn:a/b") (chars! "c/../d") ∧ ¬ OpaqueTarget (chars! "urn:/a") (chars! "c") ∧
    resolve .uri .preserve (chars! "urn:a/b") (chars! "c/../d") ≠
      resolve .uri .default (chars! "urn:a/b") (chars! "c/../d") ∧
    resolve .uri .preserve (chars! "urn:/a/b") (chars! "c/../d") =
      resolve .uri .default (chars! "urn:/a/b") (chars! "c/../d") := by
  have e1 : RiReferenceStr.path_str (chars! "c/../d") = chars! "c/../d" := by decide +kernel
  have e2 : RiReferenceStr.path_str (chars! "urn:a/b") = chars! "a/b" := by decide +kernel
  have e3 : RiReferenceStr.path_str (chars! "urn:/a") = chars! "/a" := by decide +kernel
  refine ⟨⟨by decide +kernel, by rw [e1]; simp, .inr ⟨by decide +kernel, by decide +kernel, by rw [e2]; simp,
    .inl (by decide +kernel)⟩⟩, ?_, by decide +kernel, by decide +kernel⟩
  rintro ⟨-, -, ⟨h, -⟩ | ⟨-, -, h, -⟩⟩
  · exact h (by decide +kernel)
  · exact h _ e3

/-- **C83**: when the target has neither an authority nor a rooted path, every segment of the merged path,
dot segments included, is a segment of the result: nothing is removed, and only the spelling changes. -/
theorem C83_opaque (S : Spec) (base ref : Str) (b r : Parts) (hb : b.Valid S)
    (hbs : b.scheme ≠ none) (hr : r.Valid S) (eb : b.recompose = base) (er : r.recompose = ref)
    (ho : OpaqueTarget base ref) :
    ∃ t, resolve S .preserve base ref = some t ∧ RiReferenceStr.authority_str t = none ∧
      PctNormText S (mergeReference b r).path (RiReferenceStr.path_str t) ∧
      (splitSlash (RiReferenceStr.path_str t)).map pctDecode =
        (splitSlash (mergeReference b r).path).map pctDecode := by
  subst eb er
  obtain ⟨hm, hms⟩ := merge_valid hb hbs hr
  rw [opaqueTarget_iff hb hr] at ho
  have hv := normParts_valid (op := .preserve) hm hms
  refine ⟨_, resolve_norm_eq hb hbs hr rfl, ?_, ?_⟩
  · simp only [RiReferenceStr.authority_str, hv.delim.extract_authority_eq]
    rw [normParts_preserve_mk]
    simp [ho.1]
  · simp only [RiReferenceStr.path_str, hv.delim.extract_path_eq]
    rw [normParts_preserve_mk]
    simp only [(pathn_preserve S _).1 ho]
    refine ⟨?_, pctn_split hm.pathPC.wf⟩
    obtain ⟨ts, h1, _, h2⟩ := pctn_spec S hm.pathPC.wf
    exact ⟨ts, h1, h2⟩

example : resolve .uri .preserve (chars! "urn:a/b") (chars! "%2e%2e/../%41") =
    some (chars! "urn:a/../../A") ∧
    (splitSlash (chars! "a/../../A")).map pctDecode = (splitSlash (chars! "a/%2e%2e/../%41")).map pctDecode := by
  decide +kernel

/-- **C83**: against a base with an authority or a rooted path, a relative path that never climbs above the
place where it starts stays in the directory of the base in this mode too. -/
theorem C83_contained (S : Spec) (base ref : Str) (hb : validate_uri S base = some true)
    (hr : validate_uri_reference S ref = some true) (hrel : RelativePath ref)
    (hbase : RiReferenceStr.authority_str base ≠ none ∨ ∃ t, RiReferenceStr.path_str base = '/' :: t)
    (h : staysBelow 0 (splitSlash (RiReferenceStr.path_str ref)) = true) :
    ∃ dir t, resolve S .preserve base ['.'] = some dir ∧ resolve S .preserve base ref = some t ∧
      dir <+: t ∧ RiReferenceStr.scheme_str t = RiReferenceStr.scheme_str dir ∧
      RiReferenceStr.authority_str t = RiReferenceStr.authority_str dir ∧
      RiReferenceStr.path_str dir <+: RiReferenceStr.path_str t := by
  obtain ⟨dir, t, h1, h2, h3⟩ := C68_contained S true base ref hb hr hrel h
  have key : ∀ ref', validate_uri_reference S ref' = some true → RiReferenceStr.scheme_str ref' = none →
      resolve S .preserve base ref' = resolve S .default base ref' := by
    intro ref' hr' hs'
    obtain ⟨b, hbv, hbs, eb⟩ := iri_parts' hb
    obtain ⟨r, hrv, er⟩ := reference_parts hr'
    rw [C83_resolve_agree_iff S base ref' b r hbv hbs hrv eb er]
    rintro ⟨-, -, ⟨h, -⟩ | ⟨-, h1, h2, -⟩⟩
    · exact absurd hs' h
    · rcases hbase with hb' | ⟨t, ht⟩
      · exact absurd h1 hb'
      · exact absurd ht (h2 t)
  refine ⟨dir, t, ?_, ?_, h3⟩
  · rw [key ['.'] (by cases S <;> decide +kernel) (by decide +kernel)]; exact h1
  · rw [key ref hr hrel.scheme]; exact h2

/-- **C83**: without that condition on the base it need not: where dot segments are kept, the reference `.`
does not give the directory of the base. -/
theorem C83_contained_refuted : ∃ base ref dir t, validate_uri .uri base = some true ∧
    validate_uri_reference .uri ref = some true ∧ RiReferenceStr.path_str ref ≠ [] ∧
    staysBelow 0 (splitSlash (RiReferenceStr.path_str ref)) = true ∧
    resolve .uri .preserve base ['.'] = some dir ∧ resolve .uri .preserve base ref = some t ∧
    ¬ dir <+: t :=
  ⟨chars! "urn:a/b", chars! "c", chars! "urn:a/.", chars! "urn:a/c", by decide +kernel, by decide +kernel,
    by decide +kernel, by decide +kernel, by decide +kernel, by decide +kernel, by decide +kernel⟩

end Verif
