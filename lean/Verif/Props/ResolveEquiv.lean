import Verif.Lemmas.ResolveEquiv
import Verif.Props.Equivalence
import Verif.Props.ResolveLaws

/-!
# C63: resolution and normalization

Normalizing after resolving is resolving with normalization; equivalent references resolve to the same;
equivalent bases do so if, and for all references only if, they do for the reference `.`.
-/

namespace Verif

open Rfc PathToNormalize

/-- What the path of a reference is appended to (RFC 3986 section 5.2.3). -/
def mergeDir (b : Parts) : Str := if b.authority.isSome && b.path.isEmpty then ['/'] else dirOf b.path

theorem mergePaths_eq (b : Parts) (x : Str) : mergePaths b x = mergeDir b ++ x := by
  unfold mergePaths mergeDir
  split <;> rfl

theorem mergeDir_cases (b : Parts) : mergeDir b = [] ∨ ∃ d, mergeDir b = d ++ ['/'] := by
  unfold mergeDir
  split
  · exact .inr ⟨[], rfl⟩
  · exact dir_cases _

theorem mergeDir_wf {S : Spec} {b : Parts} (h : b.Valid S) : WF (mergeDir b) := by
  unfold mergeDir
  split
  · exact .chr (by decide) rfl .nil
  · exact (wf_dir h.pathPC.wf).1

theorem normParts_mk (S : Spec) (p : Parts) : normParts S .default p = ⟨p.scheme.map (List.map toLower),
    p.authority.map (authn S), escapePath p.authority.isSome (npath S p.path), p.query.map (pctn S),
      p.fragment.map (pctn S)⟩ := rfl

theorem norm_fields {S : Spec} {p q : Parts} (hp : p.Valid S) (hq : q.Valid S)
    (h : normParts S .default p = normParts S .default q) :
    p.scheme.map (List.map toLower) = q.scheme.map (List.map toLower) ∧
    p.authority.map (authn S) = q.authority.map (authn S) ∧
    p.authority.isSome = q.authority.isSome ∧
    npath S p.path = npath S q.path ∧ p.query.map (pctn S) = q.query.map (pctn S) ∧
    p.fragment.map (pctn S) = q.fragment.map (pctn S) := by
  rw [normParts_mk, normParts_mk, Parts.mk.injEq] at h
  obtain ⟨h1, h2, h3, h4, h5⟩ := h
  have ha : p.authority.isSome = q.authority.isSome := by
    have := congrArg Option.isSome h2; simpa using this
  rw [ha] at h3
  exact ⟨h1, h2, ha, escape_pctn_inj hp.pathPC.wf hq.pathPC.wf h3, h4, h5⟩

theorem dotRef_valid (S : Spec) : (⟨none, none, ['.'], none, none⟩ : Parts).Valid S :=
  ⟨by simp, by simp, path_iff.2 (.chr (by decide) (pcharSlashC_dot S) .nil), by simp, by simp, by simp,
    by simp, fun _ _ h => by obtain ⟨a, b, h, h'⟩ := h; revert h h'; cases a <;> simp⟩

/-- The two facts about references that matter. -/
theorem sameReference_cases {S : Spec} {r r' : Parts} (hr : r.Valid S) (hr' : r'.Valid S)
    (h : SameReference S r r') :
    r.scheme.map (List.map toLower) = r'.scheme.map (List.map toLower) ∧
    r.authority.map (authn S) = r'.authority.map (authn S) ∧
    r.query.map (pctn S) = r'.query.map (pctn S) ∧
    r.fragment.map (pctn S) = r'.fragment.map (pctn S) ∧
    npath S r.path = npath S r'.path ∧
    (pctn S r.path = pctn S r'.path ∨ (Rooted r ∧ Rooted r')) := by
  have e1 : r.scheme.map (List.map toLower) = r'.scheme.map (List.map toLower) := by
    have := h.scheme; rwa [lower_eq] at this
  have e2 := (map_rel_iff (R := AuthTextEquiv S) fun x y hx hy => authn_iff (hr.authority x hx) (hr'.authority y hy)).1 h.authority
  have e3 := (map_rel_iff (R := PctEquiv S) fun x y hx hy => pctEquiv_iff (query_wf hr hx) (query_wf hr' hy)).1 h.query
  have e4 := (map_rel_iff (R := PctEquiv S) fun x y hx hy => pctEquiv_iff (fragment_wf hr hx) (fragment_wf hr' hy)).1 h.fragment
  refine ⟨e1, e2, e3, e4, ?_⟩
  have w := hr.pathPC.wf
  have w' := hr'.pathPC.wf
  rcases h.path with h | ⟨h1, h2, h⟩
  · have := (pctEquiv_iff w w').1 h
    refine ⟨?_, .inl this⟩
    unfold npath
    rw [pctn_rds w, pctn_rds w', this]
  · exact ⟨(pctEquiv_iff (rds_PC (by decide) w) (rds_PC (by decide) w')).1 h, .inr ⟨h1, h2⟩⟩

theorem head_slash_iff {S : Spec} {r : Parts} (hr : r.Valid S) :
    (r.path.take 1 == ['/']) = ((pctn S r.path).take 1 == ['/']) := by
  rw [Bool.eq_iff_iff, beq_iff_eq, beq_iff_eq, take1_slash, take1_slash]
  constructor
  · rintro ⟨t, e⟩
    rw [e]
    have w := hr.pathPC.wf
    rw [e] at w
    rw [pctn_ch S (by decide) (wf_slash_split (d := []) w).2]
    exact ⟨_, rfl⟩
  · rintro ⟨t, e⟩
    exact pctn_head hr.pathPC.wf e

/-- Resolution respects equivalence. -/
theorem merge_equiv {S : Spec} {b b' r r' : Parts} (hb : b.Valid S) (hb' : b'.Valid S)
    (he : normParts S .default b = normParts S .default b')
    (hd : npath S (mergeDir b) = npath S (mergeDir b')) (hr : r.Valid S) (hr' : r'.Valid S)
    (h : SameReference S r r') :
    normParts S .default (mergeReference b r) = normParts S .default (mergeReference b' r') := by
  obtain ⟨b1, b2, b3, b4, b5, _⟩ := norm_fields hb hb' he
  obtain ⟨r1, r2, r3, r4, r5, r6⟩ := sameReference_cases hr hr' h
  have s1 : r.scheme.isSome = r'.scheme.isSome := by
    have := congrArg Option.isSome r1; simpa using this
  have s2 : r.authority.isSome = r'.authority.isSome := by
    have := congrArg Option.isSome r2; simpa using this
  have s3 : r.query.isSome = r'.query.isSome := by
    have := congrArg Option.isSome r3; simpa using this
  unfold mergeReference
  rw [s1, s2]
  by_cases c1 : r'.scheme.isSome = true
  · rw [if_pos c1, if_pos c1, normParts_mk, normParts_mk, r1, r2, r3, r4, r5, s2]
  · rw [if_neg c1, if_neg c1]
    by_cases c2 : r'.authority.isSome = true
    · rw [if_pos c2, if_pos c2, normParts_mk, normParts_mk]
      simp only [b1, r2, r3, r4, r5, s2]
    · rw [if_neg c2, if_neg c2]
      have s4 : r.path.isEmpty = r'.path.isEmpty := by
        rw [Bool.eq_iff_iff, List.isEmpty_iff, List.isEmpty_iff]
        rcases r6 with h6 | ⟨h6, h7⟩
        · rw [← pctn_empty S hr.pathPC.wf, h6, pctn_empty S hr'.pathPC.wf]
        · have hn : ∀ q : Parts, Rooted q → q.scheme.isSome = false → q.authority.isSome = false →
              q.path ≠ [] := by
            intro q hq q1 q2
            rcases hq with hq | hq | ⟨t, hq⟩
            · cases hs : q.scheme <;> simp_all
            · cases hs : q.authority <;> simp_all
            · rw [hq]; simp
          simp only [Bool.not_eq_true] at c1 c2
          exact ⟨fun e => absurd e (hn r h6 (by rw [s1, c1]) (by rw [s2, c2])),
            fun e => absurd e (hn r' h7 c1 c2)⟩
      rw [s4, s3]
      by_cases c3 : r'.path.isEmpty = true
      · rw [if_pos c3, if_pos c3, normParts_mk, normParts_mk]
        simp only [b1, b2, b3, b4, r4]
        congr 1
        split
        · exact r3
        · exact b5
      · rw [if_neg c3, if_neg c3, normParts_mk, normParts_mk]
        simp only [b1, b2, b3, r3, r4]
        have s5 : (r.path.take 1 == ['/']) = (r'.path.take 1 == ['/']) := by
          rcases r6 with h6 | ⟨h6, h7⟩
          · rw [head_slash_iff hr, head_slash_iff hr', h6]
          · have hn : ∀ q : Parts, Rooted q → q.scheme.isSome = false → q.authority.isSome = false →
                (q.path.take 1 == ['/']) = true := by
              intro q hq q1 q2
              rcases hq with hq | hq | ⟨t, hq⟩
              · cases hs : q.scheme <;> simp_all
              · cases hs : q.authority <;> simp_all
              · rw [hq]; rfl
            simp only [Bool.not_eq_true] at c1 c2
            rw [hn r h6 (by rw [s1, c1]) (by rw [s2, c2]), hn r' h7 c1 c2]
        rw [s5]
        by_cases c4 : (r'.path.take 1 == ['/']) = true
        · rw [if_pos c4, if_pos c4, r5]
        · rw [if_neg c4, if_neg c4, mergePaths_eq, mergePaths_eq,
            npath_append (mergeDir_cases b) (mergeDir_wf hb) hr.pathPC.wf,
            npath_append (mergeDir_cases b') (mergeDir_wf hb') hr'.pathPC.wf, hd]
          rcases r6 with h6 | ⟨h6, h7⟩
          · rw [h6]
          · exfalso
            simp only [Bool.not_eq_true] at c1 c2
            rcases h7 with hq | hq | ⟨t, hq⟩
            · cases hs : r'.scheme <;> simp_all
            · cases hs : r'.authority <;> simp_all
            · rw [hq] at c4; exact c4 rfl

theorem dir_of_dot {S : Spec} {b b' : Parts} (hb : b.Valid S) (hb' : b'.Valid S)
    (hs : b.scheme ≠ none) (hs' : b'.scheme ≠ none)
    (h : normParts S .default (mergeReference b ⟨none, none, ['.'], none, none⟩) =
      normParts S .default (mergeReference b' ⟨none, none, ['.'], none, none⟩)) :
    npath S (mergeDir b) = npath S (mergeDir b') := by
  have hv := (merge_valid hb hs (dotRef_valid S)).1
  have hv' := (merge_valid hb' hs' (dotRef_valid S)).1
  have := (norm_fields hv hv' h).2.2.2.1
  simp only [mergeReference, Option.isSome_none, Bool.false_eq_true, if_false, List.isEmpty_cons] at this
  rw [if_neg (by decide), if_neg (by decide), mergePaths_eq, mergePaths_eq, npath_dot (mergeDir_cases b),
    npath_dot (mergeDir_cases b')] at this
  exact this

theorem sameReference_refl (S : Spec) (r : Parts) (hr : r.Valid S) : SameReference S r r where
  scheme := rfl
  authority := by
    cases ha : r.authority with
    | none => trivial
    | some a => exact (authn_iff (hr.authority a ha) (hr.authority a ha)).2 rfl
  path := .inl (.refl _)
  query := by
    cases r.query with
    | none => trivial
    | some a => exact .refl _
  fragment := by
    cases r.fragment with
    | none => trivial
    | some a => exact .refl _

theorem mergeDir_of_last {S : Spec} {b b' : Parts} (hb : b.Valid S) (hb' : b'.Valid S)
    (he : normParts S .default b = normParts S .default b')
    (h : pctDecode (lastSegment b.path) ≠ [0x2E, 0x2E])
    (h' : pctDecode (lastSegment b'.path) ≠ [0x2E, 0x2E]) :
    npath S (mergeDir b) = npath S (mergeDir b') := by
  obtain ⟨_, _, b3, b4, _, _⟩ := norm_fields hb hb' he
  have hne : b.authority.isSome = true → (b.path.isEmpty = b'.path.isEmpty) := by
    intro ha
    have key : ∀ (q : Parts), q.Valid S → q.authority.isSome = true → (npath S q.path = [] ↔ q.path = []) := by
      intro q hq hqa
      constructor
      · intro e
        rcases hq.authPath hqa with e' | ⟨t, e'⟩
        · exact e'
        · exfalso
          unfold npath at e
          rw [pctn_empty S (rds_PC (by decide) hq.pathPC.wf), e'] at e
          obtain ⟨u, hu⟩ := rds_slash_head t
          rw [hu] at e
          cases e
      · intro e
        rw [e]; unfold npath; rw [rds_nil, pctn_nil]
    rw [Bool.eq_iff_iff, List.isEmpty_iff, List.isEmpty_iff, ← key b hb ha, ← key b' hb' (by rw [← b3, ha]), b4]
  unfold mergeDir
  rw [← b3]
  by_cases ha : b.authority.isSome = true
  · rw [← hne ha]
    split
    · rfl
    · rw [npath_dir hb.pathPC.wf h, npath_dir hb'.pathPC.wf h', b4]
  · rw [Bool.not_eq_true] at ha
    simp only [ha, Bool.false_and, Bool.false_eq_true, if_false]
    rw [npath_dir hb.pathPC.wf h, npath_dir hb'.pathPC.wf h', b4]

/-! ### The theorems -/

/-- **C63**: normalizing the result of plain resolution gives what resolution with normalization gives. -/
theorem C63_normalize_resolved (S : Spec) (base ref : Str) (hb : validate_uri S base = some true)
    (hr : validate_uri_reference S ref = some true) :
    ∃ t, resolve S .off base ref = some t ∧ normalize S t = resolve S .default base ref := by
  obtain ⟨b, hbv, hbs, rfl⟩ := iri_parts' hb
  obtain ⟨r, hrv, rfl⟩ := reference_parts hr
  obtain ⟨hm, hms⟩ := merge_valid hbv hbs hrv
  rw [resolve_norm_eq (op := .default) hbv hbs hrv rfl, resolve_off_eq hbv hbs hrv, transform_eq]
  cases h : samePath r with
  | true =>
    simp only [if_true]
    rw [escape_valid hm]
    exact ⟨_, rfl, normalize_eq hm hms⟩
  | false =>
    simp only [Bool.false_eq_true, if_false]
    refine ⟨_, rfl, ?_⟩
    have hq := normParts_valid (op := .off) hm hms
    have hqs := normParts_scheme (S := S) (op := .off) hms
    rw [normParts_off] at hq hqs
    rw [normalize_eq hq hqs, normParts_mk, normParts_mk]
    simp only [npath, rds_escape]

/-- **C63**: equivalent references resolve to the same normalized IRI, for every base. -/
theorem C63_reference (S : Spec) (base ref ref' : Str) (hb : validate_uri S base = some true)
    (h : SameReferenceText S ref ref') :
    resolve S .default base ref = resolve S .default base ref' := by
  obtain ⟨b, hbv, hbs, rfl⟩ := iri_parts' hb
  obtain ⟨r, r', ⟨hr, rfl⟩, ⟨hr', rfl⟩, h⟩ := h
  rw [resolve_norm_eq hbv hbs hr rfl, resolve_norm_eq hbv hbs hr' rfl,
    merge_equiv hbv hbv rfl rfl hr hr' h]

/-- **C63**: two equivalent bases resolve all references to the same normalized IRIs if and only if they
do so for the reference `.`. -/
theorem C63_base_iff (S : Spec) (base base' : Str) (hb : validate_uri S base = some true)
    (hb' : validate_uri S base' = some true) (he : EquivalentText S base base') :
    (∀ ref, validate_uri_reference S ref = some true →
      resolve S .default base ref = resolve S .default base' ref) ↔
    resolve S .default base ['.'] = resolve S .default base' ['.'] := by
  constructor
  · intro h
    exact h _ (by cases S <;> decide +kernel)
  · intro h ref hr
    obtain ⟨r, hrv, rfl⟩ := reference_parts hr
    rw [← C49_canonical S _ _ hb hb'] at he
    obtain ⟨b, hbv, hbs, rfl⟩ := iri_parts' hb
    obtain ⟨b', hbv', hbs', rfl⟩ := iri_parts' hb'
    have hd := dotRef_valid S
    have hm := merge_valid hbv hbs hd
    have hm' := merge_valid hbv' hbs' hd
    rw [normalize_eq hbv hbs, normalize_eq hbv' hbs', Option.some.injEq] at he
    have he := recompose_inj (normParts_valid (op := .default) hbv hbs).delim
      (normParts_valid (op := .default) hbv' hbs').delim he
    have h1 : resolve S .default b.recompose (⟨none, none, ['.'], none, none⟩ : Parts).recompose =
      resolve S .default b'.recompose (⟨none, none, ['.'], none, none⟩ : Parts).recompose := h
    rw [resolve_norm_eq hbv hbs hd rfl, resolve_norm_eq hbv' hbs' hd rfl, Option.some.injEq] at h1
    have h2 := recompose_inj (normParts_valid (op := .default) hm.1 hm.2).delim
      (normParts_valid (op := .default) hm'.1 hm'.2).delim h1
    rw [resolve_norm_eq hbv hbs hrv rfl, resolve_norm_eq hbv' hbs' hrv rfl,
      merge_equiv hbv hbv' he (dir_of_dot hbv hbv' hbs hbs' h2) hrv hrv (sameReference_refl S r hrv)]

/-- **C63**: equivalent bases resolve equivalent references to the same normalized IRI, unless the path of
a base ends in a segment `..` (in any spelling). -/
theorem C63_base (S : Spec) (base base' ref ref' : Str) (hb : validate_uri S base = some true)
    (hb' : validate_uri S base' = some true) (he : EquivalentText S base base')
    (h : pctDecode (lastSegment (RiReferenceStr.path_str base)) ≠ [0x2E, 0x2E])
    (h' : pctDecode (lastSegment (RiReferenceStr.path_str base')) ≠ [0x2E, 0x2E])
    (hr : SameReferenceText S ref ref') :
    resolve S .default base ref = resolve S .default base' ref' := by
  rw [← C49_canonical S _ _ hb hb'] at he
  obtain ⟨b, hbv, hbs, rfl⟩ := iri_parts' hb
  obtain ⟨b', hbv', hbs', rfl⟩ := iri_parts' hb'
  simp only [RiReferenceStr.path_str, hbv.delim.extract_path_eq, hbv'.delim.extract_path_eq] at h h'
  obtain ⟨r, r', ⟨hr, rfl⟩, ⟨hr', rfl⟩, hrr⟩ := hr
  rw [normalize_eq hbv hbs, normalize_eq hbv' hbs', Option.some.injEq] at he
  have he := recompose_inj (normParts_valid (op := .default) hbv hbs).delim
      (normParts_valid (op := .default) hbv' hbs').delim he
  rw [resolve_norm_eq hbv hbs hr rfl, resolve_norm_eq hbv' hbs' hr' rfl,
    merge_equiv hbv hbv' he (mergeDir_of_last hbv hbv' he h h') hr hr' hrr]

theorem lastSegment_normal {S : Spec} {p : Parts} (hp : p.Valid S) :
    pctDecode (lastSegment (normParts S .default p).path) ≠ [0x2E, 0x2E] := by
  have hT : TextOK .default p.path := fun _ => hp.pathPC.wf
  have hnames := rdsSegs_textOK hT
  have hdW := wrSegs_dots (S := S) hnames rdsSegs_mem
  have hokW := wrSegs_ok (S := S) hnames (rdsSegs_ok p.path)
  have hW : npath S p.path = pathText (wrSegs S .default (rdsSegs p.path)) := wr_rds (S := S) hT
  rw [normParts_mk]
  simp only
  rw [hW]
  generalize wrSegs S .default (rdsSegs p.path) = W at *
  have key : pctDecode (lastSegment (pathText W)) ≠ [0x2E, 0x2E] := by
    rcases List.eq_nil_or_concat W with rfl | ⟨W', g, rfl⟩
    · decide +kernel
    · rw [List.concat_eq_append] at *
      have hg := hdW g (by simp)
      have hn := hokW.names g (by simp)
      have e : lastSegment (pathText (W' ++ [g])) = g.2 := by
        rw [pathText_append]
        have hs : pathText [g] = segText g := by simp [pathText]
        rw [hs, segText]
        obtain ⟨b, n⟩ := g
        cases b with
        | true => exact (dir_of_slash _ hn).2
        | false =>
          have : W' = [] := by
            cases W' with
            | nil => rfl
            | cons a t => exact absurd (hokW.2.2 (false, n) (by simp)).1 (by simp)
          subst this
          exact (dir_of_no_slash hn).2
      rw [e]
      intro h
      have := (from_segment_dotdot g.2).2 h
      simp [isDots, this] at hg
  unfold escapePath
  split
  · rename_i hc
    obtain ⟨r, hr⟩ := take2_slash.1 (by simp at hc ⊢; exact hc.2)
    have h2 := dir_last (pathText W)
    have h3 := lastSegment_no_slash (pathText W)
    rcases dir_cases (pathText W) with h1 | ⟨d, h1⟩
    · rw [h1, List.nil_append] at h2
      rw [h2, hr] at h3
      exact absurd (by simp) h3
    · rw [h1] at h2
      have : lastSegment ('/' :: '.' :: pathText W) = lastSegment (pathText W) := by
        have e := (dir_of_slash ('/' :: '.' :: d) h3).2
        have e2 : '/' :: '.' :: d ++ '/' :: lastSegment (pathText W) = '/' :: '.' :: pathText W := by
          rw [← h2]; simp [dir_of_slash d h3]
        rwa [e2] at e
      rw [this]
      exact key
  · exact key

/-- **C63**: a base may be normalized first unless its path ends in a segment `..`. -/
theorem C63_normalized_base (S : Spec) (base : Str) (hb : validate_uri S base = some true)
    (h : pctDecode (lastSegment (RiReferenceStr.path_str base)) ≠ [0x2E, 0x2E]) :
    ∃ n, normalize S base = some n ∧ validate_uri S n = some true ∧
      ∀ ref, validate_uri_reference S ref = some true →
        resolve S .default n ref = resolve S .default base ref := by
  obtain ⟨n, hn, hv, he⟩ := C49_equivalent_to_normal_form S base hb
  refine ⟨n, hn, hv, fun ref hr => ?_⟩
  obtain ⟨r, hrv, rfl⟩ := reference_parts hr
  refine (C63_base S base n _ _ hb hv he h ?_ ⟨r, r, ⟨hrv, rfl⟩, ⟨hrv, rfl⟩, sameReference_refl S r hrv⟩).symm
  obtain ⟨b, hbv, hbs, rfl⟩ := iri_parts' hb
  rw [normalize_eq hbv hbs] at hn
  cases hn
  simp only [RiReferenceStr.path_str, (normParts_valid (op := .default) hbv hbs).delim.extract_path_eq]
  exact lastSegment_normal hbv

/-- Concrete cases: the hypotheses are met. -/
example : resolve .uri .default (chars! "HTTP://h/a/./b%2f/c/%2E?q") (chars! "../%7Ex") =
    some (chars! "http://h/a/b%2F/~x") ∧
    resolve .uri .default (chars! "http://h/a/b%2F/c/") (chars! "%2e%2e/~x") =
      some (chars! "http://h/a/b%2F/~x") := by decide +kernel

example : EquivalentText .uri (chars! "HTTP://h/a/./b%2f/c/%2E") (chars! "http://h/a/b%2F/c/") ∧
    pctDecode (lastSegment (RiReferenceStr.path_str (chars! "HTTP://h/a/./b%2f/c/%2E"))) ≠ [0x2E, 0x2E] ∧
    pctDecode (lastSegment (RiReferenceStr.path_str (chars! "http://h/a/b%2F/c/"))) ≠ [0x2E, 0x2E] :=
  ⟨(C49_canonical .uri _ _ (by decide +kernel) (by decide +kernel)).1 (by decide +kernel),
    by decide +kernel, by decide +kernel⟩

/-- Two different spellings of a reference that is merged with the path of the base. -/
example : SameReferenceText .uri (chars! "%7ex") (chars! "~x") := by
  have key : ∀ s t : Str, PC (pcharSlashC .uri) s → PC (pcharSlashC .uri) t → s.take 1 ≠ ['/'] →
      t.take 1 ≠ ['/'] → ':' ∉ s → ':' ∉ t → pctn .uri s = pctn .uri t →
      SameReferenceText .uri (⟨none, none, s, none, none⟩ : Parts).recompose
        (⟨none, none, t, none, none⟩ : Parts).recompose := by
    intro s t hs ht h1 h2 h3 h4 h
    have hv : ∀ s, PC (pcharSlashC .uri) s → s.take 1 ≠ ['/'] → ':' ∉ s →
        (⟨none, none, s, none, none⟩ : Parts).Valid .uri := by
      intro s hs h1 h3
      refine ⟨by simp, by simp, path_iff.2 hs, by simp, by simp, by simp, ?_, ?_⟩
      · intro _ t e; exact h1 (by simp only at e; rw [e]; rfl)
      · rintro _ _ ⟨a, b, rfl, _⟩; exact h3 (by simp)
    exact ⟨_, _, ⟨hv s hs h1 h3, rfl⟩, ⟨hv t ht h2 h4, rfl⟩, rfl, trivial,
      .inl ((pctEquiv_iff hs.wf ht.wf).2 h), trivial, trivial⟩
  exact key (chars! "%7ex") (chars! "~x") (.pct (by decide) (by decide) (.chr (by decide) (by decide +kernel) .nil))
    (.chr (by decide) (by decide +kernel) (.chr (by decide) (by decide +kernel) .nil)) (by decide) (by decide)
    (by decide) (by decide) (by decide +kernel)

/-- The condition is needed: merging drops the last segment of the base before dot segments are removed
(RFC 3986 section 5.2.3), so `a:/b/..` is not the same base as its normal form `a:/`. -/
theorem C63_condition_needed : ∃ base n ref t t', validate_uri .uri base = some true ∧
    normalize .uri base = some n ∧ validate_uri_reference .uri ref = some true ∧
    resolve .uri .default base ref = some t ∧ resolve .uri .default n ref = some t' ∧ t ≠ t' :=
  ⟨chars! "a:/b/%2E.", chars! "a:/", chars! "c", chars! "a:/b/c", chars! "a:/c", by decide +kernel,
    by decide +kernel, by decide +kernel, by decide +kernel, by decide +kernel, by decide +kernel⟩

end Verif
