import Verif.Props.Resolve

/-!
# C16-C18, C20, C21, C40: normalization

`Rfc.Normal` (`Spec/Normalize.lean`) is what normalization should do to the five components.
-/

namespace Verif

open Rfc PathToNormalize

/-- **C17** (and C16, C20, C40): normalization never panics on a valid IRI; what it displays is the
recomposition of the normal form of the components. -/
theorem C17_normalize_spec (S : Spec) (s : Str) (h : validate_uri S s = some true) :
    ∃ p q : Parts, (p.Valid S ∧ p.recompose = s) ∧ q.Valid S ∧ Normal S false p q ∧
      normalize S s = some q.recompose := by
  obtain ⟨p, hv, hs, rfl⟩ := iri_parts' h
  exact ⟨p, _, ⟨hv, rfl⟩, normParts_valid hv hs, normParts_spec (op := .default) hv rfl,
    normalize_eq hv hs⟩

/-- **C17** for `normalize_but_preserve_authorityless_relative_path`. -/
theorem C17_normalize_preserve_spec (S : Spec) (s : Str) (h : validate_uri S s = some true) :
    ∃ p q : Parts, (p.Valid S ∧ p.recompose = s) ∧ q.Valid S ∧ Normal S true p q ∧
      normalize_but_preserve_authorityless_relative_path S s = some q.recompose := by
  obtain ⟨p, hv, hs, rfl⟩ := iri_parts' h
  exact ⟨p, _, ⟨hv, rfl⟩, normParts_valid hv hs, normParts_spec (op := .preserve) hv rfl,
    normalize_preserve_eq hv hs⟩

/-- **C17**: the output of both normalizations is valid, of the same type and spec. -/
theorem C17_normalize_valid (S : Spec) (s : Str) (h : validate_uri S s = some true) :
    (∃ t, normalize S s = some t ∧ validate_uri S t = some true) ∧
    (∃ t, normalize_but_preserve_authorityless_relative_path S s = some t ∧
      validate_uri S t = some true) := by
  obtain ⟨p, hv, hs, rfl⟩ := iri_parts' h
  exact ⟨⟨_, normalize_eq hv hs, validate_uri_of_parts (normParts_valid hv hs) (normParts_scheme hs)⟩,
    ⟨_, normalize_preserve_eq hv hs,
      validate_uri_of_parts (normParts_valid hv hs) (normParts_scheme hs)⟩⟩

theorem validate_absolute_of_parts {S : Spec} (s : Str) : validate_absolute_uri S s = some true ↔
    ∃ p : Parts, p.Valid S ∧ p.scheme ≠ none ∧ (p.fragment = none ∨ p.fragment = some []) ∧
      p.recompose = s := by
  obtain ⟨b, h1, h2⟩ := common_valid S s .AbsoluteWithoutFragment
  unfold validate_absolute_uri
  rw [h1]
  have : b = true ↔ ∃ p : Parts, p.Valid S ∧ p.scheme ≠ none ∧
      (p.fragment = none ∨ p.fragment = some []) ∧ p.recompose = s := by
    rw [h2]
    constructor
    · rintro ⟨p, hv, h3, h4, he⟩
      exact ⟨p, hv, fun h => by simpa [UriReferenceRule.is_relative_allowed] using h3 h, h4 rfl, he⟩
    · rintro ⟨p, hv, h3, h4, he⟩
      exact ⟨p, hv, fun h => absurd h h3, fun _ => h4, he⟩
  rw [← this]
  simp

/-- **C17** for `RiAbsoluteStr`: the output is accepted by the same type. -/
theorem C17_normalize_absolute (S : Spec) (s : Str) (h : validate_absolute_uri S s = some true) :
    (∃ t, normalize S s = some t ∧ validate_absolute_uri S t = some true) ∧
    (∃ t, normalize_but_preserve_authorityless_relative_path S s = some t ∧
      validate_absolute_uri S t = some true) := by
  obtain ⟨p, hv, hs, hf, rfl⟩ := (validate_absolute_of_parts s).1 h
  have key : ∀ op, (normParts S op p).fragment = none ∨ (normParts S op p).fragment = some [] := by
    intro op
    rcases hf with hf | hf
    · left; simp [normParts, hf]
    · right; simp [normParts, hf, wr_nil]
  exact ⟨⟨_, normalize_eq hv hs, (validate_absolute_of_parts _).2
      ⟨_, normParts_valid hv hs, normParts_scheme hs, key _, rfl⟩⟩,
    ⟨_, normalize_preserve_eq hv hs, (validate_absolute_of_parts _).2
      ⟨_, normParts_valid hv hs, normParts_scheme hs, key _, rfl⟩⟩⟩

/-- **C18**: normalization is idempotent, in both modes. -/
theorem C18_normalize_idempotent (S : Spec) (s : Str) (h : validate_uri S s = some true) :
    (∃ t, normalize S s = some t ∧ normalize S t = some t) ∧
    (∃ t, normalize_but_preserve_authorityless_relative_path S s = some t ∧
      normalize_but_preserve_authorityless_relative_path S t = some t) := by
  obtain ⟨p, hv, hs, rfl⟩ := iri_parts' h
  constructor
  · refine ⟨_, normalize_eq hv hs, ?_⟩
    rw [normalize_eq (normParts_valid hv hs) (normParts_scheme hs), normParts_idem hv (by simp)]
  · refine ⟨_, normalize_preserve_eq hv hs, ?_⟩
    rw [normalize_preserve_eq (normParts_valid hv hs) (normParts_scheme hs),
      normParts_idem hv (by simp)]

/-- **C18**: resolving and normalizing gives a normalized result. -/
theorem C18_resolve_normalized (S : Spec) (base ref : Str) (hb : validate_uri S base = some true)
    (hr : validate_uri_reference S ref = some true) :
    ∃ t, resolve S .default base ref = some t ∧ normalize S t = some t := by
  obtain ⟨b, hbv, hbs, rfl⟩ := iri_parts' hb
  obtain ⟨r, hrv, rfl⟩ := reference_parts hr
  obtain ⟨hm, hms⟩ := merge_valid hbv hbs hrv
  refine ⟨_, resolve_norm_eq hbv hbs hrv rfl, ?_⟩
  rw [normalize_eq (normParts_valid hm hms) (normParts_scheme hms), normParts_idem hm (by simp)]

/-! ### C16 -/

/-- **C16**: the path displayed by `normalize` is RFC 3986 `remove_dot_segments` of the path
(percent-encoded dots included), percent-encoding-normalized and escaped. -/
theorem C16_normalize_path (S : Spec) (s : Str) (h : validate_uri S s = some true) :
    ∃ t, normalize S s = some t ∧
      PathNorm S (RiReferenceStr.authority_str s).isSome (RiReferenceStr.path_str s)
        (RiReferenceStr.path_str t) := by
  obtain ⟨p, hv, hs, rfl⟩ := iri_parts' h
  refine ⟨_, normalize_eq hv hs, ?_⟩
  simp only [RiReferenceStr.path_str, RiReferenceStr.authority_str, hv.delim.extract_path_eq,
    hv.delim.extract_authority_eq, (normParts_valid hv hs).delim.extract_path_eq]
  exact (normParts_spec (op := .default) hv rfl).path (by simp)

theorem pathn_notDot {S : Spec} {op : NormalizationMode} {auth : Bool} {s : Str} (h : TextOK op s)
    (hc : ¬ (op = .preserve ∧ auth = false ∧ s ≠ [] ∧ s.take 1 ≠ ['/'])) :
    (∀ n ∈ splitSlash (pathn S op auth s), NotDot n) ∨
      (auth = false ∧ ∃ rest, pathn S op auth s = '/' :: '.' :: '/' :: '/' :: rest ∧
        ∀ n ∈ splitSlash rest, NotDot n) := by
  unfold pathn
  rw [if_neg hc, wr_rds h]
  have hnames := rdsSegs_textOK h
  have hokW : OKSegs (wrSegs S op (rdsSegs s)) := wrSegs_ok hnames (rdsSegs_ok s)
  have hdW := wrSegs_dots (S := S) hnames rdsSegs_mem
  have hnd : ∀ n ∈ splitSlash (pathText (wrSegs S op (rdsSegs s))), NotDot n := by
    intro n hn
    rcases splitSlash_pathSegs hokW hn with rfl | ⟨g, hg, rfl⟩
    · exact notDot_nil
    · exact (notDot_iff g).1 (hdW g hg)
  generalize pathText (wrSegs S op (rdsSegs s)) = y at hnd
  unfold escapePath
  split
  · rename_i hesc
    right
    simp only [Bool.and_eq_true, Bool.not_eq_true'] at hesc
    obtain ⟨rest, rfl⟩ := take2_slash.1 hesc.2
    refine ⟨hesc.1, rest, rfl, ?_⟩
    intro n hn
    apply hnd
    rw [splitSlash_slash, splitSlash_slash]
    simp [hn]
  · exact .inl hnd

/-- **C16**: no dot segment, in any spelling, survives `normalize`, except for the `/.` escape. -/
theorem C16_normalize_no_dots (S : Spec) (s : Str) (h : validate_uri S s = some true) :
    ∃ t, normalize S s = some t ∧
      ((∀ n ∈ splitSlash (RiReferenceStr.path_str t), NotDot n) ∨
        (RiReferenceStr.authority_str t = none ∧
          ∃ rest, RiReferenceStr.path_str t = '/' :: '.' :: '/' :: '/' :: rest ∧
            ∀ n ∈ splitSlash rest, NotDot n)) := by
  obtain ⟨p, hv, hs, rfl⟩ := iri_parts' h
  refine ⟨_, normalize_eq hv hs, ?_⟩
  have hd := (normParts_valid (op := .default) hv hs).delim
  simp only [RiReferenceStr.path_str, RiReferenceStr.authority_str, hd.extract_path_eq,
    hd.extract_authority_eq]
  rcases pathn_notDot (S := S) (auth := p.authority.isSome) (hv.textOK (op := .default)) (by simp)
    with h | ⟨ha, h⟩
  · exact .inl h
  · right
    refine ⟨?_, h⟩
    have := normParts_isSome (S := S) (op := .default) (p := p)
    rw [ha] at this
    simpa using this

/-! ### C20 -/

/-- Reserved characters written literally: what gives a text its structure. -/
def reservedToks (ts : List Tok) : List Tok :=
  ts.filter fun t => match t with
    | .ch c => gen_delims c || sub_delims c
    | .pct _ => false

theorem PctNorm.reserved {S : Spec} {r t : List Tok} (h : PctNorm S r t) :
    reservedToks r = reservedToks t := by
  induction h with
  | nil => rfl
  | ch _ ih =>
    unfold reservedToks at ih ⊢
    simp only [List.filter_cons, ih]
  | @decode c r t hc _ ih =>
    unfold reservedToks at ih ⊢
    rw [List.filter_append, ih]
    have h1 : ((utf8 c).map Tok.pct).filter (fun t => match t with
        | .ch c => gen_delims c || sub_delims c
        | .pct _ => false) = [] := by
      rw [List.filter_eq_nil_iff]
      intro x hx
      obtain ⟨b, _, rfl⟩ := List.mem_map.1 hx
      simp
    have h2 : (gen_delims c || sub_delims c) = false := by
      by_cases hl : c.toNat < 128
      · have key : ∀ n : Fin 128, iunreserved S (Char.ofNat n.val) = true →
            (gen_delims (Char.ofNat n.val) || sub_delims (Char.ofNat n.val)) = false := by
          cases S <;> decide +kernel
        exact ascii_forall (P := fun c => iunreserved S c = true →
          (gen_delims c || sub_delims c) = false) key c hl hc
      · have hl' : 128 ≤ c.toNat := by omega
        rw [sub_delims_false hl']
        simp [gen_delims, beq_false_of_nonascii hl']
    rw [h1, List.nil_append, List.filter_cons, if_neg (by simp [h2])]
  | keep _ _ ih =>
    unfold reservedToks at ih ⊢
    simp only [List.filter_cons, ih]
    try simp

/-- The meaning-preserving relation between a text and its percent-encoding normal form. -/
structure SameMeaning (S : Spec) (x y : Str) : Prop where
  /-- both percent-decode to the same bytes -/
  bytes : pctDecode x = pctDecode y
  /-- the literal delimiters are the same, in the same order: no reserved triplet was decoded -/
  delimiters : reservedToks (tokens x) = reservedToks (tokens y)
  /-- every new literal character is unreserved -/
  decoded : ∀ c, Tok.ch c ∈ tokens y → Tok.ch c ∈ tokens x ∨ iunreserved S c = true
  /-- the output has upper-case triplets only, and nothing else to decode -/
  normal : PctNormText S y y

/-- **C20** (about the relation used in the specification). -/
theorem C20_pctNormText_meaning (S : Spec) (x y : Str) (hx : PC (fun _ => true) x)
    (h : PctNormText S x y) : SameMeaning S x y ∧ ∀ z, PctNormText S x z → z = y := by
  obtain ⟨ts, h1, rfl⟩ := h
  have hok := h1.ok (tokens_ok hx)
  refine ⟨⟨?_, ?_, ?_, ?_⟩, ?_⟩
  · unfold pctDecode; rw [tokens_render hok, h1.bytes]
  · rw [tokens_render hok, h1.reserved]
  · rw [tokens_render hok]; exact fun c hc => h1.mem_ch hc
  · exact ⟨ts, by rw [tokens_render hok]; exact h1.idem, rfl⟩
  · rintro z ⟨us, h2, rfl⟩; rw [h1.det h2]

/-- **C20**: normalization of a valid IRI keeps the meaning of the query and the fragment. -/
theorem C20_query_fragment (S : Spec) (s : Str) (h : validate_uri S s = some true) :
    ∃ t q q', normalize S s = some t ∧ RiReferenceStr.query_str s = some q ∧
      RiReferenceStr.query_str t = some q' ∧ OptRel (SameMeaning S) q q' ∧
      OptRel (SameMeaning S) (RiReferenceStr.fragment_str s) (RiReferenceStr.fragment_str t) := by
  obtain ⟨p, hv, hs, rfl⟩ := iri_parts' h
  have hd := (normParts_valid (op := .default) hv hs).delim
  refine ⟨_, p.query, _, normalize_eq hv hs, hv.delim.extract_query_eq, hd.extract_query_eq, ?_, ?_⟩
  · have := (normParts_spec (op := .default) hv rfl).query
    unfold normParts at this ⊢
    simp only at this ⊢
    cases hq : p.query with
    | none => trivial
    | some x =>
      rw [hq] at this
      exact (C20_pctNormText_meaning S _ _ (query_wf hv hq) this).1
  · simp only [RiReferenceStr.fragment_str, hv.delim.extract_fragment_eq, hd.extract_fragment_eq]
    have := (normParts_spec (op := .default) hv rfl).fragment
    unfold normParts at this ⊢
    simp only at this ⊢
    cases hq : p.fragment with
    | none => trivial
    | some x =>
      rw [hq] at this
      exact (C20_pctNormText_meaning S _ _ (fragment_wf hv hq) this).1

/-- **C20**: a path without dot segments (and without the escape) keeps its meaning; so does an
opaque path in the preserving mode. -/
theorem C20_path (S : Spec) (s : Str) (h : validate_uri S s = some true)
    (hd : ∀ n ∈ splitSlash (RiReferenceStr.path_str s), NotDot n) :
    ∃ t, normalize S s = some t ∧
      SameMeaning S (RiReferenceStr.path_str s) (RiReferenceStr.path_str t) := by
  obtain ⟨p, hv, hs, rfl⟩ := iri_parts' h
  refine ⟨_, normalize_eq hv hs, ?_⟩
  simp only [RiReferenceStr.path_str, hv.delim.extract_path_eq,
    (normParts_valid hv hs).delim.extract_path_eq] at hd ⊢
  have hr := C16_no_dots_unchanged p.path hd
  have hwf := hv.pathPC.wf
  have e : (normParts S .default p).path = pctn S p.path := by
    unfold normParts pathn
    simp only [hr]
    rw [if_neg (by simp)]
    rw [wr, if_pos (by rfl)]
    unfold escapePath
    rw [if_neg]
    intro hesc
    simp only [Bool.and_eq_true, Bool.not_eq_true', Option.isSome_eq_false_iff,
      Option.isNone_iff_eq_none] at hesc
    obtain ⟨r, hr2⟩ := take2_slash.1 hesc.2
    obtain ⟨r1, hr1⟩ : ∃ r1, p.path = '/' :: r1 := pctn_head hwf hr2
    rw [hr1] at hwf hr2
    have hwf1 : WF r1 := ((PC_cons (by decide)).1 hwf).2
    rw [pctn_ch S (by decide) hwf1] at hr2
    obtain ⟨r2, hr3⟩ := pctn_head hwf1 (List.cons.inj hr2).2
    exact hv.withoutAuthority hesc.1 r2 (by rw [hr1, hr3])
  rw [e]
  exact (C20_pctNormText_meaning S _ _ hwf (pctn_text hwf)).1

/-! ### C40 -/

/-- **C40**: scheme, user info, host and port of the normalized text. -/
theorem C40_scheme_host_port (S : Spec) (s : Str) (h : validate_uri S s = some true) :
    ∃ t, normalize S s = some t ∧
      (∃ x, RiReferenceStr.scheme_str s = some x ∧ RiReferenceStr.scheme_str t = some (x.map lower)) ∧
      (match RiReferenceStr.authority_components s, RiReferenceStr.authority_components t with
        | none, none => True
        | some a, some b => ∃ u h p u' h' p', a.userinfo = some u ∧ a.host = some h ∧ a.port = some p ∧
            b.userinfo = some u' ∧ b.host = some h' ∧ b.port = some p' ∧
            OptRel (PctNormText S) u u' ∧ HostNorm S h h' ∧ p' = if p = some [] then none else p
        | _, _ => False) := by
  obtain ⟨p, hv, hs, rfl⟩ := iri_parts' h
  obtain ⟨x, hx⟩ := Option.ne_none_iff_exists'.1 hs
  have hn := normParts_valid (op := .default) hv hs
  refine ⟨_, normalize_eq hv hs, ⟨x, ?_, ?_⟩, ?_⟩
  · exact hv.delim.extract_scheme_eq.trans hx
  · refine hn.delim.extract_scheme_eq.trans ?_
    simp [normParts, hx, NormalizationMode.case_pct, lower_eq]
  · unfold RiReferenceStr.authority_components AuthorityComponents.from_iri
    rw [hv.delim.extract_authority_eq, hn.delim.extract_authority_eq]
    have e : (normParts S .default p).authority = p.authority.map (authn S) := by
      simp [normParts, NormalizationMode.case_pct]
    rw [e]
    cases ha : p.authority with
    | none => trivial
    | some y =>
      obtain ⟨a, hav, rfl⟩ := (authority_auth_parts S y).1 (hv.authority y ha)
      simp only [Option.map_some, authn_eq hav, decompose_authority_eq hav,
        decompose_authority_eq hav.norm]
      have sp := a.norm_spec hav
      exact ⟨_, _, _, _, _, _, offsets_userinfo a, offsets_host a, offsets_port a,
        offsets_userinfo _, offsets_host _, offsets_port _, sp.userinfo, sp.host, sp.port⟩

/-- **C40**: the scheme of the result contains no upper-case letter. -/
theorem C40_lower_case (s : Str) : ∀ c ∈ s.map lower, ¬ ('A' ≤ c ∧ c ≤ 'Z') := by
  intro c hc
  obtain ⟨d, _, rfl⟩ := List.mem_map.1 hc
  unfold lower
  split
  · rename_i h
    rw [char_le_iff, char_le_iff] at h ⊢
    simp only [show ('A' : Char).toNat = 65 from rfl, show ('Z' : Char).toNat = 90 from rfl] at h ⊢
    have : (Char.ofNat (d.toNat + 32)).toNat = d.toNat + 32 := by
      apply utf8_ofNat; left; omega
    rw [this]
    omega
  · assumption

/-! ### C21 -/

theorem utf8s_take {t : Str} {n b : Nat} {l : List Nat} (hb : b < 128)
    (h : (utf8s t).take (n + 1) = b :: l) : ∃ r, t = Char.ofNat b :: r ∧ (utf8s r).take n = l := by
  cases t with
  | nil => simp [utf8s_nil] at h
  | cons c r =>
    by_cases hc : c.toNat < 128
    · rw [utf8s_cons, utf8_ascii hc] at h
      simp at h
      refine ⟨r, ?_, h.2⟩
      rw [← h.1, ofNat_toNat]
    · exfalso
      have h1 := utf8_nonascii (c := c) (by omega)
      have h2 := utf8_ne_nil c
      rw [utf8s_cons] at h
      cases hu : utf8 c with
      | nil => exact h2 hu
      | cons x xs =>
        rw [hu] at h h1
        simp at h
        have := h1 x (by simp)
        omega

theorem prefix_iff (t : Str) : (prefixRetriever t == [47, 46, 47]) = true ↔
    ∃ r, t = '/' :: '.' :: '/' :: r := by
  unfold prefixRetriever
  rw [beq_iff_eq]
  constructor
  · intro h
    obtain ⟨r, rfl, h1⟩ := utf8s_take (by decide) h
    obtain ⟨r, rfl, h2⟩ := utf8s_take (by decide) h1
    obtain ⟨r, rfl, h3⟩ := utf8s_take (by decide) h2
    exact ⟨r, rfl⟩
  · rintro ⟨r, rfl⟩
    rw [utf8s_cons, utf8s_cons, utf8s_cons]
    rfl

/-- Without dot segments, only the escape starts with `/./`. -/
theorem escape_prefix (s : Str) : (∃ r, escapePath false (remove_dot_segments (undot s)) =
      '/' :: '.' :: '/' :: r) ↔ ∃ r, remove_dot_segments (undot s) = '/' :: '/' :: r := by
  have hnd := C16_no_dot_segments s
  generalize remove_dot_segments (undot s) = y at hnd
  constructor
  · rintro ⟨r, e⟩
    unfold escapePath at e
    split at e
    · rename_i h
      exact take2_slash.1 (by simpa using h)
    · exfalso
      subst e
      have := (hnd ['.'] (by
        rw [splitSlash_slash, show ('.' :: '/' :: r) = ['.'] ++ '/' :: r from rfl,
          splitSlash_append (by decide)]
        simp)).1
      exact this (by decide +kernel)
  · rintro ⟨r, rfl⟩
    exact ⟨'/' :: r, rfl⟩

theorem ensure_path (q : PathToNormalize) (hi : q.Inv) :
    ∃ b, q.ensure_rfc3986_normalizable_with_authority_absent = some b ∧
      (b = false ↔ ∃ r, remove_dot_segments (undot q.text) = '/' :: '/' :: r) := by
  unfold PathToNormalize.ensure_rfc3986_normalizable_with_authority_absent
  rw [pathn_write hi (fun h => by cases h) (fun h => by cases h)]
  refine ⟨_, rfl, ?_⟩
  rw [← escape_prefix, ← prefix_iff]
  unfold pathn
  rw [if_neg (by simp)]
  have : wr .uri .off = id := by funext s; rfl
  rw [this]
  simp

/-- **C21**: `ensure_rfc3986_normalizable()` does not panic and is `Ok` exactly if dot segment
removal leaves no path that starts with `//` while there is no authority. -/
theorem C21_ensure (S : Spec) (s : Str) (h : validate_uri S s = some true) :
    ∃ b, ensure_rfc3986_normalizable s = some b ∧
      (b = false ↔ RiReferenceStr.authority_str s = none ∧
        ∃ r, remove_dot_segments (undot (RiReferenceStr.path_str s)) = '/' :: '/' :: r) := by
  obtain ⟨p, hv, hs, rfl⟩ := iri_parts' h
  obtain ⟨x, hx⟩ := Option.ne_none_iff_exists'.1 hs
  unfold ensure_rfc3986_normalizable
  rw [from_iri_eq hv hx, Option.bind_some]
  simp only [RiReferenceStr.path_str, RiReferenceStr.authority_str, hv.delim.extract_path_eq,
    hv.delim.extract_authority_eq]
  unfold NormalizationInput.ensure_rfc3986_normalizable
  simp only
  cases ha : p.authority with
  | some a => exact ⟨true, rfl, by simp⟩
  | none =>
    have hi := from_single_path_inv p.path
    obtain ⟨b, h1, h2⟩ := ensure_path _ hi.1
    rw [hi.2] at h2
    exact ⟨b, by simpa using h1, by simpa using h2⟩

/-- The normalized path carries the escape exactly if dot segment removal calls for it. -/
theorem pathn_escaped {S : Spec} {auth : Bool} {s : Str} (hs : WF s) :
    (∃ r, pathn S .default auth s = '/' :: '.' :: '/' :: '/' :: r) ↔
      auth = false ∧ ∃ r, remove_dot_segments (undot s) = '/' :: '/' :: r := by
  have hT : TextOK .default s := fun _ => hs
  have hpn : pathn S .default auth s =
      escapePath auth (pctn S (remove_dot_segments (undot s))) := by
    unfold pathn
    rw [if_neg (by simp)]
    rfl
  have hwf : WF (remove_dot_segments (undot s)) := rds_PC rfl hs
  constructor
  · rintro ⟨r, e⟩
    rcases pathn_notDot (S := S) (auth := auth) hT (by simp) with h3 | ⟨ha, _⟩
    · exfalso
      rw [e] at h3
      have := (h3 ['.'] (by
        rw [splitSlash_slash, show ('.' :: '/' :: '/' :: r) = ['.'] ++ '/' :: '/' :: r from rfl,
          splitSlash_append (by decide)]
        simp)).1
      exact this (by decide +kernel)
    · refine ⟨ha, ?_⟩
      rw [hpn, ha] at e
      unfold escapePath at e
      split at e
      · rename_i hesc
        obtain ⟨r', e'⟩ := take2_slash.1 (by simpa using hesc)
        obtain ⟨t, et⟩ := pctn_head hwf e'
        rw [et] at hwf e' ⊢
        have hwf1 := ((PC_cons (by decide)).1 hwf).2
        rw [pctn_ch S (by decide) hwf1] at e'
        obtain ⟨t2, et2⟩ := pctn_head hwf1 (List.cons.inj e').2
        exact ⟨t2, by rw [et2]⟩
      · exfalso
        -- a normalized path without escape cannot start with `/./`
        have hk := wr_rds (S := S) hT
        rw [wr, if_pos (by rfl), e] at hk
        have hokW := wrSegs_ok (S := S) (rdsSegs_textOK hT) (rdsSegs_ok s)
        have hdW := wrSegs_dots (S := S) (rdsSegs_textOK hT) rdsSegs_mem
        have hmem : ['.'] ∈ splitSlash (pathText (wrSegs S .default (rdsSegs s))) := by
          rw [← hk, splitSlash_slash,
            show ('.' :: '/' :: '/' :: r) = ['.'] ++ '/' :: '/' :: r from rfl,
            splitSlash_append (by decide)]
          simp
        rcases splitSlash_pathSegs hokW hmem with h5 | ⟨g, hg, h5⟩
        · cases h5
        · have := ((notDot_iff g).1 (hdW g hg)).1
          rw [h5] at this
          exact this (by decide +kernel)
  · rintro ⟨ha, r, e⟩
    rw [hpn, ha, e]
    rw [e] at hwf
    have h1 := ((PC_cons (by decide)).1 hwf).2
    have h2 := ((PC_cons (by decide)).1 h1).2
    rw [pctn_ch S (by decide) h1, pctn_ch S (by decide) h2]
    exact ⟨pctn S r, rfl⟩

/-- **C21**, in terms of the output: `Ok` exactly if the normalized path does not carry the `/.`
escape. -/
theorem C21_ensure_output (S : Spec) (s : Str) (h : validate_uri S s = some true) :
    ∃ b t, ensure_rfc3986_normalizable s = some b ∧ normalize S s = some t ∧
      (b = false ↔ ∃ r, RiReferenceStr.path_str t = '/' :: '.' :: '/' :: '/' :: r) := by
  obtain ⟨b, h1, h2⟩ := C21_ensure S s h
  obtain ⟨p, hv, hs, rfl⟩ := iri_parts' h
  refine ⟨b, _, h1, normalize_eq hv hs, ?_⟩
  rw [h2]
  simp only [RiReferenceStr.path_str, RiReferenceStr.authority_str, hv.delim.extract_path_eq,
    hv.delim.extract_authority_eq, (normParts_valid hv hs).delim.extract_path_eq]
  refine Iff.trans ?_ (pathn_escaped (S := S) (auth := p.authority.isSome) hv.pathPC.wf).symm
  simp

/-- **C21** for the result of `resolve` without normalization: `Ok` exactly if the target of
RFC 3986 5.2.2 needs no escape. -/
theorem C21_resolve (S : Spec) (base ref : Str) (hb : validate_uri S base = some true)
    (hr : validate_uri_reference S ref = some true) :
    ∃ b r : Parts, ∃ ok, (b.Valid S ∧ b.recompose = base) ∧ (r.Valid S ∧ r.recompose = ref) ∧
      resolve_ensure_rfc3986_normalizable base ref = some ok ∧
      (ok = false ↔ (transform b r).authority = none ∧
        ∃ t, (transform b r).path = '/' :: '/' :: t) := by
  obtain ⟨b, hbv, hbs, rfl⟩ := iri_parts' hb
  obtain ⟨r, hrv, rfl⟩ := reference_parts hr
  obtain ⟨hm, hms⟩ := merge_valid hbv hbs hrv
  obtain ⟨x, np, hx, hin, h1, h2⟩ := resolution_input hbv hbs hrv
  unfold resolve_ensure_rfc3986_normalizable
  rw [hin, Option.bind_some]
  unfold NormalizationInput.ensure_rfc3986_normalizable
  simp only [transform_eq]
  cases h : samePath r with
  | true =>
    rw [h1 h]
    refine ⟨b, r, true, ⟨hbv, rfl⟩, ⟨hrv, rfl⟩, by simp, ?_⟩
    rw [h]
    simp only [if_true, Bool.true_eq_false, false_iff, not_and, not_exists]
    exact fun ha t => hm.withoutAuthority ha t
  | false =>
    obtain ⟨q, rfl, hi, ht⟩ := h2 h
    cases ha : (mergeReference b r).authority with
    | some a => exact ⟨b, r, true, ⟨hbv, rfl⟩, ⟨hrv, rfl⟩, by simp, by simp [ha, h]⟩
    | none =>
      obtain ⟨ok, h3, h4⟩ := ensure_path _ hi
      rw [ht] at h4
      exact ⟨b, r, ok, ⟨hbv, rfl⟩, ⟨hrv, rfl⟩, by simpa using h3, by simpa [ha, h] using h4⟩

/-- **C21** for `resolve` followed by `and_normalize`, exactly: with a reference that is not
same-document, `Ok` exactly if the displayed path does not carry the `/.` escape; with a same-document
reference, always `Ok` (whatever is displayed, see `C21_resolve_and_normalize_refuted`). -/
theorem C21_resolve_and_normalize_exact (S : Spec) (base ref : Str) (hb : validate_uri S base = some true)
    (hr : validate_uri_reference S ref = some true) :
    ∃ ok t, resolve_ensure_rfc3986_normalizable base ref = some ok ∧
      resolve S .default base ref = some t ∧
      (RiReferenceStr.scheme_str ref ≠ none ∨ RiReferenceStr.authority_str ref ≠ none ∨
          RiReferenceStr.path_str ref ≠ [] →
        (ok = false ↔ ∃ r, RiReferenceStr.path_str t = '/' :: '.' :: '/' :: '/' :: r)) ∧
      (RiReferenceStr.scheme_str ref = none ∧ RiReferenceStr.authority_str ref = none ∧
          RiReferenceStr.path_str ref = [] → ok = true) := by
  obtain ⟨b0, r0, ok, ⟨hb0, e0⟩, ⟨hr0, e1⟩, h1, h2⟩ := C21_resolve S base ref hb hr
  obtain ⟨b, hbv, hbs, rfl⟩ := iri_parts' hb
  obtain ⟨r, hrv, rfl⟩ := reference_parts hr
  have eb := recompose_inj hb0.delim hbv.delim e0
  have er := recompose_inj hr0.delim hrv.delim e1
  subst eb er
  obtain ⟨hm, hms⟩ := merge_valid hbv hbs hrv
  refine ⟨ok, _, h1, resolve_norm_eq hbv hbs hrv (op := .default) rfl, ?_, ?_⟩
  · intro hne
    rw [h2]
    simp only [RiReferenceStr.path_str, RiReferenceStr.authority_str, RiReferenceStr.scheme_str,
      hrv.delim.extract_path_eq, hrv.delim.extract_scheme_eq,
      hrv.delim.extract_authority_eq, (normParts_valid hm hms).delim.extract_path_eq] at hne ⊢
    have hsp : samePath r0 = false := by
      rw [Bool.eq_false_iff]
      intro hsp
      simp only [samePath, Bool.and_eq_true, Option.isNone_iff_eq_none, List.isEmpty_iff] at hsp
      simp [hsp] at hne
    refine Iff.trans ?_ (pathn_escaped (S := S) (auth := (mergeReference b0 r0).authority.isSome)
      hm.pathPC.wf).symm
    rw [transform_eq, hsp]
    simp
  · intro he
    simp only [RiReferenceStr.path_str, RiReferenceStr.authority_str, RiReferenceStr.scheme_str,
      hrv.delim.extract_path_eq, hrv.delim.extract_scheme_eq,
      hrv.delim.extract_authority_eq] at he
    have hsp : samePath r0 = true := by simp [samePath, he]
    cases ok with
    | true => rfl
    | false =>
      exfalso
      obtain ⟨ha, t, ht⟩ := h2.1 rfl
      rw [transform_eq, hsp] at ha ht
      exact hm.withoutAuthority ha t ht

/-- **C21 is false of the code** for `resolve` followed by `and_normalize`: a same-document
reference takes the base path as it is and the check says `Ok`, but normalizing it needs the
escape. -/
theorem C21_resolve_and_normalize_refuted :
    validate_absolute_uri .uri (chars! "foo:/a/..//b") = some true ∧
    validate_uri_reference .uri (chars! "#f") = some true ∧
    resolve_ensure_rfc3986_normalizable (chars! "foo:/a/..//b") (chars! "#f") = some true ∧
    resolve .uri .default (chars! "foo:/a/..//b") (chars! "#f") = some (chars! "foo:/.//b#f") := by
  decide +kernel

/-! ### The hypotheses are met: concrete cases -/

example : validate_uri .iri (chars! "HTTP://U%73er@EXAMPLE.%63om:/a/./b/../%7e%c3%a9?%61#%2f") = some true ∧
    normalize .iri (chars! "HTTP://U%73er@EXAMPLE.%63om:/a/./b/../%7e%c3%a9?%61#%2f") =
      some (chars! "http://User@example.com/a/~é?a#%2F") := by decide +kernel
example : validate_absolute_uri .uri (chars! "s:a/../b") = some true ∧
    normalize_but_preserve_authorityless_relative_path .uri (chars! "S:a/../%62") =
      some (chars! "s:a/../b") := by decide +kernel
example : ensure_rfc3986_normalizable (chars! "foo:/a/..//b") = some false ∧
    normalize .uri (chars! "foo:/a/..//b") = some (chars! "foo:/.//b") := by decide +kernel
example : PC (fun _ => true) (chars! "a%2fb") := by
  have := (satisfy_iff (fun _ => true) (fun _ => true) (chars! "a%2fb")).1 (by decide +kernel)
  exact this.mono (fun _ _ => rfl)

end Verif
