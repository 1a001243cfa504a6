import Verif.Lemmas.Contain
import Verif.Props.ResolveEquiv
import Verif.Props.IsNormalized

/-!
# C68: a resolved reference stays in the directory of the base

A relative path that never climbs above the place where it starts (`Rfc.staysBelow`, `Spec/Contain.lean`)
resolves to an IRI that begins with what the reference `.` resolves to; every other relative path leaves
the directory of some base.
-/

namespace Verif

open Rfc PathToNormalize

/-- A reference that is a relative path: no scheme, no authority, and a path that neither is empty nor
starts with a slash. -/
structure RelativePath (ref : Str) : Prop where
  scheme : RiReferenceStr.scheme_str ref = none
  authority : RiReferenceStr.authority_str ref = none
  nonempty : RiReferenceStr.path_str ref ≠ []
  relative : ∀ t, RiReferenceStr.path_str ref ≠ '/' :: t

theorem relativePath_parts {S : Spec} {r : Parts} (hr : r.Valid S) (h : RelativePath r.recompose) :
    r.scheme = none ∧ r.authority = none ∧ r.path ≠ [] ∧ (r.path.take 1 == ['/']) = false ∧
      RiReferenceStr.path_str r.recompose = r.path := by
  obtain ⟨h1, h2, h3, h4⟩ := h
  simp only [RiReferenceStr.scheme_str, hr.delim.extract_scheme_eq, RiReferenceStr.authority_str,
    hr.delim.extract_authority_eq, RiReferenceStr.path_str, hr.delim.extract_path_eq] at h1 h2 h3 h4 ⊢
  refine ⟨h1, h2, h3, ?_, trivial⟩
  cases hb : r.path.take 1 == ['/'] with
  | false => rfl
  | true =>
    rw [beq_iff_eq, take1_slash] at hb
    obtain ⟨t, e⟩ := hb
    exact absurd e (h4 t)

theorem merge_relative {b r : Parts} (h1 : r.scheme = none) (h2 : r.authority = none) (h3 : r.path ≠ [])
    (h4 : (r.path.take 1 == ['/']) = false) :
    mergeReference b r = ⟨b.scheme, b.authority, mergeDir b ++ r.path, r.query, r.fragment⟩ ∧
      samePath r = false := by
  have h3' : r.path.isEmpty = false := by simpa using h3
  constructor
  · unfold mergeReference
    simp [h1, h2, h3, h4, mergePaths_eq]
  · unfold samePath
    simp [h3']

/-- The parts of what a relative path resolves to. -/
def relTarget (S : Spec) (norm : Bool) (b r : Parts) : Parts :=
  if norm then ⟨b.scheme.map (List.map toLower), b.authority.map (authn S),
    escapePath b.authority.isSome (npath S (mergeDir b ++ r.path)), r.query.map (pctn S),
    r.fragment.map (pctn S)⟩
  else ⟨b.scheme, b.authority,
    escapePath b.authority.isSome (remove_dot_segments (undot (mergeDir b ++ r.path))), r.query, r.fragment⟩

/-- Plain resolution or resolution with normalization. -/
def modeOf (norm : Bool) : NormalizationMode := if norm then .default else .off

theorem resolve_relative {S : Spec} {b r : Parts} (norm : Bool) (hb : b.Valid S) (hs : b.scheme ≠ none)
    (hr : r.Valid S) (h1 : r.scheme = none) (h2 : r.authority = none) (h3 : r.path ≠ [])
    (h4 : (r.path.take 1 == ['/']) = false) :
    resolve S (modeOf norm) b.recompose r.recompose = some (relTarget S norm b r).recompose ∧
      (relTarget S norm b r).Valid S := by
  obtain ⟨hm, hms⟩ := merge_valid hb hs hr
  obtain ⟨e, e'⟩ := merge_relative (b := b) h1 h2 h3 h4
  cases norm with
  | true =>
    have hv := normParts_valid (op := .default) hm hms
    have := resolve_norm_eq (op := .default) hb hs hr rfl
    rw [normParts_mk, e] at hv this
    exact ⟨this, hv⟩
  | false =>
    have hv := normParts_valid (op := .off) hm hms
    have := resolve_off_eq hb hs hr
    rw [normParts_off] at hv
    rw [transform_eq, e'] at this
    simp only [Bool.false_eq_true, if_false] at this
    rw [e] at hv this
    exact ⟨this, hv⟩

theorem recompose_prefix {s a : Option Str} {p p' : Str} (q f : Option Str) (h : p <+: p') :
    Parts.recompose ⟨s, a, p, none, none⟩ <+: Parts.recompose ⟨s, a, p', q, f⟩ := by
  obtain ⟨y, rfl⟩ := h
  refine ⟨y ++ Parts.recompose ⟨none, none, [], q, f⟩, ?_⟩
  cases s <;> cases a <;> cases q <;> cases f <;> simp [Parts.recompose, optSuf, optPre]

/-- **C68**: a relative path that stays below the place where it starts resolves, against every base, to an
IRI that begins with the directory of the base (what the reference `.` resolves to): as a text, and with
the same scheme, the same authority, and a path that begins with the path of the directory. -/
theorem C68_contained (S : Spec) (norm : Bool) (base ref : Str) (hb : validate_uri S base = some true)
    (hr : validate_uri_reference S ref = some true) (hrel : RelativePath ref)
    (h : staysBelow 0 (splitSlash (RiReferenceStr.path_str ref)) = true) :
    ∃ dir t, resolve S (modeOf norm) base ['.'] = some dir ∧ resolve S (modeOf norm) base ref = some t ∧
      dir <+: t ∧ RiReferenceStr.scheme_str t = RiReferenceStr.scheme_str dir ∧
      RiReferenceStr.authority_str t = RiReferenceStr.authority_str dir ∧
      RiReferenceStr.path_str dir <+: RiReferenceStr.path_str t := by
  obtain ⟨b, hbv, hbs, rfl⟩ := iri_parts' hb
  obtain ⟨r, hrv, rfl⟩ := reference_parts hr
  obtain ⟨h1, h2, h3, h4, h5⟩ := relativePath_parts hrv hrel
  rw [h5] at h
  obtain ⟨e, hv⟩ := resolve_relative norm hbv hbs hrv h1 h2 h3 h4
  obtain ⟨e', hv'⟩ := resolve_relative norm hbv hbs (dotRef_valid S) rfl rfl (by simp) (by decide)
  refine ⟨_, _, e', e, ?_⟩
  simp only [RiReferenceStr.scheme_str, hv.delim.extract_scheme_eq, hv'.delim.extract_scheme_eq,
    RiReferenceStr.authority_str, hv.delim.extract_authority_eq, hv'.delim.extract_authority_eq,
    RiReferenceStr.path_str, hv.delim.extract_path_eq, hv'.delim.extract_path_eq]
  have hD := mergeDir_cases b
  cases norm with
  | true =>
    have hp : escapePath b.authority.isSome (npath S (mergeDir b ++ ['.'])) <+:
        escapePath b.authority.isSome (npath S (mergeDir b ++ r.path)) := by
      rw [npath_dot hD]
      exact escapePath_prefix _ (npath_stays hD (mergeDir_wf hbv) hrv.pathPC.wf h)
    exact ⟨recompose_prefix _ _ hp, rfl, rfl, hp⟩
  | false =>
    have hp : escapePath b.authority.isSome (remove_dot_segments (undot (mergeDir b ++ ['.']))) <+:
        escapePath b.authority.isSome (remove_dot_segments (undot (mergeDir b ++ r.path))) := by
      have : remove_dot_segments (undot (mergeDir b ++ ['.'])) =
          remove_dot_segments (undot (mergeDir b)) := by
        rcases hD with e | ⟨d, e⟩
        · rw [e]; decide +kernel
        · rw [e, List.append_assoc]; exact rds_dot d
      rw [this]
      obtain ⟨y, hy, _⟩ := rds_stays _ _ hD h
      exact escapePath_prefix _ ⟨y, hy.symm⟩
    exact ⟨recompose_prefix _ _ hp, rfl, rfl, hp⟩

example : RelativePath (chars! "a/../%2e/b?q") ∧
    staysBelow 0 (splitSlash (RiReferenceStr.path_str (chars! "a/../%2e/b?q"))) = true ∧
    resolve .uri .off (chars! "http://h/x/y") (chars! ".") = some (chars! "http://h/x/") ∧
    resolve .uri .off (chars! "http://h/x/y") (chars! "a/../%2e/b?q") = some (chars! "http://h/x/b?q") :=
  ⟨⟨by decide +kernel, by decide +kernel, by decide +kernel, by
    have : RiReferenceStr.path_str (chars! "a/../%2e/b?q") = chars! "a/../%2e/b" := by decide +kernel
    rw [this]; intro t e; simp at e⟩, by decide +kernel, by decide +kernel, by decide +kernel⟩

/-- **C68**: a reference without scheme and authority resolves to an IRI with the scheme and the authority of
the base (of the normalized base, in the normalizing mode), whatever its path is. -/
theorem C68_same_origin (S : Spec) (base ref : Str) (hb : validate_uri S base = some true)
    (hr : validate_uri_reference S ref = some true) (h1 : RiReferenceStr.scheme_str ref = none)
    (h2 : RiReferenceStr.authority_str ref = none) :
    ∃ t t' n, resolve S .off base ref = some t ∧ resolve S .default base ref = some t' ∧
      normalize S base = some n ∧
      RiReferenceStr.scheme_str t = RiReferenceStr.scheme_str base ∧
      RiReferenceStr.authority_str t = RiReferenceStr.authority_str base ∧
      RiReferenceStr.scheme_str t' = RiReferenceStr.scheme_str n ∧
      RiReferenceStr.authority_str t' = RiReferenceStr.authority_str n := by
  obtain ⟨b, hbv, hbs, rfl⟩ := iri_parts' hb
  obtain ⟨r, hrv, rfl⟩ := reference_parts hr
  simp only [RiReferenceStr.scheme_str, hrv.delim.extract_scheme_eq, RiReferenceStr.authority_str,
    hrv.delim.extract_authority_eq] at h1 h2
  obtain ⟨hm, hms⟩ := merge_valid hbv hbs hrv
  have e1 : (mergeReference b r).scheme = b.scheme := by
    unfold mergeReference; rw [h1, h2]; simp only [Option.isSome_none, Bool.false_eq_true, if_false]; split <;> rfl
  have e2 : (mergeReference b r).authority = b.authority := by
    unfold mergeReference; rw [h1, h2]; simp only [Option.isSome_none, Bool.false_eq_true, if_false]; split <;> rfl
  obtain ⟨q, hq, hqs, ho⟩ : ∃ q : Parts, q.Valid S ∧ (q.scheme = b.scheme ∧ q.authority = b.authority) ∧
      resolve S .off b.recompose r.recompose = some q.recompose := by
    rw [resolve_off_eq hbv hbs hrv, transform_eq]
    cases h : samePath r with
    | true =>
      simp only [if_true]
      rw [escape_valid hm]
      exact ⟨_, hm, ⟨e1, e2⟩, rfl⟩
    | false =>
      simp only [Bool.false_eq_true, if_false]
      have hv := normParts_valid (op := .off) hm hms
      rw [normParts_off] at hv
      exact ⟨_, hv, ⟨e1, e2⟩, rfl⟩
  have hv := normParts_valid (op := .default) hm hms
  have hn := normParts_valid (op := .default) hbv hbs
  refine ⟨_, _, _, ho, resolve_norm_eq hbv hbs hrv rfl, normalize_eq hbv hbs, ?_⟩
  simp only [RiReferenceStr.scheme_str, RiReferenceStr.authority_str, hq.delim.extract_scheme_eq,
    hq.delim.extract_authority_eq, hv.delim.extract_scheme_eq, hv.delim.extract_authority_eq,
    hn.delim.extract_scheme_eq, hn.delim.extract_authority_eq, hbv.delim.extract_scheme_eq,
    hbv.delim.extract_authority_eq]
  refine ⟨hqs.1, hqs.2, ?_, ?_⟩
  · rw [normParts_mk, normParts_mk, e1]
  · rw [normParts_mk, normParts_mk, e2]

example : RiReferenceStr.scheme_str (chars! "/..//x") = none ∧
    RiReferenceStr.authority_str (chars! "/..//x") = none ∧
    resolve .uri .off (chars! "http://h/x/y") (chars! "/..//x") = some (chars! "http://h//x") := by
  decide +kernel

/-! ### The other direction -/

theorem first_segment {y n z u : Str} (hy : '/' ∉ y) (hn : '/' ∉ n)
    (hz : z = [] ∨ ∃ z', z = '/' :: z') (h : y ++ '/' :: u = n ++ z) : y = n := by
  have tw : ∀ (a b : Str), '/' ∉ a → (b = [] ∨ ∃ b', b = '/' :: b') → (a ++ b).takeWhile (· != '/') = a := by
    intro a b ha hb
    have : ∀ c ∈ a, (c != '/') = true := by
      intro c hc
      simp only [bne_iff_ne, ne_eq]
      rintro rfl
      exact ha hc
    rw [List.takeWhile_append_of_pos this]
    rcases hb with rfl | ⟨b', rfl⟩ <;> simp
  rw [← tw y ('/' :: u) hy (.inr ⟨_, rfl⟩), h, tw n z hn hz]

theorem pathText_head {W : List PSeg} (h : AllSlash W) : pathText W = [] ∨ ∃ z, pathText W = '/' :: z := by
  cases W with
  | nil => exact .inl rfl
  | cons g r =>
    obtain ⟨b, m⟩ := g
    obtain rfl : b = true := (h (b, m) (by simp)).1
    exact .inr ⟨m ++ pathText r, by rw [pathText_cons]; simp [segText]⟩

/-- A long name, which no segment of a path of length at most `k` equals. -/
def longName (k : Nat) : Str := List.replicate (k + 1) 'a'

theorem longName_cons (k : Nat) : longName k = 'a' :: List.replicate k 'a' := rfl

theorem longName_chars {k : Nat} {c : Char} (h : c ∈ longName k) : c = 'a' := (List.mem_replicate.1 h).2

theorem longName_PC {S : Spec} (k : Nat) : PC (pcharSlashC S) (longName k) :=
  PC_of_all (by cases S <;> decide) fun c hc => by rw [longName_chars hc]; cases S <;> decide

theorem longName_no_slash (k : Nat) : '/' ∉ longName k := fun h => by
  have := longName_chars h; revert this; decide

theorem longName_not_dots (k : Nat) : isDots (true, longName k) = false := by
  apply (notDot_iff (true, longName k)).2
  constructor <;>
  · intro h
    obtain ⟨s', h | h | h, _⟩ := pctDecode_dot h <;> simp [longName_cons] at h

theorem longBase_valid (S : Spec) (k : Nat) :
    (⟨some ['s'], none, '/' :: longName k ++ ['/'], none, none⟩ : Parts).Valid S := by
  refine ⟨?_, by simp, ?_, by simp, by simp, by simp, ?_, by simp⟩
  · intro x hx
    cases hx
    exact (scheme_iff _).2 (by decide)
  · apply path_iff.2
    rw [List.cons_append]
    exact .chr (by decide) (by cases S <;> decide) ((PC_append_cons (by decide) (by decide)).2
      ⟨longName_PC k, by cases S <;> decide, .nil⟩)
  · intro _ r
    rw [longName_cons]
    simp

/-- **C68**: a relative path that climbs above the place where it starts leaves the directory of some
base. -/
theorem C68_climbs (S : Spec) (norm : Bool) (ref : Str)
    (hr : validate_uri_reference S ref = some true) (hrel : RelativePath ref)
    (h : staysBelow 0 (splitSlash (RiReferenceStr.path_str ref)) = false) :
    ∃ base dir t, validate_uri S base = some true ∧ resolve S (modeOf norm) base ['.'] = some dir ∧
      resolve S (modeOf norm) base ref = some t ∧
      ¬ RiReferenceStr.path_str dir <+: RiReferenceStr.path_str t := by
  obtain ⟨r, hrv, rfl⟩ := reference_parts hr
  obtain ⟨h1, h2, h3, h4, h5⟩ := relativePath_parts hrv hrel
  rw [h5] at h
  have hbv := longBase_valid S r.path.length
  generalize hb : (⟨some ['s'], none, '/' :: longName r.path.length ++ ['/'], none, none⟩ : Parts) = b at hbv
  have hbs : b.scheme ≠ none := by rw [← hb]; simp
  have hba : b.authority = none := by rw [← hb]
  have hy := longName_no_slash r.path.length
  have hD : mergeDir b = '/' :: longName r.path.length ++ ['/'] := by
    unfold mergeDir
    rw [hba, ← hb]
    exact (dir_of_slash ('/' :: longName r.path.length) (n := []) (by simp)).1
  obtain ⟨e, hv⟩ := resolve_relative norm hbv hbs hrv h1 h2 h3 h4
  obtain ⟨e', hv'⟩ := resolve_relative norm hbv hbs (dotRef_valid S) rfl rfl (by simp) (by decide)
  refine ⟨b.recompose, _, _, validate_uri_of_parts hbv hbs, e', e, ?_⟩
  simp only [RiReferenceStr.path_str, hv.delim.extract_path_eq, hv'.delim.extract_path_eq]
  have hd : remove_dot_segments (undot (mergeDir b ++ ['.'])) =
      '/' :: longName r.path.length ++ ['/'] := by
    rw [hD, List.append_assoc, show ['/'] ++ ['.'] = ['/', '.'] from rfl, rds_dot]
    rw [rds_eq]
    unfold rdsSegs
    have e1 : pathSegs ('/' :: longName r.path.length ++ ['/']) = [(true, longName r.path.length), (true, [])] := by
      rw [pathSegs_append, pathSegs_name hy, pathSegs_name (by simp)]
      rfl
    rw [e1, stripRel_true, fin_all_normal]
    · simp [pathText, segText]
    · intro g hg
      simp only [List.mem_cons, List.not_mem_nil, or_false] at hg
      rcases hg with rfl | rfl
      · exact longName_not_dots _
      · exact isDots_nil true
  obtain ⟨W, w1, w2, w3, w4⟩ := rds_leaves (longName r.path.length) r.path hy
    (longName_not_dots _) h
  have ht : remove_dot_segments (undot (mergeDir b ++ r.path)) = pathText W := by
    rw [hD, List.append_assoc, List.singleton_append, w4]
  obtain ⟨⟨bb, n⟩, W', rfl⟩ : ∃ g W', W = g :: W' := by
    cases W with
    | nil => exact absurd rfl w2
    | cons g W' => exact ⟨g, W', rfl⟩
  obtain rfl : bb = true := (w1 (bb, n) (by simp)).1
  have hn := (w1 (true, n) (by simp)).2
  have hW' : AllSlash W' := fun g hg => w1 g (by simp [hg])
  have hlen : n.length ≤ r.path.length := by
    rcases w3 (true, n) (by simp) with h | h
    · simp only at h; rw [h]; simp
    · exact splitSlash_length _ _ h
  have ht' : pathText ((true, n) :: W') = '/' :: (n ++ pathText W') := by
    rw [pathText_cons]; simp [segText]
  have esc : ∀ z : Str, ¬ ('/' :: longName r.path.length ++ ['/']) <+: '/' :: '.' :: z := by
    intro z hz
    rw [longName_cons] at hz
    simp at hz
  have key : ∀ n' z, '/' ∉ n' → n'.length ≤ n.length → (z = [] ∨ ∃ z', z = '/' :: z') →
      ¬ ('/' :: longName r.path.length ++ ['/']) <+: escapePath false ('/' :: (n' ++ z)) := by
    intro n' z k1 k2 k3 hz
    unfold escapePath at hz
    split at hz
    · exact esc _ hz
    · obtain ⟨u, hu⟩ := hz
      rw [List.cons_append, List.cons_append, List.cons.injEq, List.append_assoc,
        List.singleton_append] at hu
      have := first_segment hy k1 k3 hu.2
      rw [← this] at k2
      have e : (longName r.path.length).length = r.path.length + 1 := by simp [longName]
      omega
  have hde : escapePath false ('/' :: longName r.path.length ++ ['/']) =
      '/' :: longName r.path.length ++ ['/'] := by
    unfold escapePath
    rw [longName_cons]
    simp
  cases norm with
  | false =>
    show ¬ escapePath b.authority.isSome _ <+: escapePath b.authority.isSome _
    rw [hba, ht, hd, ht']
    show ¬ escapePath false _ <+: escapePath false _
    rw [hde]
    exact key n _ hn (Nat.le_refl _) (pathText_head hW')
  | true =>
    show ¬ escapePath b.authority.isSome (pctn S _) <+: escapePath b.authority.isSome (pctn S _)
    rw [hba, ht, hd, ht']
    have hwx := rds_PC (p := fun _ => true) rfl (s := mergeDir b ++ r.path) (by
      rw [hD, List.append_assoc]
      exact WF.append_ch (.chr (by decide) rfl (longName_PC (S := S) _).wf) (by decide) hrv.pathPC.wf)
    rw [ht, ht'] at hwx
    have hwn : WF (n ++ pathText W') := (wf_slash_split (d := []) hwx).2
    have hpd : pctn S ('/' :: longName r.path.length ++ ['/']) = '/' :: longName r.path.length ++ ['/'] := by
      apply pctn_no_pct
      intro hc
      simp only [List.cons_append, List.mem_cons, List.mem_append, List.not_mem_nil, or_false] at hc
      rcases hc with hc | hc | hc
      · revert hc; decide
      · have := longName_chars hc; revert this; decide
      · revert hc; decide
    have hsplit : WF n ∧ pctn S (n ++ pathText W') = pctn S n ++ pctn S (pathText W') ∧
        (pctn S (pathText W') = [] ∨ ∃ z', pctn S (pathText W') = '/' :: z') := by
      rcases pathText_head hW' with e | ⟨z, e⟩
      · rw [e, List.append_nil] at hwn
        rw [e, List.append_nil, pctn_nil, List.append_nil]
        exact ⟨hwn, rfl, .inl rfl⟩
      · rw [e] at hwn ⊢
        obtain ⟨u1, u2⟩ := wf_slash_split hwn
        rw [pctn_append_ch S u1 (by decide) u2, pctn_ch S (by decide) u2]
        exact ⟨u1, rfl, .inr ⟨_, rfl⟩⟩
    obtain ⟨s1, s2, s3⟩ := hsplit
    rw [hpd, pctn_ch S (by decide) hwn, s2]
    show ¬ escapePath false _ <+: escapePath false _
    rw [hde]
    exact key _ _ (pctn_no_slash s1 hn) (pctn_length_le S s1) s3

example : staysBelow 0 (splitSlash (RiReferenceStr.path_str (chars! "a/../../y2"))) = false ∧
    resolve .uri .off (chars! "s:/y/") (chars! ".") = some (chars! "s:/y/") ∧
    resolve .uri .off (chars! "s:/y/") (chars! "a/../../y2") = some (chars! "s:/y2") := by decide +kernel

/-- **C68**: a relative path stays in the directory of every base if and only if it never climbs above the
place where it starts. -/
theorem C68_iff (S : Spec) (norm : Bool) (ref : Str)
    (hr : validate_uri_reference S ref = some true) (hrel : RelativePath ref) :
    (∀ base, validate_uri S base = some true →
      ∀ dir t, resolve S (modeOf norm) base ['.'] = some dir → resolve S (modeOf norm) base ref = some t →
        RiReferenceStr.path_str dir <+: RiReferenceStr.path_str t) ↔
    staysBelow 0 (splitSlash (RiReferenceStr.path_str ref)) = true := by
  constructor
  · intro h
    cases hs : staysBelow 0 (splitSlash (RiReferenceStr.path_str ref)) with
    | true => rfl
    | false =>
      obtain ⟨base, dir, t, h1, h2, h3, h4⟩ := C68_climbs S norm ref hr hrel hs
      exact absurd (h base h1 dir t h2 h3) h4
  · intro h base hb dir t h1 h2
    obtain ⟨dir', t', e1, e2, _, _, _, h3⟩ := C68_contained S norm base ref hb hr hrel h
    rw [h1] at e1
    rw [h2] at e2
    cases e1
    cases e2
    exact h3

end Verif
