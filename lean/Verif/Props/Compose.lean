import Verif.Lemmas.Compose

/-!
# C72: two references in a row

Following `r₁` from a base, and then `r₂` from where that leads, is the same as following the one
reference `follow r₁ r₂` from the base, in every mode.  The exception is the one RFC 3986 makes: merging
paths cuts off the last segment before dot segments are removed, so it matters whether a path that ends in
`..` is merged with or resolved first.
-/

namespace Verif

open Rfc PathToNormalize

/-- The parts of what plain resolution gives. -/
def offTarget (b r : Parts) : Parts :=
  { transform b r with path := escapePath (transform b r).authority.isSome (transform b r).path }

theorem offTarget_valid {S : Spec} {b r : Parts} (hb : b.Valid S) (hs : b.scheme ≠ none) (hr : r.Valid S) :
    (offTarget b r).Valid S ∧ (offTarget b r).scheme ≠ none := by
  obtain ⟨hm, hms⟩ := merge_valid hb hs hr
  unfold offTarget
  rw [transform_eq]
  cases h : samePath r with
  | true =>
    simp only [if_true]
    rw [escape_valid hm]
    exact ⟨hm, hms⟩
  | false =>
    simp only [Bool.false_eq_true, if_false]
    have hq := normParts_valid (op := .off) hm hms
    rw [normParts_off] at hq
    exact ⟨hq, hms⟩

theorem samePath_iff (r : Parts) : samePath r = true ↔ SameDocumentPath r := by
  unfold samePath SameDocumentPath
  simp [and_assoc]

theorem last_merge {b r : Parts} (h : samePath r = false) :
    lastSegment (mergeReference b r).path = lastSegment r.path := by
  by_cases h2 : MergesPath r
  · obtain ⟨c1, c2, c3, c4⟩ := (mergesPath_iff r).1 h2
    rw [(merge_relative c1 c2 c3 c4).1]
    exact (dir_append (mergeDir_cases b) r.path).2
  · cases c1 : r.scheme with
    | some x => simp [mergeReference, c1]
    | none =>
      cases c2 : r.authority with
      | some y => simp [mergeReference, c1, c2]
      | none =>
        have c3 : r.path ≠ [] := by
          intro e; simp [samePath, c1, c2, e] at h
        have c4 : r.path.take 1 = ['/'] := by
          refine Classical.byContradiction fun h => h2 ((mergesPath_iff r).2 ⟨c1, c2, c3, by simpa using h⟩)
        simp [mergeReference, c1, c2, c3, c4]

theorem merge_path_auth {S : Spec} {b r : Parts} (hb : b.Valid S) (hs : b.scheme ≠ none) (hr : r.Valid S) :
    (mergeReference b r).authority.isSome = true → (mergeReference b r).path = [] ∨
      ∃ t, (mergeReference b r).path = '/' :: t :=
  (merge_valid hb hs hr).1.authPath

/-- The directory of a target without dot segments leads to the same. -/
theorem rds_mergeDir {S : Spec} {m : Parts} (hm : m.Valid S) (h : pctDecode (lastSegment m.path) ≠ [0x2E, 0x2E])
    (x : Str) : remove_dot_segments (undot (mergeDir { m with
        path := escapePath m.authority.isSome (remove_dot_segments (undot m.path)) } ++ x)) =
      remove_dot_segments (undot (mergeDir m ++ x)) := by
  unfold mergeDir
  simp only
  by_cases ha : m.authority.isSome = true
  · rcases hm.authPath ha with e | ⟨t, e⟩
    · rw [e, rds_nil, ha]; rfl
    · obtain ⟨u, hu⟩ := rds_slash_head t
      have hne : (escapePath m.authority.isSome (remove_dot_segments (undot m.path))).isEmpty = false := by
        rw [ha, e, hu]; rfl
      have hne' : m.path.isEmpty = false := by rw [e]; rfl
      rw [hne, hne']
      simp only [Bool.and_false, Bool.false_eq_true, if_false]
      exact rds_dir_escape _ _ _ h
  · rw [Bool.not_eq_true] at ha
    simp only [ha, Bool.false_and, Bool.false_eq_true, if_false]
    exact rds_dir_escape _ _ _ h

theorem escape_escape (auth : Bool) (p : Str) : escapePath auth (escapePath auth p) = escapePath auth p := by
  unfold escapePath
  by_cases h : (!auth && p.take 2 == ['/', '/']) = true
  · rw [if_pos h, if_neg (by simp)]
  · rw [if_neg h, if_neg h]

/-- Plain resolution. -/
theorem off_compose {S : Spec} {b r₁ r₂ : Parts} (hb : b.Valid S) (hs : b.scheme ≠ none) (h1 : r₁.Valid S)
    (hup : MergesPath r₂ → ¬ EndsInDotDot r₁) :
    offTarget (offTarget b r₁) r₂ = offTarget b (follow r₁ r₂) := by
  obtain ⟨hm, hms⟩ := merge_valid hb hs h1
  cases k1 : samePath r₁ with
  | true =>
    have e : offTarget b r₁ = mergeReference b r₁ := by
      unfold offTarget
      rw [transform_eq, k1]
      simp only [if_true]
      rw [escape_valid hm]
    rw [e]
    unfold offTarget follow
    rw [transform_eq, transform_eq, merge_assoc, samePath_merge, k1, Bool.true_and]
  | false =>
    have e : offTarget b r₁ = { mergeReference b r₁ with
        path := escapePath (mergeReference b r₁).authority.isSome
          (remove_dot_segments (undot (mergeReference b r₁).path)) } := by
      unfold offTarget
      rw [transform_eq, k1]
      simp only [Bool.false_eq_true, if_false]
    have hl := last_merge (b := b) k1
    rw [e]
    unfold offTarget follow
    rw [transform_eq, transform_eq, merge_assoc, samePath_merge, k1, Bool.false_and]
    generalize mergeReference b r₁ = m at *
    simp only [Bool.false_eq_true, if_false]
    by_cases h2 : MergesPath r₂
    · obtain ⟨c1, c2, c3, c4⟩ := (mergesPath_iff r₂).1 h2
      have h3 : pctDecode (lastSegment m.path) ≠ [0x2E, 0x2E] := by
        rw [hl]; exact hup h2
      rw [(merge_relative c1 c2 c3 c4 (b := m)).2, (merge_relative c1 c2 c3 c4).1,
        (merge_relative c1 c2 c3 c4).1]
      simp only [Bool.false_eq_true, if_false, rds_mergeDir hm h3]
    · cases c1 : r₂.scheme with
      | some x => simp [mergeReference, samePath, c1]
      | none =>
        cases c2 : r₂.authority with
        | some y => simp [mergeReference, samePath, c1, c2]
        | none =>
          by_cases c3 : r₂.path = []
          · simp [mergeReference, samePath, c1, c2, c3, escape_escape]
          · have c4 : r₂.path.take 1 = ['/'] := by
              refine Classical.byContradiction fun h => h2 ((mergesPath_iff r₂).2 ⟨c1, c2, c3, by simpa using h⟩)
            simp [mergeReference, samePath, c1, c2, c3, c4]

theorem pathn_default (S : Spec) (auth : Bool) (s : Str) :
    pathn S .default auth s = escapePath auth (npath S s) := by
  unfold pathn npath
  rw [if_neg (by simp)]
  rfl

/-- The merged path is the same for a normalized base. -/
theorem pathn_merge_default {S : Spec} {b r : Parts} (hb : b.Valid S) (hs : b.scheme ≠ none) (hr : r.Valid S)
    (h : ¬ EndsInDotDot b) :
    pathn S .default b.authority.isSome (mergeDir (normParts S .default b) ++ r.path) =
      pathn S .default b.authority.isSome (mergeDir b ++ r.path) := by
  have hn := normParts_valid (op := .default) hb hs
  have hi := normParts_idem (op := .default) hb (by simp)
  rw [pathn_default, pathn_default, npath_append (mergeDir_cases _) (mergeDir_wf hn) hr.pathPC.wf,
    npath_append (mergeDir_cases _) (mergeDir_wf hb) hr.pathPC.wf,
    mergeDir_of_last hn hb hi (lastSegment_normal hb) h]

theorem pctn_dir_append {S : Spec} {D x : Str} (hD : D = [] ∨ ∃ d, D = d ++ ['/']) (hw : WF D) (hx : WF x) :
    pctn S (D ++ x) = pctn S D ++ pctn S x ∧ pctn S (pctn S D ++ x) = pctn S D ++ pctn S x := by
  rcases hD with rfl | ⟨d, rfl⟩
  · rw [pctn_nil]; exact ⟨rfl, rfl⟩
  · have h1 := (wf_slash_split (d := d) (x := []) hw).1
    rw [pctn_append_ch S h1 (by decide) .nil, pctn_nil, List.append_assoc, List.append_assoc]
    simp only [List.singleton_append]
    rw [pctn_append_ch S h1 (by decide) hx, show pctn S d ++ ['/'] ++ x = pctn S d ++ '/' :: x by simp,
      pctn_append_ch S (pctn_wf h1) (by decide) hx, pctn_idem h1]
    exact ⟨rfl, rfl⟩

theorem pathn_merge_preserve {S : Spec} {b r : Parts} (hb : b.Valid S) (hs : b.scheme ≠ none) (hr : r.Valid S)
    (hr2 : MergesPath r) (h : ¬ EndsInDotDot b) :
    pathn S .preserve b.authority.isSome (mergeDir (normParts S .preserve b) ++ r.path) =
      pathn S .preserve b.authority.isSome (mergeDir b ++ r.path) := by
  obtain ⟨c1, c2, c3, c4⟩ := (mergesPath_iff r).1 hr2
  have hpres : ∀ (auth : Bool) (s : Str), (auth = true ∨ s.take 1 = ['/']) →
      pathn S .preserve auth s = pathn S .default auth s := by
    intro auth s hh
    unfold pathn
    rw [if_neg (by rintro ⟨_, e1, _, e2⟩; rcases hh with hh | hh; rw [e1] at hh; cases hh; exact e2 hh),
      if_neg (by simp)]
    rfl
  by_cases ho : OpaquePath b
  · obtain ⟨_, o1, o2, o3⟩ := (keeps_iff b).1 ho
    have e1 : mergeDir (normParts S .preserve b) = pctn S (dirOf b.path) := by
      unfold mergeDir
      rw [normParts_isSome, o1]
      simp only [Bool.false_and, Bool.false_eq_true, if_false]
      rw [normParts_preserve_mk]
      simp only [(pathn_preserve S b).1 ho]
      exact pctn_dir hb.pathPC.wf
    have e2 : mergeDir b = dirOf b.path := by simp [mergeDir, o1]
    have hk : ∀ y : Str, (y ++ r.path).take 1 ≠ ['/'] →
        pathn S .preserve false (y ++ r.path) = pctn S (y ++ r.path) := by
      intro y hy
      unfold pathn
      rw [if_pos ⟨rfl, rfl, by simp [c3], hy⟩]
    have hd := pctn_dir_append (S := S) (dir_cases b.path) (wf_dir hb.pathPC.wf).1 hr.pathPC.wf
    have g2 : (dirOf b.path ++ r.path).take 1 ≠ ['/'] := by
      have := dir_head o2 r.path c4
      rw [← beq_eq_false_iff_ne, this, beq_eq_false_iff_ne]
      exact o3
    have g1 : (pctn S (dirOf b.path) ++ r.path).take 1 ≠ ['/'] := by
      rw [← pctn_dir hb.pathPC.wf]
      have hne : pctn S b.path ≠ [] := by rw [Ne, pctn_empty S hb.pathPC.wf]; exact o2
      have := dir_head hne r.path c4
      rw [← beq_eq_false_iff_ne, this, beq_eq_false_iff_ne]
      intro e
      obtain ⟨t, e⟩ := take1_slash.1 e
      exact o3 (take1_slash.2 (pctn_head hb.pathPC.wf e))
    rw [e1, e2, o1, hk _ g1, hk _ g2, hd.1, hd.2]
  · have en : normParts S .preserve b = normParts S .default b := by
      rw [normParts_preserve_mk, (pathn_preserve S b).2 ho]; rfl
    rw [en]
    by_cases ha : b.authority.isSome = true
    · rw [hpres _ _ (.inl ha), hpres _ _ (.inl ha)]
      exact pathn_merge_default hb hs hr h
    · rw [Bool.not_eq_true] at ha
      by_cases hp : b.path = []
      · have e1 : mergeDir b = [] := by simp [mergeDir, ha, hp, dirOf]
        have e2 : mergeDir (normParts S .default b) = [] := by
          unfold mergeDir
          rw [normParts_isSome, ha, normParts_mk]
          simp only [Bool.false_and, Bool.false_eq_true, if_false, ha, hp, npath, rds_nil, pctn_nil]
          rfl
        rw [e1, e2]
      · have ht : ∃ t, b.path = '/' :: t := by
          refine Classical.byContradiction fun hc => ho ?_
          exact (keeps_iff b).2 ⟨rfl, ha, hp, fun e => hc (take1_slash.1 e)⟩
        obtain ⟨t, ht⟩ := ht
        have g2 : (mergeDir b ++ r.path).take 1 = ['/'] := by
          rw [mergeDir_path hp]
          have := dir_head hp r.path c4
          rw [← beq_iff_eq, this, ht]; rfl
        have g1 : (mergeDir (normParts S .default b) ++ r.path).take 1 = ['/'] := by
          obtain ⟨u, hu⟩ : ∃ u, (normParts S .default b).path = '/' :: u := by
            rw [normParts_mk]
            simp only
            obtain ⟨v, hv⟩ := pathn_head_slash (S := S) (op := .default) (s := t)
              (by rw [← ht]; exact fun _ => hb.pathPC.wf)
            have hv' : npath S b.path = '/' :: v := by rw [ht]; exact hv
            rw [hv']
            unfold escapePath
            split <;> exact ⟨_, rfl⟩
          have hne : (normParts S .default b).path ≠ [] := by rw [hu]; simp
          rw [mergeDir_path hne]
          have := dir_head hne r.path c4
          rw [← beq_iff_eq, this, hu]; rfl
        rw [hpres _ _ (.inr g1), hpres _ _ (.inr g2)]
        exact pathn_merge_default hb hs hr h

theorem normParts_eq_of {S : Spec} {op : NormalizationMode} (hc : op.case_pct = true) {p q : Parts}
    (h1 : p.scheme.map (List.map toLower) = q.scheme.map (List.map toLower))
    (h2 : p.authority.map (authn S) = q.authority.map (authn S))
    (h3 : pathn S op p.authority.isSome p.path = pathn S op q.authority.isSome q.path)
    (h4 : p.query.map (wr S op) = q.query.map (wr S op))
    (h5 : p.fragment.map (wr S op) = q.fragment.map (wr S op)) : normParts S op p = normParts S op q := by
  unfold normParts
  simp only [hc, if_true, h1, h2, h3, h4, h5]

/-- A base may be normalized first. -/
theorem merge_normalized {S : Spec} {op : NormalizationMode} {b r : Parts} (ho : op ≠ .off) (hb : b.Valid S)
    (hs : b.scheme ≠ none) (hr : r.Valid S) (h : MergesPath r → ¬ EndsInDotDot b) :
    normParts S op (mergeReference (normParts S op b) r) = normParts S op (mergeReference b r) := by
  have hi := normParts_idem (op := op) hb ho
  have hc : op.case_pct = true := by cases op <;> first | rfl | exact absurd rfl ho
  have i1 : (normParts S op b).scheme.map (List.map toLower) = b.scheme.map (List.map toLower) := by
    have := congrArg Parts.scheme hi; simpa [normParts, hc] using this
  have i2 : (normParts S op b).authority.map (authn S) = b.authority.map (authn S) := by
    have := congrArg Parts.authority hi; simpa [normParts, hc] using this
  have i3 : pathn S op (normParts S op b).authority.isSome (normParts S op b).path =
      pathn S op b.authority.isSome b.path := congrArg Parts.path hi
  have i4 : (normParts S op b).query.map (wr S op) = b.query.map (wr S op) := congrArg Parts.query hi
  by_cases h2 : MergesPath r
  · obtain ⟨c1, c2, c3, c4⟩ := (mergesPath_iff r).1 h2
    have hp : pathn S op b.authority.isSome (mergeDir (normParts S op b) ++ r.path) =
        pathn S op b.authority.isSome (mergeDir b ++ r.path) := by
      cases op with
      | off => exact absurd rfl ho
      | default => exact pathn_merge_default hb hs hr (h h2)
      | preserve => exact pathn_merge_preserve hb hs hr h2 (h h2)
    rw [(merge_relative c1 c2 c3 c4).1, (merge_relative c1 c2 c3 c4).1]
    exact normParts_eq_of hc i1 i2 (by simp only [normParts_isSome]; exact hp) rfl rfl
  · cases c1 : r.scheme with
    | some x => simp [mergeReference, c1]
    | none =>
      cases c2 : r.authority with
      | some y =>
        simp only [mergeReference, c1, c2, Option.isSome_none, Bool.false_eq_true, if_false,
          Option.isSome_some, if_true]
        exact normParts_eq_of hc i1 rfl rfl rfl rfl
      | none =>
        by_cases c3 : r.path = []
        · simp only [mergeReference, c1, c2, c3, Option.isSome_none, Bool.false_eq_true, if_false,
            List.isEmpty_nil, if_true]
          refine normParts_eq_of hc i1 i2 i3 ?_ rfl
          simp only
          split
          · rfl
          · exact i4
        · have c4 : r.path.take 1 = ['/'] := by
            refine Classical.byContradiction fun h => h2 ((mergesPath_iff r).2 ⟨c1, c2, c3, by simpa using h⟩)
          have c3' : r.path.isEmpty = false := by simpa using c3
          simp only [mergeReference, c1, c2, c3', c4, Option.isSome_none, Bool.false_eq_true, if_false,
            beq_self_eq_true, if_true]
          exact normParts_eq_of hc i1 i2 (by simp only [normParts_isSome]) rfl rfl

/-! ### The theorems -/

/-- **C72**: following `r₁` and then `r₂` is following `follow r₁ r₂`, in every mode, unless a path that
ends in a segment `..` is resolved in between. -/
theorem C72_follow (S : Spec) (mode : NormalizationMode) (base : Str) (r₁ r₂ : Parts)
    (hb : validate_uri S base = some true) (h1 : r₁.Valid S) (h2 : r₂.Valid S)
    (hup : MergesPath r₂ → ¬ EndsInDotDot r₁)
    (hbase : mode ≠ .off → MergesPath r₂ → SameDocumentPath r₁ →
      pctDecode (lastSegment (RiReferenceStr.path_str base)) ≠ [0x2E, 0x2E]) :
    validate_uri_reference S (follow r₁ r₂).recompose = some true ∧
    ∃ t u, resolve S mode base r₁.recompose = some t ∧ validate_uri S t = some true ∧
      resolve S mode t r₂.recompose = some u ∧
      resolve S mode base (follow r₁ r₂).recompose = some u := by
  obtain ⟨b, hbv, hbs, rfl⟩ := iri_parts' hb
  have hf : (follow r₁ r₂).Valid S := follow_valid h1 h2
  refine ⟨validate_reference_of_parts hf, ?_⟩
  by_cases ho : mode = .off
  · subst ho
    obtain ⟨hv, hvs⟩ := offTarget_valid hbv hbs h1
    have e1 := resolve_off_eq hbv hbs h1
    have e2 := resolve_off_eq hv hvs h2
    have e3 := resolve_off_eq hbv hbs hf
    have e := off_compose hbv hbs h1 hup
    refine ⟨_, _, e1, validate_uri_of_parts hv hvs, e2, ?_⟩
    rw [e3]
    exact congrArg (fun p => some (Parts.recompose p)) e.symm
  · have hc : mode.case_pct = true := by cases mode <;> first | rfl | exact absurd rfl ho
    obtain ⟨hm, hms⟩ := merge_valid hbv hbs h1
    have hv := normParts_valid (op := mode) hm hms
    have hvs := normParts_scheme (S := S) (op := mode) hms
    refine ⟨_, _, resolve_norm_eq hbv hbs h1 hc, validate_uri_of_parts hv hvs,
      resolve_norm_eq hv hvs h2 hc, ?_⟩
    rw [resolve_norm_eq hbv hbs hf hc, follow, merge_assoc, merge_normalized ho hm hms h2]
    intro hr
    cases k1 : samePath r₁ with
    | false =>
      unfold EndsInDotDot
      rw [last_merge k1]
      exact hup hr
    | true =>
      have hsd := (samePath_iff r₁).1 k1
      have := hbase ho hr hsd
      simp only [RiReferenceStr.path_str, hbv.delim.extract_path_eq] at this
      unfold EndsInDotDot
      have e : (mergeReference b r₁).path = b.path := by
        simp [mergeReference, hsd.1, hsd.2.1, hsd.2.2]
      rw [e]
      exact this

/-- **C72**: for any two references there is one that does, from every base, what the two do in a row
(unless a path that ends in `..` is resolved in between). -/
theorem C72_one_reference (S : Spec) (ref₁ ref₂ : Str) (h1 : validate_uri_reference S ref₁ = some true)
    (h2 : validate_uri_reference S ref₂ = some true)
    (hup : pctDecode (lastSegment (RiReferenceStr.path_str ref₁)) ≠ [0x2E, 0x2E]) :
    ∃ ref, validate_uri_reference S ref = some true ∧
      ∀ (mode : NormalizationMode) (base : Str), validate_uri S base = some true →
        (mode = .off ∨ pctDecode (lastSegment (RiReferenceStr.path_str base)) ≠ [0x2E, 0x2E]) →
        (resolve S mode base ref₁).bind (fun t => resolve S mode t ref₂) = resolve S mode base ref := by
  obtain ⟨r₁, hr1, rfl⟩ := reference_parts h1
  obtain ⟨r₂, hr2, rfl⟩ := reference_parts h2
  simp only [RiReferenceStr.path_str, hr1.delim.extract_path_eq] at hup
  refine ⟨(follow r₁ r₂).recompose, validate_reference_of_parts (follow_valid hr1 hr2), ?_⟩
  intro mode base hb hbase
  obtain ⟨_, t, u, e1, _, e2, e3⟩ := C72_follow S mode base r₁ r₂ hb hr1 hr2 (fun _ => hup)
    (fun ho _ _ => by
      rcases hbase with h | h
      · exact absurd h ho
      · exact h)
  rw [e1, Option.bind_some, e2, e3]

/-- The hypotheses are met by a case in which nothing is trivial. -/
example : resolve .uri .off (chars! "http://h/x/y/z?q") (chars! "../a/./b?r#g") = some (chars! "http://h/x/a/b?r#g") ∧
    resolve .uri .off (chars! "http://h/x/a/b?r#g") (chars! "../c#f") = some (chars! "http://h/x/c#f") ∧
    (follow ⟨none, none, chars! "../a/./b", some (chars! "r"), some (chars! "g")⟩
      ⟨none, none, chars! "../c", none, some (chars! "f")⟩).recompose = chars! "../a/./../c#f" ∧
    resolve .uri .off (chars! "http://h/x/y/z?q") (chars! "../a/./../c#f") = some (chars! "http://h/x/c#f") ∧
    pctDecode (lastSegment (RiReferenceStr.path_str (chars! "../a/./b?r#g"))) ≠ [0x2E, 0x2E] := by
  decide +kernel

/-- A path that has to be escaped in between. -/
example : resolve .uri .off (chars! "a:/b/c") (chars! "..//d/") = some (chars! "a:/.//d/") ∧
    resolve .uri .off (chars! "a:/.//d/") (chars! "e") = some (chars! "a:/.//d/e") ∧
    resolve .uri .off (chars! "a:/b/c") (chars! "..//d/e") = some (chars! "a:/.//d/e") := by decide +kernel

/-- The condition on the first reference is needed: `..` leads to `a:/`, `c` from there to `a:/c`, but
`follow` cuts `..` off. -/
theorem C72_condition_needed : ∃ (base : Str) (r₁ r₂ : Parts), validate_uri .uri base = some true ∧
    r₁.Valid .uri ∧ r₂.Valid .uri ∧ EndsInDotDot r₁ ∧
    (resolve .uri .off base r₁.recompose).bind (fun t => resolve .uri .off t r₂.recompose) ≠
      resolve .uri .off base (follow r₁ r₂).recompose := by
  have hv : ∀ s : Str, validate_path .uri s = true → s.take 1 ≠ ['/'] → ':' ∉ s →
      (⟨none, none, s, none, none⟩ : Parts).Valid .uri := by
    intro s hs h1 h3
    refine ⟨by simp, by simp, (C05_path .uri s).1 hs, by simp, by simp, by simp, ?_, ?_⟩
    · intro _ t e; exact h1 (by simp only at e; rw [e]; rfl)
    · rintro _ _ ⟨a, b, rfl, _⟩; exact h3 (by simp)
  exact ⟨chars! "a:/b/d", ⟨none, none, chars! "..", none, none⟩, ⟨none, none, chars! "c", none, none⟩,
    by decide +kernel, hv _ (by decide +kernel) (by decide) (by decide), hv _ (by decide +kernel) (by decide) (by decide),
    by unfold EndsInDotDot; decide +kernel, by decide +kernel⟩

/-- The condition on the base is needed when the first step normalizes: the empty reference leads from
`a:/b/..` to `a:/`. -/
theorem C72_base_condition_needed : validate_uri .uri (chars! "a:/b/..") = some true ∧
    (resolve .uri .default (chars! "a:/b/..") []).bind (fun t => resolve .uri .default t (chars! "c")) =
      some (chars! "a:/c") ∧
    (follow ⟨none, none, [], none, none⟩ ⟨none, none, chars! "c", none, none⟩).recompose = chars! "c" ∧
    resolve .uri .default (chars! "a:/b/..") (chars! "c") = some (chars! "a:/b/c") := by decide +kernel

end Verif
