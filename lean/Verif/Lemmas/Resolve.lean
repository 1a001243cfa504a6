import Verif.Lemmas.NormParts

/-! # Reference resolution on components -/

namespace Verif

open Rfc PathToNormalize

/-- The reference takes the path of the base as it is. -/
def samePath (r : Parts) : Bool := r.scheme.isNone && r.authority.isNone && r.path.isEmpty

theorem transform_eq (b r : Parts) : transform b r =
    if samePath r then mergeReference b r
    else { mergeReference b r with
      path := remove_dot_segments (undot (mergeReference b r).path) } := by
  unfold transform mergeReference samePath
  cases h1 : r.scheme <;> cases h2 : r.authority <;> cases h3 : r.path <;> simp [*]

theorem rsplit_slash (s : Str) : (rfind_split_hole s '/' = none ∧
      (s.reverse.dropWhile (· != '/')).reverse = []) ∨
    ∃ a b, rfind_split_hole s '/' = some (a, b) ∧ s = a ++ '/' :: b ∧
      (s.reverse.dropWhile (· != '/')).reverse = a ++ ['/'] := by
  cases h : rfind_split_hole s '/' with
  | none =>
    left
    refine ⟨rfl, ?_⟩
    rw [rfind_split_hole_none] at h
    have : s.reverse.dropWhile (· != '/') = [] := by
      have key : ∀ l : Str, '/' ∉ l → l.dropWhile (· != '/') = [] := by
        intro l hl
        induction l with
        | nil => rfl
        | cons c l ih =>
          have hc : c ≠ '/' := by rintro rfl; simp at hl
          rw [List.dropWhile_cons_of_pos (by simpa using hc)]
          exact ih (by intro h; exact hl (by simp [h]))
      exact key _ (by simpa using h)
    rw [this]; rfl
  | some x =>
    obtain ⟨a, b⟩ := x
    right
    have h' := rfind_split_hole_some.1 h
    refine ⟨a, b, rfl, h'.1, ?_⟩
    rw [h'.1]
    have hb : '/' ∉ b.reverse := by simpa using h'.2
    have : ∀ l r : Str, '/' ∉ l → (l ++ '/' :: r).dropWhile (· != '/') = '/' :: r := by
      intro l r hl
      induction l with
      | nil => simp
      | cons c l ih =>
        have hc : c ≠ '/' := by rintro rfl; simp at hl
        rw [List.cons_append, List.dropWhile_cons_of_pos (by simpa using hc)]
        exact ih (by intro h; exact hl (by simp [h]))
    simp [this _ _ hb]

section
variable {S : Spec} {b r : Parts}

theorem mergePaths_cases (b : Parts) (x : Str) :
    (mergePaths b x = '/' :: x ∧ b.path = [] ∧ b.authority.isSome = true) ∨
    (mergePaths b x = x ∧ (b.authority.isSome && b.path.isEmpty) = false ∧
      rfind_split_hole b.path '/' = none) ∨
    (∃ a c, b.path = a ++ '/' :: c ∧ mergePaths b x = a ++ '/' :: x ∧
      rfind_split_hole b.path '/' = some (a, c)) := by
  unfold mergePaths
  by_cases h : (b.authority.isSome && b.path.isEmpty) = true
  · left
    rw [if_pos h]
    simp at h
    exact ⟨rfl, h.2, h.1⟩
  · right
    rw [if_neg h]
    rcases rsplit_slash b.path with ⟨h1, h2⟩ | ⟨a, c, h1, h2, h3⟩
    · left; rw [h2]; exact ⟨rfl, by simpa using h, h1⟩
    · right; exact ⟨a, c, h2, by rw [h3]; simp, h1⟩

theorem merge_valid (hb : b.Valid S) (hs : b.scheme ≠ none) (hr : r.Valid S) :
    (mergeReference b r).Valid S ∧ (mergeReference b r).scheme ≠ none := by
  unfold mergeReference
  by_cases h1 : r.scheme.isSome = true
  · rw [if_pos h1]
    refine ⟨hr, ?_⟩
    intro e; rw [e] at h1; cases h1
  · rw [if_neg h1]
    by_cases h2 : r.authority.isSome = true
    · rw [if_pos h2]
      refine ⟨⟨hb.scheme, hr.authority, hr.path, hr.query, hr.fragment, hr.withAuthority,
        hr.withoutAuthority, fun e => absurd e hs⟩, hs⟩
    · rw [if_neg h2]
      have ha : r.authority = none := by simpa using h2
      by_cases h3 : r.path.isEmpty = true
      · rw [if_pos h3]
        refine ⟨⟨hb.scheme, hb.authority, hb.path, ?_, hr.fragment, hb.withAuthority,
          hb.withoutAuthority, fun e => absurd e hs⟩, hs⟩
        simp only
        intro x hx
        split at hx
        · exact hr.query x hx
        · exact hb.query x hx
      · rw [if_neg h3]
        have h3' : r.path ≠ [] := by simpa using h3
        by_cases h4 : (r.path.take 1 == ['/']) = true
        · rw [if_pos h4]
          refine ⟨⟨hb.scheme, hb.authority, hr.path, hr.query, hr.fragment, ?_, ?_,
            fun e => absurd e hs⟩, hs⟩
          · intro _; right; exact take1_slash.1 (by simpa using h4)
          · intro _; exact hr.withoutAuthority ha
        · rw [if_neg h4]
          have h4' : ∀ t, r.path ≠ '/' :: t := by
            intro t e; apply h4; rw [e]; rfl
          have hPC : PC (pcharSlashC S) (mergePaths b r.path) := by
            rcases mergePaths_cases b r.path with ⟨e, _⟩ | ⟨e, _⟩ | ⟨a, c, e1, e, _⟩
            · rw [e]; exact .chr (by decide) (pcharSlashC_slash S) hr.pathPC
            · rw [e]; exact hr.pathPC
            · rw [e]
              have := hb.pathPC
              rw [e1, PC_append_cons (by decide) (by decide)] at this
              exact PC.append this.1 (.chr (by decide) (pcharSlashC_slash S) hr.pathPC)
          refine ⟨⟨hb.scheme, hb.authority, path_iff.2 hPC, hr.query, hr.fragment, ?_, ?_,
            fun e => absurd e hs⟩, hs⟩
          · intro hne
            right
            show ∃ t, mergePaths b r.path = '/' :: t
            rcases mergePaths_cases b r.path with ⟨e, _⟩ | ⟨e, e1, e2⟩ | ⟨a, c, e1, e, _⟩
            · exact ⟨_, e⟩
            · exfalso
              rcases hb.withAuthority hne with e3 | ⟨t, e3⟩
              · rw [e3] at e1
                have : b.authority.isSome = true := by
                  cases hx : b.authority with
                  | none => exact absurd hx hne
                  | some y => rfl
                simp [this] at e1
              · rw [rfind_split_hole_none] at e2
                exact e2 (by rw [e3]; simp)
            · rw [e]
              cases a with
              | nil => exact ⟨_, rfl⟩
              | cons z a =>
                rcases hb.withAuthority hne with e3 | ⟨t, e3⟩
                · rw [e1] at e3; cases e3
                · rw [e1] at e3; cases e3; exact ⟨_, rfl⟩
          · intro hne t
            show mergePaths b r.path ≠ _
            rcases mergePaths_cases b r.path with ⟨e, _, e1⟩ | ⟨e, _⟩ | ⟨a, c, e1, e, _⟩
            · rw [show b.authority = none from hne] at e1; cases e1
            · rw [e]; exact h4' _
            · rw [e]
              intro e2
              match a with
              | [] => simp at e2; exact h4' _ e2
              | [z] => 
                simp at e2
                exact hb.withoutAuthority hne c (by rw [e1, e2.1]; rfl)
              | z :: w :: a =>
                simp at e2
                exact hb.withoutAuthority hne (a ++ '/' :: c) (by rw [e1, e2.1, e2.2.1]; rfl)

theorem scheme_end_isSome {p : Parts} (_ : p.Valid S) : p.splitter.scheme_end.isSome = p.scheme.isSome := by
  cases hs : p.scheme with
  | none => simp [Parts.splitter, hs]
  | some x => simp [Parts.splitter, hs]

theorem authority_end_isSome {p : Parts} (_ : p.Valid S) :
    p.splitter.authority_end.isSome = p.authority.isSome := by
  cases hs : p.authority with
  | none => simp [Parts.splitter, hs]
  | some x => simp [Parts.splitter, hs]

theorem query_start_isSome {p : Parts} (_ : p.Valid S) :
    p.splitter.query_start.isSome = p.query.isSome := by
  cases hs : p.query with
  | none => simp [Parts.splitter, hs]
  | some x => simp [Parts.splitter, hs]

theorem starts_slash {s : Str} : starts_with s ['/'] = (s.take 1 == ['/']) := by
  rw [Bool.eq_iff_iff, starts_with_iff]
  simp only [beq_iff_eq, take1_slash]
  rfl

theorem from_paths_merge (b : Parts) {x : Str} (h0 : x ≠ []) (h1 : x.take 1 ≠ ['/']) :
    (from_paths_to_be_resolved (if b.authority.isSome = true ∧ b.path = [] then ['/'] else b.path)
      x).Inv ∧
    (from_paths_to_be_resolved (if b.authority.isSome = true ∧ b.path = [] then ['/'] else b.path)
      x).text = mergePaths b x := by
  have hsx : starts_with x ['/'] = false := by rw [starts_slash]; simpa using h1
  have hx : x.isEmpty = false := by simpa using h0
  unfold from_paths_to_be_resolved
  simp only [hsx, Bool.false_eq_true, if_false, hx]
  rcases mergePaths_cases b x with ⟨e, e1, e2⟩ | ⟨e, e1, e2⟩ | ⟨a, c, e1, e, e2⟩
  · rw [if_pos ⟨e2, e1⟩]
    have : rfind_split_hole ['/'] '/' = some ([], []) := by decide
    rw [this, e]
    exact ⟨fun y hy => by cases hy; exact ⟨h0, [], rfl⟩, rfl⟩
  · rw [if_neg (by simpa using e1), e2, e]
    refine ⟨fun y hy => by simp at hy, by simp [PathToNormalize.text]⟩
  · rw [if_neg (by rw [e1]; simp), e2, e]
    exact ⟨fun y hy => by cases hy; exact ⟨h0, a, rfl⟩, by simp [PathToNormalize.text]⟩

theorem resolution_input (hb : b.Valid S) (hs : b.scheme ≠ none) (hr : r.Valid S) :
    ∃ x np, (mergeReference b r).scheme = some x ∧
      NormalizationInput.with_resolution_params b.recompose r.recompose =
        some ⟨x, (mergeReference b r).authority, np, (mergeReference b r).query,
          (mergeReference b r).fragment, .off⟩ ∧
      (samePath r = true → np = .done (mergeReference b r).path) ∧
      (samePath r = false → ∃ q : PathToNormalize, np = .needsProcessing q ∧ q.Inv ∧
        q.text = (mergeReference b r).path) := by
  obtain ⟨y, hy⟩ := Option.ne_none_iff_exists'.1 hs
  unfold NormalizationInput.with_resolution_params
  rw [decompose_eq hb.delim, decompose_eq hr.delim]
  simp only [Option.bind_eq_bind, Option.bind_some]
  unfold NormalizationInput.create_normalization_input NormalizationInput.refToplevel
    NormalizationInput.resolvedPath samePath mergeReference
  simp only [scheme_end_isSome hr, authority_end_isSome hr, authority_end_isSome hb,
    query_start_isSome hr, splitter_path_empty r, splitter_scheme_str, splitter_path_str,
    splitter_authority_str, splitter_query_str, splitter_fragment_str]
  by_cases h1 : r.scheme.isSome = true
  · obtain ⟨z, hz⟩ := Option.isSome_iff_exists.1 h1
    have := from_single_path_inv r.path
    simp [hz, RefToplevel.choose_then, RefToplevel.rank]
    exact this
  · have h1' : r.scheme = none := by simpa using h1
    by_cases h2 : r.authority.isSome = true
    · have := from_single_path_inv r.path
      obtain ⟨z, hz⟩ := Option.isSome_iff_exists.1 h2
      simp [h1', hz, hy, RefToplevel.choose_then, RefToplevel.rank]
      exact this
    · have h2' : r.authority = none := by simpa using h2
      by_cases h3 : r.path = []
      · by_cases h5 : r.query.isSome = true
        · simp [h1', h2', h3, h5, hy, RefToplevel.choose_then, RefToplevel.rank]
        · simp [h1', h2', h3, h5, hy, RefToplevel.choose_then, RefToplevel.rank]
      · by_cases h4 : (r.path.take 1 == ['/']) = true
        · have := from_single_path_inv r.path
          simp [h1', h2', h3, hy, RefToplevel.choose_then, RefToplevel.rank, starts_slash, h4]
          have h4' : List.take 1 r.path = ['/'] := by simpa using h4
          rw [if_pos h4']
          exact ⟨_, rfl, _, rfl, this⟩
        · simp [h1', h2', h3, hy, RefToplevel.choose_then, RefToplevel.rank, starts_slash, h4]
          have h4' : List.take 1 r.path ≠ ['/'] := by simpa using h4
          rw [if_neg h4']
          exact ⟨_, rfl, _, rfl, from_paths_merge b h3 h4'⟩

theorem resolve_norm_eq (hb : b.Valid S) (hs : b.scheme ≠ none) (hr : r.Valid S)
    {op : NormalizationMode} (ho : op.case_pct = true) :
    resolve S op b.recompose r.recompose = some (normParts S op (mergeReference b r)).recompose := by
  obtain ⟨hm, hms⟩ := merge_valid hb hs hr
  obtain ⟨x, np, hx, hin, h1, h2⟩ := resolution_input hb hs hr
  unfold resolve
  rw [hin, Option.bind_some]
  simp only [NormalizationInput.withMode]
  cases h : samePath r with
  | true => rw [h1 h]; exact display_done_norm hm hx ho
  | false =>
    obtain ⟨q, rfl, hi, ht⟩ := h2 h
    exact display_needs hm hx hi ht

theorem resolve_off_eq (hb : b.Valid S) (hs : b.scheme ≠ none) (hr : r.Valid S) :
    resolve S .off b.recompose r.recompose =
      some (Parts.recompose { transform b r with
        path := escapePath (transform b r).authority.isSome (transform b r).path }) := by
  obtain ⟨hm, hms⟩ := merge_valid hb hs hr
  obtain ⟨x, np, hx, hin, h1, h2⟩ := resolution_input hb hs hr
  unfold resolve
  rw [hin, Option.bind_some]
  simp only [NormalizationInput.withMode]
  rw [transform_eq]
  cases h : samePath r with
  | true =>
    rw [h1 h, display_done_off hm hx]
    congr 2
    simp only [if_true]
    have : escapePath (mergeReference b r).authority.isSome (mergeReference b r).path =
        (mergeReference b r).path := by
      unfold escapePath
      rw [if_neg]
      intro e
      simp only [Bool.and_eq_true, Bool.not_eq_true', Option.isSome_eq_false_iff,
        Option.isNone_iff_eq_none] at e
      obtain ⟨t, e2⟩ := take2_slash.1 e.2
      exact hm.withoutAuthority e.1 t e2
    rw [this]
  | false =>
    obtain ⟨q, rfl, hi, ht⟩ := h2 h
    rw [display_needs hm hx hi ht, normParts_off]
    rfl

end

end Verif
