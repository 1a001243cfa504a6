import Verif.Lemmas.Norm

/-! # Normalization and resolution of references as components -/

namespace Verif

open Rfc PathToNormalize

/-- Normalized authority text. -/
def authn (S : Spec) (a : Str) : Str := (normalize_authority S a).getD []

theorem authn_eq {S : Spec} {a : AuthParts} (h : a.Valid S) :
    authn S a.recompose = (a.norm S).recompose := by
  unfold authn; rw [normalize_authority_eq h]; rfl

theorem authn_some {S : Spec} {x : Str} (h : authority S x) :
    normalize_authority S x = some (authn S x) := by
  obtain ⟨a, ha, rfl⟩ := (authority_auth_parts S x).1 h
  rw [authn_eq ha, normalize_authority_eq ha]

theorem authn_valid {S : Spec} {x : Str} (h : authority S x) : authority S (authn S x) := by
  obtain ⟨a, ha, rfl⟩ := (authority_auth_parts S x).1 h
  rw [authn_eq ha]
  exact (authority_auth_parts S _).2 ⟨_, ha.norm, rfl⟩

theorem authn_idem {S : Spec} {x : Str} (h : authority S x) :
    authn S (authn S x) = authn S x := by
  obtain ⟨a, ha, rfl⟩ := (authority_auth_parts S x).1 h
  rw [authn_eq ha, authn_eq ha.norm, a.norm_idem ha]

theorem authn_spec {S : Spec} {x : Str} (h : authority S x) : AuthTextNorm S x (authn S x) := by
  obtain ⟨a, ha, rfl⟩ := (authority_auth_parts S x).1 h
  exact ⟨a, a.norm S, ha, rfl, a.norm_spec ha, authn_eq ha⟩

/-- Components of the text that is displayed for given components. -/
def normParts (S : Spec) (op : NormalizationMode) (p : Parts) : Parts where
  scheme := if op.case_pct then p.scheme.map (List.map toLower) else p.scheme
  authority := if op.case_pct then p.authority.map (authn S) else p.authority
  path := pathn S op p.authority.isSome p.path
  query := p.query.map (wr S op)
  fragment := p.fragment.map (wr S op)

theorem queryC_unreserved {S : Spec} {c : Char} (h : iunreserved S c = true) : queryC S c = true := by
  simp [queryC, fragC, pcharC, h]
theorem fragC_unreserved {S : Spec} {c : Char} (h : iunreserved S c = true) : fragC S c = true := by
  simp [fragC, pcharC, h]
theorem pcharSlashC_unreserved {S : Spec} {c : Char} (h : iunreserved S c = true) :
    pcharSlashC S c = true := by
  simp [pcharSlashC, pcharC, h]

theorem pcharSlashC_dot (S : Spec) : pcharSlashC S '.' = true := by cases S <;> decide

section
variable {S : Spec} {op : NormalizationMode} {p : Parts}

theorem Parts.Valid.pathPC (h : p.Valid S) : PC (pcharSlashC S) p.path := path_iff.1 h.path

theorem Parts.Valid.textOK (h : p.Valid S) : TextOK op p.path := fun _ => h.pathPC.wf

theorem Parts.Valid.authPath (h : p.Valid S) : AuthPath p.authority.isSome p.path := by
  intro e
  exact h.withAuthority (by intro e'; rw [e'] at e; cases e)

theorem isSome_none {p : Parts} (h : p.authority = none) : p.authority.isSome = false := by rw [h]; rfl

theorem normParts_valid (h : p.Valid S) (hs : p.scheme ≠ none) : (normParts S op p).Valid S where
  scheme := by
    intro x hx
    unfold normParts at hx
    simp only at hx
    split at hx
    · cases hp : p.scheme with
      | none => rw [hp] at hx; cases hx
      | some y => rw [hp] at hx; cases hx; exact LC_scheme _ (h.scheme y hp)
    · exact h.scheme x hx
  authority := by
    intro x hx
    unfold normParts at hx
    simp only at hx
    split at hx
    · cases hp : p.authority with
      | none => rw [hp] at hx; cases hx
      | some y => rw [hp] at hx; cases hx; exact authn_valid (h.authority y hp)
    · exact h.authority x hx
  path := path_iff.2 (pathn_PC (pcharSlashC_slash S) (pcharSlashC_dot S)
    (fun c => pcharSlashC_unreserved) h.pathPC)
  query := by
    intro x hx
    cases hp : p.query with
    | none => simp [normParts, hp] at hx
    | some y =>
      simp [normParts, hp] at hx
      subst hx
      exact (query_iff S _).2 (wr_PC ((query_iff S _).1 (h.query y hp)) fun c => queryC_unreserved)
  fragment := by
    intro x hx
    cases hp : p.fragment with
    | none => simp [normParts, hp] at hx
    | some y =>
      simp [normParts, hp] at hx
      subst hx
      exact (fragment_iff S _).2
        (wr_PC ((fragment_iff S _).1 (h.fragment y hp)) fun c => fragC_unreserved)
  withAuthority := by
    intro ha
    have : p.authority.isSome = true := by
      cases hp : p.authority with
      | none => simp [normParts, hp] at ha
      | some y => rfl
    exact pathn_authPath h.textOK h.authPath this
  withoutAuthority := by
    intro ha r
    have : p.authority = none := by
      cases hp : p.authority with
      | none => rfl
      | some y => simp [normParts, hp] at ha; split at ha <;> cases ha
    show pathn S op p.authority.isSome p.path ≠ _
    rw [this]
    exact pathn_no_dslash h.textOK r
  withoutScheme := by
    intro hx
    exfalso
    apply hs
    cases hp : p.scheme with
    | none => rfl
    | some y => simp [normParts, hp] at hx; split at hx <;> cases hx

theorem writeOpt_eq {pre : Str} {f : Str → Option Str} {g : Str → Str} {o : Option Str}
    (h : ∀ x, o = some x → f x = some (g x)) : writeOpt pre f o = some (optSuf pre (o.map g)) := by
  cases o with
  | none => rfl
  | some x => simp [writeOpt, optSuf, h x rfl]

theorem fragment_wf (h : p.Valid S) {x : Str} (hx : p.fragment = some x) : WF x :=
  ((fragment_iff S _).1 (h.fragment x hx)).wf

theorem query_wf (h : p.Valid S) {x : Str} (hx : p.query = some x) : WF x :=
  ((query_iff S _).1 (h.query x hx)).wf

/-- What `Display` writes, given the components. -/
theorem display_eq (h : p.Valid S) {x : Str} (hs : p.scheme = some x) {np : NPath} {y : Str}
    (hp : (match np with
      | .done s =>
        if op.case_pct then (PathToNormalize.from_single_path s).fmt_write_normalize S op
          p.authority.isSome
        else some s
      | .needsProcessing q => q.fmt_write_normalize S op p.authority.isSome) = some y) :
    NormalizationInput.display S ⟨x, p.authority, np, p.query, p.fragment, op⟩ =
      some ({ normParts S op p with path := y }).recompose := by
  unfold NormalizationInput.display
  simp only
  rw [writeOpt_eq (g := fun a => if op.case_pct then authn S a else a)
    (by intro a ha
        split
        · exact authn_some (h.authority a ha)
        · rfl)]
  rw [writeOpt_eq (o := p.query) (g := wr S op)
    (by intro a ha
        unfold wr
        split
        · exact pctn_some S (query_wf h ha)
        · rfl)]
  rw [writeOpt_eq (o := p.fragment) (g := wr S op)
    (by intro a ha
        unfold wr
        split
        · exact pctn_some S (fragment_wf h ha)
        · rfl)]
  simp only [Option.bind_eq_bind, Option.bind_some]
  have hscheme : (if op.case_pct = true then normalize_scheme x else x) ++ [':'] =
      optPre (normParts S op p).scheme [':'] := by
    unfold normParts normalize_scheme
    simp only [hs]
    split <;> rfl
  have hauth : Option.map (fun a => if op.case_pct = true then authn S a else a) p.authority =
      (normParts S op p).authority := by
    unfold normParts
    simp only
    split
    · rfl
    · cases p.authority <;> rfl
  unfold Parts.recompose
  cases np with
  | done s =>
    simp only at hp
    rw [← hscheme, hauth]
    by_cases ho : op.case_pct = true
    · rw [if_pos ho] at hp
      simp [ho, hp, normParts]
    · rw [if_neg ho] at hp
      cases hp
      simp [ho, normParts]
  | needsProcessing q =>
    simp only at hp
    simp only [hp, Option.bind_some]
    rw [← hscheme, hauth]
    simp [normParts]

theorem display_needs (h : p.Valid S) {x : Str} (hs : p.scheme = some x) {q : PathToNormalize}
    (hi : q.Inv) (ht : q.text = p.path) :
    NormalizationInput.display S ⟨x, p.authority, .needsProcessing q, p.query, p.fragment, op⟩ =
      some (normParts S op p).recompose := by
  rw [display_eq h hs (y := pathn S op p.authority.isSome p.path)]
  · rfl
  · simp only
    rw [pathn_write hi (by rw [ht]; exact h.textOK) (by rw [ht]; exact h.authPath), ht]

theorem display_done_norm (h : p.Valid S) {x : Str} (hs : p.scheme = some x)
    (ho : op.case_pct = true) :
    NormalizationInput.display S ⟨x, p.authority, .done p.path, p.query, p.fragment, op⟩ =
      some (normParts S op p).recompose := by
  rw [display_eq h hs (y := pathn S op p.authority.isSome p.path)]
  · rfl
  · simp only [ho, if_true]
    have := from_single_path_inv p.path
    rw [pathn_write this.1 (by rw [this.2]; exact h.textOK) (by rw [this.2]; exact h.authPath),
      this.2]

theorem normParts_off (p : Parts) : normParts S .off p =
    { p with path := escapePath p.authority.isSome (remove_dot_segments (undot p.path)) } := by
  unfold normParts pathn
  simp only [NormalizationMode.case_pct]
  have e : (wr S .off) = id := by funext s; rfl
  cases p
  simp [e]

theorem display_done_off (h : p.Valid S) {x : Str} (hs : p.scheme = some x) :
    NormalizationInput.display S ⟨x, p.authority, .done p.path, p.query, p.fragment, .off⟩ =
      some p.recompose := by
  rw [display_eq h hs (y := p.path) (by simp [NormalizationMode.case_pct])]
  rw [normParts_off]

theorem from_iri_eq (h : p.Valid S) {x : Str} (hs : p.scheme = some x) :
    NormalizationInput.from_iri p.recompose =
      some ⟨x, p.authority, .needsProcessing (from_single_path p.path), p.query, p.fragment, .off⟩ := by
  unfold NormalizationInput.from_iri
  rw [to_major_eq h.delim]
  simp [Parts.toMajor, hs]

theorem normalize_eq (h : p.Valid S) (hs : p.scheme ≠ none) :
    normalize S p.recompose = some (normParts S .default p).recompose := by
  obtain ⟨x, hx⟩ := Option.ne_none_iff_exists'.1 hs
  unfold normalize
  rw [from_iri_eq h hx, Option.bind_some]
  have := from_single_path_inv p.path
  exact display_needs h hx this.1 this.2

theorem normalize_preserve_eq (h : p.Valid S) (hs : p.scheme ≠ none) :
    normalize_but_preserve_authorityless_relative_path S p.recompose =
      some (normParts S .preserve p).recompose := by
  obtain ⟨x, hx⟩ := Option.ne_none_iff_exists'.1 hs
  unfold normalize_but_preserve_authorityless_relative_path
  rw [from_iri_eq h hx, Option.bind_some]
  have := from_single_path_inv p.path
  exact display_needs h hx this.1 this.2

theorem normParts_scheme (hs : p.scheme ≠ none) : (normParts S op p).scheme ≠ none := by
  unfold normParts
  simp only
  split
  · cases hp : p.scheme with
    | none => exact absurd hp hs
    | some y => simp
  · exact hs

theorem normParts_isSome : (normParts S op p).authority.isSome = p.authority.isSome := by
  unfold normParts
  simp only
  split
  · simp
  · rfl

theorem normParts_idem (h : p.Valid S) (ho : op ≠ .off) :
    normParts S op (normParts S op p) = normParts S op p := by
  have hc : op.case_pct = true := by cases op <;> first | rfl | exact absurd rfl ho
  have hp : pathn S op (normParts S op p).authority.isSome (normParts S op p).path =
      (normParts S op p).path := by
    rw [normParts_isSome]
    exact pathn_idem ho h.pathPC.wf h.authPath
  have h1 : (normParts S op p).scheme.map (List.map toLower) = (normParts S op p).scheme := by
    simp only [normParts, hc, if_true, Option.map_map]
    congr 1
    funext s
    simp only [Function.comp, List.map_map]
    apply List.map_congr_left
    intro c _
    exact toLower_idem c
  have h2 : (normParts S op p).authority.map (authn S) = (normParts S op p).authority := by
    simp only [normParts, hc, if_true]
    cases ha : p.authority with
    | none => rfl
    | some a => simp [authn_idem (h.authority a ha)]
  have h3 : (normParts S op p).query.map (wr S op) = (normParts S op p).query := by
    simp only [normParts]
    cases ha : p.query with
    | none => rfl
    | some a => simp [wr_idem fun _ => query_wf h ha]
  have h4 : (normParts S op p).fragment.map (wr S op) = (normParts S op p).fragment := by
    simp only [normParts]
    cases ha : p.fragment with
    | none => rfl
    | some a => simp [wr_idem fun _ => fragment_wf h ha]
  rw [show normParts S op (normParts S op p) = ⟨(normParts S op p).scheme.map (List.map toLower),
    (normParts S op p).authority.map (authn S),
    pathn S op (normParts S op p).authority.isSome (normParts S op p).path,
    (normParts S op p).query.map (wr S op), (normParts S op p).fragment.map (wr S op)⟩ by
      rw [normParts]; simp only [hc, if_true]]
  rw [hp, h1, h2, h3, h4]

theorem opaque_iff (p : Parts) : OpaquePath p ↔
    p.authority.isSome = false ∧ p.path ≠ [] ∧ p.path.take 1 ≠ ['/'] := by
  unfold OpaquePath
  refine and_congr (by simp) (and_congr_right fun _ => ?_)
  rw [Ne, take1_slash]
  simp

theorem optRel_map {R : Str → Str → Prop} {o : Option Str} {f : Str → Str}
    (h : ∀ x, o = some x → R x (f x)) : OptRel R o (o.map f) := by
  cases o with
  | none => trivial
  | some x => exact h x rfl

/-- The displayed components are a normal form of the given ones. -/
theorem normParts_spec (h : p.Valid S) (ho : op.case_pct = true) :
    Normal S (op == .preserve) p (normParts S op p) where
  scheme := by simp [normParts, ho, lower_eq]
  authority := by
    simp only [normParts, ho, if_true]
    exact optRel_map fun x hx => authn_spec (h.authority x hx)
  path := by
    intro hn
    refine ⟨_, pctn_text (S := S) (rds_PC rfl h.pathPC.wf), ?_⟩
    simp only [normParts, pathn]
    rw [if_neg]
    · rw [wr, if_pos ho]
    · rintro ⟨h1, h2⟩
      apply hn
      exact ⟨by rw [h1]; rfl, (opaque_iff p).2 h2⟩
  opaquePath := by
    intro h1 h2
    simp only [normParts, pathn]
    rw [if_pos ⟨by simpa using h1, (opaque_iff p).1 h2⟩]
    exact pctn_text h.pathPC.wf
  query := by
    simp only [normParts]
    refine optRel_map fun x hx => ?_
    rw [wr, if_pos ho]
    exact pctn_text (query_wf h hx)
  fragment := by
    simp only [normParts]
    refine optRel_map fun x hx => ?_
    rw [wr, if_pos ho]
    exact pctn_text (fragment_wf h hx)

end

end Verif
