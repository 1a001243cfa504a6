import Verif.Props.Normalize

/-!
# C19: `is_normalized` agrees with `normalize`

False of the code for an authority with an empty port (`C19_refuted`): `normalize` drops its colon
and `is_normalized` does not look at it.  Proved: what the three checks decide on every valid input.
-/

namespace Verif

open Rfc PathToNormalize

/-! ### Percent/case normalization and concatenation -/

theorem render_tokens_length {s : Str} (h : WF s) : (render (tokens s)).length = s.length := by
  induction h with
  | nil => rfl
  | pct hh hl _ ih =>
    rw [tokens_pct hh hl, render_cons, List.length_append, ih]
    simp [Tok.render, pctUpper]
    omega
  | chr hc _ _ ih =>
    rw [tokens_ch hc, render_cons, List.length_append, ih]
    simp [Tok.render]
    omega

theorem PctNorm.length_le {S : Spec} {r t : List Tok} (h : PctNorm S r t) :
    (render t).length ≤ (render r).length := by
  induction h with
  | nil => exact Nat.le_refl _
  | ch _ ih => rw [render_cons, render_cons, List.length_append, List.length_append]; omega
  | @decode c r t hc _ ih =>
    rw [render_append, render_cons, List.length_append, List.length_append]
    have h2 : 1 ≤ (render ((utf8 c).map Tok.pct)).length := by
      cases hu : utf8 c with
      | nil => exact absurd hu (utf8_ne_nil c)
      | cons x xs =>
        rw [List.map_cons, render_cons, List.length_append]
        simp [Tok.render, pctUpper]
        omega
    simp only [Tok.render, List.length_singleton]
    omega
  | keep _ _ ih => rw [render_cons, render_cons, List.length_append, List.length_append]; omega

theorem pctn_length_le (S : Spec) {s : Str} (h : WF s) : (pctn S s).length ≤ s.length := by
  obtain ⟨t, h1, _, h2⟩ := pctn_spec S h
  rw [h2, ← render_tokens_length h]
  exact h1.length_le

theorem pctn_fix_append {S : Spec} {a b : Str} {c : Char} (ha : WF a) (hc : c ≠ '%') (hb : WF b) :
    pctn S (a ++ c :: b) = a ++ c :: b ↔ pctn S a = a ∧ pctn S b = b := by
  rw [pctn_append_ch S ha hc hb]
  constructor
  · intro h
    have hl := congrArg List.length h
    simp only [List.length_append, List.length_cons] at hl
    have h1 := pctn_length_le S ha
    have h2 := pctn_length_le S hb
    have h3 : (pctn S a).length = a.length := by omega
    have := List.append_inj h h3
    exact ⟨this.1, (List.cons.inj this.2).2⟩
  · rintro ⟨h1, h2⟩; rw [h1, h2]

theorem optSuf_wf {c : Char} (hc : c ≠ '%') {o : Option Str} (h : ∀ x, o = some x → WF x) :
    WF (optSuf [c] o) := by
  cases o with
  | none => exact .nil
  | some x => exact .chr hc rfl (h x rfl)

theorem pctn_fix_optSuf {S : Spec} {a : Str} {c : Char} {o : Option Str} (ha : WF a) (hc : c ≠ '%')
    (h : ∀ x, o = some x → WF x) :
    pctn S (a ++ optSuf [c] o) = a ++ optSuf [c] o ↔ pctn S a = a ∧ o.map (pctn S) = o := by
  cases o with
  | none => simp [optSuf]
  | some x => simpa [optSuf] using pctn_fix_append ha hc (h x rfl)

/-! ### Dots -/

theorem splitOnSlash_eq (s : Str) : splitOnSlash s = splitSlash s := by
  induction s with
  | nil => rfl
  | cons c r ih =>
    rw [splitOnSlash, splitSlash, ih]
    cases splitSlash r <;> rfl

/-- Segments of a percent-encoding-normalized path are dot segments only literally. -/
theorem dots_literal {S : Spec} {n : Str} (h : pctn S n = n) :
    NotDot n ↔ n ≠ ['.'] ∧ n ≠ ['.', '.'] := by
  constructor
  · rintro ⟨h1, h2⟩
    constructor
    · rintro rfl; exact h1 (by decide +kernel)
    · rintro rfl; exact h2 (by decide +kernel)
  · rintro ⟨h1, h2⟩
    rw [← notDot_iff (true, n)]
    cases hd : isDots (true, n) with
    | false => rfl
    | true =>
      exfalso
      simp [isDots] at hd
      unfold SegmentKind.from_segment at hd
      split at hd
      · exact hd rfl
      · split at hd
        · exact hd rfl
        · split at hd
          · rename_i hm
            simp only [List.contains_eq_mem, decide_eq_true_eq, List.mem_cons, List.not_mem_nil, or_false] at hm
            rcases hm with rfl | rfl | rfl
            · exact h1 rfl
            all_goals revert h; cases S <;> decide +kernel
          · split at hd
            · rename_i hm
              simp only [List.contains_eq_mem, decide_eq_true_eq, List.mem_cons, List.not_mem_nil,
                or_false] at hm
              rcases hm with rfl | rfl | rfl | rfl | rfl | rfl | rfl | rfl | rfl
              · exact h2 rfl
              all_goals revert h; cases S <;> decide +kernel
            · exact hd rfl

theorem segs_fixed {S : Spec} {s : Str} (hw : WF s) (h : pctn S s = s) :
    ∀ n ∈ splitSlash s, pctn S n = n := by
  obtain ⟨hok, ht⟩ := pathSegs_spec s
  have hT : TextOK .default (pathText (pathSegs s)) := by rw [ht]; exact fun _ => hw
  have e := wr_path (S := S) hok hT
  have hn := names_ok hok hT
  rw [ht, wr, if_pos (by rfl), h] at e
  have e2 := pathSegs_unique (wrSegs_ok (S := S) hn hok)
  rw [← e] at e2
  intro n hm
  rw [← ht] at hm
  rcases splitSlash_pathSegs hok hm with rfl | ⟨g, hg, rfl⟩
  · exact pctn_nil S
  · have : (wrSegs S .default (pathSegs s)).map Prod.snd = (pathSegs s).map Prod.snd := by rw [← e2]
    rw [wrSegs, List.map_map] at this
    have := List.map_inj_left.1 this g hg
    simpa [wr, NormalizationMode.case_pct] using this

theorem spanDots_some {S : Spec} {t : Str} (h : ∀ n ∈ splitSlash t, pctn S n = n) :
    spanDots (some t) = false ↔ ∀ n ∈ splitSlash t, NotDot n := by
  unfold spanDots
  simp only [splitOnSlash_eq, List.any_eq_false, Bool.or_eq_true, beq_iff_eq, not_or]
  constructor
  · intro h1 n hn; exact (dots_literal (h n hn)).2 (h1 n hn)
  · intro h1 n hn; exact (dots_literal (h n hn)).1 (h1 n hn)

section
variable {S : Spec} {auth : Bool} {s : Str}

theorem dot_mem (rest : Str) : ['.'] ∈ splitSlash ('/' :: '.' :: '/' :: '/' :: rest) := by
  rw [splitSlash_slash, show ('.' :: '/' :: '/' :: rest) = ['.'] ++ '/' :: '/' :: rest from rfl,
    splitSlash_append (by decide)]
  simp

theorem notDot_dot : ¬ NotDot ['.'] := fun h => h.1 (by decide +kernel)

theorem pathn_default_eq : pathn S .default auth s =
    escapePath auth (pctn S (remove_dot_segments (undot s))) := by
  unfold pathn
  rw [if_neg (by simp)]
  rfl

theorem pathn_fix_plain (hf : pctn S s = s) (hw : WF s) (ha : auth = false → ∀ r, s ≠ '/' :: '/' :: r)
    (hs : auth = true ∨ ∀ r, s ≠ '/' :: '.' :: '/' :: '/' :: r) :
    (∀ n ∈ splitSlash s, NotDot n) ↔ pathn S .default auth s = s := by
  constructor
  · intro h
    rw [pathn_default_eq, C16_no_dots_unchanged s h, hf]
    unfold escapePath
    rw [if_neg]
    intro e
    simp only [Bool.and_eq_true, Bool.not_eq_true'] at e
    obtain ⟨r, e2⟩ := take2_slash.1 e.2
    exact ha e.1 r e2
  · intro h
    rcases pathn_notDot (S := S) (auth := auth) (op := .default) (fun _ => hw) (by simp) with
      h1 | ⟨h1, r, h2, _⟩
    · rwa [h] at h1
    · exfalso
      rw [h] at h2
      rcases hs with h3 | h3
      · rw [h1] at h3; cases h3
      · exact h3 r h2

theorem pathn_fix_escaped {rest : Str} (hf : pctn S ('/' :: '.' :: '/' :: '/' :: rest) =
      '/' :: '.' :: '/' :: '/' :: rest) (hw : WF ('/' :: '.' :: '/' :: '/' :: rest)) :
    (∀ n ∈ splitSlash rest, NotDot n) ↔
      pathn S .default false ('/' :: '.' :: '/' :: '/' :: rest) = '/' :: '.' :: '/' :: '/' :: rest := by
  constructor
  · intro h
    have hd : ∀ n ∈ splitSlash ('/' :: '/' :: rest), NotDot n := by
      intro n hn
      rw [splitSlash_slash, splitSlash_slash] at hn
      simp at hn
      rcases hn with rfl | hn
      · exact notDot_nil
      · exact h n hn
    have e0 := C16_no_dots_unchanged _ hd
    rw [rds_eq] at e0
    have hnd := rdsSegs_mem (s := '/' :: '/' :: rest)
    obtain ⟨hal, hne⟩ := rdsSegs_slash ('/' :: rest)
    generalize rdsSegs ('/' :: '/' :: rest) = W at *
    have hok2 : OKSegs ((true, ['.']) :: W) := ⟨by decide, by simp, hal⟩
    have e3 : ('/' :: '.' :: '/' :: '/' :: rest) = pathText ((true, ['.']) :: W) := by
      rw [pathText_cons, e0]; rfl
    have hr2 : rdsSegs ('/' :: '.' :: '/' :: '/' :: rest) = W := by
      unfold rdsSegs
      rw [e3, pathSegs_unique hok2, stripRel_true]
      have := fin_dots (D := [(true, ['.'])]) (by intro g hg; simp at hg; subst hg; decide +kernel) hne
      rw [List.singleton_append] at this
      rw [this, fin_all_normal hnd]
    rw [pathn_default_eq, rds_eq, hr2, e0]
    have hw1 := ((PC_cons (by decide)).1 hw).2
    have hw2 := ((PC_cons (by decide)).1 hw1).2
    rw [pctn_ch S (by decide) hw1, pctn_ch S (by decide) hw2] at hf
    rw [(List.cons.inj (List.cons.inj hf).2).2]
    rfl
  · intro h
    rcases pathn_notDot (S := S) (auth := false) (op := .default) (fun _ => hw) (by simp) with
      h1 | ⟨_, r, h2, h3⟩
    · exact absurd (h1 ['.'] (by rw [h]; exact dot_mem rest)) notDot_dot
    · rw [h] at h2
      cases h2
      exact h3

theorem pathn_pct_fixed {op : NormalizationMode} (hc : op.case_pct = true) (hw : WF s) :
    pctn S (pathn S op auth s) = pathn S op auth s := by
  unfold pathn
  split
  · exact pctn_idem hw
  · have hw2 : WF (remove_dot_segments (undot s)) := rds_PC rfl hw
    rw [wr, if_pos hc]
    unfold escapePath
    split
    · have h1 := pctn_wf (S := S) hw2
      rw [pctn_ch S (by decide) (.chr (by decide) rfl h1), pctn_ch S (by decide) h1, pctn_idem hw2]
    · exact pctn_idem hw2

/-- The normalization mode that a check corresponds to. -/
def NormalizednessCheckMode.op : NormalizednessCheckMode → NormalizationMode
  | .default => .default
  | .rfc3986 => .default
  | .preserve => .preserve

theorem strip_dot_cases (s : Str) :
    (∃ rest, s = '/' :: '.' :: '/' :: '/' :: rest ∧ strip_prefix s ['/', '.', '/', '/'] = some rest) ∨
    ((∀ r, s ≠ '/' :: '.' :: '/' :: '/' :: r) ∧ strip_prefix s ['/', '.', '/', '/'] = none) := by
  cases h : strip_prefix s ['/', '.', '/', '/'] with
  | none => right; exact ⟨fun r e => strip_prefix_none.1 h r (by rw [e]; rfl), rfl⟩
  | some r => left; exact ⟨r, by rw [strip_prefix_some.1 h]; rfl, rfl⟩

theorem stripped_fix (hf : pctn S s = s) (hw : WF s) (ha : ∀ r, s ≠ '/' :: '/' :: r) :
    spanDots (some (match strip_prefix s ['/', '.', '/', '/'] with | some p => p | none => s)) = false ↔
      pathn S .default false s = s := by
  rcases strip_dot_cases s with ⟨rest, rfl, e⟩ | ⟨h1, e⟩
  · rw [e]
    simp only
    have hn : ∀ n ∈ splitSlash rest, pctn S n = n := by
      intro n hn
      apply segs_fixed hw hf
      rw [splitSlash_slash, show ('.' :: '/' :: '/' :: rest) = ['.'] ++ '/' :: '/' :: rest from rfl,
        splitSlash_append (by decide), splitSlash_slash]
      simp [hn]
    rw [spanDots_some hn]
    exact pathn_fix_escaped hf hw
  · rw [e]
    simp only
    rw [spanDots_some (segs_fixed hw hf)]
    exact pathn_fix_plain hf hw (fun _ => ha) (.inr h1)

theorem noDotSpan_iff (mode : NormalizednessCheckMode) (hf : pctn S s = s) (hw : WF s)
    (ha : auth = false → ∀ r, s ≠ '/' :: '/' :: r) :
    spanDots (noDotSpan mode auth s) = false ↔
      pathn S mode.op auth s = s ∧
        (mode = .rfc3986 → ¬ (auth = false ∧ ∃ r, remove_dot_segments (undot s) = '/' :: '/' :: r)) := by
  cases hauth : auth with
  | true =>
    have e : noDotSpan mode true s = some s := by simp [noDotSpan]
    rw [e, spanDots_some (segs_fixed hw hf)]
    have := pathn_fix_plain (auth := true) hf hw (by simp) (.inl rfl)
    rw [this]
    have e2 : pathn S mode.op true s = pathn S .default true s := by
      unfold pathn
      rw [if_neg (by simp), if_neg (by simp)]
      cases mode <;> rfl
    rw [e2]
    simp
  | false =>
    subst hauth
    have ha' := ha rfl
    cases mode with
    | default =>
      have e : noDotSpan .default false s =
        some (match strip_prefix s ['/', '.', '/', '/'] with | some p => p | none => s) := rfl
      rw [e, stripped_fix hf hw ha']
      simp [NormalizednessCheckMode.op]
    | rfc3986 =>
      have e : noDotSpan .rfc3986 false s = some s := rfl
      rw [e, spanDots_some (segs_fixed hw hf)]
      constructor
      · intro h
        have hr := C16_no_dots_unchanged s h
        constructor
        · show pathn S .default false s = s
          rcases strip_dot_cases s with ⟨rest, rfl, _⟩ | ⟨h1, _⟩
          · exact absurd (h _ (dot_mem rest)) notDot_dot
          · exact (pathn_fix_plain hf hw ha (.inr h1)).1 h
        · rintro _ ⟨_, r, e2⟩
          rw [hr] at e2
          exact ha' r e2
      · rintro ⟨h1, h2⟩
        have h1 : pathn S .default false s = s := h1
        have h3 := (not_congr (pathn_escaped (S := S) (auth := false) hw)).2 (h2 rfl)
        rw [h1] at h3
        exact (pathn_fix_plain hf hw ha (.inr fun r e => h3 ⟨r, e⟩)).2 h1
    | preserve =>
      by_cases hsl : s.take 1 = ['/']
      · have e : noDotSpan .preserve false s =
            some (match strip_prefix s ['/', '.', '/', '/'] with | some p => p | none => s) := by
          unfold noDotSpan
          rw [if_neg (by simp)]
          simp only
          rw [starts_slash, if_pos (by simpa using hsl)]
          cases strip_prefix s ['/', '.', '/', '/'] <;> rfl
        rw [e, stripped_fix hf hw ha']
        have e2 : pathn S .preserve false s = pathn S .default false s := by
          unfold pathn
          rw [if_neg (by simp [hsl]), if_neg (by simp)]
          rfl
        simp [NormalizednessCheckMode.op, e2]
      · have e : noDotSpan .preserve false s = none := by
          unfold noDotSpan
          rw [if_neg (by simp)]
          simp only
          rw [starts_slash, if_neg (by simpa using hsl)]
        rw [e]
        have : pathn S .preserve false s = s := by
          by_cases h0 : s = []
          · subst h0; exact pathn_nil
          · unfold pathn
            rw [if_pos ⟨rfl, rfl, h0, hsl⟩, hf]
        simp [spanDots, NormalizednessCheckMode.op, this]

end

/-! ### Authority -/

theorem dropEmptyPort_eq (a : Str) : dropEmptyPort a = stripColon a := by
  unfold dropEmptyPort stripColon
  rcases List.eq_nil_or_concat a with rfl | ⟨l, c, rfl⟩
  · rfl
  · simp only [List.concat_eq_append, List.getLast?_append, List.getLast?_singleton,
      Option.some_or, List.dropLast_concat, List.reverse_append, List.reverse_cons,
      List.reverse_nil, List.nil_append, List.singleton_append]
    by_cases h : c = ':'
    · subst h; simp
    · rw [if_neg (by simpa using h)]
      split
      · rename_i he; cases he; exact absurd rfl h
      · rfl

theorem stripColon_auth {S : Spec} {a : AuthParts} (h : a.Valid S) :
    stripColon a.recompose = ({ a with port := portn a.port } : AuthParts).recompose := by
  have hk := stripColon_hostport h.host h.port
  by_cases hp : a.port = some []
  · have e : a.recompose = (optPre a.userinfo ['@'] ++ a.host) ++ [':'] := by
      simp [AuthParts.recompose, hp, optSuf]
    rw [e, stripColon_colon]
    simp [AuthParts.recompose, portn, hp, optSuf]
  · have hpn : portn a.port = a.port := if_neg hp
    rw [hpn] at hk ⊢
    apply stripColon_of_last
    intro r e
    unfold AuthParts.recompose at e
    generalize a.host ++ optSuf [':'] a.port = Y at e hk
    rcases List.eq_nil_or_concat Y with rfl | ⟨l, c, rfl⟩
    · cases hu : a.userinfo with
      | none => rw [hu] at e; simp [optPre] at e
      | some u =>
        rw [hu] at e
        simp only [optPre, List.append_nil] at e
        have := List.append_inj' e rfl
        exact absurd (List.cons.inj this.2).1 (by decide)
    · rw [List.concat_eq_append, ← List.append_assoc] at e
      have := List.append_inj' e rfl
      have hc := (List.cons.inj this.2).1
      subst hc
      rw [List.concat_eq_append, stripColon_colon] at hk
      have := congrArg List.length hk
      simp at this

theorem authorityIsNormalized_iff {S : Spec} {a : AuthParts} (h : a.Valid S) :
    ∃ b, authorityIsNormalized S a.recompose = some b ∧
      (b = true ↔ authn S a.recompose = stripColon a.recompose) := by
  have hw := host_wf h.host
  have hu : ∀ u, a.userinfo = some u → WF u := fun u hu =>
    ((userinfo_iff S u).1 (h.userinfo u hu)).wf
  have hR : authn S a.recompose = stripColon a.recompose ↔
      hostn S a.host = a.host ∧ a.userinfo.map (pctn S) = a.userinfo := by
    rw [authn_eq h, stripColon_auth h]
    constructor
    · intro e
      have := auth_recompose_inj h.norm (b := { a with port := portn a.port })
        ⟨h.userinfo, h.host, portn_ok h.port⟩ e
      unfold AuthParts.norm at this
      injection this with h1 h2 h3
      exact ⟨h2, h1⟩
    · rintro ⟨h1, h2⟩
      unfold AuthParts.norm
      rw [h1, h2]
  unfold authorityIsNormalized
  rw [decompose_authority_eq h]
  simp only [offsets_host, offsets_userinfo, Option.bind_eq_bind, Option.bind_some,
    is_ascii_only_host_eq hw]
  have hok : ∃ ok, (if (tokens a.host).all tokAscii = true then
      eq_str_display a.host (normalized_ascii_only_host a.host)
      else is_pct_case_normalized S a.host) = some ok ∧ (ok = true ↔ hostn S a.host = a.host) := by
    unfold hostn
    by_cases hA : (tokens a.host).all tokAscii = true
    · rw [if_pos hA, if_pos hA, ascii_host_eq hw hA]
      exact ⟨_, rfl, by rw [beq_iff_eq]; exact eq_comm⟩
    · rw [if_neg hA, if_neg hA, is_pct_case_normalized, pctn_some S hw]
      exact ⟨_, rfl, by rw [beq_iff_eq]; exact eq_comm⟩
  obtain ⟨ok, h1, h2⟩ := hok
  rw [hR]
  rw [h1]
  simp only [Option.bind_some]
  cases ok with
  | false =>
    exact ⟨false, rfl, by simp; intro e; exact absurd (h2.2 e) (by simp)⟩
  | true =>
    have hh := h2.1 rfl
    simp only [Bool.not_true, Bool.false_eq_true, if_false]
    cases hui : a.userinfo with
    | none => exact ⟨true, rfl, by simp [hh]⟩
    | some u =>
      have e : is_pct_case_normalized S u = some (u == pctn S u) := by
        rw [is_pct_case_normalized, pctn_some S (hu u hui)]; rfl
      refine ⟨u == pctn S u, e, ?_⟩
      rw [beq_iff_eq]
      simp [hh]
      exact eq_comm

/-! ### The whole check -/

theorem dropPortColon_valid {S : Spec} {p : Parts} (h : p.Valid S) : (dropPortColon p).Valid S where
  scheme := h.scheme
  authority := by
    intro x hx
    cases ha : p.authority with
    | none => simp [dropPortColon, ha] at hx
    | some y =>
      simp [dropPortColon, ha] at hx
      subst hx
      obtain ⟨a, hav, rfl⟩ := (authority_auth_parts S y).1 (h.authority y ha)
      rw [dropEmptyPort_eq, stripColon_auth hav]
      exact (authority_auth_parts S _).2 ⟨{ a with port := portn a.port },
        ⟨hav.userinfo, hav.host, portn_ok hav.port⟩, rfl⟩
  path := h.path
  query := h.query
  fragment := h.fragment
  withAuthority := by
    intro hn
    exact h.withAuthority (by intro e; simp [dropPortColon, e] at hn)
  withoutAuthority := by
    intro hn
    exact h.withoutAuthority (by cases ha : p.authority <;> simp [dropPortColon, ha] at hn ⊢)
  withoutScheme := by
    intro hs hn
    exact h.withoutScheme hs (by cases ha : p.authority <;> simp [dropPortColon, ha] at hn ⊢)

theorem is_normalized_iff {S : Spec} {p : Parts} (h : p.Valid S) (hs : p.scheme ≠ none)
    (mode : NormalizednessCheckMode) :
    ∃ b, is_normalized S mode p.recompose = some b ∧
      (b = true ↔ normParts S mode.op p = dropPortColon p ∧
        (mode = .rfc3986 → ¬ (p.authority = none ∧
          ∃ r, remove_dot_segments (undot p.path) = '/' :: '/' :: r))) := by
  obtain ⟨x, hx⟩ := Option.ne_none_iff_exists'.1 hs
  have hc : mode.op.case_pct = true := by cases mode <;> rfl
  have hd := h.delim
  have hwp := h.pathPC.wf
  have hwq : WF (optSuf ['?'] p.query) := optSuf_wf (by decide) fun y => query_wf h
  have hwf : WF (optSuf ['#'] p.fragment) := optSuf_wf (by decide) fun y => fragment_wf h
  -- the right-hand side, componentwise
  have hR : normParts S mode.op p = dropPortColon p ↔
      (x.any isUpper = false ∧ (∀ y, p.authority = some y → authn S y = stripColon y) ∧
        pathn S mode.op p.authority.isSome p.path = p.path ∧
        p.query.map (pctn S) = p.query ∧ p.fragment.map (pctn S) = p.fragment) := by
    have hw : wr S mode.op = pctn S := by funext s; simp [wr, hc]
    unfold normParts dropPortColon
    rw [hw]
    simp only [hc, if_true, hx, Option.map_some, Parts.mk.injEq, Option.some.injEq, map_toLower_eq]
    refine and_congr_right fun _ => and_congr ?_ Iff.rfl
    cases ha : p.authority with
    | none => simp
    | some y => simp [dropEmptyPort_eq]
  have hall : WF (p.path ++ qfStr p.query p.fragment) := by
    unfold qfStr
    exact PC.append hwp (PC.append hwq hwf)
  have hpct : pctn S (p.path ++ qfStr p.query p.fragment) = p.path ++ qfStr p.query p.fragment ↔
      pctn S p.path = p.path ∧ p.query.map (pctn S) = p.query ∧
        p.fragment.map (pctn S) = p.fragment := by
    unfold qfStr
    rw [← List.append_assoc, pctn_fix_optSuf (PC.append hwp hwq) (by decide) (fun y => fragment_wf h),
      pctn_fix_optSuf hwp (by decide) (fun y => query_wf h), and_assoc]
  have hauthB : ∃ ab, optAuthorityIsNormalized S p.authority = some ab ∧
      (ab = true ↔ ∀ y, p.authority = some y → authn S y = stripColon y) := by
    cases ha : p.authority with
    | none => exact ⟨true, rfl, by simp⟩
    | some y =>
      obtain ⟨a, hav, rfl⟩ := (authority_auth_parts S y).1 (h.authority y ha)
      obtain ⟨b, h1, h2⟩ := authorityIsNormalized_iff hav
      exact ⟨b, h1, by rw [h2]; simp⟩
  obtain ⟨ab, hab, habi⟩ := hauthB
  unfold is_normalized
  rw [hd.scheme_colon_eq hx]
  simp only [Option.bind_eq_bind, Option.bind_some, hd.slash_slash_eq, hd.until_query_path]
  have hpn : is_pct_case_normalized S (p.path ++ qfStr p.query p.fragment) =
      some (p.path ++ qfStr p.query p.fragment == pctn S (p.path ++ qfStr p.query p.fragment)) := by
    rw [is_pct_case_normalized, pctn_some S hall]; rfl
  rw [hR]
  have hA : p.authority.isSome = false ↔ p.authority = none := by simp
  by_cases hu : x.any isUpper = true
  · rw [if_pos hu]
    refine ⟨false, rfl, ?_⟩
    simp [hu]
  · rw [if_neg hu]
    have hu' : x.any isUpper = false := by simpa using hu
    rw [hab]
    simp only [Option.bind_some]
    cases ab with
    | false =>
      refine ⟨false, rfl, ?_⟩
      simp only [Bool.false_eq_true, false_iff, not_and]
      rintro ⟨_, h2, _⟩
      exact absurd (habi.2 h2) (by simp)
    | true =>
      have hab1 := habi.1 rfl
      simp only [Bool.not_true, Bool.false_eq_true, if_false]
      rw [hpn]
      by_cases hfix : pctn S p.path = p.path
      · have hk := noDotSpan_iff (S := S) (auth := p.authority.isSome) mode hfix hwp
          (fun ha => h.withoutAuthority (hA.1 ha))
        rw [hA] at hk
        cases hsd : spanDots (noDotSpan mode p.authority.isSome p.path) with
        | true =>
          refine ⟨false, rfl, ?_⟩
          simp only [Bool.false_eq_true, false_iff]
          rintro ⟨⟨_, _, h3, _, _⟩, h4⟩
          exact absurd (hk.2 ⟨h3, h4⟩) (by simp [hsd])
        | false =>
          refine ⟨_, rfl, ?_⟩
          have := hk.1 hsd
          rw [beq_iff_eq, eq_comm, hpct]
          constructor
          · rintro ⟨h1, h2, h3⟩
            exact ⟨⟨hu', hab1, this.1, h2, h3⟩, this.2⟩
          · rintro ⟨⟨_, _, _, h2, h3⟩, _⟩
            exact ⟨hfix, h2, h3⟩
      · -- a path that is not percent-normalized is never a fixed point
        have hne : pathn S mode.op p.authority.isSome p.path ≠ p.path := by
          intro e
          apply hfix
          have hi := pathn_pct_fixed (S := S) (op := mode.op) (auth := p.authority.isSome) hc hwp
          rwa [e] at hi
        refine ⟨false, ?_, ?_⟩
        · have : (p.path ++ qfStr p.query p.fragment ==
              pctn S (p.path ++ qfStr p.query p.fragment)) = false := by
            rw [Bool.eq_false_iff]
            intro e
            rw [beq_iff_eq, eq_comm, hpct] at e
            exact hfix e.1
          rw [this]
          split <;> rfl
        · simp only [Bool.false_eq_true, false_iff, not_and]
          rintro ⟨_, _, h3, _, _⟩
          exact absurd h3 hne

/-! ### C19 -/

section
variable {S : Spec} {p : Parts}

theorem norm_text_iff {op : NormalizationMode} (h : p.Valid S) (hs : p.scheme ≠ none) :
    normParts S op p = dropPortColon p ↔
      (normParts S op p).recompose = (dropPortColon p).recompose :=
  ⟨congrArg _, fun e => recompose_inj (normParts_valid h hs).delim (dropPortColon_valid h).delim e⟩

theorem dropPortColon_self (h : ∀ a, p.authority = some a → a.getLast? ≠ some ':') :
    dropPortColon p = p := by
  cases p with
  | mk sc au pa qu fr =>
    cases au with
    | none => rfl
    | some a => simp [dropPortColon, dropEmptyPort, h a rfl]

end

/-- **C19**, what the check decides on every valid IRI: `is_normalized()` does not panic, and is
true exactly if normalization changes nothing but the `:` of an empty port, which it drops. -/
theorem C19_is_normalized_exact (S : Spec) (s : Str) (h : validate_uri S s = some true) :
    ∃ p : Parts, ∃ b, (p.Valid S ∧ p.recompose = s) ∧ is_normalized S .default s = some b ∧
      (b = true ↔ normalize S s = some (dropPortColon p).recompose) := by
  obtain ⟨p, hv, hs, rfl⟩ := iri_parts' h
  obtain ⟨b, h1, h2⟩ := is_normalized_iff hv hs .default
  refine ⟨p, b, ⟨hv, rfl⟩, h1, ?_⟩
  rw [h2, normalize_eq hv hs, Option.some.injEq, ← norm_text_iff hv hs]
  simp [NormalizednessCheckMode.op]

/-- **C19** for `is_normalized_but_authorityless_relative_path_preserved()`. -/
theorem C19_is_normalized_preserve_exact (S : Spec) (s : Str) (h : validate_uri S s = some true) :
    ∃ p : Parts, ∃ b, (p.Valid S ∧ p.recompose = s) ∧ is_normalized S .preserve s = some b ∧
      (b = true ↔ normalize_but_preserve_authorityless_relative_path S s =
        some (dropPortColon p).recompose) := by
  obtain ⟨p, hv, hs, rfl⟩ := iri_parts' h
  obtain ⟨b, h1, h2⟩ := is_normalized_iff hv hs .preserve
  refine ⟨p, b, ⟨hv, rfl⟩, h1, ?_⟩
  rw [h2, normalize_preserve_eq hv hs, Option.some.injEq, ← norm_text_iff hv hs]
  simp [NormalizednessCheckMode.op]

/-- **C19** for `is_normalized_rfc3986()`: moreover the IRI must be normalizable by RFC 3986. -/
theorem C19_is_normalized_rfc3986_exact (S : Spec) (s : Str) (h : validate_uri S s = some true) :
    ∃ p : Parts, ∃ b, (p.Valid S ∧ p.recompose = s) ∧ is_normalized S .rfc3986 s = some b ∧
      (b = true ↔ normalize S s = some (dropPortColon p).recompose ∧
        ensure_rfc3986_normalizable s = some true) := by
  obtain ⟨e, he, hei⟩ := C21_ensure S s h
  obtain ⟨p, hv, hs, rfl⟩ := iri_parts' h
  obtain ⟨b, h1, h2⟩ := is_normalized_iff hv hs .rfc3986
  refine ⟨p, b, ⟨hv, rfl⟩, h1, ?_⟩
  simp only [RiReferenceStr.path_str, RiReferenceStr.authority_str, hv.delim.extract_path_eq,
    hv.delim.extract_authority_eq] at hei
  rw [h2, normalize_eq hv hs, Option.some.injEq, ← norm_text_iff hv hs, he, ← hei]
  simp [NormalizednessCheckMode.op]

/-- **C19** in full for every IRI whose authority does not end in an empty port.  Missing: the
other IRIs, for which it is false (`C19_refuted`). -/
theorem C19_is_normalized_partial (S : Spec) (s : Str) (h : validate_uri S s = some true)
    (ha : ∀ a, RiReferenceStr.authority_str s = some a → a.getLast? ≠ some ':') :
    ∃ b1 b2 b3, is_normalized S .default s = some b1 ∧ is_normalized S .preserve s = some b2 ∧
      is_normalized S .rfc3986 s = some b3 ∧
      (b1 = true ↔ normalize S s = some s) ∧
      (b2 = true ↔ normalize_but_preserve_authorityless_relative_path S s = some s) ∧
      (b3 = true ↔ normalize S s = some s ∧ ensure_rfc3986_normalizable s = some true) := by
  have hd : ∀ p : Parts, p.Valid S → p.recompose = s → (dropPortColon p).recompose = s := by
    rintro p hv rfl
    rw [dropPortColon_self]
    simpa only [RiReferenceStr.authority_str, hv.delim.extract_authority_eq] using ha
  obtain ⟨p1, b1, ⟨hp1, hr1⟩, h1, e1⟩ := C19_is_normalized_exact S s h
  obtain ⟨p2, b2, ⟨hp2, hr2⟩, h2, e2⟩ := C19_is_normalized_preserve_exact S s h
  obtain ⟨p3, b3, ⟨hp3, hr3⟩, h3, e3⟩ := C19_is_normalized_rfc3986_exact S s h
  rw [hd _ hp1 hr1] at e1
  rw [hd _ hp2 hr2] at e2
  rw [hd _ hp3 hr3] at e3
  exact ⟨b1, b2, b3, h1, h2, h3, e1, e2, e3⟩

/-- **C19**, one direction for every valid IRI: an IRI that normalization leaves alone is reported
as normalized. -/
theorem C19_fixed_is_normalized (S : Spec) (s : Str) (h : validate_uri S s = some true)
    (hn : normalize S s = some s) : is_normalized S .default s = some true := by
  obtain ⟨p, hv, hs, rfl⟩ := iri_parts' h
  obtain ⟨b, h1, h2⟩ := is_normalized_iff hv hs .default
  rw [h1]
  rw [normalize_eq hv hs, Option.some.injEq] at hn
  have hn := recompose_inj (normParts_valid hv hs).delim hv.delim hn
  have hk : dropPortColon p = p := by
    apply dropPortColon_self
    intro y hy hl
    have hn2 := congrArg Parts.authority hn
    obtain ⟨a, hav, rfl⟩ := (authority_auth_parts S y).1 (hv.authority y hy)
    simp only [normParts, NormalizationMode.case_pct, hy, Option.map_some, Option.some.injEq,
      if_true] at hn2
    rw [authn_eq hav] at hn2
    have := auth_recompose_inj hav.norm hav hn2
    have e1 : ({ a with port := portn a.port } : AuthParts) = a := by
      have := congrArg AuthParts.port this
      simp only [AuthParts.norm] at this
      rw [this]
    have e2 := stripColon_auth hav
    rw [e1, ← dropEmptyPort_eq, dropEmptyPort, if_pos hl] at e2
    have := congrArg List.length e2
    simp only [List.length_dropLast] at this
    have : a.recompose = [] := List.eq_nil_of_length_eq_zero (by omega)
    rw [this] at hl
    cases hl
  have : b = true := h2.2 ⟨by show normParts S .default p = _; rw [hn, hk], by simp⟩
  rw [this]

/-- **C19 is false of the code**: an empty port is not noticed. -/
theorem C19_refuted :
    validate_uri .uri (chars! "http://example.com:") = some true ∧
    is_normalized .uri .default (chars! "http://example.com:") = some true ∧
    normalize .uri (chars! "http://example.com:") = some (chars! "http://example.com") := by
  decide +kernel

/-! ### The hypotheses are met: concrete cases -/

example : is_normalized .uri .default (chars! "foo:/.//b") = some true ∧
    is_normalized .uri .rfc3986 (chars! "foo:/.//b") = some false ∧
    is_normalized .uri .default (chars! "foo:a/../b") = some false ∧
    is_normalized .uri .preserve (chars! "foo:a/../b") = some true ∧
    is_normalized .uri .default (chars! "http://example.com/%7e") = some false ∧
    is_normalized .uri .default (chars! "http://example.com/~") = some true := by decide +kernel
example : validate_uri .uri (chars! "http://u@example.com:80/~") = some true ∧
    RiReferenceStr.authority_str (chars! "http://u@example.com:80/~") = some (chars! "u@example.com:80") ∧
    normalize .uri (chars! "http://u@example.com:80/~") = some (chars! "http://u@example.com:80/~") := by
  decide +kernel

end Verif
