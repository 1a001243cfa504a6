import Verif.Lemmas.Parts

/-! # What the trusted parser returns on recomposed components -/

namespace Verif

open Abnf Rfc

/-- Empty, or starting with `?` or `#`. -/
def QF (s : Str) : Prop := s = [] ∨ ∃ c r, s = c :: r ∧ (c = '?' ∨ c = '#')

theorem qfStr_QF (q f : Option Str) : QF (qfStr q f) := by
  cases q with
  | some q => exact .inr ⟨'?', _, rfl, .inl rfl⟩
  | none =>
    cases f with
    | some f => exact .inr ⟨'#', _, rfl, .inr rfl⟩
    | none => exact .inl rfl

theorem until_query_eq {a w : Str} (h1 : '?' ∉ a) (h2 : '#' ∉ a) (hw : QF w) :
    until_query (a ++ w) = (w, a) := by
  unfold until_query
  rcases hw with rfl | ⟨c, r, rfl, hc⟩
  · have : find_split2 (a ++ []) '?' '#' = none := by
      rw [List.append_nil]
      unfold find_split2
      rw [findSplitP_none]
      intro x hx
      simp; exact ⟨fun h => h1 (h ▸ hx), fun h => h2 (h ▸ hx)⟩
    rw [this]; simp
  · have : find_split2 (a ++ c :: r) '?' '#' = some (a, c :: r) := by
      apply findSplitP_eq
      · rcases hc with rfl | rfl <;> simp
      · intro x hx
        simp; exact ⟨fun h => h1 (h ▸ hx), fun h => h2 (h ▸ hx)⟩
    rw [this]

theorem sliceFrom_one_ascii {c : Char} (hc : c.toNat < 128) (r : Str) : sliceFrom (c :: r) 1 = some r :=
  sliceFrom_eq (a := [c]) rfl (by simp [utf8Size_ascii hc])

theorem decompose_qf_eq (q f : Option Str) (hq : ∀ x, q = some x → '#' ∉ x) :
    decompose_query_and_fragment (qfStr q f) = some (q, f) := by
  cases q with
  | some q =>
    have hs := sliceFrom_one_ascii (c := '?') (by decide) (q ++ optSuf ['#'] f)
    show decompose_query_and_fragment ('?' :: (q ++ optSuf ['#'] f)) = _
    unfold decompose_query_and_fragment
    simp only [hs]
    cases f with
    | none =>
      have : find_split_hole (q ++ optSuf ['#'] none) '#' = none := by
        rw [find_split_hole_none]; simpa [optSuf] using hq q rfl
      simp only [Option.map_some, beq_self_eq_true, if_true]
      rw [this]; simp [optSuf]
    | some f =>
      have : find_split_hole (q ++ optSuf ['#'] (some f)) '#' = some (q, f) :=
        find_split_hole_eq (hq q rfl)
      simp only [Option.map_some, beq_self_eq_true, if_true]
      rw [this]
  | none =>
    cases f with
    | none => rfl
    | some f =>
      have hs := sliceFrom_one_ascii (c := '#') (by decide) f
      show decompose_query_and_fragment ('#' :: f) = _
      unfold decompose_query_and_fragment
      simp only [hs]; simp

namespace Parts.Delim

variable {p : Parts} (h : p.Delim)
include h

omit h in
theorem tail_eq : p.tail = optSuf ['/', '/'] p.authority ++ (p.path ++ qfStr p.query p.fragment) := rfl

theorem scheme_colon_opt_eq : scheme_colon_opt p.recompose = (p.tail, p.scheme) := by
  rw [recompose_eq]
  cases hs : p.scheme with
  | some x =>
    obtain ⟨_, h1, h2, h3, h4⟩ := h.scheme x hs
    have : find_split4_hole (x ++ ':' :: p.tail) ':' '/' '?' '#' = some (x, ':', p.tail) := by
      apply findSplitHoleP_eq
      · simp
      · intro y hy
        simp
        exact ⟨⟨⟨fun e => h1 (e ▸ hy), fun e => h2 (e ▸ hy)⟩, fun e => h3 (e ▸ hy)⟩,
          fun e => h4 (e ▸ hy)⟩
    unfold scheme_colon_opt
    simp only [optPre, List.append_assoc, List.cons_append, List.nil_append]
    rw [this]; simp
  | none =>
    simp only [optPre, List.nil_append]
    unfold scheme_colon_opt
    cases hf : find_split4_hole p.tail ':' '/' '?' '#' with
    | none => rfl
    | some t =>
      obtain ⟨a, c, b⟩ := t
      obtain ⟨h1, h2, h3⟩ := findSplitHoleP_some.1 hf
      have hno : ∀ d, d = ':' ∨ d = '/' ∨ d = '?' ∨ d = '#' → d ∉ a := by
        intro d hd hm
        have := h3 d hm
        rcases hd with rfl | rfl | rfl | rfl <;> simp at this
      by_cases hc : c = ':'
      · exfalso
        subst hc
        cases ha : p.authority with
        | some x =>
          simp only [Parts.tail, ha, optSuf] at h1
          cases a with
          | nil => simp at h1
          | cons y a => simp at h1; exact hno '/' (by simp) (by rw [h1.1]; simp)
        | none =>
          have hcol := h.withoutScheme hs ha
          simp only [Parts.tail, ha, optSuf, List.nil_append] at h1
          rcases List.append_eq_append_iff.1 h1 with ⟨t, rfl, h2⟩ | ⟨t, he, h2⟩
          · cases t with
            | nil =>
              simp at h2
              rcases qfStr_QF p.query p.fragment with e | ⟨d, r, e, hd⟩
              · rw [e] at h2; cases h2
              · rw [e] at h2; simp at h2; rcases hd with rfl | rfl <;> simp at h2
            | cons y t =>
              rcases qfStr_QF p.query p.fragment with e | ⟨d, r, e, hd⟩
              · rw [e] at h2; cases h2
              · rw [e] at h2
                simp at h2
                exact hno y (by rw [← h2.1]; rcases hd with rfl | rfl <;> simp) (by simp)
          · cases t with
            | nil =>
              simp at h2
              rcases qfStr_QF p.query p.fragment with e | ⟨d, r, e, hd⟩
              · rw [e] at h2; cases h2
              · rw [e] at h2; simp at h2; rcases hd with rfl | rfl <;> simp at h2
            | cons y t =>
              simp at h2
              exact hcol ⟨a, t, by rw [he, h2.1], hno '/' (by simp)⟩
      · simp [hc]

theorem rest_head {x : Str} (ha : p.authority = some x) :
    p.path ++ qfStr p.query p.fragment = [] ∨ ∃ c r, p.path ++ qfStr p.query p.fragment = c :: r ∧
      (c = '/' ∨ c = '?' ∨ c = '#') := by
  rcases h.withAuthority (by simp [ha]) with e | ⟨r, e⟩
  · rw [e, List.nil_append]
    rcases qfStr_QF p.query p.fragment with e | ⟨c, r, e, hc⟩
    · exact .inl e
    · exact .inr ⟨c, r, e, .inr hc⟩
  · exact .inr ⟨'/', r ++ qfStr p.query p.fragment, by rw [e]; rfl, .inl rfl⟩

theorem slash_slash_eq :
    slash_slash_authority_opt p.tail = (p.path ++ qfStr p.query p.fragment, p.authority) := by
  unfold slash_slash_authority_opt
  cases ha : p.authority with
  | some x =>
    obtain ⟨h1, h2, h3⟩ := h.authority x ha
    have : strip_prefix p.tail ['/', '/'] = some (x ++ (p.path ++ qfStr p.query p.fragment)) := by
      rw [strip_prefix_some]; simp [Parts.tail, ha, optSuf]
    rw [this]
    simp only
    have hx : ∀ y ∈ x, (y == '/' || y == '?' || y == '#') = false := by
      intro y hy; simp
      exact ⟨⟨fun e => h1 (e ▸ hy), fun e => h2 (e ▸ hy)⟩, fun e => h3 (e ▸ hy)⟩
    rcases h.rest_head ha with e | ⟨c, r, e, hc⟩
    · rw [e, List.append_nil]
      have : find_split3 x '/' '?' '#' = none := findSplitP_none.2 hx
      rw [this]
    · rw [e]
      have : find_split3 (x ++ c :: r) '/' '?' '#' = some (x, c :: r) :=
        findSplitP_eq (by rcases hc with rfl | rfl | rfl <;> simp) hx
      rw [this]
  | none =>
    have h2 := h.withoutAuthority ha
    have : strip_prefix p.tail ['/', '/'] = none := by
      rw [strip_prefix_none]
      intro r he
      simp only [Parts.tail, ha, optSuf, List.nil_append] at he
      have hq := qfStr_QF p.query p.fragment
      generalize qfStr p.query p.fragment = w at he hq
      generalize p.path = u at he h2
      match u, he, h2 with
      | [], he, _ =>
        rcases hq with rfl | ⟨c, r, rfl, hc⟩
        · simp at he
        · simp at he; rcases hc with rfl | rfl <;> simp at he
      | [a], he, _ =>
        rcases hq with rfl | ⟨c, r, rfl, hc⟩
        · simp at he
        · simp at he; rcases hc with rfl | rfl <;> simp at he
      | a :: b :: u, he, h2 =>
        simp at he
        exact h2 u (by rw [he.1, he.2.1])
    rw [this]
    simp [Parts.tail, ha, optSuf]

theorem until_query_path :
    until_query (p.path ++ qfStr p.query p.fragment) = (qfStr p.query p.fragment, p.path) :=
  until_query_eq h.path.1 h.path.2 (qfStr_QF _ _)

theorem decompose_qf :
    decompose_query_and_fragment (qfStr p.query p.fragment) = some (p.query, p.fragment) :=
  decompose_qf_eq _ _ h.query

/-- Everything before the query. -/
theorem until_query_all : until_query p.recompose =
    (qfStr p.query p.fragment, optPre p.scheme [':'] ++ (optSuf ['/', '/'] p.authority ++ p.path)) := by
  have e : p.recompose = (optPre p.scheme [':'] ++ (optSuf ['/', '/'] p.authority ++ p.path)) ++
      qfStr p.query p.fragment := by simp [recompose_eq, Parts.tail]
  rw [e]
  apply until_query_eq _ _ (qfStr_QF _ _)
  · cases hs : p.scheme with
    | none =>
      cases ha : p.authority with
      | none => simpa [optPre, optSuf] using h.path.1
      | some a => have := h.authority a ha; simp [optPre, optSuf, this, h.path.1]
    | some s =>
      have hs' := h.scheme s hs
      cases ha : p.authority with
      | none => simp [optPre, optSuf, h.path.1, hs']
      | some a => have := h.authority a ha; simp [optPre, optSuf, this, h.path.1, hs']
  · cases hs : p.scheme with
    | none =>
      cases ha : p.authority with
      | none => simpa [optPre, optSuf] using h.path.2
      | some a => have := h.authority a ha; simp [optPre, optSuf, this, h.path.2]
    | some s =>
      have hs' := h.scheme s hs
      cases ha : p.authority with
      | none => simp [optPre, optSuf, h.path.2, hs']
      | some a => have := h.authority a ha; simp [optPre, optSuf, this, h.path.2, hs']

theorem split_fragment_eq : split_fragment p.recompose =
    (({ p with fragment := none } : Parts).recompose, p.fragment) := by
  have e : p.recompose = ({ p with fragment := none } : Parts).recompose ++ optSuf ['#'] p.fragment := by
    simp [recompose_eq, Parts.tail, qfStr]
    simp [optSuf]
  have hn : '#' ∉ ({ p with fragment := none } : Parts).recompose := by
    have : '#' ∉ optPre p.scheme [':'] := by
      cases hs : p.scheme with
      | none => simp [optPre]
      | some s => simp [optPre, h.scheme s hs]
    have : '#' ∉ optSuf ['/', '/'] p.authority := by
      cases ha : p.authority with
      | none => simp [optSuf]
      | some a => have := h.authority a ha; simp [optSuf, this]
    have : '#' ∉ optSuf ['?'] p.query := by
      cases ha : p.query with
      | none => simp [optSuf]
      | some a => have := h.query a ha; simp [optSuf, this]
    have hp := h.path.2
    simp only [recompose_eq, Parts.tail, qfStr, List.mem_append, not_or]
    refine ⟨by assumption, by assumption, hp, by assumption, by simp [optSuf]⟩
  unfold split_fragment
  rw [e]
  cases hf : p.fragment with
  | none =>
    have : find_split_hole (({ p with fragment := none } : Parts).recompose ++ optSuf ['#'] none) '#' = none := by
      rw [find_split_hole_none]; simpa [optSuf] using hn
    rw [this]; simp [optSuf]
  | some f =>
    have : find_split_hole (({ p with fragment := none } : Parts).recompose ++ optSuf ['#'] (some f)) '#' =
        some (({ p with fragment := none } : Parts).recompose, f) := find_split_hole_eq hn
    rw [this]

theorem scheme_colon_eq {x : Str} (hs : p.scheme = some x) :
    scheme_colon p.recompose = some (p.tail, x) := by
  have h1 := (h.scheme x hs).2.1
  unfold scheme_colon
  rw [recompose_eq, hs]
  have : find_split_hole (optPre (some x) [':'] ++ p.tail) ':' = some (x, p.tail) := by
    have := find_split_hole_eq (b := p.tail) h1
    simpa [optPre] using this
  rw [this]; rfl

end Parts.Delim

/-- The major components as the model returns them. -/
def Parts.toMajor (p : Parts) : Major := ⟨p.scheme, p.authority, p.path, p.query, p.fragment⟩

theorem nonZero_pos {n : Nat} (h : 0 < n) : nonZero n = some n := by
  unfold nonZero; rw [if_neg (by omega)]

/-- The four offsets that the splitter should hold. -/
def Parts.splitter (p : Parts) : Splitter where
  scheme_end := p.scheme.map blen
  authority_end := p.authority.map fun a => blen (optPre p.scheme [':']) + 2 + blen a
  query_start := p.query.map fun _ =>
    blen (optPre p.scheme [':']) + blen (optSuf ['/', '/'] p.authority) + blen p.path + 1
  fragment_start := p.fragment.map fun _ =>
    blen (optPre p.scheme [':']) + blen (optSuf ['/', '/'] p.authority) + blen p.path +
      blen (optSuf ['?'] p.query) + 1

theorem blen_ascii1 {c : Char} (h : c.toNat < 128) : blen [c] = 1 := by simp [utf8Size_ascii h]

theorem decompose_eq {p : Parts} (h : p.Delim) :
    decompose_iri_reference p.recompose = some p.splitter := by
  unfold decompose_iri_reference
  simp only [h.scheme_colon_opt_eq, h.slash_slash_eq, h.until_query_path, h.decompose_qf,
    Option.map_some]
  have hlen : blen p.recompose = blen (optPre p.scheme [':']) + blen (optSuf ['/', '/'] p.authority) +
      blen p.path + blen (optSuf ['?'] p.query) + blen (optSuf ['#'] p.fragment) := by
    simp [recompose_eq, Parts.tail, qfStr]; omega
  have ht : blen p.tail = blen (optSuf ['/', '/'] p.authority) +
      blen p.path + blen (optSuf ['?'] p.query) + blen (optSuf ['#'] p.fragment) := by
    simp [Parts.tail, qfStr]; omega
  have hqf : blen (qfStr p.query p.fragment) = blen (optSuf ['?'] p.query) + blen (optSuf ['#'] p.fragment) := by
    simp [qfStr]
  have e1 : (p.scheme.bind fun s => nonZero (blen s)) = p.splitter.scheme_end := by
    cases hs : p.scheme with
    | none => simp [Parts.splitter, hs]
    | some s =>
      have : 0 < blen s := by
        have := (h.scheme s hs).1
        rcases Nat.eq_zero_or_pos (blen s) with e | e
        · exact absurd (blen_eq_zero.1 e) this
        · exact e
      simp [Parts.splitter, hs, nonZero_pos this]
  have e2 : (p.authority.bind fun s => nonZero (blen p.recompose - blen p.tail + 2 + blen s)) =
      p.splitter.authority_end := by
    rw [hlen, ht]
    cases ha : p.authority with
    | none => simp [Parts.splitter, ha]
    | some a =>
      simp only [Parts.splitter, ha, Option.bind_some, Option.map_some]
      rw [nonZero_pos (by omega)]
      congr 1; omega
  rw [e1, e2]
  rw [nonZero_pos (n := blen p.recompose - blen (qfStr p.query p.fragment) + 1) (by omega)]
  have c1 : blen p.recompose - blen (qfStr p.query p.fragment) + 1 =
      blen (optPre p.scheme [':']) + blen (optSuf ['/', '/'] p.authority) + blen p.path + 1 := by
    rw [hlen, hqf]; omega
  rw [c1]
  cases hq : p.query with
  | none =>
    cases hf : p.fragment with
    | none => simp [Parts.splitter, hq, hf]
    | some f => simp [Parts.splitter, hq, hf, optSuf]
  | some q =>
    cases hf : p.fragment with
    | none => simp [Parts.splitter, hq, hf]
    | some f =>
      have c2 : blen p.recompose - blen f = blen (optPre p.scheme [':']) +
          blen (optSuf ['/', '/'] p.authority) + blen p.path + blen (optSuf ['?'] p.query) + 1 := by
        rw [hlen, hf, hq]
        have : blen (optSuf ['#'] (some f)) = 1 + blen f := by
          show blen (['#'] ++ f) = _
          rw [blen_append, blen_ascii1 (by decide)]
        omega
      simp only [Parts.splitter, hq, hf, Option.isSome_some, Option.map_some]
      rw [c2, nonZero_pos (by omega), hq]

section splitter
variable (p : Parts)

private theorem scheme_next : (match p.splitter.scheme_end with | some e => e + 1 | none => 0) =
    blen (optPre p.scheme [':']) := by
  cases hs : p.scheme with
  | none => simp [Parts.splitter, hs, optPre]
  | some s => simp [Parts.splitter, hs, optPre]; decide

theorem splitter_scheme : optSlice (p.splitter.scheme_end.map fun e => sliceTo p.recompose e) =
    some p.scheme := by
  cases hs : p.scheme with
  | none => simp [Parts.splitter, hs, optSlice]
  | some s =>
    have : sliceTo p.recompose (blen s) = some s :=
      sliceTo_eq (b := ':' :: p.tail) (by simp [recompose_eq, hs, optPre]) rfl
    simp [Parts.splitter, hs, optSlice, this]

theorem blen_dslash (a : Str) : blen (optSuf ['/', '/'] (some a)) = 2 + blen a := by
  show blen (['/', '/'] ++ a) = _
  rw [blen_append]; rfl

theorem blen_hash (a : Str) : blen (optSuf ['#'] (some a)) = 1 + blen a := by
  show blen (['#'] ++ a) = _
  rw [blen_append]; rfl

theorem blen_quest (a : Str) : blen (optSuf ['?'] (some a)) = 1 + blen a := by
  show blen (['?'] ++ a) = _
  rw [blen_append]; rfl

theorem splitter_authority (n : Nat) (hn : n = blen (optPre p.scheme [':']) + 2) :
    optSlice (p.splitter.authority_end.map fun e => slice p.recompose n e) = some p.authority := by
  subst hn
  cases ha : p.authority with
  | none => simp [Parts.splitter, ha, optSlice]
  | some a =>
    have : slice p.recompose (blen (optPre p.scheme [':']) + 2)
        (blen (optPre p.scheme [':']) + 2 + blen a) = some a := by
      apply slice_eq (a := optPre p.scheme [':'] ++ ['/', '/']) (c := p.path ++ qfStr p.query p.fragment)
      · simp [recompose_eq, Parts.tail, ha, optSuf]
      · rw [blen_append]; rfl
      · rw [blen_append]; rfl
    simp [Parts.splitter, ha, optSlice, this]

theorem splitter_fragment :
    optSlice (p.splitter.fragment_start.map fun e => sliceFrom p.recompose e) = some p.fragment := by
  cases hf : p.fragment with
  | none => simp [Parts.splitter, hf, optSlice]
  | some f =>
    have : sliceFrom p.recompose (blen (optPre p.scheme [':']) + blen (optSuf ['/', '/'] p.authority) +
        blen p.path + blen (optSuf ['?'] p.query) + 1) = some f := by
      apply sliceFrom_eq (a := optPre p.scheme [':'] ++ (optSuf ['/', '/'] p.authority ++ (p.path ++
        (optSuf ['?'] p.query ++ ['#']))))
      · simp [recompose_eq, Parts.tail, qfStr, hf, optSuf]
      · rw [blen_append, blen_append, blen_append, blen_append, blen_ascii1 (by decide)]; omega
    simp [Parts.splitter, hf, optSlice, this]

theorem splitter_frag_end : (match p.splitter.fragment_start with
      | some st => st - 1 | none => blen p.recompose) =
    blen (optPre p.scheme [':']) + blen (optSuf ['/', '/'] p.authority) + blen p.path +
      blen (optSuf ['?'] p.query) := by
  cases hf : p.fragment with
  | none =>
    simp only [Parts.splitter, hf, Option.map_none]
    simp [recompose_eq, Parts.tail, qfStr, hf, optSuf]; omega
  | some f => simp [Parts.splitter, hf]

theorem splitter_query (n : Nat) (hn : n = blen (optPre p.scheme [':']) +
      blen (optSuf ['/', '/'] p.authority) + blen p.path + blen (optSuf ['?'] p.query)) :
    optSlice (p.splitter.query_start.map fun st => slice p.recompose st n) = some p.query := by
  subst hn
  cases hq : p.query with
  | none => simp [Parts.splitter, hq, optSlice]
  | some q =>
    have : slice p.recompose (blen (optPre p.scheme [':']) + blen (optSuf ['/', '/'] p.authority) +
        blen p.path + 1) (blen (optPre p.scheme [':']) + blen (optSuf ['/', '/'] p.authority) +
        blen p.path + blen (optSuf ['?'] (some q))) = some q := by
      apply slice_eq (a := optPre p.scheme [':'] ++ (optSuf ['/', '/'] p.authority ++ (p.path ++ ['?'])))
        (c := optSuf ['#'] p.fragment)
      · simp [recompose_eq, Parts.tail, qfStr, hq, optSuf]
      · rw [blen_append, blen_append, blen_append, blen_ascii1 (by decide)]; omega
      · rw [blen_quest, blen_append, blen_append, blen_append, blen_ascii1 (by decide)]; omega
    simp [Parts.splitter, hq, optSlice, this]

theorem splitter_path_slice (i j : Nat)
    (hi : i = blen (optPre p.scheme [':']) + blen (optSuf ['/', '/'] p.authority))
    (hj : j = blen (optPre p.scheme [':']) + blen (optSuf ['/', '/'] p.authority) + blen p.path) :
    slice p.recompose i j = some p.path := by
  apply slice_eq (a := optPre p.scheme [':'] ++ optSuf ['/', '/'] p.authority)
    (c := qfStr p.query p.fragment)
  · simp [recompose_eq, Parts.tail]
  · rw [blen_append]; exact hi
  · rw [blen_append]; exact hj

theorem splitter_major : p.splitter.split_into_major p.recompose = some p.toMajor := by
  unfold Splitter.split_into_major
  simp only
  have e1 : (match p.splitter.scheme_end with | some e => e + 1 | none => 0) =
    blen (optPre p.scheme [':']) := scheme_next p
  have e2 := splitter_frag_end p
  have e3 : (match p.splitter.query_start with
      | some st => st - 1 
      | none => (match p.splitter.fragment_start with
      | some st => st - 1 | none => blen p.recompose)) = 
     blen (optPre p.scheme [':']) + blen (optSuf ['/', '/'] p.authority) + blen p.path := by
    cases hq : p.query with
    | none => rw [e2, hq]; simp [Parts.splitter, hq, optSuf]
    | some a => simp [Parts.splitter, hq]
  have e4 : (match p.splitter.authority_end with
      | some e => e 
      | none => (match p.splitter.scheme_end with | some e => e + 1 | none => 0)) = 
     blen (optPre p.scheme [':']) + blen (optSuf ['/', '/'] p.authority) := by
    rw [e1]
    cases ha : p.authority with
    | none => simp [Parts.splitter, ha, optSuf]
    | some a => rw [blen_dslash]; simp [Parts.splitter, ha]; omega
  rw [splitter_scheme, splitter_authority p _ (by rw [← e1]; rfl), splitter_fragment,
    splitter_query p _ (by rw [← e2]; rfl), splitter_path_slice p _ _ (by rw [← e4]; rfl) (by rw [← e3]; rfl)]
  rfl

theorem splitter_path_range : p.splitter.path_range (blen p.recompose) =
    (blen (optPre p.scheme [':']) + blen (optSuf ['/', '/'] p.authority),
     blen (optPre p.scheme [':']) + blen (optSuf ['/', '/'] p.authority) + blen p.path) := by
  unfold Splitter.path_range
  simp only [Prod.mk.injEq]
  constructor
  · cases ha : p.authority with
    | none =>
      cases hs : p.scheme with
      | none => simp [Parts.splitter, ha, hs, optSuf, optPre]
      | some s =>
        simp [Parts.splitter, ha, hs, optSuf, optPre]; decide
    | some a => rw [blen_dslash]; simp [Parts.splitter, ha]; omega
  · cases hq : p.query with
    | some q => simp [Parts.splitter, hq]
    | none =>
      cases hf : p.fragment with
      | some f => simp [Parts.splitter, hq, hf, optSuf]
      | none =>
        simp only [Parts.splitter, hq, hf, Option.map_none, Option.or]
        rw [recompose_eq, Parts.tail, hf, hq]
        simp [qfStr, optSuf]; rw [Nat.add_assoc]

theorem splitter_path_str : p.splitter.path_str p.recompose = some p.path := by
  unfold Splitter.path_str
  rw [splitter_path_range]
  exact splitter_path_slice p _ _ rfl rfl

theorem splitter_path_empty : p.splitter.is_path_empty (blen p.recompose) = p.path.isEmpty := by
  unfold Splitter.is_path_empty
  rw [splitter_path_range]
  cases hp : p.path with
  | nil => simp
  | cons c r =>
    have := c.utf8Size_pos
    simp; omega

theorem splitter_scheme_str : p.splitter.scheme_str p.recompose = some p.scheme :=
  splitter_scheme p

theorem splitter_authority_str : p.splitter.authority_str p.recompose = some p.authority := by
  apply splitter_authority
  cases hs : p.scheme with
  | none => simp [Parts.splitter, hs, optPre]
  | some s => simp [Parts.splitter, hs, optPre]; have : ':'.utf8Size = 1 := by decide
              omega

theorem splitter_query_str : p.splitter.query_str p.recompose = some p.query := by
  apply splitter_query
  have := splitter_frag_end p
  rw [← this]
  cases p.splitter.fragment_start <;> rfl

theorem splitter_fragment_str : p.splitter.fragment_str p.recompose = some p.fragment :=
  splitter_fragment p

end splitter

theorem to_major_eq {p : Parts} (h : p.Delim) :
    components_to_major p.recompose = some p.toMajor := by
  unfold components_to_major
  rw [decompose_eq h]
  exact splitter_major p

/-- Recomposition is injective. -/
theorem recompose_inj {p q : Parts} (hp : p.Delim) (hq : q.Delim) (h : p.recompose = q.recompose) :
    p = q := by
  have h1 := to_major_eq hp
  rw [h, to_major_eq hq] at h1
  cases p; cases q
  simp only [Parts.toMajor, Option.some.injEq, Major.mk.injEq] at h1
  simp [h1]

end Verif
