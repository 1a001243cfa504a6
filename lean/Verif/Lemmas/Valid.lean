import Verif.Lemmas.Decompose

/-! # The whole-string validators -/

namespace Verif

open Abnf Rfc

theorem validate_query_iff (S : Spec) (s : Str) : validate_query S s = true ↔ query S s := by
  unfold validate_query; rw [satisfy_iff, cls_query, query_iff]

theorem validate_fragment_iff (S : Spec) (s : Str) : validate_fragment S s = true ↔ fragment S s := by
  unfold validate_fragment; rw [satisfy_iff, cls_frag, fragment_iff]

theorem satisfy_path_iff (S : Spec) (s : Str) :
    satisfy_chars_with_pct_encoded is_ascii_pchar_slash S.is_nonascii_char_unreserved s = true ↔
      PC (pcharSlashC S) s := by
  rw [satisfy_iff, cls_pchar_slash]

theorem query_nil (S : Spec) : query S [] := (query_iff S []).2 PC.nil
theorem fragment_nil (S : Spec) : fragment S [] := (fragment_iff S []).2 PC.nil

/-- The split made at the first `?` or `#`. -/
def qsplit (i : Str) : Str × Option (Char × Str) :=
  match find_split2_hole i '?' '#' with
  | some (p, c, rest) => (p, some (c, rest))
  | none => (i, none)

/-- The remainder as text. -/
def oStr (o : Option (Char × Str)) : Str :=
  match o with
  | some (c, r) => c :: r
  | none => []

theorem qsplit_spec (i : Str) : i = (qsplit i).1 ++ oStr (qsplit i).2 ∧ '?' ∉ (qsplit i).1 ∧
    '#' ∉ (qsplit i).1 ∧ ∀ c r, (qsplit i).2 = some (c, r) → c = '?' ∨ c = '#' := by
  unfold qsplit
  cases hf : find_split2_hole i '?' '#' with
  | none =>
    have := findSplitHoleP_none.1 hf
    simp [oStr]
    exact ⟨fun h => by simpa using this _ h, fun h => by simpa using this _ h⟩
  | some x =>
    obtain ⟨a, c, b⟩ := x
    obtain ⟨h1, h2, h3⟩ := findSplitHoleP_some.1 hf
    simp [oStr]
    refine ⟨h1, fun h => by simpa using h3 _ h, fun h => by simpa using h3 _ h, ?_⟩
    simpa using h2

theorem qsplit_eq {a w : Str} (h1 : '?' ∉ a) (h2 : '#' ∉ a) (hw : QF w) :
    (qsplit (a ++ w)).1 = a ∧ oStr (qsplit (a ++ w)).2 = w := by
  have hx : ∀ x ∈ a, (x == '?' || x == '#') = false := by
    intro x hx; simp; exact ⟨fun h => h1 (h ▸ hx), fun h => h2 (h ▸ hx)⟩
  unfold qsplit
  rcases hw with rfl | ⟨c, r, rfl, hc⟩
  · have : find_split2_hole (a ++ []) '?' '#' = none := by
      rw [List.append_nil]; exact findSplitHoleP_none.2 hx
    rw [this]; simp [oStr]
  · have : find_split2_hole (a ++ c :: r) '?' '#' = some (a, c, r) :=
      findSplitHoleP_eq (by rcases hc with rfl | rfl <;> simp) hx
    rw [this]; simp [oStr]

/-- `validate_after_path` on the remainder. -/
def afterV (S : Spec) (af : Bool) (o : Option (Char × Str)) : Bool :=
  match o with
  | some (first, rest) => validate_after_path S first rest af
  | none => true

/-- What the code accepts as a fragment. -/
def FragOK (af : Bool) (f : Option Str) : Prop := af = false → f = none ∨ f = some []

theorem after_iff (S : Spec) (af : Bool) (o : Option (Char × Str))
    (ho : ∀ c r, o = some (c, r) → c = '?' ∨ c = '#') :
    afterV S af o = true ↔ ∃ q f : Option Str, oStr o = qfStr q f ∧
      (∀ x, q = some x → query S x) ∧ (∀ x, f = some x → fragment S x) ∧ FragOK af f := by
  have frag : ∀ f : Str, (if (!af && !f.isEmpty) = true then false else validate_fragment S f) = true ↔
      fragment S f ∧ FragOK af (some f) := by
    intro f
    rw [← validate_fragment_iff]
    cases af <;> cases f <;> simp [FragOK]
  cases o with
  | none =>
    simp only [afterV, oStr, true_iff]
    exact ⟨none, none, rfl, by simp, by simp, by simp [FragOK]⟩
  | some x =>
    obtain ⟨c, r⟩ := x
    simp only [afterV, oStr, validate_after_path]
    rcases ho c r rfl with rfl | rfl
    · simp only [beq_self_eq_true, if_true]
      cases hf : find_split_hole r '#' with
      | none =>
        have hn := find_split_hole_none.1 hf
        simp only [Option.getD_none]
        rw [Bool.and_eq_true, frag, validate_query_iff]
        constructor
        · rintro ⟨h1, h2, h3⟩
          exact ⟨some r, none, by simp [qfStr, optSuf], by simp [h1], by simp, by simp [FragOK]⟩
        · rintro ⟨q, f, he, hq, hf, hok⟩
          cases q with
          | none => cases f <;> simp [qfStr, optSuf] at he
          | some q =>
            cases f with
            | none =>
              simp [qfStr, optSuf] at he; subst he
              exact ⟨hq _ rfl, fragment_nil S, by simp [FragOK]⟩
            | some f => simp [qfStr, optSuf] at he; rw [he] at hn; simp at hn
      | some x =>
        obtain ⟨q0, f0⟩ := x
        obtain ⟨rfl, hn⟩ := find_split_hole_some.1 hf
        simp only [Option.getD_some]
        rw [Bool.and_eq_true, frag, validate_query_iff]
        constructor
        · rintro ⟨h1, h2, h3⟩
          exact ⟨some q0, some f0, by simp [qfStr, optSuf], by simp [h1], by simp [h2], h3⟩
        · rintro ⟨q, f, he, hq, hf, hok⟩
          cases q with
          | none => cases f <;> simp [qfStr, optSuf] at he
          | some q =>
            have hqn := query_no_hash (hq q rfl)
            cases f with
            | none => simp [qfStr, optSuf] at he; rw [← he] at hqn; simp at hqn
            | some f =>
              simp only [qfStr, optSuf, List.cons_append, List.nil_append, List.cons.injEq,
                true_and] at he
              obtain ⟨rfl, rfl⟩ := cut_unique hn hqn he
              exact ⟨hq _ rfl, hf _ rfl, hok⟩
    · simp only [show ('#' == '?') = false from rfl, Bool.false_eq_true, if_false]
      rw [Bool.and_eq_true, frag, validate_query_iff]
      constructor
      · rintro ⟨h1, h2, h3⟩
        exact ⟨none, some r, by simp [qfStr, optSuf], by simp, by simp [h2], h3⟩
      · rintro ⟨q, f, he, hq, hf, hok⟩
        cases q with
        | some q => simp [qfStr, optSuf] at he
        | none =>
          cases f with
          | none => simp [qfStr, optSuf] at he
          | some f =>
            simp [qfStr, optSuf] at he; subst he
            exact ⟨query_nil S, hf _ rfl, hok⟩

theorem validate_path_abempty_iff (S : Spec) (s : Str) :
    validate_path_abempty S s = true ↔ PC (pcharSlashC S) s ∧ (s = [] ∨ ∃ r, s = '/' :: r) := by
  unfold validate_path_abempty
  cases s with
  | nil => simp [PC.nil]
  | cons c r =>
    simp only [List.isEmpty_cons, Bool.false_eq_true, if_false]
    by_cases hc : c = '/'
    · subst hc
      simp only [strip_prefix, beq_self_eq_true, if_true]
      rw [satisfy_path_iff, PC_cons (by decide)]
      simp [pcharSlashC_slash]
    · simp [strip_prefix, hc]

theorem auth_path_iff (S : Spec) (s : Str) : validate_authority_path_abempty S s = true ↔
    ∃ a p, s = a ++ p ∧ authority S a ∧ PC (pcharSlashC S) p ∧ (p = [] ∨ ∃ r, p = '/' :: r) := by
  unfold validate_authority_path_abempty
  cases hf : find_split s '/' with
  | none =>
    have hn := find_split_none.1 hf
    simp only [Option.getD_none, Bool.and_eq_true, ← authority_iff, validate_path_abempty_iff]
    constructor
    · rintro ⟨h1, h2⟩; exact ⟨s, [], by simp, h1, h2.1, .inl rfl⟩
    · rintro ⟨a, p, rfl, h1, h2, h3⟩
      rcases h3 with rfl | ⟨r, rfl⟩
      · rw [List.append_nil]; exact ⟨h1, h2, .inl trivial⟩
      · simp at hn
  | some x =>
    obtain ⟨a0, p0⟩ := x
    obtain ⟨h1, ⟨r0, rfl⟩, hn⟩ : s = a0 ++ p0 ∧ (∃ r, p0 = '/' :: r) ∧ '/' ∉ a0 := by
      have := find_split_some.1 hf
      grind
    subst h1
    simp only [Option.getD_some, Bool.and_eq_true, ← authority_iff, validate_path_abempty_iff]
    constructor
    · rintro ⟨h1, h2⟩; exact ⟨a0, _, rfl, h1, h2⟩
    · rintro ⟨a, p, he, h1, h2, h3⟩
      have han := authority_not_mem h1 (d := '/') (by simp)
      rcases h3 with rfl | ⟨r, rfl⟩
      · rw [List.append_nil] at he; rw [← he] at han; simp at han
      · obtain ⟨rfl, rfl⟩ := cut_unique hn han he
        exact ⟨h1, h2, .inr ⟨_, rfl⟩⟩

/-- What a path validator without authority must satisfy. -/
def PathV (S : Spec) (rel : Bool) (pathv : Str → Option Bool) : Prop :=
  ∀ s, (∀ r, s ≠ '/' :: '/' :: r) → ∃ b, pathv s = some b ∧
    (b = true ↔ PC (pcharSlashC S) s ∧ (rel = true → NoColonSeg s))

theorem pathV_abs (S : Spec) : PathV S false (validate_path_absolute_authority_absent S) := by
  intro s hs
  unfold validate_path_absolute_authority_absent
  cases s with
  | nil => exact ⟨true, rfl, by simp [PC.nil]⟩
  | cons c r =>
    have : starts_with (c :: r) ['/', '/'] = false := by
      cases h : starts_with (c :: r) ['/', '/'] with
      | false => rfl
      | true => obtain ⟨r', h⟩ := starts_with_iff.1 h; exact absurd h (hs r')
    simp only [List.isEmpty_cons, Bool.false_eq_true, if_false, this]
    exact ⟨_, rfl, by rw [satisfy_path_iff]; simp⟩

theorem pathV_rel (S : Spec) : PathV S true (validate_path_relative_authority_absent S) := by
  intro s hs
  unfold validate_path_relative_authority_absent
  have : starts_with s ['/', '/'] = false := by
    cases h : starts_with s ['/', '/'] with
    | false => rfl
    | true => obtain ⟨r', h⟩ := starts_with_iff.1 h; exact absurd h (hs r')
  simp only [this, Bool.false_eq_true, if_false]
  cases hf : find_split2_hole s '/' ':' with
  | none =>
    have hn := findSplitHoleP_none.1 hf
    refine ⟨_, rfl, ?_⟩
    rw [satisfy_path_iff]
    simp only [true_imp_iff, iff_self_and]
    intro _ a b he
    have := hn ':' (by rw [he]; simp)
    simp at this
  | some x =>
    obtain ⟨a, c, b⟩ := x
    obtain ⟨h1, h2, h3⟩ := findSplitHoleP_some.1 hf
    simp only
    have hno : ∀ d, d = '/' ∨ d = ':' → d ∉ a := by
      intro d hd hm
      have := h3 d hm
      rcases hd with rfl | rfl <;> simp at this
    by_cases hc : c = '/'
    · subst hc
      rw [if_pos (by simp)]
      refine ⟨_, rfl, ?_⟩
      rw [satisfy_path_iff]
      simp only [true_imp_iff, iff_self_and]
      intro _ x y he
      rw [h1] at he
      rcases List.append_eq_append_iff.1 he with ⟨t, rfl, ht⟩ | ⟨t, rfl, ht⟩
      · cases t with
        | nil => simp at ht
        | cons z t => simp at ht; simp [← ht.1]
      · cases t with
        | nil => simp at ht
        | cons z t => simp at ht; exact absurd (by simp [← ht.1]) (hno ':' (by simp))
    · have hc' : c = ':' := by simpa [hc] using h2
      subst hc'
      rw [if_neg (by simp)]
      refine ⟨false, rfl, ?_⟩
      simp only [Bool.false_eq_true, true_imp_iff, false_iff, not_and]
      intro _ h
      exact hno '/' (by simp) (h a b h1)

theorem hier_valid (S : Spec) (rel af : Bool) (pathv : Str → Option Bool) (hp : PathV S rel pathv)
    (i : Str) : ∃ b, validate_hier S pathv af i = some b ∧
      (b = true ↔ ∃ p : Parts, p.scheme = none ∧ i = p.tail ∧ TailOK S rel p ∧ FragOK af p.fragment) := by
  have hdef : validate_hier S pathv af i =
    (match strip_prefix i ['/', '/'] with
    | some i => some (validate_authority_path_abempty S (qsplit i).1 && afterV S af (qsplit i).2)
    | none =>
      match pathv (qsplit i).1 with
      | none => none
      | some b => some (b && afterV S af (qsplit i).2)) := rfl
  rw [hdef]
  cases hs : strip_prefix i ['/', '/'] with
  | some j =>
    have hi := strip_prefix_some.1 hs
    refine ⟨_, rfl, ?_⟩
    obtain ⟨hj, hq, hh, ho⟩ := qsplit_spec j
    rw [Bool.and_eq_true, auth_path_iff, after_iff S af _ ho]
    constructor
    · rintro ⟨⟨a, p, h1, h2, h3, h4⟩, q, f, h5, h6, h7, h8⟩
      refine ⟨⟨none, some a, p, q, f⟩, rfl, ?_, ⟨by simp [h2], h3, h6, h7, fun _ => h4, by simp, by simp⟩, h8⟩
      rw [hi, hj, h1, h5]; simp [Parts.tail, optSuf]
    · rintro ⟨⟨_, a, p, q, f⟩, rfl, he, ⟨h1, h2, h3, h4, h5, h6, _⟩, h8⟩
      simp only at h1 h2 h3 h4 h5 h6 h8
      cases a with
      | none =>
        exfalso
        simp only [Parts.tail, optSuf, List.nil_append] at he
        rw [hi] at he
        have h6 := h6 rfl
        have hQ := qfStr_QF q f
        generalize qfStr q f = w at he hQ
        match p, he, h6 with
        | [], he, _ =>
          rcases hQ with rfl | ⟨c, r, rfl, hc⟩
          · simp at he
          · simp at he; rcases hc with rfl | rfl <;> simp at he
        | [x], he, _ =>
          rcases hQ with rfl | ⟨c, r, rfl, hc⟩
          · simp at he
          · simp at he; rcases hc with rfl | rfl <;> simp at he
        | x :: y :: u, he, h6 =>
          simp at he
          exact h6 u (by rw [← he.1, ← he.2.1])
      | some a =>
        have ha := h1 a rfl
        have e : j = (a ++ p) ++ qfStr q f := by
          rw [hi] at he; simpa [Parts.tail, optSuf] using he
        have hpp := path_iff.2 h2
        obtain ⟨e1, e2⟩ := qsplit_eq (a := a ++ p) (w := qfStr q f)
          (by simp [authority_not_mem ha, path_not_mem hpp])
          (by simp [authority_not_mem ha, path_not_mem hpp]) (qfStr_QF q f)
        rw [← e] at e1 e2
        exact ⟨⟨a, p, e1, ha, h2, h5 (by simp)⟩, q, f, e2, h3, h4, h8⟩
  | none =>
    have hi := strip_prefix_none.1 hs
    simp only
    obtain ⟨hj, hq, hh, ho⟩ := qsplit_spec i
    have hns : ∀ r, (qsplit i).1 ≠ '/' :: '/' :: r := by
      intro r hr
      rw [hr] at hj
      exact hi (r ++ oStr (qsplit i).2) hj
    obtain ⟨b, hb, hbi⟩ := hp _ hns
    rw [hb]
    refine ⟨_, rfl, ?_⟩
    rw [Bool.and_eq_true, hbi, after_iff S af _ ho]
    constructor
    · rintro ⟨⟨h1, h2⟩, q, f, h5, h6, h7, h8⟩
      refine ⟨⟨none, none, (qsplit i).1, q, f⟩, rfl, ?_, ⟨by simp, h1, h6, h7, by simp, fun _ => hns,
        fun h _ => h2 h⟩, h8⟩
      simp only [Parts.tail, optSuf, List.nil_append]
      rw [← h5]; exact hj
    · rintro ⟨⟨_, a, p, q, f⟩, rfl, he, ⟨h1, h2, h3, h4, h5, h6, h7⟩, h8⟩
      simp only at h1 h2 h3 h4 h5 h6 h7 h8
      cases a with
      | some a => exact absurd (by simpa [Parts.tail, optSuf] using he) (hi (a ++ (p ++ qfStr q f)))
      | none =>
        have e : i = p ++ qfStr q f := by simpa [Parts.tail, optSuf] using he
        have hpp := path_iff.2 h2
        obtain ⟨e1, e2⟩ := qsplit_eq (a := p) (w := qfStr q f)
          (by simp [path_not_mem hpp]) (by simp [path_not_mem hpp]) (qfStr_QF q f)
        rw [← e] at e1 e2
        rw [e1, e2]
        exact ⟨⟨h2, fun h => h7 h rfl⟩, q, f, rfl, h3, h4, h8⟩

theorem relative_ref_valid (S : Spec) (i : Str) : ∃ b, validate_relative_ref S i = some b ∧
    (b = true ↔ ∃ p : Parts, p.Valid S ∧ p.scheme = none ∧ p.recompose = i) := by
  obtain ⟨b, h1, h2⟩ := hier_valid S true true _ (pathV_rel S) i
  refine ⟨b, h1, ?_⟩
  rw [h2]
  constructor
  · rintro ⟨p, h0, rfl, hok, _⟩
    exact ⟨p, (valid_iff _ _).2 ⟨by simp [h0], by rw [h0]; exact hok⟩, h0,
      by simp [recompose_eq, h0, optPre]⟩
  · rintro ⟨p, hv, h0, rfl⟩
    have := ((valid_iff _ _).1 hv).2
    rw [h0] at this
    exact ⟨p, h0, by simp [recompose_eq, h0, optPre], this, by simp [FragOK]⟩

theorem common_valid (S : Spec) (i : Str) (rule : UriReferenceRule) :
    ∃ b, validate_uri_reference_common S i rule = some b ∧
    (b = true ↔ ∃ p : Parts, p.Valid S ∧ (p.scheme = none → rule.is_relative_allowed = true) ∧
      FragOK rule.is_fragment_allowed p.fragment ∧ p.recompose = i) := by
  have hrel : (∀ p : Parts, p.Valid S → p.recompose = i → p.scheme = none) →
      ∃ b, (if rule.is_relative_allowed then validate_relative_ref S i else some false) = some b ∧
      (b = true ↔ ∃ p : Parts, p.Valid S ∧ (p.scheme = none → rule.is_relative_allowed = true) ∧
      FragOK rule.is_fragment_allowed p.fragment ∧ p.recompose = i) := by
    intro hn
    by_cases hr : rule.is_relative_allowed = true
    · rw [if_pos hr]
      obtain ⟨b, h1, h2⟩ := relative_ref_valid S i
      have hfr : rule.is_fragment_allowed = true := by
        cases rule <;> simp [UriReferenceRule.is_relative_allowed] at hr; rfl
      refine ⟨b, h1, ?_⟩
      rw [h2]
      constructor
      · rintro ⟨p, h1, h2, h3⟩; exact ⟨p, h1, fun _ => hr, by simp [FragOK, hfr], h3⟩
      · rintro ⟨p, h1, _, _, h3⟩; exact ⟨p, h1, hn p h1 h3, h3⟩
    · rw [if_neg hr]
      refine ⟨false, rfl, ?_⟩
      simp only [Bool.false_eq_true, false_iff]
      rintro ⟨p, h1, h2, _, h3⟩
      exact hr (h2 (hn p h1 h3))
  have hsch : ∀ p : Parts, p.Valid S → p.recompose = i → ∀ x, p.scheme = some x →
      find_split_hole i ':' = some (x, p.tail) := by
    intro p hv he x hx
    rw [← he]
    have := hv.delim.scheme_colon_eq hx
    unfold scheme_colon at this
    cases hf : find_split_hole p.recompose ':' with
    | none => rw [hf] at this; cases this
    | some y => rw [hf] at this; simp at this; obtain ⟨a, b⟩ := y; simp_all
  unfold validate_uri_reference_common
  cases hf : find_split_hole i ':' with
  | none =>
    apply hrel
    intro p hv he
    cases hs : p.scheme with
    | none => rfl
    | some x => rw [hsch p hv he x hs] at hf; cases hf
  | some y =>
    obtain ⟨s0, rest⟩ := y
    simp only
    by_cases hvs : validate_scheme s0 = true
    · rw [hvs]
      simp only [Bool.not_true, Bool.false_eq_true, if_false]
      obtain ⟨b, h1, h2⟩ := hier_valid S false rule.is_fragment_allowed _ (pathV_abs S) rest
      refine ⟨b, h1, ?_⟩
      rw [h2]
      obtain ⟨hi, hn⟩ := find_split_hole_some.1 hf
      have hs0 := (scheme_iff s0).2 hvs
      constructor
      · rintro ⟨p, h0, rfl, hok, hfr⟩
        refine ⟨{ p with scheme := some s0 }, (valid_iff _ _).2 ⟨by simp [hs0], hok⟩, by simp, hfr, ?_⟩
        rw [hi]; simp [recompose_eq, optPre, Parts.tail]
      · rintro ⟨p, hv, _, hfr, he⟩
        cases hs : p.scheme with
        | some x =>
          have := hsch p hv he x hs
          rw [hf] at this
          simp at this
          have hok := ((valid_iff _ _).1 hv).2
          rw [hs] at hok
          exact ⟨{ p with scheme := none }, rfl, this.2, hok, hfr⟩
        | none =>
          -- a relative reference has no valid scheme before its first colon
          exfalso
          have h3 := hv.delim.scheme_colon_opt_eq
          rw [he, hs] at h3
          have h4 : find_split4_hole i ':' '/' '?' '#' = some (s0, ':', rest) := by
            rw [hi]
            apply findSplitHoleP_eq
            · simp
            · intro y hy
              simp only [Bool.or_eq_false_iff, beq_eq_false_iff_ne]
              exact ⟨⟨⟨fun e => hn (e ▸ hy), fun e => scheme_not_mem hs0 (d := '/') (by decide) (e ▸ hy)⟩,
                fun e => scheme_not_mem hs0 (d := '?') (by decide) (e ▸ hy)⟩,
                fun e => scheme_not_mem hs0 (d := '#') (by decide) (e ▸ hy)⟩
          unfold scheme_colon_opt at h3
          rw [h4] at h3
          simp at h3
    · have hvs' : validate_scheme s0 = false := by simpa using hvs
      rw [hvs']
      simp only [Bool.not_false, if_true]
      apply hrel
      intro p hv he
      cases hs : p.scheme with
      | none => rfl
      | some x =>
        rw [hsch p hv he x hs] at hf
        simp at hf
        have := (scheme_iff x).1 (hv.scheme x hs)
        rw [hf.1] at this; rw [this] at hvs'; cases hvs'

end Verif
