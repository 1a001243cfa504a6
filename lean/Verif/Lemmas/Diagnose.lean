import Verif.Lemmas.Valid
import Verif.Model.Diagnose

/-! # Validation errors -/

namespace Verif.Diag

open Verif Abnf Rfc Diagnose

theorem Cut.toDelim {s : Str} {p : Parts} (h : Cut s p) :
    ({ p with scheme := some ['x'] } : Parts).Delim where
  scheme := by intro x hx; cases hx; decide
  authority := h.authority
  path := h.path
  query := h.query
  withAuthority := h.withAuthority
  withoutAuthority := h.withoutAuthority
  withoutScheme := by simp

theorem Cut.tail {s : Str} {p : Parts} (h : Cut s p) : p.tail = s := by
  have := h.whole
  rw [recompose_eq, h.scheme] at this
  simpa [optPre] using this

theorem Cut.unique {s : Str} {p q : Parts} (hp : Cut s p) (hq : Cut s q) : p = q := by
  have := recompose_inj (Cut.toDelim hp) (Cut.toDelim hq) (by
    simp only [recompose_eq]
    have h1 := Cut.tail hp
    have h2 := Cut.tail hq
    simp only [Parts.tail] at h1 h2 ⊢
    rw [h1, h2])
  have h1 := hp.scheme
  have h2 := hq.scheme
  cases p; cases q
  simp_all

theorem andThen_ok {a b : Res} : andThen a b = .ok () ↔ a = .ok () ∧ b = .ok () := by
  cases a <;> simp [andThen]

theorem andThen_error {a b : Res} {k : ErrorKind} :
    andThen a b = .error k ↔ a = .error k ∨ (a = .ok () ∧ b = .error k) := by
  cases a <;> simp [andThen]

theorem check_ok {b : Bool} {k : ErrorKind} : check b k = .ok () ↔ b = true := by
  cases b <;> simp [check]

theorem check_error {b : Bool} {k k' : ErrorKind} :
    check b k = .error k' ↔ b = false ∧ k' = k := by
  cases b <;> simp [check, eq_comm]

/-- `validate_after_path` on the remainder. -/
def afterE (S : Spec) (af : Bool) (o : Option (Char × Str)) : Res :=
  match o with
  | some (first, rest) => validate_after_path S first rest af
  | none => .ok ()

theorem hier_def (S : Spec) (pathv : Str → Option Res) (af : Bool) (i : Str) :
    validate_hier S pathv af i =
    (match strip_prefix i ['/', '/'] with
    | some i => some (andThen (validate_authority_path_abempty S (qsplit i).1)
        (afterE S af (qsplit i).2))
    | none => (pathv (qsplit i).1).map fun r => andThen r (afterE S af (qsplit i).2)) := rfl

/-- Query and fragment checks on the components. -/
def qfE (S : Spec) (af : Bool) (q f : Option Str) : Res :=
  andThen (check (Verif.validate_query S (q.getD [])) .InvalidQuery)
    (if !af && !(f.getD []).isEmpty then .error .UnexpectedFragment
     else check (Verif.validate_fragment S (f.getD [])) .InvalidFragment)

theorem after_cut (S : Spec) (af : Bool) (o : Option (Char × Str))
    (ho : ∀ c r, o = some (c, r) → c = '?' ∨ c = '#') :
    ∃ q f : Option Str, oStr o = qfStr q f ∧ (∀ x, q = some x → '#' ∉ x) ∧
      afterE S af o = qfE S af q f := by
  have hq : Verif.validate_query S [] = true := (validate_query_iff S []).2 (query_nil S)
  have hf : Verif.validate_fragment S [] = true := (validate_fragment_iff S []).2 (fragment_nil S)
  cases o with
  | none =>
    exact ⟨none, none, rfl, by simp, by simp [afterE, qfE, hq, hf, check, andThen]⟩
  | some x =>
    obtain ⟨c, r⟩ := x
    rcases ho c r rfl with rfl | rfl
    · cases hs : find_split_hole r '#' with
      | none =>
        have hn := find_split_hole_none.1 hs
        refine ⟨some r, none, by simp [oStr, qfStr, optSuf], by simpa using hn, ?_⟩
        simp [afterE, validate_after_path, hs, qfE, validate_query, validate_fragment]
      | some y =>
        obtain ⟨a, b⟩ := y
        obtain ⟨rfl, hn⟩ := find_split_hole_some.1 hs
        refine ⟨some a, some b, by simp [oStr, qfStr, optSuf], by simpa using hn, ?_⟩
        simp [afterE, validate_after_path, hs, qfE, validate_query, validate_fragment]
    · refine ⟨none, some r, by simp [oStr, qfStr, optSuf], by simp, ?_⟩
      simp [afterE, validate_after_path, qfE, validate_query, validate_fragment]

/-- The checks made on the components of a cut, in order. -/
def diagOf (S : Spec) (pathv : Str → Option Res) (af : Bool) (p : Parts) : Option Res :=
  match p.authority with
  | some a => some (andThen (andThen (validate_authority S a) (validate_path_abempty S p.path))
      (qfE S af p.query p.fragment))
  | none => (pathv p.path).map fun r => andThen r (qfE S af p.query p.fragment)

theorem hier_cut (S : Spec) (pathv : Str → Option Res) (af : Bool) (i : Str) :
    ∃ p, Cut i p ∧ validate_hier S pathv af i = diagOf S pathv af p := by
  rw [hier_def]
  cases hs : strip_prefix i ['/', '/'] with
  | some j =>
    have hi := strip_prefix_some.1 hs
    obtain ⟨hj, hq, hh, ho⟩ := qsplit_spec j
    obtain ⟨q, f, e1, e2, e3⟩ := after_cut S af _ ho
    simp only [e3, validate_authority_path_abempty]
    cases hf : find_split (qsplit j).1 '/' with
    | none =>
      have hn := find_split_none.1 hf
      refine ⟨⟨none, some (qsplit j).1, [], q, f⟩, ⟨rfl, ?_, ?_, by simp, e2, by simp, by simp⟩, ?_⟩
      · rw [hi]; conv => rhs; rw [hj, e1]
        simp [recompose_eq, optPre, Parts.tail, optSuf]
      · intro a ha; cases ha; exact ⟨hn, hq, hh⟩
      · simp [diagOf]
    | some x =>
      obtain ⟨a0, p0⟩ := x
      obtain ⟨h1, ⟨r0, rfl⟩, hn⟩ : (qsplit j).1 = a0 ++ p0 ∧ (∃ r, p0 = '/' :: r) ∧ '/' ∉ a0 := by
        have := find_split_some.1 hf
        grind
      rw [h1] at hq hh
      simp only [List.mem_append, not_or] at hq hh
      refine ⟨⟨none, some a0, '/' :: r0, q, f⟩, ⟨rfl, ?_, ?_, ⟨hq.2, hh.2⟩, e2, by simp, by simp⟩, ?_⟩
      · rw [hi]; conv => rhs; rw [hj, e1, h1]
        simp [recompose_eq, optPre, Parts.tail, optSuf]
      · intro a ha; cases ha; exact ⟨hn, hq.1, hh.1⟩
      · simp [diagOf]
  | none =>
    have hi := strip_prefix_none.1 hs
    obtain ⟨hj, hq, hh, ho⟩ := qsplit_spec i
    obtain ⟨q, f, e1, e2, e3⟩ := after_cut S af _ ho
    simp only [e3]
    refine ⟨⟨none, none, (qsplit i).1, q, f⟩, ⟨rfl, ?_, by simp, ⟨hq, hh⟩, e2, by simp, ?_⟩, ?_⟩
    · conv => rhs; rw [hj, e1]
      simp [recompose_eq, optPre, Parts.tail, optSuf]
    · intro _ r hr
      simp only at hr
      rw [hr] at hj
      exact hi (r ++ oStr (qsplit i).2) hj
    · simp [diagOf]

/-- Every text has a cut. -/
theorem cut_exists (i : Str) : ∃ p, Cut i p :=
  let ⟨p, h, _⟩ := hier_cut .uri (fun _ => none) true i
  ⟨p, h⟩

/-! ### Reading the checks -/

/-- The host and port step of `validate_authority`. -/
def contE (S : Spec) (i : Str) : Res :=
  match rfind_split_hole i ':' with
  | some (maybe_host, maybe_port) =>
    if maybe_port.all isDigit then validate_host S maybe_host else validate_host S i
  | none => validate_host S i

theorem contE_eq (S : Spec) (i : Str) : contE S i = check (hostport S i) .InvalidHost := by
  unfold contE hostport validate_host
  cases rfind_split_hole i ':' with
  | none => rfl
  | some x =>
    obtain ⟨a, b⟩ := x
    simp only
    split <;> rfl

theorem authority_def (S : Spec) (i : Str) : validate_authority S i =
    (match find_split_hole i '@' with
    | some (u, i) => andThen (check (Verif.validate_userinfo S u) .InvalidUserInfo)
        (check (hostport S i) .InvalidHost)
    | none => check (hostport S i) .InvalidHost) := by
  have hdef : validate_authority S i = (match find_split_hole i '@' with
    | some (u, i) => andThen (check (Verif.validate_userinfo S u) .InvalidUserInfo) (contE S i)
    | none => contE S i) := rfl
  simp only [hdef, contE_eq]

theorem hostport_spec (S : Spec) (i : Str) : hostport S i = true ↔ hostPort S i := by
  rw [hostport_iff]
  unfold hostPort
  constructor
  · rintro ⟨h, p, rfl, hh, hp⟩
    exact ⟨h, _, rfl, hh, (opt_suf ':' _ _).2 ⟨p, rfl, hp⟩⟩
  · rintro ⟨h, w, rfl, hh, hw⟩
    obtain ⟨p, rfl, hp⟩ := (opt_suf ':' _ _).1 hw
    exact ⟨h, p, rfl, hh, hp⟩

/-- The userinfo problem of an authority. -/
def BadUser (S : Spec) (a : Str) : Prop := ∃ u r, a = u ++ '@' :: r ∧ '@' ∉ u ∧ ¬ Rfc.userinfo S u
/-- The host problem of an authority. -/
def BadHost (S : Spec) (a : Str) : Prop := ∃ r, AfterUserinfo a r ∧ ¬ hostPort S r

theorem authority_error (S : Spec) (a : Str) :
    (validate_authority S a = .ok () ∧ ¬ BadUser S a ∧ ¬ BadHost S a) ∨
    (validate_authority S a = .error .InvalidUserInfo ∧ BadUser S a) ∨
    (validate_authority S a = .error .InvalidHost ∧ ¬ BadUser S a ∧ BadHost S a) := by
  rw [authority_def]
  cases hf : find_split_hole a '@' with
  | none =>
    have hn := find_split_hole_none.1 hf
    have h1 : ¬ BadUser S a := by rintro ⟨u, r, rfl, _⟩; simp at hn
    have h2 : BadHost S a ↔ hostport S a = false := by
      constructor
      · rintro ⟨r, (⟨_, rfl⟩ | ⟨u, rfl, _⟩), h⟩
        · rw [← hostport_spec] at h; simpa using h
        · simp at hn
      · intro h
        exact ⟨a, .inl ⟨hn, rfl⟩, by rw [← hostport_spec]; simp [h]⟩
    rw [h2]
    cases hostport S a <;> simp [check, h1]
  | some x =>
    obtain ⟨u, r⟩ := x
    obtain ⟨rfl, hn⟩ := find_split_hole_some.1 hf
    have h1 : BadUser S (u ++ '@' :: r) ↔ Verif.validate_userinfo S u = false := by
      constructor
      · rintro ⟨u', r', he, h1, h2⟩
        obtain ⟨rfl, rfl⟩ := cut_unique hn h1 he
        rw [validate_userinfo_iff] at h2; simpa using h2
      · intro h
        exact ⟨u, r, rfl, hn, by rw [validate_userinfo_iff]; simp [h]⟩
    have h2 : BadHost S (u ++ '@' :: r) ↔ hostport S r = false := by
      constructor
      · rintro ⟨r', (⟨h1, _⟩ | ⟨u', he, h1⟩), h⟩
        · simp at h1
        · obtain ⟨rfl, rfl⟩ := cut_unique hn h1 he
          rw [← hostport_spec] at h; simpa using h
      · intro h
        exact ⟨r, .inr ⟨u, rfl, hn⟩, by rw [← hostport_spec]; simp [h]⟩
    rw [h1, h2]
    simp only
    generalize Verif.validate_userinfo S u = x
    generalize hostport S r = y
    cases x <;> cases y <;> simp [check, andThen]

/-- What a path validator must satisfy. -/
def PathE (S : Spec) (rel : Bool) (pathv : Str → Option Res) : Prop :=
  ∀ s, (∀ r, s ≠ '/' :: '/' :: r) → ∃ b, pathv s = some (check b .InvalidPath) ∧
    (b = true ↔ Rfc.path S s ∧ (rel = true → ¬ ColonInFirstSegment s))

theorem pathE_of {S : Spec} {rel : Bool} {pathv : Str → Option Bool} (h : PathV S rel pathv) :
    PathE S rel fun i => (pathv i).map (check · .InvalidPath) := by
  intro s hs
  obtain ⟨b, h1, h2⟩ := h s hs
  refine ⟨b, by simp [h1], ?_⟩
  rw [h2, path_iff, noColonSeg_iff]

/-- The cascade of checks and the leftmost problem say the same. -/
theorem diag_spec (S : Spec) (rel af : Bool) (pathv : Str → Option Res) (hp : PathE S rel pathv)
    (i : Str) (p : Parts) (hc : Cut i p) : ∃ r, diagOf S pathv af p = some r ∧
      (r = .ok () ↔ ∀ k, ¬ Problem S rel af p k) ∧
      (∀ k, r = .error k ↔ Leftmost S rel af p k) := by
  -- the two last checks
  have hqf : (qfE S af p.query p.fragment = .ok () ∧ ¬ Problem S rel af p .InvalidQuery ∧
        ¬ Problem S rel af p .UnexpectedFragment ∧ ¬ Problem S rel af p .InvalidFragment) ∨
      (qfE S af p.query p.fragment = .error .InvalidQuery ∧ Problem S rel af p .InvalidQuery) ∨
      (qfE S af p.query p.fragment = .error .UnexpectedFragment ∧
        ¬ Problem S rel af p .InvalidQuery ∧ Problem S rel af p .UnexpectedFragment) ∨
      (qfE S af p.query p.fragment = .error .InvalidFragment ∧
        ¬ Problem S rel af p .InvalidQuery ∧ ¬ Problem S rel af p .UnexpectedFragment ∧
        Problem S rel af p .InvalidFragment) := by
    have h1 : Problem S rel af p .InvalidQuery ↔
        Verif.validate_query S (p.query.getD []) = false := by
      have := query_nil S
      cases hq : p.query <;> simp only [Problem, hq] <;>
        simp [← Bool.not_eq_true, validate_query_iff, this]
    have h2 : Problem S rel af p .UnexpectedFragment ↔
        (!af && !(p.fragment.getD []).isEmpty) = true := by
      cases hf : p.fragment with
      | none => simp [Problem, hf]
      | some f => cases f <;> simp [Problem, hf]
    have h3 : Problem S rel af p .InvalidFragment ↔
        Verif.validate_fragment S (p.fragment.getD []) = false := by
      have := fragment_nil S
      cases hq : p.fragment <;> simp only [Problem, hq] <;>
        simp [← Bool.not_eq_true, validate_fragment_iff, this]
    rw [h1, h2, h3]
    unfold qfE
    cases Verif.validate_query S (p.query.getD []) <;>
      cases (!af && !(p.fragment.getD []).isEmpty) <;>
      cases Verif.validate_fragment S (p.fragment.getD []) <;> simp [check, andThen]
  have fin : ∀ (r : Res),
      ((r = .ok () ∧ ∀ k, ¬ Problem S rel af p k) ∨ ∃ k, r = .error k ∧ Leftmost S rel af p k) →
      (r = .ok () ↔ ∀ k, ¬ Problem S rel af p k) ∧ (∀ k, r = .error k ↔ Leftmost S rel af p k) := by
    rintro r (⟨rfl, h⟩ | ⟨k, rfl, h⟩)
    · exact ⟨by simpa using h, fun k => ⟨by simp, fun h' => absurd h'.1 (h k)⟩⟩
    · refine ⟨⟨by simp, fun h' => absurd h.1 (h' k)⟩, fun k' => ⟨fun e => by cases e; exact h, fun h' => ?_⟩⟩
      have e : rank k = rank k' := by
        rcases Nat.lt_trichotomy (rank k) (rank k') with e | e | e
        · exact absurd h.1 (h'.2 _ e)
        · exact e
        · exact absurd h'.1 (h.2 _ e)
      have hk := h.1
      have hk' := h'.1
      cases k <;> cases k' <;> simp [rank, Problem] at e hk hk' ⊢
  -- what the checks before the query say
  have pre : ∃ r0 : Res, diagOf S pathv af p = some (andThen r0 (qfE S af p.query p.fragment)) ∧
      ((r0 = .ok () ∧ ¬ Problem S rel af p .InvalidUserInfo ∧ ¬ Problem S rel af p .InvalidHost ∧
          ¬ Problem S rel af p .InvalidPath) ∨
       (r0 = .error .InvalidUserInfo ∧ Problem S rel af p .InvalidUserInfo) ∨
       (r0 = .error .InvalidHost ∧ ¬ Problem S rel af p .InvalidUserInfo ∧
          Problem S rel af p .InvalidHost) ∨
       (r0 = .error .InvalidPath ∧ ¬ Problem S rel af p .InvalidUserInfo ∧
          ¬ Problem S rel af p .InvalidHost ∧ Problem S rel af p .InvalidPath)) := by
    unfold diagOf
    cases ha : p.authority with
    | some a =>
      simp only
      refine ⟨_, rfl, ?_⟩
      have h1 : Problem S rel af p .InvalidUserInfo ↔ BadUser S a := by simp [Problem, BadUser, ha]
      have h2 : Problem S rel af p .InvalidHost ↔ BadHost S a := by simp [Problem, BadHost, ha]
      have h3 : Problem S rel af p .InvalidPath ↔ Verif.validate_path_abempty S p.path = false := by
        have := hc.withAuthority (by simp [ha])
        rw [← Bool.not_eq_true, validate_path_abempty_iff]
        simp [Problem, ha, this, path_iff]
      rw [h1, h2, h3]
      unfold validate_path_abempty
      rcases authority_error S a with ⟨e, x, y⟩ | ⟨e, x⟩ | ⟨e, x, y⟩ <;> rw [e] <;>
        cases Verif.validate_path_abempty S p.path <;> simp [andThen, check, *]
    | none =>
      simp only
      obtain ⟨b, e, hb⟩ := hp p.path (hc.withoutAuthority ha)
      rw [e]
      refine ⟨_, rfl, ?_⟩
      have h1 : ¬ Problem S rel af p .InvalidUserInfo := by simp [Problem, ha]
      have h2 : ¬ Problem S rel af p .InvalidHost := by simp [Problem, ha]
      have h3 : Problem S rel af p .InvalidPath ↔ b = false := by
        rw [← Bool.not_eq_true, hb]
        simp only [Problem, ha]
        grind
      rw [h3]
      cases b <;> simp [check, h1, h2]
  obtain ⟨r0, e, h0⟩ := pre
  refine ⟨_, e, fin _ ?_⟩
  have low : ∀ k, rank k < 7 → k = .InvalidUserInfo ∨ k = .InvalidHost ∨ k = .InvalidPath ∨
      k = .InvalidQuery ∨ k = .UnexpectedFragment ∨ k = .InvalidFragment := by
    intro k; cases k <;> simp [rank]
  rcases h0 with ⟨rfl, u, h, q⟩ | ⟨rfl, u⟩ | ⟨rfl, u, h⟩ | ⟨rfl, u, h, q⟩
  · simp only [andThen]
    rcases hqf with ⟨e, a, b, c⟩ | ⟨e, a⟩ | ⟨e, a, b⟩ | ⟨e, a, b, c⟩ <;> rw [e]
    · refine .inl ⟨rfl, ?_⟩
      intro k; cases k <;> first | assumption | simp [Problem]
    all_goals
      refine .inr ⟨_, rfl, ‹_›, ?_⟩
      intro k' hk'
      cases k' <;> first | assumption | simp [rank] at hk'
  all_goals
    refine .inr ⟨_, rfl, ‹_›, ?_⟩
    intro k' hk'
    cases k' <;> first | assumption | simp [rank] at hk'

theorem hier_spec (S : Spec) (rel af : Bool) (pathv : Str → Option Res) (hp : PathE S rel pathv)
    (i : Str) (p : Parts) (hc : Cut i p) : ∃ r, validate_hier S pathv af i = some r ∧
      (r = .ok () ↔ ∀ k, ¬ Problem S rel af p k) ∧
      (∀ k, r = .error k ↔ Leftmost S rel af p k) := by
  obtain ⟨q, hq, e⟩ := hier_cut S pathv af i
  rw [e, Cut.unique hq hc]
  exact diag_spec S rel af pathv hp i p hc

end Verif.Diag
