import Verif.Lemmas.Diagnose
import Verif.Props.Validation
import Verif.Spec.Lit

/-!
# C43: what a validation error says

When a validator rejects a text, the error names the leftmost component that does not have the
form required of it.
-/

namespace Verif

open Abnf Diagnose

namespace Diag

/-- `Result::is_ok`. -/
def verdict (r : Res) : Bool :=
  match r with
  | .ok _ => true
  | .error _ => false

@[simp] theorem verdict_check (b : Bool) (k : ErrorKind) : verdict (check b k) = b := by
  cases b <;> rfl

@[simp] theorem verdict_andThen (a b : Res) : verdict (andThen a b) = (verdict a && verdict b) := by
  cases a <;> rfl

@[simp] theorem verdict_error (k : ErrorKind) : verdict (.error k) = false := rfl
@[simp] theorem verdict_ok : verdict (.ok ()) = true := rfl

theorem verdict_iff {r : Res} : verdict r = true ↔ r = .ok () := by
  cases r <;> simp [verdict]

theorem verdict_authority (S : Spec) (i : Str) :
    verdict (validate_authority S i) = Verif.validate_authority S i := by
  rw [authority_def, validate_authority_eq]
  cases find_split_hole i '@' <;> simp

theorem verdict_after (S : Spec) (af : Bool) (o : Option (Char × Str)) :
    verdict (afterE S af o) = afterV S af o := by
  cases o with
  | none => rfl
  | some x =>
    obtain ⟨c, r⟩ := x
    simp only [afterE, afterV, validate_after_path, Verif.validate_after_path, verdict_andThen,
      validate_query, validate_fragment, verdict_check]
    congr 1
    generalize (if (c == '?') = true then (find_split_hole r '#').getD (r, []) else ([], r)).2 = f
    by_cases h : (!af && !f.isEmpty) = true
    · rw [if_pos h, if_pos h]; rfl
    · rw [if_neg h, if_neg h, verdict_check]

theorem verdict_hier (S : Spec) (pathv : Str → Option Bool) (af : Bool) (i : Str) :
    (validate_hier S (fun i => (pathv i).map (check · .InvalidPath)) af i).map verdict =
      Verif.validate_hier S pathv af i := by
  have hdef : Verif.validate_hier S pathv af i =
    (match strip_prefix i ['/', '/'] with
    | some i => some (Verif.validate_authority_path_abempty S (qsplit i).1 && afterV S af (qsplit i).2)
    | none =>
      match pathv (qsplit i).1 with
      | none => none
      | some b => some (b && afterV S af (qsplit i).2)) := rfl
  rw [hier_def, hdef]
  cases strip_prefix i ['/', '/'] with
  | some j =>
    simp [verdict_after, validate_authority_path_abempty, Verif.validate_authority_path_abempty,
      verdict_authority, validate_path_abempty]
  | none =>
    simp only
    cases pathv (qsplit i).1 with
    | none => rfl
    | some b => simp [verdict_after]

theorem verdict_relative (S : Spec) (i : Str) :
    (validate_relative_ref S i).map verdict = Verif.validate_relative_ref S i :=
  verdict_hier S _ true i

theorem verdict_common (S : Spec) (i : Str) (rule : UriReferenceRule) :
    (validate_uri_reference_common S i rule).map verdict =
      Verif.validate_uri_reference_common S i rule := by
  unfold validate_uri_reference_common Verif.validate_uri_reference_common
  cases find_split_hole i ':' with
  | none => simp only; split <;> simp [verdict_relative]
  | some x =>
    obtain ⟨s, r⟩ := x
    simp only [validate_scheme, check]
    cases Verif.validate_scheme s with
    | true => exact verdict_hier S (Verif.validate_path_absolute_authority_absent S) _ r
    | false => simp; split <;> simp [verdict_relative]

theorem pathE_abs (S : Spec) : PathE S false (validate_path_absolute_authority_absent S) :=
  pathE_of (pathV_abs S)

theorem pathE_rel (S : Spec) : PathE S true (validate_path_relative_authority_absent S) :=
  pathE_of (pathV_rel S)

theorem relative_error (S : Spec) (s : Str) : ∃ r, validate_relative_ref S s = some r ∧
    ∀ k, r = .error k ↔ RelativeProblem S s k := by
  obtain ⟨p, hp⟩ := cut_exists s
  obtain ⟨r, h1, _, h2⟩ := hier_spec S true true _ (pathE_rel S) s p hp
  refine ⟨r, h1, fun k => ?_⟩
  rw [h2]
  constructor
  · intro h; exact ⟨p, k, hp, h⟩
  · rintro ⟨q, _, hq, h⟩; rw [Cut.unique hp hq]; exact h

theorem firstColon_iff {s x r : Str} : FirstColon s x r ↔ find_split_hole s ':' = some (x, r) :=
  find_split_hole_some.symm

/-- The strict validators: a scheme is required. -/
theorem strict_error (S : Spec) (s : Str) (rule : UriReferenceRule)
    (hr : rule.is_relative_allowed = false) :
    ∃ r, validate_uri_reference_common S s rule = some r ∧
    ∀ k, r = .error k ↔ IriProblem S rule.is_fragment_allowed s k := by
  unfold validate_uri_reference_common
  cases hf : find_split_hole s ':' with
  | none =>
    have hn := find_split_hole_none.1 hf
    simp only [hr, Bool.false_eq_true, if_false]
    refine ⟨_, rfl, fun k => ?_⟩
    constructor
    · intro h; cases h; exact .noColon hn
    · intro h
      cases h with
      | noColon _ => rfl
      | badScheme x r h _ => rw [firstColon_iff, hf] at h; cases h
      | afterScheme x r _ _ h => rw [firstColon_iff, hf] at h; cases h
  | some y =>
    obtain ⟨x, rest⟩ := y
    have hfc := firstColon_iff.2 hf
    have uniq : ∀ {x' r'}, FirstColon s x' r' → x' = x ∧ r' = rest := by
      intro x' r' h
      rw [firstColon_iff, hf] at h; cases h; exact ⟨rfl, rfl⟩
    have hcol : ':' ∈ s := by rw [hfc.1]; simp
    simp only [validate_scheme, check, hr]
    cases hv : Verif.validate_scheme x with
    | false =>
      have hns : ¬ Rfc.scheme x := by rw [scheme_iff, hv]; simp
      simp only [Bool.false_eq_true, if_false]
      refine ⟨_, rfl, fun k => ?_⟩
      constructor
      · intro h; cases h; exact .badScheme x rest hfc hns
      · intro h
        cases h with
        | noColon h => exact absurd hcol h
        | badScheme => rfl
        | afterScheme x' r' _ _ h hs => obtain ⟨rfl, rfl⟩ := uniq h; exact absurd hs hns
    | true =>
      have hs : Rfc.scheme x := (scheme_iff x).2 hv
      simp only [if_true]
      obtain ⟨p, hp⟩ := cut_exists rest
      obtain ⟨r, h1, _, h2⟩ := hier_spec S false rule.is_fragment_allowed _ (pathE_abs S) rest p hp
      refine ⟨r, h1, fun k => ?_⟩
      rw [h2]
      constructor
      · intro h; exact .afterScheme x rest p k hfc hs hp h
      · intro h
        cases h with
        | noColon h => exact absurd hcol h
        | badScheme x' r' h hs' => obtain ⟨rfl, rfl⟩ := uniq h; exact absurd hs hs'
        | afterScheme x' r' q _ h _ hq hl =>
          obtain ⟨rfl, rfl⟩ := uniq h
          rw [Cut.unique hp hq]; exact hl

end Diag

/-- Every text has exactly one generic cut, so "the leftmost problem of the cut" is well defined. -/
theorem C43_cut_unique (s : Str) : ∃ p, Cut s p ∧ ∀ q, Cut s q → q = p := by
  obtain ⟨p, hp⟩ := Diag.cut_exists s
  exact ⟨p, hp, fun q hq => Diag.Cut.unique hq hp⟩

/-- `validate::iri`: never panics, succeeds exactly on the IRIs, and fails with `k` exactly when
`k` is the diagnosis of the text. -/
theorem C43_iri_error (S : Spec) (s : Str) : ∃ r, Diag.validate_uri S s = some r ∧
    (r = .ok () ↔ Rfc.IRI S s) ∧ ∀ k, r = .error k ↔ IriProblem S true s k := by
  obtain ⟨r, h1, h2⟩ := Diag.strict_error S s .Absolute rfl
  refine ⟨r, h1, ?_, h2⟩
  have h := Diag.verdict_common S s .Absolute
  rw [h1] at h
  rw [← Diag.verdict_iff, ← (C01_iri_validation S s).1]
  unfold validate_uri
  rw [← h]; simp

/-- `validate::absolute_iri`: fails with `k` exactly when `k` is the diagnosis of the text (read
without a fragment).  Which texts succeed is C04. -/
theorem C43_absolute_iri_error (S : Spec) (s : Str) :
    ∃ r, Diag.validate_absolute_uri S s = some r ∧
    (r = .ok () ↔ validate_absolute_uri S s = some true) ∧
    ∀ k, r = .error k ↔ IriProblem S false s k := by
  obtain ⟨r, h1, h2⟩ := Diag.strict_error S s .AbsoluteWithoutFragment rfl
  refine ⟨r, h1, ?_, h2⟩
  have h := Diag.verdict_common S s .AbsoluteWithoutFragment
  rw [h1] at h
  unfold validate_absolute_uri
  rw [← Diag.verdict_iff, ← h]; simp

/-- `validate::relative_ref`. -/
theorem C43_relative_error (S : Spec) (s : Str) : ∃ r, Diag.validate_relative_ref S s = some r ∧
    (r = .ok () ↔ Rfc.relative_ref S s) ∧ ∀ k, r = .error k ↔ RelativeProblem S s k := by
  obtain ⟨r, h1, h2⟩ := Diag.relative_error S s
  refine ⟨r, h1, ?_, h2⟩
  have h := Diag.verdict_relative S s
  rw [h1] at h
  rw [← Diag.verdict_iff, ← (C03_relative_ref_validation S s).1, ← h]; simp

/-- `validate::iri_reference`. -/
theorem C43_reference_error (S : Spec) (s : Str) : ∃ r, Diag.validate_uri_reference S s = some r ∧
    (r = .ok () ↔ Rfc.IRI_reference S s) ∧ ∀ k, r = .error k ↔ ReferenceProblem S s k := by
  have key : ∃ r, Diag.validate_uri_reference S s = some r ∧
      ∀ k, r = .error k ↔ ReferenceProblem S s k := by
    unfold Diag.validate_uri_reference Diag.validate_uri_reference_common
    have rel : (∀ x rest, FirstColon s x rest → ¬ Rfc.scheme x) →
        ∃ r, Diag.validate_relative_ref S s = some r ∧ ∀ k, r = .error k ↔ ReferenceProblem S s k := by
      intro hn
      obtain ⟨r, h1, h2⟩ := Diag.relative_error S s
      refine ⟨r, h1, fun k => ?_⟩
      rw [h2]
      constructor
      · exact .relative k hn
      · intro h
        cases h with
        | absolute x rest _ _ h hs => exact absurd hs (hn _ _ h)
        | relative _ _ h => exact h
    cases hf : find_split_hole s ':' with
    | none =>
      exact rel fun x rest h => by rw [Diag.firstColon_iff, hf] at h; cases h
    | some y =>
      obtain ⟨x, rest⟩ := y
      have hfc := Diag.firstColon_iff.2 hf
      have uniq : ∀ {x' r'}, FirstColon s x' r' → x' = x ∧ r' = rest := by
        intro x' r' h
        rw [Diag.firstColon_iff, hf] at h; cases h; exact ⟨rfl, rfl⟩
      simp only [Diag.validate_scheme, Diag.check]
      cases hv : validate_scheme x with
      | false =>
        exact rel fun x' rest' h hs => by
          obtain ⟨rfl, rfl⟩ := uniq h
          rw [scheme_iff, hv] at hs; cases hs
      | true =>
        have hs : Rfc.scheme x := (scheme_iff x).2 hv
        simp only [if_true]
        obtain ⟨p, hp⟩ := Diag.cut_exists rest
        obtain ⟨r, h1, _, h2⟩ := Diag.hier_spec S false true _ (Diag.pathE_abs S) rest p hp
        refine ⟨r, h1, fun k => ?_⟩
        rw [h2]
        constructor
        · intro h; exact .absolute x rest p k hfc hs hp h
        · intro h
          cases h with
          | absolute x' r' q _ h _ hq hl =>
            obtain ⟨rfl, rfl⟩ := uniq h
            rw [Diag.Cut.unique hp hq]; exact hl
          | relative _ hn _ => exact absurd hs (hn x rest hfc)
  obtain ⟨r, h1, h2⟩ := key
  refine ⟨r, h1, ?_, h2⟩
  have h := Diag.verdict_common S s .Any
  unfold Diag.validate_uri_reference at h1
  rw [h1] at h
  rw [← Diag.verdict_iff, ← (C02_iri_reference_validation S s).1]
  unfold validate_uri_reference
  rw [← h]; simp

/-- `validate::authority`: a bad userinfo (the text before the first `@`) is reported before a bad
host-and-port. -/
theorem C43_authority_error (S : Spec) (a : Str) :
    (Diag.validate_authority S a = .ok () ↔ Rfc.authority S a) ∧
    (Diag.validate_authority S a = .error .InvalidUserInfo ↔
      ∃ u r, a = u ++ '@' :: r ∧ '@' ∉ u ∧ ¬ Rfc.userinfo S u) ∧
    (Diag.validate_authority S a = .error .InvalidHost ↔
      (¬ ∃ u r, a = u ++ '@' :: r ∧ '@' ∉ u ∧ ¬ Rfc.userinfo S u) ∧
      ∃ r, AfterUserinfo a r ∧ ¬ hostPort S r) := by
  refine ⟨?_, ?_⟩
  · rw [authority_iff, ← Diag.verdict_authority, Diag.verdict_iff]
  · change (_ ↔ Diag.BadUser S a) ∧ (_ ↔ ¬ Diag.BadUser S a ∧ Diag.BadHost S a)
    rcases Diag.authority_error S a with ⟨e, x, y⟩ | ⟨e, x⟩ | ⟨e, x, y⟩ <;> rw [e] <;> simp [*]

/-- The component validators report the kind of their component, exactly when the text is not
generated by the component's rule. -/
theorem C43_component_error (S : Spec) (s : Str) (k : ErrorKind) :
    (Diag.validate_scheme s = .error k ↔ k = .InvalidScheme ∧ ¬ Rfc.scheme s) ∧
    (Diag.validate_userinfo S s = .error k ↔ k = .InvalidUserInfo ∧ ¬ Rfc.userinfo S s) ∧
    (Diag.validate_host S s = .error k ↔ k = .InvalidHost ∧ ¬ Rfc.host S s) ∧
    (Diag.validate_reg_name S s = .error k ↔ k = .InvalidRegName ∧
      ¬ (Rfc.reg_name S s ∧ ¬ Rfc.IPv4address s)) ∧
    (Diag.validate_port s = .error k ↔ k = .InvalidPort ∧ ¬ Rfc.port s) ∧
    (Diag.validate_path S s = .error k ↔ k = .InvalidPath ∧ ¬ Rfc.path S s) ∧
    (Diag.validate_path_segment S s = .error k ↔ k = .InvalidPath ∧ ¬ Rfc.segment S s) ∧
    (Diag.validate_query S s = .error k ↔ k = .InvalidQuery ∧ ¬ Rfc.query S s) ∧
    (Diag.validate_fragment S s = .error k ↔ k = .InvalidFragment ∧ ¬ Rfc.fragment S s) := by
  have key : ∀ (b : Bool) (k0 : ErrorKind) (P : Prop), (b = true ↔ P) →
      (Diag.check b k0 = .error k ↔ k = k0 ∧ ¬ P) := by
    intro b k0 P h
    rw [Diag.check_error, ← h]
    cases b <;> simp
  exact ⟨key _ _ _ (C05_scheme s), key _ _ _ (C05_userinfo S s), key _ _ _ (host_iff S s).symm,
    key _ _ _ (C05_reg_name S s), key _ _ _ (C05_port s), key _ _ _ (C05_path S s), key _ _ _ (C05_path_segment S s),
    key _ _ _ (C05_query S s), key _ _ _ (C05_fragment S s)⟩

/-- The text of an error is `invalid IRI: ` and a description that determines the kind. -/
theorem C43_message_distinct (k k' : ErrorKind) (h : Diag.message k = Diag.message k') : k = k' := by
  have := List.append_cancel_left h
  revert this
  cases k <;> cases k' <;> decide +kernel

/-- The English texts users see (and may match in logs), one per kind. -/
theorem C43_message_text :
    [ErrorKind.InvalidScheme, .InvalidUserInfo, .InvalidHost, .InvalidRegName, .InvalidPort, .InvalidPath,
      .InvalidQuery, .InvalidFragment].map Diag.message =
      ["scheme", "userinfo", "host", "reg-name", "port", "path", "query", "fragment"].map
        (fun part => "invalid IRI: invalid ".toList ++ part.toList) ∧
    Diag.message .UnexpectedFragment = "invalid IRI: unexpected fragment".toList ∧
    Diag.message .UnexpectedAbsolute =
      "invalid IRI: expected a relative IRI but got an absolute IRI".toList ∧
    Diag.message .UnexpectedRelative =
      "invalid IRI: expected an absolute IRI but got a relative IRI".toList ∧
    Diag.message .InvalidUtf8 = "invalid IRI: invalid utf-8 bytes".toList := by
  decide +kernel

/-! ### Concrete cases -/

example : Diag.validate_uri .uri (chars! "foo/bar") = some (.error .UnexpectedRelative) := by
  decide +kernel
example : Diag.validate_uri .uri (chars! "1a:b") = some (.error .InvalidScheme) := by decide +kernel
example : Diag.validate_uri .uri (chars! "a://u<:@h[/p|?q#f") = some (.error .InvalidUserInfo) := by
  decide +kernel
example : Diag.validate_uri .uri (chars! "a://u@h:x/p|?q#f") = some (.error .InvalidHost) := by
  decide +kernel
example : Diag.validate_uri .uri (chars! "a://u@h/p|?q<#f") = some (.error .InvalidPath) := by
  decide +kernel
example : Diag.validate_absolute_uri .uri (chars! "a:p?q<#f") = some (.error .InvalidQuery) := by
  decide +kernel
example : Diag.validate_absolute_uri .uri (chars! "a:p?q#f<") = some (.error .UnexpectedFragment) := by
  decide +kernel
example : Diag.validate_uri .uri (chars! "a:p?q#f<") = some (.error .InvalidFragment) := by
  decide +kernel
example : Diag.validate_uri_reference .uri (chars! "1a:b") = some (.error .InvalidPath) := by
  decide +kernel
example : IriProblem .uri true (chars! "a://u@h/p|?q<#f") .InvalidPath := by
  obtain ⟨r, h1, _, h2⟩ := C43_iri_error .uri (chars! "a://u@h/p|?q<#f")
  have h3 : Diag.validate_uri .uri (chars! "a://u@h/p|?q<#f") = some (.error .InvalidPath) := by
    decide +kernel
  rw [h1] at h3
  exact (h2 _).1 (Option.some.inj h3)

end Verif
