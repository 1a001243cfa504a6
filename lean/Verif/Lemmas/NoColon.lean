import Verif.Props.Edit

/-! # The last character of user information -/

namespace Verif

open Abnf Rfc

/-- Without its last character a sequence of characters and triplets is again one, unless it ends in a
triplet. -/
theorem PC_dropLast {p : Char → Bool} {s : Str} (h : PC p s) : ∀ (v : Str) (c : Char), s = v ++ [c] →
    (PC p v ↔ ¬ ∃ w x y, s = w ++ ['%', x, y]) := by
  induction h with
  | nil => intro v c e; simp at e
  | @chr d r hd hp hr ih =>
    intro v c e
    cases v with
    | nil =>
      simp only [List.nil_append, List.cons.injEq] at e
      obtain ⟨rfl, rfl⟩ := e
      refine ⟨fun _ => ?_, fun _ => .nil⟩
      rintro ⟨w, x, y, e⟩
      have := congrArg List.length e
      simp at this
    | cons d' v =>
      simp only [List.cons_append, List.cons.injEq] at e
      obtain ⟨rfl, e⟩ := e
      rw [PC_cons hd, ih v c e]
      refine ⟨fun h1 => ?_, fun h1 => ⟨hp, fun h2 => ?_⟩⟩
      · rintro ⟨w, x, y, e2⟩
        cases w with
        | nil => simp only [List.nil_append, List.cons.injEq] at e2; exact hd e2.1
        | cons d2 w =>
          simp only [List.cons_append, List.cons.injEq] at e2
          exact h1.2 ⟨w, x, y, e2.2⟩
      · obtain ⟨w, x, y, e2⟩ := h2
        exact h1 ⟨d :: w, x, y, by rw [e2]; rfl⟩
  | @pct x y r hx hy hr ih =>
    intro v c e
    by_cases hn : r = []
    · subst hn
      have e2 : v = ['%', x] ∧ c = y := by
        have := congrArg List.dropLast e
        have h2 := congrArg List.getLast? e
        simp at this h2
        exact ⟨this.symm, h2.symm⟩
      obtain ⟨rfl, rfl⟩ := e2
      refine ⟨fun h => ?_, fun h => absurd ⟨[], x, c, rfl⟩ h⟩
      cases h with
      | chr h _ _ => exact absurd rfl h
    · obtain ⟨r', d, rfl⟩ : ∃ r' d, r = r' ++ [d] := ⟨_, _, (List.dropLast_concat_getLast hn).symm⟩
      have e2 : v = '%' :: x :: y :: r' ∧ c = d := by
        have h1 := congrArg List.dropLast e
        have h2 := congrArg List.getLast? e
        have e3 : '%' :: x :: y :: (r' ++ [d]) = ('%' :: x :: y :: r') ++ [d] := rfl
        rw [e3] at h1 h2
        simp only [List.dropLast_concat, List.getLast?_append, List.getLast?_singleton, Option.some_or,
          Option.some.injEq] at h1 h2
        exact ⟨h1.symm, h2.symm⟩
      obtain ⟨rfl, rfl⟩ := e2
      rw [PC_pct, ih r' c rfl]
      refine ⟨fun h1 => ?_, fun h1 => ⟨hx, hy, fun h2 => ?_⟩⟩
      · rintro ⟨w, x2, y2, e2⟩
        match w with
        | [] =>
          have := congrArg List.length e2
          simp at this
        | [a] =>
          simp only [List.cons_append, List.nil_append, List.cons.injEq] at e2
          have := e2.2.1
          rw [this] at hx
          exact absurd hx (by decide)
        | [a, b] =>
          simp only [List.cons_append, List.nil_append, List.cons.injEq] at e2
          have := e2.2.2.1
          rw [this] at hy
          exact absurd hy (by decide)
        | a :: b :: d2 :: w =>
          simp only [List.cons_append, List.cons.injEq] at e2
          exact h1.2.2 ⟨w, x2, y2, e2.2.2.2⟩
      · obtain ⟨w, x2, y2, e2⟩ := h2
        exact h1 ⟨'%' :: x :: y :: w, x2, y2, by rw [e2]; rfl⟩

theorem preAuth_no_at {S : Spec} {p : Parts} (hv : p.Valid S) : '@' ∉ preAuth p := by
  intro h
  unfold preAuth at h
  rcases List.mem_append.1 h with h | h
  · cases hs : p.scheme with
    | none => rw [hs] at h; cases h
    | some sc =>
      rw [hs] at h
      simp only [optPre, List.mem_append, List.mem_singleton] at h
      rcases h with h | h
      · exact scheme_not_mem (hv.scheme sc hs) (by decide) h
      · exact absurd h (by decide)
  · revert h; decide

/-- A userinfo is read back from an authority. -/
theorem authority_userinfo {S : Spec} {u i : Str} (hu : '@' ∉ u) (h : authority S (u ++ '@' :: i)) :
    userinfo S u := by
  rw [authority_iff, validate_authority_eq, find_split_hole_some.2 ⟨rfl, hu⟩] at h
  simp only [Bool.and_eq_true] at h
  exact (validate_userinfo_iff S u).2 h.1

/-- The text with other user information is valid only if the user information is. -/
theorem withUserinfo_valid_iff {S : Spec} {k : IriKind} {p : Parts} {a : AuthParts} (hv : p.Valid S)
    (hk : k.Fits p) (ha : p.authority = some a.recompose) (hav : a.Valid S) {u : Str}
    (hd : '@' ∉ u ∧ '/' ∉ u ∧ '?' ∉ u ∧ '#' ∉ u) :
    k.validate S (withUserinfo p a u) = some true ↔ userinfo S u := by
  refine ⟨fun h => ?_, fun h => withUserinfo_valid hv hk ha hav h⟩
  obtain ⟨q, hq, _, e⟩ := (kind_validate_iff S k _).1 h
  have hav' : ∀ d, (d = '/' ∨ d = '?' ∨ d = '#') → d ∉ a.host ++ optSuf [':'] a.port := by
    intro d hd hm
    have hA : authority S a.recompose := hv.authority _ ha
    refine authority_not_mem hA hd ?_
    unfold AuthParts.recompose
    exact List.mem_append_right _ hm
  have hdel : ({ p with authority := some ({ a with userinfo := some u } : AuthParts).recompose } : Parts).Delim := by
    have d := hv.delim
    refine ⟨d.scheme, ?_, d.path, d.query, fun _ => d.withAuthority (by simp [ha]), ?_, ?_⟩
    · intro x hx
      cases hx
      have hno : ∀ d, (d = '/' ∨ d = '?' ∨ d = '#') → d ∉ u → d ≠ '@' →
          d ∉ ({ a with userinfo := some u } : AuthParts).recompose := by
        intro d h1 h2 h3 hm
        simp only [AuthParts.recompose, optPre, List.append_assoc, List.singleton_append, List.mem_append,
          List.mem_cons] at hm
        rcases hm with hm | hm | hm | hm
        · exact h2 hm
        · exact h3 hm
        · exact hav' d h1 (by simp [hm])
        · exact hav' d h1 (by simp [hm])
      exact ⟨hno _ (by simp) hd.2.1 (by decide), hno _ (by simp) hd.2.2.1 (by decide),
        hno _ (by simp) hd.2.2.2 (by decide)⟩
    · intro e; cases e
    · intro _ e; cases e
  have hqp := recompose_inj hq.delim hdel e
  have hqa : q.authority = some ({ a with userinfo := some u } : AuthParts).recompose := by rw [hqp]
  have := hq.authority _ hqa
  rw [show ({ a with userinfo := some u } : AuthParts).recompose = u ++ '@' :: (a.host ++ optSuf [':'] a.port)
    from by simp [AuthParts.recompose, optPre]] at this
  exact authority_userinfo hd.1 this

end Verif
