import Verif.Lemmas.NoColon

/-! # C26: which values `remove_password_inline` breaks -/

namespace Verif

open Abnf Rfc

/-- The parts that are read when the second slash before the authority is missing. -/
def slashless (p : Parts) (a : AuthParts) : Parts :=
  { p with authority := none, path := '/' :: '@' :: (a.host ++ (optSuf [':'] a.port ++ p.path)) }

theorem slashless_valid_iff {S : Spec} {k : IriKind} {p : Parts} {a : AuthParts} (hv : p.Valid S)
    (hk : k.Fits p) (ha : p.authority = some a.recompose) (hav : a.Valid S) :
    k.validate S (slashless p a).recompose = some true ↔ ¬ IP_literal a.host := by
  have hA : authority S a.recompose := hv.authority _ ha
  have d := hv.delim
  have hcol : ∀ r, ¬ ColonInFirstSegment ('/' :: r) := by
    rintro r ⟨x, y, e, hx⟩
    cases x with
    | nil => simp at e
    | cons c x => simp only [List.cons_append, List.cons.injEq] at e; exact hx (by simp [← e.1])
  have hdel : (slashless p a).Delim := by
    refine ⟨d.scheme, (by intro x hx; cases hx), ?_, d.query, fun h => absurd rfl h, ?_, fun _ _ => hcol _⟩
    · have hno : ∀ c, (c = '/' ∨ c = '?' ∨ c = '#') → c ≠ '/' → c ≠ '@' → c ∉ p.path → c ∉ (slashless p a).path := by
        intro c h1 h2 h3 h4 hm
        simp only [slashless, List.mem_cons, List.mem_append] at hm
        rcases hm with hm | hm | hm | hm | hm
        · exact h2 hm
        · exact h3 hm
        · exact authority_not_mem hA h1 (by simp [AuthParts.recompose, hm])
        · exact authority_not_mem hA h1 (by simp [AuthParts.recompose, hm])
        · exact h4 hm
      exact ⟨hno _ (by simp) (by decide) (by decide) d.path.1, hno _ (by simp) (by decide) (by decide) d.path.2⟩
    · intro _ r e
      simp only [slashless, List.cons.injEq] at e
      exact absurd e.2.1 (by decide)
  constructor
  · intro h hip
    obtain ⟨q, hq, _, e⟩ := (kind_validate_iff S k _).1 h
    have hqp := recompose_inj hq.delim hdel e
    have hpath := path_iff.1 hq.path
    rw [hqp] at hpath
    obtain ⟨m, hm, _⟩ := (ip_literal_iff _).1 hip
    refine hpath.not_mem (d := '[') (by decide) (by decide) (by cases S <;> decide) ?_
    simp [slashless, hm]
  · intro hip
    have hreg : PC (regnameC S) a.host := by
      rcases (host_iff' a.host).1 hav.host with h | h
      · exact absurd ((ip_literal_iff _).2 h) hip
      · exact h
    have hhost : PC (pcharSlashC S) a.host := hreg.mono fun c hc => by
      simp only [regnameC, pcharSlashC, pcharC, Bool.or_eq_true] at hc ⊢
      rcases hc with h | h <;> simp [h]
    have hport : PC (pcharSlashC S) (optSuf [':'] a.port) := by
      cases hpo : a.port with
      | none => exact .nil
      | some x =>
        refine .chr (by decide) (by cases S <;> decide) ?_
        have hx := (port_iff x).1 (hav.port x hpo)
        clear hpo
        show PC (pcharSlashC S) x
        induction x with
        | nil => exact .nil
        | cons c x ih =>
          simp only [List.all_cons, Bool.and_eq_true] at hx
          refine .chr ?_ ?_ (ih hx.2)
          · rintro rfl; exact absurd hx.1 (by decide)
          · simp [pcharSlashC, pcharC, digit_iunreserved S hx.1]
    have hpath : path S (slashless p a).path := by
      rw [path_iff]
      refine .chr (by decide) (by cases S <;> decide) (.chr (by decide) (by cases S <;> decide) ?_)
      exact hhost.append (hport.append (path_iff.1 hv.path))
    refine (kind_validate_iff S k _).2 ⟨slashless p a, ?_, ?_, rfl⟩
    · refine ⟨hv.scheme, (by intro x hx; cases hx), hpath, hv.query, hv.fragment, fun h => absurd rfl h, ?_, fun _ _ => hcol _⟩
      intro _ r e
      simp only [slashless, List.cons.injEq] at e
      exact absurd e.2.1 (by decide)
    · cases k <;> exact hk

/-- **C26**, exactly which values `remove_password_inline()` breaks: on user information without a colon it
returns a valid value of the type, in release and in debug builds, unless that information ends in a
triplet or in a character that is not ASCII, or is empty before an IP literal.  (The value is wrong all the
same, see `C26_no_colon_exact`.) -/
theorem C26_no_colon_valid (debug : Bool) (S : Spec) (k : IriKind) (s : Str) (h : k.validate S s = some true)
    (p : Parts) (hp : p.Valid S ∧ p.recompose = s) (a : AuthParts) (ha : p.authority = some a.recompose)
    (hav : a.Valid S) (u : Str) (hu : a.userinfo = some u) (hc : ':' ∉ u) :
    (∃ t, remove_password_inline debug S k s = some t ∧ k.validate S t = some true) ↔ ¬ BreaksRemoval a u := by
  obtain ⟨x, c, y, hs, hx, hcat, h1, h2⟩ := C26_no_colon_exact S k s p hp a ha hav u hu hc
  obtain ⟨hv, rfl⟩ := hp
  obtain ⟨q, hqv, hk, hq⟩ := (kind_validate_iff S k _).1 h
  rw [recompose_inj hqv.delim hv.delim hq] at hk
  have hU := hav.userinfo u hu
  have ht : p.recompose = (preAuth p ++ u) ++ '@' :: ((a.host ++ optSuf [':'] a.port) ++ postAuth p) := by
    rw [recompose_userinfo ha hu]; simp
  have hnat : '@' ∉ preAuth p ++ u := by
    intro hm
    rcases List.mem_append.1 hm with hm | hm
    · exact preAuth_no_at hv hm
    · exact userinfo_no_at hU hm
  have hnat2 : '@' ∉ x ++ [c] := by simp [hx, Ne.symm hcat]
  have hs' : p.recompose = (x ++ [c]) ++ '@' :: y := by rw [hs]; simp
  obtain ⟨e1, e2⟩ := cut_unique hnat hnat2 (ht.symm.trans hs')
  have key : (∃ t, remove_password_inline debug S k p.recompose = some t ∧ k.validate S t = some true) ↔
      c.toNat < 128 ∧ k.validate S (x ++ '@' :: y) = some true := by
    cases debug
    · rw [h1]
      by_cases hcc : c.toNat < 128 <;> simp [hcc]
    · rw [h2]
      by_cases hcc : c.toNat < 128 ∧ k.validate S (x ++ '@' :: y) = some true
      · simp [hcc]
      · rw [if_neg hcc]; simp [hcc]
  rw [key]
  by_cases hn : u = []
  · subst hn
    have e3 : x = optPre p.scheme [':'] ++ ['/'] ∧ c = '/' := by
      have : x ++ [c] = (optPre p.scheme [':'] ++ ['/']) ++ ['/'] := by rw [← e1]; simp [preAuth]
      exact ⟨List.append_inj_left' this rfl, by simpa using List.append_inj_right' this rfl⟩
    have e4 : x ++ '@' :: y = (slashless p a).recompose := by
      rw [e3.1, ← e2]
      simp [slashless, Parts.recompose, postAuth, optSuf]
    rw [e4, e3.2, slashless_valid_iff hv hk ha hav]
    unfold BreaksRemoval
    constructor
    · rintro ⟨_, hip⟩ (⟨_, h⟩ | ⟨v, d, h, _⟩ | ⟨v, d, d', h⟩)
      · exact hip h
      · simp at h
      · simp at h
    · intro h
      exact ⟨by decide, fun hip => h (.inl ⟨rfl, hip⟩)⟩
  · obtain ⟨v, d, rfl⟩ : ∃ v d, u = v ++ [d] := ⟨_, _, (List.dropLast_concat_getLast hn).symm⟩
    have e3 : x = preAuth p ++ v ∧ c = d := by
      have : x ++ [c] = (preAuth p ++ v) ++ [d] := by rw [← e1]; simp
      exact ⟨List.append_inj_left' this rfl, by simpa using List.append_inj_right' this rfl⟩
    obtain ⟨rfl, rfl⟩ := e3
    have e4 : preAuth p ++ v ++ '@' :: y = withUserinfo p a v := by
      rw [withUserinfo_text, ← e2]; simp
    have hnd : '@' ∉ v ∧ '/' ∉ v ∧ '?' ∉ v ∧ '#' ∉ v := by
      have hP := (userinfo_iff S _).1 hU
      have : ∀ d, d ≠ '%' → isHex d = false → userinfoC S d = false → d ∉ v :=
        fun d h1 h2 h3 hm => hP.not_mem h1 h2 h3 (by simp [hm])
      refine ⟨this _ ?_ ?_ ?_, this _ ?_ ?_ ?_, this _ ?_ ?_ ?_, this _ ?_ ?_ ?_⟩ <;> cases S <;> decide
    rw [e4, withUserinfo_valid_iff hv hk ha hav hnd, userinfo_iff,
      PC_dropLast ((userinfo_iff S _).1 hU) v c rfl]
    unfold BreaksRemoval
    constructor
    · rintro ⟨h1, h2⟩ (⟨h, _⟩ | ⟨v', d', h, h3⟩ | h)
      · exact hn h
      · have := (List.append_inj_right' h rfl)
        simp only [List.cons.injEq, and_true] at this
        rw [this] at h1
        omega
      · exact h2 h
    · intro h
      refine ⟨?_, fun h2 => h (.inr (.inr h2))⟩
      apply Classical.byContradiction
      intro h3
      exact h (.inr (.inl ⟨v, c, rfl, by omega⟩))

/-- A case of each kind. -/
example :
    remove_password_inline true .uri .iri (chars! "http://%41@h/") = none ∧
    remove_password_inline false .uri .iri (chars! "http://@[::1]/") = some (chars! "http:/@[::1]/") ∧
    validate_uri .uri (chars! "http:/@[::1]/") = some false ∧
    remove_password_inline true .uri .iri (chars! "http://@h/") = some (chars! "http:/@h/") := by
  decide +kernel

end Verif
