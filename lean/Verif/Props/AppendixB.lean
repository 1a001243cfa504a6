import Verif.Spec.AppendixB
import Verif.Props.Components

/-!
# C67: the accessors return the groups of the regular expression of RFC 3986 Appendix B
-/

namespace Verif

open Rfc AppendixB

theorem star_greedy {α : Type} {p : Char → Bool} {k : Str → Option α} {a b : Str} {r : α}
    (ha : ∀ c ∈ a, p c = true) (hb : ∀ c t, b = c :: t → p c = false) (h : k b = some r) :
    starMatch p k (a ++ b) = some r := by
  induction a with
  | nil =>
    cases b with
    | nil => exact h
    | cons c t => simp only [List.nil_append, starMatch, hb c t rfl, Bool.false_eq_true, if_false]; exact h
  | cons c a ih =>
    simp only [List.cons_append, starMatch, ha c (by simp), if_true]
    rw [ih fun x hx => ha x (by simp [hx])]
    rfl

theorem star_fails {α : Type} {p : Char → Bool} {k : Str → Option α} {s : Str}
    (h : ∀ a b, s = a ++ b → (∀ c ∈ a, p c = true) → k b = none) : starMatch p k s = none := by
  induction s with
  | nil => exact h [] [] rfl (by simp)
  | cons c r ih =>
    have h0 := h [] (c :: r) rfl (by simp)
    simp only [starMatch]
    split
    · next hc =>
      rw [ih, h0]; rfl
      intro a b e ha
      refine h (c :: a) b (by rw [e]; rfl) ?_
      intro x hx
      rcases List.mem_cons.1 hx with rfl | hx
      · exact hc
      · exact ha x hx
    · exact h0

theorem take_consumed (a b : Str) : (a ++ b).take ((a ++ b).length - b.length) = a := by
  simp

theorem noneOf_mem {l : List Char} {a : Str} (h : ∀ d ∈ l, d ∉ a) : ∀ c ∈ a, noneOf l c = true := by
  intro c hc
  simp only [noneOf, Bool.not_eq_true', List.contains_eq_mem, decide_eq_false_iff_not]
  exact fun hl => h c hl hc

/-- The groups after an optional component. -/
def setComponent (g : Groups) (n m : Nat) (d : Char) (o : Option Str) : Groups :=
  match o with
  | none => g
  | some x => Groups.set (Groups.set g m x) n (d :: x)

theorem colon_in_path {w t p r : Str} (h : w ++ ':' :: t = p ++ r) (h1 : '?' ∉ w) (h2 : '#' ∉ w)
    (hr : ∀ c u, r = c :: u → c = '?' ∨ c = '#') : ∃ u, p = w ++ ':' :: u := by
  rcases List.append_eq_append_iff.1 h with ⟨a, e1, e2⟩ | ⟨a, e1, e2⟩
  · cases a with
    | nil =>
      rcases hr ':' t (by simpa using e2.symm) with e | e <;> cases e
    | cons c u => cases e2; exact ⟨u, e1⟩
  · exfalso
    cases a with
    | nil =>
      rcases hr ':' t (by simpa using e2) with e | e <;> cases e
    | cons c u =>
      rcases hr c _ e2 with rfl | rfl
      · exact h1 (by rw [e1]; simp)
      · exact h2 (by rw [e1]; simp)

section
variable {α : Type} {p : Char → Bool} {k : Str → Groups → Option α} {x b : Str} {g : Groups} {r : α}

theorem run_group_star {n : Nat} (hx : ∀ c ∈ x, p c = true) (hb : ∀ c t, b = c :: t → p c = false)
    (h : k b (Groups.set g n x) = some r) : Re.run (.group n (.star p)) (x ++ b) g k = some r := by
  simp only [Re.run]
  refine star_greedy hx hb ?_
  rw [take_consumed]; exact h

theorem run_opt {e : Re} {s : Str} (h : e.run s g k = some r) : Re.run (.opt e) s g k = some r := by
  simp only [Re.run, h]; rfl

theorem run_opt_skip {e : Re} {s : Str} (h : e.run s g k = none) : Re.run (.opt e) s g k = k s g := by
  simp only [Re.run, h]; rfl

theorem run_lit {c : Char} {s : Str} : Re.run (lit c) (c :: s) g k = k s g := by
  simp [Re.run, lit]

theorem run_lit_fails {c : Char} {s : Str} (h : ∀ t, s ≠ c :: t) : Re.run (lit c) s g k = none := by
  cases s with
  | nil => rfl
  | cons d t =>
    simp only [Re.run, lit]
    rw [if_neg]
    intro e
    simp only [beq_iff_eq] at e
    subst e
    exact h t rfl

/-- An optional component after its delimiter. -/
theorem run_component {n m : Nat} {d : Char} {o : Option Str} (ho : ∀ x, o = some x → ∀ c ∈ x, p c = true)
    (hb : ∀ c t, b = c :: t → p c = false ∧ c ≠ d)
    (h : k b (setComponent g n m d o) = some r) :
    Re.run (.opt (.group n (.seq (lit d) (.group m (.star p))))) (optSuf [d] o ++ b) g k = some r := by
  cases o with
  | none =>
    rw [run_opt_skip]
    · exact h
    · simp only [Re.run]
      exact run_lit_fails (fun t e => (hb d t e).2 rfl)
  | some x =>
    refine run_opt ?_
    simp only [optSuf, List.cons_append, List.nil_append]
    rw [Re.run, Re.run, run_lit]
    refine run_group_star (ho x rfl) (fun c t e => (hb c t e).1) ?_
    rw [show d :: (x ++ b) = (d :: x) ++ b from rfl, take_consumed]
    exact h

end

/-- Components as the regular expression cuts them. -/
structure Cut (p : Parts) : Prop where
  scheme : ∀ x, p.scheme = some x → x ≠ [] ∧ ':' ∉ x ∧ '/' ∉ x ∧ '?' ∉ x ∧ '#' ∉ x
  authority : ∀ x, p.authority = some x → '/' ∉ x ∧ '?' ∉ x ∧ '#' ∉ x
  path : '?' ∉ p.path ∧ '#' ∉ p.path
  query : ∀ x, p.query = some x → '#' ∉ x
  withAuthority : p.authority ≠ none → p.path = [] ∨ ∃ r, p.path = '/' :: r
  withoutAuthority : p.authority = none → ∀ r, p.path ≠ '/' :: '/' :: r
  withoutScheme : p.scheme = none → p.authority = none → ∀ w t, p.path = w ++ ':' :: t → w ≠ [] →
    ∃ d ∈ [':', '/', '?', '#'], d ∈ w

theorem Parts.Delim.cut {p : Parts} (d : p.Delim) : Cut p := by
  refine ⟨d.scheme, d.authority, d.path, d.query, d.withAuthority, d.withoutAuthority, fun h1 h2 w t e _ => ?_⟩
  by_cases hw : '/' ∈ w
  · exact ⟨'/', by simp, hw⟩
  · exact absurd ⟨w, t, e, hw⟩ (d.withoutScheme h1 h2)

/-- The regular expression on text that is cut into components; `f` and `r` are what the last group makes of its
end. -/
theorem groups_cut {p : Parts} (d : Cut p) {F : Str} {r : Str} {f : Option Str} (hF : ∀ c t, F = c :: t → c = '#')
    (hr : ∀ g, Re.run (.opt (.group 8 (.seq (lit '#') (.group 9 (.star (noneOf ['\n'])))))) F g (fun r g => some (g, r)) =
      some (setComponent g 8 9 '#' f, r)) :
    ∃ g : Groups, groups (optPre p.scheme [':'] ++ (optSuf ['/', '/'] p.authority ++
        (p.path ++ (optSuf ['?'] p.query ++ F)))) = some (g, r) ∧
      g 2 = p.scheme ∧ g 4 = p.authority ∧ g 5 = some p.path ∧ g 7 = p.query ∧ g 9 = f ∧
      g 1 = p.scheme.map (· ++ [':']) ∧ g 3 = p.authority.map (['/', '/'] ++ ·) ∧ g 6 = p.query.map ('?' :: ·) ∧
      g 8 = f.map ('#' :: ·) := by
  let g1 : Groups := match p.scheme with
    | none => fun _ => none
    | some x => Groups.set (Groups.set (fun _ => none) 2 x) 1 (x ++ [':'])
  let g2 : Groups := match p.authority with
    | none => g1
    | some x => Groups.set (Groups.set g1 4 x) 3 (['/', '/'] ++ x)
  let g3 : Groups := Groups.set g2 5 p.path
  let g4 : Groups := setComponent g3 6 7 '?' p.query
  let g5 : Groups := setComponent g4 8 9 '#' f
  have h4 := hr g4
  have h3 : Re.run (.seq (.opt (.group 6 (.seq (lit '?') (.group 7 (.star (noneOf ['#']))))))
      (.opt (.group 8 (.seq (lit '#') (.group 9 (.star (noneOf ['\n'])))))))
      (optSuf ['?'] p.query ++ F) g3 (fun r g => some (g, r)) = some (g5, r) := by
    rw [Re.run]
    refine run_component (fun x hx => noneOf_mem (by simpa using d.query x hx)) ?_ h4
    intro c t e
    obtain rfl := hF c t e
    exact ⟨by decide, by decide⟩
  have h2 : Re.run (.seq (.group 5 (.star (noneOf ['?', '#'])))
      (.seq (.opt (.group 6 (.seq (lit '?') (.group 7 (.star (noneOf ['#']))))))
      (.opt (.group 8 (.seq (lit '#') (.group 9 (.star (noneOf ['\n']))))))))
      (p.path ++ (optSuf ['?'] p.query ++ F)) g2 (fun r g => some (g, r)) = some (g5, r) := by
    rw [Re.run]
    refine run_group_star (noneOf_mem (by simpa using d.path)) ?_ h3
    intro c t e
    cases hq : p.query with
    | some x => rw [hq] at e; cases e; decide
    | none =>
      rw [hq] at e
      obtain rfl := hF c t e
      decide
  have rest : ∀ c t, p.path ++ (optSuf ['?'] p.query ++ F) = c :: t →
      (c ∈ p.path ∧ ∃ u, p.path = c :: u) ∨ c = '?' ∨ c = '#' := by
    intro c t e
    cases hp : p.path with
    | cons x u => rw [hp] at e; cases e; exact .inl ⟨by simp, _, rfl⟩
    | nil =>
      cases hq : p.query with
      | some x => rw [hp, hq] at e; cases e; exact .inr (.inl rfl)
      | none =>
        rw [hp, hq] at e
        exact .inr (.inr (hF c t e))
  have h1 : Re.run (.seq (.opt (.group 3 (.seq (lit '/') (.seq (lit '/') (.group 4 (.star (noneOf ['/', '?', '#'])))))))
      (.seq (.group 5 (.star (noneOf ['?', '#'])))
      (.seq (.opt (.group 6 (.seq (lit '?') (.group 7 (.star (noneOf ['#']))))))
      (.opt (.group 8 (.seq (lit '#') (.group 9 (.star (noneOf ['\n'])))))))))
      (optSuf ['/', '/'] p.authority ++ (p.path ++ (optSuf ['?'] p.query ++ F))) g1
      (fun r g => some (g, r)) = some (g5, r) := by
    rw [Re.run]
    cases ha : p.authority with
    | none =>
      have e2 : g2 = g1 := by simp only [g2, ha]
      rw [e2] at h2
      rw [run_opt_skip]
      · exact h2
      · rw [Re.run, Re.run]
        show Re.run (lit '/') (p.path ++ (optSuf ['?'] p.query ++ F)) g1 _ = none
        cases hp : p.path with
        | nil =>
          refine run_lit_fails (fun t e => ?_)
          rcases rest '/' t (by rw [hp]; exact e) with ⟨_, u, e⟩ | e | e
          · rw [hp] at e; cases e
          · cases e
          · cases e
        | cons c u =>
          by_cases hc : c = '/'
          · subst hc
            rw [List.cons_append, run_lit, Re.run]
            refine run_lit_fails (fun t e => ?_)
            cases u with
            | cons c' u' => cases e; exact d.withoutAuthority ha _ hp
            | nil =>
              rcases rest '/' ('/' :: t) (by rw [hp, List.cons_append, e]) with ⟨_, u, e'⟩ | e' | e'
              · cases hq : p.query with
                | some x => rw [hq] at e; cases e
                | none =>
                  rw [hq] at e
                  cases hF _ _ e
              · cases e'
              · cases e'
          · exact run_lit_fails (fun t e => by cases e; exact hc rfl)
    | some x =>
      refine run_opt ?_
      rw [show optSuf ['/', '/'] (some x) ++ (p.path ++ (optSuf ['?'] p.query ++ F)) =
        '/' :: '/' :: (x ++ (p.path ++ (optSuf ['?'] p.query ++ F))) from rfl]
      rw [Re.run, Re.run, run_lit, Re.run, run_lit]
      refine run_group_star (noneOf_mem (by simpa using d.authority x ha)) ?_ ?_
      · intro c t e
        rcases rest c t e with ⟨_, u, e'⟩ | rfl | rfl
        · rcases d.withAuthority (by simp [ha]) with h | ⟨v, h⟩
          · rw [h] at e'; cases e'
          · rw [h] at e'; cases e'; decide
        · decide
        · decide
      · rw [show '/' :: '/' :: (x ++ (p.path ++ (optSuf ['?'] p.query ++ F))) =
          (['/', '/'] ++ x) ++ (p.path ++ (optSuf ['?'] p.query ++ F)) from rfl, take_consumed]
        have e2 : g2 = Groups.set (Groups.set g1 4 x) 3 (['/', '/'] ++ x) := by simp only [g2, ha]
        rw [← e2]
        exact h2
  refine ⟨g5, ?_, ?_⟩
  · unfold groups regex
    rw [Re.run]
    cases hs : p.scheme with
    | none =>
      have e1 : g1 = fun _ => none := by simp only [g1, hs]
      rw [e1] at h1
      rw [run_opt_skip]
      · exact h1
      · show Re.run (.group 1 (.seq (.group 2 (.plus (noneOf [':', '/', '?', '#']))) (lit ':')))
          (optSuf ['/', '/'] p.authority ++ (p.path ++ (optSuf ['?'] p.query ++ F))) _ _ = none
        simp only [Re.run]
        cases ht : optSuf ['/', '/'] p.authority ++ (p.path ++ (optSuf ['?'] p.query ++ F)) with
        | nil => rfl
        | cons c r =>
          simp only
          split
          · next hc =>
            refine star_fails ?_
            intro a b e ha
            refine run_lit_fails (fun t e' => ?_)
            subst e e'
            have hw : ∀ x ∈ c :: a, noneOf [':', '/', '?', '#'] x = true := by
              intro x hx
              rcases List.mem_cons.1 hx with rfl | hx
              · exact hc
              · exact ha x hx
            have no : ∀ x, x ∈ [':', '/', '?', '#'] → x ∉ c :: a := by
              intro x hx hm
              have := hw x hm
              simp only [noneOf, Bool.not_eq_true', List.contains_eq_mem, decide_eq_false_iff_not] at this
              exact this hx
            cases hau : p.authority with
            | some x =>
              rw [hau] at ht
              have : '/' = c := (List.cons.inj ht).1
              subst this; exact no '/' (by simp) (by simp)
            | none =>
              rw [hau] at ht
              have hr : ∀ c u, optSuf ['?'] p.query ++ F = c :: u → c = '?' ∨ c = '#' := by
                intro c u e
                cases hq : p.query with
                | some x => rw [hq] at e; cases e; exact .inl rfl
                | none =>
                  rw [hq] at e
                  exact .inr (hF _ _ e)
              obtain ⟨u, hu⟩ := colon_in_path (w := c :: a) (t := t) (p := p.path) ht.symm (no _ (by simp)) (no _ (by simp)) hr
              obtain ⟨x, hx, hm⟩ := d.withoutScheme hs hau _ u hu (by simp)
              exact no x hx hm
          · rfl
    | some x =>
      refine run_opt ?_
      have e1 : g1 = Groups.set (Groups.set (fun _ => none) 2 x) 1 (x ++ [':']) := by simp only [g1, hs]
      rw [e1] at h1
      obtain ⟨hne, h⟩ := d.scheme x hs
      have hx : ∀ c ∈ x, noneOf [':', '/', '?', '#'] c = true := noneOf_mem (by simpa using h)
      rw [show optPre (some x) [':'] ++ (optSuf ['/', '/'] p.authority ++
          (p.path ++ (optSuf ['?'] p.query ++ F))) =
        (x ++ [':']) ++ (optSuf ['/', '/'] p.authority ++
          (p.path ++ (optSuf ['?'] p.query ++ F))) from rfl]
      cases x with
      | nil => exact absurd rfl hne
      | cons c u =>
        rw [Re.run, Re.run, Re.run]
        simp only [List.cons_append, List.append_assoc, List.nil_append]
        rw [Re.run]
        simp only [hx c (by simp), if_true]
        refine star_greedy (fun y hy => hx y (by simp [hy])) (by rintro y t ⟨⟩; decide) ?_
        rw [run_lit]
        rw [show ∀ R : Str, c :: (u ++ ':' :: R) = (c :: (u ++ [':'])) ++ R from by intro R; simp, take_consumed]
        rw [show ∀ R : Str, c :: (u ++ [':']) ++ R = (c :: u) ++ (':' :: R) from by intro R; simp, take_consumed]
        exact h1
  · cases hs : p.scheme <;> cases ha : p.authority <;> cases hq : p.query <;> cases hf : f <;>
      simp [g5, g4, g3, g2, g1, setComponent, hs, ha, hq, hf, Groups.set]

/-- The regular expression on a recomposition. -/
theorem groups_recompose {p : Parts} (d : Cut p) (hn : ∀ x, p.fragment = some x → '\n' ∉ x) :
    ∃ g : Groups, groups p.recompose = some (g, []) ∧ g 2 = p.scheme ∧ g 4 = p.authority ∧ g 5 = some p.path ∧
      g 7 = p.query ∧ g 9 = p.fragment ∧
      g 1 = p.scheme.map (· ++ [':']) ∧ g 3 = p.authority.map (['/', '/'] ++ ·) ∧ g 6 = p.query.map ('?' :: ·) ∧
      g 8 = p.fragment.map ('#' :: ·) := by
  refine groups_cut d (F := optSuf ['#'] p.fragment) ?_ ?_
  · intro c t e
    cases hf : p.fragment with
    | none => rw [hf] at e; cases e
    | some x => rw [hf] at e; cases e; rfl
  · intro g
    have := run_component (n := 8) (m := 9) (d := '#') (p := noneOf ['\n']) (o := p.fragment) (b := []) (g := g)
      (k := fun r g => some (g, r)) (r := (setComponent g 8 9 '#' p.fragment, []))
      (fun x hx => noneOf_mem (by simpa using hn x hx)) (by simp) rfl
    simpa using this

/-- With an end of line in the last component the match stops there. -/
theorem groups_newline {p : Parts} (d : Cut p) {x : Str} (hf : p.fragment = some x) (hn : '\n' ∈ x) :
    ∃ (g : Groups) (c : Char) (t : Str), groups p.recompose = some (g, c :: t) := by
  obtain ⟨a, b, rfl, ha⟩ := List.eq_append_cons_of_mem hn
  obtain ⟨g, e, -⟩ := groups_cut d (F := optSuf ['#'] p.fragment) (r := '\n' :: b) (f := some a) (by
      intro c t e
      rw [hf] at e; cases e; rfl) (by
    intro g
    have := run_component (n := 8) (m := 9) (d := '#') (p := noneOf ['\n']) (o := some a) (b := '\n' :: b) (g := g)
      (k := fun r g => some (g, r)) (r := (setComponent g 8 9 '#' (some a), '\n' :: b))
      (by rintro x ⟨⟩; exact noneOf_mem (by simpa using ha)) (by rintro c t ⟨⟩; decide) rfl
    rw [hf]
    exact this)
  exact ⟨g, _, _, e⟩

/-- **C67**: on every valid reference the accessors return the groups that RFC 3986 Appendix B names: the scheme
is `$2`, the authority `$4`, the path `$5`, the query `$7` and the fragment `$9`, and the match takes the whole
text. -/
theorem C67_appendix_b (S : Spec) (s : Str) (h : validate_uri_reference S s = some true) :
    ∃ g : Groups, groups s = some (g, []) ∧
      RiReferenceStr.scheme_str s = g 2 ∧ RiReferenceStr.authority_str s = g 4 ∧
      some (RiReferenceStr.path_str s) = g 5 ∧ RiReferenceStr.query_str s = some (g 7) ∧
      RiReferenceStr.fragment_str s = g 9 := by
  obtain ⟨p, hv, rfl⟩ := reference_parts h
  have d := hv.delim
  obtain ⟨g, e, h2, h4, h5, h7, h9, -⟩   := groups_recompose d.cut (fun x hx => by
    have := hv.fragment x hx
    rw [fragment_iff] at this
    exact this.not_mem (by decide) (by decide) (by cases S <;> decide))
  exact ⟨g, e, d.extract_scheme_eq.trans h2.symm, d.extract_authority_eq.trans h4.symm,
    (congrArg some d.extract_path_eq).trans h5.symm, d.extract_query_eq.trans (congrArg some h7.symm),
    d.extract_fragment_eq.trans h9.symm⟩

theorem cut_at (q : Char → Bool) (s : Str) :
    ∃ a b, s = a ++ b ∧ (∀ c ∈ a, q c = true) ∧ ∀ c t, b = c :: t → q c = false := by
  refine ⟨s.takeWhile q, s.dropWhile q, List.takeWhile_append_dropWhile.symm,
    fun c hc => List.all_eq_true.1 List.all_takeWhile c hc, ?_⟩
  intro c t e
  cases h : q c with
  | false => rfl
  | true =>
    have := List.head_dropWhile_not (l := s) (p := q) (by rw [e]; simp)
    simp only [e, List.head_cons] at this
    rw [h] at this; cases this

theorem noneOf_not_mem {l : List Char} {a : Str} (h : ∀ c ∈ a, noneOf l c = true) {d : Char} (hd : d ∈ l) : d ∉ a := by
  intro hm
  have := h d hm
  simp only [noneOf, Bool.not_eq_true', List.contains_eq_mem, decide_eq_false_iff_not] at this
  exact this hd

theorem noneOf_false {l : List Char} {c : Char} (h : noneOf l c = false) : c ∈ l := by
  simpa [noneOf] using h

/-- The regular expression cuts every text. -/
theorem cut_exists (s : Str) : ∃ p : Parts, Cut p ∧ p.recompose = s := by
  -- the part after the scheme
  obtain ⟨sch, s1, e1, hsch, hcolon⟩ : ∃ (sch : Option Str) (s1 : Str), s = optPre sch [':'] ++ s1 ∧
      (∀ x, sch = some x → x ≠ [] ∧ ':' ∉ x ∧ '/' ∉ x ∧ '?' ∉ x ∧ '#' ∉ x) ∧
      (sch = none → ∀ w t, s1 = w ++ ':' :: t → w ≠ [] → ∃ d ∈ [':', '/', '?', '#'], d ∈ w) := by
    obtain ⟨a, b, e, ha, hb⟩ := cut_at (noneOf [':', '/', '?', '#']) s
    have na : ∀ d ∈ [':', '/', '?', '#'], d ∉ a := fun d hd => noneOf_not_mem ha hd
    by_cases hs : a ≠ [] ∧ ∃ t, b = ':' :: t
    · obtain ⟨hne, t, rfl⟩ := hs
      refine ⟨some a, t, by simp [e, optPre], ?_, by simp⟩
      rintro x ⟨⟩
      exact ⟨hne, na _ (by simp), na _ (by simp), na _ (by simp), na _ (by simp)⟩
    · refine ⟨none, s, rfl, by simp, fun _ w t hw hne => ?_⟩
      rw [e] at hw
      rcases List.append_eq_append_iff.1 hw with ⟨u, e1, e2⟩ | ⟨u, e1, e2⟩
      · cases u with
        | nil => exact absurd ⟨by rw [List.append_nil] at e1; rw [← e1]; exact hne, t, by simpa using e2⟩ hs
        | cons c v => exact ⟨c, noneOf_false (hb c _ e2), by rw [e1]; simp⟩
      · cases u with
        | nil => exact absurd ⟨by rw [e1]; simpa using hne, t, by simpa using e2.symm⟩ hs
        | cons c v =>
          cases e2
          exact absurd (by rw [e1]; simp) (na ':' (by simp))
  obtain ⟨au, s2, rfl, hau, hau1, hau2⟩ : ∃ (au : Option Str) (s2 : Str), s1 = optSuf ['/', '/'] au ++ s2 ∧
      (∀ x, au = some x → '/' ∉ x ∧ '?' ∉ x ∧ '#' ∉ x) ∧
      (au ≠ none → ∀ c t, s2 = c :: t → c = '/' ∨ c = '?' ∨ c = '#') ∧ (au = none → ∀ r, s2 ≠ '/' :: '/' :: r) := by
    by_cases hs : ∃ r, s1 = '/' :: '/' :: r
    · obtain ⟨r, rfl⟩ := hs
      obtain ⟨a, b, rfl, ha, hb⟩ := cut_at (noneOf ['/', '?', '#']) r
      refine ⟨some a, b, rfl, ?_, ?_, by simp⟩
      · rintro x ⟨⟩
        exact ⟨noneOf_not_mem ha (by simp), noneOf_not_mem ha (by simp), noneOf_not_mem ha (by simp)⟩
      · intro _ c t e
        simpa using noneOf_false (hb c t e)
    · exact ⟨none, s1, rfl, by simp, by simp, fun _ r e => hs ⟨r, e⟩⟩
  obtain ⟨pa, s3, rfl, hpa, hs3⟩ := cut_at (noneOf ['?', '#']) s2
  obtain ⟨q, s4, rfl, hq, hs4⟩ : ∃ (q : Option Str) (s4 : Str), s3 = optSuf ['?'] q ++ s4 ∧
      (∀ x, q = some x → '#' ∉ x) ∧ ∀ c t, s4 = c :: t → c = '#' := by
    by_cases hs : ∃ r, s3 = '?' :: r
    · obtain ⟨r, rfl⟩ := hs
      obtain ⟨a, b, rfl, ha, hb⟩ := cut_at (noneOf ['#']) r
      refine ⟨some a, b, rfl, ?_, ?_⟩
      · rintro x ⟨⟩; exact noneOf_not_mem ha (by simp)
      · intro c t e; simpa using noneOf_false (hb c t e)
    · refine ⟨none, s3, rfl, by simp, fun c t e => ?_⟩
      have := noneOf_false (hs3 c t e)
      simp only [List.mem_cons, List.not_mem_nil, or_false] at this
      rcases this with rfl | rfl
      · exact absurd ⟨t, e⟩ hs
      · rfl
  obtain ⟨f, rfl⟩ : ∃ f : Option Str, s4 = optSuf ['#'] f := by
    cases s4 with
    | nil => exact ⟨none, rfl⟩
    | cons c t => obtain rfl := hs4 c t rfl; exact ⟨some t, rfl⟩
  refine ⟨⟨sch, au, pa, q, f⟩, ⟨hsch, hau, ⟨noneOf_not_mem hpa (by simp), noneOf_not_mem hpa (by simp)⟩, hq, ?_, ?_, ?_⟩,
    e1.symm⟩
  · intro ha
    cases pa with
    | nil => exact .inl rfl
    | cons c t =>
      rcases hau1 ha c _ rfl with rfl | rfl | rfl
      · exact .inr ⟨t, rfl⟩
      · exact absurd (by simp) (noneOf_not_mem hpa (d := '?') (by simp))
      · exact absurd (by simp) (noneOf_not_mem hpa (d := '#') (by simp))
  · intro ha r e
    exact hau2 ha (r ++ (optSuf ['?'] q ++ optSuf ['#'] f)) (by rw [show pa = _ from e]; rfl)
  · rintro h ha w t e hne
    simp only at h ha e
    subst ha
    exact hcolon h w (t ++ (optSuf ['?'] q ++ optSuf ['#'] f)) (by rw [e]; simp [optSuf]) hne

/-- **C67**: a text is a valid reference
exactly if its groups conform to the rules of their components and, if there is neither scheme nor authority, the
path does not begin with a colon. -/
theorem C67_validation (S : Spec) (s : Str) :
    validate_uri_reference S s = some true ↔
      ∃ g : Groups, groups s = some (g, []) ∧ (∀ x, g 2 = some x → scheme x) ∧ (∀ x, g 4 = some x → authority S x) ∧
        (∀ x, g 5 = some x → path S x) ∧ (∀ x, g 7 = some x → query S x) ∧ (∀ x, g 9 = some x → fragment S x) ∧
        (g 2 = none → g 4 = none → ∀ r, g 5 ≠ some (':' :: r)) := by
  constructor
  · intro h
    obtain ⟨p, hv, rfl⟩ := reference_parts h
    obtain ⟨g, e, h2, h4, h5, h7, h9, -⟩ := groups_recompose hv.delim.cut (fun x hx => by
      have := hv.fragment x hx
      rw [fragment_iff] at this
      exact this.not_mem (by decide) (by decide) (by cases S <;> decide))
    refine ⟨g, e, ?_⟩
    rw [h2, h4, h5, h7, h9]
    refine ⟨hv.scheme, hv.authority, by rintro x ⟨⟩; exact hv.path, hv.query, hv.fragment, fun n1 n2 r e => ?_⟩
    exact hv.withoutScheme n1 n2 ⟨[], r, Option.some.inj e, by simp⟩
  · rintro ⟨g, e, h2, h4, h5, h7, h9, hc⟩
    obtain ⟨p, hp, rfl⟩ := cut_exists s
    by_cases hn : ∀ x, p.fragment = some x → '\n' ∉ x
    · obtain ⟨g', e', g2, g4, g5, g7, g9, -⟩ := groups_recompose hp hn
      rw [e] at e'
      cases e'
      rw [g2] at h2 hc; rw [g4] at h4 hc; rw [g5] at h5 hc; rw [g7] at h7; rw [g9] at h9
      refine (C02_iri_reference_validation _ _).1.2 ((IRI_reference_parts _ _).2 ⟨p, ⟨h2, h4, h5 _ rfl, h7, h9,
        hp.withAuthority, hp.withoutAuthority, ?_⟩, rfl⟩)
      rintro n1 n2 ⟨a, b, ea, hs⟩
      obtain ⟨w, t, hw, hcw, hsw⟩ : ∃ w t, p.path = w ++ ':' :: t ∧ ':' ∉ w ∧ '/' ∉ w := by
        by_cases ha : ':' ∈ a
        · obtain ⟨w, t, rfl, hw⟩ := List.eq_append_cons_of_mem ha
          exact ⟨w, t ++ ':' :: b, by rw [ea]; simp, hw, fun e => hs (by simp [e])⟩
        · exact ⟨a, b, ea, ha, hs⟩
      by_cases hw0 : w = []
      · subst hw0
        exact hc n1 n2 t (by rw [hw]; rfl)
      · obtain ⟨x, hx, hm⟩ := hp.withoutScheme n1 n2 w t hw hw0
        simp only [List.mem_cons, List.not_mem_nil, or_false] at hx
        rcases hx with rfl | rfl | rfl | rfl
        · exact hcw hm
        · exact hsw hm
        · exact hp.path.1 (by rw [hw]; simp [hm])
        · exact hp.path.2 (by rw [hw]; simp [hm])
    · exfalso
      have : ∃ x, p.fragment = some x ∧ '\n' ∈ x := by
        cases hf : p.fragment with
        | none => exact absurd (by simp [hf]) hn
        | some x =>
          by_cases hx : '\n' ∈ x
          · exact ⟨x, rfl, hx⟩
          · exact absurd (by rw [hf]; rintro y ⟨⟩; exact hx) hn
      obtain ⟨x, hf, hx⟩ := this
      obtain ⟨g', c, t, e'⟩ := groups_newline hp hf hx
      rw [e] at e'
      cases e'

/-- **C67**: the regular expression matches every text without an end of line, to its end. -/
theorem C67_total (s : Str) (h : '\n' ∉ s) : ∃ g : Groups, groups s = some (g, []) := by
  obtain ⟨p, hp, rfl⟩ := cut_exists s
  obtain ⟨g, e, -⟩ := groups_recompose hp (by
    intro x hx hm
    exact h (by simp [Parts.recompose, hx, optSuf, hm]))
  exact ⟨g, e⟩

/-- The example of the appendix. -/
example : (groups (chars! "http://www.ics.uci.edu/pub/ietf/uri/#Related")).map (fun r => (List.range 10).map r.1) =
    some [none, some (chars! "http:"), some (chars! "http"), some (chars! "//www.ics.uci.edu"),
      some (chars! "www.ics.uci.edu"), some (chars! "/pub/ietf/uri/"), none, none, some (chars! "#Related"),
      some (chars! "Related")] := by
  decide +kernel

end Verif
