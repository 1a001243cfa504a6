import Verif.Lemmas.Resolve

/-! # Lemmas for the laws of resolution -/

namespace Verif

open Rfc PathToNormalize

/-- Dot segment removal undoes the `/.` escape of a path without dot segments. -/
theorem rds_escape_normal {W : List PSeg} (hok : OKSegs W) (hd : ∀ g ∈ W, isDots g = false)
    (auth : Bool) : remove_dot_segments (undot (escapePath auth (pathText W))) = pathText W := by
  by_cases hesc : (!auth && (pathText W).take 2 == ['/', '/']) = true
  · have e2 : escapePath auth (pathText W) = '/' :: '.' :: pathText W := if_pos hesc
    obtain ⟨r, hr⟩ := take2_slash.1 (by simp at hesc ⊢; exact hesc.2)
    have hal : AllSlash W := by
      have := (pathSegs_slash ('/' :: r)).1
      rwa [← hr, pathSegs_unique hok] at this
    have hWne : W ≠ [] := by rintro rfl; cases hr
    have hok2 : OKSegs ((true, ['.']) :: W) := ⟨by decide, by simp, hal⟩
    have e3 : ('/' :: '.' :: pathText W) = pathText ((true, ['.']) :: W) := by
      rw [pathText_cons]; rfl
    rw [e2, rds_eq]
    unfold rdsSegs
    rw [e3, pathSegs_unique hok2, stripRel_true]
    have := fin_dots (D := [(true, ['.'])]) (by intro g hg; simp at hg; subst hg; decide +kernel) hWne
    rw [List.singleton_append] at this
    rw [this, fin_all_normal hd]
  · have e2 : escapePath auth (pathText W) = pathText W := if_neg hesc
    rw [e2, rds_normal hok hd]

theorem rds_escape (auth : Bool) (s : Str) :
    remove_dot_segments (undot (escapePath auth (remove_dot_segments (undot s)))) =
      remove_dot_segments (undot s) := by
  rw [rds_eq s]
  exact rds_escape_normal (rdsSegs_ok s) rdsSegs_mem auth

theorem takeWhile_all {p : Char → Bool} {a : Str} (h : ∀ c ∈ a, p c = true) (b : Str) :
    (a ++ b).takeWhile p = a ++ b.takeWhile p := List.takeWhile_append_of_pos h

/-- Cutting a reference at the first `#` removes its fragment. -/
theorem cut_fragment {p : Parts} (h : p.Delim) :
    p.recompose.takeWhile (· != '#') = { p with fragment := none }.recompose := by
  obtain ⟨s, a, pa, q, f⟩ := p
  have hs : ∀ c ∈ optPre s [':'], (c != '#') = true := by
    intro c hc
    cases s with
    | none => simp [optPre] at hc
    | some x =>
      simp [optPre] at hc
      have := (h.scheme x rfl).2.2.2.2
      rcases hc with hc | rfl
      · simp; rintro rfl; exact this hc
      · decide
  have ha : ∀ c ∈ optSuf ['/', '/'] a, (c != '#') = true := by
    intro c hc
    cases a with
    | none => simp [optSuf] at hc
    | some x =>
      simp [optSuf] at hc
      have := (h.authority x rfl).2.2
      rcases hc with rfl | hc
      · decide
      · simp; rintro rfl; exact this hc
  have hp : ∀ c ∈ pa, (c != '#') = true := by
    intro c hc
    have := h.path.2
    simp; rintro rfl; exact this hc
  have hq : ∀ c ∈ optSuf ['?'] q, (c != '#') = true := by
    intro c hc
    cases q with
    | none => simp [optSuf] at hc
    | some x =>
      simp [optSuf] at hc
      have := h.query x rfl
      rcases hc with rfl | hc
      · decide
      · simp; rintro rfl; exact this hc
  simp only [Parts.recompose]
  rw [takeWhile_all hs, takeWhile_all ha, takeWhile_all hp, takeWhile_all hq]
  cases f <;> simp [optSuf]

/-- Cutting a reference at the first `?` or `#` removes its query and its fragment. -/
theorem cut_query {p : Parts} (h : p.Delim) :
    p.recompose.takeWhile (fun c => c != '?' && c != '#') =
      { p with query := none, fragment := none }.recompose := by
  obtain ⟨s, a, pa, q, f⟩ := p
  have key : ∀ c : Char, c ≠ '?' → c ≠ '#' → (c != '?' && c != '#') = true := by
    intro c h1 h2; simp [h1, h2]
  have hs : ∀ c ∈ optPre s [':'], (c != '?' && c != '#') = true := by
    intro c hc
    cases s with
    | none => simp [optPre] at hc
    | some x =>
      simp [optPre] at hc
      have := (h.scheme x rfl).2.2.2
      rcases hc with hc | rfl
      · exact key c (by rintro rfl; exact this.1 hc) (by rintro rfl; exact this.2 hc)
      · decide
  have ha : ∀ c ∈ optSuf ['/', '/'] a, (c != '?' && c != '#') = true := by
    intro c hc
    cases a with
    | none => simp [optSuf] at hc
    | some x =>
      simp [optSuf] at hc
      have := (h.authority x rfl).2
      rcases hc with rfl | hc
      · decide
      · exact key c (by rintro rfl; exact this.1 hc) (by rintro rfl; exact this.2 hc)
  have hp : ∀ c ∈ pa, (c != '?' && c != '#') = true := by
    intro c hc
    have := h.path
    exact key c (by rintro rfl; exact this.1 hc) (by rintro rfl; exact this.2 hc)
  simp only [Parts.recompose]
  rw [takeWhile_all hs, takeWhile_all ha, takeWhile_all hp]
  cases q <;> cases f <;> simp [optSuf]

theorem valid_drop_fragment {S : Spec} {p : Parts} (h : p.Valid S) :
    ({ p with fragment := none } : Parts).Valid S :=
  ⟨h.scheme, h.authority, h.path, h.query, by simp, h.withAuthority, h.withoutAuthority,
    h.withoutScheme⟩

theorem valid_drop_query {S : Spec} {p : Parts} (h : p.Valid S) :
    ({ p with query := none, fragment := none } : Parts).Valid S :=
  ⟨h.scheme, h.authority, h.path, by simp, by simp, h.withAuthority, h.withoutAuthority,
    h.withoutScheme⟩

/-- A valid reference's path needs no `/.` escape. -/
theorem escape_valid {S : Spec} {p : Parts} (h : p.Valid S) :
    escapePath p.authority.isSome p.path = p.path := by
  unfold escapePath
  rw [if_neg]
  intro e
  simp only [Bool.and_eq_true, Bool.not_eq_true', Option.isSome_eq_false_iff,
    Option.isNone_iff_eq_none] at e
  obtain ⟨t, e2⟩ := take2_slash.1 e.2
  exact h.withoutAuthority e.1 t e2

/-- Resolution only reads the scheme, the authority, the path and the query of the base. -/
theorem mergeReference_congr {b b' r : Parts} (h1 : b.scheme = b'.scheme)
    (h2 : r.scheme = none → r.authority = none → b.authority = b'.authority)
    (h3 : r.scheme = none → r.authority = none → r.path = [] → b.path = b'.path)
    (h4 : r.scheme = none → r.authority = none → r.path = [] → r.query = none → b.query = b'.query)
    (h5 : r.scheme = none → r.authority = none → r.path ≠ [] → r.path.take 1 ≠ ['/'] →
      mergePaths b r.path = mergePaths b' r.path) :
    mergeReference b r = mergeReference b' r := by
  unfold mergeReference
  cases hs : r.scheme with
  | some x => simp
  | none =>
    cases ha : r.authority with
    | some y => simp [h1]
    | none =>
      by_cases hp : r.path = []
      · have := h3 hs ha hp
        cases hq : r.query with
        | none => have := h4 hs ha hp hq; simp [*]
        | some z => simp [*]
      · by_cases ht : r.path.take 1 = ['/']
        · simp [hp, ht, h1, h2 hs ha]
        · simp [hp, ht, h1, h2 hs ha, h5 hs ha hp ht]

theorem transform_congr {b b' r : Parts} (h : mergeReference b r = mergeReference b' r) :
    transform b r = transform b' r := by rw [transform_eq, transform_eq, h]

end Verif
