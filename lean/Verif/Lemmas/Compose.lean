import Verif.Spec.Compose
import Verif.Props.ResolveEquiv
import Verif.Props.EquivalencePreserve
import Verif.Props.Contain

/-! # Two references in a row: lemmas -/

namespace Verif

open Rfc PathToNormalize

theorem mergesPath_iff (r : Parts) : MergesPath r ↔
    r.scheme = none ∧ r.authority = none ∧ r.path ≠ [] ∧ (r.path.take 1 == ['/']) = false := by
  unfold MergesPath
  have : (∀ t, r.path ≠ '/' :: t) ↔ (r.path.take 1 == ['/']) = false := by
    rw [beq_eq_false_iff_ne, Ne, take1_slash]
    exact ⟨fun h ⟨t, e⟩ => h t e, fun h t e => h ⟨t, e⟩⟩
  rw [this]

/-! ### Directories -/

theorem dir_append {D : Str} (hD : D = [] ∨ ∃ d, D = d ++ ['/']) (y : Str) :
    dirOf (D ++ y) = D ++ dirOf y ∧ lastSegment (D ++ y) = lastSegment y := by
  have hl := lastSegment_no_slash y
  have hy := dir_last y
  have hc := dir_cases y
  rcases hD with rfl | ⟨d, rfl⟩
  · exact ⟨rfl, rfl⟩
  · rcases hc with h | ⟨e, h⟩
    · rw [h, List.nil_append] at hy
      rw [h, List.append_nil]
      have h1 := dir_of_slash d hl
      rw [hy] at h1
      rw [hy, List.append_assoc]
      exact h1
    · rw [h] at hy ⊢
      have h1 := dir_of_slash (d ++ '/' :: e) hl
      have e1 : d ++ '/' :: e ++ '/' :: lastSegment y = d ++ ['/'] ++ y := by
        conv => rhs; rw [← hy]
        simp
      rw [e1] at h1
      exact ⟨by rw [h1.1]; simp, h1.2⟩

/-- Removing dot segments from a directory first does not matter. -/
theorem rds_dir' {D : Str} (hD : D = [] ∨ ∃ d, D = d ++ ['/']) (x : Str) :
    remove_dot_segments (undot (remove_dot_segments (undot D) ++ x)) =
      remove_dot_segments (undot (D ++ x)) := by
  rcases hD with rfl | ⟨d, rfl⟩
  · rw [rds_nil]
  · rw [← rds_dir d x, List.append_assoc, List.singleton_append]

theorem rds_skip_dot (y : Str) : remove_dot_segments (undot ('/' :: '.' :: '/' :: y)) =
    remove_dot_segments (undot ('/' :: y)) := by
  have h := rds_dir ['/', '.'] y
  have e : remove_dot_segments (undot (['/', '.'] ++ ['/'])) = ['/'] := by decide +kernel
  rw [e] at h
  exact h

/-- The directory of a path without dot segments, escaped or not, leads to the same as the directory of
the path. -/
theorem rds_dir_escape (auth : Bool) (s x : Str) (h : pctDecode (lastSegment s) ≠ [0x2E, 0x2E]) :
    remove_dot_segments (undot (dirOf (escapePath auth (remove_dot_segments (undot s))) ++ x)) =
      remove_dot_segments (undot (dirOf s ++ x)) := by
  have h1 : remove_dot_segments (undot (dirOf (remove_dot_segments (undot s)) ++ x)) =
      remove_dot_segments (undot (dirOf s ++ x)) := by
    rw [dir_rds s h, rds_dir' (dir_cases s)]
  rw [← h1]
  generalize remove_dot_segments (undot s) = p
  unfold escapePath
  split
  · rename_i hc
    obtain ⟨r, hr⟩ := take2_slash.1 (by simp at hc ⊢; exact hc.2)
    have e : dirOf ('/' :: '.' :: p) = '/' :: '.' :: dirOf p := by
      rw [hr]
      have a := (dir_append (D := ['/', '.', '/']) (.inr ⟨['/', '.'], rfl⟩) ('/' :: r)).1
      have b := (dir_append (D := ['/']) (.inr ⟨[], rfl⟩) ('/' :: r)).1
      simp only [List.cons_append, List.nil_append] at a b
      rw [a, b]
    have e2 : ∃ t, dirOf p = '/' :: t := by
      rw [hr]
      have b := (dir_append (D := ['/']) (.inr ⟨[], rfl⟩) ('/' :: r)).1
      exact ⟨_, b⟩
    obtain ⟨t, ht⟩ := e2
    rw [e, ht]
    exact rds_skip_dot (t ++ x)
  · rfl

/-! ### Merging is associative -/

theorem mergeDir_noauth {b : Parts} (h : b.authority = none) : mergeDir b = dirOf b.path := by
  simp [mergeDir, h]

theorem mergeDir_path {b : Parts} (h : b.path ≠ []) : mergeDir b = dirOf b.path := by
  simp [mergeDir, h]

theorem dir_head {y : Str} (h : y ≠ []) (x : Str) (hx : (x.take 1 == ['/']) = false) :
    ((dirOf y ++ x).take 1 == ['/']) = (y.take 1 == ['/']) := by
  have hl := lastSegment_no_slash y
  have hy := dir_last y
  rcases dir_cases y with e | ⟨d, e⟩
  · rw [e, List.nil_append] at hy
    rw [e, List.nil_append, hx]
    rw [hy] at hl
    cases y with
    | nil => exact absurd rfl h
    | cons c t =>
      symm
      rw [beq_eq_false_iff_ne]
      intro e
      simp only [List.take_succ_cons, List.take_zero, List.cons.injEq, and_true] at e
      exact hl (by simp [e])
  · conv => rhs; rw [← hy]
    rw [e]
    cases d <;> rfl

theorem dir_append_ne {y x : Str} (hx : x ≠ []) : dirOf y ++ x ≠ [] := by simp [hx]

theorem merge_assoc (b r₁ r₂ : Parts) :
    mergeReference b (mergeReference r₁ r₂) = mergeReference (mergeReference b r₁) r₂ := by
  by_cases h2 : MergesPath r₂
  · obtain ⟨c1, c2, c3, c4⟩ := (mergesPath_iff r₂).1 h2
    rw [(merge_relative c1 c2 c3 c4).1, (merge_relative c1 c2 c3 c4).1]
    cases s1 : r₁.scheme with
    | some x => simp [mergeReference, s1]
    | none =>
      cases s2 : r₁.authority with
      | some y => simp [mergeReference, s1, s2, mergeDir]
      | none =>
        rw [mergeDir_noauth s2]
        by_cases s3 : r₁.path = []
        · have hd : dirOf r₁.path = [] := by rw [s3]; rfl
          rw [hd, List.nil_append, (merge_relative (r := ⟨none, none, r₂.path, r₂.query, r₂.fragment⟩) rfl rfl c3 c4).1]
          simp [mergeReference, s1, s2, s3, mergeDir]
        · have hh := dir_head s3 r₂.path c4
          by_cases s4 : (r₁.path.take 1 == ['/']) = true
          · rw [s4] at hh
            have hn : dirOf r₁.path ++ r₂.path ≠ [] := dir_append_ne c3
            have e : mergeReference b r₁ = ⟨b.scheme, b.authority, r₁.path, r₁.query, r₁.fragment⟩ := by
              unfold mergeReference
              rw [if_neg (by simp [s1]), if_neg (by simp [s2]), if_neg (by simpa using s3), if_pos s4]
            rw [e, mergeDir_path (by exact s3)]
            unfold mergeReference
            simp only [Option.isSome_none, Bool.false_eq_true, if_false]
            rw [if_neg (by simp [c3]), if_pos hh]
          · rw [Bool.not_eq_true] at s4
            rw [s4] at hh
            have hn : dirOf r₁.path ++ r₂.path ≠ [] := dir_append_ne c3
            rw [(merge_relative rfl rfl hn hh).1, (merge_relative s1 s2 s3 s4).1,
              mergeDir_path (b := ⟨b.scheme, b.authority, mergeDir b ++ r₁.path, _, _⟩) (by simp [s3])]
            simp only
            rw [(dir_append (mergeDir_cases b) r₁.path).1, List.append_assoc]
  · cases c1 : r₂.scheme with
    | some x => simp [mergeReference, c1]
    | none =>
      cases c2 : r₂.authority with
      | some y =>
        cases s1 : r₁.scheme <;> cases s2 : r₁.authority <;> by_cases s3 : r₁.path = [] <;>
          simp [mergeReference, c1, c2, s1, s2, s3]
      | none =>
        by_cases c3 : r₂.path = []
        · cases s1 : r₁.scheme <;> cases s2 : r₁.authority <;> by_cases s3 : r₁.path = [] <;>
            cases c5 : r₂.query <;> simp [mergeReference, c1, c2, c3, c5, s1, s2, s3]
        · have c4 : r₂.path.take 1 = ['/'] := by
            refine Classical.byContradiction fun h => h2 ((mergesPath_iff r₂).2 ⟨c1, c2, c3, by simpa using h⟩)
          cases s1 : r₁.scheme <;> cases s2 : r₁.authority <;> by_cases s3 : r₁.path = [] <;>
            simp [mergeReference, c1, c2, c3, c4, s1, s2, s3]

theorem samePath_merge (r₁ r₂ : Parts) : samePath (mergeReference r₁ r₂) = (samePath r₁ && samePath r₂) := by
  by_cases h2 : MergesPath r₂
  · obtain ⟨c1, c2, c3, c4⟩ := (mergesPath_iff r₂).1 h2
    rw [(merge_relative c1 c2 c3 c4).1, (merge_relative c1 c2 c3 c4 (b := r₁)).2]
    simp [samePath, c3]
  · cases c1 : r₂.scheme with
    | some x => simp [mergeReference, samePath, c1]
    | none =>
      cases c2 : r₂.authority with
      | some y => simp [mergeReference, samePath, c1, c2]
      | none =>
        by_cases c3 : r₂.path = []
        · cases s1 : r₁.scheme <;> cases s2 : r₁.authority <;>
            simp [mergeReference, samePath, c1, c2, c3, s1, s2]
        · have c4 : r₂.path.take 1 = ['/'] := by
            refine Classical.byContradiction fun h => h2 ((mergesPath_iff r₂).2 ⟨c1, c2, c3, by simpa using h⟩)
          have c3' : List.isEmpty r₂.path = false := by simpa using c3
          simp [mergeReference, samePath, c1, c2, c3, c3', c4]

/-- A merged reference is a valid reference. -/
theorem follow_valid {S : Spec} {r₁ r₂ : Parts} (h1 : r₁.Valid S) (h2 : r₂.Valid S) :
    (mergeReference r₁ r₂).Valid S := by
  by_cases hs : r₁.scheme = none
  · cases c1 : r₂.scheme with
    | some x => simpa [mergeReference, c1] using h2
    | none =>
      have hb : ({ r₁ with scheme := some ['a'] } : Parts).Valid S :=
        ⟨by intro x hx; cases hx; exact (scheme_iff _).2 (by decide +kernel), h1.authority, h1.path, h1.query,
          h1.fragment, h1.withAuthority, h1.withoutAuthority, by simp⟩
      have hv := (merge_valid hb (by simp) h2).1
      have e : mergeReference r₁ r₂ = { mergeReference { r₁ with scheme := some ['a'] } r₂ with
          scheme := none } := by
        cases c2 : r₂.authority <;> by_cases c3 : r₂.path = [] <;>
          simp [mergeReference, c1, c2, c3, hs, mergePaths]
      rw [e]
      refine ⟨by simp, hv.authority, hv.path, hv.query, hv.fragment, hv.withAuthority, hv.withoutAuthority, ?_⟩
      intro _ ha
      simp only at ha ⊢
      cases c2 : r₂.authority with
      | some y => simp [mergeReference, c1, c2] at ha
      | none =>
        have hr1 : r₁.authority = none := by
          by_cases c3 : r₂.path = [] <;> simp [mergeReference, c1, c2, c3] at ha <;> exact ha
        have k1 := h1.withoutScheme hs hr1
        have k2 := h2.withoutScheme c1 c2
        by_cases c3 : r₂.path = []
        · simpa [mergeReference, c1, c2, c3] using k1
        · by_cases c4 : (r₂.path.take 1 == ['/']) = true
          · have : (mergeReference { r₁ with scheme := some ['a'] } r₂).path = r₂.path := by
              simp [mergeReference, c1, c2, c3]
              intro h; exact absurd (by simpa using c4) h
            rw [this]; exact k2
          · rw [Bool.not_eq_true] at c4
            rw [(merge_relative c1 c2 c3 c4).1, mergeDir_noauth (by exact hr1)]
            simp only
            rcases dir_cases r₁.path with e | ⟨d, e⟩
            · rw [e]; exact k2
            · rw [e]
              rintro ⟨u, v, huv, hu⟩
              rw [List.append_assoc, List.singleton_append] at huv
              rcases List.append_eq_append_iff.1 huv with ⟨w, hw, hw'⟩ | ⟨w, hw, hw'⟩
              · cases w with
                | nil => simp at hw'
                | cons c w =>
                  simp only [List.cons_append, List.cons.injEq] at hw'
                  rw [hw, ← hw'.1] at hu
                  exact hu (by simp)
              · cases w with
                | nil => simp at hw'
                | cons c w =>
                  simp only [List.cons_append, List.cons.injEq] at hw'
                  apply k1
                  refine ⟨u, w ++ '/' :: lastSegment r₁.path, ?_, hu⟩
                  conv => lhs; rw [← dir_last r₁.path, e, hw, ← hw'.1]
                  simp
  · exact (merge_valid h1 hs h2).1

end Verif
