import Verif.Lemmas.Abnf
import Verif.Lemmas.Split

/-! # Path rules as character conditions -/

namespace Verif

open Verif.Abnf Verif.Rfc

theorem pcharC_slash (S : Spec) : pcharC S '/' = false := by cases S <;> decide
theorem pcharC_colon (S : Spec) : pcharC S ':' = true := by cases S <;> decide
theorem ncC_colon (S : Spec) : ncC S ':' = false := by cases S <;> decide
theorem pcharSlashC_slash (S : Spec) : pcharSlashC S '/' = true := by simp [pcharSlashC]

theorem pc_slash_of_pchar {S : Spec} {s : Str} (h : PC (pcharC S) s) : PC (pcharSlashC S) s :=
  h.mono fun c hc => by simp [pcharSlashC, hc]

/-- The `*( "/" isegment )` tail. -/
def segs (S : Spec) : Lang := star (lit ['/'] ⬝ segment S)

theorem segs_cons {S : Spec} {a b : Str} (ha : PC (pcharC S) a) (hb : segs S b) :
    segs S ('/' :: a ++ b) :=
  star_cons (a := '/' :: a) ⟨['/'], a, rfl, rfl, (segment_iff S a).2 ha⟩ hb

theorem segs_pc {S : Spec} {s : Str} (h : segs S s) :
    PC (pcharSlashC S) s ∧ (s = [] ∨ ∃ r, s = '/' :: r) := by
  refine star_ind (P := fun s => PC (pcharSlashC S) s ∧ (s = [] ∨ ∃ r, s = '/' :: r))
    ⟨PC.nil, .inl rfl⟩ ?_ s h
  rintro a b ⟨_, x, rfl, rfl, hx⟩ _ ⟨ih, _⟩
  rw [segment_iff] at hx
  exact ⟨PC.chr (by decide) (pcharSlashC_slash S) ((pc_slash_of_pchar hx).append ih),
    .inr ⟨_, rfl⟩⟩

theorem slash_decomp {S : Spec} {r : Str} (h : PC (pcharSlashC S) r) :
    ∃ a b, r = a ++ b ∧ PC (pcharC S) a ∧ segs S b := by
  induction h with
  | nil => exact ⟨[], [], rfl, PC.nil, star_nil _⟩
  | @chr c r h1 h2 _ ih =>
    obtain ⟨a, b, rfl, ha, hb⟩ := ih
    by_cases hc : c = '/'
    · subst hc
      exact ⟨[], '/' :: a ++ b, rfl, PC.nil, segs_cons ha hb⟩
    · refine ⟨c :: a, b, rfl, PC.chr h1 ?_ ha, hb⟩
      simpa [pcharSlashC, hc] using h2
  | @pct h l r h1 h2 _ ih =>
    obtain ⟨a, b, rfl, ha, hb⟩ := ih
    exact ⟨'%' :: h :: l :: a, b, rfl, PC.pct h1 h2 ha, hb⟩

theorem segs_iff {S : Spec} {s : Str} :
    segs S s ↔ PC (pcharSlashC S) s ∧ (s = [] ∨ ∃ r, s = '/' :: r) := by
  refine ⟨segs_pc, ?_⟩
  rintro ⟨h, rfl | ⟨r, rfl⟩⟩
  · exact star_nil _
  · obtain ⟨_, h⟩ := (PC_cons (by decide)).1 h
    obtain ⟨a, b, rfl, ha, hb⟩ := slash_decomp h
    exact segs_cons ha hb

theorem path_abempty_iff {S : Spec} {s : Str} :
    path_abempty S s ↔ PC (pcharSlashC S) s ∧ (s = [] ∨ ∃ r, s = '/' :: r) := segs_iff

theorem pc_pchar_head {S : Spec} {a b : Str} (ha : PC (pcharC S) a) (h0 : a ≠ []) :
    ∀ r, a ++ b ≠ '/' :: r := by
  intro r hr
  cases a with
  | nil => exact h0 rfl
  | cons c a =>
    simp at hr
    obtain ⟨rfl, _⟩ := hr
    exact ha.not_mem (d := '/') (by decide) (by decide) (pcharC_slash S) (by simp)

theorem rootless_iff {S : Spec} {s : Str} :
    path_rootless S s ↔ PC (pcharSlashC S) s ∧ s ≠ [] ∧ ∀ r, s ≠ '/' :: r := by
  constructor
  · rintro ⟨a, b, rfl, ha, hb⟩
    obtain ⟨h0, ha⟩ := (segment_nz_iff S a).1 ha
    refine ⟨(pc_slash_of_pchar ha).append (segs_pc hb).1, ?_, pc_pchar_head ha h0⟩
    simp [h0]
  · rintro ⟨h, h0, h1⟩
    obtain ⟨a, b, rfl, ha, hb⟩ := slash_decomp h
    refine ⟨a, b, rfl, (segment_nz_iff S a).2 ⟨?_, ha⟩, hb⟩
    rintro rfl
    rcases (segs_pc hb).2 with rfl | ⟨r, rfl⟩
    · exact h0 rfl
    · exact h1 r rfl

theorem absolute_iff {S : Spec} {s : Str} :
    path_absolute S s ↔ ∃ r, s = '/' :: r ∧ PC (pcharSlashC S) r ∧ ∀ r', r ≠ '/' :: r' := by
  constructor
  · rintro ⟨_, r, rfl, rfl, rfl | h⟩
    · exact ⟨[], rfl, PC.nil, by simp⟩
    · obtain ⟨h1, _, h3⟩ := rootless_iff.1 h
      exact ⟨r, rfl, h1, h3⟩
  · rintro ⟨r, rfl, h1, h2⟩
    refine ⟨['/'], r, rfl, rfl, ?_⟩
    by_cases h : r = []
    · exact .inl h
    · exact .inr (rootless_iff.2 ⟨h1, h, h2⟩)

/-- No colon before the first slash. -/
def NoColonSeg (s : Str) : Prop := ∀ a b, s = a ++ ':' :: b → '/' ∈ a

theorem noscheme_iff {S : Spec} {s : Str} :
    path_noscheme S s ↔
      PC (pcharSlashC S) s ∧ s ≠ [] ∧ (∀ r, s ≠ '/' :: r) ∧ NoColonSeg s := by
  constructor
  · rintro ⟨a, b, rfl, ha, hb⟩
    obtain ⟨h0, ha⟩ := (segment_nz_nc_iff S a).1 ha
    have ha' : PC (pcharC S) a := ha.mono fun c hc => by
      simp [ncC, pcharC] at hc ⊢
      rcases hc with (h | h) | h <;> simp [h]
    have hnc : ':' ∉ a := ha.not_mem (by decide) (by decide) (ncC_colon S)
    refine ⟨(pc_slash_of_pchar ha').append (segs_pc hb).1, by simp [h0], pc_pchar_head ha' h0, ?_⟩
    intro x y hxy
    rcases (segs_pc hb).2 with rfl | ⟨r, rfl⟩
    · simp at hxy; subst hxy; simp at hnc
    · rcases List.append_eq_append_iff.1 hxy with ⟨t, rfl, h2⟩ | ⟨t, rfl, h2⟩
      · cases t with
        | nil => simp at h2
        | cons z t => simp at h2; simp [← h2.1]
      · cases t with
        | nil => simp at h2
        | cons z t => simp at h2; simp [← h2.1] at hnc
  · rintro ⟨h, h0, h1, h2⟩
    obtain ⟨a, b, rfl, ha, hb⟩ := slash_decomp h
    have ha0 : a ≠ [] := by
      rintro rfl
      rcases (segs_pc hb).2 with rfl | ⟨r, rfl⟩
      · exact h0 rfl
      · exact h1 r rfl
    refine ⟨a, b, rfl, (segment_nz_nc_iff S a).2 ⟨ha0, ?_⟩, hb⟩
    apply ha.mono_mem
    intro c hc hp
    by_cases hcc : c = ':'
    · subst hcc
      obtain ⟨x, y, rfl⟩ := List.append_of_mem hc
      have := h2 x (y ++ b) (by simp)
      exact absurd (by simp [this]) (ha.not_mem (d := '/') (by decide) (by decide) (pcharC_slash S))
    · simp [pcharC, hcc] at hp; simp [ncC]; exact hp

/-- Paths allowed after a scheme when there is no authority. -/
theorem hier_noauth_iff {S : Spec} {s : Str} :
    (path_absolute S ∕ path_rootless S ∕ path_empty) s ↔
      PC (pcharSlashC S) s ∧ ∀ r, s ≠ '/' :: '/' :: r := by
  simp only [alt, absolute_iff, rootless_iff, path_empty, lit]
  constructor
  · rintro (⟨r, rfl, h1, h2⟩ | ⟨h1, h2, h3⟩ | rfl)
    · exact ⟨PC.chr (by decide) (pcharSlashC_slash S) h1, fun r' h => by simp at h; exact h2 _ h⟩
    · exact ⟨h1, fun r h => h3 _ h⟩
    · exact ⟨PC.nil, by simp⟩
  · rintro ⟨h1, h2⟩
    cases s with
    | nil => exact .inr (.inr rfl)
    | cons c r =>
      by_cases hc : c = '/'
      · subst hc
        exact .inl ⟨r, rfl, ((PC_cons (by decide)).1 h1).2, fun r' h => h2 r' (by rw [h])⟩
      · exact .inr (.inl ⟨h1, by simp, by simp [hc]⟩)

/-- Paths allowed in a relative reference without authority. -/
theorem rel_noauth_iff {S : Spec} {s : Str} :
    (path_absolute S ∕ path_noscheme S ∕ path_empty) s ↔
      PC (pcharSlashC S) s ∧ (∀ r, s ≠ '/' :: '/' :: r) ∧ NoColonSeg s := by
  simp only [alt, absolute_iff, noscheme_iff, path_empty, lit]
  constructor
  · rintro (⟨r, rfl, h1, h2⟩ | ⟨h1, h2, h3, h4⟩ | rfl)
    · refine ⟨PC.chr (by decide) (pcharSlashC_slash S) h1, fun r' h => by simp at h; exact h2 _ h, ?_⟩
      intro a b h
      cases a with
      | nil => simp at h
      | cons x a => simp at h; simp [← h.1]
    · exact ⟨h1, fun r h => h3 _ h, h4⟩
    · exact ⟨PC.nil, by simp, by intro a b h; simp at h⟩
  · rintro ⟨h1, h2, h3⟩
    cases s with
    | nil => exact .inr (.inr rfl)
    | cons c r =>
      by_cases hc : c = '/'
      · subst hc
        exact .inl ⟨r, rfl, ((PC_cons (by decide)).1 h1).2, fun r' h => h2 r' (by rw [h])⟩
      · exact .inr (.inl ⟨h1, by simp, by simp [hc], h3⟩)

theorem path_iff {S : Spec} {s : Str} : path S s ↔ PC (pcharSlashC S) s := by
  simp only [path, alt]
  constructor
  · rintro (h | h | h | h | h)
    · exact (path_abempty_iff.1 h).1
    · exact (hier_noauth_iff.1 (.inl h)).1
    · exact (noscheme_iff.1 h).1
    · exact (rootless_iff.1 h).1
    · cases h; exact PC.nil
  · intro h
    cases s with
    | nil => exact .inl (path_abempty_iff.2 ⟨h, .inl rfl⟩)
    | cons c r =>
      by_cases hc : c = '/'
      · subst hc; exact .inl (path_abempty_iff.2 ⟨h, .inr ⟨r, rfl⟩⟩)
      · exact .inr (.inr (.inr (.inl (rootless_iff.2 ⟨h, by simp, by simp [hc]⟩))))

end Verif
