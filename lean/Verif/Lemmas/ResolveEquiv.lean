import Verif.Spec.ResolveEquiv
import Verif.Lemmas.ResolveLaws
import Verif.Lemmas.Equivalence

/-! # Resolution and equivalence: lemmas about paths -/

namespace Verif

open Rfc PathToNormalize

/-! ### The directory of a path -/

/-- The path up to its last slash. -/
def dirOf (s : Str) : Str := (s.reverse.dropWhile (· != '/')).reverse

theorem dir_last (s : Str) : dirOf s ++ lastSegment s = s := by
  unfold dirOf lastSegment
  rw [← List.reverse_append, List.takeWhile_append_dropWhile, List.reverse_reverse]

theorem lastSegment_no_slash (s : Str) : '/' ∉ lastSegment s := by
  unfold lastSegment
  intro h
  have := List.all_takeWhile (p := (· != '/')) (l := s.reverse)
  rw [List.all_eq_true] at this
  simpa using this _ (List.mem_reverse.1 h)

theorem dir_of_no_slash {n : Str} (h : '/' ∉ n) : dirOf n = [] ∧ lastSegment n = n := by
  have : ∀ c ∈ n.reverse, (c != '/') = true := by
    intro c hc
    simp only [bne_iff_ne, ne_eq]
    rintro rfl
    exact h (List.mem_reverse.1 hc)
  unfold dirOf lastSegment
  have h1 := List.dropWhile_append_of_pos (l₂ := []) this
  have h2 := List.takeWhile_append_of_pos (l₂ := []) this
  rw [List.append_nil] at h1 h2
  rw [h1, h2]
  simp

theorem dir_of_slash (d : Str) {n : Str} (h : '/' ∉ n) :
    dirOf (d ++ '/' :: n) = d ++ ['/'] ∧ lastSegment (d ++ '/' :: n) = n := by
  have : ∀ c ∈ n.reverse, (c != '/') = true := by
    intro c hc
    simp only [bne_iff_ne, ne_eq]
    rintro rfl
    exact h (List.mem_reverse.1 hc)
  unfold dirOf lastSegment
  have e : (d ++ '/' :: n).reverse = n.reverse ++ '/' :: d.reverse := by simp
  rw [e, List.dropWhile_append_of_pos this, List.takeWhile_append_of_pos this]
  simp

theorem dir_cases (s : Str) : dirOf s = [] ∨ ∃ d, dirOf s = d ++ ['/'] := by
  unfold dirOf
  cases h : s.reverse.dropWhile (· != '/') with
  | nil => exact .inl rfl
  | cons c r =>
    have : (c != '/') = false := by
      have := List.head?_dropWhile_not (· != '/') s.reverse
      rw [h] at this
      simpa using this
    right
    refine ⟨r.reverse, ?_⟩
    simp at this
    simp [this]

/-! ### Dot segments and directories -/

theorem stripRel_cases (L0 : List PSeg) : OKSegs L0 →
    (∃ L1, OKSegs L1 ∧ (∀ n r, L1 = (false, n) :: r → isDots (false, n) = false) ∧
      ∀ m T, stripRel (L0 ++ (true, m) :: T) = L1 ++ (true, m) :: T) ∨
    (∀ m T, stripRel (L0 ++ (true, m) :: T) = if m = [] then T else stripRel ((false, m) :: T)) := by
  refine stripRel_ind (P := fun L0 => OKSegs L0 →
    (∃ L1, OKSegs L1 ∧ (∀ n r, L1 = (false, n) :: r → isDots (false, n) = false) ∧
      ∀ m T, stripRel (L0 ++ (true, m) :: T) = L1 ++ (true, m) :: T) ∨
    (∀ m T, stripRel (L0 ++ (true, m) :: T) = if m = [] then T else stripRel ((false, m) :: T)))
    ?_ ?_ ?_ ?_ ?_ ?_ L0
  · intro _
    exact .inl ⟨[], trivial, by simp, fun m T => stripRel_true m T⟩
  · intro n r h
    exact .inl ⟨_, h, by simp, fun m T => stripRel_true n _⟩
  · intro n r hd h
    refine .inl ⟨_, h, ?_, fun m T => stripRel_normal hd⟩
    intro n' r' e
    cases e
    exact hd
  · intro n hd _
    exact .inr fun m T => stripRel_dots hd
  · intro n b r hd h
    have hal : AllSlash r := fun x hx => h.2.2 x (by simp [hx])
    refine .inl ⟨r, hal.ok, ?_, fun m T => ?_⟩
    · rintro n' r' rfl
      exact absurd (hal (false, n') (by simp)).1 (by simp)
    · rw [List.cons_append, List.cons_append, stripRel_dots hd, if_pos rfl]
  · intro n b m r hd hm ih h
    have hok : OKSegs ((false, m) :: r) :=
      ⟨(h.2.2 (b, m) (by simp)).2, fun _ => hm, fun x hx => h.2.2 x (by simp [hx])⟩
    have e : ∀ m' T, stripRel (((false, n) :: (b, m) :: r) ++ (true, m') :: T) =
        stripRel (((false, m) :: r) ++ (true, m') :: T) := by
      intro m' T
      rw [List.cons_append, List.cons_append, stripRel_dots hd, if_neg hm]
      rfl
    simp only [e]
    exact ih hok

theorem pathSegs_after_slash {x : Str} {m : Str} {T : List PSeg}
    (h : pathSegs ('/' :: x) = (true, m) :: T) :
    AllSlash T ∧ pathSegs x = if m = [] then T else (false, m) :: T := by
  have hal := (pathSegs_slash x).1
  have ht := (pathSegs_spec ('/' :: x)).2
  rw [h] at hal ht
  rw [pathText_cons] at ht
  have hT : AllSlash T := fun g hg => hal g (by simp [hg])
  have hx : x = m ++ pathText T := by simpa [segText] using ht.symm
  refine ⟨hT, ?_⟩
  split
  · rename_i hm
    subst hm
    rw [hx, List.nil_append, pathSegs_unique hT.ok]
  · rename_i hm
    have hok : OKSegs ((false, m) :: T) := ⟨(hal (true, m) (by simp)).2, fun _ => hm, hT⟩
    have : x = pathText ((false, m) :: T) := by rw [hx, pathText_cons]; rfl
    rw [this, pathSegs_unique hok]

theorem pathSegs_append (d x : Str) : pathSegs (d ++ '/' :: x) = pathSegs d ++ pathSegs ('/' :: x) := by
  obtain ⟨h1, h2⟩ := pathSegs_spec d
  obtain ⟨h3, _⟩ := pathSegs_slash x
  obtain ⟨_, h4⟩ := pathSegs_spec ('/' :: x)
  have hok : OKSegs (pathSegs d ++ pathSegs ('/' :: x)) := by
    cases hd : pathSegs d with
    | nil => exact h3.ok
    | cons g r =>
      rw [hd] at h1
      exact ⟨h1.1, h1.2.1, h1.2.2.append h3⟩
  rw [← pathSegs_unique hok, pathText_append, h2, h4]

theorem stk_stk (L T : List PSeg) : stk (stk L ++ T) = stk (L ++ T) := by
  have h : stk (stk L) = stk L := stk_all_normal fun g hg => (stk_mem g hg).2
  unfold stk at h ⊢
  rw [List.foldl_append, List.foldl_append, h]

theorem allSlash_stripRel {T : List PSeg} (h : AllSlash T) : stripRel T = T := by
  cases T with
  | nil => rw [stripRel]
  | cons g r =>
    obtain ⟨b, n⟩ := g
    obtain rfl : b = true := (h (b, n) (by simp)).1
    exact stripRel_true n r

/-- What comes before a slash acts on what comes after it in one of two ways. -/
theorem rds_before (d : Str) :
    (∃ E, OKSegs E ∧ (∀ g ∈ E, isDots g = false) ∧
      ∀ x, rdsSegs (d ++ '/' :: x) = fin (E ++ pathSegs ('/' :: x))) ∨
    (∀ x, rdsSegs (d ++ '/' :: x) = rdsSegs x) := by
  have hT : ∀ x, ∃ m T, pathSegs ('/' :: x) = (true, m) :: T := by
    intro x
    obtain ⟨hal, hne⟩ := pathSegs_slash x
    cases h : pathSegs ('/' :: x) with
    | nil => exact absurd h hne
    | cons g r =>
      rw [h] at hal
      obtain ⟨b, n⟩ := g
      obtain rfl : b = true := (hal (b, n) (by simp)).1
      exact ⟨n, r, rfl⟩
  rcases stripRel_cases (pathSegs d) (pathSegs_spec d).1 with ⟨L1, h1, _, h2⟩ | h
  · refine .inl ⟨stk L1, stk_ok h1, fun g hg => (stk_mem g hg).2, fun x => ?_⟩
    obtain ⟨m, T, e⟩ := hT x
    unfold rdsSegs
    rw [pathSegs_append, e, h2]
    unfold fin
    rw [stk_stk, endDots_append (by simp), endDots_append (by simp)]
  · refine .inr fun x => ?_
    obtain ⟨m, T, e⟩ := hT x
    obtain ⟨h3, h4⟩ := pathSegs_after_slash e
    unfold rdsSegs
    rw [pathSegs_append, e, h, h4]
    split
    · rw [allSlash_stripRel h3]
    · rfl

theorem rdsSegs_dirty {E T : List PSeg} (hE : OKSegs E) (hd : ∀ g ∈ E, isDots g = false)
    (hT : AllSlash T) : rdsSegs (pathText (E ++ T)) = fin (E ++ T) := by
  have hok : OKSegs (E ++ T) := by
    cases E with
    | nil => exact hT.ok
    | cons g r => exact ⟨hE.1, hE.2.1, hE.2.2.append hT⟩
  unfold rdsSegs
  rw [pathSegs_unique hok]
  congr 1
  cases E with
  | nil => exact allSlash_stripRel hT
  | cons g r =>
    obtain ⟨b, n⟩ := g
    cases b with
    | true => exact stripRel_true _ _
    | false => exact stripRel_normal (hd _ (by simp))

theorem pathSegs_name {n : Str} (h : '/' ∉ n) : pathSegs ('/' :: n) = [(true, n)] := by
  have hok : OKSegs [(true, n)] := ⟨h, by simp, by intro g hg; simp at hg⟩
  have : '/' :: n = pathText [(true, n)] := by simp [pathText, segText]
  rw [this, pathSegs_unique hok]

theorem fin_snoc_normal {E : List PSeg} {g : PSeg} (hd : ∀ g ∈ E, isDots g = false)
    (hg : isDots g = false) : fin (E ++ [g]) = E ++ [g] := by
  apply fin_all_normal
  intro x hx
  rcases List.mem_append.1 hx with hx | hx
  · exact hd x hx
  · rw [List.mem_singleton.1 hx]; exact hg

/-- Removing dot segments from a directory first does not matter. -/
theorem rds_dir (d x : Str) : remove_dot_segments (undot (d ++ '/' :: x)) =
    remove_dot_segments (undot (remove_dot_segments (undot (d ++ ['/'])) ++ x)) := by
  rcases rds_before d with ⟨E, h1, h2, h3⟩ | h
  · have e1 : remove_dot_segments (undot (d ++ ['/'])) = pathText E ++ ['/'] := by
      rw [rds_eq, h3, pathSegs_name (by simp), fin_snoc_normal h2 (isDots_nil true), pathText_append]
      rfl
    have e2 : pathText E ++ ['/'] ++ x = pathText (E ++ pathSegs ('/' :: x)) := by
      rw [pathText_append, (pathSegs_spec ('/' :: x)).2]
      simp
    rw [e1, e2, rds_eq, rds_eq, h3, rdsSegs_dirty h1 h2 (pathSegs_slash x).1]
  · have e1 : remove_dot_segments (undot (d ++ ['/'])) = [] := by
      rw [rds_eq, h, rdsSegs_nil]; rfl
    rw [e1, List.nil_append, rds_eq, rds_eq, h]

theorem rds_name {n : Str} (h : '/' ∉ n) : remove_dot_segments (undot n) = n ∨
    remove_dot_segments (undot n) = [] := by
  by_cases h0 : n = []
  · subst h0; exact .inr rds_nil
  · have hok : OKSegs [(false, n)] := ⟨h, fun _ => h0, by intro g hg; simp at hg⟩
    have e : n = pathText [(false, n)] := by simp [pathText, segText]
    have e' : pathSegs n = [(false, n)] := by rw [e, pathSegs_unique hok]; simp [pathText, segText]
    rw [rds_eq]
    unfold rdsSegs
    rw [e']
    by_cases hd : isDots (false, n) = true
    · rw [stripRel_end hd]; exact .inr rfl
    · rw [stripRel_normal (by simpa using hd)]
      left
      have := fin_snoc_normal (E := []) (g := (false, n)) (by simp) (by simpa using hd)
      rw [List.nil_append] at this
      rw [this, ← e]

theorem rds_dot (d : Str) : remove_dot_segments (undot (d ++ ['/', '.'])) =
    remove_dot_segments (undot (d ++ ['/'])) := by
  rcases rds_before d with ⟨E, h1, h2, h3⟩ | h
  · rw [rds_eq, rds_eq, h3, h3, pathSegs_name (by simp), pathSegs_name (by simp),
      fin_snoc_normal h2 (isDots_nil true)]
    congr 1
    unfold fin
    rw [stk_append, endDots_append (by simp), stk_all_normal h2]
    have : SegmentKind.from_segment ['.'] = .dot := by decide +kernel
    simp [stkStep, this, endDots, isDots]
  · rw [rds_eq, rds_eq, h, h]; decide +kernel

/-- The directory of the path without dot segments, unless the last segment is `..`. -/
theorem dir_rds (s : Str) (h : pctDecode (lastSegment s) ≠ [0x2E, 0x2E]) :
    dirOf (remove_dot_segments (undot s)) = remove_dot_segments (undot (dirOf s)) := by
  have hl := lastSegment_no_slash s
  have hs := dir_last s
  generalize lastSegment s = n at *
  rcases dir_cases s with hd | ⟨d, hd⟩
  · rw [hd] at hs ⊢
    rw [List.nil_append] at hs
    subst hs
    rw [rds_nil]
    rcases rds_name hl with e | e
    · rw [e]; exact (dir_of_no_slash hl).1
    · rw [e]; rfl
  · rw [hd] at hs ⊢
    subst hs
    rw [List.append_assoc, List.singleton_append]
    rcases rds_before d with ⟨E, h1, h2, h3⟩ | hh
    · rw [rds_eq, rds_eq, h3, h3, pathSegs_name hl, pathSegs_name (by simp),
        fin_snoc_normal h2 (isDots_nil true), pathText_append]
      by_cases hn : isDots (true, n) = true
      · have hk : SegmentKind.from_segment n = .dot := by
          have h4 : SegmentKind.from_segment n ≠ .dotDot := fun e => h ((from_segment_dotdot n).1 e)
          have h5 : SegmentKind.from_segment n ≠ .normal := by simpa [isDots] using hn
          cases hk : SegmentKind.from_segment n <;> simp_all
        have : fin (E ++ [(true, n)]) = E ++ [(true, [])] := by
          unfold fin
          rw [stk_append, endDots_append (by simp), stk_all_normal h2]
          simp [stkStep, hk, endDots, isDots]
        rw [this, pathText_append]
        exact (dir_of_slash (pathText E) (n := []) (by simp)).1
      · rw [fin_snoc_normal h2 (by simpa using hn), pathText_append]
        have : pathText [(true, n)] = '/' :: n := by simp [pathText, segText]
        rw [this, (dir_of_slash (pathText E) hl).1]
        rfl
    · rw [rds_eq, rds_eq, hh, hh, ← rds_eq, ← rds_eq, rds_nil]
      rcases rds_name hl with e | e
      · rw [e]; exact (dir_of_no_slash hl).1
      · rw [e]; rfl

/-! ### Percent-encoding -/

theorem wf_slash_split {d x : Str} (h : WF (d ++ '/' :: x)) : WF d ∧ WF x :=
  have := (PC_append_cons (p := fun _ => true) (d := '/') (by decide) (by decide)).1 h
  ⟨this.1, this.2.2⟩

theorem wf_dir {s : Str} (h : WF s) : WF (dirOf s) ∧ WF (lastSegment s) := by
  have hs := dir_last s
  rcases dir_cases s with hd | ⟨d, hd⟩
  · rw [hd, List.nil_append] at hs
    rw [hd, hs]
    exact ⟨.nil, h⟩
  · rw [hd] at hs ⊢
    rw [← hs, List.append_assoc, List.singleton_append] at h
    exact ⟨WF.append_ch (wf_slash_split h).1 (by decide) .nil, (wf_slash_split h).2⟩

theorem pctn_dir {S : Spec} {s : Str} (h : WF s) : dirOf (pctn S s) = pctn S (dirOf s) := by
  have hs := dir_last s
  have hl := lastSegment_no_slash s
  have hw := wf_dir h
  generalize lastSegment s = n at *
  rcases dir_cases s with hd | ⟨d, hd⟩
  · rw [hd, List.nil_append] at hs
    subst hs
    rw [hd, pctn_nil]
    exact (dir_of_no_slash (pctn_no_slash h hl)).1
  · rw [hd] at hs hw ⊢
    subst hs
    rw [List.append_assoc, List.singleton_append] at h ⊢
    have h1 := wf_slash_split h
    rw [pctn_append_ch S h1.1 (by decide) h1.2, (dir_of_slash _ (pctn_no_slash h1.2 hl)).1,
      pctn_append_ch S h1.1 (by decide) .nil, pctn_nil]

/-- Normal form of a path, before the escape. -/
def npath (S : Spec) (s : Str) : Str := pctn S (remove_dot_segments (undot s))

/-- The normal form of a merged path depends on the directory only through its normal form, and on the
rest only up to percent-encoding. -/
theorem npath_append {S : Spec} {D x : Str} (hD : D = [] ∨ ∃ d, D = d ++ ['/']) (hw : WF D) (hx : WF x) :
    npath S (D ++ x) = remove_dot_segments (undot (npath S D ++ pctn S x)) := by
  unfold npath
  rcases hD with rfl | ⟨d, rfl⟩
  · rw [rds_nil, pctn_nil, List.nil_append, List.nil_append, pctn_rds hx]
  · have h1 := (wf_slash_split (d := d) (x := []) hw).1
    have e : d ++ ['/'] ++ x = d ++ '/' :: x := by simp
    rw [e, pctn_rds (WF.append_ch h1 (by decide) hx), pctn_append_ch S h1 (by decide) hx, rds_dir,
      pctn_rds hw, pctn_append_ch S h1 (by decide) .nil, pctn_nil]

theorem npath_dot {S : Spec} {D : Str} (hD : D = [] ∨ ∃ d, D = d ++ ['/']) :
    npath S (D ++ ['.']) = npath S D := by
  unfold npath
  rcases hD with rfl | ⟨d, rfl⟩
  · congr 1
  · rw [show d ++ ['/'] ++ ['.'] = d ++ ['/', '.'] by simp, rds_dot]

theorem npath_dir {S : Spec} {s : Str} (hw : WF s) (h : pctDecode (lastSegment s) ≠ [0x2E, 0x2E]) :
    npath S (dirOf s) = dirOf (npath S s) := by
  unfold npath
  rw [← dir_rds s h, pctn_dir (rds_PC (by decide) hw)]

end Verif
