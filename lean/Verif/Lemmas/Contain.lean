import Verif.Spec.Contain
import Verif.Lemmas.ResolveEquiv

/-! # Paths that stay below the directory they start from: lemmas -/

namespace Verif

open Rfc PathToNormalize

theorem stkStep_cases (E : List PSeg) (n : Str) :
    (pctDecode n = [0x2E] ∧ stkStep E (true, n) = E ∧ isDots (true, n) = true) ∨
    (pctDecode n = [0x2E, 0x2E] ∧ stkStep E (true, n) = E.dropLast ∧ isDots (true, n) = true) ∨
    (pctDecode n ≠ [0x2E] ∧ pctDecode n ≠ [0x2E, 0x2E] ∧ stkStep E (true, n) = E ++ [(true, n)] ∧
      isDots (true, n) = false) := by
  have h1 := from_segment_dot n
  have h2 := from_segment_dotdot n
  cases hk : SegmentKind.from_segment n with
  | dot => exact .inl ⟨h1.1 hk, by simp [stkStep, hk], by simp [isDots, hk]⟩
  | dotDot => exact .inr (.inl ⟨h2.1 hk, by simp [stkStep, hk], by simp [isDots, hk]⟩)
  | normal =>
    refine .inr (.inr ⟨fun e => ?_, fun e => ?_, by simp [stkStep, hk], by simp [isDots, hk]⟩)
    · rw [h1.2 e] at hk; cases hk
    · rw [h2.2 e] at hk; cases hk

/-- A walk that stays below does not touch the stack it starts with. -/
theorem stk_stays (E : List PSeg) : ∀ (L : List Str) (F : List PSeg), AllSlash F → (∀ n ∈ L, '/' ∉ n) →
    staysBelow F.length L = true →
    ∃ G, AllSlash G ∧ (L.map fun n => ((true, n) : PSeg)).foldl stkStep (E ++ F) = E ++ G ∧
      (∀ n, L.getLast? = some n → isDots (true, n) = false → G ≠ []) := by
  intro L
  induction L with
  | nil => intro F hF _ _; exact ⟨F, hF, rfl, by simp⟩
  | cons n r ih =>
    intro F hF hL h
    have hr : ∀ n ∈ r, '/' ∉ n := fun m hm => hL m (by simp [hm])
    have fin : ∀ F', AllSlash F' → staysBelow F'.length r = true → stkStep (E ++ F) (true, n) = E ++ F' →
        (isDots (true, n) = false → F' ≠ []) →
        ∃ G, AllSlash G ∧ ((n :: r).map fun n => ((true, n) : PSeg)).foldl stkStep (E ++ F) = E ++ G ∧
          (∀ m, (n :: r).getLast? = some m → isDots (true, m) = false → G ≠ []) := by
      intro F' h1 h2 h3 h4
      obtain ⟨G, g1, g2, g3⟩ := ih F' h1 hr h2
      refine ⟨G, g1, by rw [List.map_cons, List.foldl_cons, h3, g2], ?_⟩
      intro m hm hd
      cases r with
      | nil =>
        simp at hm g2
        subst hm
        rw [← g2]
        exact h4 hd
      | cons a r' => exact g3 m (by rwa [List.getLast?_cons_cons] at hm) hd
    unfold staysBelow at h
    rcases stkStep_cases (E ++ F) n with ⟨hk, hs, hd⟩ | ⟨hk, hs, hd⟩ | ⟨hk1, hk2, hs, hd⟩
    · rw [if_pos hk] at h
      exact fin F hF h hs (by simp [hd])
    · rw [if_neg (by rw [hk]; decide), if_pos hk, Bool.and_eq_true, bne_iff_ne] at h
      have hne : F ≠ [] := fun e => h.1 (by rw [e]; rfl)
      refine fin F.dropLast (fun g hg => hF g (List.dropLast_subset _ hg)) ?_ ?_ (by simp [hd])
      · rw [List.length_dropLast]; exact h.2
      · rw [hs, List.dropLast_append_of_ne_nil hne]
    · rw [if_neg hk1, if_neg hk2] at h
      refine fin (F ++ [(true, n)]) ?_ ?_ ?_ (by simp)
      · intro g hg
        rcases List.mem_append.1 hg with hg | hg
        · exact hF g hg
        · rw [List.mem_singleton.1 hg]; exact ⟨rfl, hL n (by simp)⟩
      · rw [List.length_append]; exact h
      · rw [hs, List.append_assoc]

theorem pathSegs_splitSlash (x : Str) : pathSegs ('/' :: x) = (splitSlash x).map fun n => (true, n) := rfl

theorem splitSlash_no_slash : ∀ (x : Str), ∀ n ∈ splitSlash x, '/' ∉ n := by
  intro x n hn
  have := (pathSegs_slash x).1 (true, n) (by rw [pathSegs_splitSlash]; exact List.mem_map.2 ⟨n, hn, rfl⟩)
  exact this.2

theorem splitSlash_ne_nil (x : Str) : splitSlash x ≠ [] := by
  intro h
  have := (pathSegs_slash x).2
  rw [pathSegs_splitSlash, h] at this
  exact this rfl

/-- What follows a directory, if it stays below it. -/
theorem rds_stays (D x : Str) (hD : D = [] ∨ ∃ d, D = d ++ ['/'])
    (h : staysBelow 0 (splitSlash x) = true) :
    ∃ y, remove_dot_segments (undot (D ++ x)) = remove_dot_segments (undot D) ++ y ∧
      (remove_dot_segments (undot D) = [] ∨ ∃ e, remove_dot_segments (undot D) = e ++ ['/']) := by
  rcases hD with rfl | ⟨d, rfl⟩
  · rw [rds_nil]; exact ⟨_, rfl, .inl rfl⟩
  · rw [List.append_assoc, List.singleton_append]
    rcases rds_before d with ⟨E, h1, h2, h3⟩ | hh
    · have e1 : remove_dot_segments (undot (d ++ ['/'])) = pathText E ++ ['/'] := by
        rw [rds_eq, h3, pathSegs_name (by simp), fin_snoc_normal h2 (isDots_nil true), pathText_append]
        rfl
      rw [e1, rds_eq, h3, pathSegs_splitSlash]
      obtain ⟨G, g1, g2, g3⟩ := stk_stays E (splitSlash x) [] (by intro g hg; cases hg)
        (splitSlash_no_slash x) h
      rw [List.append_nil] at g2
      have hne : ((splitSlash x).map fun n => ((true, n) : PSeg)) ≠ [] := by
        simpa using splitSlash_ne_nil x
      have e2 : stk (E ++ (splitSlash x).map fun n => ((true, n) : PSeg)) = E ++ G := by
        have hE : stk E = E := stk_all_normal h2
        unfold stk at hE ⊢
        rw [List.foldl_append, hE, g2]
      unfold fin
      rw [e2, endDots_append hne]
      obtain ⟨l, n, hl⟩ : ∃ l n, splitSlash x = l ++ [n] := by
        rcases List.eq_nil_or_concat (splitSlash x) with e | ⟨l, n, e⟩
        · exact absurd e (splitSlash_ne_nil x)
        · exact ⟨l, n, by rw [e, List.concat_eq_append]⟩
      have hend : endDots ((splitSlash x).map fun n => ((true, n) : PSeg)) = isDots (true, n) := by
        rw [hl]; simp [endDots]
      rw [hend]
      have key : ∃ G', G' ≠ [] ∧ AllSlash G' ∧
          (E ++ G ++ if isDots (true, n) = true then [((true, []) : PSeg)] else []) = E ++ G' := by
        cases hd : isDots (true, n) with
        | true =>
          refine ⟨G ++ [(true, [])], by simp, ?_, by simp⟩
          intro g hg
          rcases List.mem_append.1 hg with hg | hg
          · exact g1 g hg
          · rw [List.mem_singleton.1 hg]; exact ⟨rfl, by simp⟩
        | false => exact ⟨G, g3 n (by rw [hl]; simp) hd, g1, by simp⟩
      obtain ⟨G', k1, k2, k3⟩ := key
      rw [k3, pathText_append]
      cases G' with
      | nil => exact absurd rfl k1
      | cons g r =>
        obtain ⟨b, m⟩ := g
        obtain rfl : b = true := (k2 (b, m) (by simp)).1
        refine ⟨m ++ pathText r, ?_, .inr ⟨_, rfl⟩⟩
        rw [pathText_cons]
        simp [segText]
    · have e1 : remove_dot_segments (undot (d ++ ['/'])) = [] := by
        rw [rds_eq, hh, rdsSegs_nil]; rfl
      rw [e1]
      exact ⟨_, rfl, .inl rfl⟩

theorem npath_stays {S : Spec} {D x : Str} (hD : D = [] ∨ ∃ d, D = d ++ ['/']) (hw : WF D) (hx : WF x)
    (h : staysBelow 0 (splitSlash x) = true) : npath S D <+: npath S (D ++ x) := by
  obtain ⟨y, h1, h2⟩ := rds_stays D x hD h
  unfold npath
  rw [h1]
  have hwx : WF (D ++ x) := by
    rcases hD with rfl | ⟨d, rfl⟩
    · exact hx
    · have := (wf_slash_split (d := d) (x := []) hw).1
      rw [List.append_assoc]
      exact WF.append_ch this (by decide) hx
  have hwr := rds_PC (p := fun _ => true) rfl hwx
  rw [h1] at hwr
  rcases h2 with e | ⟨e, h2⟩
  · rw [e, pctn_nil]; exact List.nil_prefix
  · rw [h2] at hwr ⊢
    rw [List.append_assoc, List.singleton_append] at hwr ⊢
    obtain ⟨w1, w2⟩ := wf_slash_split hwr
    rw [pctn_append_ch S w1 (by decide) w2, pctn_append_ch S w1 (by decide) .nil, pctn_nil]
    exact ⟨pctn S y, by simp⟩

theorem escapePath_prefix (auth : Bool) {a b : Str} (h : a <+: b) : escapePath auth a <+: escapePath auth b := by
  obtain ⟨y, rfl⟩ := h
  unfold escapePath
  cases auth with
  | true => simp
  | false =>
    match a with
    | [] => simp
    | [c] =>
      by_cases hc : c = '/'
      · subst hc
        cases y with
        | nil => simp
        | cons d y =>
          by_cases hd : d = '/' <;> simp [hd]
      · cases y <;> simp [hc]
    | c :: d :: r =>
      by_cases hc : c = '/' <;> by_cases hd : d = '/' <;> simp [hc, hd]

/-- A walk that leaves the place where it started forgets what was there. -/
theorem stk_leaves (e : PSeg) : ∀ (L : List Str) (F : List PSeg), staysBelow F.length L = false →
    ∀ g ∈ (L.map fun n => ((true, n) : PSeg)).foldl stkStep (e :: F), g.1 = true ∧ g.2 ∈ L := by
  intro L
  induction L with
  | nil => intro F h; simp [staysBelow] at h
  | cons n r ih =>
    intro F h g hg
    rw [List.map_cons, List.foldl_cons] at hg
    unfold staysBelow at h
    rcases stkStep_cases (e :: F) n with ⟨hk, hs, hd⟩ | ⟨hk, hs, hd⟩ | ⟨hk1, hk2, hs, hd⟩
    · rw [if_pos hk] at h
      rw [hs] at hg
      have := ih F h g hg
      exact ⟨this.1, by simp [this.2]⟩
    · rw [if_neg (by rw [hk]; decide), if_pos hk] at h
      rw [hs] at hg
      cases F with
      | nil =>
        have := (stk_mem (L := r.map fun n => ((true, n) : PSeg)) g hg).1
        obtain ⟨m, hm, rfl⟩ := List.mem_map.1 this
        exact ⟨rfl, by simp [hm]⟩
      | cons f F' =>
        rw [List.dropLast_cons_cons] at hg
        have h' : staysBelow (f :: F').dropLast.length r = false := by
          rw [List.length_dropLast]
          simpa using h
        have := ih _ h' g hg
        exact ⟨this.1, by simp [this.2]⟩
    · rw [if_neg hk1, if_neg hk2] at h
      rw [hs, List.cons_append] at hg
      have := ih (F ++ [(true, n)]) (by rw [List.length_append]; exact h) g hg
      exact ⟨this.1, by simp [this.2]⟩

/-- If the path leaves the directory `/y/`, then the segments of the result are all its own. -/
theorem rds_leaves (y x : Str) (hy : '/' ∉ y) (hn : isDots (true, y) = false)
    (h : staysBelow 0 (splitSlash x) = false) :
    ∃ W, AllSlash W ∧ W ≠ [] ∧ (∀ g ∈ W, g.2 = [] ∨ g.2 ∈ splitSlash x) ∧
      remove_dot_segments (undot ('/' :: y ++ '/' :: x)) = pathText W := by
  have hp : rdsSegs ('/' :: y ++ '/' :: x) =
      fin ((true, y) :: (splitSlash x).map fun n => (true, n)) := by
    unfold rdsSegs
    rw [pathSegs_append, pathSegs_name hy, pathSegs_splitSlash]
    congr 1
    exact stripRel_true _ _
  refine ⟨rdsSegs ('/' :: y ++ '/' :: x), (rdsSegs_slash _).1, (rdsSegs_slash _).2, ?_, rds_eq _⟩
  intro g hg
  rw [hp] at hg
  unfold fin at hg
  rcases List.mem_append.1 hg with hg | hg
  · have e : stk ((true, y) :: (splitSlash x).map fun n => ((true, n) : PSeg)) =
        ((splitSlash x).map fun n => ((true, n) : PSeg)).foldl stkStep [(true, y)] := by
      unfold stk
      rw [List.foldl_cons]
      congr 1
      have := stk_all_normal (R := [(true, y)]) (by simpa using hn)
      simpa [stk] using this
    rw [e] at hg
    exact .inr (stk_leaves (true, y) (splitSlash x) [] h g hg).2
  · split at hg
    · rw [List.mem_singleton.1 hg]; exact .inl rfl
    · cases hg

theorem splitSlash_length : ∀ (x : Str), ∀ n ∈ splitSlash x, n.length ≤ x.length := by
  intro x n hn
  induction x generalizing n with
  | nil => simp [splitSlash] at hn; simp [hn]
  | cons c r ih =>
    unfold splitSlash at hn
    split at hn
    · rcases List.mem_cons.1 hn with rfl | hn
      · simp
      · have := ih n hn; simp; omega
    · cases hs : splitSlash r with
      | nil => exact absurd hs (splitSlash_ne_nil r)
      | cons s ss =>
        rw [hs] at hn
        rcases List.mem_cons.1 hn with rfl | hn
        · have := ih s (by rw [hs]; simp); simp; omega
        · have := ih n (by rw [hs]; simp [hn]); simp; omega

end Verif
