import Verif.Lemmas.PathSegs

/-! # `fmt_write_normalize` on segment lists -/

namespace Verif

open Rfc PathToNormalize

/-! ### Percent/case normalisation of a text -/

/-- Text written for `s`. -/
def pctn (S : Spec) (s : Str) : Str := (pct_case_normalized S s).getD []

theorem pctn_spec (S : Spec) {s : Str} (h : WF s) :
    ∃ t, PctNorm S (tokens s) t ∧ pct_case_normalized S s = some (render t) ∧ pctn S s = render t := by
  obtain ⟨t, h1, h2⟩ := pct_case_normalized_spec S h
  exact ⟨t, h1, h2, by rw [pctn, h2]; rfl⟩

theorem pctn_some (S : Spec) {s : Str} (h : WF s) : pct_case_normalized S s = some (pctn S s) := by
  obtain ⟨t, _, h2, h3⟩ := pctn_spec S h
  rw [h2, h3]

theorem pctn_eq {S : Spec} {s : Str} (h : WF s) {t : List Tok} (ht : PctNorm S (tokens s) t) :
    pctn S s = render t := by
  obtain ⟨t', h1, _, h3⟩ := pctn_spec S h
  rw [h3, h1.det ht]

theorem pctn_nil (S : Spec) : pctn S [] = [] := by
  have := pctn_eq (S := S) (s := []) .nil (t := []) (by rw [tokens_nil]; exact .nil)
  simpa [render] using this

theorem WF.append_ch {a b : Str} {c : Char} (ha : WF a) (hc : c ≠ '%') (hb : WF b) :
    WF (a ++ c :: b) := PC.append ha (.chr hc rfl hb)

theorem pctn_append_ch (S : Spec) {a b : Str} {c : Char} (ha : WF a) (hc : c ≠ '%') (hb : WF b) :
    pctn S (a ++ c :: b) = pctn S a ++ c :: pctn S b := by
  obtain ⟨t, h1, _, h2⟩ := pctn_spec S ha
  obtain ⟨u, h3, _, h4⟩ := pctn_spec S hb
  rw [h2, h4, pctn_eq (WF.append_ch ha hc hb) (t := t ++ .ch c :: u)]
  · rw [render_append, render_cons]; rfl
  · rw [tokens_append_ch ha, tokens_ch hc]
    exact h1.append_ch h3

theorem pctn_ch (S : Spec) {b : Str} {c : Char} (hc : c ≠ '%') (hb : WF b) :
    pctn S (c :: b) = c :: pctn S b := by
  have := pctn_append_ch S (a := []) .nil hc hb
  simpa [pctn_nil] using this

theorem pctn_empty (S : Spec) {s : Str} (h : WF s) : pctn S s = [] ↔ s = [] := by
  constructor
  · intro h1
    obtain ⟨t, h2, _, h3⟩ := pctn_spec S h
    rw [h3] at h1
    have : t = [] := by
      cases t with
      | nil => rfl
      | cons x t =>
        rw [render_cons] at h1
        cases x <;> simp [Tok.render, pctUpper] at h1
    subst this
    generalize hs : tokens s = r at h2
    cases h2
    cases h with
    | nil => rfl
    | chr hc _ _ => rw [tokens_ch hc] at hs; cases hs
    | pct h1 h2 _ => rw [tokens_pct h1 h2] at hs; cases hs
  · rintro rfl; exact pctn_nil S

/-- A character of the normalised text is a character of the text, or part of a triplet, or
unreserved. -/
theorem pctn_mem {S : Spec} {s : Str} (h : WF s) {c : Char} (hc : c ∈ pctn S s) :
    c ∈ s ∨ c = '%' ∨ isHex c = true ∨ iunreserved S c = true := by
  obtain ⟨t, h1, _, h3⟩ := pctn_spec S h
  rw [h3] at hc
  clear h3
  have key : ∀ r t, PctNorm S r t → TokensOK r → c ∈ render t →
      (Tok.ch c ∈ r) ∨ c = '%' ∨ isHex c = true ∨ iunreserved S c = true := by
    intro r t hp
    induction hp with
    | nil => intro _ h; simp [render] at h
    | @ch d r t _ ih =>
      intro hok hm
      rw [render_cons] at hm
      rcases List.mem_append.1 hm with hm | hm
      · simp [Tok.render] at hm; subst hm; left; simp
      · rcases ih (fun x hx => hok x (by simp [hx])) hm with h | h
        · left; simp [h]
        · exact .inr h
    | @decode d r t hu _ ih =>
      intro hok hm
      rw [render_cons] at hm
      rcases List.mem_append.1 hm with hm | hm
      · simp [Tok.render] at hm; subst hm; simp [hu]
      · rcases ih (fun x hx => hok x (by simp [hx])) hm with h | h
        · left; simp [h]
        · exact .inr h
    | @keep b r t _ _ ih =>
      intro hok hm
      rw [render_cons] at hm
      rcases List.mem_append.1 hm with hm | hm
      · have hb : b < 256 := hok (.pct b) (by simp)
        simp [Tok.render, pctUpper] at hm
        rcases hm with rfl | rfl | rfl
        · simp
        · right; right; left; exact (hexUpper_isHex (by omega)).1
        · right; right; left; exact (hexUpper_isHex (by omega)).1
      · rcases ih (fun x hx => hok x (by simp [hx])) hm with h | h
        · left; simp [h]
        · exact .inr h
  have key2 : ∀ s, WF s → Tok.ch c ∈ tokens s → c ∈ s := by
    intro s h
    induction h with
    | nil => rw [tokens_nil]; simp
    | chr hc _ _ ih =>
      rw [tokens_ch hc]
      intro hm
      rcases List.mem_cons.1 hm with hm | hm
      · cases hm; simp
      · simp [ih hm]
    | pct h1 h2 _ ih =>
      rw [tokens_pct h1 h2]
      intro hm
      rcases List.mem_cons.1 hm with hm | hm
      · cases hm
      · simp [ih hm]
  rcases key _ _ h1 (tokens_ok h) hc with h4 | h4
  · exact .inl (key2 s h h4)
  · exact .inr h4

theorem iunreserved_slash (S : Spec) : iunreserved S '/' = false := by cases S <;> decide

theorem pctn_no_slash {S : Spec} {s : Str} (h : WF s) (hs : '/' ∉ s) : '/' ∉ pctn S s := by
  intro hm
  rcases pctn_mem h hm with h | h | h | h
  · exact hs h
  · exact absurd h (by decide)
  · exact absurd h (by decide)
  · rw [iunreserved_slash] at h; cases h

/-- The text that a mode writes for a text. -/
def wr (S : Spec) (op : NormalizationMode) (s : Str) : Str := if op.case_pct then pctn S s else s

/-- Precondition on the text: well formed if it is going to be normalised. -/
def TextOK (op : NormalizationMode) (s : Str) : Prop := op.case_pct = true → WF s

section wr
variable {S : Spec} {op : NormalizationMode}

theorem writeText_eq {s : Str} (h : TextOK op s) : writeText S op s = some (wr S op s) := by
  unfold writeText wr
  by_cases hc : op.case_pct = true
  · rw [if_pos hc, if_pos hc, pctn_some S (h hc)]
  · rw [if_neg hc, if_neg hc]

theorem wr_nil : wr S op [] = [] := by
  unfold wr; split
  · exact pctn_nil S
  · rfl

theorem wr_empty {s : Str} (h : TextOK op s) : wr S op s = [] ↔ s = [] := by
  unfold wr
  by_cases hc : op.case_pct = true
  · rw [if_pos hc]; exact pctn_empty S (h hc)
  · rw [if_neg hc]

theorem wr_no_slash {s : Str} (h : TextOK op s) (hs : '/' ∉ s) : '/' ∉ wr S op s := by
  unfold wr
  by_cases hc : op.case_pct = true
  · rw [if_pos hc]; exact pctn_no_slash (h hc) hs
  · rw [if_neg hc]; exact hs

theorem TextOK.left {a b : Str} (h : TextOK op (a ++ '/' :: b)) : TextOK op a := fun hc =>
  ((PC_append_cons (p := fun _ => true) (d := '/') (by decide) (by decide)).1 (h hc)).1

theorem TextOK.right {a b : Str} (h : TextOK op (a ++ '/' :: b)) : TextOK op b := fun hc =>
  ((PC_append_cons (p := fun _ => true) (d := '/') (by decide) (by decide)).1 (h hc)).2.2

theorem wr_append {a b : Str} (h : TextOK op (a ++ '/' :: b)) :
    wr S op (a ++ '/' :: b) = wr S op a ++ '/' :: wr S op b := by
  have h1 := h.left
  have h2 := h.right
  unfold wr
  by_cases hc : op.case_pct = true
  · rw [if_pos hc, if_pos hc, if_pos hc]
    exact pctn_append_ch S (h1 hc) (by decide) (h2 hc)
  · rw [if_neg hc, if_neg hc, if_neg hc]

end wr

/-- The list with the names as written. -/
def wrSegs (S : Spec) (op : NormalizationMode) (L : List PSeg) : List PSeg :=
  L.map fun g => (g.1, wr S op g.2)

/-- Names of a path whose text is well formed are well formed. -/
theorem names_ok {op : NormalizationMode} {L : List PSeg} (hok : OKSegs L)
    (h : TextOK op (pathText L)) : ∀ g ∈ L, TextOK op g.2 := by
  have key : ∀ (L : List PSeg) (a : Str), AllSlash L → TextOK op (a ++ pathText L) →
      TextOK op a ∧ ∀ g ∈ L, TextOK op g.2 := by
    intro L
    induction L with
    | nil => intro a _ h; exact ⟨by simpa [pathText] using h, by simp⟩
    | cons g r ih =>
      intro a hal h
      rw [pathText_cons, segText, (hal g (by simp)).1] at h
      have h' : TextOK op (a ++ '/' :: (g.2 ++ pathText r)) := by simpa using h
      obtain ⟨h1, h2⟩ := ih g.2 (fun x hx => hal x (by simp [hx])) h'.right
      refine ⟨h'.left, ?_⟩
      intro x hx
      rcases List.mem_cons.1 hx with rfl | hx
      · exact h1
      · exact h2 x hx
  cases L with
  | nil => simp
  | cons g r =>
    obtain ⟨b, n⟩ := g
    cases b with
    | true =>
      refine (key ((true, n) :: r) [] ?_ h).2
      intro x hx
      rcases List.mem_cons.1 hx with rfl | hx
      · exact ⟨rfl, hok.1⟩
      · exact hok.2.2 x hx
    | false =>
      rw [pathText_cons] at h
      obtain ⟨h1, h2⟩ := key r n hok.2.2 h
      intro x hx
      rcases List.mem_cons.1 hx with rfl | hx
      · exact h1
      · exact h2 x hx

theorem textOK_of_names {op : NormalizationMode} {L : List PSeg}
    (h : ∀ g ∈ L, TextOK op g.2) : TextOK op (pathText L) := by
  intro hc
  induction L with
  | nil => exact .nil
  | cons g r ih =>
    rw [pathText_cons, segText]
    refine PC.append (PC.append ?_ (h g (by simp) hc)) (ih fun x hx => h x (by simp [hx]))
    cases g.1
    · exact .nil
    · exact .chr (by decide) rfl .nil

/-- Normalising the whole text of slash-separated segments is normalising the names. -/
theorem wr_pathText {S : Spec} {op : NormalizationMode} {L : List PSeg} (hal : AllSlash L) (a : Str)
    (ha : TextOK op a) (h : ∀ g ∈ L, TextOK op g.2) :
    wr S op (a ++ pathText L) = wr S op a ++ pathText (wrSegs S op L) := by
  induction L generalizing a with
  | nil => simp [pathText, wrSegs]
  | cons g r ih =>
    have hg := (hal g (by simp)).1
    have e : a ++ pathText (g :: r) = a ++ '/' :: (g.2 ++ pathText r) := by
      rw [pathText_cons, segText, hg]; simp
    have e2 : pathText (wrSegs S op (g :: r)) = '/' :: (wr S op g.2 ++ pathText (wrSegs S op r)) := by
      simp [wrSegs, pathText_cons, segText, hg]
    have hok : TextOK op (a ++ '/' :: (g.2 ++ pathText r)) := by
      intro hc
      have := textOK_of_names (op := op) (L := r) (fun x hx => h x (by simp [hx])) hc
      exact WF.append_ch (ha hc) (by decide) (PC.append (h g (by simp) hc) this)
    rw [e, e2, wr_append hok, ih (fun x hx => hal x (by simp [hx])) g.2 (h g (by simp))
      fun x hx => h x (by simp [hx])]

theorem wr_path {S : Spec} {op : NormalizationMode} {L : List PSeg} (hok : OKSegs L)
    (h : TextOK op (pathText L)) : wr S op (pathText L) = pathText (wrSegs S op L) := by
  have hn := names_ok hok h
  cases L with
  | nil => simp [pathText, wrSegs, wr_nil]
  | cons g r =>
    obtain ⟨b, n⟩ := g
    cases b with
    | true =>
      have hal : AllSlash ((true, n) :: r) := by
        intro x hx
        rcases List.mem_cons.1 hx with rfl | hx
        · exact ⟨rfl, hok.1⟩
        · exact hok.2.2 x hx
      have := wr_pathText (S := S) hal [] (fun _ => .nil) hn
      simpa [wr_nil] using this
    | false =>
      have := wr_pathText (S := S) hok.2.2 n (hn (false, n) (by simp)) fun x hx => hn x (by simp [hx])
      rw [pathText_cons]
      exact this

/-! ### The stack machine -/

/-- Is this a dot segment? -/
def isDots (g : PSeg) : Bool := SegmentKind.from_segment g.2 != .normal

/-- Effect of a segment on the stack of segments. -/
def stkStep (E : List PSeg) (g : PSeg) : List PSeg :=
  match SegmentKind.from_segment g.2 with
  | .dot => E
  | .dotDot => E.dropLast
  | .normal => E ++ [g]

def stk (L : List PSeg) : List PSeg := L.foldl stkStep []

def endDots (L : List PSeg) : Bool := match L.getLast? with | some g => isDots g | none => false

/-- The segments of the result. -/
def fin (L : List PSeg) : List PSeg := stk L ++ (if endDots L then [(true, [])] else [])

theorem stk_append (a : List PSeg) (g : PSeg) : stk (a ++ [g]) = stkStep (stk a) g := by
  simp [stk]

theorem stk_dots {D : List PSeg} (h : ∀ g ∈ D, isDots g = true) (P : List PSeg) :
    stk (D ++ P) = stk P := by
  have : D.foldl stkStep [] = [] := by
    induction D with
    | nil => rfl
    | cons g r ih =>
      have h1 := h g (by simp)
      rw [List.foldl_cons]
      have : stkStep [] g = [] := by
        unfold stkStep
        unfold isDots at h1
        cases hk : SegmentKind.from_segment g.2 with
        | normal => rw [hk] at h1; cases h1
        | dot => rfl
        | dotDot => rfl
      rw [this]
      exact ih fun x hx => h x (by simp [hx])
  unfold stk
  rw [List.foldl_append, this]

theorem endDots_append {a b : List PSeg} (hb : b ≠ []) : endDots (a ++ b) = endDots b := by
  unfold endDots
  rcases List.eq_nil_or_concat b with rfl | ⟨b', x, rfl⟩
  · exact absurd rfl hb
  · rw [List.concat_eq_append, ← List.append_assoc]; simp

theorem stk_mem {L : List PSeg} : ∀ g ∈ stk L, g ∈ L ∧ isDots g = false := by
  have key : ∀ L : List PSeg, ∀ E : List PSeg, ∀ g ∈ L.foldl stkStep E,
      g ∈ E ∨ (g ∈ L ∧ isDots g = false) := by
    intro L
    induction L with
    | nil => intro E g h; exact .inl h
    | cons x r ih =>
      intro E g h
      rw [List.foldl_cons] at h
      rcases ih _ g h with h | h
      · unfold stkStep at h
        cases hk : SegmentKind.from_segment x.2 with
        | dot => rw [hk] at h; exact .inl h
        | dotDot => rw [hk] at h; exact .inl ((List.dropLast_sublist E).subset h)
        | normal =>
          rw [hk] at h
          rcases List.mem_append.1 h with h | h
          · exact .inl h
          · simp at h
            subst h
            exact .inr ⟨by simp, by simp [isDots, hk]⟩
      · exact .inr ⟨by simp [h.1], h.2⟩
  intro g h
  rcases key L [] g h with h | h
  · simp at h
  · exact h

/-- Only the first segment of the stack can lack a slash. -/
theorem stk_ok {L : List PSeg} (h : OKSegs L) : OKSegs (stk L) := by
  have key : ∀ L : List PSeg, ∀ E : List PSeg, OKSegs E → AllSlash L → OKSegs (L.foldl stkStep E) := by
    intro L
    induction L with
    | nil => intro E h _; exact h
    | cons x r ih =>
      intro E hE hL
      rw [List.foldl_cons]
      refine ih _ ?_ fun g hg => hL g (by simp [hg])
      unfold stkStep
      cases hk : SegmentKind.from_segment x.2 with
      | dot => exact hE
      | dotDot =>
        rcases List.eq_nil_or_concat E with rfl | ⟨E', e, rfl⟩
        · trivial
        · simp only [List.concat_eq_append, List.dropLast_concat]
          rw [List.concat_eq_append] at hE
          exact hE.left
      | normal =>
        cases E with
        | nil =>
          have hx := hL x (by simp)
          exact ⟨hx.2, by simp [hx.1], by simp [AllSlash]⟩
        | cons e E =>
          refine ⟨hE.1, hE.2.1, AllSlash.append hE.2.2 ?_⟩
          intro g hg
          simp at hg
          subst hg
          exact hL g (by simp)
  cases L with
  | nil => trivial
  | cons x r =>
    unfold stk
    rw [List.foldl_cons]
    refine key r _ ?_ h.2.2
    unfold stkStep
    cases hk : SegmentKind.from_segment x.2 with
    | dot => trivial
    | dotDot => trivial
    | normal => exact ⟨h.1, h.2.1, by simp [AllSlash]⟩

theorem fin_ok {L : List PSeg} (h : OKSegs L) : OKSegs (fin L) := by
  have := stk_ok h
  unfold fin
  split
  · cases hs : stk L with
    | nil => exact ⟨by simp, by simp, by simp [AllSlash]⟩
    | cons e E =>
      rw [hs] at this
      refine ⟨this.1, this.2.1, AllSlash.append this.2.2 ?_⟩
      intro g hg; simp at hg; subst hg; simp
  · simpa using this

theorem fin_mem {L : List PSeg} : ∀ g ∈ fin L, g = (true, []) ∨ (g ∈ L ∧ isDots g = false) := by
  intro g hg
  unfold fin at hg
  rcases List.mem_append.1 hg with h | h
  · exact .inr (stk_mem g h)
  · split at h
    · simp at h; exact .inl h
    · simp at h

theorem fin_ne {L : List PSeg} (h : L ≠ []) : fin L ≠ [] := by
  rcases List.eq_nil_or_concat L with rfl | ⟨L', g, rfl⟩
  · exact absurd rfl h
  · unfold fin
    rw [List.concat_eq_append]
    by_cases hd : isDots g = true
    · have : endDots (L' ++ [g]) = true := by simp [endDots, hd]
      rw [this]; simp
    · rw [stk_append]
      unfold stkStep
      unfold isDots at hd
      simp at hd
      rw [hd]; simp

theorem fin_dots {D : List PSeg} (h : ∀ g ∈ D, isDots g = true) {P : List PSeg} (hP : P ≠ []) :
    fin (D ++ P) = fin P := by
  unfold fin; rw [stk_dots h, endDots_append hP]

theorem fin_all_dots {D : List PSeg} (h : ∀ g ∈ D, isDots g = true) (hD : D ≠ []) :
    fin D = [(true, [])] := by
  unfold fin
  have h1 : stk D = [] := by have := stk_dots h []; simpa [stk] using this
  have h2 : endDots D = true := by
    rcases List.eq_nil_or_concat D with rfl | ⟨L', g, rfl⟩
    · exact absurd rfl hD
    · have := h g (by simp)
      simp [endDots, this]
  rw [h1, h2]; rfl

theorem stk_all_normal {R : List PSeg} (h : ∀ g ∈ R, isDots g = false) : stk R = R := by
  have key : ∀ R : List PSeg, (∀ g ∈ R, isDots g = false) → ∀ E, R.foldl stkStep E = E ++ R := by
    intro R
    induction R with
    | nil => intro _ E; simp
    | cons x r ih =>
      intro h E
      rw [List.foldl_cons, ih fun g hg => h g (by simp [hg])]
      have := h x (by simp)
      unfold isDots at this
      simp at this
      simp [stkStep, this]
  simpa [stk] using key R h []

theorem fin_all_normal {R : List PSeg} (h : ∀ g ∈ R, isDots g = false) : fin R = R := by
  unfold fin
  rw [stk_all_normal h]
  have : endDots R = false := by
    unfold endDots
    cases hl : R.getLast? with
    | none => rfl
    | some g => exact h g (List.mem_of_getLast? hl)
  rw [this]; simp

/-! ### Emission -/

/-- Text of the emitted segments, with the `/.` that protects a leading `//`. -/
def emitted (S : Spec) (op : NormalizationMode) (auth : Bool) (E : List PSeg) : Str :=
  match E with
  | g :: h :: r =>
    (if !auth && g.1 && g.2.isEmpty then ['/', '.'] else []) ++ pathText (wrSegs S op (g :: h :: r))
  | E => pathText (wrSegs S op E)

/-- The value of `only_a_slash_is_written`. -/
def onlySlash (auth : Bool) (E : List PSeg) : Option Bool :=
  match E with
  | [] => none
  | [g] => some (g.1 && g.2.isEmpty)
  | g :: _ :: _ => some (auth && g.1 && g.2.isEmpty)

theorem wrSegs_append (S : Spec) (op : NormalizationMode) (a b : List PSeg) :
    wrSegs S op (a ++ b) = wrSegs S op a ++ wrSegs S op b := by simp [wrSegs]

theorem emit_segment_eq {S : Spec} {op : NormalizationMode} {auth first : Bool} {E : List PSeg}
    {g : PSeg} (hg : TextOK op g.2) (h1 : E = [] → first = g.1) (h2 : E ≠ [] → g.1 = true) :
    ∃ t, emit_segment S (onlySlash auth E) first g.2 auth op = some (t, onlySlash auth (E ++ [g])) ∧
      emitted S op auth (E ++ [g]) = emitted S op auth E ++ t := by
  unfold emit_segment
  rw [writeText_eq hg, Option.map_some]
  match E with
  | [] =>
    have := h1 rfl
    subst this
    refine ⟨_, rfl, ?_⟩
    simp [emitted, wrSegs, pathText, segText]
  | [e] =>
    have hs := h2 (by simp)
    obtain ⟨b, n⟩ := e
    simp only [onlySlash]
    cases b <;> cases auth <;> by_cases hn : n = []
    all_goals
      refine ⟨_, by simp [hn]; rfl, ?_⟩
      simp [emitted, wrSegs, pathText, segText, hs, hn, wr_nil]
  | e :: e2 :: r =>
    have hs := h2 (by simp)
    simp only [onlySlash]
    cases auth with
    | false =>
      refine ⟨_, by simp; rfl, ?_⟩
      simp [emitted, wrSegs, pathText, segText, hs]
    | true =>
      refine ⟨_, by simp; rfl, ?_⟩
      simp [emitted, wrSegs, pathText, segText, hs]

theorem emitQueue_eq {S : Spec} {op : NormalizationMode} {auth first : Bool} (Q : List PSeg)
    (E : List PSeg) (hQ : ∀ g ∈ Q, TextOK op g.2)
    (h1 : E = [] → ∀ g r, Q = g :: r → first = g.1 ∧ AllSlash r)
    (h2 : E ≠ [] → AllSlash Q) (k : Nat) :
    ∃ t, emitQueue S first auth op (Q.map (fun g => some g.2) ++ List.replicate k none)
        (onlySlash auth E) = some (t, onlySlash auth (E ++ Q)) ∧
      emitted S op auth (E ++ Q) = emitted S op auth E ++ t := by
  induction Q generalizing E with
  | nil =>
    refine ⟨[], ?_, by simp⟩
    simp only [List.map_nil, List.nil_append, List.append_nil]
    induction k with
    | zero => rfl
    | succ k ih => rw [List.replicate_succ, emitQueue]; exact ih
  | cons g r ih =>
    have hstep := emit_segment_eq (S := S) (op := op) (auth := auth) (first := first) (E := E) (g := g)
      (hQ g (by simp)) (fun e => (h1 e g r rfl).1) (fun e => (h2 e g (by simp)).1)
    obtain ⟨t, ht, he⟩ := hstep
    have hal : AllSlash r := by
      by_cases hE : E = []
      · exact (h1 hE g r rfl).2
      · exact fun x hx => h2 hE x (by simp [hx])
    obtain ⟨u, hu, hv⟩ := ih (E ++ [g]) (fun x hx => hQ x (by simp [hx])) (by simp) (fun _ => hal)
    refine ⟨t ++ u, ?_, ?_⟩
    · rw [List.map_cons, List.cons_append, emitQueue, ht]
      simp only [hu, Option.map_some]
      simp
    · have e : E ++ g :: r = (E ++ [g]) ++ r := by simp
      rw [e, hv, he]; simp

/-! ### The scan -/

theorem kindOf {p : PathToNormalize} (hi : p.Inv) {L1 L2 : List PSeg} {g : PSeg}
    (h : p.text = pathText (L1 ++ g :: L2)) (hok : OKSegs (L1 ++ g :: L2)) :
    PathSegment.kind ⟨g.1, blen (pathText L1) + (if g.1 then 1 else 0),
      blen (pathText L1) + blen (segText g)⟩ p = some (SegmentKind.from_segment g.2) := by
  unfold PathSegment.kind; rw [kind_eq hi h hok]; rfl

theorem blen_snoc (L : List PSeg) (g : PSeg) :
    blen (pathText (L ++ [g])) = blen (pathText L) + blen (segText g) := by
  rw [pathText_append, blen_append]; simp [pathText]

theorem skippedLen_eq {p : PathToNormalize} (hi : p.Inv) (L1 L2 : List PSeg)
    (h : p.text = pathText (L1 ++ L2)) (hok : OKSegs (L1 ++ L2)) :
    skippedLen p (posList L2 (blen (pathText L1))) (blen (pathText L1)) =
      some (blen (pathText (L1 ++ L2.takeWhile isDots))) := by
  induction L2 generalizing L1 with
  | nil => simp [posList, skippedLen]
  | cons g r ih =>
    rw [posList, skippedLen, kindOf hi h hok]
    have e : L1 ++ g :: r = (L1 ++ [g]) ++ r := by simp
    by_cases hd : isDots g = true
    · have hk : SegmentKind.from_segment g.2 ≠ .normal := by
        intro hk; rw [isDots, hk] at hd; cases hd
      have := ih (L1 ++ [g]) (by rw [h, e]) (by rw [← e]; exact hok)
      rw [blen_snoc] at this
      cases hkk : SegmentKind.from_segment g.2 with
      | normal => exact absurd hkk hk
      | dot => simp only; rw [this, List.takeWhile_cons, if_pos hd]; simp
      | dotDot => simp only; rw [this, List.takeWhile_cons, if_pos hd]; simp
    · have hk : SegmentKind.from_segment g.2 = .normal := by
        simpa [isDots] using hd
      rw [hk]
      simp [hd]

theorem stk_length_le (L : List PSeg) : (stk L).length ≤ L.length := by
  rw [← List.reverse_reverse L]
  generalize L.reverse = M
  induction M with
  | nil => simp [stk]
  | cons g r ih =>
    rw [List.reverse_cons, stk_append, stkStep]
    cases SegmentKind.from_segment g.2 <;> simp at ih ⊢ <;> omega

theorem stk_length_dots (N : List PSeg) {R : List PSeg} (h : ∀ g ∈ R, isDots g = true) :
    (stk (N ++ R)).length ≤ (stk N).length := by
  induction R generalizing N with
  | nil => simp
  | cons g r ih =>
    have := ih (N ++ [g]) fun x hx => h x (by simp [hx])
    have hg := h g (by simp)
    have e : (stk (N ++ [g])).length ≤ (stk N).length := by
      rw [stk_append, stkStep]
      cases hk : SegmentKind.from_segment g.2 with
      | normal => simp [isDots, hk] at hg
      | dot => simp
      | dotDot => simp
    have e2 : N ++ g :: r = (N ++ [g]) ++ r := by simp
    rw [e2]; omega

/-- State of the scan after the segments `X`. -/
structure ScanInv (X : List PSeg) (st : QState) : Prop where
  level : st.level = (stk X).length
  queue : st.queue = ((stk X).take 8).map (fun g => some g.2) ++
    List.replicate (8 - (stk X).length) none
  first : ∀ g r, stk X = g :: r → st.first_has_slash = g.1
  split : ∃ N R, X = N ++ R ∧ st.resolved_end = blen (pathText N) ∧ stk R = (stk X).drop 8 ∧
    (st.may = false → ∀ g ∈ R, isDots g = false) ∧
    (∀ g r, X = g :: r → isDots g = false → N ≠ []) ∧ (R = [] → endDots X = false) ∧
    ((∃ g ∈ R, isDots g = false) → 8 ≤ N.length)

theorem set_replicate_none (l : List (Option Str)) (k i : Nat) :
    (l ++ List.replicate k none).set (l.length + i) none = l ++ List.replicate k none := by
  rw [List.set_append_right _ _ (by omega)]
  congr 1
  induction k generalizing i with
  | zero => rfl
  | succ k ih =>
    rw [show l.length + i - l.length = i by omega]
    have : ∀ k i, (List.replicate k (none : Option Str)).set i none = List.replicate k none := by
      intro k
      induction k with
      | zero => intro i; rfl
      | succ k ih =>
        intro i
        cases i with
        | zero => rfl
        | succ i => rw [List.replicate_succ, List.set_cons_succ, ih]
    exact this _ _

/-- Popping: the queue after `..`. -/
theorem queue_pop (E : List PSeg) :
    ((E.take 8).map (fun g : PSeg => some g.2) ++ List.replicate (8 - E.length) none).set (E.length - 1)
      (none : Option Str) =
    (E.dropLast.take 8).map (fun g => some g.2) ++ List.replicate (8 - E.dropLast.length) none := by
  rcases List.eq_nil_or_concat E with rfl | ⟨E', e, rfl⟩
  · rfl
  · rw [List.concat_eq_append, List.dropLast_concat]
    simp only [List.length_append, List.length_cons, List.length_nil]
    by_cases h8 : E'.length < 8
    · have t1 : (E' ++ [e]).take 8 = E' ++ [e] := List.take_of_length_le (by simp; omega)
      have t2 : E'.take 8 = E' := List.take_of_length_le (by omega)
      rw [t1, t2, List.map_append, List.append_assoc]
      rw [show E'.length + (0 + 1) - 1 = (E'.map fun g => some g.2).length + 0 by simp]
      rw [List.set_append_right _ _ (by omega)]
      congr 1
      rw [show 8 - E'.length = (8 - (E'.length + (0 + 1))) + 1 by omega, List.replicate_succ]
      simp
    · have t1 : (E' ++ [e]).take 8 = E'.take 8 := List.take_append_of_le_length (by omega)
      rw [t1, show 8 - (E'.length + (0 + 1)) = 0 by omega, show 8 - E'.length = 0 by omega]
      rw [List.set_eq_of_length_le]
      simp; omega

/-- Pushing below the queue size. -/
theorem queue_push (E : List PSeg) (g : PSeg) (h : E.length < 8) :
    ((E.take 8).map (fun g : PSeg => some g.2) ++ List.replicate (8 - E.length) none).set E.length
      (some g.2) =
    ((E ++ [g]).take 8).map (fun g => some g.2) ++ List.replicate (8 - (E ++ [g]).length) none := by
  have t1 : (E ++ [g]).take 8 = E ++ [g] := List.take_of_length_le (by simp; omega)
  have t2 : E.take 8 = E := List.take_of_length_le (by omega)
  rw [t1, t2, List.map_append, List.append_assoc]
  rw [show E.length = (E.map fun g : PSeg => some g.2).length by simp]
  rw [List.set_append_right _ _ (by omega)]
  congr 1
  rw [List.length_map, show 8 - E.length = (8 - (E ++ [g]).length) + 1 by simp; omega,
    List.replicate_succ]
  simp

theorem scanInv_step {p : PathToNormalize} (hi : p.Inv) {X Y : List PSeg} {g : PSeg} {st : QState}
    (h : p.text = pathText (X ++ g :: Y)) (hok : OKSegs (X ++ g :: Y)) (hs : ScanInv X st) :
    ∃ st', ScanInv (X ++ [g]) st' ∧ ∀ r,
      scan p (⟨g.1, blen (pathText X) + (if g.1 then 1 else 0),
        blen (pathText X) + blen (segText g)⟩ :: r) st = scan p r st' := by
  obtain ⟨N, R, hX, hre, hstk, hmay, hN, _, h8N⟩ := hs.split
  have h8D : isDots g = true → (∃ x ∈ R ++ [g], isDots x = false) → 8 ≤ N.length := by
    rintro hg ⟨x, hx, hd⟩
    rcases List.mem_append.1 hx with hx | hx
    · exact h8N ⟨x, hx, hd⟩
    · simp at hx; subst hx; rw [hg] at hd; cases hd
  have hNX : ∀ a r, X ++ [g] = a :: r → isDots a = false → X ≠ [] → N ≠ [] := by
    intro a r he ha hx
    cases X with
    | nil => exact absurd rfl hx
    | cons x X =>
      simp at he
      exact hN x X rfl (he.1 ▸ ha)
  cases hk : SegmentKind.from_segment g.2 with
  | dot =>
    have hst : stk (X ++ [g]) = stk X := by rw [stk_append, stkStep, hk]
    refine ⟨{ st with may := true }, ⟨?_, ?_, ?_, N, R ++ [g], by simp [hX], hre, ?_, by simp, ?_, by simp,
        h8D (by simp [isDots, hk])⟩, ?_⟩
    · rw [hst]; exact hs.level
    · rw [hst]; exact hs.queue
    · rw [hst]; exact hs.first
    · rw [stk_append, stkStep, hk, hst]; exact hstk
    · intro a r he ha hn
      by_cases hx : X = []
      · subst hx
        simp at he
        rw [← he.1, isDots, hk] at ha; cases ha
      · exact hNX a r he ha hx hn
    · intro r
      rw [scan, kindOf hi h hok, hk]
  | dotDot =>
    have hst : stk (X ++ [g]) = (stk X).dropLast := by rw [stk_append, stkStep, hk]
    refine ⟨{ st with level := st.level - 1, may := true, queue := st.queue.set (st.level - 1) none },
      ⟨?_, ?_, ?_, N, R ++ [g], by simp [hX], hre, ?_, by simp, ?_, by simp,
        h8D (by simp [isDots, hk])⟩, ?_⟩
    · rw [hst, List.length_dropLast]; simp only; rw [hs.level]
    · rw [hst]
      show st.queue.set (st.level - 1) none = _
      rw [hs.queue, hs.level, queue_pop]
    · intro a r he
      rw [hst] at he
      cases hE : stk X with
      | nil => rw [hE] at he; cases he
      | cons e E =>
        rw [hE] at he
        cases E with
        | nil => cases he
        | cons e2 E =>
          simp at he
          rw [← he.1]; exact hs.first e (e2 :: E) hE
    · rw [stk_append, stkStep, hk, hst, hstk, List.dropLast_eq_take, List.dropLast_eq_take, List.take_drop,
        List.drop_take]
      simp only [List.length_drop]
      rw [List.take_drop]
      by_cases h8 : (stk X).length ≤ 8
      · rw [List.drop_of_length_le (by simp; omega), List.drop_of_length_le (by simp; omega)]
      · rw [show 8 + (8 + ((stk X).length - 8 - 1) - 8) = (stk X).length - 1 by omega]
    · intro a r he ha hn
      by_cases hx : X = []
      · subst hx
        simp at he
        rw [← he.1, isDots, hk] at ha; cases ha
      · exact hNX a r he ha hx hn
    · intro r
      rw [scan, kindOf hi h hok, hk]
  | normal =>
    have hst : stk (X ++ [g]) = stk X ++ [g] := by rw [stk_append, stkStep, hk]
    have hql : st.queue.length = 8 := by rw [hs.queue]; simp; omega
    by_cases h8 : (stk X).length < 8
    · refine ⟨⟨st.queue.set st.level (some g.2),
          (if st.level = 0 then g.1 else st.first_has_slash),
          blen (pathText X) + blen (segText g), st.level + 1, false⟩,
        ⟨?_, ?_, ?_, X ++ [g], [], by simp, by rw [blen_snoc], ?_, by simp, by simp,
          fun _ => by simp [endDots, isDots, hk], by simp⟩, ?_⟩
      · rw [hst]; simp [hs.level]
      · rw [hst]
        show st.queue.set st.level (some g.2) = _
        rw [hs.queue, hs.level, queue_push _ _ h8]
      · intro a r he
        rw [hst] at he
        show (if st.level = 0 then g.1 else st.first_has_slash) = a.1
        rw [hs.level]
        cases hE : stk X with
        | nil => rw [hE] at he; simp at he; simp [he.1]
        | cons e E =>
          rw [hE] at he
          simp at he
          simp
          rw [← he.1]; exact hs.first e E hE
      · rw [hst, List.drop_of_length_le (by simp; omega)]; rfl
      · intro r
        rw [scan, kindOf hi h hok, hk]
        simp only
        rw [if_pos (by rw [hql, hs.level]; exact h8), kind_eq hi h hok]
    · refine ⟨{ st with level := st.level + 1 }, ⟨?_, ?_, ?_, N, R ++ [g], by simp [hX], hre, ?_, ?_, ?_, by simp,
        fun _ => ?_⟩, ?_⟩
      · rw [hst]; simp [hs.level]
      · rw [hst]
        show st.queue = _
        rw [hs.queue, List.take_append_of_le_length (by omega)]
        rw [show 8 - (stk X).length = 0 by omega, show 8 - (stk X ++ [g]).length = 0 by simp; omega]
      · intro a r he
        rw [hst] at he
        cases hE : stk X with
        | nil => rw [hE] at h8; simp at h8
        | cons e E =>
          rw [hE] at he
          simp at he
          rw [← he.1]; exact hs.first e E hE
      · rw [stk_append, stkStep, hk, hst, hstk, List.drop_append_of_le_length (by omega)]
      · intro hm x hx
        rcases List.mem_append.1 hx with hx | hx
        · exact hmay hm x hx
        · simp at hx; subst hx; simp [isDots, hk]
      · intro a r he ha hn
        by_cases hx : X = []
        · subst hx; simp [stk] at h8
        · exact hNX a r he ha hx hn
      · by_cases hR : ∃ x ∈ R, isDots x = false
        · exact h8N hR
        · have h1 : (stk X).length ≤ (stk N).length := by
            rw [hX]
            exact stk_length_dots N fun x hx => by
              cases hd : isDots x with
              | true => rfl
              | false => exact absurd ⟨x, hx, hd⟩ hR
          have h2 := stk_length_le N
          omega
      · intro r
        rw [scan, kindOf hi h hok, hk]
        simp only
        rw [if_neg (by rw [hql, hs.level]; exact h8)]

theorem scan_eq {p : PathToNormalize} (hi : p.Inv) (X Y : List PSeg) (st : QState)
    (h : p.text = pathText (X ++ Y)) (hok : OKSegs (X ++ Y)) (hs : ScanInv X st) :
    ∃ st', scan p (posList Y (blen (pathText X))) st = some st' ∧ ScanInv (X ++ Y) st' := by
  induction Y generalizing X st with
  | nil => exact ⟨st, by simp [posList, scan], by simpa using hs⟩
  | cons g r ih =>
    obtain ⟨st', h1, h2⟩ := scanInv_step hi h hok hs
    have e : X ++ g :: r = (X ++ [g]) ++ r := by simp
    obtain ⟨st'', h3, h4⟩ := ih (X ++ [g]) st' (by rw [h, e]) (by rw [← e]; exact hok) h1
    rw [blen_snoc] at h3
    refine ⟨st'', ?_, by rw [e]; exact h4⟩
    rw [posList, h2, h3]

/-- One round of the `while` loop. -/
theorem resolve_step {S : Spec} {op : NormalizationMode} {auth : Bool} {p : PathToNormalize}
    (hi : p.Inv) {L E : List PSeg} (h : p.text = pathText L) (hok : OKSegs L) (hne : L ≠ [])
    (hn : ∀ g ∈ L, TextOK op g.2) (hE : E = [] ∨ AllSlash L) :
    (∃ t, resolve_and_write_path_prefixes S op auth (onlySlash auth E) true p = some (.brk t) ∧
      emitted S op auth (E ++ fin L) = emitted S op auth E ++ t) ∨
    (∃ t Q R may p', resolve_and_write_path_prefixes S op auth (onlySlash auth E) true p =
        some (.cont t (onlySlash auth (E ++ Q)) may p') ∧
      emitted S op auth (E ++ Q) = emitted S op auth E ++ t ∧ fin L = Q ++ fin R ∧
      (∃ N, N ≠ [] ∧ L = N ++ R ∧ ((∃ g ∈ R, isDots g = false) → 8 ≤ N.length)) ∧ p'.Inv ∧ p'.text = pathText R ∧
      (may = false → ∀ g ∈ R, isDots g = false) ∧
      (may = false → R ≠ [] → 2 ≤ Q.length) ∧ Q.length ≤ 8) := by
  have hnemp : p.is_empty = false := by
    cases he : p.is_empty with
    | false => rfl
    | true =>
      rw [inv_empty hi, h, hok.text_ne] at he
      exact absurd he hne
  have hsplit : L.takeWhile isDots ++ L.dropWhile isDots = L := List.takeWhile_append_dropWhile
  have hD : ∀ g ∈ L.takeWhile isDots, isDots g = true := fun g hg =>
    (List.all_eq_true.1 (List.all_takeWhile (p := isDots) (l := L))) g hg
  generalize hD' : L.takeWhile isDots = D at hsplit hD
  generalize hP' : L.dropWhile isDots = P at hsplit
  have hskip := skippedLen_eq hi [] L h hok
  rw [List.nil_append, hD'] at hskip
  simp only [pathText_nil, blen] at hskip
  obtain ⟨p1, hr1, ht1, hi1⟩ := remove_start_eq hi (a := pathText D) (b := pathText P)
    (by rw [h, ← pathText_append, hsplit])
  have hokP : OKSegs P := by rw [← hsplit] at hok; exact hok.right
  unfold resolve_and_write_path_prefixes
  simp only [hnemp, segments_eq hi h hok, hskip, hr1, Bool.not_true, Bool.or_self, Bool.false_eq_true,
    if_false, Option.bind_eq_bind, Option.bind_some]
  by_cases hP : P = []
  · left
    have he : p1.is_empty = true := by rw [inv_empty hi1, ht1, hP]; rfl
    simp only [he, if_true]
    refine ⟨_, rfl, ?_⟩
    have hDL : D = L := by rw [hP, List.append_nil] at hsplit; exact hsplit
    rw [fin_all_dots (by rw [← hDL]; exact hD) hne]
    obtain ⟨t, h1, h2⟩ := emit_segment_eq (S := S) (op := op) (auth := auth) (first := true) (E := E)
      (g := (true, [])) (fun _ => .nil) (fun _ => rfl) (fun _ => rfl)
    rw [h2]
    congr 1
    unfold emit_segment at h1
    rw [writeText_eq (fun _ => .nil), wr_nil, Option.map_some, Option.some.injEq] at h1
    have h3 := congrArg Prod.fst h1
    simp only at h3
    rw [← h3]
    cases ho : onlySlash auth E with
    | none => simp
    | some o => cases o <;> cases auth <;> simp
  · right
    have he : p1.is_empty = false := by
      cases he : p1.is_empty with
      | false => rfl
      | true =>
        rw [inv_empty hi1, ht1, hokP.text_ne] at he
        exact absurd he hP
    have hinit : ScanInv [] ⟨List.replicate QUEUE_SIZE none, false, 0, 0, true⟩ :=
      ⟨rfl, rfl, (by intro g r h; cases h), [], [], rfl, rfl, rfl, by simp, by simp, fun _ => rfl, by simp⟩
    obtain ⟨st, hs1, hs2⟩ := scan_eq hi1 [] P _ ht1 hokP hinit
    rw [List.nil_append] at hs2
    simp only [pathText_nil, blen] at hs1
    obtain ⟨N, R, hX, hre, hstk, hmay, hN, hend, h8N⟩ := hs2.split
    have hPhead : ∀ g r, P = g :: r → isDots g = false := by
      intro g r hg
      have := List.head?_dropWhile_not isDots L
      rw [hP', hg] at this
      simpa using this
    have hNne : N ≠ [] := by
      cases hP2 : P with
      | nil => exact absurd hP2 hP
      | cons g r => exact hN g r hP2 (hPhead g r hP2)
    have hQok : OKSegs ((stk P).take 8) := by
      have := stk_ok hokP
      rw [← List.take_append_drop 8 (stk P)] at this
      exact this.left
    have hQmem : ∀ g ∈ (stk P).take 8, g ∈ L := by
      intro g hg
      have := (stk_mem g (List.mem_of_mem_take hg)).1
      rw [← hsplit]; simp [this]
    obtain ⟨t, ht, hem⟩ := emitQueue_eq (S := S) (op := op) (auth := auth)
      (first := st.first_has_slash) ((stk P).take 8) E (fun g hg => hn g (hQmem g hg))
      (by
        intro _ g r hg
        refine ⟨?_, ?_⟩
        · cases hsP : stk P with
          | nil => rw [hsP] at hg; cases hg
          | cons e E' =>
            rw [hsP] at hg
            simp at hg
            rw [← hg.1]; exact hs2.first e E' hsP
        · rw [hg] at hQok; exact hQok.2.2)
      (by
        intro hEne g hg
        rcases hE with hE | hE
        · exact absurd hE hEne
        · exact hE g (hQmem g hg))
      (8 - (stk P).length)
    obtain ⟨p2, hr2, ht2, hi2⟩ := remove_start_eq hi1 (a := pathText N) (b := pathText R)
      (by rw [ht1, ← pathText_append, ← hX])
    rw [← hs2.queue] at ht
    simp only [he, Bool.false_eq_true, if_false, segments_eq hi1 ht1 hokP, Option.bind_some, hs1, ht,
      hre, hr2]
    refine ⟨t, (stk P).take 8, R, st.may, p2, rfl, hem, ?_, ⟨D ++ N, by simp [hNne], ?_, fun h => by
        have := h8N h; simp; omega⟩, hi2, ht2,
      hmay, ?_, by simp; omega⟩
    · rw [← hsplit, fin_dots hD hP]
      unfold fin
      rw [hstk, ← List.append_assoc, List.take_append_drop]
      congr 1
      by_cases hR : R = []
      · rw [hend hR, hR]; rfl
      · rw [hX, endDots_append hR]
    · rw [← hsplit, hX]; simp
    · intro hm hR
      have h1 := stk_all_normal (hmay hm)
      rw [hstk] at h1
      have h2 : ((stk P).drop 8).length ≠ 0 := by
        rw [h1]; intro h; exact hR (List.length_eq_zero_iff.1 h)
      simp at h2 ⊢
      omega

/-- The `while` loop. -/
theorem whileLoop_eq {S : Spec} {op : NormalizationMode} {auth : Bool} (fuel : Nat)
    {p : PathToNormalize} {may : Bool}
    (hi : p.Inv) {L E : List PSeg} (h : p.text = pathText L) (hok : OKSegs L)
    (hn : ∀ g ∈ L, TextOK op g.2) (hE : E = [] ∨ AllSlash L)
    (hmay : may = false → (∀ g ∈ L, isDots g = false) ∧ (L ≠ [] → 2 ≤ E.length))
    (hf : L.length < fuel) :
    ∃ t, (whileLoop S op auth fuel (onlySlash auth E) may p = some (t, none) ∧
        emitted S op auth (E ++ fin L) = emitted S op auth E ++ t) ∨
      (∃ Q R p', whileLoop S op auth fuel (onlySlash auth E) may p =
          some (t, some (onlySlash auth (E ++ Q), p')) ∧
        emitted S op auth (E ++ Q) = emitted S op auth E ++ t ∧ fin L = Q ++ R ∧ p'.Inv ∧
        p'.text = pathText R ∧ (∃ N, L = N ++ R) ∧ (R ≠ [] → 2 ≤ (E ++ Q).length)) := by
  induction fuel generalizing p may L E with
  | zero => omega
  | succ fuel ih =>
    by_cases hL : L = []
    · have he : p.is_empty = true := by rw [inv_empty hi, h, hL]; rfl
      refine ⟨[], .inr ⟨[], [], p, ?_, by simp, by rw [hL]; rfl, hi, by rw [h, hL], ⟨L, by simp⟩, by simp⟩⟩
      rw [whileLoop]; simp [he]
    · have he : p.is_empty = false := by
        cases he : p.is_empty with
        | false => rfl
        | true =>
          rw [inv_empty hi, h, hok.text_ne] at he
          exact absurd he hL
      cases may with
      | false =>
        obtain ⟨hm1, hm2⟩ := hmay rfl
        refine ⟨[], .inr ⟨[], L, p, ?_, by simp, ?_, hi, h, ⟨[], rfl⟩, ?_⟩⟩
        · rw [whileLoop]; simp
        · rw [fin_all_normal hm1]; rfl
        · intro _; simpa using hm2 hL
      | true =>
        rcases resolve_step (S := S) (op := op) (auth := auth) hi h hok hL hn hE with
          ⟨t, h1, h2⟩ | ⟨t, Q, R, may', p', h1, h2, h3, ⟨N, hN, hNR, _⟩, h4, h5, h6, h7, _⟩
        · refine ⟨t, .inl ⟨?_, h2⟩⟩
          rw [whileLoop, h1]; simp [he]
        · have hal : AllSlash R := by rw [hNR] at hok; exact hok.tail_of_append hN
          have hlen : R.length < fuel := by
            have : 0 < N.length := List.length_pos_iff.2 hN
            rw [hNR] at hf; simp at hf; omega
          obtain ⟨u, hu⟩ := ih (p := p') (may := may') (L := R) (E := E ++ Q) h4 h5 hal.ok
            (fun g hg => hn g (by rw [hNR]; simp [hg])) (.inr hal)
            (fun hm => ⟨h6 hm, fun hR => by have := h7 hm hR; simp; omega⟩) hlen
          refine ⟨t ++ u, ?_⟩
          rcases hu with ⟨hw, hx⟩ | ⟨Q', R', p'', hw, hx, hy, hz, ha, hb, hc⟩
          · left
            refine ⟨?_, ?_⟩
            · rw [whileLoop, h1]; simp [he, hw]
            · rw [h3, ← List.append_assoc, hx, h2, List.append_assoc]
          · right
            refine ⟨Q ++ Q', R', p'', ?_, ?_, ?_, hz, ha, ?_, ?_⟩
            · rw [whileLoop, h1]; simp [he, hw]
            · rw [← List.append_assoc, hx, h2, List.append_assoc]
            · rw [h3, hy, List.append_assoc]
            · obtain ⟨M, hM⟩ := hb
              exact ⟨N ++ M, by rw [hNR, hM]; simp⟩
            · intro hR; simpa using hc hR

/-- Writing the two buffers writes the text. -/
theorem write_buffers {S : Spec} {op : NormalizationMode} {p : PathToNormalize} (hi : p.Inv)
    (h : TextOK op p.text) :
    ∃ f b, writeText S op p.front = some f ∧
      (match p.back with | none => some [] | some b => writeText S op b) = some b ∧
      f ++ b = wr S op p.text := by
  unfold PathToNormalize.text at h ⊢
  cases hb : p.back with
  | none =>
    rw [hb] at h
    simp at h
    exact ⟨_, [], writeText_eq h, rfl, by simp⟩
  | some b =>
    obtain ⟨_, f, hf⟩ := hi b hb
    rw [hb] at h
    simp only [Option.getD_some] at h ⊢
    rw [hf] at h ⊢
    have h' : TextOK op (f ++ '/' :: b) := by simpa using h
    have h1 : TextOK op (f ++ ['/']) := fun hc => WF.append_ch (h'.left hc) (by decide) .nil
    refine ⟨_, _, writeText_eq h1, writeText_eq h'.right, ?_⟩
    have e1 := wr_append (S := S) h1
    have e2 := wr_append (S := S) h'
    rw [e1, wr_nil]
    simp only [List.append_assoc, List.singleton_append]
    rw [e2]

theorem emitted_append {S : Spec} {op : NormalizationMode} {auth : Bool} {E R : List PSeg}
    (h : 2 ≤ E.length) :
    emitted S op auth (E ++ R) = emitted S op auth E ++ pathText (wrSegs S op R) := by
  match E, h with
  | e :: e2 :: r, _ => simp [emitted, wrSegs, pathText]

/-- The part of `fmt_write_normalize` after the removal of the ignorable prefix. -/
theorem main_part {S : Spec} {op : NormalizationMode} {auth : Bool} {p : PathToNormalize} (hi : p.Inv)
    {L : List PSeg} (h : p.text = pathText L) (hok : OKSegs L) (hn : TextOK op p.text) :
    ∃ out r, whileLoop S op auth (p.len + 1) none true p = some (out, r) ∧
      (match r with
        | none => some out
        | some (o, p) => (writeRest S op auth o p).map fun t => out ++ t) =
      some (emitted S op auth (fin L)) := by
  rw [h] at hn
  have hlen : L.length < p.len + 1 := by
    rw [len_text, h]; have := segs_length_le hok; omega
  obtain ⟨t, ht⟩ := whileLoop_eq (S := S) (op := op) (auth := auth) (p.len + 1) (may := true)
    (E := []) hi h hok (names_ok hok hn) (.inl rfl) (by simp) hlen
  have e0 : emitted S op auth [] = [] := rfl
  rcases ht with ⟨h1, h2⟩ | ⟨Q, R, p', h1, h2, h3, h4, h5, ⟨N, h6⟩, h7⟩
  · refine ⟨t, none, h1, ?_⟩
    rw [List.nil_append, e0, List.nil_append] at h2
    simp only [h2]
  · rw [List.nil_append, e0, List.nil_append] at h2
    rw [List.nil_append] at h1 h7
    refine ⟨t, _, h1, ?_⟩
    simp only
    rw [h3, ← h2]
    have hokR : OKSegs R := by rw [h6] at hok; exact hok.right
    by_cases hR : R = []
    · have he : p'.is_empty = true := by rw [inv_empty h4, h5, hR]; rfl
      unfold writeRest
      simp [he, hR]
    · have he : p'.is_empty = false := by
        cases he : p'.is_empty with
        | false => rfl
        | true =>
          rw [inv_empty h4, h5, hokR.text_ne] at he
          exact absurd he hR
      have hnR : TextOK op p'.text := by
        rw [h5]
        exact textOK_of_names fun g hg => names_ok hok hn g (by rw [h6]; simp [hg])
      obtain ⟨f, b, hf, hb, hfb⟩ := write_buffers (S := S) h4 hnR
      rw [emitted_append (h7 hR), ← wr_path hokR (by rw [← h5]; exact hnR), ← h5, ← hfb]
      unfold writeRest
      have hone : onlySlash auth Q = some (auth && (match Q with | g :: _ => g.1 && g.2.isEmpty | [] => false)) := by
        match Q, h7 hR with
        | g :: g2 :: r, _ => simp [onlySlash, Bool.and_assoc]
      cases hbk : p'.back with
      | none =>
        rw [hbk] at hb
        simp at hb
        subst hb
        cases auth with
        | true => simp [he, hf, hbk]
        | false => rw [hone]; simp [he, hf, hbk]
      | some bk =>
        rw [hbk] at hb
        simp only at hb
        cases auth with
        | true => simp [he, hf, hb, hbk]
        | false => rw [hone]; simp [he, hf, hb, hbk]

end Verif
