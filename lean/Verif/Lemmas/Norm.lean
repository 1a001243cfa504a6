import Verif.Lemmas.Rds
import Verif.Lemmas.Host
import Verif.Lemmas.Decompose
import Verif.Lemmas.AuthDecomp
import Verif.Model.Normalize
import Verif.Spec.Normalize

/-! # Normalization of the components -/

namespace Verif

open Rfc PathToNormalize

/-! ### Segment lists -/

theorem PC_path_aux {p : Char → Bool} {L : List PSeg} (hal : AllSlash L)
    {a : Str} (h : PC p (a ++ pathText L)) : PC p a ∧ ∀ g ∈ L, PC p g.2 := by
  induction L generalizing a with
  | nil => rw [pathText_nil, List.append_nil] at h; exact ⟨h, by simp⟩
  | cons g r ih =>
    have hg := hal g (by simp)
    rw [pathText_cons, segText, hg.1] at h
    simp only [if_true, List.singleton_append, List.cons_append, List.nil_append] at h
    rw [PC_append_cons (by decide) (by decide)] at h
    have := ih (fun x hx => hal x (by simp [hx])) h.2.2
    refine ⟨h.1, ?_⟩
    intro x hx
    rcases List.mem_cons.1 hx with rfl | hx
    · exact this.1
    · exact this.2 x hx

theorem PC_path_names {p : Char → Bool} {L : List PSeg} (hok : OKSegs L)
    (h : PC p (pathText L)) : ∀ g ∈ L, PC p g.2 := by
  cases L with
  | nil => simp
  | cons g r =>
    rw [pathText_cons, segText] at h
    have hr : AllSlash r := hok.2.2
    have : PC p (g.2 ++ pathText r) := by
      cases hb : g.1 with
      | false => rw [hb] at h; simpa using h
      | true =>
        rw [hb] at h
        have h' : PC p ('/' :: (g.2 ++ pathText r)) := by simpa using h
        exact ((PC_cons (by decide)).1 h').2
    have := PC_path_aux hr this
    intro x hx
    rcases List.mem_cons.1 hx with rfl | hx
    · exact this.1
    · exact this.2 x hx

theorem PC_path_of {p : Char → Bool} (hp : p '/' = true) {L : List PSeg}
    (h : ∀ g ∈ L, PC p g.2) : PC p (pathText L) := by
  induction L with
  | nil => exact .nil
  | cons g r ih =>
    rw [pathText_cons, segText]
    refine PC.append (PC.append ?_ (h g (by simp))) (ih fun x hx => h x (by simp [hx]))
    split
    · exact .chr (by decide) hp .nil
    · exact .nil

/-- The segments left after dot segment removal. -/
def rdsSegs (s : Str) : List PSeg := fin (stripRel (pathSegs s))

theorem rdsSegs_ok (s : Str) : OKSegs (rdsSegs s) := fin_ok (stripRel_ok (pathSegs_spec s).1)

theorem rds_eq (s : Str) : remove_dot_segments (undot s) = pathText (rdsSegs s) := by
  have := rds_undot (pathSegs_spec s).1
  rwa [(pathSegs_spec s).2] at this

theorem isDots_nil (b : Bool) : isDots (b, []) = false := by cases b <;> decide +kernel

theorem rdsSegs_mem {s : Str} : ∀ g ∈ rdsSegs s, isDots g = false := by
  intro g hg
  rcases fin_mem g hg with rfl | ⟨_, h⟩
  · exact isDots_nil _
  · exact h

theorem rdsSegs_PC {p : Char → Bool} {s : Str} (h : PC p s) :
    ∀ g ∈ rdsSegs s, PC p g.2 := by
  intro g hg
  rcases fin_mem g hg with rfl | ⟨h1, _⟩
  · exact .nil
  · refine stripRel_names (P := fun x => PC p x) ?_ g h1
    apply PC_path_names (pathSegs_spec s).1
    rwa [(pathSegs_spec s).2]

theorem rds_PC {p : Char → Bool} (hp : p '/' = true) {s : Str} (h : PC p s) :
    PC p (remove_dot_segments (undot s)) := by
  rw [rds_eq]; exact PC_path_of hp (rdsSegs_PC h)

theorem pathSegs_unique {L : List PSeg} (h : OKSegs L) : pathSegs (pathText L) = L := by
  obtain ⟨hok, ht⟩ := pathSegs_spec (pathText L)
  have aux : ∀ {A B : List PSeg}, AllSlash A → AllSlash B → ∀ {a b : Str}, '/' ∉ a → '/' ∉ b →
      a ++ pathText A = b ++ pathText B → a = b ∧ A = B := by
    intro A
    induction A with
    | nil =>
      intro B hA hB a b ha hb e
      cases B with
      | nil => simpa [pathText_nil] using e
      | cons g B =>
        exfalso
        rw [pathText_nil, List.append_nil, pathText_cons, segText, (hB g (by simp)).1] at e
        apply ha; rw [e]; simp
    | cons f A ih =>
      intro B hA hB a b ha hb e
      cases B with
      | nil =>
        exfalso
        rw [pathText_nil, List.append_nil, pathText_cons, segText, (hA f (by simp)).1] at e
        apply hb; rw [← e]; simp
      | cons g B =>
        have hf := hA f (by simp)
        have hg := hB g (by simp)
        have e1 : splitSlash (a ++ pathText (f :: A)) = splitSlash (b ++ pathText (g :: B)) := by rw [e]
        rw [pathText_cons, segText, hf.1, pathText_cons, segText, hg.1] at e
        simp only [if_true, List.singleton_append, List.cons_append, List.nil_append] at e
        have e2 : find_split_hole (a ++ '/' :: (f.2 ++ pathText A)) '/' =
            find_split_hole (b ++ '/' :: (g.2 ++ pathText B)) '/' := by rw [e]
        rw [find_split_hole_eq ha, find_split_hole_eq hb] at e2
        simp only [Option.some.injEq, Prod.mk.injEq] at e2
        obtain ⟨h1, h2⟩ := ih (fun x hx => hA x (by simp [hx])) (fun x hx => hB x (by simp [hx]))
          hf.2 hg.2 e2.2
        refine ⟨e2.1, ?_⟩
        rw [h2]
        congr 1
        exact Prod.ext (hf.1.trans hg.1.symm) h1
  generalize pathSegs (pathText L) = M at hok ht
  match L, M, h, hok, ht with
  | [], [], _, _, _ => rfl
  | [], g :: M, h, hok, ht => exact absurd ((hok.text_ne).1 ht) (by simp)
  | g :: L, [], h, hok, ht => exact absurd ((h.text_ne).1 ht.symm) (by simp)
  | (true, n) :: L, (true, m) :: M, h, hok, ht =>
    simp only [pathText_cons, segText, if_true, List.singleton_append, List.cons_append,
      List.cons.injEq, true_and] at ht
    obtain ⟨h1, h2⟩ := aux hok.2.2 h.2.2 hok.1 h.1 ht
    simp only at h1
    rw [h1, h2]
  | (false, n) :: L, (false, m) :: M, h, hok, ht =>
    simp only [pathText_cons, segText, Bool.false_eq_true, if_false, List.nil_append] at ht
    obtain ⟨h1, h2⟩ := aux hok.2.2 h.2.2 hok.1 h.1 ht
    simp only at h1
    rw [h1, h2]
  | (true, n) :: L, (false, m) :: M, h, hok, ht =>
    exfalso
    have h1 : m ≠ [] := hok.2.1 rfl
    have h2 : '/' ∉ m := hok.1
    cases m with
    | nil => exact h1 rfl
    | cons c m =>
      simp [pathText_cons, segText] at ht
      simp [ht.1] at h2
  | (false, n) :: L, (true, m) :: M, h, hok, ht =>
    exfalso
    have h1 : n ≠ [] := h.2.1 rfl
    have h2 : '/' ∉ n := h.1
    cases n with
    | nil => exact h1 rfl
    | cons c m =>
      simp [pathText_cons, segText] at ht
      simp [← ht.1] at h2

/-- A path without dot segments is left alone. -/
theorem rdsSegs_normal {L : List PSeg} (hok : OKSegs L) (h : ∀ g ∈ L, isDots g = false) :
    rdsSegs (pathText L) = L := by
  unfold rdsSegs
  rw [pathSegs_unique hok]
  have : stripRel L = L := by
    match L with
    | [] => rw [stripRel]
    | (true, n) :: L => exact stripRel_true _ _
    | (false, n) :: L => exact stripRel_normal (h _ (by simp))
  rw [this, fin_all_normal h]

theorem rds_normal {L : List PSeg} (hok : OKSegs L) (h : ∀ g ∈ L, isDots g = false) :
    remove_dot_segments (undot (pathText L)) = pathText L := by
  rw [rds_eq, rdsSegs_normal hok h]

/-- Dot segment removal leaves its own results alone. -/
theorem rds_idem (s : Str) : remove_dot_segments (undot (remove_dot_segments (undot s))) =
    remove_dot_segments (undot s) := by
  rw [rds_eq s, rds_normal (rdsSegs_ok s) rdsSegs_mem]

theorem pathSegs_slash (r : Str) : AllSlash (pathSegs ('/' :: r)) ∧ pathSegs ('/' :: r) ≠ [] := by
  obtain ⟨hok, ht⟩ := pathSegs_spec ('/' :: r)
  generalize pathSegs ('/' :: r) = L at hok ht
  match L with
  | [] => simp [pathText_nil] at ht
  | (true, n) :: L =>
    refine ⟨?_, by simp⟩
    intro g hg
    rcases List.mem_cons.1 hg with rfl | hg
    · exact ⟨rfl, hok.1⟩
    · exact hok.2.2 g hg
  | (false, n) :: L =>
    exfalso
    have h1 : n ≠ [] := hok.2.1 rfl
    have h2 : '/' ∉ n := hok.1
    cases n with
    | nil => exact h1 rfl
    | cons c m =>
      simp [pathText_cons, segText] at ht
      simp [ht.1] at h2

theorem rdsSegs_slash (r : Str) : AllSlash (rdsSegs ('/' :: r)) ∧ rdsSegs ('/' :: r) ≠ [] := by
  obtain ⟨hal, hne⟩ := pathSegs_slash r
  have e : stripRel (pathSegs ('/' :: r)) = pathSegs ('/' :: r) :=
    stripRel_slash (pathSegs_spec _).1 (pathSegs_spec ('/' :: r)).2
  unfold rdsSegs
  rw [e]
  refine ⟨?_, fin_ne hne⟩
  intro g hg
  rcases fin_mem g hg with rfl | ⟨h1, _⟩
  · exact ⟨rfl, by simp⟩
  · exact hal g h1

theorem rdsSegs_nil : rdsSegs [] = [] := by decide +kernel

theorem rds_nil : remove_dot_segments (undot []) = [] := by decide +kernel

theorem rds_slash_head (r : Str) : ∃ t, remove_dot_segments (undot ('/' :: r)) = '/' :: t := by
  rw [rds_eq]
  obtain ⟨hal, hne⟩ := rdsSegs_slash r
  rcases hal.head with ⟨_, h⟩ | h
  · exact absurd h hne
  · exact h

/-! ### Percent/case normalization of segments -/

theorem pctn_decode {S : Spec} {s : Str} (h : WF s) : pctDecode (pctn S s) = pctDecode s := by
  obtain ⟨t, h1, _, h2⟩ := pctn_spec S h
  unfold pctDecode
  rw [h2, tokens_render (h1.ok (tokens_ok h)), h1.bytes]

theorem kind_pctn {S : Spec} {s : Str} (h : WF s) :
    SegmentKind.from_segment (pctn S s) = SegmentKind.from_segment s := by
  have h1 := from_segment_dot (pctn S s)
  have h2 := from_segment_dot s
  have h3 := from_segment_dotdot (pctn S s)
  have h4 := from_segment_dotdot s
  rw [pctn_decode h] at h1 h3
  have k1 := h1.trans h2.symm
  have k2 := h3.trans h4.symm
  cases hs : SegmentKind.from_segment s with
  | dot => exact k1.2 hs
  | dotDot => exact k2.2 hs
  | normal =>
    cases ht : SegmentKind.from_segment (pctn S s) with
    | dot => rw [k1.1 ht] at hs; cases hs
    | dotDot => rw [k2.1 ht] at hs; cases hs
    | normal => rfl

theorem wr_kind {S : Spec} {op : NormalizationMode} {s : Str} (h : TextOK op s) :
    SegmentKind.from_segment (wr S op s) = SegmentKind.from_segment s := by
  unfold wr
  split
  · rename_i ho; exact kind_pctn (h ho)
  · rfl

theorem wr_idem {S : Spec} {op : NormalizationMode} {s : Str} (h : TextOK op s) :
    wr S op (wr S op s) = wr S op s := by
  unfold wr
  split
  · rename_i ho; exact pctn_idem (h ho)
  · rfl

theorem wr_textOK {S : Spec} {op : NormalizationMode} {s : Str} (h : TextOK op s) :
    TextOK op (wr S op s) := by
  intro ho
  unfold wr
  rw [if_pos ho]
  exact pctn_wf (h ho)

theorem wr_PC {S : Spec} {op : NormalizationMode} {p : Char → Bool} {s : Str} (h : PC p s)
    (hu : ∀ c, iunreserved S c = true → p c = true) : PC p (wr S op s) := by
  unfold wr
  split
  · exact pctn_PC h hu
  · exact h

theorem wrSegs_mem {S : Spec} {op : NormalizationMode} {L : List PSeg} {g : PSeg} :
    g ∈ wrSegs S op L ↔ ∃ x ∈ L, g = (x.1, wr S op x.2) := by
  simp only [wrSegs, List.mem_map]
  constructor
  · rintro ⟨x, hx, rfl⟩; exact ⟨x, hx, rfl⟩
  · rintro ⟨x, hx, rfl⟩; exact ⟨x, hx, rfl⟩

theorem wrSegs_allSlash {S : Spec} {op : NormalizationMode} {L : List PSeg}
    (hn : ∀ g ∈ L, TextOK op g.2) (h : AllSlash L) : AllSlash (wrSegs S op L) := by
  intro g hg
  obtain ⟨x, hx, rfl⟩ := wrSegs_mem.1 hg
  exact ⟨(h x hx).1, wr_no_slash (hn x hx) (h x hx).2⟩

theorem wrSegs_ok {S : Spec} {op : NormalizationMode} {L : List PSeg}
    (hn : ∀ g ∈ L, TextOK op g.2) (h : OKSegs L) : OKSegs (wrSegs S op L) := by
  cases L with
  | nil => trivial
  | cons g r =>
    exact ⟨wr_no_slash (hn g (by simp)) h.1,
      fun e h2 => h.2.1 e ((wr_empty (hn g (by simp))).1 h2),
      wrSegs_allSlash (fun x hx => hn x (by simp [hx])) h.2.2⟩

theorem wrSegs_dots {S : Spec} {op : NormalizationMode} {L : List PSeg}
    (hn : ∀ g ∈ L, TextOK op g.2) (h : ∀ g ∈ L, isDots g = false) :
    ∀ g ∈ wrSegs S op L, isDots g = false := by
  intro g hg
  obtain ⟨x, hx, rfl⟩ := wrSegs_mem.1 hg
  have := h x hx
  simp only [isDots] at this ⊢
  rw [wr_kind (hn x hx)]
  exact this

theorem wrSegs_idem {S : Spec} {op : NormalizationMode} {L : List PSeg}
    (hn : ∀ g ∈ L, TextOK op g.2) : wrSegs S op (wrSegs S op L) = wrSegs S op L := by
  unfold wrSegs
  rw [List.map_map]
  apply List.map_congr_left
  intro g hg
  simp only [Function.comp]
  rw [wr_idem (hn g hg)]

/-! ### Paths -/

/-- The text that the normalizer writes for a path. -/
def pathn (S : Spec) (op : NormalizationMode) (auth : Bool) (s : Str) : Str :=
  if op = .preserve ∧ auth = false ∧ s ≠ [] ∧ s.take 1 ≠ ['/'] then pctn S s
  else escapePath auth (wr S op (remove_dot_segments (undot s)))

theorem take1_slash {s : Str} : s.take 1 = ['/'] ↔ ∃ r, s = '/' :: r := by
  cases s with
  | nil => simp
  | cons c r => simp

theorem take2_slash {s : Str} : (s.take 2 == ['/', '/']) = true ↔ ∃ r, s = '/' :: '/' :: r := by
  match s with
  | [] => simp
  | [c] => simp
  | c :: d :: r => simp

theorem pathn_write {S : Spec} {op : NormalizationMode} {auth : Bool} {p : PathToNormalize}
    (hi : p.Inv) (hn : TextOK op p.text) (ha : AuthPath auth p.text) :
    fmt_write_normalize S op auth p = some (pathn S op auth p.text) := by
  unfold pathn
  by_cases hc : op = .preserve ∧ auth = false ∧ p.text ≠ [] ∧ p.text.take 1 ≠ ['/']
  · rw [if_pos hc]
    obtain ⟨rfl, rfl, h1, h2⟩ := hc
    exact fmt_write_normalize_opaque hi (hn rfl) h1 fun r e => h2 (take1_slash.2 ⟨r, e⟩)
  · rw [if_neg hc]
    refine (fmt_write_normalize_eq hi hn ha ?_).1
    intro ho
    cases auth with
    | true => exact .inl rfl
    | false =>
      right
      by_cases h1 : p.text = []
      · exact .inl h1
      · right
        apply take1_slash.1
        apply Classical.byContradiction
        intro h2
        exact hc ⟨ho, rfl, h1, h2⟩

theorem pctn_head {S : Spec} {s r : Str} (h : WF s) (e : pctn S s = '/' :: r) :
    ∃ t, s = '/' :: t := by
  obtain ⟨ts, h1, _, h2⟩ := pctn_spec S h
  rw [h2] at e
  generalize hT : tokens s = T at h1
  cases h1 with
  | nil => simp [render] at e
  | @ch c r t hr =>
    rw [render_cons] at e
    simp [Tok.render] at e
    rcases tokens_inv s with ⟨_, h3⟩ | ⟨d, r', h3, h4⟩ | ⟨x, y, r', _, _, _, h4⟩
    · rw [hT] at h3; cases h3
    · rw [hT] at h4; cases h4; exact ⟨r', by rw [h3, e.1]⟩
    · rw [hT] at h4; cases h4
  | @decode c r t hc hr =>
    rw [render_cons] at e
    simp [Tok.render] at e
    rw [e.1, iunreserved_slash] at hc
    cases hc
  | keep =>
    rw [render_cons] at e
    simp [Tok.render, pctUpper] at e

/-! #### Properties of `pathn` -/

section pathn
variable {S : Spec} {op : NormalizationMode} {auth : Bool} {s : Str}

theorem rdsSegs_textOK (h : TextOK op s) : ∀ g ∈ rdsSegs s, TextOK op g.2 :=
  fun g hg ho => rdsSegs_PC (h ho) g hg

theorem wr_rds (h : TextOK op s) :
    wr S op (remove_dot_segments (undot s)) = pathText (wrSegs S op (rdsSegs s)) := by
  rw [rds_eq, wr_path (rdsSegs_ok s) (textOK_of_names (rdsSegs_textOK h))]

theorem pathn_head_slash (h : TextOK op ('/' :: s)) :
    ∃ r, wr S op (remove_dot_segments (undot ('/' :: s))) = '/' :: r := by
  rw [wr_rds h]
  obtain ⟨hal, hne⟩ := rdsSegs_slash s
  rcases (wrSegs_allSlash (S := S) (rdsSegs_textOK h) hal).head with ⟨_, h'⟩ | h'
  · exact absurd (List.map_eq_nil_iff.1 h') hne
  · exact h'

theorem escape_slash (auth : Bool) (r : Str) : ∃ t, escapePath auth ('/' :: r) = '/' :: t := by
  unfold escapePath
  split
  · exact ⟨_, rfl⟩
  · exact ⟨_, rfl⟩

theorem escape_no_dslash (t r : Str) : escapePath false t ≠ '/' :: '/' :: r := by
  unfold escapePath
  split
  · intro e; simp at e
  · rename_i h
    intro e
    exact h (by rw [e]; rfl)

theorem pathn_slash (h : TextOK op ('/' :: s)) : ∃ r, pathn S op auth ('/' :: s) = '/' :: r := by
  unfold pathn
  rw [if_neg (by simp)]
  obtain ⟨r, e⟩ := pathn_head_slash (S := S) h
  rw [e]
  exact escape_slash _ _

theorem pathn_nil : pathn S op auth [] = [] := by
  unfold pathn
  rw [if_neg (by simp), rds_nil, wr_nil]
  cases auth <;> rfl

theorem pathn_authPath (h : TextOK op s) (ha : AuthPath auth s) : AuthPath auth (pathn S op auth s) := by
  intro e
  rcases ha e with rfl | ⟨r, rfl⟩
  · exact .inl pathn_nil
  · exact .inr (pathn_slash h)

theorem pathn_no_dslash (h : TextOK op s) (r : Str) : pathn S op false s ≠ '/' :: '/' :: r := by
  unfold pathn
  split
  · rename_i hc
    intro e
    obtain ⟨rfl, _, _, h2⟩ := hc
    obtain ⟨t, rfl⟩ := pctn_head (h rfl) e
    exact h2 rfl
  · exact escape_no_dslash _ _

theorem pathn_PC {p : Char → Bool} (hp : p '/' = true) (hd : p '.' = true)
    (hu : ∀ c, iunreserved S c = true → p c = true) (h : PC p s) : PC p (pathn S op auth s) := by
  unfold pathn
  split
  · exact pctn_PC h hu
  · have := wr_PC (op := op) (rds_PC hp h) hu
    unfold escapePath
    split
    · exact .chr (by decide) hp (.chr (by decide) hd this)
    · exact this

/-- Normalizing the path a second time changes nothing. -/
theorem pathn_idem (hm : op ≠ .off) (h : WF s) (ha : AuthPath auth s) :
    pathn S op auth (pathn S op auth s) = pathn S op auth s := by
  have hT : TextOK op s := fun _ => h
  have hcase : op.case_pct = true := by cases op <;> first | rfl | exact absurd rfl hm
  by_cases hc : op = .preserve ∧ auth = false ∧ s ≠ [] ∧ s.take 1 ≠ ['/']
  · have e : pathn S op auth s = pctn S s := by unfold pathn; rw [if_pos hc]
    rw [e]
    unfold pathn
    rw [if_pos, pctn_idem h]
    obtain ⟨h1, h2, h3, h4⟩ := hc
    refine ⟨h1, h2, fun e => h3 ((pctn_empty S h).1 e), ?_⟩
    intro e
    obtain ⟨r, e⟩ := take1_slash.1 e
    obtain ⟨t, rfl⟩ := pctn_head h e
    exact h4 rfl
  · have e : pathn S op auth s = escapePath auth (pathText (wrSegs S op (rdsSegs s))) := by
      unfold pathn; rw [if_neg hc, wr_rds hT]
    -- the result is not opaque either
    have hc' : ¬ (op = .preserve ∧ auth = false ∧ pathn S op auth s ≠ [] ∧
        (pathn S op auth s).take 1 ≠ ['/']) := by
      rintro ⟨h1, h2, h3, h4⟩
      apply hc
      refine ⟨h1, h2, ?_, ?_⟩
      · rintro rfl; exact h3 pathn_nil
      · intro e
        obtain ⟨r, rfl⟩ := take1_slash.1 e
        obtain ⟨t, e'⟩ := pathn_slash (S := S) (auth := auth) hT
        exact h4 (by rw [e']; rfl)
    have hnames := rdsSegs_textOK hT
    have hokW : OKSegs (wrSegs S op (rdsSegs s)) := wrSegs_ok hnames (rdsSegs_ok s)
    have hdW := wrSegs_dots (S := S) hnames rdsSegs_mem
    have hnW : ∀ g ∈ wrSegs S op (rdsSegs s), TextOK op g.2 := by
      intro g hg
      obtain ⟨x, hx, rfl⟩ := wrSegs_mem.1 hg
      exact wr_textOK (hnames x hx)
    have key : ∀ y, rdsSegs y = wrSegs S op (rdsSegs s) → TextOK op y →
        wr S op (remove_dot_segments (undot y)) = pathText (wrSegs S op (rdsSegs s)) := by
      intro y hy hty
      rw [wr_rds hty, hy, wrSegs_idem hnames]
    rw [show pathn S op auth (pathn S op auth s) =
      escapePath auth (wr S op (remove_dot_segments (undot (pathn S op auth s)))) from if_neg hc']
    rw [e]
    generalize hW : wrSegs S op (rdsSegs s) = W at *
    have htW : TextOK op (pathText W) := textOK_of_names hnW
    by_cases hesc : (!auth && (pathText W).take 2 == ['/', '/']) = true
    · have e2 : escapePath auth (pathText W) = '/' :: '.' :: pathText W := if_pos hesc
      obtain ⟨r, hr⟩ := take2_slash.1 (by simp at hesc ⊢; exact hesc.2)
      have hal : AllSlash W := by
        have := (pathSegs_slash ('/' :: r)).1
        rwa [← hr, pathSegs_unique hokW] at this
      have hWne : W ≠ [] := by rintro rfl; cases hr
      have hok2 : OKSegs ((true, ['.']) :: W) := ⟨by decide, by simp, hal⟩
      have e3 : ('/' :: '.' :: pathText W) = pathText ((true, ['.']) :: W) := by
        rw [pathText_cons]; rfl
      have hr2 : rdsSegs ('/' :: '.' :: pathText W) = W := by
        unfold rdsSegs
        rw [e3, pathSegs_unique hok2, stripRel_true]
        have := fin_dots (D := [(true, ['.'])]) (by intro g hg; simp at hg; subst hg; decide +kernel) hWne
        rw [List.singleton_append] at this
        rw [this, fin_all_normal hdW]
      rw [e2, key _ hr2 (fun ho => .chr (by decide) rfl (.chr (by decide) rfl (htW ho))), e2]
    · have e2 : escapePath auth (pathText W) = pathText W := if_neg hesc
      rw [e2, key _ (rdsSegs_normal hokW hdW) htW, e2]

end pathn

end Verif
