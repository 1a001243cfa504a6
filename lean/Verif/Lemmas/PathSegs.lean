import Verif.Model.PathNorm
import Verif.Spec.Resolve
import Verif.Lemmas.Utf8
import Verif.Lemmas.Pct
import Verif.Lemmas.Decompose

/-! # Paths as lists of segments -/

namespace Verif

open Rfc

/-- A path segment: does it have a leading slash, and its name. -/
abbrev PSeg := Bool × Str

def segText (g : PSeg) : Str := (if g.1 then ['/'] else []) ++ g.2

def pathText (L : List PSeg) : Str := L.flatMap segText

theorem pathText_nil : pathText [] = [] := rfl
theorem pathText_cons (g : PSeg) (L : List PSeg) : pathText (g :: L) = segText g ++ pathText L := rfl
theorem pathText_append (a b : List PSeg) : pathText (a ++ b) = pathText a ++ pathText b := by
  simp [pathText]

/-- All segments have a leading slash and no other slash. -/
def AllSlash (L : List PSeg) : Prop := ∀ g ∈ L, g.1 = true ∧ '/' ∉ g.2

/-- Segment lists that come from a path: only the first segment may lack a leading slash, and then it
is not empty. -/
def OKSegs : List PSeg → Prop
  | [] => True
  | g :: r => '/' ∉ g.2 ∧ (g.1 = false → g.2 ≠ []) ∧ AllSlash r

theorem AllSlash.ok {L : List PSeg} (h : AllSlash L) : OKSegs L := by
  cases L with
  | nil => trivial
  | cons g r =>
    have := h g (by simp)
    exact ⟨this.2, by simp [this.1], fun x hx => h x (by simp [hx])⟩

theorem AllSlash.append {a b : List PSeg} (ha : AllSlash a) (hb : AllSlash b) : AllSlash (a ++ b) := by
  intro g hg
  rcases List.mem_append.1 hg with h | h
  · exact ha g h
  · exact hb g h

theorem OKSegs.names {L : List PSeg} (h : OKSegs L) : ∀ g ∈ L, '/' ∉ g.2 := by
  cases L with
  | nil => simp
  | cons g r =>
    intro x hx
    rcases List.mem_cons.1 hx with rfl | hx
    · exact h.1
    · exact (h.2.2 x hx).2

theorem OKSegs.tail_of_append {a b : List PSeg} (h : OKSegs (a ++ b)) (ha : a ≠ []) : AllSlash b := by
  cases a with
  | nil => exact absurd rfl ha
  | cons g r => exact fun x hx => h.2.2 x (by simp [hx])

theorem OKSegs.right {a b : List PSeg} (h : OKSegs (a ++ b)) : OKSegs b := by
  by_cases ha : a = []
  · subst ha; exact h
  · exact (h.tail_of_append ha).ok

theorem OKSegs.left {a b : List PSeg} (h : OKSegs (a ++ b)) : OKSegs a := by
  cases a with
  | nil => trivial
  | cons g r => exact ⟨h.1, h.2.1, fun x hx => h.2.2 x (by simp [hx])⟩

/-- After some segments the text ends or continues with a slash. -/
theorem AllSlash.head {L : List PSeg} (h : AllSlash L) :
    pathText L = [] ∧ L = [] ∨ ∃ r, pathText L = '/' :: r := by
  cases L with
  | nil => exact .inl ⟨rfl, rfl⟩
  | cons g r =>
    right
    rw [pathText_cons, segText, (h g (by simp)).1]
    exact ⟨_, rfl⟩

theorem OKSegs.text_ne {L : List PSeg} (h : OKSegs L) : pathText L = [] ↔ L = [] := by
  cases L with
  | nil => simp [pathText]
  | cons g r =>
    obtain ⟨h1, h2, _⟩ := h
    obtain ⟨b, n⟩ := g
    cases b with
    | true => simp [pathText_cons, segText]
    | false => simpa [pathText_cons, segText] using fun h => absurd h (h2 rfl)

/-! ### `splitSlash` -/

theorem splitSlash_ne (s : Str) : splitSlash s ≠ [] := by
  cases s with
  | nil => simp [splitSlash]
  | cons c r =>
    rw [splitSlash]
    split
    · simp
    · split <;> simp

theorem splitSlash_slash (r : Str) : splitSlash ('/' :: r) = [] :: splitSlash r := by
  rw [splitSlash]; simp

theorem splitSlash_cons {c : Char} (h : c ≠ '/') (r : Str) :
    ∃ s ss, splitSlash r = s :: ss ∧ splitSlash (c :: r) = (c :: s) :: ss := by
  cases hs : splitSlash r with
  | nil => exact absurd hs (splitSlash_ne r)
  | cons s ss =>
    refine ⟨s, ss, rfl, ?_⟩
    rw [splitSlash, hs]; simp [h]

theorem splitSlash_names (s : Str) : ∀ n ∈ splitSlash s, '/' ∉ n := by
  induction s with
  | nil => simp [splitSlash]
  | cons c r ih =>
    by_cases h : c = '/'
    · subst h
      rw [splitSlash_slash]
      intro n hn
      rcases List.mem_cons.1 hn with rfl | hn
      · simp
      · exact ih n hn
    · obtain ⟨a, as, h1, h2⟩ := splitSlash_cons h r
      rw [h2]
      rw [h1] at ih
      intro n hn
      rcases List.mem_cons.1 hn with rfl | hn
      · have := ih a (by simp)
        simp [this]; exact fun e => h e.symm
      · exact ih n (by simp [hn])

theorem joinSlash_cons_cons (a b : Str) (r : List Str) :
    joinSlash (a :: b :: r) = a ++ '/' :: joinSlash (b :: r) := rfl

theorem joinSlash_splitSlash (s : Str) : joinSlash (splitSlash s) = s := by
  induction s with
  | nil => rfl
  | cons c r ih =>
    by_cases h : c = '/'
    · subst h
      rw [splitSlash_slash]
      cases hs : splitSlash r with
      | nil => exact absurd hs (splitSlash_ne r)
      | cons a as =>
        rw [joinSlash_cons_cons, ← hs, ih]; rfl
    · obtain ⟨a, as, h1, h2⟩ := splitSlash_cons h r
      rw [h1] at ih
      rw [h2, ← ih]
      cases as with
      | nil => rfl
      | cons b bs => rfl

theorem splitSlash_no {n : Str} (h : '/' ∉ n) : splitSlash n = [n] := by
  induction n with
  | nil => rfl
  | cons c r ih =>
    simp at h
    obtain ⟨a, as, h1, h2⟩ := splitSlash_cons (c := c) (fun e => h.1 e.symm) r
    rw [ih h.2] at h1
    cases h1
    exact h2

theorem splitSlash_append {n r : Str} (h : '/' ∉ n) : splitSlash (n ++ '/' :: r) = n :: splitSlash r := by
  induction n with
  | nil => exact splitSlash_slash r
  | cons c n ih =>
    simp at h
    obtain ⟨a, as, h1, h2⟩ := splitSlash_cons (c := c) (fun e => h.1 e.symm) (n ++ '/' :: r)
    rw [ih h.2] at h1
    cases h1
    exact h2

theorem pathText_slashes {ns : List Str} (h : ns ≠ []) :
    pathText (ns.map (fun n => (true, n))) = '/' :: joinSlash ns := by
  induction ns with
  | nil => exact absurd rfl h
  | cons n r ih =>
    cases r with
    | nil => simp [pathText, segText, joinSlash]
    | cons m r =>
      rw [List.map_cons, pathText_cons, ih (by simp)]
      simp [segText, joinSlash]

/-- The segments of a path. -/
def pathSegs (s : Str) : List PSeg :=
  match s with
  | [] => []
  | c :: r =>
    if c = '/' then (splitSlash r).map fun n => (true, n)
    else
      match splitSlash (c :: r) with
      | [] => []
      | n :: ns => (false, n) :: ns.map fun n => (true, n)

theorem map_allSlash {ns : List Str} (h : ∀ n ∈ ns, '/' ∉ n) :
    AllSlash (ns.map fun n => (true, n)) := by
  intro g hg
  obtain ⟨n, hn, rfl⟩ := List.mem_map.1 hg
  exact ⟨rfl, h n hn⟩

theorem pathSegs_spec (s : Str) : OKSegs (pathSegs s) ∧ pathText (pathSegs s) = s := by
  match s with
  | [] => exact ⟨trivial, rfl⟩
  | c :: r =>
    unfold pathSegs
    by_cases h : c = '/'
    · subst h
      simp only [if_true]
      refine ⟨(map_allSlash (splitSlash_names r)).ok, ?_⟩
      rw [pathText_slashes (splitSlash_ne r), joinSlash_splitSlash]
    · obtain ⟨a, as, h1, h2⟩ := splitSlash_cons h r
      simp only [h, if_false, h2]
      have hn := splitSlash_names (c :: r)
      rw [h2] at hn
      refine ⟨⟨hn _ (by simp), by simp, map_allSlash fun n hm => hn n (by simp [hm])⟩, ?_⟩
      have hj := joinSlash_splitSlash (c :: r)
      rw [h2] at hj
      rw [← hj, pathText_cons]
      cases as with
      | nil => simp [segText, joinSlash, pathText]
      | cons b bs =>
        rw [pathText_slashes (by simp)]
        simp [segText, joinSlash]

/-! ### The buffer of `PathToNormalize` -/

/-- The text held in the buffer. -/
def PathToNormalize.text (p : PathToNormalize) : Str := p.front ++ p.back.getD []

/-- The documented invariants of `PathToNormalize`. -/
def PathToNormalize.Inv (p : PathToNormalize) : Prop :=
  ∀ b, p.back = some b → b ≠ [] ∧ ∃ f, p.front = f ++ ['/']

open PathToNormalize

theorem from_single_path_inv (s : Str) : (from_single_path s).Inv ∧ (from_single_path s).text = s := by
  constructor
  · intro b h; cases h
  · simp [from_single_path, text]

theorem inv_empty {p : PathToNormalize} (h : p.Inv) : p.is_empty = true ↔ p.text = [] := by
  unfold is_empty text
  cases hb : p.back with
  | none => simp [List.isEmpty_iff]
  | some b =>
    obtain ⟨h1, f, h2⟩ := h b hb
    rw [h2]; simp

theorem len_text (p : PathToNormalize) : p.len = blen p.text := by
  unfold PathToNormalize.len text
  cases p.back <;> simp

theorem byte_at_text (p : PathToNormalize) (i : Nat) : p.byte_at i = (utf8s p.text)[i]? := by
  unfold byte_at text
  rw [utf8s_append]
  have hl := utf8s_length p.front
  by_cases h : i < blen p.front
  · rw [if_pos h, List.getElem?_append_left (by omega)]
  · rw [if_neg h, List.getElem?_append_right (by omega), hl]
    cases p.back <;> simp [utf8s_nil]

theorem byte_at_end {p : PathToNormalize} {a : Str} (h : p.text = a) : p.byte_at (blen a) = none := by
  rw [byte_at_text, h, List.getElem?_eq_none_iff, utf8s_length]
  exact Nat.le_refl _

theorem byte_at_mid {p : PathToNormalize} {a b : Str} {c : Char} (h : p.text = a ++ c :: b) :
    ∃ x, p.byte_at (blen a) = some x ∧ (x == 47) = (c == '/') := by
  obtain ⟨x, r, hx, _, hlead⟩ := utf8_shape c
  refine ⟨x, ?_, ?_⟩
  · rw [byte_at_text, h, utf8s_append, List.getElem?_append_right (by rw [utf8s_length]; omega),
      utf8s_length, utf8s_cons, hx]
    simp
  · have : c = '/' ↔ c.toNat = 47 := char_eq_iff c '/'
    by_cases hc : c = '/'
    · have := this.1 hc
      have h47 : utf8 c = [47] := by rw [utf8_ascii (by omega), this]
      rw [hx] at h47
      cases h47
      simp [hc]
    · have hne : x ≠ 47 := by
        intro e
        have : c.toNat ≠ 47 := fun e => hc (this.2 e)
        omega
      rw [beq_eq_false_iff_ne.2 hne, beq_eq_false_iff_ne.2 hc]

theorem blen_lt_split {a b f g : Str} (h : a ++ b = f ++ g) (hl : blen a < blen f) :
    ∃ z, z ≠ [] ∧ f = a ++ z ∧ b = z ++ g := by
  rcases List.append_eq_append_iff.1 h with ⟨z, h1, h2⟩ | ⟨z, h1, h2⟩
  · refine ⟨z, ?_, h1, h2⟩
    rintro rfl
    rw [h1] at hl; simp at hl
  · rw [h1] at hl; simp at hl; omega

theorem blen_le_split {a b f g : Str} (h : a ++ b = f ++ g) (hl : blen f ≤ blen a) :
    ∃ z, a = f ++ z ∧ g = z ++ b := by
  rcases List.append_eq_append_iff.1 h with ⟨z, h1, h2⟩ | ⟨z, h1, h2⟩
  · have : z = [] := by
      rw [h1, blen_append] at hl
      exact blen_eq_zero.1 (by omega)
    subst this
    exact ⟨[], by simpa using h1.symm, by simpa using h2.symm⟩
  · exact ⟨z, h1, h2⟩

theorem findB_none {s : Str} (h : '/' ∉ s) : findB s '/' = none := by
  unfold findB; rw [find_split_none.2 h]; rfl

theorem findB_some {a b : Str} (h : '/' ∉ a) : findB (a ++ '/' :: b) '/' = some (blen a) := by
  unfold findB; rw [find_split_eq h]; rfl

/-- The text continues with a segment end. -/
def SegEnd (r : Str) : Prop := r = [] ∨ ∃ t, r = '/' :: t

theorem findB_seg {n r : Str} (h : '/' ∉ n) (hr : SegEnd r) :
    findB (n ++ r) '/' = if r.isEmpty then none else some (blen n) := by
  rcases hr with rfl | ⟨t, rfl⟩
  · simpa using findB_none h
  · simpa using findB_some h

theorem last_slash {a z f : Str} (h : a ++ z = f ++ ['/']) (hz : z ≠ []) : ∃ z', z = z' ++ ['/'] := by
  have h1 := List.dropLast_concat_getLast hz
  rw [← h1, ← List.append_assoc] at h
  have h2 := (List.append_inj' h rfl).2
  exact ⟨z.dropLast, by rw [← h2, h1]⟩

/-- In the front buffer, a segment is complete. -/
theorem front_seg {p : PathToNormalize} (hi : p.Inv) {a z n r : Str} (hz : z ≠ [])
    (hf : p.front = a ++ z) (h : n ++ r = z ++ p.back.getD []) (hn : '/' ∉ n) (hr : SegEnd r) :
    ∃ r', z = n ++ r' ∧ SegEnd r' ∧ (r'.isEmpty = r.isEmpty) := by
  cases hb : p.back with
  | none =>
    rw [hb] at h
    simp at h
    exact ⟨r, h.symm, hr, rfl⟩
  | some b =>
    obtain ⟨_, f, hf'⟩ := hi b hb
    have hz' : '/' ∈ z := by
      obtain ⟨z', rfl⟩ := last_slash (a := a) (z := z) (f := f) (by rw [← hf, hf']) hz
      simp
    rw [hb] at h
    simp only [Option.getD_some] at h
    rcases List.append_eq_append_iff.1 h with ⟨t, h1, h2⟩ | ⟨t, h1, h2⟩
    · refine ⟨t, h1, ?_, ?_⟩
      · rcases hr with rfl | ⟨w, rfl⟩
        · simp at h2; left; exact h2.1
        · cases t with
          | nil => left; rfl
          | cons c t => right; simp at h2; exact ⟨t, by rw [h2.1]⟩
      · have ht : t ≠ [] := by
          rintro rfl
          rw [h1] at hz'; simp at hz'; exact hn hz'
        rw [h2]
        cases t with
        | nil => exact absurd rfl ht
        | cons c t => rfl
    · rw [h1] at hn
      exact absurd (by simp [hz']) hn

theorem find_next_slash {p : PathToNormalize} (hi : p.Inv) {a n r : Str}
    (h : p.text = a ++ (n ++ r)) (hn : '/' ∉ n) (hr : SegEnd r) :
    p.find_next_slash_from (blen a) =
      some (if r.isEmpty then none else some (blen a + blen n)) := by
  unfold find_next_slash_from
  unfold text at h
  by_cases hl : blen a < blen p.front
  · rw [if_pos hl]
    obtain ⟨z, hz, h1, h2⟩ := blen_lt_split h.symm hl
    obtain ⟨r', h3, h4, h5⟩ := front_seg hi hz h1 h2 hn hr
    rw [sliceFrom_eq h1 rfl, Option.map_some, h3, findB_seg hn h4, h5]
    split <;> simp
  · rw [if_neg hl]
    obtain ⟨z, h1, h2⟩ := blen_le_split h.symm (by omega)
    cases hb : p.back with
    | none =>
      rw [hb] at h2
      simp at h2
      simp [h2.2.2]
    | some b =>
      rw [hb] at h2
      simp only [Option.getD_some] at h2
      simp only
      rw [sliceFrom_eq h2 (by rw [h1]; simp), Option.map_some, findB_seg hn hr]
      split <;> simp

theorem slice_some_le {s t : Str} {i j : Nat} (h : slice s i j = some t) :
    i ≤ j ∧ ∃ a b, s = a ++ (t ++ b) ∧ i = blen a ∧ j = blen a + blen t := by
  unfold slice at h
  split at h
  · rename_i hij
    refine ⟨hij, ?_⟩
    cases h1 : sliceTo s j with
    | none => rw [h1] at h; cases h
    | some u =>
      rw [h1] at h
      simp only [Option.bind_some] at h
      unfold sliceTo at h1
      unfold sliceFrom at h
      cases h2 : splitAtB s j with
      | none => rw [h2] at h1; cases h1
      | some x =>
        rw [h2] at h1
        simp at h1
        cases h3 : splitAtB u i with
        | none => rw [h3] at h; cases h
        | some y =>
          rw [h3] at h
          simp at h
          obtain ⟨x1, x2⟩ := x
          obtain ⟨y1, y2⟩ := y
          simp at h1 h
          subst h1; subst h
          obtain ⟨e1, e2⟩ := splitAtB_some.1 h2
          obtain ⟨e3, e4⟩ := splitAtB_some.1 h3
          subst e3
          refine ⟨y1, x2, by rw [e1]; simp, e4.symm, by rw [← e2]; simp⟩
  · cases h

theorem segment_eq {p : PathToNormalize} (hi : p.Inv) {a n r : Str}
    (h : p.text = a ++ (n ++ r)) (hn : '/' ∉ n) (hr : SegEnd r) (b : Bool) :
    PathSegment.segment ⟨b, blen a, blen a + blen n⟩ p = some n := by
  unfold PathSegment.segment
  unfold text at h
  simp only
  by_cases hl : blen a < blen p.front
  · obtain ⟨z, hz, h1, h2⟩ := blen_lt_split h.symm hl
    obtain ⟨r', h3, h4, h5⟩ := front_seg hi hz h1 h2 hn hr
    rw [h3] at h1
    rw [slice_eq h1 rfl rfl]
  · obtain ⟨z, h1, h2⟩ := blen_le_split h.symm (by omega)
    cases hs : slice p.front (blen a) (blen a + blen n) with
    | some t =>
      simp only
      obtain ⟨_, u, v, h3, h4, h5⟩ := slice_some_le hs
      have : blen p.front = blen u + blen t + blen v := by rw [h3]; simp; omega
      have h6 : blen n = 0 := by omega
      have h7 : blen t = 0 := by omega
      rw [blen_eq_zero.1 h6, blen_eq_zero.1 h7]
    | none =>
      simp only
      cases hb : p.back with
      | none =>
        exfalso
        rw [hb] at h2
        simp at h2
        obtain ⟨rfl, rfl, rfl⟩ := h2
        simp at h1
        subst h1
        have : slice p.front (blen p.front) (blen p.front) = some [] :=
          slice_eq (a := p.front) (b := []) (c := []) (by simp) rfl (by simp [blen])
        simp [this, blen] at hs
      | some bk =>
        rw [hb] at h2
        simp only [Option.getD_some] at h2
        simp only
        rw [if_neg hl]
        have e1 : blen a = blen p.front + blen z := by rw [h1]; simp
        exact slice_eq h2 (by omega) (by omega)

theorem remove_start_eq {p : PathToNormalize} (hi : p.Inv) {a b : Str} (h : p.text = a ++ b) :
    ∃ p', p.remove_start (blen a) = some p' ∧ p'.text = b ∧ p'.Inv := by
  unfold remove_start
  unfold text at h
  by_cases hl : blen a < blen p.front
  · rw [if_pos hl]
    obtain ⟨z, hz, h1, h2⟩ := blen_lt_split h.symm hl
    rw [sliceFrom_eq h1 rfl]
    refine ⟨⟨z, p.back⟩, rfl, by rw [h2]; rfl, ?_⟩
    intro x hx
    obtain ⟨h3, f, h4⟩ := hi x hx
    refine ⟨h3, ?_⟩
    have h5 : a ++ z = f ++ ['/'] := by rw [← h1, h4]
    exact last_slash h5 hz
  · rw [if_neg hl]
    obtain ⟨z, h1, h2⟩ := blen_le_split h.symm (by omega)
    refine ⟨_, rfl, ?_, ?_⟩
    · unfold text
      simp only [Option.getD_none, List.append_nil]
      cases hb : p.back with
      | none =>
        rw [hb] at h2
        simp at h2
        simp [h2.2]
      | some bk =>
        rw [hb] at h2
        simp only [Option.getD_some] at h2
        simp only [Option.bind_some]
        rw [sliceFrom_eq h2 (by rw [h1]; simp)]
        rfl
    · intro x hx; cases hx

/-! ### The segment iterator -/

/-- Positions of the segments. -/
def posList : List PSeg → Nat → List PathSegment
  | [], _ => []
  | g :: r, off =>
    ⟨g.1, off + (if g.1 then 1 else 0), off + blen (segText g)⟩ ::
      posList r (off + blen (segText g))

theorem blen_segText (g : PSeg) : blen (segText g) = (if g.1 then 1 else 0) + blen g.2 := by
  unfold segText
  cases g.1
  · simp
  · simp [utf8Size_ascii (c := '/') (by decide)]

/-- A segment list around one segment, as text. -/
theorem text_around {L1 L2 : List PSeg} {g : PSeg} :
    pathText (L1 ++ g :: L2) =
      (pathText L1 ++ (if g.1 then ['/'] else [])) ++ (g.2 ++ pathText L2) := by
  rw [pathText_append, pathText_cons, segText]; simp

theorem segEnd_of {L : List PSeg} (h : AllSlash L) : SegEnd (pathText L) := by
  rcases h.head with ⟨h, _⟩ | ⟨r, h⟩
  · exact .inl h
  · exact .inr ⟨r, h⟩

theorem iterNext_end {p : PathToNormalize} {L : List PSeg} (h : p.text = pathText L) :
    iterNext p (blen (pathText L)) = some none := by
  unfold iterNext; rw [byte_at_end h]

theorem iterNext_eq {p : PathToNormalize} (hi : p.Inv) {L1 L2 : List PSeg} {g : PSeg}
    (h : p.text = pathText (L1 ++ g :: L2)) (hok : OKSegs (L1 ++ g :: L2)) :
    iterNext p (blen (pathText L1)) = some (some
      ⟨g.1, blen (pathText L1) + (if g.1 then 1 else 0), blen (pathText L1) + blen (segText g)⟩) := by
  obtain ⟨b, n⟩ := g
  have hn : '/' ∉ n := hok.names (b, n) (by simp)
  have hal : AllSlash L2 := by
    have : OKSegs ((L1 ++ [(b, n)]) ++ L2) := by simpa using hok
    exact this.tail_of_append (by simp)
  have htext := h
  rw [text_around] at htext
  have hblen : blen (pathText L1 ++ (if b then ['/'] else [])) =
      blen (pathText L1) + (if b then 1 else 0) := by
    cases b <;> simp [utf8Size_ascii (c := '/') (by decide)]
  have hfind := find_next_slash hi htext hn (segEnd_of hal)
  simp only at hfind
  have hbyte : ∃ x, p.byte_at (blen (pathText L1)) = some x ∧ (x == 47) = b := by
    cases b with
    | true =>
      obtain ⟨x, h1, h2⟩ := byte_at_mid (p := p) (a := pathText L1) (c := '/')
        (b := n ++ pathText L2) (by rw [htext]; simp)
      exact ⟨x, h1, by rw [h2]; rfl⟩
    | false =>
      have hne : n ≠ [] := by
        have : OKSegs ((false, n) :: L2) := hok.right
        exact this.2.1 rfl
      cases n with
      | nil => exact absurd rfl hne
      | cons c n =>
        obtain ⟨x, h1, h2⟩ := byte_at_mid (p := p) (a := pathText L1) (c := c)
          (b := n ++ pathText L2) (by rw [htext]; simp)
        refine ⟨x, h1, ?_⟩
        rw [h2]
        simp at hn
        simp [Ne.symm hn.1]
  obtain ⟨x, h1, h2⟩ := hbyte
  unfold iterNext
  simp only [h1, h2]
  have e : (if b = true then blen (pathText L1) + 1 else blen (pathText L1)) =
      blen (pathText L1 ++ (if b then ['/'] else [])) := by
    rw [hblen]; cases b <;> simp
  rw [e, hfind, Option.map_some]
  congr 3
  · rw [blen_segText]
    simp only
    rw [hblen]
    rcases hal.head with ⟨h3, h4⟩ | ⟨r, h3⟩
    · rw [h3]
      simp only [List.isEmpty_nil, if_true]
      rw [len_text, htext, h3, List.append_nil, blen_append, hblen]
      simp only
      omega
    · rw [h3]
      simp only [List.isEmpty_cons]
      simp only [Bool.false_eq_true, if_false]; omega

theorem iterList_eq {p : PathToNormalize} (hi : p.Inv) (L1 L2 : List PSeg)
    (h : p.text = pathText (L1 ++ L2)) (hok : OKSegs (L1 ++ L2)) (fuel : Nat)
    (hf : L2.length < fuel) :
    iterList p fuel (blen (pathText L1)) = some (posList L2 (blen (pathText L1))) := by
  induction L2 generalizing L1 fuel with
  | nil =>
    obtain ⟨fuel, rfl⟩ : ∃ k, fuel = k + 1 := ⟨fuel - 1, by simp at hf; omega⟩
    rw [iterList]
    rw [List.append_nil] at h
    rw [iterNext_end h]
    rfl
  | cons g r ih =>
    obtain ⟨fuel, rfl⟩ : ∃ k, fuel = k + 1 := ⟨fuel - 1, by simp at hf; omega⟩
    rw [iterList, iterNext_eq hi h hok]
    have e : L1 ++ g :: r = (L1 ++ [g]) ++ r := by simp
    have hb : blen (pathText (L1 ++ [g])) = blen (pathText L1) + blen (segText g) := by
      rw [pathText_append, blen_append]; simp [pathText]
    have := ih (L1 ++ [g]) (by rw [h, e]) (by rw [← e]; exact hok) fuel (by simp at hf; omega)
    rw [hb] at this
    simp only [this, Option.map_some]
    rfl

theorem segs_length_le {L : List PSeg} (h : OKSegs L) : L.length ≤ blen (pathText L) := by
  have key : ∀ L : List PSeg, AllSlash L → L.length ≤ blen (pathText L) := by
    intro L
    induction L with
    | nil => simp
    | cons g r ih =>
      intro h
      have := ih fun x hx => h x (by simp [hx])
      rw [pathText_cons, blen_append, blen_segText, (h g (by simp)).1]
      simp; omega
  cases L with
  | nil => simp
  | cons g r =>
    have := key r h.2.2
    rw [pathText_cons, blen_append, blen_segText]
    obtain ⟨b, n⟩ := g
    cases b with
    | true => simp; omega
    | false =>
      have h2 : n ≠ [] := h.2.1 rfl
      have : blen n ≠ 0 := fun e => h2 (blen_eq_zero.1 e)
      simp; omega

theorem segments_eq {p : PathToNormalize} (hi : p.Inv) {L : List PSeg}
    (h : p.text = pathText L) (hok : OKSegs L) : segments p = some (posList L 0) := by
  unfold segments
  have := iterList_eq hi [] L h hok (p.len + 1)
    (by rw [len_text, h]; have := segs_length_le hok; omega)
  simpa [pathText_nil, blen] using this

theorem kind_eq {p : PathToNormalize} (hi : p.Inv) {L1 L2 : List PSeg} {g : PSeg}
    (h : p.text = pathText (L1 ++ g :: L2)) (hok : OKSegs (L1 ++ g :: L2)) :
    PathSegment.segment ⟨g.1, blen (pathText L1) + (if g.1 then 1 else 0),
      blen (pathText L1) + blen (segText g)⟩ p = some g.2 := by
  have hal : AllSlash L2 := by
    have : OKSegs ((L1 ++ [g]) ++ L2) := by simpa using hok
    exact this.tail_of_append (by simp)
  have htext := h
  rw [text_around] at htext
  have := segment_eq hi htext (hok.names g (by simp)) (segEnd_of hal) g.1
  have e1 : blen (pathText L1 ++ (if g.1 = true then ['/'] else [])) =
      blen (pathText L1) + (if g.1 then 1 else 0) := by
    cases g.1 <;> simp [utf8Size_ascii (c := '/') (by decide)]
  rw [e1] at this
  rw [blen_segText, ← Nat.add_assoc]
  exact this

end Verif
