import Verif.Lemmas.PathNorm

/-! # Dot segment removal: the code and RFC 3986 section 5.2.4 -/

namespace Verif

open Rfc PathToNormalize

/-! ### Which segments are dot segments -/

theorem tokens_inv (s : Str) : (s = [] ∧ tokens s = []) ∨
    (∃ c r, s = c :: r ∧ tokens s = .ch c :: tokens r) ∨
    (∃ h l r, s = '%' :: h :: l :: r ∧ isHex h = true ∧ isHex l = true ∧
      tokens s = .pct (hexVal h * 16 + hexVal l) :: tokens r) := by
  match s with
  | [] => exact .inl ⟨rfl, tokens_nil⟩
  | c :: r =>
    right
    by_cases hc : c = '%'
    · subst hc
      match r with
      | [] => exact .inl ⟨_, _, rfl, by simp [tokens]⟩
      | [_] => exact .inl ⟨_, _, rfl, by simp [tokens]⟩
      | h :: l :: r =>
        by_cases hx : isHex h = true ∧ isHex l = true
        · exact .inr ⟨h, l, r, rfl, hx.1, hx.2, tokens_pct hx.1 hx.2 r⟩
        · left
          refine ⟨_, _, rfl, ?_⟩
          rw [tokens, HEXDIG_eq]
          rw [if_neg (by simpa using hx)]
    · exact .inl ⟨_, _, rfl, tokens_ch hc r⟩

theorem pctDecode_nil : pctDecode [] = [] := by rw [pctDecode, tokens_nil]; rfl

theorem pctDecode_eq_nil {s : Str} (h : pctDecode s = []) : s = [] := by
  unfold pctDecode at h
  rcases tokens_inv s with ⟨h1, _⟩ | ⟨c, r, _, h2⟩ | ⟨_, _, r, _, _, _, h2⟩
  · exact h1
  · rw [h2] at h
    simp [Tok.bytes, utf8_ne_nil] at h
  · rw [h2] at h
    simp [Tok.bytes] at h

theorem hex46 {h l : Char} (hh : isHex h = true) (hl : isHex l = true)
    (e : hexVal h * 16 + hexVal l = 46) : h = '2' ∧ (l = 'E' ∨ l = 'e') := by
  have h1 := hexVal_lt hh
  have h2 := hexVal_lt hl
  have e1 : hexVal h = 2 := by omega
  have e2 : hexVal l = 14 := by omega
  unfold hexVal at e1 e2
  simp [isHex] at hh hl
  constructor
  · rw [char_eq_iff]
    show h.toNat = 50
    repeat' split at e1
    all_goals omega
  · rw [char_eq_iff, char_eq_iff]
    show l.toNat = 69 ∨ l.toNat = 101
    repeat' split at e2
    all_goals omega

/-- A decoded text that starts with a dot starts with one of the spellings of a dot. -/
theorem pctDecode_dot {s : Str} {r : List Nat} (h : pctDecode s = 46 :: r) :
    ∃ s', (s = '.' :: s' ∨ s = '%' :: '2' :: 'E' :: s' ∨ s = '%' :: '2' :: 'e' :: s') ∧
      pctDecode s' = r := by
  unfold pctDecode at h
  rcases tokens_inv s with ⟨_, h2⟩ | ⟨c, t, h1, h2⟩ | ⟨a, b, t, h1, ha, hb, h2⟩
  · rw [h2] at h; cases h
  · rw [h2, List.flatMap_cons] at h
    obtain ⟨x, u, e, _, hx⟩ := utf8_shape c
    simp only [Tok.bytes, e, List.cons_append, List.cons.injEq] at h
    have hc : c = '.' := (char_eq_iff _ _).2 (by show c.toNat = 46; omega)
    have hu : u = [] := List.length_eq_zero_iff.1 (by omega)
    subst hu
    exact ⟨t, .inl (by rw [h1, hc]), by simpa [pctDecode] using h.2⟩
  · rw [h2, List.flatMap_cons] at h
    simp only [Tok.bytes, List.cons_append, List.nil_append, List.cons.injEq] at h
    obtain ⟨h3, h4⟩ := hex46 ha hb h.1
    refine ⟨t, ?_, h.2⟩
    rcases h4 with h4 | h4
    · exact .inr (.inl (by rw [h1, h3, h4]))
    · exact .inr (.inr (by rw [h1, h3, h4]))

theorem pctDecode_cons_dot {s s' : Str}
    (h : s = '.' :: s' ∨ s = '%' :: '2' :: 'E' :: s' ∨ s = '%' :: '2' :: 'e' :: s') :
    pctDecode s = 46 :: pctDecode s' := by
  rcases h with rfl | rfl | rfl
  · unfold pctDecode; rw [tokens_ch (by decide)]; rfl
  · unfold pctDecode; rw [tokens_pct (by decide) (by decide)]; rfl
  · unfold pctDecode; rw [tokens_pct (by decide) (by decide)]; rfl

theorem dot_iff (s : Str) : pctDecode s = [46] ↔
    s ∈ [['.'], ['%', '2', 'E'], ['%', '2', 'e']] := by
  constructor
  · intro h
    obtain ⟨s', h1, h2⟩ := pctDecode_dot h
    have := pctDecode_eq_nil h2
    subst this
    simpa using h1
  · intro h
    have : s = '.' :: [] ∨ s = '%' :: '2' :: 'E' :: [] ∨ s = '%' :: '2' :: 'e' :: [] := by
      simpa using h
    rw [pctDecode_cons_dot this, pctDecode_nil]

theorem dotdot_iff (s : Str) : pctDecode s = [46, 46] ↔
    s ∈ [['.', '.'], ['.', '%', '2', 'E'], ['.', '%', '2', 'e'], ['%', '2', 'E', '.'],
      ['%', '2', 'E', '%', '2', 'E'], ['%', '2', 'E', '%', '2', 'e'], ['%', '2', 'e', '.'],
      ['%', '2', 'e', '%', '2', 'E'], ['%', '2', 'e', '%', '2', 'e']] := by
  constructor
  · intro h
    obtain ⟨s', h1, h2⟩ := pctDecode_dot h
    have h3 := (dot_iff s').1 h2
    simp at h3
    rcases h3 with rfl | rfl | rfl <;> rcases h1 with rfl | rfl | rfl <;> simp
  · intro h
    simp at h
    rcases h with rfl | rfl | rfl | rfl | rfl | rfl | rfl | rfl | rfl <;> decide +kernel

theorem from_segment_dot (s : Str) : SegmentKind.from_segment s = .dot ↔ pctDecode s = [46] := by
  rw [dot_iff]
  constructor
  · intro h
    unfold SegmentKind.from_segment at h
    split at h
    · cases h
    · split at h
      · cases h
      · split at h
        · clear h; rename_i hm; simpa using hm
        · split at h <;> cases h
  · intro h
    simp at h
    rcases h with rfl | rfl | rfl <;> decide +kernel

theorem from_segment_dotdot (s : Str) :
    SegmentKind.from_segment s = .dotDot ↔ pctDecode s = [46, 46] := by
  rw [dotdot_iff]
  constructor
  · intro h
    unfold SegmentKind.from_segment at h
    split at h
    · cases h
    · split at h
      · cases h
      · split at h
        · cases h
        · split at h
          · clear h; rename_i hm; simpa using hm
          · cases h
  · intro h
    simp at h
    rcases h with rfl | rfl | rfl | rfl | rfl | rfl | rfl | rfl | rfl <;> decide +kernel

theorem undot_kind (s : Str) : undotSegment s =
    match SegmentKind.from_segment s with
    | .dot => ['.']
    | .dotDot => ['.', '.']
    | .normal => s := by
  unfold undotSegment
  by_cases h1 : pctDecode s = [46]
  · rw [if_pos h1, (from_segment_dot s).2 h1]
  · rw [if_neg h1]
    by_cases h2 : pctDecode s = [46, 46]
    · rw [if_pos h2, (from_segment_dotdot s).2 h2]
    · rw [if_neg h2]
      cases hk : SegmentKind.from_segment s with
      | dot => exact absurd ((from_segment_dot s).1 hk) h1
      | dotDot => exact absurd ((from_segment_dotdot s).1 hk) h2
      | normal => rfl

theorem kind_undot (s : Str) :
    SegmentKind.from_segment (undotSegment s) = SegmentKind.from_segment s := by
  rw [undot_kind]
  cases hk : SegmentKind.from_segment s with
  | dot => show SegmentKind.from_segment ['.'] = .dot; decide +kernel
  | dotDot => show SegmentKind.from_segment ['.', '.'] = .dotDot; decide +kernel
  | normal => exact hk

theorem undot_nil : undotSegment [] = [] := by rw [undot_kind]; rfl

theorem undot_eq_nil {s : Str} : undotSegment s = [] ↔ s = [] := by
  constructor
  · intro h
    rw [undot_kind] at h
    cases hk : SegmentKind.from_segment s with
    | dot => rw [hk] at h; cases h
    | dotDot => rw [hk] at h; cases h
    | normal => rw [hk] at h; exact h
  · rintro rfl; exact undot_nil

theorem undot_no_slash {s : Str} (h : '/' ∉ s) : '/' ∉ undotSegment s := by
  rw [undot_kind]
  cases SegmentKind.from_segment s with
  | dot => show '/' ∉ ['.']; decide
  | dotDot => show '/' ∉ ['.', '.']; decide
  | normal => exact h

/-! ### `undot` on segments -/

def undotSegs (L : List PSeg) : List PSeg := L.map fun g => (g.1, undotSegment g.2)

theorem splitSlash_pathText {L : List PSeg} (h : AllSlash L) {a : Str} (ha : '/' ∉ a) :
    splitSlash (a ++ pathText L) = a :: L.map Prod.snd := by
  induction L generalizing a with
  | nil => simp [pathText, splitSlash_no ha]
  | cons g r ih =>
    have hg := h g (by simp)
    rw [pathText_cons, segText, hg.1]
    simp only [if_true, List.singleton_append, List.cons_append, List.nil_append]
    rw [splitSlash_append ha, ih (fun x hx => h x (by simp [hx])) hg.2]
    rfl

theorem joinSlash_cons (a : Str) (ns : List Str) :
    joinSlash (a :: ns) = a ++ pathText (ns.map fun n => (true, n)) := by
  induction ns generalizing a with
  | nil => simp [joinSlash, pathText]
  | cons n r ih => rw [joinSlash_cons_cons, ih, List.map_cons, pathText_cons, segText]; simp

theorem allSlash_map {L : List PSeg} (h : AllSlash L) :
    (L.map Prod.snd).map (fun n => (true, n)) = L := by
  induction L with
  | nil => rfl
  | cons g r ih =>
    rw [List.map_cons, List.map_cons, ih fun x hx => h x (by simp [hx])]
    have := (h g (by simp)).1
    rw [← this]

theorem undot_allSlash {L : List PSeg} (h : AllSlash L) : AllSlash (undotSegs L) := by
  intro g hg
  obtain ⟨x, hx, rfl⟩ := List.mem_map.1 hg
  exact ⟨(h x hx).1, undot_no_slash (h x hx).2⟩

theorem undot_ok {L : List PSeg} (h : OKSegs L) : OKSegs (undotSegs L) := by
  cases L with
  | nil => trivial
  | cons g r =>
    exact ⟨undot_no_slash h.1, fun e h2 => h.2.1 e (undot_eq_nil.1 h2), undot_allSlash h.2.2⟩

theorem undot_aux {L : List PSeg} (h : AllSlash L) {a : Str} (ha : '/' ∉ a) :
    undot (a ++ pathText L) = undotSegment a ++ pathText (undotSegs L) := by
  unfold undot
  rw [splitSlash_pathText h ha, List.map_cons, joinSlash_cons]
  congr 2
  have := allSlash_map (undot_allSlash h)
  rw [← this]
  simp [undotSegs]

theorem undot_pathText {L : List PSeg} (h : OKSegs L) : undot (pathText L) = pathText (undotSegs L) := by
  cases L with
  | nil => decide +kernel
  | cons g r =>
    obtain ⟨b, n⟩ := g
    cases b with
    | true =>
      have hal : AllSlash ((true, n) :: r) := by
        intro x hx
        rcases List.mem_cons.1 hx with rfl | hx
        · exact ⟨rfl, h.1⟩
        · exact h.2.2 x hx
      have := undot_aux hal (a := []) (by simp)
      simpa [undot_nil] using this
    | false =>
      have := undot_aux h.2.2 (a := n) h.1
      rw [pathText_cons]
      exact this

theorem undot_normal {L : List PSeg} (h : ∀ g ∈ L, isDots g = false) : undotSegs L = L := by
  unfold undotSegs
  refine Eq.trans (List.map_congr_left ?_) (List.map_id L)
  intro g hg
  have := h g hg
  simp [isDots] at this
  rw [undot_kind, this]
  rfl

theorem stk_undot (L : List PSeg) : stk (undotSegs L) = stk L := by
  have key : ∀ L : List PSeg, ∀ E, (∀ g ∈ E, isDots g = false) →
      (undotSegs L).foldl stkStep E = L.foldl stkStep E := by
    intro L
    induction L with
    | nil => intro E _; rfl
    | cons g r ih =>
      intro E hE
      have hstep : stkStep E (g.1, undotSegment g.2) = stkStep E g := by
        unfold stkStep
        simp only [kind_undot]
        cases hk : SegmentKind.from_segment g.2 with
        | dot => rfl
        | dotDot => rfl
        | normal => rw [undot_kind, hk]
      show (undotSegs r).foldl stkStep (stkStep E (g.1, undotSegment g.2)) = _
      rw [hstep, List.foldl_cons]
      refine ih _ ?_
      intro x hx
      unfold stkStep at hx
      cases hk : SegmentKind.from_segment g.2 with
      | dot => rw [hk] at hx; exact hE x hx
      | dotDot => rw [hk] at hx; exact hE x ((List.dropLast_sublist E).subset hx)
      | normal =>
        rw [hk] at hx
        rcases List.mem_append.1 hx with hx | hx
        · exact hE x hx
        · simp at hx; subst hx; simp [isDots, hk]
  exact key L [] (by simp)

theorem fin_undot (L : List PSeg) : fin (undotSegs L) = fin L := by
  unfold fin
  rw [stk_undot]
  congr 2
  have : endDots (undotSegs L) = endDots L := by
    unfold endDots undotSegs
    rw [List.getLast?_map]
    cases L.getLast? with
    | none => rfl
    | some g => simp [isDots, kind_undot]
  rw [this]

/-! ### Leading relative dot segments -/

/-- Removes leading `./` and `../`. -/
def stripRel : List PSeg → List PSeg
  | [] => []
  | (true, n) :: r => (true, n) :: r
  | (false, n) :: r =>
    if isDots (false, n) then
      match r with
      | [] => []
      | (_, m) :: r => if m = [] then r else stripRel ((false, m) :: r)
    else (false, n) :: r
termination_by L => L.length
decreasing_by simp

theorem stripRel_true (n : Str) (r : List PSeg) : stripRel ((true, n) :: r) = (true, n) :: r := by
  rw [stripRel]

theorem stripRel_normal {n : Str} {r : List PSeg} (h : isDots (false, n) = false) :
    stripRel ((false, n) :: r) = (false, n) :: r := by
  rw [stripRel.eq_def]; simp [h]

theorem stripRel_end {n : Str} (h : isDots (false, n) = true) : stripRel [(false, n)] = [] := by
  rw [stripRel.eq_def]; simp [h]

theorem stripRel_dots {n m : Str} {b : Bool} {r : List PSeg} (h : isDots (false, n) = true) :
    stripRel ((false, n) :: (b, m) :: r) = if m = [] then r else stripRel ((false, m) :: r) := by
  rw [stripRel.eq_def]; simp [h]

/-- Induction for `stripRel`. -/
theorem stripRel_ind {P : List PSeg → Prop} (h0 : P []) (h1 : ∀ n r, P ((true, n) :: r))
    (h2 : ∀ n r, isDots (false, n) = false → P ((false, n) :: r))
    (h3 : ∀ n, isDots (false, n) = true → P [(false, n)])
    (h4 : ∀ n b r, isDots (false, n) = true → P ((false, n) :: (b, []) :: r))
    (h5 : ∀ n b m r, isDots (false, n) = true → m ≠ [] → P ((false, m) :: r) →
      P ((false, n) :: (b, m) :: r)) : ∀ L, P L := by
  intro L
  induction hk : L.length using Nat.strongRecOn generalizing L with
  | _ k ih =>
    match L with
    | [] => exact h0
    | (true, n) :: r => exact h1 n r
    | (false, n) :: r =>
      by_cases hd : isDots (false, n) = true
      · match r with
        | [] => exact h3 n hd
        | (b, m) :: r =>
          by_cases hm : m = []
          · subst hm; exact h4 n b r hd
          · exact h5 n b m r hd hm (ih ((false, m) :: r).length (by rw [← hk]; simp) _ rfl)
      · exact h2 n r (by simpa using hd)

theorem stripRel_ok {L : List PSeg} (h : OKSegs L) : OKSegs (stripRel L) := by
  revert h
  refine stripRel_ind (P := fun L => OKSegs L → OKSegs (stripRel L)) ?_ ?_ ?_ ?_ ?_ ?_ L
  · intro _; rw [stripRel]; trivial
  · intro n r h; rw [stripRel_true]; exact h
  · intro n r hd h; rw [stripRel_normal hd]; exact h
  · intro n hd h; rw [stripRel_end hd]; trivial
  · intro n b r hd h
    rw [stripRel_dots hd, if_pos rfl]
    exact (AllSlash.ok fun x hx => h.2.2 x (by simp [hx]))
  · intro n b m r hd hm ih h
    rw [stripRel_dots hd, if_neg hm]
    exact ih ⟨(h.2.2 (b, m) (by simp)).2, fun _ => hm, fun x hx => h.2.2 x (by simp [hx])⟩

theorem stripRel_names {L : List PSeg} {P : Str → Prop} (h : ∀ g ∈ L, P g.2) :
    ∀ g ∈ stripRel L, P g.2 := by
  revert h
  refine stripRel_ind (P := fun L => (∀ g ∈ L, P g.2) → ∀ g ∈ stripRel L, P g.2) ?_ ?_ ?_ ?_ ?_ ?_ L
  · intro _; rw [stripRel]; simp
  · intro n r h; rw [stripRel_true]; exact h
  · intro n r hd h; rw [stripRel_normal hd]; exact h
  · intro n hd h; rw [stripRel_end hd]; simp
  · intro n b r hd h
    rw [stripRel_dots hd, if_pos rfl]
    exact fun g hg => h g (by simp [hg])
  · intro n b m r hd hm ih h
    rw [stripRel_dots hd, if_neg hm]
    refine ih fun g hg => ?_
    rcases List.mem_cons.1 hg with rfl | hg
    · exact h (b, m) (by simp)
    · exact h g (by simp [hg])

theorem stripRel_undot (L : List PSeg) : stripRel (undotSegs L) = undotSegs (stripRel L) := by
  have hd' : ∀ n, isDots (false, undotSegment n) = isDots (false, n) := by
    intro n; simp [isDots, kind_undot]
  refine stripRel_ind (P := fun L => stripRel (undotSegs L) = undotSegs (stripRel L)) ?_ ?_ ?_ ?_ ?_ ?_ L
  · show stripRel [] = undotSegs (stripRel []); rw [stripRel]; rfl
  · intro n r
    rw [stripRel_true]
    exact stripRel_true _ _
  · intro n r hd
    rw [stripRel_normal hd]
    exact stripRel_normal (by rw [hd']; exact hd)
  · intro n hd
    rw [stripRel_end hd]
    exact stripRel_end (by rw [hd']; exact hd)
  · intro n b r hd
    rw [stripRel_dots hd, if_pos rfl]
    show stripRel ((false, undotSegment n) :: (b, undotSegment []) :: undotSegs r) = _
    rw [stripRel_dots (by rw [hd']; exact hd), if_pos undot_nil]
  · intro n b m r hd hm ih
    rw [stripRel_dots hd, if_neg hm]
    show stripRel ((false, undotSegment n) :: (b, undotSegment m) :: undotSegs r) = _
    rw [stripRel_dots (by rw [hd']; exact hd), if_neg (fun h => hm (undot_eq_nil.1 h))]
    exact ih

/-! ### `remove_ignorable_prefix` -/

theorem isDots_kind {g : PSeg} : isDots g = true ↔ SegmentKind.from_segment g.2 ≠ .normal := by
  simp [isDots]

/-- One round of `remove_ignorable_prefix`. -/
theorem ignorable_step {p : PathToNormalize} (hi : p.Inv) {n : Str} {r : List PSeg}
    (h : p.text = pathText ((false, n) :: r)) (hok : OKSegs ((false, n) :: r))
    (hd : isDots (false, n) = true) :
    ∃ p', p.remove_start (min (blen p.front) (blen n + 1)) = some p' ∧ p'.Inv ∧
      ∃ L', p'.text = pathText L' ∧ OKSegs L' ∧ L'.length < r.length + 1 ∧
        stripRel L' = stripRel ((false, n) :: r) := by
  have hfr := front_seg hi (a := []) (z := p.front) (n := n) (r := pathText r)
  have hbl : blen (segText (false, n)) = blen n := by simp [segText]
  have hpre : p.front ≠ [] := by
    intro he
    have : p.is_empty = true := by simp [is_empty, he]
    rw [inv_empty hi, h, hok.text_ne] at this
    cases this
  have htx : n ++ pathText r = p.front ++ p.back.getD [] := by
    have := h; rw [pathText_cons] at this; exact this.symm
  obtain ⟨r', hr1, hr2, hr3⟩ := hfr hpre rfl htx hok.1 (segEnd_of hok.2.2)
  have main : ∃ p', p.remove_start (min (blen p.front) (blen n + 1)) = some p' ∧ p'.Inv ∧
      ∃ L', p'.text = pathText L' ∧ OKSegs L' ∧ L'.length < r.length + 1 ∧
        stripRel L' = stripRel ((false, n) :: r) := by
    match r with
    | [] =>
      have hr' : r' = [] := by simpa [pathText] using hr3
      rw [hr', List.append_nil] at hr1
      obtain ⟨p', h1, h2, h3⟩ := remove_start_eq hi (a := n) (b := []) (by
        rw [h]; simp [pathText, segText])
      refine ⟨p', ?_, h3, [], h2, trivial, by simp, ?_⟩
      · rw [hr1, show min (blen n) (blen n + 1) = blen n by omega]; exact h1
      · rw [stripRel_end hd, stripRel]
    | (b, m) :: r =>
      have hb : b = true := (hok.2.2 (b, m) (by simp)).1
      subst hb
      have hm : '/' ∉ m := (hok.2.2 (true, m) (by simp)).2
      have hr' : ∃ t, r' = '/' :: t := by
        rcases hr2 with rfl | h
        · simp [pathText_cons, segText] at hr3
        · exact h
      obtain ⟨t, rfl⟩ := hr'
      obtain ⟨p', h1, h2, h3⟩ := remove_start_eq hi (a := n ++ ['/']) (b := m ++ pathText r) (by
        rw [h]; simp [pathText_cons, segText])
      have hb1 : blen (n ++ ['/']) = blen n + 1 := by
        simp [utf8Size_ascii (c := '/') (by decide)]
      have hle : blen n + 1 ≤ blen p.front := by
        rw [hr1, show n ++ '/' :: t = (n ++ ['/']) ++ t by simp, blen_append, hb1]; omega
      refine ⟨p', ?_, h3, ?_⟩
      · rw [Nat.min_eq_right hle, ← hb1]; exact h1
      · by_cases hm0 : m = []
        · subst hm0
          have hal : AllSlash r := fun x hx => hok.2.2 x (by simp [hx])
          refine ⟨r, h2, hal.ok, by simp only [List.length_cons]; omega, ?_⟩
          rw [stripRel_dots hd, if_pos rfl]
          match r, hal with
          | [], _ => rw [stripRel]
          | (b, x) :: r, hal =>
            have : b = true := (hal (b, x) (by simp)).1
            subst this
            exact stripRel_true _ _
        · refine ⟨(false, m) :: r, by rw [h2, pathText_cons]; rfl, ?_, by simp, ?_⟩
          · exact ⟨hm, fun _ => hm0, fun x hx => hok.2.2 x (by simp [hx])⟩
          · rw [stripRel_dots hd, if_neg hm0]
  exact main

theorem remove_ignorable_eq (fuel : Nat) {p : PathToNormalize} (hi : p.Inv) {L : List PSeg}
    (h : p.text = pathText L) (hok : OKSegs L) (hf : L.length < fuel) :
    ∃ p', remove_ignorable_go fuel p = some p' ∧ p'.Inv ∧ p'.text = pathText (stripRel L) := by
  induction fuel generalizing p L with
  | zero => omega
  | succ fuel ih =>
    match L with
    | [] =>
      refine ⟨p, ?_, hi, by rw [stripRel]; exact h⟩
      have := iterNext_end (p := p) (L := []) h
      rw [remove_ignorable_go]
      simp only [pathText_nil, blen] at this
      rw [this]
    | g :: r =>
      have hit := iterNext_eq hi (L1 := []) (g := g) (L2 := r) h hok
      have hkd := kindOf hi (L1 := []) (g := g) (L2 := r) h hok
      simp only [pathText_nil, blen, Nat.zero_add] at hit hkd
      rw [remove_ignorable_go]
      simp only [hit, hkd]
      obtain ⟨b, n⟩ := g
      cases b with
      | true => exact ⟨p, by simp, hi, by rw [stripRel_true]; exact h⟩
      | false =>
        simp only [Bool.false_eq_true, if_false]
        by_cases hd : isDots (false, n) = true
        · have hbl : blen (segText (false, n)) = blen n := by simp [segText]
          obtain ⟨p', h1, h2, L', h3, h4, h5, h6⟩ := ignorable_step hi h hok hd
          have h5 : L'.length < fuel := by simp at hf; omega
          obtain ⟨p'', h7, h8, h9⟩ := ih h2 h3 h4 h5
          refine ⟨p'', ?_, h8, by rw [h9, h6]⟩
          rw [hbl, h1]
          have := isDots_kind.1 hd
          cases hk : SegmentKind.from_segment n with
          | normal => exact absurd hk this
          | dot => exact h7
          | dotDot => exact h7
        · have hk : SegmentKind.from_segment n = .normal := by simpa [isDots] using hd
          rw [hk]
          exact ⟨p, rfl, hi, by rw [stripRel_normal (by simpa using hd)]; exact h⟩

theorem remove_ignorable_prefix_eq {p : PathToNormalize} (hi : p.Inv) {L : List PSeg}
    (h : p.text = pathText L) (hok : OKSegs L) :
    ∃ p', p.remove_ignorable_prefix = some p' ∧ p'.Inv ∧ p'.text = pathText (stripRel L) :=
  remove_ignorable_eq _ hi h hok (by rw [len_text, h]; have := segs_length_le hok; omega)

/-! ### RFC 3986 section 5.2.4 on segments -/

theorem takeWhile_seg {n R : Str} (hn : '/' ∉ n) (hR : SegEnd R) :
    (n ++ R).takeWhile (· != '/') = n ∧ (n ++ R).dropWhile (· != '/') = R := by
  induction n with
  | nil => rcases hR with rfl | ⟨t, rfl⟩ <;> simp
  | cons c n ih =>
    simp at hn
    have := ih hn.2
    have hc : (c != '/') = true := by simpa using fun e => hn.1 e.symm
    simp [this.1, this.2, Ne.symm hn.1]

theorem firstSegment_slash {n R : Str} (hn : '/' ∉ n) (hR : SegEnd R) :
    firstSegment ('/' :: (n ++ R)) = ('/' :: n, R) := by
  have := takeWhile_seg hn hR
  simp [firstSegment, this.1, this.2]

theorem firstSegment_rel {n R : Str} (h0 : n ≠ []) (hn : '/' ∉ n) (hR : SegEnd R) :
    firstSegment (n ++ R) = (n, R) := by
  cases n with
  | nil => exact absurd rfl h0
  | cons c n =>
    simp at hn
    have := takeWhile_seg hn.2 hR
    simp [firstSegment, this.1, this.2]

theorem step_slash_normal {n R out : Str} (hn : '/' ∉ n) (hR : SegEnd R) (h1 : n ≠ ['.'])
    (h2 : n ≠ ['.', '.']) :
    removeDotsStep ('/' :: (n ++ R)) out = (R, out ++ '/' :: n) := by
  have hf := firstSegment_slash hn hR
  unfold removeDotsStep
  split
  case h_9 => rw [hf]
  all_goals
    rename_i he
    exfalso
    revert he h1 h2 hn
    rcases hR with rfl | ⟨t, rfl⟩ <;>
      rcases n with _ | ⟨a, _ | ⟨b, _ | ⟨c, n⟩⟩⟩ <;> simp <;> (try (intros; simp_all))

theorem step_rel_normal {n R out : Str} (h0 : n ≠ []) (hn : '/' ∉ n) (hR : SegEnd R) (h1 : n ≠ ['.'])
    (h2 : n ≠ ['.', '.']) :
    removeDotsStep (n ++ R) out = (R, out ++ n) := by
  have hf := firstSegment_rel h0 hn hR
  unfold removeDotsStep
  split
  case h_9 => rw [hf]
  all_goals
    rename_i he
    exfalso
    revert he h1 h2 hn h0
    rcases hR with rfl | ⟨t, rfl⟩ <;>
      rcases n with _ | ⟨a, _ | ⟨b, _ | ⟨c, n⟩⟩⟩ <;> simp <;> (try (intros; simp_all))

theorem removeLast_pathText {E : List PSeg} (h : OKSegs E) :
    removeLastSegment (pathText E) = pathText E.dropLast := by
  rcases List.eq_nil_or_concat E with rfl | ⟨E', e, rfl⟩
  · rfl
  · rw [List.concat_eq_append] at h ⊢
    rw [List.dropLast_concat, pathText_append]
    have hn : '/' ∉ e.2 := h.names e (by simp)
    obtain ⟨b, n⟩ := e
    have hn' : '/' ∉ n.reverse := by simpa using hn
    unfold removeLastSegment
    cases b with
    | true =>
      have : (pathText E' ++ pathText [(true, n)]).reverse =
          n.reverse ++ ('/' :: (pathText E').reverse) := by simp [pathText, segText]
      rw [this, (takeWhile_seg hn' (.inr ⟨_, rfl⟩)).2]
      simp
    | false =>
      have hE : E' = [] := by
        cases E' with
        | nil => rfl
        | cons x E' =>
          have := (h.2.2 (false, n) (by simp)).1
          cases this
      subst hE
      have : (pathText [] ++ pathText [(false, n)]).reverse = n.reverse ++ [] := by
        simp [pathText, segText]
      rw [this, (takeWhile_seg hn' (.inl rfl)).2]
      rfl

/-- Dot segments are spelled with plain dots. -/
def Plain (L : List PSeg) : Prop := ∀ g ∈ L,
  (SegmentKind.from_segment g.2 = .dot → g.2 = ['.']) ∧
  (SegmentKind.from_segment g.2 = .dotDot → g.2 = ['.', '.'])

theorem undot_plain (L : List PSeg) : Plain (undotSegs L) := by
  intro g hg
  obtain ⟨x, _, rfl⟩ := List.mem_map.1 hg
  simp only [kind_undot]
  constructor
  · intro h; rw [undot_kind, h]
  · intro h; rw [undot_kind, h]

theorem loop_nil (fuel : Nat) (out : Str) : removeDotsLoop fuel [] out = out := by
  cases fuel <;> simp [removeDotsLoop]

theorem loop_step (fuel : Nat) (c : Char) (r out : Str) :
    removeDotsLoop (fuel + 1) (c :: r) out =
      removeDotsLoop fuel (removeDotsStep (c :: r) out).1 (removeDotsStep (c :: r) out).2 := by
  rw [removeDotsLoop]; simp

theorem rds_slash (L : List PSeg) (hal : AllSlash L) (hp : Plain L) (E : List PSeg) (hE : OKSegs E)
    (fuel : Nat) (hf : (pathText L).length ≤ fuel) :
    removeDotsLoop fuel (pathText L) (pathText E) =
      pathText (L.foldl stkStep E ++ (if endDots L then [(true, [])] else [])) := by
  induction L generalizing E fuel with
  | nil => rw [pathText_nil, loop_nil]; simp [endDots]
  | cons g r ih =>
    obtain ⟨b, n⟩ := g
    have hb : b = true := (hal (b, n) (by simp)).1
    subst hb
    have hn : '/' ∉ n := (hal (true, n) (by simp)).2
    have hr : AllSlash r := fun x hx => hal x (by simp [hx])
    have hpr : Plain r := fun x hx => hp x (by simp [hx])
    have ht : pathText ((true, n) :: r) = '/' :: (n ++ pathText r) := by
      simp [pathText_cons, segText]
    rw [ht] at hf ⊢
    simp at hf
    obtain ⟨k, rfl⟩ : ∃ k, fuel = k + 1 := ⟨fuel - 1, by omega⟩
    rw [loop_step, List.foldl_cons]
    have hend : r ≠ [] → endDots ((true, n) :: r) = endDots r := fun h =>
      endDots_append (a := [(true, n)]) h
    cases hk : SegmentKind.from_segment n with
    | normal =>
      have h1 : n ≠ ['.'] := by rintro rfl; exact absurd hk (by decide +kernel)
      have h2 : n ≠ ['.', '.'] := by rintro rfl; exact absurd hk (by decide +kernel)
      rw [step_slash_normal hn (segEnd_of hr) h1 h2]
      have hE' : OKSegs (E ++ [(true, n)]) := by
        cases E with
        | nil => exact ⟨hn, by simp, by simp [AllSlash]⟩
        | cons e E =>
          refine ⟨hE.1, hE.2.1, AllSlash.append hE.2.2 ?_⟩
          intro x hx; simp at hx; subst hx; exact ⟨rfl, hn⟩
      have e1 : pathText E ++ '/' :: n = pathText (E ++ [(true, n)]) := by
        rw [pathText_append]; simp [pathText, segText]
      have e2 : stkStep E (true, n) = E ++ [(true, n)] := by simp [stkStep, hk]
      simp only
      rw [e1, ih hr hpr _ hE' k (by omega), e2]
      by_cases hre : r = []
      · subst hre; simp [endDots, isDots, hk]
      · rw [hend hre]
    | dot =>
      have hnn : n = ['.'] := (hp (true, n) (by simp)).1 hk
      have e2 : stkStep E (true, n) = E := by simp [stkStep, hk]
      rw [e2]
      subst hnn
      rcases hr.head with ⟨h3, h4⟩ | ⟨t, h3⟩
      · rw [h3, h4]
        have hs : removeDotsStep ('/' :: (['.'] ++ [])) (pathText E) = (['/'], pathText E) := rfl
        rw [hs]
        simp only
        obtain ⟨k, rfl⟩ : ∃ k', k = k' + 1 := ⟨k - 1, by simp at hf; omega⟩
        rw [loop_step]
        have hs2 : removeDotsStep ['/'] (pathText E) = ([], pathText E ++ ['/']) := rfl
        rw [hs2, loop_nil]
        simp [endDots, isDots, hk, pathText_append, pathText, segText]
      · have hre : r ≠ [] := by rintro rfl; simp [pathText] at h3
        rw [hend hre]
        have hs : removeDotsStep ('/' :: (['.'] ++ pathText r)) (pathText E) = (pathText r, pathText E) := by
          rw [h3]; rfl
        rw [hs]
        exact ih hr hpr E hE k (by omega)
    | dotDot =>
      have hnn : n = ['.', '.'] := (hp (true, n) (by simp)).2 hk
      have e2 : stkStep E (true, n) = E.dropLast := by simp [stkStep, hk]
      have hE' : OKSegs E.dropLast := by
        rcases List.eq_nil_or_concat E with rfl | ⟨E', e, rfl⟩
        · trivial
        · rw [List.concat_eq_append] at hE ⊢
          rw [List.dropLast_concat]; exact hE.left
      rw [e2]
      subst hnn
      rcases hr.head with ⟨h3, h4⟩ | ⟨t, h3⟩
      · rw [h3, h4]
        have hs : removeDotsStep ('/' :: (['.', '.'] ++ [])) (pathText E) =
            (['/'], removeLastSegment (pathText E)) := rfl
        rw [hs, removeLast_pathText hE]
        simp only
        obtain ⟨k, rfl⟩ : ∃ k', k = k' + 1 := ⟨k - 1, by simp at hf; omega⟩
        rw [loop_step]
        have hs2 : removeDotsStep ['/'] (pathText E.dropLast) = ([], pathText E.dropLast ++ ['/']) := rfl
        rw [hs2, loop_nil]
        simp [endDots, isDots, hk, pathText_append, pathText, segText]
      · have hre : r ≠ [] := by rintro rfl; simp [pathText] at h3
        rw [hend hre]
        have hs : removeDotsStep ('/' :: (['.', '.'] ++ pathText r)) (pathText E) =
            (pathText r, removeLastSegment (pathText E)) := by
          rw [h3]; rfl
        rw [hs, removeLast_pathText hE]
        exact ih hr hpr _ hE' k (by omega)

theorem rds_plain (L : List PSeg) (hok : OKSegs L) (hp : Plain L) (fuel : Nat)
    (hf : (pathText L).length ≤ fuel) :
    removeDotsLoop fuel (pathText L) [] = pathText (fin (stripRel L)) := by
  revert fuel hok hp
  refine stripRel_ind (P := fun L => OKSegs L → Plain L → ∀ fuel, (pathText L).length ≤ fuel →
    removeDotsLoop fuel (pathText L) [] = pathText (fin (stripRel L))) ?_ ?_ ?_ ?_ ?_ ?_ L
  · intro _ _ fuel _
    rw [stripRel, pathText_nil, loop_nil]; rfl
  · intro n r hok hp fuel hf
    have hal : AllSlash ((true, n) :: r) := by
      intro x hx
      rcases List.mem_cons.1 hx with rfl | hx
      · exact ⟨rfl, hok.1⟩
      · exact hok.2.2 x hx
    rw [stripRel_true]
    exact rds_slash _ hal hp [] trivial fuel hf
  · intro n r hd hok hp fuel hf
    rw [stripRel_normal hd]
    have h0 : n ≠ [] := hok.2.1 rfl
    have hn : '/' ∉ n := hok.1
    have hk : SegmentKind.from_segment n = .normal := by simpa [isDots] using hd
    have h1 : n ≠ ['.'] := by rintro rfl; exact absurd hk (by decide +kernel)
    have h2 : n ≠ ['.', '.'] := by rintro rfl; exact absurd hk (by decide +kernel)
    have ht : pathText ((false, n) :: r) = n ++ pathText r := by simp [pathText_cons, segText]
    have hl : 0 < n.length := List.length_pos_iff.2 h0
    rw [ht] at hf ⊢
    simp at hf
    obtain ⟨k, rfl⟩ : ∃ k, fuel = k + 1 := ⟨fuel - 1, by omega⟩
    have hne : (n ++ pathText r).isEmpty = false := by
      cases n with
      | nil => exact absurd rfl h0
      | cons c n => rfl
    rw [removeDotsLoop, hne, step_rel_normal h0 hn (segEnd_of hok.2.2) h1 h2]
    simp only [Bool.false_eq_true, if_false, List.nil_append]
    have e1 : n = pathText [(false, n)] := by simp [pathText, segText]
    have := rds_slash r hok.2.2 (fun x hx => hp x (by simp [hx])) [(false, n)]
      ⟨hn, fun _ => h0, by simp [AllSlash]⟩ k (by omega)
    rw [← e1] at this
    rw [this]
    unfold fin stk
    rw [List.foldl_cons]
    have e2 : stkStep [] (false, n) = [(false, n)] := by simp [stkStep, hk]
    rw [e2]
    congr 2
    by_cases hre : r = []
    · subst hre; simp [endDots, isDots, hk]
    · have : endDots ((false, n) :: r) = endDots r := endDots_append (a := [(false, n)]) hre
      rw [this]
  · intro n hd hok hp fuel hf
    rw [stripRel_end hd]
    have ht : pathText [(false, n)] = n := by simp [pathText, segText]
    rw [ht] at hf ⊢
    have hk := isDots_kind.1 hd
    simp only at hk
    cases hk' : SegmentKind.from_segment n with
    | normal => exact absurd hk' hk
    | dot =>
      have : n = ['.'] := (hp (false, n) (by simp)).1 hk'
      subst this
      obtain ⟨k, rfl⟩ : ∃ k, fuel = k + 1 := ⟨fuel - 1, by simp at hf; omega⟩
      rw [loop_step]
      exact loop_nil k _
    | dotDot =>
      have : n = ['.', '.'] := (hp (false, n) (by simp)).2 hk'
      subst this
      obtain ⟨k, rfl⟩ : ∃ k, fuel = k + 1 := ⟨fuel - 1, by simp at hf; omega⟩
      rw [loop_step]
      exact loop_nil k _
  · intro n b r hd hok hp fuel hf
    have hb : b = true := (hok.2.2 (b, []) (by simp)).1
    subst hb
    rw [stripRel_dots hd, if_pos rfl]
    have hal : AllSlash r := fun x hx => hok.2.2 x (by simp [hx])
    have hpr : Plain r := fun x hx => hp x (by simp [hx])
    have ht : pathText ((false, n) :: (true, []) :: r) = n ++ '/' :: pathText r := by
      simp [pathText_cons, segText]
    rw [ht] at hf ⊢
    simp at hf
    obtain ⟨k, rfl⟩ : ∃ k, fuel = k + 1 := ⟨fuel - 1, by omega⟩
    have hk := isDots_kind.1 hd
    simp only at hk
    cases hk' : SegmentKind.from_segment n with
    | normal => exact absurd hk' hk
    | dot =>
      have : n = ['.'] := (hp (false, n) (by simp)).1 hk'
      subst this
      simp only [List.cons_append]
      rw [loop_step]
      exact rds_slash r hal hpr [] trivial k (by omega)
    | dotDot =>
      have : n = ['.', '.'] := (hp (false, n) (by simp)).2 hk'
      subst this
      simp only [List.cons_append]
      rw [loop_step]
      exact rds_slash r hal hpr [] trivial k (by omega)
  · intro n b m r hd hm ih hok hp fuel hf
    have hb : b = true := (hok.2.2 (b, m) (by simp)).1
    subst hb
    rw [stripRel_dots hd, if_neg hm]
    have ih := ih ⟨(hok.2.2 (true, m) (by simp)).2, fun _ => hm, fun x hx => hok.2.2 x (by simp [hx])⟩
      (by
        intro x hx
        rcases List.mem_cons.1 hx with rfl | hx
        · exact hp (true, m) (by simp)
        · exact hp x (by simp [hx]))
    have ht : pathText ((false, n) :: (true, m) :: r) = n ++ '/' :: pathText ((false, m) :: r) := by
      simp [pathText_cons, segText]
    rw [ht] at hf ⊢
    rw [List.length_append, List.length_cons] at hf
    obtain ⟨k, rfl⟩ : ∃ k, fuel = k + 1 := ⟨fuel - 1, by omega⟩
    have hk := isDots_kind.1 hd
    simp only at hk
    cases hk' : SegmentKind.from_segment n with
    | normal => exact absurd hk' hk
    | dot =>
      have : n = ['.'] := (hp (false, n) (by simp)).1 hk'
      subst this
      simp only [List.cons_append]
      rw [loop_step]
      exact ih k (by omega)
    | dotDot =>
      have : n = ['.', '.'] := (hp (false, n) (by simp)).2 hk'
      subst this
      simp only [List.cons_append]
      rw [loop_step]
      exact ih k (by omega)

/-- RFC dot segment removal on segments. -/
theorem rds_undot {L : List PSeg} (hok : OKSegs L) :
    remove_dot_segments (undot (pathText L)) = pathText (fin (stripRel L)) := by
  rw [undot_pathText hok]
  unfold remove_dot_segments
  rw [rds_plain _ (undot_ok hok) (undot_plain L) _ (Nat.le_refl _), stripRel_undot, fin_undot]

/-! ### The result of `fmt_write_normalize` -/

theorem emitted_escape {S : Spec} {op : NormalizationMode} {auth : Bool} {E : List PSeg}
    (hok : OKSegs E) (hn : ∀ g ∈ E, TextOK op g.2) :
    emitted S op auth E = escapePath auth (pathText (wrSegs S op E)) := by
  have hnn : ∀ g ∈ E, '/' ∉ wr S op g.2 := fun g hg => wr_no_slash (hn g hg) (hok.names g hg)
  have hz : ∀ g ∈ E, (wr S op g.2 = [] ↔ g.2 = []) := fun g hg => wr_empty (hn g hg)
  match E with
  | [] => cases auth <;> rfl
  | [(b, n)] =>
    have h1 := hnn (b, n) (by simp)
    simp only at h1
    unfold escapePath
    have : ((pathText (wrSegs S op [(b, n)])).take 2 == ['/', '/']) = false := by
      cases hw : wr S op n with
      | nil => cases b <;> simp [wrSegs, pathText, segText, hw]
      | cons c r =>
        rw [hw] at h1
        simp at h1
        cases b <;> simp [wrSegs, pathText, segText, hw, Ne.symm h1.1]
    rw [this]
    simp [emitted]
  | (b, n) :: (b2, n2) :: r =>
    have h1 := hnn (b, n) (by simp)
    have h2 := hz (b, n) (by simp)
    have hb2 : b2 = true := (hok.2.2 (b2, n2) (by simp)).1
    subst hb2
    simp only at h1 h2
    unfold escapePath
    have : ((pathText (wrSegs S op ((b, n) :: (true, n2) :: r))).take 2 == ['/', '/']) =
        (b && n.isEmpty) := by
      cases hw : wr S op n with
      | nil =>
        have hn0 := h2.1 hw
        subst hn0
        cases b with
        | true => simp [wrSegs, pathText, segText, hw]
        | false => exact absurd rfl (hok.2.1 rfl)
      | cons c w =>
        rw [hw] at h1 h2
        simp at h1
        have hn0 : n ≠ [] := fun e => by simpa using h2.2 e
        have hne : n.isEmpty = false := by simpa using hn0
        cases b <;> simp [wrSegs, pathText, segText, hw, Ne.symm h1.1, hne]
    rw [this]
    simp only [emitted]
    cases auth <;> cases b <;> cases n <;> simp

/-- The path has an authority only if it is empty or starts with a slash. -/
def AuthPath (auth : Bool) (s : Str) : Prop := auth = true → s = [] ∨ ∃ r, s = '/' :: r

theorem stripRel_slash {L : List PSeg} (hok : OKSegs L) {r : Str} (h : pathText L = '/' :: r) :
    stripRel L = L := by
  match L with
  | [] => rw [stripRel]
  | (true, n) :: L => exact stripRel_true _ _
  | (false, n) :: L =>
    exfalso
    have h1 : n ≠ [] := hok.2.1 rfl
    have h2 : '/' ∉ n := hok.1
    cases n with
    | nil => exact h1 rfl
    | cons c n =>
      simp [pathText_cons, segText] at h
      exact h2 (by simp [h.1])

theorem fmt_write_normalize_segs {S : Spec} {op : NormalizationMode} {auth : Bool}
    {p : PathToNormalize} (hi : p.Inv) {L : List PSeg} (h : p.text = pathText L) (hok : OKSegs L)
    (hn : TextOK op p.text) (ha : AuthPath auth p.text)
    (hmode : op = .preserve → auth = true ∨ p.text = [] ∨ ∃ r, p.text = '/' :: r) :
    fmt_write_normalize S op auth p =
      some (escapePath auth (pathText (wrSegs S op (fin (stripRel L))))) := by
  have hokS := stripRel_ok hok
  have hnames : ∀ g ∈ fin (stripRel L), TextOK op g.2 := by
    intro g hg
    rcases fin_mem g hg with rfl | ⟨h1, _⟩
    · exact fun _ => .nil
    · rw [h] at hn
      exact stripRel_names (P := fun s => TextOK op s) (names_ok hok hn) g h1
  rw [← emitted_escape (fin_ok hokS) hnames]
  unfold fmt_write_normalize
  by_cases he : p.is_empty = true
  · have hL : L = [] := by
      rw [inv_empty hi, h, hok.text_ne] at he; exact he
    subst hL
    have : stripRel [] = [] := by rw [stripRel]
    rw [if_pos he, this]
    rfl
  · rw [if_neg he]
    have hLne : L ≠ [] := by
      rintro rfl
      exact he ((inv_empty hi).2 (by rw [h]; rfl))
    have hcond : (op == NormalizationMode.preserve && !auth && !p.starts_with_slash) = false := by
      by_cases hop : op = .preserve
      · rcases hmode hop with h1 | h1 | ⟨r, h1⟩
        · simp [h1]
        · rw [h, hok.text_ne] at h1; exact absurd h1 hLne
        · have : p.starts_with_slash = true := by
            unfold starts_with_slash
            rw [starts_with_iff]
            unfold PathToNormalize.text at h1
            cases hfr : p.front with
            | nil => simp [is_empty, hfr] at he
            | cons c f =>
              rw [hfr] at h1
              simp at h1
              exact ⟨f, by rw [h1.1]; rfl⟩
          simp [this]
      · have : (op == NormalizationMode.preserve) = false := by simpa using hop
        simp [this]
    rw [hcond]
    simp only [Bool.false_eq_true, if_false]
    obtain ⟨p', h1, h2, h3⟩ := remove_ignorable_prefix_eq hi h hok
    simp only [h1, Option.bind_eq_bind, Option.bind_some]
    by_cases he' : p'.is_empty = true
    · rw [if_pos he']
      have hs : stripRel L = [] := by
        rw [inv_empty h2, h3, hokS.text_ne] at he'; exact he'
      rw [hs]
      have hauth : auth = false := by
        cases auth with
        | false => rfl
        | true =>
          rcases ha rfl with h4 | ⟨r, h4⟩
          · rw [h, hok.text_ne] at h4; exact absurd h4 hLne
          · rw [stripRel_slash hok (by rw [← h]; exact h4)] at hs
            exact absurd hs hLne
      rw [hauth]
      rfl
    · rw [if_neg he']
      have hn' : TextOK op p'.text := by
        rw [h3]
        rw [h] at hn
        exact textOK_of_names (stripRel_names (P := fun s => TextOK op s) (names_ok hok hn))
      obtain ⟨out, r, h4, h5⟩ := main_part (S := S) (op := op) (auth := auth) h2 h3 hokS hn'
      rw [h4]
      exact h5

theorem wr_fin {S : Spec} {op : NormalizationMode} {L : List PSeg} (hok : OKSegs L)
    (hn : TextOK op (pathText L)) :
    pathText (wrSegs S op (fin (stripRel L))) = wr S op (pathText (fin (stripRel L))) ∧
      TextOK op (pathText (fin (stripRel L))) := by
  have hnames : ∀ g ∈ fin (stripRel L), TextOK op g.2 := by
    intro g hg
    rcases fin_mem g hg with rfl | ⟨h1, _⟩
    · exact fun _ => .nil
    · exact stripRel_names (P := fun s => TextOK op s) (names_ok hok hn) g h1
  have := textOK_of_names hnames
  exact ⟨(wr_path (fin_ok (stripRel_ok hok)) this).symm, this⟩

/-- **`fmt_write_normalize` is RFC 3986 dot segment removal** (with percent-encoded dot segments
recognised), followed by the percent/case normalisation of the mode and the protection of a leading
`//`. -/
theorem fmt_write_normalize_eq {S : Spec} {op : NormalizationMode} {auth : Bool}
    {p : PathToNormalize} (hi : p.Inv) (hn : TextOK op p.text) (ha : AuthPath auth p.text)
    (hmode : op = .preserve → auth = true ∨ p.text = [] ∨ ∃ r, p.text = '/' :: r) :
    fmt_write_normalize S op auth p =
      some (escapePath auth (wr S op (remove_dot_segments (undot p.text)))) ∧
    TextOK op (remove_dot_segments (undot p.text)) := by
  obtain ⟨hok, ht⟩ := pathSegs_spec p.text
  have hrd := rds_undot hok
  rw [ht] at hrd
  have hw := wr_fin (S := S) (op := op) hok (by rw [ht]; exact hn)
  rw [hrd, ← hw.1]
  exact ⟨fmt_write_normalize_segs hi ht.symm hok hn ha hmode, hw.2⟩

/-- Relative path without authority in the preserving mode: no dot segment removal. -/
theorem fmt_write_normalize_opaque {S : Spec} {p : PathToNormalize} (hi : p.Inv) (hn : WF p.text)
    (hne : p.text ≠ []) (hs : ∀ r, p.text ≠ '/' :: r) :
    fmt_write_normalize S .preserve false p = some (pctn S p.text) := by
  have he : p.is_empty = false := by
    cases he : p.is_empty with
    | false => rfl
    | true => exact absurd ((inv_empty hi).1 he) hne
  have hsl : p.starts_with_slash = false := by
    cases hsl : p.starts_with_slash with
    | false => rfl
    | true =>
      unfold starts_with_slash at hsl
      obtain ⟨r, hr⟩ := starts_with_iff.1 hsl
      exact absurd (by rw [PathToNormalize.text, hr]; rfl) (hs (r ++ p.back.getD []))
  obtain ⟨f, b, h1, h2, h3⟩ := write_buffers (S := S) (op := .preserve) hi (fun _ => hn)
  unfold fmt_write_normalize
  have e1 : ∀ s, writeText S .preserve s = pct_case_normalized S s := fun s => rfl
  rw [e1] at h1
  have e3 : wr S .preserve p.text = pctn S p.text := rfl
  rw [e3] at h3
  cases hbk : p.back with
  | none =>
    rw [hbk] at h2
    simp at h2
    subst h2
    simp [he, hsl, h1, ← h3]
  | some bk =>
    rw [hbk] at h2
    simp only [e1] at h2
    simp [he, hsl, h1, h2, ← h3]

end Verif
