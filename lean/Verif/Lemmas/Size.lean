import Verif.Lemmas.ResolveEquiv
import Verif.Lemmas.DisplayWriterPath
import Verif.Props.IsNormalized

/-! # Lengths in bytes -/

namespace Verif

open Rfc PathToNormalize

theorem utf8Size_slash : ('/').utf8Size = 1 := by decide

theorem utf8_length_size (c : Char) : (utf8 c).length = c.utf8Size := by
  have := utf8s_length [c]
  simpa [utf8s] using this

theorem toLower_size (c : Char) : (toLower c).utf8Size = c.utf8Size := by
  by_cases h : c.toNat < 128
  · rw [utf8Size_ascii h, utf8Size_ascii (toLower_ascii h)]
  · have : isUpper c = false := by
      cases h' : isUpper c with
      | false => rfl
      | true => exact absurd h' (by unfold isUpper; simp; omega)
    unfold toLower
    simp [this]

theorem blen_lower (s : Str) : blen (s.map toLower) = blen s := by
  induction s with
  | nil => rfl
  | cons c r ih => rw [List.map_cons, blen_cons, blen_cons, ih, toLower_size]

theorem hexUpper_size {n : Nat} (h : n < 16) : (hexUpper n).utf8Size = 1 := by
  have : ∀ n : Fin 16, (hexUpper n.val).utf8Size = 1 := by decide
  exact this ⟨n, h⟩

theorem blen_pctUpper {b : Nat} (h : b < 256) : blen (pctUpper b) = 3 := by
  unfold pctUpper
  rw [blen_cons, blen_cons, blen_cons, hexUpper_size (by omega), hexUpper_size (by omega)]
  decide




theorem blen_render_tokens {s : Str} (h : WF s) : blen (render (tokens s)) = blen s := by
  induction h with
  | nil => rfl
  | pct hh hl _ ih =>
    rw [tokens_pct hh hl, render_cons, blen_append, ih]
    have h1 := hexVal_lt hh
    have h2 := hexVal_lt hl
    rw [Tok.render, blen_pctUpper (by omega)]
    simp only [blen_cons, utf8Size_ascii (isHex_lt hh),
      utf8Size_ascii (isHex_lt hl), utf8Size_ascii (c := '%') (by decide)]
    omega
  | chr hc _ _ ih =>
    rw [tokens_ch hc, render_cons, blen_append, ih]
    simp [Tok.render]

theorem blen_pcts {bs : List Nat} (h : ∀ b ∈ bs, b < 256) :
    blen (render (bs.map Tok.pct)) = 3 * bs.length := by
  induction bs with
  | nil => rfl
  | cons b r ih =>
    rw [List.map_cons, render_cons, blen_append, ih fun x hx => h x (by simp [hx]), Tok.render,
      blen_pctUpper (h b (by simp)), List.length_cons]
    omega

theorem PctNorm.blen_le {S : Spec} {r t : List Tok} (h : PctNorm S r t) :
    blen (render t) ≤ blen (render r) := by
  induction h with
  | nil => exact Nat.le_refl _
  | ch _ ih => rw [render_cons, render_cons, blen_append, blen_append]; omega
  | @decode c r t hc _ ih =>
    rw [render_append, render_cons, blen_append, blen_append, blen_pcts (utf8_lt c), utf8_length_size]
    simp only [Tok.render, blen_cons, blen_nil]
    omega
  | keep _ _ ih => rw [render_cons, render_cons, blen_append, blen_append]; omega

theorem pctn_blen (S : Spec) {s : Str} (h : WF s) : blen (pctn S s) ≤ blen s := by
  obtain ⟨t, h1, _, h2⟩ := pctn_spec S h
  rw [h2, ← blen_render_tokens h]
  exact h1.blen_le

theorem asciiN_blen : ∀ {ts : List Tok}, ts.all tokAscii = true → blen (render (ts.map asciiN)) ≤ blen (render ts) := by
  intro ts
  induction ts with
  | nil => intro _; exact Nat.le_refl _
  | cons t r ih =>
    intro h
    rw [List.all_cons, Bool.and_eq_true] at h
    have := ih h.2
    rw [List.map_cons, render_cons, render_cons, blen_append, blen_append]
    have : blen (asciiN t).render ≤ blen t.render := by
      cases t with
      | ch c => simp [asciiN, Tok.render, toLower_size]
      | pct b =>
        have hb : b < 128 := by simpa [tokAscii] using h.1
        simp only [asciiN]
        split
        · rw [Tok.render, Tok.render, blen_pctUpper (by omega), blen_cons, toLower_size, blen_nil]
          have : (Char.ofNat b).utf8Size = 1 :=
            utf8Size_ascii (by rw [utf8_ofNat (by simp [Nat.isValidChar]; omega)]; exact hb)
          omega
        · exact Nat.le_refl _
    omega

theorem hostn_blen (S : Spec) {h : Str} (hw : WF h) : blen (hostn S h) ≤ blen h := by
  unfold hostn
  split
  · rename_i ha
    rw [← blen_render_tokens hw]
    exact asciiN_blen ha
  · exact pctn_blen S hw

theorem authn_blen {S : Spec} {x : Str} (h : authority S x) : blen (authn S x) ≤ blen x := by
  obtain ⟨a, ha, rfl⟩ := (authority_auth_parts S x).1 h
  rw [authn_eq ha]
  unfold AuthParts.recompose AuthParts.norm
  rw [blen_append, blen_append, blen_append, blen_append]
  have h1 : blen (optPre (a.userinfo.map (pctn S)) ['@']) ≤ blen (optPre a.userinfo ['@']) := by
    cases hu : a.userinfo with
    | none => exact Nat.le_refl _
    | some u =>
      have := pctn_blen S ((userinfo_iff S _).1 (ha.userinfo u hu)).wf
      simp only [Option.map_some, optPre, blen_append]
      omega
  have h2 := hostn_blen S (host_wf ha.host)
  have h3 : blen (optSuf [':'] (portn a.port)) ≤ blen (optSuf [':'] a.port) := by
    unfold portn
    split
    · simp [optSuf]
    · exact Nat.le_refl _
  simp only
  omega

/-! ### Dot segments -/

theorem segText_dots {g : PSeg} (h : isDots g = true) : blen g.2 ≥ 1 := by
  cases hg : g.2 with
  | nil =>
    obtain ⟨b, n⟩ := g
    simp only at hg
    subst hg
    rw [isDots_nil] at h
    cases h
  | cons c r => have := c.utf8Size_pos; simp; omega

/-- Either nothing is removed or at least two bytes are. -/
theorem stk_blen : ∀ (L : List PSeg), (∀ g ∈ L, isDots g = true → g.1 = true) →
    stk L = L ∨ blen (pathText (stk L)) + 2 ≤ blen (pathText L) := by
  intro L
  induction hk : L.length generalizing L with
  | zero => intro _; rw [List.length_eq_zero_iff.1 hk]; exact .inl rfl
  | succ k ih =>
    intro h
    rcases List.eq_nil_or_concat L with rfl | ⟨L', g, rfl⟩
    · exact .inl rfl
    rw [List.concat_eq_append] at *
    have ih := ih L' (by simpa using hk) fun x hx => h x (by simp [hx])
    have hle : blen (pathText (stk L')) ≤ blen (pathText L') := by
      rcases ih with e | e
      · rw [e]; exact Nat.le_refl _
      · omega
    rw [stk_append, blen_snoc]
    by_cases hd : isDots g = true
    · right
      have h1 := h g (by simp) hd
      have h2 := segText_dots hd
      have h3 : blen (segText g) ≥ 2 := by rw [blen_segText, h1]; simp; omega
      have h4 : blen (pathText (stkStep (stk L') g)) ≤ blen (pathText (stk L')) := by
        unfold stkStep
        cases hk : SegmentKind.from_segment g.2 with
        | dot => exact Nat.le_refl _
        | dotDot =>
          show blen (pathText (stk L').dropLast) ≤ _
          rcases List.eq_nil_or_concat (stk L') with e | ⟨M, x, e⟩
          · rw [e]; exact Nat.le_refl _
          · rw [e, List.concat_eq_append, List.dropLast_concat, pathText_append, blen_append]; omega
        | normal => simp [isDots, hk] at hd
      omega
    · have e : stkStep (stk L') g = stk L' ++ [g] := by
        have : SegmentKind.from_segment g.2 = .normal := by simpa [isDots] using hd
        simp [stkStep, this]
      rw [e]
      rcases ih with e | e
      · rw [e]; exact .inl rfl
      · right; rw [blen_snoc]; omega

/-- The three ways a list of segments can change. -/
theorem fin_blen (L : List PSeg) (h : ∀ g ∈ L, isDots g = true → g.1 = true) :
    fin L = L ∨ blen (pathText (fin L)) + 2 ≤ blen (pathText L) ∨
    ∃ L' g, L = L' ++ [g] ∧ g.1 = true ∧ isDots g = true ∧ fin L = L' ++ [(true, [])] := by
  rcases List.eq_nil_or_concat L with rfl | ⟨L', g, rfl⟩
  · exact .inl rfl
  rw [List.concat_eq_append] at *
  by_cases hd : isDots g = true
  · right
    have h1 := h g (by simp) hd
    have h2 := segText_dots hd
    have he : endDots (L' ++ [g]) = true := by simp [endDots, hd]
    have hf : fin (L' ++ [g]) = stkStep (stk L') g ++ [(true, [])] := by
      unfold fin; rw [he, stk_append]; rfl
    have hL := stk_blen L' fun x hx => h x (by simp [hx])
    have h5 : blen (segText ((true, []) : PSeg)) = 1 := by decide
    have h6 : blen (segText g) = 1 + blen g.2 := by rw [blen_segText, h1]; simp
    cases hk : SegmentKind.from_segment g.2 with
    | normal => simp [isDots, hk] at hd
    | dot =>
      have e : stkStep (stk L') g = stk L' := by simp [stkStep, hk]
      rw [hf, e]
      rcases hL with hL | hL
      · exact .inr ⟨L', g, rfl, h1, hd, by rw [hL]⟩
      · left; rw [blen_snoc, blen_snoc, h5, h6]; omega
    | dotDot =>
      left
      have e : stkStep (stk L') g = (stk L').dropLast := by simp [stkStep, hk]
      have h7 : blen g.2 ≥ 2 := by
        have := (from_segment_dotdot g.2).1 hk
        obtain ⟨s', hs, hr⟩ := pctDecode_dot this
        have hne : s' ≠ [] := by rintro rfl; rw [pctDecode_nil] at hr; cases hr
        have hb : blen s' ≥ 1 := by
          cases s' with
          | nil => exact absurd rfl hne
          | cons c r => have := c.utf8Size_pos; simp; omega
        have e1 : ('.').utf8Size = 1 := by decide
        have e2 : ('%').utf8Size = 1 := by decide
        rcases hs with hs | hs | hs <;> rw [hs] <;> simp only [blen_cons] <;> omega
      have h8 : blen (pathText (stk L').dropLast) ≤ blen (pathText (stk L')) := by
        rcases List.eq_nil_or_concat (stk L') with e | ⟨M, x, e⟩
        · rw [e]; exact Nat.le_refl _
        · rw [e, List.concat_eq_append, List.dropLast_concat, pathText_append, blen_append]; omega
      have h9 : blen (pathText (stk L')) ≤ blen (pathText L') := by
        rcases hL with e | e
        · rw [e]; exact Nat.le_refl _
        · omega
      rw [hf, e, blen_snoc, blen_snoc, h5, h6]
      omega
  · have he : endDots (L' ++ [g]) = false := by simp [endDots, hd]
    unfold fin
    rw [he]
    rcases stk_blen (L' ++ [g]) h with e | e
    · left; simpa using e
    · right; left; simpa using e

theorem stripRel_blen (L : List PSeg) (hok : OKSegs L) :
    stripRel L = L ∨ stripRel L = [] ∨ blen (pathText (stripRel L)) + 2 ≤ blen (pathText L) := by
  revert hok
  refine stripRel_ind (P := fun L => OKSegs L →
    (stripRel L = L ∨ stripRel L = [] ∨ blen (pathText (stripRel L)) + 2 ≤ blen (pathText L)))
    ?_ ?_ ?_ ?_ ?_ ?_ L
  · intro _; left; rw [stripRel]
  · intro n r _; left; rw [stripRel_true]
  · intro n r hd _; left; rw [stripRel_normal hd]
  · intro n hd _; right; left; rw [stripRel_end hd]
  · intro n b r hd h
    right; right
    have h1 := segText_dots hd
    obtain rfl : b = true := (h.2.2 (b, []) (by simp)).1
    rw [stripRel_dots hd, if_pos rfl, pathText_cons, pathText_cons, blen_append, blen_append,
      blen_segText, blen_segText]
    simp at h1 ⊢
    omega
  · intro n b m r hd hm ih h
    have h1 := segText_dots hd
    obtain rfl : b = true := (h.2.2 (b, m) (by simp)).1
    have hok : OKSegs ((false, m) :: r) :=
      ⟨(h.2.2 (true, m) (by simp)).2, fun _ => hm, fun x hx => h.2.2 x (by simp [hx])⟩
    rw [stripRel_dots hd, if_neg hm]
    right
    have e : blen (pathText ((false, n) :: (true, m) :: r)) =
        blen n + 1 + blen (pathText ((false, m) :: r)) := by
      rw [pathText_cons, pathText_cons, pathText_cons, blen_append, blen_append, blen_append,
        blen_segText, blen_segText, blen_segText]
      simp
      omega
    simp at h1
    rcases ih hok with h2 | h2 | h2
    · right; rw [h2]; omega
    · left; exact h2
    · right; omega

/-- Removing dot segments never lengthens a path, not even with the escape. -/
theorem rds_blen (auth : Bool) (s : Str) (h : auth = false → ∀ r, s ≠ '/' :: '/' :: r) :
    blen (escapePath auth (remove_dot_segments (undot s))) ≤ blen s := by
  obtain ⟨hok, ht⟩ := pathSegs_spec s
  have hs := stripRel_ok hok
  have hst : ∀ g ∈ stripRel (pathSegs s), isDots g = true → g.1 = true := by
    have hh := Out.stripRel_headOk hok
    intro g hg hd
    generalize stripRel (pathSegs s) = L at *
    cases L with
    | nil => cases hg
    | cons x r =>
      rcases List.mem_cons.1 hg with rfl | hg
      · cases hx : g.1 with
        | true => rfl
        | false => rw [hh g r rfl hx] at hd; cases hd
      · exact (hs.2.2 g hg).1
  rw [rds_eq]
  unfold rdsSegs
  have key : pathText (fin (stripRel (pathSegs s))) = s ∨
      blen (pathText (fin (stripRel (pathSegs s)))) + 2 ≤ blen s ∨
      fin (stripRel (pathSegs s)) = [] ∨ 
      ∃ L' g, pathSegs s = L' ++ [g] ∧ g.1 = true ∧ isDots g = true ∧
        fin (stripRel (pathSegs s)) = L' ++ [(true, [])] := by
    rcases stripRel_blen _ hok with e | e | e
    · rw [e] at hst ⊢
      rcases fin_blen _ hst with h1 | h1 | ⟨L', g, h1, h2, h3, h4⟩
      · left; rw [h1, ht]
      · right; left; rw [ht] at h1; exact h1
      · right; right; right; exact ⟨L', g, h1, h2, h3, h4⟩
    · rw [e]; right; right; left; rfl
    · right; left
      rw [ht] at e
      rcases fin_blen _ hst with h1 | h1 | ⟨L', g, h1, h2, h3, h4⟩
      · rw [h1]; exact e
      · omega
      · rw [h4, blen_snoc]
        rw [h1, blen_snoc] at e
        have h5 : blen (segText ((true, []) : PSeg)) = 1 := by decide
        have h6 : blen (segText g) = 1 + blen g.2 := by rw [blen_segText, h2]; simp
        omega
  generalize fin (stripRel (pathSegs s)) = R at key
  unfold escapePath
  split
  · rename_i hc
    rw [Bool.and_eq_true, Bool.not_eq_true'] at hc
    obtain ⟨ha, hc⟩ := hc
    obtain ⟨r, hr⟩ := take2_slash.1 hc
    have e1 : ('.').utf8Size = 1 := by decide
    rcases key with e | e | e | ⟨L', g, k1, k2, k3, k4⟩
    · rw [e] at hr; exact absurd hr (h ha r)
    · rw [blen_cons, blen_cons, utf8Size_slash, e1]; omega
    · rw [e] at hr; cases hr
    · exfalso
      rw [k1, pathText_append] at ht
      rw [k4, pathText_append] at hr
      have h5 : pathText [((true, []) : PSeg)] = ['/'] := rfl
      have h6 : pathText [g] = '/' :: g.2 := by simp [pathText, segText, k2]
      rw [h5] at hr
      rw [h6] at ht
      generalize pathText L' = p at *
      match p with
      | [] => simp at hr
      | [c] => 
        simp at hr
        obtain ⟨rfl, _⟩ := hr
        exact h ha _ ht.symm
      | c :: d :: p =>
        simp at hr
        obtain ⟨rfl, rfl, _⟩ := hr
        exact h ha _ ht.symm
  · rcases key with e | e | e | ⟨L', g, k1, k2, k3, k4⟩
    · rw [e]; exact Nat.le_refl _
    · omega
    · rw [e]; exact Nat.zero_le _
    · rw [← ht, k1, k4, blen_snoc, blen_snoc, blen_segText, blen_segText, k2]
      simp

end Verif
