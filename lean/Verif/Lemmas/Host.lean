import Verif.Spec.Normalize
import Verif.Model.Normalize
import Verif.Lemmas.Rds
import Verif.Lemmas.AuthDecomp

/-! # Normalization of host and authority -/

namespace Verif

open Abnf Rfc

/-! ### Lower case -/

theorem lower_eq : Rfc.lower = toLower := by
  funext c
  simp [Rfc.lower, toLower, isUpper, char_le_iff]

theorem toLower_nonascii {c : Char} (h : 128 ≤ c.toNat) : toLower c = c := by
  unfold toLower
  rw [if_neg]
  simp [isUpper]; omega

theorem toLower_closed {p : Char → Bool}
    (h : ∀ n : Fin 128, p (Char.ofNat n.val) = true → p (toLower (Char.ofNat n.val)) = true)
    (c : Char) (hc : p c = true) : p (toLower c) = true := by
  by_cases ha : c.toNat < 128
  · exact ascii_forall (P := fun c => p c = true → p (toLower c) = true) h c ha hc
  · rw [toLower_nonascii (by omega)]; exact hc

theorem toLower_idem (c : Char) : toLower (toLower c) = toLower c := by
  by_cases ha : c.toNat < 128
  · exact ascii_forall (P := fun c => toLower (toLower c) = toLower c) (by decide) c ha
  · rw [toLower_nonascii (c := c) (by omega), toLower_nonascii (by omega)]

theorem toLower_ascii {c : Char} (h : c.toNat < 128) : (toLower c).toNat < 128 :=
  ascii_forall (P := fun c => (toLower c).toNat < 128) (by decide) c h

theorem map_toLower_eq {s : Str} : s.map toLower = s ↔ s.any isUpper = false := by
  induction s with
  | nil => simp
  | cons c r ih =>
    simp only [List.map_cons, List.cons.injEq, List.any_cons, Bool.or_eq_false_iff, ih]
    refine and_congr_left fun _ => ?_
    by_cases ha : c.toNat < 128
    · exact ascii_forall (P := fun c => toLower c = c ↔ isUpper c = false) (by decide) c ha
    · rw [toLower_nonascii (by omega)]
      simp [isUpper]; omega

/-! ### Languages closed under lower-casing -/

def LC (A : Lang) : Prop := ∀ s, A s → A (s.map toLower)

theorem LC.seq {A B : Lang} (ha : LC A) (hb : LC B) : LC (A ⬝ B) := by
  rintro _ ⟨a, b, rfl, h1, h2⟩
  exact ⟨a.map toLower, b.map toLower, by simp, ha _ h1, hb _ h2⟩

theorem LC.alt {A B : Lang} (ha : LC A) (hb : LC B) : LC (A ∕ B) := by
  rintro _ (h | h)
  · exact .inl (ha _ h)
  · exact .inr (hb _ h)

theorem LC.opt {A : Lang} (ha : LC A) : LC (opt A) := by
  rintro _ (rfl | h)
  · exact .inl rfl
  · exact .inr (ha _ h)

theorem LC.rep {A : Lang} (ha : LC A) (n : Nat) : LC (rep n A) := by
  induction n with
  | zero => rintro _ h; simp only [Abnf.rep] at h ⊢; subst h; rfl
  | succ n ih => exact LC.seq ha ih

theorem LC.star {A : Lang} (ha : LC A) : LC (star A) := by
  rintro _ ⟨n, h⟩; exact ⟨n, ha.rep n _ h⟩
theorem LC.plus {A : Lang} (ha : LC A) : LC (plus A) := ha.seq ha.star
theorem LC.upTo {A : Lang} (ha : LC A) (n : Nat) : LC (upTo n A) := by
  rintro _ ⟨k, hk, h⟩; exact ⟨k, hk, ha.rep k _ h⟩
theorem LC.between {A : Lang} (ha : LC A) (m n : Nat) : LC (between m n A) := by
  rintro _ ⟨k, h1, h2, h⟩; exact ⟨k, h1, h2, ha.rep k _ h⟩

theorem LC.chr {p : Char → Bool}
    (h : ∀ n : Fin 128, p (Char.ofNat n.val) = true → p (toLower (Char.ofNat n.val)) = true) :
    LC (chr p) := by
  rintro _ ⟨c, rfl, hc⟩
  exact ⟨toLower c, rfl, toLower_closed h c hc⟩

theorem LC.lit {t : Str} (h : t.map toLower = t) : LC (lit t) := by
  rintro _ rfl; exact h

theorem LC_hex : LC (Abnf.chr HEXDIG) := .chr (by decide)
theorem LC_digit : LC (Abnf.chr DIGIT) := .chr (by decide)

theorem LC_h16 : LC h16 := LC_hex.between 1 4
theorem LC_h16c : LC h16c := LC_h16.seq (.lit (by decide))

theorem LC_dec_octet : LC dec_octet := by
  unfold dec_octet
  refine LC_digit.alt (.alt (.seq (.chr (by decide)) LC_digit) (.alt ?_ (.alt ?_ ?_)))
  · exact .seq (.lit (by decide)) (LC_digit.rep 2)
  · exact .seq (.lit (by decide)) (.seq (.chr (by decide)) LC_digit)
  · exact .seq (.lit (by decide)) (.chr (by decide))

theorem LC_ipv4 : LC IPv4address := by
  have d : LC (lit ['.']) := .lit (by decide)
  exact LC_dec_octet.seq (d.seq (LC_dec_octet.seq (d.seq (LC_dec_octet.seq (d.seq LC_dec_octet)))))

theorem LC_ls32 : LC ls32 := (LC_h16.seq (.seq (.lit (by decide)) LC_h16)).alt LC_ipv4

theorem LC_ipv6 : LC IPv6address := by
  have cc : LC (lit [':', ':']) := .lit (by decide)
  have o : ∀ n, LC (Abnf.opt (Abnf.upTo n h16c ⬝ h16)) := fun n => ((LC_h16c.upTo n).seq LC_h16).opt
  unfold IPv6address
  exact ((LC_h16c.rep 6).seq LC_ls32).alt <| (cc.seq ((LC_h16c.rep 5).seq LC_ls32)).alt <|
    (LC_h16.opt.seq (cc.seq ((LC_h16c.rep 4).seq LC_ls32))).alt <|
    ((o 1).seq (cc.seq ((LC_h16c.rep 3).seq LC_ls32))).alt <|
    ((o 2).seq (cc.seq ((LC_h16c.rep 2).seq LC_ls32))).alt <|
    ((o 3).seq (cc.seq (LC_h16c.seq LC_ls32))).alt <|
    ((o 4).seq (cc.seq LC_ls32)).alt <| ((o 5).seq (cc.seq LC_h16)).alt ((o 6).seq cc)

theorem LC_ipvfuture : LC IPvFuture := by
  unfold IPvFuture
  refine LC.seq ?_ (LC_hex.plus.seq (.seq (.lit (by decide)) (LC.plus (.chr (by decide)))))
  rintro _ (rfl | rfl)
  · exact .inl (by show ['v'].map toLower = ['v']; decide)
  · exact .inl (by show ['V'].map toLower = ['v']; decide)

theorem LC_ip_literal : LC IP_literal :=
  .seq (.lit (by decide)) (.seq (LC_ipv6.alt LC_ipvfuture) (.lit (by decide)))

theorem LC_scheme : LC scheme := .seq (.chr (by decide)) (.star (.chr (by decide)))

/-! ### `PC` on tokens -/

theorem PC_tokens {p : Char → Bool} {s : Str} : PC p s ↔ WF s ∧ ∀ c, Tok.ch c ∈ tokens s → p c = true := by
  constructor
  · intro h
    refine ⟨h.wf, ?_⟩
    induction h with
    | nil => simp [tokens_nil]
    | chr hc hp _ ih =>
      rw [tokens_ch hc]
      intro c h
      rcases List.mem_cons.1 h with h | h
      · cases h; exact hp
      · exact ih c h
    | pct hh hl _ ih =>
      rw [tokens_pct hh hl]
      intro c h
      rcases List.mem_cons.1 h with h | h
      · cases h
      · exact ih c h
  · rintro ⟨h, h2⟩
    unfold WF at h
    induction h with
    | nil => exact .nil
    | chr hc _ _ ih =>
      rw [tokens_ch hc] at h2
      exact .chr hc (h2 _ (by simp)) (ih fun c hc => h2 c (by simp [hc]))
    | pct hh hl _ ih =>
      rw [tokens_pct hh hl] at h2
      exact .pct hh hl (ih fun c hc => h2 c (by simp [hc]))

theorem PC_render {p : Char → Bool} {ts : List Tok} (h : TokensOK ts)
    (hp : ∀ c, Tok.ch c ∈ ts → p c = true) : PC p (render ts) :=
  PC_tokens.2 ⟨render_wf h, by rw [tokens_render h]; exact hp⟩

theorem PctNorm.mem_ch {S : Spec} {r t : List Tok} (h : PctNorm S r t) {c : Char} (hc : Tok.ch c ∈ t) :
    Tok.ch c ∈ r ∨ iunreserved S c = true := by
  induction h with
  | nil => simp at hc
  | ch _ ih =>
    rcases List.mem_cons.1 hc with h | h
    · cases h; exact .inl (by simp)
    · rcases ih h with h | h
      · exact .inl (by simp [h])
      · exact .inr h
  | decode hu _ ih =>
    rcases List.mem_cons.1 hc with h | h
    · cases h; exact .inr hu
    · rcases ih h with h | h
      · exact .inl (by simp [h])
      · exact .inr h
  | keep _ _ ih =>
    rcases List.mem_cons.1 hc with h | h
    · cases h
    · rcases ih h with h | h
      · exact .inl (by simp [h])
      · exact .inr h

theorem pctn_PC {S : Spec} {p : Char → Bool} {s : Str} (h : PC p s)
    (hu : ∀ c, iunreserved S c = true → p c = true) : PC p (pctn S s) := by
  obtain ⟨hw, hc⟩ := PC_tokens.1 h
  obtain ⟨t, h1, _, h3⟩ := pctn_spec S hw
  rw [h3]
  refine PC_render (h1.ok (tokens_ok hw)) fun c hm => ?_
  rcases h1.mem_ch hm with h | h
  · exact hc c h
  · exact hu c h

theorem pctn_wf {S : Spec} {s : Str} (h : WF s) : WF (pctn S s) := by
  have := pctn_PC (S := S) (p := fun _ => true) h (by simp)
  exact this

theorem pctn_text {S : Spec} {s : Str} (h : WF s) : PctNormText S s (pctn S s) := by
  obtain ⟨t, h1, _, h3⟩ := pctn_spec S h
  exact ⟨t, h1, h3⟩

theorem pctn_idem {S : Spec} {s : Str} (h : WF s) : pctn S (pctn S s) = pctn S s := by
  obtain ⟨t, h1, _, h3⟩ := pctn_spec S h
  have hok := h1.ok (tokens_ok h)
  rw [h3]
  exact pctn_eq (render_wf hok) (by rw [tokens_render hok]; exact h1.idem)

/-! ### `is_ascii_only_host` -/

theorem is_ascii_only_host_eq {s : Str} (h : WF s) :
    is_ascii_only_host s = some ((tokens s).all tokAscii) := by
  have key : ∀ (fuel : Nat) (s : Str), WF s → s.length < fuel →
      is_ascii_only_host_go fuel s = some ((tokens s).all tokAscii) := by
    intro fuel
    induction fuel with
    | zero => intro s _ h; omega
    | succ fuel ih =>
      intro s h hf
      unfold is_ascii_only_host_go
      cases hs : findSplitHoleP (fun c => !isAscii c || c == '%') s with
      | none =>
        have hn := findSplitHoleP_none.1 hs
        have hp : '%' ∉ s := fun hm => by simpa using hn _ hm
        rw [tokens_no_pct hp]
        simp only [Option.some.injEq]
        symm
        rw [List.all_eq_true]
        intro t ht
        obtain ⟨c, hc, rfl⟩ := List.mem_map.1 ht
        have := hn c hc
        simp [isAscii] at this
        simp [tokAscii, this.1]
      | some x =>
        obtain ⟨a, c, b⟩ := x
        obtain ⟨rfl, hc, ha⟩ := findSplitHoleP_some.1 hs
        have hp : '%' ∉ a := fun hm => by simpa using ha _ hm
        have haw := WF.of_no_pct hp
        have hta : (tokens a).all tokAscii = true := by
          rw [tokens_no_pct hp, List.all_eq_true]
          intro t ht
          obtain ⟨c, hc, rfl⟩ := List.mem_map.1 ht
          have := ha c hc
          simp [isAscii] at this
          simp [tokAscii, this.1]
        have hb := WF.drop_no_pct h hp
        rw [tokens_append_ch haw, List.all_append, hta, Bool.true_and]
        by_cases hcp : c = '%'
        · subst hcp
          obtain ⟨x, y, r, rfl, hx, hy, hr⟩ := hb.pct_inv
          simp only [bne_self_eq_false, Bool.false_eq_true, if_false, take_xdigits2_eq hx hy]
          rw [tokens_pct hx hy, List.all_cons, ih r hr (by simp at hf; omega)]
          by_cases hlt : hexVal x * 16 + hexVal y < 128
          · rw [if_pos hlt]; simp [tokAscii, hlt]
          · rw [if_neg hlt]; simp [tokAscii, hlt]
        · have : (c != '%') = true := by simpa using hcp
          simp only [this, if_true]
          rw [tokens_ch hcp]
          simp [hcp, isAscii] at hc
          simp [tokAscii]; omega
  exact key _ s h (by omega)

/-! ### `NormalizedAsciiOnlyHost` -/

/-- What is done with one token of a US-ASCII host. -/
def asciiN : Tok → Tok
  | .ch c => .ch (toLower c)
  | .pct b => if is_ascii_unreserved (Char.ofNat b) then .ch (toLower (Char.ofNat b)) else .pct b

theorem map_ch_lower (s : Str) : render ((s.map Tok.ch).map asciiN) = s.map toLower := by
  have : (s.map Tok.ch).map asciiN = (s.map toLower).map Tok.ch := by simp [asciiN]
  rw [this, render_ch]

theorem ascii_host_eq {s : Str} (h : WF s) (ha : (tokens s).all tokAscii = true) :
    normalized_ascii_only_host s = some (render ((tokens s).map asciiN)) := by
  have key : ∀ (fuel : Nat) (s : Str), WF s → (tokens s).all tokAscii = true → s.length < fuel →
      ascii_host_go fuel s = some (render ((tokens s).map asciiN)) := by
    intro fuel
    induction fuel with
    | zero => intro s _ _ h; omega
    | succ fuel ih =>
      intro s h ha hf
      unfold ascii_host_go
      cases hs : find_split_hole s '%' with
      | none =>
        have hn := find_split_hole_none.1 hs
        rw [tokens_no_pct hn, map_ch_lower]
      | some x =>
        obtain ⟨a, b⟩ := x
        obtain ⟨rfl, hp⟩ := find_split_hole_some.1 hs
        have hb := WF.drop_no_pct h hp
        obtain ⟨x, y, r, rfl, hx, hy, hr⟩ := hb.pct_inv
        rw [tokens_append_ch (WF.of_no_pct hp), tokens_pct hx hy, List.all_append, List.all_cons] at ha
        simp only [Bool.and_eq_true] at ha
        have hlt : hexVal x * 16 + hexVal y < 128 := by simpa [tokAscii] using ha.2.1
        simp only [take_xdigits2_eq hx hy, hlt, if_true]
        rw [ih r hr ha.2.2 (by simp at hf; omega), Option.map_some, tokens_append_ch (WF.of_no_pct hp),
          tokens_pct hx hy, List.map_append, List.map_cons, render_append, render_cons,
          tokens_no_pct hp, map_ch_lower]
        congr 2
        simp only [asciiN]
        split
        · rfl
        · rfl
  exact key _ s h ha (by omega)

/-- Percent-encoding normalization of a US-ASCII token. -/
def asciiP : Tok → Tok
  | .ch c => .ch c
  | .pct b => if is_ascii_unreserved (Char.ofNat b) then .ch (Char.ofNat b) else .pct b

theorem asciiP_lower (t : Tok) : tokLower (asciiP t) = asciiN t := by
  cases t with
  | ch c => simp [asciiP, asciiN, tokLower, lower_eq]
  | pct b =>
    simp only [asciiP, asciiN]
    split
    · simp [tokLower, lower_eq]
    · rfl

theorem utf8_ofNat_ascii {b : Nat} (h : b < 128) : utf8 (Char.ofNat b) = [b] := by
  have h1 : (Char.ofNat b).toNat = b := utf8_ofNat (by simp [Nat.isValidChar]; omega)
  unfold utf8
  rw [h1]
  simp [h]

theorem asciiP_norm (S : Spec) {ts : List Tok} (h : ts.all tokAscii = true) :
    PctNorm S ts (ts.map asciiP) := by
  induction ts with
  | nil => exact .nil
  | cons t r ih =>
    simp only [List.all_cons, Bool.and_eq_true] at h
    have ih := ih h.2
    cases t with
    | ch c => exact .ch ih
    | pct b =>
      have hb : b < 128 := by simpa [tokAscii] using h.1
      rw [List.map_cons]
      simp only [asciiP]
      by_cases hu : is_ascii_unreserved (Char.ofNat b) = true
      · rw [if_pos hu]
        have := PctNorm.decode ((ascii_unreserved_iff S hb).1 hu) ih
        rw [utf8_ofNat_ascii hb] at this
        exact this
      · rw [if_neg hu]
        refine .keep ?_ ih
        intro c r' hc e
        obtain ⟨b', x, e', hx, hl⟩ := utf8_shape c
        rw [e'] at e
        simp at e
        obtain ⟨rfl, _⟩ := e
        have hcn : c = Char.ofNat b := by
          rw [char_eq_iff, utf8_ofNat (by simp [Nat.isValidChar]; omega)]; omega
        subst hcn
        exact hu ((ascii_unreserved_iff S hb).2 hc)

/-- The normalized host. -/
def hostn (S : Spec) (h : Str) : Str :=
  if (tokens h).all tokAscii then render ((tokens h).map asciiN) else pctn S h

theorem hostn_spec {S : Spec} {h : Str} (hw : WF h) : HostNorm S h (hostn S h) := by
  unfold hostn HostNorm
  by_cases ha : (tokens h).all tokAscii = true
  · refine ⟨_, asciiP_norm S ha, ?_⟩
    rw [if_pos ha, if_pos ha, List.map_map]
    congr 1
    apply List.map_congr_left
    intro t _
    exact (asciiP_lower t).symm
  · obtain ⟨t, h1, _, h3⟩ := pctn_spec S hw
    exact ⟨t, h1, by rw [if_neg ha, if_neg ha, h3]⟩

/-! ### Hosts -/

theorem v6C_ascii {c : Char} (h : v6C c = true) : c.toNat < 128 := by
  simp [v6C, isHex, isDigit, char_eq_iff] at h
  omega

theorem vfutC_ascii {c : Char} (h : vfutC c = true) : c.toNat < 128 := by
  simp only [vfutC, Bool.or_eq_true] at h
  rcases h with (h | h) | h
  · exact unreserved_ascii h
  · exact sub_delims_ascii h
  · simp at h; subst h; decide

/-- Characters of an IP literal. -/
theorem ip_literal_mem {s : Str} (h : IP_literal s) {c : Char} (hc : c ∈ s) : c.toNat < 128 ∧ c ≠ '%' := by
  obtain ⟨m, rfl, hm⟩ := (ip_literal_iff s).1 h
  simp only [List.mem_cons, List.mem_append, List.not_mem_nil, or_false] at hc
  rcases hc with rfl | hc | rfl
  · decide
  · rcases hm with hm | hm
    · have := List.all_eq_true.1 (ipv6_v6C hm) c hc
      exact ⟨v6C_ascii this, by rintro rfl; revert this; decide⟩
    · obtain ⟨v, ver, addr, rfl, hv', _, hver, _, haddr⟩ := (ipvfuture_iff m).1 hm
      simp only [List.mem_cons, List.mem_append] at hc
      rcases hc with rfl | hc | rfl | hc
      · rcases hv' with rfl | rfl <;> decide
      · have := List.all_eq_true.1 hver c hc
        exact ⟨isHex_lt this, isHex_ne_pct this⟩
      · decide
      · have := List.all_eq_true.1 haddr c hc
        exact ⟨vfutC_ascii this, by rintro rfl; revert this; decide⟩
  · decide

theorem ip_literal_tokens {s : Str} (h : IP_literal s) :
    WF s ∧ tokens s = s.map .ch ∧ (tokens s).all tokAscii = true := by
  have hn : '%' ∉ s := fun hm => (ip_literal_mem h hm).2 rfl
  refine ⟨WF.of_no_pct hn, tokens_no_pct hn, ?_⟩
  rw [tokens_no_pct hn, List.all_eq_true]
  intro t ht
  obtain ⟨c, hc, rfl⟩ := List.mem_map.1 ht
  simp [tokAscii, (ip_literal_mem h hc).1]

theorem host_cases {S : Spec} {s : Str} (h : host S s) : IP_literal s ∨ PC (regnameC S) s := by
  rcases (host_iff' s).1 h with h | h
  · exact .inl ((ip_literal_iff s).2 h)
  · exact .inr h

theorem host_of {S : Spec} {s : Str} (h : IP_literal s ∨ PC (regnameC S) s) : host S s := by
  refine (host_iff' s).2 ?_
  rcases h with h | h
  · exact .inl ((ip_literal_iff s).1 h)
  · exact .inr h

theorem host_wf {S : Spec} {s : Str} (h : host S s) : WF s := by
  rcases host_cases h with h | h
  · exact (ip_literal_tokens h).1
  · exact h.wf

theorem regnameC_lower (S : Spec) (c : Char) (h : regnameC S c = true) : regnameC S (toLower c) = true :=
  toLower_closed (by cases S <;> decide) c h

theorem regnameC_unreserved {S : Spec} {c : Char} (h : iunreserved S c = true) : regnameC S c = true := by
  simp [regnameC, h]

theorem asciiN_ok {ts : List Tok} (h : TokensOK ts) (ha : ts.all tokAscii = true) :
    TokensOK (ts.map asciiN) := by
  intro t ht
  obtain ⟨u, hu, rfl⟩ := List.mem_map.1 ht
  have h1 := h u hu
  have h2 := List.all_eq_true.1 ha u hu
  cases u with
  | ch c =>
    have hc : c.toNat < 128 := by simpa [tokAscii] using h2
    exact ascii_forall (P := fun c => c ≠ '%' → toLower c ≠ '%') (by decide) c hc h1
  | pct b =>
    have hb : b < 128 := by simpa [tokAscii] using h2
    simp only [asciiN]
    split
    · rename_i hu
      have : ∀ n : Fin 128, is_ascii_unreserved (Char.ofNat n.val) = true →
        toLower (Char.ofNat n.val) ≠ '%' := by decide
      exact this ⟨b, hb⟩ hu
    · exact h1

theorem asciiN_ascii {ts : List Tok} (ha : ts.all tokAscii = true) :
    (ts.map asciiN).all tokAscii = true := by
  rw [List.all_eq_true]
  intro t ht
  obtain ⟨u, hu, rfl⟩ := List.mem_map.1 ht
  have h2 := List.all_eq_true.1 ha u hu
  cases u with
  | ch c =>
    have hc : c.toNat < 128 := by simpa [tokAscii] using h2
    simpa [tokAscii, asciiN] using toLower_ascii hc
  | pct b =>
    have hb : b < 128 := by simpa [tokAscii] using h2
    simp only [asciiN]
    split
    · have := toLower_ascii (c := Char.ofNat b)
        (by rw [utf8_ofNat (by simp [Nat.isValidChar]; omega)]; exact hb)
      simpa [tokAscii] using this
    · exact h2

theorem asciiN_idem {ts : List Tok} : (ts.map asciiN).map asciiN = ts.map asciiN := by
  rw [List.map_map]
  apply List.map_congr_left
  intro t _
  cases t with
  | ch c => simp [asciiN, toLower_idem]
  | pct b =>
    simp only [Function.comp, asciiN]
    by_cases hu : is_ascii_unreserved (Char.ofNat b) = true
    · simp [hu, toLower_idem]
    · simp [hu]

theorem hostn_regname {S : Spec} {h : Str} (hp : PC (regnameC S) h) : PC (regnameC S) (hostn S h) := by
  obtain ⟨hw, hc⟩ := PC_tokens.1 hp
  unfold hostn
  split
  · rename_i ha
    refine PC_render (asciiN_ok (tokens_ok hw) ha) fun c hm => ?_
    obtain ⟨u, hu, e⟩ := List.mem_map.1 hm
    cases u with
    | ch d => simp [asciiN] at e; subst e; exact regnameC_lower S d (hc d hu)
    | pct b =>
      have hb : b < 128 := by simpa [tokAscii] using List.all_eq_true.1 ha _ hu
      simp only [asciiN] at e
      split at e
      · rename_i hun
        cases e
        exact regnameC_lower S _ (regnameC_unreserved ((ascii_unreserved_iff S hb).1 hun))
      · cases e
  · exact pctn_PC hp fun c => regnameC_unreserved

theorem hostn_ip_literal {S : Spec} {h : Str} (hp : IP_literal h) : hostn S h = h.map toLower := by
  obtain ⟨_, h2, h3⟩ := ip_literal_tokens hp
  unfold hostn
  rw [if_pos h3, h2, map_ch_lower]

theorem hostn_host {S : Spec} {h : Str} (hh : host S h) : host S (hostn S h) := by
  rcases host_cases hh with hp | hp
  · rw [hostn_ip_literal hp]; exact host_of (.inl (LC_ip_literal _ hp))
  · exact host_of (.inr (hostn_regname hp))

theorem utf8_all_ascii (c : Char) : (utf8 c).all (fun b => decide (b < 128)) = decide (c.toNat < 128) := by
  obtain ⟨b, x, e, hx, hl⟩ := utf8_shape c
  by_cases hc : c.toNat < 128
  · have : utf8 c = [c.toNat] := by
      rw [← ofNat_toNat c, utf8_ofNat_ascii hc, ofNat_toNat]
    rw [this]; simp [hc]
  · rw [e]
    have : ¬ b < 128 := by omega
    simp [hc, this]

theorem ascii_bytes (ts : List Tok) : ts.all tokAscii = (ts.flatMap Tok.bytes).all fun b => decide (b < 128) := by
  induction ts with
  | nil => rfl
  | cons t r ih =>
    rw [List.all_cons, List.flatMap_cons, List.all_append, ih]
    congr 1
    cases t with
    | ch c => rw [Tok.bytes, utf8_all_ascii]; rfl
    | pct b => simp [Tok.bytes, tokAscii]

theorem hostn_idem {S : Spec} {h : Str} (hw : WF h) : hostn S (hostn S h) = hostn S h := by
  by_cases ha : (tokens h).all tokAscii = true
  · have e : hostn S h = render ((tokens h).map asciiN) := by unfold hostn; rw [if_pos ha]
    rw [e]
    have hok := asciiN_ok (tokens_ok hw) ha
    unfold hostn
    rw [tokens_render hok, if_pos (asciiN_ascii ha), asciiN_idem]
  · have e : hostn S h = pctn S h := by unfold hostn; rw [if_neg ha]
    rw [e]
    obtain ⟨t, h1, _, h3⟩ := pctn_spec S hw
    have hok := h1.ok (tokens_ok hw)
    have : ¬ (tokens (pctn S h)).all tokAscii = true := by
      rw [h3, tokens_render hok, ascii_bytes, ← h1.bytes, ← ascii_bytes]; exact ha
    unfold hostn
    rw [if_neg this, pctn_idem hw]

/-! ### Host and port -/

theorem pctn_no_pct {S : Spec} {s : Str} (h : '%' ∉ s) : pctn S s = s := by
  rw [pctn_eq (WF.of_no_pct h) (t := s.map .ch), render_ch]
  rw [tokens_no_pct h]
  have := (PctNorm.nil (S := S)).chs s
  simpa using this

theorem port_digits {p : Str} (h : port p) : ∀ c ∈ p, isDigit c = true := by
  have := (star_chr DIGIT p).1 h
  rw [DIGIT_eq] at this
  exact List.all_eq_true.1 this

/-- The port that is kept. -/
def portn (p : Option Str) : Option Str := if p = some [] then none else p

theorem stripColon_of_last {s : Str} (h : ∀ r, s ≠ r ++ [':']) : stripColon s = s := by
  unfold stripColon
  split
  · rename_i r e
    exfalso
    apply h r.reverse
    have := congrArg List.reverse e
    simpa using this
  · rfl

theorem stripColon_colon (s : Str) : stripColon (s ++ [':']) = s := by
  unfold stripColon; simp

theorem host_no_colon_end {S : Spec} {h : Str} (hh : host S h) (r : Str) : h ≠ r ++ [':'] := by
  rintro rfl
  rcases host_cases hh with hp | hp
  · obtain ⟨m, e, _⟩ := (ip_literal_iff _).1 hp
    have e' : r ++ [':'] = ('[' :: m) ++ [']'] := e
    have := (List.append_inj_right' e' rfl)
    cases this
  · exact hp.not_mem (d := ':') (by decide) (by decide) (regnameC_colon S) (by simp)

theorem stripColon_hostport {S : Spec} {h : Str} {p : Option Str} (hh : host S h)
    (hp : ∀ x, p = some x → port x) :
    stripColon (h ++ optSuf [':'] p) = h ++ optSuf [':'] (portn p) := by
  cases p with
  | none => simpa [optSuf, portn] using stripColon_of_last (host_no_colon_end hh)
  | some x =>
    by_cases hx : x = []
    · subst hx; simpa [optSuf, portn] using stripColon_colon h
    · have hd := port_digits (hp x rfl)
      have : portn (some x) = some x := by simp [portn, hx]
      rw [this]
      apply stripColon_of_last
      intro r e
      rcases List.eq_nil_or_concat x with rfl | ⟨x', d, rfl⟩
      · exact hx rfl
      · have e' : (h ++ ':' :: x') ++ [d] = r ++ [':'] := by simpa [optSuf] using e
        have := List.append_inj_right' e' rfl
        cases this
        exact absurd (hd ':' (by simp)) (by decide)

theorem digits_lower {s : Str} (h : ∀ c ∈ s, isDigit c = true) : s.map toLower = s := by
  rw [map_toLower_eq]
  rw [List.any_eq_false]
  intro c hc
  have := h c hc
  simp [isDigit] at this
  simp [isUpper]; omega

theorem digits_no_pct {s : Str} (h : ∀ c ∈ s, isDigit c = true) : '%' ∉ s := by
  intro hm; exact absurd (h _ hm) (by decide)

/-- `normalize_host_port` on a host with an optional non-empty port. -/
theorem hostport_norm {S : Spec} {h : Str} (hw : WF h) {p : Option Str}
    (hp : ∀ x, p = some x → port x) :
    ((is_ascii_only_host (h ++ optSuf [':'] p)).bind fun b =>
      if b then normalized_ascii_only_host (h ++ optSuf [':'] p)
      else pct_case_normalized S (h ++ optSuf [':'] p)) = some (hostn S h ++ optSuf [':'] p) := by
  have ht : '%' ∉ optSuf [':'] p := by
    cases p with
    | none => simp [optSuf]
    | some x =>
      have := digits_no_pct (port_digits (hp x rfl))
      simpa [optSuf] using this
  have hasc : (tokens (optSuf [':'] p)).all tokAscii = true := by
    rw [tokens_no_pct ht, List.all_eq_true]
    intro t hm
    obtain ⟨c, hc, rfl⟩ := List.mem_map.1 hm
    cases p with
    | none => simp [optSuf] at hc
    | some x =>
      simp [optSuf] at hc
      rcases hc with rfl | hc
      · decide
      · have := port_digits (hp x rfl) c hc
        simp [isDigit] at this
        simp [tokAscii]; omega
  have hlow : (optSuf [':'] p).map toLower = optSuf [':'] p := by
    cases p with
    | none => rfl
    | some x =>
      have := digits_lower (port_digits (hp x rfl))
      show toLower ':' :: x.map toLower = ':' :: x
      rw [this]; rfl
  have hw2 : WF (h ++ optSuf [':'] p) := PC.append hw (WF.of_no_pct ht)
  have htok : tokens (h ++ optSuf [':'] p) = tokens h ++ tokens (optSuf [':'] p) := tokens_append_ch hw
  rw [is_ascii_only_host_eq hw2, Option.bind_some, htok, List.all_append, hasc, Bool.and_true]
  unfold hostn
  by_cases ha : (tokens h).all tokAscii = true
  · rw [if_pos ha, if_pos ha, ascii_host_eq hw2 (by rw [htok, List.all_append, ha, hasc]; rfl), htok,
      List.map_append, render_append, tokens_no_pct ht, map_ch_lower, hlow]
  · rw [if_neg ha, if_neg ha, pctn_some S hw2]
    congr 1
    cases p with
    | none => simp [optSuf]
    | some x =>
      have hx := digits_no_pct (port_digits (hp x rfl))
      have := pctn_append_ch S hw (c := ':') (by decide) (WF.of_no_pct hx)
      rw [pctn_no_pct hx] at this
      exact this

theorem portn_ok {p : Option Str} (hp : ∀ x, p = some x → port x) : ∀ x, portn p = some x → port x := by
  intro x h
  unfold portn at h
  split at h
  · cases h
  · exact hp x h

theorem portn_idem (p : Option Str) : portn (portn p) = portn p := by
  unfold portn
  by_cases h : p = some []
  · simp [h]
  · simp [h]

theorem normalize_host_port_eq {S : Spec} {h : Str} {p : Option Str} (hh : host S h)
    (hp : ∀ x, p = some x → port x) :
    normalize_host_port S (h ++ optSuf [':'] p) = some (hostn S h ++ optSuf [':'] (portn p)) := by
  unfold normalize_host_port
  simp only [stripColon_hostport hh hp]
  exact hostport_norm (host_wf hh) (portn_ok hp)

/-! ### Authority -/

/-- The normalized authority components. -/
def AuthParts.norm (S : Spec) (a : AuthParts) : AuthParts :=
  ⟨a.userinfo.map (pctn S), hostn S a.host, portn a.port⟩

theorem userinfoC_unreserved {S : Spec} {c : Char} (h : iunreserved S c = true) : userinfoC S c = true := by
  simp [userinfoC, h]

theorem AuthParts.Valid.norm {S : Spec} {a : AuthParts} (h : a.Valid S) : (a.norm S).Valid S where
  userinfo := by
    intro x hx
    simp only [AuthParts.norm, Option.map_eq_some_iff] at hx
    obtain ⟨u, hu, rfl⟩ := hx
    exact (userinfo_iff S _).2 (pctn_PC ((userinfo_iff S _).1 (h.userinfo u hu)) fun c => userinfoC_unreserved)
  host := hostn_host h.host
  port := portn_ok h.port

theorem AuthParts.norm_spec {S : Spec} {a : AuthParts} (h : a.Valid S) : AuthNorm S a (a.norm S) where
  userinfo := by
    unfold AuthParts.norm
    cases hu : a.userinfo with
    | none => trivial
    | some u => exact pctn_text ((userinfo_iff S _).1 (h.userinfo u hu)).wf
  host := hostn_spec (host_wf h.host)
  port := rfl

theorem AuthParts.norm_idem {S : Spec} {a : AuthParts} (h : a.Valid S) : (a.norm S).norm S = a.norm S := by
  unfold AuthParts.norm
  simp only [AuthParts.mk.injEq]
  refine ⟨?_, hostn_idem (host_wf h.host), portn_idem _⟩
  cases hu : a.userinfo with
  | none => rfl
  | some u => simp [pctn_idem ((userinfo_iff S _).1 (h.userinfo u hu)).wf]

theorem normalize_authority_eq {S : Spec} {a : AuthParts} (h : a.Valid S) :
    normalize_authority S a.recompose = some (a.norm S).recompose := by
  obtain ⟨u, hst, p⟩ := a
  obtain ⟨hu, hh, hp⟩ := h
  simp only at hu hh hp
  have hat : '@' ∉ hst ++ optSuf [':'] p := by
    intro hm
    rcases List.mem_append.1 hm with hm | hm
    · exact host_not_mem hh (d := '@') (by decide) (by decide) (regnameC_at S) (by decide) (by decide)
        (by decide) (by decide) (by decide) (by decide) hm
    · cases p with
      | none => simp [optSuf] at hm
      | some x =>
        simp [optSuf] at hm
        exact absurd (port_digits (hp x rfl) _ hm) (by decide)
  unfold normalize_authority AuthParts.recompose
  cases u with
  | none =>
    have : rfind_split_hole (hst ++ optSuf [':'] p) '@' = none := rfind_split_hole_none.2 hat
    simp only [optPre, List.nil_append, this]
    exact normalize_host_port_eq hh hp
  | some u =>
    have : rfind_split_hole (u ++ '@' :: (hst ++ optSuf [':'] p)) '@' = some (u, hst ++ optSuf [':'] p) :=
      rfind_split_hole_eq hat
    simp only [optPre, List.append_assoc, List.singleton_append, List.cons_append, List.nil_append, this]
    rw [pctn_some S ((userinfo_iff S _).1 (hu u rfl)).wf, normalize_host_port_eq hh hp]
    simp [AuthParts.norm, optPre]

end Verif
