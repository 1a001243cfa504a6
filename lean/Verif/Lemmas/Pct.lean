import Verif.Spec.Pct
import Verif.Model.PctCase
import Verif.Lemmas.Utf8
import Verif.Lemmas.Abnf

/-! # Tokens of a well-formed text; correctness of percent/case normalisation -/

namespace Verif

open Abnf Rfc

/-- Every `%` starts a triplet. -/
abbrev WF (s : Str) : Prop := PC (fun _ => true) s

theorem PC.wf {p : Char → Bool} {s : Str} (h : PC p s) : WF s := h.mono fun _ _ => rfl

theorem tokens_nil : tokens [] = [] := by simp [tokens]

theorem tokens_ch {c : Char} (h : c ≠ '%') (r : Str) : tokens (c :: r) = .ch c :: tokens r := by
  match r with
  | [] => simp [tokens]
  | [_] => simp [tokens]
  | _ :: _ :: _ =>
    rw [tokens]
    intro a b c' h1 h2; exact absurd h1 h

theorem tokens_pct {h l : Char} (hh : isHex h = true) (hl : isHex l = true) (r : Str) :
    tokens ('%' :: h :: l :: r) = .pct (hexVal h * 16 + hexVal l) :: tokens r := by
  rw [tokens, HEXDIG_eq]; simp [hh, hl]

theorem hexVal_lt {h : Char} (hh : isHex h = true) : hexVal h < 16 := by
  unfold hexVal
  simp [isHex] at hh
  repeat' split
  all_goals omega

theorem isHex_lt {h : Char} (hh : isHex h = true) : h.toNat < 128 := by
  simp [isHex] at hh; omega

theorem u8add_eq {a b : Nat} (h : a + b < 256) : u8add a b = some (a + b) := by
  unfold u8add
  rw [decide_eq_false (by omega), Nat.mod_eq_of_lt h]; rfl

theorem hexdigits_eq {h l : Char} (hh : isHex h = true) (hl : isHex l = true) :
    hexdigits_to_byte h.toNat l.toNat = some (hexVal h * 16 + hexVal l) := by
  unfold hexdigits_to_byte hexVal
  simp [isHex] at hh hl
  simp only
  repeat' split
  all_goals
    first
    | omega
    | rw [u8add_eq (by omega), Option.bind_some, u8add_eq (by omega), Option.bind_some, u8add_eq (by omega)]
      congr 1
      omega

theorem take_xdigits2_eq {h l : Char} (hh : isHex h = true) (hl : isHex l = true) (r : Str) :
    take_xdigits2 (h :: l :: r) = some (hexVal h * 16 + hexVal l, r) := by
  have h1 := isHex_lt hh
  have h2 := isHex_lt hl
  have e : utf8s (h :: l :: r) = h.toNat :: l.toNat :: utf8s r := by
    rw [utf8s_cons, utf8s_cons, utf8_ascii h1, utf8_ascii h2]; rfl
  have e2 : sliceFrom (h :: l :: r) 2 = some r :=
    sliceFrom_eq (a := [h, l]) rfl (by simp [utf8Size_eq, utf8_ascii h1, utf8_ascii h2])
  unfold take_xdigits2
  rw [e]
  simp only [e2, Option.map_some, hexdigits_eq hh hl, Option.bind_some]

/-- Tokens that come from a well-formed text. -/
def Tok.OK : Tok → Prop
  | .ch c => c ≠ '%'
  | .pct b => b < 256

def TokensOK (ts : List Tok) : Prop := ∀ t ∈ ts, t.OK

theorem tokens_ok {s : Str} (h : WF s) : TokensOK (tokens s) := by
  induction h with
  | nil => rw [tokens_nil]; simp [TokensOK]
  | chr hc _ _ ih =>
    rw [tokens_ch hc]
    intro t ht
    rcases List.mem_cons.1 ht with rfl | ht
    · exact hc
    · exact ih t ht
  | pct hh hl _ ih =>
    rw [tokens_pct hh hl]
    intro t ht
    rcases List.mem_cons.1 ht with rfl | ht
    · have := hexVal_lt hh; have := hexVal_lt hl; simp [Tok.OK]; omega
    · exact ih t ht

theorem hexUpper_isHex {n : Nat} (h : n < 16) : isHex (hexUpper n) = true ∧ hexVal (hexUpper n) = n := by
  have : ∀ k : Fin 16, isHex (hexUpper k.val) = true ∧ hexVal (hexUpper k.val) = k.val := by decide
  exact this ⟨n, h⟩

theorem writePct_eq (b : Nat) : writePct b = pctUpper b := rfl

theorem tokens_pctUpper {b : Nat} (h : b < 256) (r : Str) :
    tokens (pctUpper b ++ r) = .pct b :: tokens r := by
  have h1 := hexUpper_isHex (n := b / 16) (by omega)
  have h2 := hexUpper_isHex (n := b % 16) (by omega)
  show tokens ('%' :: _ :: _ :: r) = _
  rw [tokens_pct h1.1 h2.1, h1.2, h2.2]
  have : b / 16 * 16 + b % 16 = b := by omega
  rw [this]

theorem render_cons (t : Tok) (ts : List Tok) : render (t :: ts) = t.render ++ render ts := rfl
theorem render_append (a b : List Tok) : render (a ++ b) = render a ++ render b := by simp [render]

theorem tokens_render {ts : List Tok} (h : TokensOK ts) : tokens (render ts) = ts := by
  induction ts with
  | nil => simp [render, tokens_nil]
  | cons t ts ih =>
    have ih := ih fun x hx => h x (by simp [hx])
    have ht := h t (by simp)
    rw [render_cons]
    cases t with
    | ch c => simp only [Tok.render, List.singleton_append]; rw [tokens_ch ht, ih]
    | pct b => simp only [Tok.render]; rw [tokens_pctUpper ht, ih]

theorem render_wf {ts : List Tok} (h : TokensOK ts) : WF (render ts) := by
  induction ts with
  | nil => exact .nil
  | cons t ts ih =>
    have ih := ih fun x hx => h x (by simp [hx])
    have ht := h t (by simp)
    rw [render_cons]
    cases t with
    | ch c => exact .chr ht rfl ih
    | pct b =>
      have ht : b < 256 := ht
      exact .pct (hexUpper_isHex (by omega)).1 (hexUpper_isHex (by omega)).1 ih

theorem tokens_append_ch {a b : Str} (h : WF a) : tokens (a ++ b) = tokens a ++ tokens b := by
  induction h with
  | nil => simp [tokens_nil]
  | chr hc _ _ ih => rw [List.cons_append, tokens_ch hc, tokens_ch hc, ih]; rfl
  | pct hh hl _ ih =>
    show tokens ('%' :: _ :: _ :: (_ ++ b)) = _
    rw [tokens_pct hh hl, tokens_pct hh hl, ih]; rfl

theorem WF.of_no_pct {s : Str} (h : '%' ∉ s) : WF s := by
  induction s with
  | nil => exact .nil
  | cons c r ih =>
    simp at h
    exact .chr (fun e => h.1 e.symm) rfl (ih h.2)

theorem tokens_no_pct {s : Str} (h : '%' ∉ s) : tokens s = s.map .ch := by
  induction s with
  | nil => rw [tokens_nil]; rfl
  | cons c r ih =>
    simp at h
    rw [tokens_ch (fun e => h.1 e.symm), ih h.2]; rfl

theorem render_ch (s : Str) : render (s.map .ch) = s := by
  induction s with
  | nil => rfl
  | cons c r ih => rw [List.map_cons, render_cons, ih]; rfl

theorem render_pcts (bs : List Nat) : render (bs.map .pct) = bs.flatMap writePct := by
  induction bs with
  | nil => rfl
  | cons b r ih => rw [List.map_cons, render_cons, ih]; rfl

/-- A suffix after a prefix without `%` is well formed. -/
theorem WF.drop_no_pct {a b : Str} (h : WF (a ++ b)) (ha : '%' ∉ a) : WF b := by
  induction a with
  | nil => exact h
  | cons c r ih =>
    simp at ha
    have h' : WF (c :: (r ++ b)) := h
    rw [WF, PC_cons (fun e => ha.1 e.symm)] at h'
    exact ih h'.2 ha.2

/-- Shape of a well-formed text starting with `%`. -/
theorem WF.pct_inv {r : Str} (h : WF ('%' :: r)) :
    ∃ a b r', r = a :: b :: r' ∧ isHex a = true ∧ isHex b = true ∧ WF r' := by
  cases h with
  | chr h _ _ => exact absurd rfl h
  | pct h1 h2 h3 => exact ⟨_, _, _, rfl, h1, h2, h3⟩

/-! ### `PctNorm` -/

section norm
variable {S : Spec}

theorem PctNorm.chs {r t : List Tok} (h : PctNorm S r t) (s : Str) :
    PctNorm S (s.map .ch ++ r) (s.map .ch ++ t) := by
  induction s with
  | nil => exact h
  | cons c s ih => exact .ch ih

/-- A continuation byte does not start a character. -/
theorem not_cont_lead {b : Nat} (hb : isCont b) (c : Char) (r r' : List Tok) :
    Tok.pct b :: r ≠ (utf8 c).map .pct ++ r' := by
  obtain ⟨b', x, e, _, hl⟩ := utf8_shape c
  rw [e]
  unfold isCont at hb
  simp
  intro h
  omega

theorem PctNorm.conts {r t : List Tok} (h : PctNorm S r t) {bs : List Nat} (hb : ∀ b ∈ bs, isCont b) :
    PctNorm S (bs.map .pct ++ r) (bs.map .pct ++ t) := by
  induction bs with
  | nil => exact h
  | cons b bs ih =>
    exact .keep (fun c r' _ => not_cont_lead (hb b (by simp)) c _ r') (ih fun x hx => hb x (by simp [hx]))

theorem PctNorm.ok {r t : List Tok} (h : PctNorm S r t) (hr : TokensOK r) : TokensOK t := by
  induction h with
  | nil => exact hr
  | ch _ ih =>
    intro x hx
    rcases List.mem_cons.1 hx with rfl | hx
    · exact hr _ (by simp)
    · exact ih (fun y hy => hr y (by simp [hy])) x hx
  | decode hu _ ih =>
    intro x hx
    rcases List.mem_cons.1 hx with rfl | hx
    · intro e
      rw [e, iunreserved_pct] at hu; cases hu
    · exact ih (fun y hy => hr y (by simp [hy])) x hx
  | keep _ _ ih =>
    intro x hx
    rcases List.mem_cons.1 hx with rfl | hx
    · exact hr _ (by simp)
    · exact ih (fun y hy => hr y (by simp [hy])) x hx

theorem bytes_pcts (bs : List Nat) : (bs.map Tok.pct).flatMap Tok.bytes = bs := by
  induction bs with
  | nil => rfl
  | cons b r ih => rw [List.map_cons, List.flatMap_cons, ih]; rfl

/-- Normalisation keeps the decoded bytes. -/
theorem PctNorm.bytes {r t : List Tok} (h : PctNorm S r t) :
    r.flatMap Tok.bytes = t.flatMap Tok.bytes := by
  induction h with
  | nil => rfl
  | ch _ ih => rw [List.flatMap_cons, List.flatMap_cons, ih]
  | decode _ _ ih => rw [List.flatMap_append, bytes_pcts, List.flatMap_cons, ih]; rfl
  | keep _ _ ih => rw [List.flatMap_cons, List.flatMap_cons, ih]

/-- The relation is a function. -/
theorem PctNorm.det {r t t' : List Tok} (h : PctNorm S r t) (h' : PctNorm S r t') : t = t' := by
  induction h generalizing t' with
  | nil =>
    generalize hr : ([] : List Tok) = r at h'
    cases h' with
    | nil => rfl
    | ch _ => cases hr
    | @decode c _ _ _ _ =>
      have := utf8_ne_nil c
      simp at hr; exact absurd hr.1.symm (by simpa using this)
    | keep _ _ => cases hr
  | @ch c r t _ ih =>
    generalize hr : Tok.ch c :: r = r' at h'
    cases h' with
    | nil => cases hr
    | ch h2 => cases hr; rw [ih h2]
    | @decode d _ _ _ _ =>
      obtain ⟨b, x, e, _⟩ := utf8_shape d
      rw [e] at hr; simp at hr
    | keep _ _ => cases hr
  | @decode c r t hu _ ih =>
    generalize hr : (utf8 c).map Tok.pct ++ r = r' at h'
    obtain ⟨b, x, e, hx, hb⟩ := utf8_shape c
    cases h' with
    | nil => rw [e] at hr; simp at hr
    | ch h2 => rw [e] at hr; simp at hr
    | @decode d r2 t2 hd h2 =>
      obtain ⟨b', x', e', hx', hb'⟩ := utf8_shape d
      have hl : (utf8 c).length = (utf8 d).length := by
        have : b = b' := by
          rw [e, e'] at hr; simp at hr; exact hr.1
        rw [e, e']; simp; omega
      obtain ⟨h3, h4⟩ := List.append_inj hr (by simpa using hl)
      have : utf8 c = utf8 d := List.map_inj_right (fun _ _ h => by cases h; rfl) |>.1 h3
      have := utf8_inj this
      subst this; subst h4
      rw [ih h2]
    | keep hk _ => exact absurd hr.symm (hk c r hu)
  | @keep b r t hk _ ih =>
    generalize hr : Tok.pct b :: r = r' at h'
    cases h' with
    | nil => cases hr
    | ch _ => cases hr
    | @decode d r2 _ hd _ => exact absurd hr (hk d r2 hd)
    | keep _ h2 => cases hr; rw [ih h2]

/-- Leading percent-encoded bytes of the output are leading percent-encoded bytes of the input. -/
theorem PctNorm.lead {r t t' : List Tok} {bs : List Nat} (h : PctNorm S r t)
    (ht : t = bs.map .pct ++ t') : ∃ r', r = bs.map .pct ++ r' ∧ PctNorm S r' t' := by
  induction bs generalizing r t with
  | nil => exact ⟨r, rfl, by simp at ht; exact ht ▸ h⟩
  | cons b bs ih =>
    cases h with
    | nil => simp at ht
    | ch _ => simp at ht
    | decode _ _ => simp at ht
    | keep hk h2 =>
      simp at ht
      obtain ⟨rfl, ht⟩ := ht
      obtain ⟨r', rfl, h3⟩ := ih h2 ht
      exact ⟨r', rfl, h3⟩

/-- Normalising a normalised token list changes nothing. -/
theorem PctNorm.idem {r t : List Tok} (h : PctNorm S r t) : PctNorm S t t := by
  induction h with
  | nil => exact .nil
  | ch _ ih => exact .ch ih
  | decode _ _ ih => exact .ch ih
  | @keep b r t hk h2 ih =>
    refine .keep ?_ ih
    intro c r' hu he
    obtain ⟨b', x, e, hx, _⟩ := utf8_shape c
    rw [e, List.map_cons, List.cons_append] at he
    simp at he
    obtain ⟨rfl, he⟩ := he
    obtain ⟨r'', h3, _⟩ := h2.lead he
    exact hk c r'' hu (by rw [e, h3]; rfl)

/-- Concatenation at a plain character. -/
theorem PctNorm.append_ch {r t r2 t2 : List Tok} (h : PctNorm S r t) {c : Char}
    (h2 : PctNorm S r2 t2) : PctNorm S (r ++ .ch c :: r2) (t ++ .ch c :: t2) := by
  induction h with
  | nil => exact .ch h2
  | ch _ ih => exact .ch ih
  | decode hu _ ih => rw [List.append_assoc]; exact .decode hu ih
  | @keep b r t hk _ ih =>
    refine .keep ?_ ih
    intro d r' hu he
    obtain ⟨b', x, e, hx, _⟩ := utf8_shape d
    rw [e, List.map_cons, List.cons_append] at he
    simp at he
    obtain ⟨rfl, he⟩ := he
    -- the encoding ends before the plain character
    have : ∃ r'', r = x.map .pct ++ r'' := by
      rename_i hnn hdd
      clear e hx hk ih hnn hdd
      induction x generalizing r with
      | nil => exact ⟨r, rfl⟩
      | cons y x ihx =>
        cases r with
        | nil => simp at he
        | cons z r =>
          simp at he
          obtain ⟨rfl, he⟩ := he
          obtain ⟨r'', h⟩ := ihx he
          exact ⟨r'', by rw [h]; rfl⟩
    obtain ⟨r'', h3⟩ := this
    exact hk d r'' hu (by rw [e, h3]; rfl)

end norm

/-! ### `into_char_trusted` -/

theorem and_mask (n k : Nat) : n &&& (2 ^ k - 1) = n % 2 ^ k := Nat.and_two_pow_sub_one_eq_mod n k

theorem shl_or (a : Nat) {b k : Nat} (h : b < 2 ^ k) : (a <<< k) ||| b = a * 2 ^ k + b := by
  rw [Nat.shiftLeft_eq, Nat.mul_comm, Nat.two_pow_add_eq_or_of_lt h]

theorem bits2 (a b : Nat) : ((a &&& 0b00011111) <<< 6) ||| (b &&& 0b00111111) =
    (a % 32) * 64 + b % 64 := by
  have h1 := and_mask a 5
  have h2 := and_mask b 6
  simp at h1 h2
  rw [h1, h2, shl_or _ (by omega)]

theorem bits3 (a b c : Nat) :
    ((a &&& 0b00001111) <<< 12) ||| ((b &&& 0b00111111) <<< 6) ||| (c &&& 0b00111111) =
    (a % 16) * 4096 + (b % 64) * 64 + c % 64 := by
  have h1 := and_mask a 4
  have h2 := and_mask b 6
  have h3 := and_mask c 6
  simp at h1 h2 h3
  rw [h1, h2, h3, Nat.or_assoc, shl_or (b % 64) (k := 6) (by omega), shl_or _ (by omega)]
  omega

theorem bits4 (a b c d : Nat) :
    ((a &&& 0b00000111) <<< 18) ||| ((b &&& 0b00111111) <<< 12) |||
      ((c &&& 0b00111111) <<< 6) ||| (d &&& 0b00111111) =
    (a % 8) * 262144 + (b % 64) * 4096 + (c % 64) * 64 + d % 64 := by
  have h1 := and_mask a 3
  have h2 := and_mask b 6
  have h3 := and_mask c 6
  have h4 := and_mask d 6
  simp at h1 h2 h3 h4
  rw [h1, h2, h3, h4, Nat.or_assoc, Nat.or_assoc, shl_or (c % 64) (k := 6) (by omega),
    shl_or (b % 64) (k := 12) (by omega), shl_or _ (by omega)]
  omega

theorem charFromU32_some {n : Nat} {c : Char} : charFromU32 n = some c ↔ c.toNat = n := by
  unfold charFromU32
  by_cases h : n.isValidChar
  · rw [if_pos h]
    constructor
    · intro e; cases e; exact utf8_ofNat h
    · intro e; rw [Option.some.injEq, char_eq_iff, e]; exact utf8_ofNat h
  · rw [if_neg h]
    constructor
    · intro e; cases e
    · rintro rfl; exact absurd c.valid h

/-- On a lead byte and the announced number of continuation bytes, `into_char_trusted` decodes
exactly the valid UTF-8 sequences. -/
theorem into_char_trusted_spec {b : Nat} {bs : List Nat} {n : Nat} (hn : expectedLen b = some n)
    (hl : bs.length = n - 1) (hc : ∀ x ∈ bs, isCont x) :
    ∃ o, into_char_trusted (b :: bs) = some o ∧ ∀ c, o = some c ↔ utf8 c = b :: bs := by
  unfold expectedLen at hn
  unfold isCont at hc
  split at hn
  · cases hn
    match bs, hl with
    | [b1], _ =>
      have h1 := hc b1 (by simp)
      refine ⟨_, by simp only [into_char_trusted, bits2]; rfl, ?_⟩
      intro c
      split
      · constructor
        · intro h; cases h
        · intro h; have := codePoint_utf8 c; rw [h] at this; simp only [codePoint] at this
          unfold utf8 at h; simp only at h; split at h
          · simp at h
          · omega
      · rw [charFromU32_some]
        constructor
        · intro h
          unfold utf8; simp only [h]
          rw [if_neg (by omega), if_pos (by omega)]
          congr 1; omega
          congr 1; omega
        · intro h; have := codePoint_utf8 c; rw [h] at this; simp only [codePoint] at this
          omega
  · split at hn
    · cases hn
      match bs, hl with
      | [b1, b2], _ =>
        have h1 := hc b1 (by simp)
        have h2 := hc b2 (by simp)
        refine ⟨_, by simp only [into_char_trusted, bits3]; rfl, ?_⟩
        intro c
        split
        · constructor
          · intro h; cases h
          · intro h; have := codePoint_utf8 c; rw [h] at this; simp only [codePoint] at this
            unfold utf8 at h; simp only at h
            split at h
            · simp at h
            · split at h
              · simp at h
              · omega
        · rw [charFromU32_some]
          constructor
          · intro h
            unfold utf8; simp only [h]
            rw [if_neg (by omega), if_neg (by omega), if_pos (by omega)]
            congr 1; omega
            congr 1; omega
            congr 1; omega
          · intro h; have := codePoint_utf8 c; rw [h] at this; simp only [codePoint] at this
            omega
    · split at hn
      · cases hn
        match bs, hl with
        | [b1, b2, b3], _ =>
          have h1 := hc b1 (by simp)
          have h2 := hc b2 (by simp)
          have h3 := hc b3 (by simp)
          refine ⟨_, by simp only [into_char_trusted, bits4]; rfl, ?_⟩
          intro c
          split
          · constructor
            · intro h; cases h
            · intro h; have := codePoint_utf8 c; rw [h] at this; simp only [codePoint] at this
              unfold utf8 at h; simp only at h
              split at h
              · simp at h
              · split at h
                · simp at h
                · split at h
                  · simp at h
                  · omega
          · rw [charFromU32_some]
            constructor
            · intro h
              unfold utf8; simp only [h]
              rw [if_neg (by omega), if_neg (by omega), if_neg (by omega)]
              congr 1; omega
              congr 1; omega
              congr 1; omega
              congr 1; omega
            · intro h; have := codePoint_utf8 c; rw [h] at this; simp only [codePoint] at this
              omega
      · cases hn

theorem is_cont_iff {b : Nat} (hb : b < 256) : is_utf8_byte_continue b = true ↔ isCont b := by
  unfold is_utf8_byte_continue isCont
  split <;> simp <;> omega

/-- No leading continuation byte. -/
def NoContHead (ts : List Tok) : Prop := ∀ b r, ts = .pct b :: r → ¬ isCont b

/-- What the scan for continuation bytes does. -/
theorem takeCont_spec (n : Nat) (buf : List Nat) (rest : Str) (h : WF rest) :
    ∃ conts : List Nat, (∀ x ∈ conts, isCont x) ∧
      ((conts.length = n ∧ ∃ rest', takeCont n buf rest = some (.full (buf ++ conts) rest') ∧
          tokens rest = conts.map .pct ++ tokens rest' ∧ WF rest' ∧ rest'.length ≤ rest.length ∧
          sliceFrom rest (n * 3) = some rest') ∨
       (conts.length < n ∧ tokens rest = conts.map .pct ∧
          takeCont n buf rest = some (.stop ((buf ++ conts).flatMap writePct))) ∨
       (conts.length < n ∧ ∃ rest', WF rest' ∧ rest'.length ≤ rest.length ∧
          ((NoContHead (tokens rest') ∧ tokens rest = conts.map .pct ++ tokens rest' ∧
              takeCont n buf rest = some (.again ((buf ++ conts).flatMap writePct) rest')) ∨
           (∃ c, tokens rest = conts.map .pct ++ .ch c :: tokens rest' ∧
              takeCont n buf rest = some (.again ((buf ++ conts).flatMap writePct ++ [c]) rest'))))) := by
  induction n generalizing buf rest with
  | zero =>
    refine ⟨[], by simp, .inl ⟨rfl, rest, by simp [takeCont], by simp, h, Nat.le_refl _, ?_⟩⟩
    exact sliceFrom_eq (a := []) rfl rfl
  | succ n ih =>
    cases rest with
    | nil => exact ⟨[], by simp, .inr (.inl ⟨by simp, by simp [tokens_nil], by simp [takeCont]⟩)⟩
    | cons c after =>
      by_cases hc : c = '%'
      · subst hc
        obtain ⟨a, b, r, rfl, ha, hb, hr⟩ := h.pct_inv
        have hx := take_xdigits2_eq ha hb r
        have hlt : hexVal a * 16 + hexVal b < 256 := by
          have := hexVal_lt ha; have := hexVal_lt hb; omega
        by_cases hcont : is_utf8_byte_continue (hexVal a * 16 + hexVal b) = true
        · have hi := (is_cont_iff hlt).1 hcont
          have hstep : takeCont (n + 1) buf ('%' :: a :: b :: r) =
              takeCont n (buf ++ [hexVal a * 16 + hexVal b]) r := by
            rw [takeCont]; simp [hx, hcont]
          obtain ⟨conts, h1, h2⟩ := ih (buf ++ [hexVal a * 16 + hexVal b]) r hr
          refine ⟨(hexVal a * 16 + hexVal b) :: conts, ?_, ?_⟩
          · intro x hx
            rcases List.mem_cons.1 hx with rfl | hx
            · exact hi
            · exact h1 x hx
          · rw [hstep, tokens_pct ha hb]
            have e : ∀ l : List Nat, buf ++ (hexVal a * 16 + hexVal b) :: l =
                (buf ++ [hexVal a * 16 + hexVal b]) ++ l := by intro l; simp
            rw [e conts]
            rcases h2 with ⟨h2, r', h3, h4, h5, h6, h7⟩ | ⟨h2, h3, h4⟩ | ⟨h2, r', h3, h4, h5⟩
            · refine .inl ⟨by simp [h2], r', h3, by rw [h4]; rfl, h5, by simp; omega, ?_⟩
              have := isHex_lt ha
              have := isHex_lt hb
              unfold sliceFrom at h7 ⊢
              cases h8 : splitAtB r (n * 3) with
              | none => rw [h8] at h7; cases h7
              | some v =>
                rw [h8] at h7
                obtain ⟨v1, v2⟩ := v
                simp at h7
                obtain ⟨h9, h10⟩ := splitAtB_some.1 h8
                have : splitAtB ('%' :: a :: b :: r) ((n + 1) * 3) = some ('%' :: a :: b :: v1, v2) := by
                  apply splitAtB_some.2
                  refine ⟨by simp [h9], ?_⟩
                  have e1 : ('%').utf8Size = 1 := by decide
                  simp [utf8Size_eq, utf8_ascii (isHex_lt ha), utf8_ascii (isHex_lt hb),
                    utf8_ascii (c := '%') (by decide)]
                  omega
                rw [this]; simp [h7]
            · exact .inr (.inl ⟨by simp; omega, by rw [h3]; rfl, h4⟩)
            · refine .inr (.inr ⟨by simp; omega, r', h3, by simp; omega, ?_⟩)
              rcases h5 with ⟨h5, h6, h7⟩ | ⟨c, h6, h7⟩
              · exact .inl ⟨h5, by rw [h6]; rfl, h7⟩
              · exact .inr ⟨c, by rw [h6]; rfl, h7⟩
        · refine ⟨[], by simp, .inr (.inr ⟨by simp, _, h, Nat.le_refl _, .inl ⟨?_, by simp, ?_⟩⟩)⟩
          · rw [tokens_pct ha hb]
            intro x y hxy hcx
            cases hxy
            exact hcont ((is_cont_iff hlt).2 hcx)
          · rw [takeCont]; simp [hx, hcont]
      · rw [WF, PC_cons hc] at h
        refine ⟨[], by simp, .inr (.inr ⟨by simp, after, h.2, by simp, .inr ⟨c, ?_, ?_⟩⟩)⟩
        · rw [tokens_ch hc]; rfl
        · rw [takeCont]; simp [hc]

theorem ascii_unreserved_iff (S : Spec) {b : Nat} (hb : b < 128) :
    is_ascii_unreserved (Char.ofNat b) = true ↔ iunreserved S (Char.ofNat b) = true := by
  have e := congrFun (is_unreserved_eq S) (Char.ofNat b)
  have h : (Char.ofNat b).toNat = b := utf8_ofNat (by simp [Nat.isValidChar]; omega)
  have : is_unreserved S (Char.ofNat b) = is_ascii_unreserved (Char.ofNat b) := by
    unfold is_unreserved isAscii
    simp [h, hb]
  rw [← e, this]

/-- A character whose encoding starts with a lead byte of class `n` has length `n`. -/
theorem lead_len {b n : Nat} (hn : expectedLen b = some n) {c : Char} {x : List Nat}
    (h : utf8 c = b :: x) : x.length = n - 1 := by
  obtain ⟨b', x', e, _, hl⟩ := utf8_shape c
  rw [h] at e
  cases e
  unfold expectedLen at hn
  split at hn
  · cases hn; omega
  · split at hn
    · cases hn; omega
    · split at hn
      · cases hn; omega
      · cases hn

theorem map_pct_inj {a b : List Nat} (h : a.map Tok.pct = b.map Tok.pct) : a = b :=
  (List.map_inj_right (fun _ _ h => by cases h; rfl)).1 h

/-- After an interrupted run of continuation bytes nothing longer than the run is spelled. -/
theorem conts_interrupted {conts x : List Nat} {rest r' : List Tok} (hn : NoContHead rest)
    (hx : ∀ y ∈ x, isCont y) (hl : conts.length < x.length) :
    conts.map Tok.pct ++ rest ≠ x.map Tok.pct ++ r' := by
  induction conts generalizing x with
  | nil =>
    cases x with
    | nil => simp at hl
    | cons y x =>
      intro he
      exact hn y _ (by simpa using he) (hx y (by simp))
  | cons z conts ih =>
    cases x with
    | nil => simp at hl
    | cons y x =>
      intro he
      simp at he
      exact ih (fun w hw => hx w (by simp [hw])) (by simp at hl; omega) he.2

/-- **Main lemma**: the loop writes the rendering of the normalised token list. -/
theorem pct_case_go_spec (S : Spec) (fuel : Nat) (s : Str) (h : WF s) (hf : s.length < fuel) :
    ∃ t, PctNorm S (tokens s) t ∧ pct_case_go S fuel s = some (render t) := by
  induction fuel generalizing s with
  | zero => omega
  | succ fuel ih =>
    cases hs : find_split_hole s '%' with
    | none =>
      have hn := find_split_hole_none.1 hs
      refine ⟨s.map .ch, ?_, ?_⟩
      · rw [tokens_no_pct hn]
        simpa using PctNorm.chs (S := S) .nil s
      · rw [pct_case_go, hs, render_ch]
    | some x =>
      obtain ⟨pre, after⟩ := x
      obtain ⟨rfl, hn⟩ := find_split_hole_some.1 hs
      obtain ⟨a, b, r, rfl, ha, hb, hr⟩ := (WF.drop_no_pct h hn).pct_inv
      have hx := take_xdigits2_eq ha hb r
      have htok : tokens (pre ++ '%' :: a :: b :: r) =
          pre.map .ch ++ (.pct (hexVal a * 16 + hexVal b) :: tokens r) := by
        rw [tokens_append_ch (WF.of_no_pct hn), tokens_no_pct hn, tokens_pct ha hb]
      have hlt : hexVal a * 16 + hexVal b < 256 := by
        have := hexVal_lt ha; have := hexVal_lt hb; omega
      rw [htok]
      generalize hv : hexVal a * 16 + hexVal b = v at hx hlt
      have hrl : r.length < fuel := by simp at hf; omega
      rw [pct_case_go, hs]
      simp only [hx]
      by_cases h1 : v < 0x80
      · obtain ⟨t, ht, hg⟩ := ih r hr hrl
        have hcv : (Char.ofNat v).toNat = v := utf8_ofNat (by simp [Nat.isValidChar]; omega)
        have hu : utf8 (Char.ofNat v) = [v] := by rw [utf8_ascii (by omega), hcv]
        rw [if_pos h1, hg]
        by_cases h2 : is_ascii_unreserved (Char.ofNat v) = true
        · refine ⟨pre.map .ch ++ .ch (Char.ofNat v) :: t, PctNorm.chs ?_ pre, ?_⟩
          · have := PctNorm.decode ((ascii_unreserved_iff S h1).1 h2) ht
            rw [hu] at this; exact this
          · rw [render_append, render_ch, render_cons]; simp [h2, Tok.render]
        · refine ⟨pre.map .ch ++ .pct v :: t, PctNorm.chs (.keep ?_ ht) pre, ?_⟩
          · intro c r' hc he
            obtain ⟨b', x, e, _, hl⟩ := utf8_shape c
            rw [e] at he; simp at he
            have : c.toNat = v := by omega
            have : c = Char.ofNat v := (char_eq_iff _ _).2 (by rw [hcv]; exact this)
            rw [this] at hc
            exact h2 ((ascii_unreserved_iff S h1).2 hc)
          · rw [render_append, render_ch, render_cons]; simp [h2, Tok.render, writePct_eq]
      · rw [if_neg h1]
        cases hl : expectedLen v with
        | none =>
          obtain ⟨t, ht, hg⟩ := ih r hr hrl
          simp only [hg, Option.map_some]
          refine ⟨pre.map .ch ++ .pct v :: t, PctNorm.chs (.keep ?_ ht) pre, ?_⟩
          · intro c r' hc he
            obtain ⟨b', x, e, _, hl'⟩ := utf8_shape c
            rw [e] at he; simp at he
            have : b' = v := he.1.symm
            subst this
            unfold expectedLen at hl
            split at hl
            · cases hl
            · split at hl
              · cases hl
              · split at hl
                · cases hl
                · omega
          · rw [render_append, render_ch, render_cons]; simp [Tok.render, writePct_eq]
        | some n =>
          simp only
          obtain ⟨conts, hc, hcase⟩ := takeCont_spec (n - 1) [v] r hr
          -- a failed scan: nothing starting at this byte is a character
          have hkeep : ∀ rest : List Tok, conts.length < n - 1 → NoContHead rest →
              ∀ c r', iunreserved S c = true →
                Tok.pct v :: (conts.map .pct ++ rest) ≠ (utf8 c).map .pct ++ r' := by
            intro rest hlen hnh c r' _ he
            obtain ⟨b', x, e, hx', _⟩ := utf8_shape c
            have hxl := lead_len (b := v) (c := c) (x := x) hl
            rw [e] at he
            simp at he
            obtain ⟨rfl, he⟩ := he
            exact conts_interrupted hnh hx' (by have := hxl e; omega) he
          rcases hcase with ⟨h2, r', h3, h4, h5, h6, h7⟩ | ⟨h2, h3, h4⟩ | ⟨h2, r', h3, h4, h5⟩
          · obtain ⟨t, ht, hg⟩ := ih r' h5 (by omega)
            obtain ⟨o, ho, hoc⟩ := into_char_trusted_spec (b := v) (bs := conts) hl h2 hc
            have hkeepAll : (∀ c, iunreserved S c = true → utf8 c ≠ v :: conts) →
                PctNorm S (.pct v :: tokens r) (.pct v :: (conts.map .pct ++ t)) := by
              intro hno
              rw [h4]
              refine .keep ?_ (PctNorm.conts ht hc)
              intro c r2 hu he
              obtain ⟨b', x, e, hx', _⟩ := utf8_shape c
              rw [e] at he
              simp at he
              obtain ⟨rfl, he⟩ := he
              have hxl := lead_len hl e
              obtain ⟨h8, _⟩ := List.append_inj he (by simp; omega)
              rw [map_pct_inj h8] at hno
              exact hno c hu e
            have hout : ∀ u, render (pre.map .ch ++ .pct v :: (conts.map .pct ++ u)) =
                pre ++ (([v] ++ conts).flatMap writePct ++ render u) := by
              intro u
              rw [render_append, render_ch, render_cons, render_append, render_pcts]
              simp [Tok.render, writePct_eq]
            simp only [h3]
            rw [List.singleton_append, ho]
            cases o with
            | none =>
              simp only [h7, hg, Option.map_some]
              refine ⟨_, PctNorm.chs (hkeepAll ?_) pre, by rw [hout]; rfl⟩
              intro c _ hc'
              exact absurd ((hoc c).2 hc') (by simp)
            | some c =>
              have huc := (hoc c).1 rfl
              simp only [hg, Option.map_some]
              have e2 := congrFun (is_unreserved_eq S) c
              by_cases hu : iunreserved S c = true
              · refine ⟨pre.map .ch ++ .ch c :: t, PctNorm.chs ?_ pre, ?_⟩
                · have := PctNorm.decode hu ht
                  rw [huc] at this
                  rw [h4]; exact this
                · rw [render_append, render_ch, render_cons, e2]; simp [hu, Tok.render]
              · refine ⟨_, PctNorm.chs (hkeepAll ?_) pre, ?_⟩
                · intro d hd hd'
                  rw [← huc] at hd'
                  rw [utf8_inj hd'] at hd
                  exact hu hd
                · rw [hout, e2, if_neg hu]; rfl
          · simp only [h4]
            refine ⟨pre.map .ch ++ .pct v :: conts.map .pct, PctNorm.chs ?_ pre, ?_⟩
            · rw [h3]
              have hk := hkeep [] h2 (by intro b r h; cases h)
              rw [List.append_nil] at hk
              refine .keep hk ?_
              have := PctNorm.conts (S := S) .nil hc
              simpa using this
            · rw [render_append, render_ch, render_cons, render_pcts]; simp [Tok.render, writePct_eq]
          · obtain ⟨t, ht, hg⟩ := ih r' h3 (by omega)
            rcases h5 with ⟨h6, h7, h8⟩ | ⟨c, h7, h8⟩
            · simp only [h8, hg, Option.map_some]
              refine ⟨pre.map .ch ++ .pct v :: (conts.map .pct ++ t), PctNorm.chs ?_ pre, ?_⟩
              · rw [h7]
                exact .keep (hkeep _ h2 h6) (PctNorm.conts ht hc)
              · rw [render_append, render_ch, render_cons, render_append, render_pcts]
                simp [Tok.render, writePct_eq]
            · simp only [h8, hg, Option.map_some]
              refine ⟨pre.map .ch ++ .pct v :: (conts.map .pct ++ .ch c :: t), PctNorm.chs ?_ pre, ?_⟩
              · rw [h7]
                exact .keep (hkeep _ h2 (by intro b r h; cases h)) (PctNorm.conts (.ch ht) hc)
              · rw [render_append, render_ch, render_cons, render_append, render_pcts, render_cons]
                simp [Tok.render, writePct_eq]

/-- `PctCaseNormalized` does not panic and writes the normalised text. -/
theorem pct_case_normalized_spec (S : Spec) {s : Str} (h : WF s) :
    ∃ t, PctNorm S (tokens s) t ∧ pct_case_normalized S s = some (render t) :=
  pct_case_go_spec S _ s h (by omega)

end Verif
