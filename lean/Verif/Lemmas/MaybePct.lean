import Verif.Model.TemplateExpand
import Verif.Spec.TemplateExpand
import Verif.Lemmas.Encode
import Verif.Lemmas.Decode
import Verif.Lemmas.Convert
import Verif.Lemmas.Template
import Verif.Lemmas.Decompose

/-!
# Lemmas on the decomposition of possibly percent-encoded text
-/

namespace Verif.MaybePct

open Verif.Rfc Verif.Rfc6570 Verif.Tpl

/-! ## UTF-8 validation -/

theorem utf8Check_full (c : Char) : utf8Check 4 0 (utf8 c) = .valid := by
  have h1 := char_lt c
  have h2 := char_not_surrogate c
  unfold utf8
  simp only
  split
  · next h => simp [utf8Check, utf8Step, h]
  · split
    · next h h' =>
      have e1 : ¬ (0xC0 + c.toNat / 64 < 0x80) := by omega
      have e2 : (0xC2 ≤ 0xC0 + c.toNat / 64 ∧ 0xC0 + c.toNat / 64 < 0xE0) := by omega
      have e3 : (0x80 ≤ 0x80 + c.toNat % 64 ∧ 0x80 + c.toNat % 64 < 0xC0) := by omega
      simp only [utf8Check, utf8Step]
      rw [if_neg e1, if_pos (by simpa using e2), if_pos (by simpa [isCont] using e3)]
      rfl
    · split
      · next h h' h'' =>
        have e1 : ¬ (0xE0 + c.toNat / 4096 < 0x80) := by omega
        have e2 : ¬ (0xC2 ≤ 0xE0 + c.toNat / 4096 ∧ 0xE0 + c.toNat / 4096 < 0xE0) := by omega
        have e3 : (0xE0 ≤ 0xE0 + c.toNat / 4096 ∧ 0xE0 + c.toNat / 4096 < 0xF0) := by omega
        have e4 : second3 (0xE0 + c.toNat / 4096) (0x80 + c.toNat / 64 % 64) = true := by
          simp [second3, isCont]; omega
        have e5 : (0x80 ≤ 0x80 + c.toNat % 64 ∧ 0x80 + c.toNat % 64 < 0xC0) := by omega
        simp only [utf8Check, utf8Step]
        rw [if_neg e1, if_neg (by simpa using e2), if_pos (by simpa using e3), if_pos e4,
          if_pos (by simpa [isCont] using e5)]
        rfl
      · next h h' h'' =>
        have e1 : ¬ (0xF0 + c.toNat / 262144 < 0x80) := by omega
        have e2 : ¬ (0xC2 ≤ 0xF0 + c.toNat / 262144 ∧ 0xF0 + c.toNat / 262144 < 0xE0) := by omega
        have e3 : ¬ (0xE0 ≤ 0xF0 + c.toNat / 262144 ∧ 0xF0 + c.toNat / 262144 < 0xF0) := by omega
        have e4 : (0xF0 ≤ 0xF0 + c.toNat / 262144 ∧ 0xF0 + c.toNat / 262144 < 0xF5) := by omega
        have e5 : second4 (0xF0 + c.toNat / 262144) (0x80 + c.toNat / 4096 % 64) = true := by
          simp [second4, isCont]; omega
        have e6 : (0x80 ≤ 0x80 + c.toNat / 64 % 64 ∧ 0x80 + c.toNat / 64 % 64 < 0xC0) := by omega
        have e7 : (0x80 ≤ 0x80 + c.toNat % 64 ∧ 0x80 + c.toNat % 64 < 0xC0) := by omega
        simp only [utf8Check, utf8Step]
        rw [if_neg e1, if_neg (by simpa using e2), if_neg (by simpa using e3), if_pos (by simpa using e4),
          if_pos e5, if_pos (by simpa [isCont] using e6), if_pos (by simpa [isCont] using e7)]
        rfl

theorem utf8Check_part {c : Char} {bs bs' : List Nat} (h : bs ≠ []) (h' : bs' ≠ [])
    (e : bs ++ bs' = utf8 c) : utf8Check 4 0 bs = .err 0 none := by
  have h1 := char_lt c
  have h2 := char_not_surrogate c
  unfold utf8 at e
  simp only at e
  split at e
  · obtain ⟨b, r, rfl⟩ := List.exists_cons_of_ne_nil h
    simp [h'] at e
  · split at e
    · next g g' =>
      obtain ⟨b, r, rfl⟩ := List.exists_cons_of_ne_nil h
      simp at e
      obtain ⟨rfl, e⟩ := e
      cases r with
      | cons x r => simp [h'] at e
      | nil =>
        have e1 : ¬ (0xC0 + c.toNat / 64 < 0x80) := by omega
        have e2 : (0xC2 ≤ 0xC0 + c.toNat / 64 ∧ 0xC0 + c.toNat / 64 < 0xE0) := by omega
        simp only [utf8Check, utf8Step]
        rw [if_neg e1, if_pos (by simpa using e2)]
    · split at e
      · next g g' g'' =>
        obtain ⟨b, r, rfl⟩ := List.exists_cons_of_ne_nil h
        simp at e
        obtain ⟨rfl, e⟩ := e
        have e1 : ¬ (0xE0 + c.toNat / 4096 < 0x80) := by omega
        have e2 : ¬ (0xC2 ≤ 0xE0 + c.toNat / 4096 ∧ 0xE0 + c.toNat / 4096 < 0xE0) := by omega
        have e3 : (0xE0 ≤ 0xE0 + c.toNat / 4096 ∧ 0xE0 + c.toNat / 4096 < 0xF0) := by omega
        have e4 : second3 (0xE0 + c.toNat / 4096) (0x80 + c.toNat / 64 % 64) = true := by
          simp [second3, isCont]; omega
        cases r with
        | nil =>
          simp only [utf8Check, utf8Step]
          rw [if_neg e1, if_neg (by simpa using e2), if_pos (by simpa using e3)]
        | cons x r =>
          simp at e
          obtain ⟨rfl, e⟩ := e
          cases r with
          | cons x r => simp [h'] at e
          | nil =>
            simp only [utf8Check, utf8Step]
            rw [if_neg e1, if_neg (by simpa using e2), if_pos (by simpa using e3), if_pos e4]
      · next g g' g'' =>
        obtain ⟨b, r, rfl⟩ := List.exists_cons_of_ne_nil h
        simp at e
        obtain ⟨rfl, e⟩ := e
        have e1 : ¬ (0xF0 + c.toNat / 262144 < 0x80) := by omega
        have e2 : ¬ (0xC2 ≤ 0xF0 + c.toNat / 262144 ∧ 0xF0 + c.toNat / 262144 < 0xE0) := by omega
        have e3 : ¬ (0xE0 ≤ 0xF0 + c.toNat / 262144 ∧ 0xF0 + c.toNat / 262144 < 0xF0) := by omega
        have e4 : (0xF0 ≤ 0xF0 + c.toNat / 262144 ∧ 0xF0 + c.toNat / 262144 < 0xF5) := by omega
        have e5 : second4 (0xF0 + c.toNat / 262144) (0x80 + c.toNat / 4096 % 64) = true := by
          simp [second4, isCont]; omega
        have e6 : (0x80 ≤ 0x80 + c.toNat / 64 % 64 ∧ 0x80 + c.toNat / 64 % 64 < 0xC0) := by omega
        cases r with
        | nil =>
          simp only [utf8Check, utf8Step]
          rw [if_neg e1, if_neg (by simpa using e2), if_neg (by simpa using e3),
            if_pos (by simpa using e4)]
        | cons x r =>
          simp at e
          obtain ⟨rfl, e⟩ := e
          cases r with
          | nil =>
            simp only [utf8Check, utf8Step]
            rw [if_neg e1, if_neg (by simpa using e2), if_neg (by simpa using e3),
              if_pos (by simpa using e4), if_pos e5]
          | cons x r =>
            simp at e
            obtain ⟨rfl, e⟩ := e
            cases r with
            | cons x r => simp [h'] at e
            | nil =>
              simp only [utf8Check, utf8Step]
              rw [if_neg e1, if_neg (by simpa using e2), if_neg (by simpa using e3),
                if_pos (by simpa using e4), if_pos e5, if_pos (by simpa [isCont] using e6)]

theorem utf8Check_bad {x : Nat} (h : 0x80 ≤ x ∧ x < 0xC2 ∨ 0xF5 ≤ x) :
    utf8Check 4 0 [x] = .err 0 (some 1) := by
  have e1 : ¬ (x < 0x80) := by omega
  have e2 : ¬ (0xC2 ≤ x ∧ x < 0xE0) := by omega
  have e3 : ¬ (0xE0 ≤ x ∧ x < 0xF0) := by omega
  have e4 : ¬ (0xF0 ≤ x ∧ x < 0xF5) := by omega
  simp only [utf8Check, utf8Step]
  rw [if_neg e1, if_neg (by simpa using e2), if_neg (by simpa using e3), if_neg (by simpa using e4)]

/-! ## Triplets -/

theorem trip_length {g : Str} {bs : List Nat} (h : Trip g bs) : g.length = 3 * bs.length := by
  induction h with
  | nil => rfl
  | cons _ _ _ ih => simp [ih]; omega

theorem trip_blen {g : Str} {bs : List Nat} (h : Trip g bs) : blen g = g.length := by
  induction h with
  | nil => rfl
  | cons h1 h2 _ ih =>
    rw [HEXDIG_eq] at h1 h2
    simp only [blen_cons, ih, utf8Size_ascii (isHex_lt h1), utf8Size_ascii (isHex_lt h2),
      utf8Size_ascii (c := '%') (by decide), List.length_cons]
    omega

theorem trip_decoded {g : Str} {bs : List Nat} (h : Trip g bs) : decodedBytes g = some bs := by
  induction h with
  | nil => rfl
  | cons h1 h2 _ ih =>
    rw [HEXDIG_eq] at h1 h2
    rw [decodedBytes, ih, hexdigits_eq h1 h2]; rfl

theorem trip_append {a b : Str} {as bs : List Nat} (ha : Trip a as) (hb : Trip b bs) :
    Trip (a ++ b) (as ++ bs) := by
  induction ha with
  | nil => exact hb
  | cons h1 h2 _ ih => exact .cons h1 h2 ih

theorem trip_split {g : Str} {as bs : List Nat} (h : Trip g (as ++ bs)) :
    ∃ a b, g = a ++ b ∧ Trip a as ∧ Trip b bs := by
  induction as generalizing g with
  | nil => exact ⟨[], g, rfl, .nil, h⟩
  | cons x as ih =>
    cases h with
    | cons h1 h2 h3 =>
      obtain ⟨a, b, rfl, ha, hb⟩ := ih h3
      exact ⟨_, b, rfl, .cons h1 h2 ha, hb⟩

theorem trip_single {g : Str} {x : Nat} (h : Trip g [x]) :
    ∃ h l, g = ['%', h, l] ∧ isHex h = true ∧ isHex l = true := by
  cases h with
  | cons h1 h2 h3 =>
    cases h3
    rw [HEXDIG_eq] at h1 h2
    exact ⟨_, _, rfl, h1, h2⟩

/-- One triplet pushed. -/
theorem pushLoop_triplet {e : Str} {eb : List Nat} {x : Nat} {g s : Str} {k : Nat} (he : Trip e eb)
    (hl : eb.length < 4) (hg : Trip g [x]) :
    pushLoop e k (g ++ s) =
      match checkTriplets (e ++ g) with
      | none => none
      | some (some (enc', res)) => some (enc', k + 3, res)
      | some none => pushLoop (e ++ g) (k + 3) s := by
  obtain ⟨h, l, rfl, hh, hl'⟩ := trip_single hg
  have h3 := trip_length he
  have e1 : e.length % 3 = 0 := by omega
  show pushLoop e k ('%' :: h :: l :: s) = _
  rw [pushLoop, if_pos e1, if_neg (by simp), if_neg (by omega), pushLoop]
  rw [if_neg (by simp; omega), if_neg (by simp [hh]), if_pos (by simp; omega), pushLoop]
  rw [if_neg (by simp; omega), if_neg (by simp [hl']), if_neg (by simp; omega)]
  simp only [List.append_assoc, List.cons_append, List.nil_append]
  rw [utf8Size_ascii (isHex_lt hh), utf8Size_ascii (isHex_lt hl'),
    utf8Size_ascii (c := '%') (by decide)]
  rw [show k + 1 + 1 + 1 = k + 3 by omega]
  cases checkTriplets (e ++ ['%', h, l]) with
  | none => rfl
  | some o =>
    cases o with
    | none => rfl
    | some o => rfl

/-- Triplets of an incomplete character pushed. -/
theorem pushLoop_part {e g s : Str} {eb bs : List Nat} {k : Nat} (he : Trip e eb) (hg : Trip g bs)
    (hl : eb.length + bs.length ≤ 4)
    (hp : ∀ p q, p ≠ [] → p ++ q = bs → utf8Check 4 0 (eb ++ p) = .err 0 none) :
    pushLoop e k (g ++ s) = pushLoop (e ++ g) (k + g.length) s := by
  induction bs generalizing e g eb k with
  | nil =>
    cases hg
    simp
  | cons x bs ih =>
    obtain ⟨a, b, rfl, ha, hb⟩ := trip_split (as := [x]) (bs := bs) hg
    simp at hl
    rw [List.append_assoc, pushLoop_triplet he (by omega) ha]
    have hc : checkTriplets (e ++ a) = some none := by
      unfold checkTriplets
      rw [trip_decoded (trip_append he ha), Option.bind_some, hp [x] bs (by simp) rfl]
      simp
    rw [hc]
    simp only
    rw [ih (trip_append he ha) hb (by simp; omega)]
    · rw [List.append_assoc, List.length_append, trip_length ha]
      simp only [List.length_cons, List.length_nil]
      congr 1
      omega
    · intro p q hp' e'
      have := hp (x :: p) q (by simp) (by simp [e'])
      simpa using this

/-- The triplets of a character pushed. -/
theorem pushLoop_char {g s : Str} {c : Char} (hg : Trip g (utf8 c)) :
    pushLoop [] 0 (g ++ s) = some ([], g.length, .decoded g) := by
  obtain ⟨bs, x, e⟩ : ∃ bs x, utf8 c = bs ++ [x] :=
    ⟨_, _, (List.dropLast_concat_getLast (utf8_ne_nil c)).symm⟩
  have hfull := utf8Check_full c
  rw [e] at hg hfull
  obtain ⟨a, b, rfl, ha, hb⟩ := trip_split hg
  have hlen : (utf8 c).length ≤ 4 := by
    unfold utf8; simp only; repeat' split
    all_goals simp
  rw [e] at hlen
  simp at hlen
  rw [List.append_assoc, pushLoop_part .nil ha (by simp; omega)]
  · simp only [List.nil_append, Nat.zero_add]
    rw [pushLoop_triplet ha (by omega) hb]
    have hc : checkTriplets (a ++ b) = some (some ([], .decoded (a ++ b))) := by
      unfold checkTriplets
      rw [trip_decoded (trip_append ha hb), Option.bind_some, hfull]
    rw [hc]
    simp only
    rw [List.length_append, trip_length hb]
    rfl
  · intro p q hp e'
    exact utf8Check_part (c := c) (bs' := q ++ [x]) (by simpa using hp) (by simp) (by simp [e, ← e'])

theorem pushLoop_cut {g s : Str} {bs bs' : List Nat} {c : Char} (hg : Trip g bs) (hb' : bs' ≠ [])
    (e : bs ++ bs' = utf8 c) : pushLoop [] 0 (g ++ s) = pushLoop g g.length s := by
  have hlen : (utf8 c).length ≤ 4 := by
    unfold utf8; simp only; repeat' split
    all_goals simp
  rw [← e] at hlen
  simp at hlen
  rw [pushLoop_part .nil hg (by simp; omega)]
  · simp
  · intro p q hp e'
    exact utf8Check_part (c := c) (bs' := q ++ bs') (by simpa using hp) (by simp [hb']) (by
      simp only [List.nil_append, ← List.append_assoc, e', e])

theorem pushLoop_bad {g s : Str} {x : Nat} (hg : Trip g [x]) (h : 0x80 ≤ x ∧ x < 0xC2 ∨ 0xF5 ≤ x) :
    pushLoop [] 0 (g ++ s) = some ([], g.length, .undecodable g) := by
  rw [pushLoop_triplet .nil (by simp) hg]
  have hl := trip_length hg
  have hc : checkTriplets ([] ++ g) = some (some ([], .undecodable g)) := by
    unfold checkTriplets
    rw [List.nil_append, trip_decoded hg, Option.bind_some, utf8Check_bad h]
    simp only [List.length_cons, List.length_nil] at hl
    simp only [ne_eq, not_true, if_false]
    rw [List.drop_of_length_le (by omega), List.take_of_length_le (by omega)]
  rw [hc]
  simp only
  rw [hl]
  rfl

theorem pushLoop_plain {e : Str} {k : Nat} {c : Char} {r : Str} (he : e.length % 3 = 0)
    (hc : c.toNat < 128) (hp : c ≠ '%') : pushLoop e k (c :: r) = some ([], k, .undecodable e) := by
  rw [pushLoop, if_pos he, if_pos hp, utf8Size_ascii hc]
  simp

/-! ## Encoding of runs -/

theorem characters_eq (S : Spec) (s : Str) : characters S [s] = s.flatMap (encR1 S) := by
  unfold characters percent_encode encWriteStr
  simp only [List.flatMap_cons, List.flatMap_nil, List.append_nil]
  congr 1
  funext c
  unfold encWriteChar encR1
  rw [isValidChar_eq]
  rfl

theorem unreserve_eq (S : Spec) (s : Str) : unreserve S [s] = encU S s := by
  unfold unreserve percent_encode encWriteStr encU
  simp only [List.flatMap_cons, List.flatMap_nil, List.append_nil]
  congr 1
  funext c
  unfold encWriteChar
  rw [isValidChar_eq]
  rfl

theorem encU_append (S : Spec) (a b : Str) : encU S (a ++ b) = encU S a ++ encU S b := by
  simp [encU]

theorem unreserve_flatten (S : Spec) (d : Disp) : unreserve S d = encU S d.flatten := by
  unfold unreserve
  rw [percent_encode_flatten]
  rw [← unreserve_eq]
  unfold unreserve
  rw [percent_encode_flatten]
  simp

theorem encR_ch {S : Spec} {c : Char} (h : c ≠ '%') (r : Str) : encR S (c :: r) = encR1 S c ++ encR S r := by
  cases r with
  | nil => simp [encR]
  | cons d r =>
    cases r with
    | nil => simp [encR]
    | cons e r => rw [encR, if_neg (by simp [h])]

theorem encR_chs {S : Spec} {a : Str} (h : '%' ∉ a) (r : Str) :
    encR S (a ++ r) = a.flatMap (encR1 S) ++ encR S r := by
  induction a with
  | nil => rfl
  | cons c a ih =>
    simp at h
    rw [List.cons_append, encR_ch (fun e => h.1 e.symm), ih h.2, List.flatMap_cons, List.append_assoc]

theorem encR_trip {S : Spec} {g : Str} {bs : List Nat} (h : Trip g bs) (r : Str) :
    encR S (g ++ r) = g ++ encR S r := by
  induction h with
  | nil => rfl
  | cons h1 h2 _ ih =>
    simp only [List.cons_append]
    rw [encR, if_pos ⟨rfl, h1, h2⟩, ih]

theorem encR1_pct (S : Spec) : encR1 S '%' = ['%', '2', '5'] := by
  cases S <;> decide +kernel

theorem encR_stray {S : Spec} {c : Char} (h : HEXDIG c = false) (r : Str) :
    encR S ('%' :: c :: r) = ['%', '2', '5'] ++ encR S (c :: r) := by
  cases r with
  | nil => simp [encR, encR1_pct]
  | cons d r => rw [encR, if_neg (by simp [h]), encR1_pct]

theorem encR_stray1 {S : Spec} {x c : Char} (h : HEXDIG c = false) (r : Str) :
    encR S ('%' :: x :: c :: r) = ['%', '2', '5'] ++ encR S (x :: c :: r) := by
  rw [encR, if_neg (by simp [h]), encR1_pct]

theorem encR1_hex {S : Spec} {h : Char} (hh : HEXDIG h = true) : encR1 S h = [h] := by
  rw [HEXDIG_eq] at hh
  have := anyC_hex S hh
  exact if_pos this

/-! ## The decomposition of tidy texts -/

variable {σ : Type}

/-- Text written for a fragment. -/
def emit (S : Spec) : Frag → Str
  | .char s => s
  | .noPct s => characters S [s]
  | .stray => ['%', '2', '5']
  | .invalid s => s

/-- The callback appends the text of every fragment (except possibly for an empty plain fragment). -/
def Emits (S : Spec) (f : Callback Str) : Prop :=
  ∀ out frag, frag ≠ .noPct [] → f out frag = some (out ++ emit S frag, false)

theorem emits_escape (S : Spec) : Emits S (escapeFrag S) := by
  intro out frag _
  cases frag <;> rfl

theorem emits_unbounded (S : Spec) : Emits S (unboundedFrag S) := by
  intro out frag h
  cases frag with
  | noPct s =>
    cases s with
    | nil => exact absurd rfl h
    | cons c s => rfl
  | _ => rfl

variable {S : Spec} {f : Callback Str}

theorem undec_complete (hf : Emits S f) {out g : Str} {bs : List Nat} (hg : Trip g bs) :
    output_as_undecodable f out g = some (out ++ g, false) := by
  have hl := trip_length hg
  unfold output_as_undecodable
  have e : g.length % 3 = 0 := by omega
  simp only [e, Nat.sub_zero, List.take_length, List.drop_length, List.length_nil]
  rw [hf _ _ (by simp)]
  rfl

theorem undec_stray (hf : Emits S f) {out : Str} :
    output_as_undecodable f out ['%'] = some (out ++ ['%', '2', '5'], false) := by
  unfold output_as_undecodable
  simp only [List.length_cons, List.length_nil]
  rw [hf _ _ (by simp)]
  simp [andThen, emit]
  rw [hf _ _ (by simp)]
  rfl

theorem undec_stray1 (hf : Emits S f) {out : Str} {h : Char} (hh : HEXDIG h = true) :
    output_as_undecodable f out ['%', h] = some (out ++ ['%', '2', '5'] ++ [h], false) := by
  unfold output_as_undecodable
  simp only [List.length_cons, List.length_nil]
  rw [hf _ _ (by simp)]
  simp [andThen, emit]
  rw [hf _ _ (by simp)]
  simp
  rw [hf _ _ (by simp)]
  simp [emit, characters_eq, encR1_hex hh]

/-- What is left in the buffer at the end. -/
def Left (g : Str) : Prop :=
  g = [] ∨ (∃ bs, Trip g bs) ∨ g = ['%'] ∨ ∃ h, HEXDIG h = true ∧ g = ['%', h]

/-- One round that consumes the triplets or the stray percent sign `g`. -/
theorem writeStep_consumed {dbg : Bool} {out out' enc' g s : Str} {res : Push} (hg : g ≠ [])
    (hb : blen g = g.length)
    (hp : pushLoop [] 0 (g ++ s) = some (enc', g.length, res))
    (hr : processPush f out res = some (out', false)) :
    writeStep dbg f out [] (g ++ s) = some ((out', false), enc', s) := by
  unfold writeStep
  rw [hp]
  have : g.length ≠ 0 := by
    cases g with
    | nil => exact absurd rfl hg
    | cons c g => simp
  simp only [Option.bind_some, if_neg this, hr, Bool.false_eq_true, if_false]
  rw [← hb, sliceFrom_append]
  rfl

theorem writeStep_plain (hf : Emits S f) {dbg : Bool} {out : Str} {c : Char} {r s : Str}
    (hc : c.toNat < 128) (hp : c ≠ '%') (hr : '%' ∉ r) (hs : s = [] ∨ ∃ s', s = '%' :: s') :
    writeStep dbg f out [] (c :: r ++ s) = some ((out ++ (c :: r).flatMap (encR1 S), false), [], s) := by
  unfold writeStep
  rw [List.cons_append, pushLoop_plain (by rfl) hc hp]
  simp only [Option.bind_some, if_true]
  have hfs : (find_split (c :: (r ++ s)) '%').getD (c :: (r ++ s), []) = (c :: r, s) := by
    rcases hs with rfl | ⟨s', rfl⟩
    · have : find_split (c :: (r ++ [])) '%' = none := by
        unfold find_split
        rw [findSplitP_none]
        intro x hx
        simp at hx
        simp
        rintro rfl
        rcases hx with hx | hx
        · exact hp hx.symm
        · exact hr hx
      rw [this]; simp
    · have : find_split (c :: (r ++ '%' :: s')) '%' = some (c :: r, '%' :: s') := by
        unfold find_split
        rw [findSplitP_some]
        refine ⟨'%', s', rfl, by simp, by simp, ?_⟩
        intro x hx
        simp at hx
        simp
        rintro rfl
        rcases hx with hx | hx
        · exact hp hx.symm
        · exact hr hx
      rw [this]; rfl
  simp only [flushRest, List.isEmpty_nil, if_true, Option.bind_some, plainPrefix,
    Bool.false_eq_true, if_false, hfs, List.isEmpty_cons, Bool.and_false]
  rw [hf _ _ (by simp)]
  simp [emit, characters_eq]

theorem writeStr_step {dbg : Bool} {fuel : Nat} {out out' enc enc' s s' : Str} (hs : s ≠ [])
    (h : writeStep dbg f out enc s = some ((out', false), enc', s')) :
    writeStr dbg f (fuel + 1) out enc s = writeStr dbg f fuel out' enc' s' := by
  rw [writeStr]
  have : s.isEmpty = false := by cases s; exact absurd rfl hs; rfl
  rw [this, h]
  rfl

theorem writeStr_tidy (hf : Emits S f) {dbg b : Bool} {s : Str} (h : Tidy b s) :
    ∀ (fuel : Nat) (out : Str), s.length < fuel →
      ∃ out' enc, writeStr dbg f fuel out [] s = some ((out', false), enc) ∧ Left enc ∧
        out ++ encR S s = out' ++ encR S enc ∧ (b = false → enc = []) := by
  have hend : ∀ (fuel : Nat) (out enc : Str), 0 < fuel →
      writeStr dbg f fuel out enc [] = some ((out, false), enc) := by
    intro fuel out enc hfu
    cases fuel with
    | zero => omega
    | succ n => rfl
  induction h with
  | nil =>
    intro fuel out hfu
    exact ⟨out, [], hend _ _ _ (by simpa using hfu), .inl rfl, rfl, fun _ => rfl⟩
  | @plain b c r s hc hp hr hs ht ih =>
    intro fuel out hfu
    obtain ⟨n, rfl⟩ : ∃ n, fuel = n + 1 := ⟨fuel - 1, by omega⟩
    rw [writeStr_step (by simp) (writeStep_plain hf hc hp hr hs)]
    obtain ⟨out', enc, h1, h2, h3, h4⟩ := ih n (out ++ (c :: r).flatMap (encR1 S)) (by
      simp at hfu; omega)
    refine ⟨out', enc, h1, h2, ?_, h4⟩
    rw [← h3, encR_chs (by simp; exact ⟨fun e => hp e.symm, hr⟩), List.append_assoc]
  | @char b c g s hg ht ih =>
    intro fuel out hfu
    have hne : g ≠ [] := by
      rintro rfl
      cases hu : utf8 c with
      | nil => exact utf8_ne_nil c hu
      | cons x y => rw [hu] at hg; cases hg
    obtain ⟨n, rfl⟩ : ∃ n, fuel = n + 1 := ⟨fuel - 1, by omega⟩
    rw [writeStr_step (by simp [hne]) (writeStep_consumed hne (trip_blen hg) (pushLoop_char hg)
      (hf _ _ (by simp)))]
    have := List.length_pos_iff.2 hne
    obtain ⟨out', enc, h1, h2, h3, h4⟩ := ih n (out ++ g) (by simp at hfu; omega)
    refine ⟨out', enc, h1, h2, ?_, h4⟩
    rw [← h3, encR_trip hg, List.append_assoc]
  | @bad b g x s hg hx ht ih =>
    intro fuel out hfu
    have hne : g ≠ [] := by rintro rfl; cases hg
    obtain ⟨n, rfl⟩ : ∃ n, fuel = n + 1 := ⟨fuel - 1, by omega⟩
    rw [writeStr_step (by simp [hne]) (writeStep_consumed hne (trip_blen hg) (pushLoop_bad hg hx)
      (undec_complete hf hg))]
    have := List.length_pos_iff.2 hne
    obtain ⟨out', enc, h1, h2, h3, h4⟩ := ih n (out ++ g) (by simp at hfu; omega)
    refine ⟨out', enc, h1, h2, ?_, h4⟩
    rw [← h3, encR_trip hg, List.append_assoc]
  | @cut b ch g bs bs' c r hg hb hb' e hc hp ht ih =>
    intro fuel out hfu
    have hne : g ≠ [] := by rintro rfl; cases hg; exact hb rfl
    obtain ⟨n, rfl⟩ : ∃ n, fuel = n + 1 := ⟨fuel - 1, by omega⟩
    have hl := trip_length hg
    have hpush : pushLoop [] 0 (g ++ c :: r) = some ([], g.length, .undecodable g) := by
      rw [pushLoop_cut hg hb' e, pushLoop_plain (by omega) hc hp]
    rw [writeStr_step (by simp [hne]) (writeStep_consumed hne (trip_blen hg) hpush
      (undec_complete hf hg))]
    have := List.length_pos_iff.2 hne
    obtain ⟨out', enc, h1, h2, h3, h4⟩ := ih n (out ++ g) (by simp at hfu ⊢; omega)
    refine ⟨out', enc, h1, h2, ?_, h4⟩
    rw [← h3, encR_trip hg, List.append_assoc]
  | @cutEnd ch g bs bs' hg hb hb' e =>
    intro fuel out hfu
    have hne : g ≠ [] := by rintro rfl; cases hg; exact hb rfl
    have := List.length_pos_iff.2 hne
    obtain ⟨n, rfl⟩ : ∃ n, fuel = n + 1 := ⟨fuel - 1, by omega⟩
    have hpush : pushLoop [] 0 (g ++ []) = some (g, g.length, .needMore) := by
      rw [pushLoop_cut hg hb' e, pushLoop]
    have hst := writeStep_consumed (dbg := dbg) (f := f) (out := out) (out' := out) hne
      (trip_blen hg) hpush rfl
    rw [List.append_nil] at hst
    rw [writeStr_step hne hst]
    exact ⟨out, g, hend _ _ _ (by omega), .inr (.inl ⟨bs, hg⟩), rfl, by simp⟩
  | @stray b c r hc hx ht ih =>
    intro fuel out hfu
    obtain ⟨n, rfl⟩ : ∃ n, fuel = n + 1 := ⟨fuel - 1, by omega⟩
    have hpush : pushLoop [] 0 (['%'] ++ c :: r) = some ([], ['%'].length, .undecodable ['%']) := by
      show pushLoop [] 0 ('%' :: c :: r) = _
      rw [HEXDIG_eq] at hx
      rw [pushLoop, if_pos (by rfl), if_neg (by simp), if_neg (by simp), pushLoop,
        if_neg (by simp), if_pos (by simp [hx]), utf8Size_ascii hc]
      rfl
    have hst := writeStep_consumed (dbg := dbg) (f := f) (out := out) (by simp) (by rfl) hpush
      (undec_stray hf)
    simp only [List.cons_append, List.nil_append] at hst
    rw [writeStr_step (by simp) hst]
    obtain ⟨out', enc, h1, h2, h3, h4⟩ := ih n (out ++ ['%', '2', '5']) (by simp at hfu ⊢; omega)
    refine ⟨out', enc, h1, h2, ?_, h4⟩
    rw [← h3, encR_stray hx, List.append_assoc]
  | @stray1 b h c r hh hc hx ht ih =>
    intro fuel out hfu
    obtain ⟨n, rfl⟩ : ∃ n, fuel = n + 1 := ⟨fuel - 1, by omega⟩
    have hh' : isHex h = true := by rw [← HEXDIG_eq]; exact hh
    have hx' : isHex c = false := by rw [← HEXDIG_eq]; exact hx
    have hpush : pushLoop [] 0 (['%', h] ++ c :: r) = some ([], ['%', h].length, .undecodable ['%', h]) := by
      show pushLoop [] 0 ('%' :: h :: c :: r) = _
      rw [pushLoop, if_pos (by rfl), if_neg (by simp), if_neg (by simp), pushLoop,
        if_neg (by simp), if_neg (by simp [hh']), if_pos (by simp), pushLoop, if_neg (by simp),
        if_pos (by simp [hx']), utf8Size_ascii hc, utf8Size_ascii (isHex_lt hh')]
      rfl
    have hst := writeStep_consumed (dbg := dbg) (f := f) (out := out) (by simp) (by
      simp [blen_cons, utf8Size_ascii (isHex_lt hh')]; rfl) hpush (undec_stray1 hf hh)
    simp only [List.cons_append, List.nil_append] at hst
    rw [writeStr_step (by simp) hst]
    obtain ⟨out', enc, h1, h2, h3, h4⟩ := ih n (out ++ ['%', '2', '5'] ++ [h]) (by
      simp at hfu ⊢; omega)
    refine ⟨out', enc, h1, h2, ?_, h4⟩
    have hne : h ≠ '%' := by rintro rfl; exact absurd hh (by decide)
    rw [← h3, encR_stray1 hx, encR_ch hne, encR1_hex hh]
    simp
  | strayEnd =>
    intro fuel out hfu
    obtain ⟨n, rfl⟩ : ∃ n, fuel = n + 1 := ⟨fuel - 1, by omega⟩
    simp at hfu
    have hst := writeStep_consumed (dbg := dbg) (f := f) (out := out) (out' := out) (g := ['%'])
      (s := []) (enc' := ['%']) (res := .needMore) (by simp) (by rfl) (by rfl) rfl
    rw [List.append_nil] at hst
    rw [writeStr_step (by simp) hst]
    exact ⟨out, _, hend _ _ _ (by omega), .inr (.inr (.inl rfl)), rfl, by simp⟩
  | @stray1End h hh =>
    intro fuel out hfu
    obtain ⟨n, rfl⟩ : ∃ n, fuel = n + 1 := ⟨fuel - 1, by omega⟩
    have hh' : isHex h = true := by rw [← HEXDIG_eq]; exact hh
    simp at hfu
    have hpush : pushLoop [] 0 (['%', h] ++ []) = some (['%', h], ['%', h].length, .needMore) := by
      show pushLoop [] 0 ('%' :: h :: []) = _
      rw [pushLoop, if_pos (by rfl), if_neg (by simp), if_neg (by simp), pushLoop,
        if_neg (by simp), if_neg (by simp [hh']), if_pos (by simp), pushLoop, 
        utf8Size_ascii (isHex_lt hh')]
      rfl
    have hst := writeStep_consumed (dbg := dbg) (f := f) (out := out) (out' := out) (by simp) (by
      simp [blen_cons, utf8Size_ascii (isHex_lt hh')]; rfl) hpush rfl
    rw [List.append_nil] at hst
    rw [writeStr_step (by simp) hst]
    exact ⟨out, _, hend _ _ _ (by omega), .inr (.inr (.inr ⟨h, hh, rfl⟩)), rfl, by simp⟩

theorem flush_left (hf : Emits S f) {enc : Str} (h : Left enc) (hne : enc ≠ []) (out : Str) :
    output_as_undecodable f out enc = some (out ++ encR S enc, false) := by
  rcases h with rfl | ⟨bs, hg⟩ | rfl | ⟨h, hh, rfl⟩
  · exact absurd rfl hne
  · have := encR_trip (S := S) hg []
    rw [List.append_nil] at this
    rw [undec_complete hf hg, this]
    simp [encR]
  · rw [undec_stray hf, encR, encR1_pct]
  · rw [undec_stray1 hf hh, encR, encR1_pct, encR1_hex hh]
    simp

theorem encR_tidy_append {s : Str} (h : Tidy false s) (r : Str) :
    encR S (s ++ r) = encR S s ++ encR S r := by
  generalize hb : false = b at h
  induction h with
  | nil => simp [encR]
  | @plain b c r' s hc hp hr hs ht ih =>
    have hn : '%' ∉ (c :: r' : Str) := by simp; exact ⟨fun e => hp e.symm, hr⟩
    rw [List.append_assoc, encR_chs hn, encR_chs hn, ih hb, List.append_assoc]
  | char hg ht ih => rw [List.append_assoc, encR_trip hg, encR_trip hg, ih hb, List.append_assoc]
  | bad hg hx ht ih => rw [List.append_assoc, encR_trip hg, encR_trip hg, ih hb, List.append_assoc]
  | cut hg hbs hbs' e hc hp ht ih =>
    rw [List.append_assoc, encR_trip hg, encR_trip hg, ih hb, List.append_assoc]
  | cutEnd => cases hb
  | stray hc hx ht ih =>
    simp only [List.cons_append]
    rw [encR_stray hx, encR_stray hx, ← List.cons_append, ih hb, List.append_assoc]
  | @stray1 b h c r' hh hc hx ht ih =>
    simp only [List.cons_append]
    have hne : h ≠ '%' := by rintro rfl; exact absurd hh (by decide)
    rw [encR_stray1 hx, encR_stray1 hx, encR_ch hne, encR_ch hne, ← List.cons_append, ih hb]
    simp
  | strayEnd => cases hb
  | stray1End => cases hb

theorem writeAll_tidy (hf : Emits S f) {dbg : Bool} {d : Disp} (h : TidyAll d) (out : Str) :
    ∃ out' enc, writeAll dbg f out [] d = some ((out', false), enc) ∧ Left enc ∧
      out ++ encR S d.flatten = out' ++ encR S enc := by
  induction d generalizing out with
  | nil => exact ⟨out, [], rfl, .inl rfl, rfl⟩
  | cons s r ih =>
    cases r with
    | nil =>
      obtain ⟨out', enc, h1, h2, h3, _⟩ := writeStr_tidy hf (dbg := dbg) h (2 * s.length + 2) out
        (by omega)
      refine ⟨out', enc, ?_, h2, by simpa using h3⟩
      rw [writeAll, h1]
      rfl
    | cons s2 r =>
      obtain ⟨hs, hr⟩ : Tidy false s ∧ TidyAll (s2 :: r) := h
      obtain ⟨out1, enc1, h1, h2, h3, h4⟩ := writeStr_tidy hf (dbg := dbg) hs (2 * s.length + 2) out
        (by omega)
      obtain rfl := h4 rfl
      obtain ⟨out', enc, g1, g2, g3⟩ := ih hr out1
      refine ⟨out', enc, ?_, g2, ?_⟩
      · rw [writeAll, h1]
        exact g1
      · rw [List.flatten_cons, encR_tidy_append hs, ← List.append_assoc, h3, ← g3]
        simp [encR]

/-- The whole decomposition of a tidy value. -/
theorem process_tidy (hf : Emits S f) {dbg : Bool} {d : Disp} (h : TidyAll d) (out : Str) :
    process_percent_encoded_best_effort dbg f out d = some (out ++ encR S d.flatten) := by
  obtain ⟨out', enc, h1, h2, h3⟩ := writeAll_tidy hf (dbg := dbg) h out
  unfold process_percent_encoded_best_effort
  rw [h1]
  simp only [Option.bind_some, Bool.false_eq_true, if_false]
  by_cases he : enc = []
  · subst he
    simp [encR] at h3
    rw [h3]; rfl
  · have : enc.isEmpty = false := by cases enc; exact absurd rfl he; rfl
    rw [this, flush_left hf h2 he, h3]
    rfl

end Verif.MaybePct
