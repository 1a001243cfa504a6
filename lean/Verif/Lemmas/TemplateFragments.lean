import Verif.Spec.TemplateFragments
import Verif.Lemmas.MaybePct

/-! # The exact decomposition of possibly percent-encoded text -/

namespace Verif.MaybePct

open Verif.Rfc Verif.Rfc6570 Verif.Tpl

/-! ## Byte sequences -/

theorem complete1 {a : Nat} (h : a < 0x80) : Complete [a] := by
  have hv : a.isValidChar := by unfold Nat.isValidChar; omega
  refine ⟨Char.ofNat a, ?_⟩
  rw [utf8_ascii (by rw [utf8_ofNat hv]; omega), utf8_ofNat hv]

theorem complete2 {a b : Nat} (h : 0xC2 ≤ a ∧ a < 0xE0) (hb : isCont b = true) : Complete [a, b] := by
  simp [isCont] at hb
  have hv : ((a - 0xC0) * 64 + (b - 0x80)).isValidChar := by unfold Nat.isValidChar; omega
  refine ⟨Char.ofNat ((a - 0xC0) * 64 + (b - 0x80)), ?_⟩
  unfold utf8
  simp only [utf8_ofNat hv]
  rw [if_neg (by omega), if_pos (by omega)]
  simp only [List.cons.injEq, and_true]
  omega

theorem complete3 {a b c : Nat} (h : second3 a b = true) (hc : isCont c = true) : Complete [a, b, c] := by
  simp [isCont] at hc
  simp [second3, isCont] at h
  have hv : ((a - 0xE0) * 4096 + (b - 0x80) * 64 + (c - 0x80)).isValidChar := by
    unfold Nat.isValidChar; omega
  refine ⟨Char.ofNat ((a - 0xE0) * 4096 + (b - 0x80) * 64 + (c - 0x80)), ?_⟩
  unfold utf8
  simp only [utf8_ofNat hv]
  rw [if_neg (by omega), if_neg (by omega), if_pos (by omega)]
  simp only [List.cons.injEq, and_true]
  omega

theorem complete4 {a b c d : Nat} (h : second4 a b = true) (hc : isCont c = true)
    (hd : isCont d = true) : Complete [a, b, c, d] := by
  simp [isCont] at hc hd
  simp [second4, isCont] at h
  have hv : ((a - 0xF0) * 262144 + (b - 0x80) * 4096 + (c - 0x80) * 64 + (d - 0x80)).isValidChar := by
    unfold Nat.isValidChar; omega
  refine ⟨Char.ofNat ((a - 0xF0) * 262144 + (b - 0x80) * 4096 + (c - 0x80) * 64 + (d - 0x80)), ?_⟩
  unfold utf8
  simp only [utf8_ofNat hv]
  rw [if_neg (by omega), if_neg (by omega), if_neg (by omega)]
  simp only [List.cons.injEq, and_true]
  omega

theorem cont80 : isCont 0x80 = true := by decide

theorem Incomplete.of {a b : List Nat} (h : Complete (a ++ b)) (ha : a ≠ []) (hb : b ≠ []) :
    Incomplete a := by
  obtain ⟨c, h⟩ := h
  exact ⟨ha, b, c, hb, h⟩

theorem incomplete3 {a b c : Nat} (h : second4 a b = true) (hc : isCont c = true) :
    Incomplete [a, b, c] :=
  Incomplete.of (b := [0x80]) (complete4 h hc cont80) (by simp) (by simp)

theorem incomplete2 {a b : Nat} (h : second3 a b = true ∨ second4 a b = true) : Incomplete [a, b] := by
  rcases h with h | h
  · exact Incomplete.of (b := [0x80]) (complete3 h cont80) (by simp) (by simp)
  · exact Incomplete.of (b := [0x80, 0x80]) (complete4 h cont80 cont80) (by simp) (by simp)

theorem incomplete1 {a : Nat} (h : 0xC2 ≤ a ∧ a < 0xF5) : Incomplete [a] := by
  by_cases h1 : a < 0xE0
  · exact Incomplete.of (b := [0x80]) (complete2 ⟨h.1, h1⟩ cont80) (by simp) (by simp)
  · by_cases h2 : a < 0xF0
    · by_cases h3 : a = 0xE0
      · exact Incomplete.of (b := [0xA0, 0x80]) (complete3 (by subst h3; decide) cont80) (by simp)
          (by simp)
      · exact Incomplete.of (b := [0x80, 0x80]) (complete3 (by simp [second3, isCont]; omega) cont80)
          (by simp) (by simp)
    · by_cases h3 : a = 0xF0
      · exact Incomplete.of (b := [0x90, 0x80, 0x80]) (complete4 (by subst h3; decide) cont80 cont80)
          (by simp) (by simp)
      · exact Incomplete.of (b := [0x80, 0x80, 0x80]) (complete4 (by simp [second4, isCont]; omega)
          cont80 cont80) (by simp) (by simp)

theorem check_incomplete {bs : List Nat} (h : Incomplete bs) : utf8Check 4 0 bs = .err 0 none := by
  obtain ⟨h1, bs', c, h2, h3⟩ := h
  exact utf8Check_part h1 h2 h3

theorem check_complete {bs : List Nat} (h : Complete bs) : utf8Check 4 0 bs = .valid := by
  obtain ⟨c, rfl⟩ := h
  exact utf8Check_full c

/-- The model of `core::str::from_utf8` on a single byte that starts no character. -/
theorem broken1 {a : Nat} (h : Broken [a]) : 0x80 ≤ a ∧ a < 0xC2 ∨ 0xF5 ≤ a := by
  have h1 : ¬ a < 0x80 := fun e => h.2 (complete1 e)
  have h2 : ¬ (0xC2 ≤ a ∧ a < 0xF5) := fun e => h.1 (incomplete1 e)
  omega

theorem incomplete_length {bs : List Nat} (h : Incomplete bs) : bs.length ≤ 3 := by
  obtain ⟨_, bs', c, h2, h3⟩ := h
  have hlen : (utf8 c).length ≤ 4 := by
    unfold utf8; simp only; repeat' split
    all_goals simp
  rw [← h3, List.length_append] at hlen
  have := List.length_pos_iff.2 h2
  omega

theorem incomplete_ge {a : Nat} {r : List Nat} (h : Incomplete (a :: r)) : 0xC2 ≤ a ∧ a < 0xF5 := by
  obtain ⟨_, bs', c, h2, h3⟩ := h
  have h1 := char_lt c
  unfold utf8 at h3
  simp only [List.cons_append] at h3
  split at h3
  · simp [h2] at h3
  · split at h3
    · simp at h3; omega
    · split at h3
      · simp at h3; omega
      · simp at h3; omega

theorem utf8Check_ge {fuel u v : Nat} {bs : List Nat} {l : Option Nat}
    (h : utf8Check fuel u bs = .err v l) : u ≤ v := by
  induction fuel generalizing u bs with
  | zero =>
    cases bs with
    | nil => simp [utf8Check] at h
    | cons b r => simp [utf8Check] at h; omega
  | succ n ih =>
    cases bs with
    | nil => simp [utf8Check] at h
    | cons b r =>
      rw [utf8Check] at h
      split at h
      · simp at h; omega
      · have := ih h; omega

/-- The error of `core::str::from_utf8` when the last byte does not go on the character. -/
theorem check_broken {p : List Nat} {b : Nat} (hp : Incomplete p) (h : Broken (p ++ [b])) :
    utf8Check 4 0 (p ++ [b]) = .err 0 (some p.length) := by
  have hl := incomplete_length hp
  match p, hp, h, hl with
  | [], hp, _, _ => exact absurd rfl hp.1
  | [a], hp, h, _ =>
    have ha := incomplete_ge hp
    have h1 : ¬ (a < 0x80) := by omega
    simp only [List.cons_append, List.nil_append] at h ⊢
    simp only [utf8Check, utf8Step]
    rw [if_neg h1]
    by_cases h2 : a < 0xE0
    · rw [if_pos (by simp; omega), if_neg (fun e => h.2 (complete2 ⟨ha.1, h2⟩ e))]
      rfl
    · rw [if_neg (by simp; omega)]
      by_cases h3 : a < 0xF0
      · rw [if_pos (by simp; omega), if_neg (fun e => h.1 (incomplete2 (.inl e)))]
        rfl
      · rw [if_neg (by simp; omega), if_pos (by simp; omega),
          if_neg (fun e => h.1 (incomplete2 (.inr e)))]
        rfl
  | [a, a1], hp, h, _ =>
    have ha := incomplete_ge hp
    have hc := check_incomplete hp
    have h1 : ¬ (a < 0x80) := by omega
    simp only [List.cons_append, List.nil_append] at h ⊢
    simp only [utf8Check, utf8Step] at hc ⊢
    rw [if_neg h1] at hc ⊢
    by_cases h2 : a < 0xE0
    · rw [if_pos (by simp; omega)] at hc
      exfalso
      by_cases h4 : isCont a1 = true
      · rw [if_pos h4] at hc; simp [utf8Check] at hc
      · rw [if_neg h4] at hc; simp at hc
    · rw [if_neg (by simp; omega)] at hc ⊢
      by_cases h3 : a < 0xF0
      · rw [if_pos (by simp; omega)] at hc ⊢
        by_cases h4 : second3 a a1 = true
        · rw [if_pos h4, if_neg (fun e => h.2 (complete3 h4 e))]
          rfl
        · rw [if_neg h4] at hc; simp at hc
      · rw [if_neg (by simp; omega), if_pos (by simp; omega)] at hc ⊢
        by_cases h4 : second4 a a1 = true
        · rw [if_pos h4, if_neg (fun e => h.1 (incomplete3 h4 e))]
          rfl
        · rw [if_neg h4] at hc; simp at hc
  | [a, a1, a2], hp, h, _ =>
    have ha := incomplete_ge hp
    have hc := check_incomplete hp
    have h1 : ¬ (a < 0x80) := by omega
    simp only [List.cons_append, List.nil_append] at h ⊢
    simp only [utf8Check, utf8Step] at hc ⊢
    rw [if_neg h1] at hc ⊢
    by_cases h2 : a < 0xE0
    · rw [if_pos (by simp; omega)] at hc
      exfalso
      by_cases h4 : isCont a1 = true
      · rw [if_pos h4] at hc
        simp at hc
        have := utf8Check_ge hc
        omega
      · rw [if_neg h4] at hc; simp at hc
    · rw [if_neg (by simp; omega)] at hc ⊢
      by_cases h3 : a < 0xF0
      · rw [if_pos (by simp; omega)] at hc
        exfalso
        by_cases h4 : second3 a a1 = true
        · rw [if_pos h4] at hc
          by_cases h5 : isCont a2 = true
          · rw [if_pos h5] at hc; simp [utf8Check] at hc
          · rw [if_neg h5] at hc; simp at hc
        · rw [if_neg h4] at hc; simp at hc
      · rw [if_neg (by simp; omega), if_pos (by simp; omega)] at hc ⊢
        by_cases h4 : second4 a a1 = true
        · rw [if_pos h4] at hc ⊢
          by_cases h5 : isCont a2 = true
          · rw [if_pos h5, if_neg (fun e => h.2 (complete4 h4 h5 e))]
            rfl
          · rw [if_neg h5] at hc; simp at hc
        · rw [if_neg h4] at hc; simp at hc

theorem check_bad2 {a b : Nat} (h : Broken [a]) : utf8Check 4 0 [a, b] = .err 0 (some 1) := by
  have := broken1 h
  simp only [utf8Check, utf8Step]
  rw [if_neg (by omega), if_neg (by simp; omega), if_neg (by simp; omega), if_neg (by simp; omega)]

theorem check_ascii2 {a b : Nat} (ha : a < 128) (hb : b < 128) : utf8Check 4 0 [a, b] = .valid := by
  have ha' : a < 0x80 := ha
  have hb' : b < 0x80 := hb
  simp [utf8Check, utf8Step, ha', hb']

theorem check_ascii_panic {a b : Nat} (ha : a < 128) (hb : 128 ≤ b) :
    ∃ l, utf8Check 4 0 [a, b] = .err 1 l := by
  have ha' : a < 0x80 := ha
  have hb' : ¬ b < 0x80 := by omega
  simp only [utf8Check, utf8Step, ha', hb', if_true, if_false]
  split
  · next e => split at e
              · exact ⟨_, rfl⟩
              · split at e
                · exact ⟨_, rfl⟩
                · split at e
                  · exact ⟨_, rfl⟩
                  · exact ⟨_, rfl⟩
  · next e => 
    split at e
    · cases e
    · split at e
      · cases e
      · split at e <;> cases e

/-! ## `push_encoded` -/

theorem pushLoop_shift (e : Str) (n m : Nat) (s : Str) :
    pushLoop e (n + m) s = (pushLoop e n s).map fun o => (o.1, o.2.1 + m, o.2.2) := by
  induction s generalizing e n with
  | nil => simp [pushLoop]
  | cons c r ih =>
    have hs : 0 < c.utf8Size := c.utf8Size_pos
    have e1 : n + m + c.utf8Size - 1 = n + c.utf8Size - 1 + m := by omega
    have e2 : n + m + c.utf8Size = n + c.utf8Size + m := by omega
    rw [pushLoop, pushLoop]
    simp only [e1, e2, ih]
    repeat' split
    all_goals first | rfl | (simp; done) | (simp; omega)

/-- The beginning of a triplet pushed. -/
theorem pushLoop_tail {e t : Str} {n : Nat} {s : Str} (he : e.length % 3 = 0) (hl : e.length ≤ 9)
    (ht : Tail t) : pushLoop e n (t ++ s) = pushLoop (e ++ t) (n + t.length) s := by
  rcases ht with rfl | rfl | ⟨h, hh, rfl⟩
  · simp
  · show pushLoop e n ('%' :: s) = _
    rw [pushLoop, if_pos he, if_neg (by simp), if_neg (by omega), utf8Size_ascii (by decide)]
    rfl
  · rw [HEXDIG_eq] at hh
    show pushLoop e n ('%' :: h :: s) = _
    rw [pushLoop, if_pos he, if_neg (by simp), if_neg (by omega), pushLoop, if_neg (by simp; omega),
      if_neg (by simp [hh]), if_pos (by simp; omega), utf8Size_ascii (by decide),
      utf8Size_ascii (isHex_lt hh)]
    simp

theorem tail_length {t : Str} (h : Tail t) : t.length ≤ 2 := by
  rcases h with rfl | rfl | ⟨h, _, rfl⟩ <;> simp

theorem tail_blen {t : Str} (h : Tail t) : blen t = t.length := by
  rcases h with rfl | rfl | ⟨h, hh, rfl⟩
  · rfl
  · rfl
  · rw [HEXDIG_eq] at hh
    simp [blen_cons, utf8Size_ascii (isHex_lt hh), utf8Size_ascii (c := '%') (by decide)]

/-- A result from the beginning of the triplet, as a result from the rest of it. -/
theorem pushLoop_resume {k t u : Str} {enc : Str} {m : Nat} {res : Push} (hk : k.length % 3 = 0)
    (hl : k.length ≤ 9) (ht : Tail t) (h : pushLoop k 0 (t ++ u) = some (enc, t.length + m, res)) :
    pushLoop (k ++ t) 0 u = some (enc, m, res) := by
  rw [pushLoop_tail hk hl ht, pushLoop_shift] at h
  cases hp : pushLoop (k ++ t) 0 u with
  | none => rw [hp] at h; cases h
  | some o =>
    rw [hp] at h
    simp at h
    obtain ⟨h1, h2, h3⟩ := h
    have : o.2.1 = m := by omega
    rw [← h1, ← this, ← h3]

theorem pushLoop_resume_none {k t u : Str} (hk : k.length % 3 = 0)
    (hl : k.length ≤ 9) (ht : Tail t) (h : pushLoop k 0 (t ++ u) = none) :
    pushLoop (k ++ t) 0 u = none := by
  rw [pushLoop_tail hk hl ht, pushLoop_shift] at h
  simpa using h

/-- A character that stops. -/
theorem pushLoop_stops {e t : Str} {n : Nat} {c : Char} {r : Str} (he : e.length % 3 = 0) (ht : Tail t)
    (hc : Stops t c) : pushLoop (e ++ t) n (c :: r) = some ([], n + c.utf8Size - 1, .undecodable (e ++ t)) := by
  unfold Stops at hc
  rcases ht with rfl | rfl | ⟨h, hh, rfl⟩
  · simp at hc
    rw [List.append_nil, pushLoop, if_pos he, if_pos hc]
  · simp [HEXDIG_eq] at hc
    rw [pushLoop, if_neg (by simp; omega), if_pos (by simp [hc])]
  · simp [HEXDIG_eq] at hc
    rw [pushLoop, if_neg (by simp; omega), if_pos (by simp [hc])]

theorem stops_wide {t : Str} {c : Char} (hc : 128 ≤ c.toNat) : Stops t c := by
  unfold Stops
  split
  · rintro rfl; exact absurd hc (by decide)
  · rw [HEXDIG_eq]
    cases h : isHex c with
    | false => rfl
    | true => have := isHex_lt h; omega

/-- What may be held back. -/
def Hold (kb : List Nat) : Prop := kb = [] ∨ (∃ y, kb = [y]) ∨ Incomplete kb

theorem Hold.length {kb : List Nat} (h : Hold kb) : kb.length ≤ 3 := by
  rcases h with rfl | ⟨y, rfl⟩ | h
  · simp
  · simp
  · exact incomplete_length h

theorem incomplete_prefix {a b : List Nat} (h : Incomplete (a ++ b)) (ha : a ≠ []) : Incomplete a := by
  obtain ⟨_, bs', c, h2, h3⟩ := h
  exact ⟨ha, b ++ bs', c, by simp [h2], by rw [← List.append_assoc]; exact h3⟩

theorem hold_append {kb ys : List Nat} (hk : Hold kb) (h : ys = [] ∨ Incomplete (kb ++ ys)) :
    Hold (kb ++ ys) := by
  rcases h with rfl | h
  · simpa using hk
  · exact .inr (.inr h)

theorem pushLoop_more {k g s : Str} {kb ys : List Nat} {n : Nat} (hk : Trip k kb) (hg : Trip g ys)
    (h : ys = [] ∨ Incomplete (kb ++ ys)) :
    pushLoop k n (g ++ s) = pushLoop (k ++ g) (n + g.length) s := by
  rcases h with rfl | h
  · cases hg; simp
  · have hl := incomplete_length h
    refine pushLoop_part hk hg (by simp at hl; omega) ?_
    intro p q hp e
    subst e
    refine check_incomplete (incomplete_prefix (b := q) (by simpa using h) (by simp [hp]))

/-- The triplets stop. -/
theorem pushLoop_cut' {k g t : Str} {kb ys : List Nat} {c : Char} {r : Str} (hk : Trip k kb)
    (hh : Hold kb) (hg : Trip g ys) (ht : Tail t) (h : ys = [] ∨ Incomplete (kb ++ ys)) (hc : Stops t c) :
    pushLoop k 0 (g ++ t ++ c :: r) =
      some ([], g.length + t.length + (c.utf8Size - 1), .undecodable (k ++ g ++ t)) := by
  have hl := (hold_append hh h).length
  have hs : 0 < c.utf8Size := c.utf8Size_pos
  have h3 := trip_length (trip_append hk hg)
  rw [List.append_assoc, pushLoop_more hk hg h, pushLoop_tail (by omega) (by omega) ht,
    pushLoop_stops (by omega) ht hc]
  congr 3
  omega

theorem pushLoop_stay {k g t : Str} {kb ys : List Nat} (hk : Trip k kb)
    (hh : Hold kb) (hg : Trip g ys) (ht : Tail t) (h : ys = [] ∨ Incomplete (kb ++ ys)) :
    pushLoop k 0 (g ++ t) = some (k ++ g ++ t, g.length + t.length, .needMore) := by
  have hl := (hold_append hh h).length
  have h3 := trip_length (trip_append hk hg)
  have := pushLoop_tail (n := 0 + g.length) (s := []) (by omega : (k ++ g).length % 3 = 0) (by omega) ht
  rw [List.append_nil] at this
  rw [pushLoop_more hk hg h, this, pushLoop]
  simp

/-- The triplets up to and including a last one. -/
theorem pushLoop_last {k g z s : Str} {kb ys : List Nat} {b : Nat} (hk : Trip k kb)
    (hh : Hold kb) (hg : Trip g ys) (hz : Trip z [b]) (h : ys = [] ∨ Incomplete (kb ++ ys))
    {o : Option (Str × Push)} (ho : checkTriplets (k ++ g ++ z) = o.map some) :
    pushLoop k 0 (g ++ z ++ s) = o.map fun o => (o.1, g.length + z.length, o.2) := by
  have hl := (hold_append hh h).length
  rw [List.append_assoc, pushLoop_more hk hg h, pushLoop_triplet (trip_append hk hg) (by omega) hz, ho]
  have := trip_length hz
  simp only [List.length_cons, List.length_nil] at this
  cases o with
  | none => rfl
  | some o => simp [this]

/-! ## Runs of the callback -/

variable {σ : Type}

/-- The callback called with the fragments in order until it stops, then `K`. -/
def runK (f : Callback σ) : σ → List Frag → (σ → Option σ) → Option σ
  | st, [], K => K st
  | st, a :: fs, K => (f st a).bind fun o => if o.2 then some o.1 else runK f o.1 fs K

theorem runK_append (f : Callback σ) (st : σ) (a b : List Frag) (K : σ → Option σ) :
    runK f st (a ++ b) K = runK f st a fun st => runK f st b K := by
  induction a generalizing st with
  | nil => rfl
  | cons x a ih =>
    simp only [List.cons_append, runK]
    congr 1
    funext o
    split
    · rfl
    · exact ih _

/-- The end of the run. -/
def fin_ (p : Bool) (st : σ) : Option σ := if p then none else some st

theorem undec_run (f : Callback σ) (st : σ) {g t : Str} {bs : List Nat} (hg : Trip g bs) (ht : Tail t)
    (K : σ → Option σ) :
    ((output_as_undecodable f st (g ++ t)).bind fun o => if o.2 then some o.1 else K o.1) =
      runK f st (flushed g t) K := by
  have hl := trip_length hg
  have ht' := tail_length ht
  unfold output_as_undecodable
  have e1 : (g ++ t).length - (g ++ t).length % 3 = g.length := by simp; omega
  simp only [e1]
  rw [List.take_left, List.drop_left]
  unfold flushed
  rcases ht with rfl | rfl | ⟨h, hh, rfl⟩
  · simp only [List.length_nil, if_true, runK]
    cases f st (.invalid g) <;> rfl
  · simp only [List.length_cons, List.length_nil, runK]
    cases f st (.invalid g) with
    | none => rfl
    | some o =>
      simp only [Option.bind_some]
      rw [if_neg (by omega)]
      obtain ⟨st', b⟩ := o
      cases b with
      | true => simp [andThen]
      | false =>
        simp only [andThen, Bool.false_eq_true, if_false]
        cases f st' .stray with
        | none => rfl
        | some o => simp
  · simp only [List.length_cons, List.length_nil, runK, List.drop_succ_cons, List.drop_zero]
    cases f st (.invalid g) with
    | none => rfl
    | some o =>
      simp only [Option.bind_some]
      rw [if_neg (by omega)]
      obtain ⟨st', b⟩ := o
      cases b with
      | true => simp [andThen]
      | false =>
        simp only [andThen, Bool.false_eq_true, if_false]
        cases f st' .stray with
        | none => rfl
        | some o =>
          obtain ⟨st'', b⟩ := o
          simp only [Option.bind_some]
          rw [if_neg (by omega)]
          cases b with
          | true => simp
          | false =>
            simp only [Bool.false_eq_true, if_false]

/-! ## `write_str` -/

/-- The end of `process_percent_encoded_best_effort`. -/
def finish (f : Callback σ) (o : (σ × Bool) × Str) : Option σ :=
  if o.1.2 then some o.1.1
  else if o.2.isEmpty then some o.1.1
  else (output_as_undecodable f o.1.1 o.2).map Prod.fst

/-- The pieces `d` from a given content of the buffer. -/
def runPieces (dbg : Bool) (f : Callback σ) (st : σ) (enc : Str) (d : List Str) : Option σ :=
  (writeAll dbg f st enc d).bind (finish f)

/-- The rest of a piece, and then the pieces `d`. -/
def runRest (dbg : Bool) (f : Callback σ) (fuel : Nat) (st : σ) (enc s : Str) (d : List Str) : Option σ :=
  (writeStr dbg f fuel st enc s).bind fun o => if o.1.2 then some o.1.1 else runPieces dbg f o.1.1 o.2 d

theorem runPieces_cons (dbg : Bool) (f : Callback σ) (st : σ) (enc s : Str) (d : List Str) :
    runPieces dbg f st enc (s :: d) = runRest dbg f (2 * s.length + 2) st enc s d := by
  unfold runPieces runRest
  rw [writeAll]
  cases writeStr dbg f (2 * s.length + 2) st enc s with
  | none => rfl
  | some o =>
    obtain ⟨⟨st', b⟩, e⟩ := o
    cases b with
    | true => simp [finish]
    | false => simp [runPieces]

theorem runRest_nil (dbg : Bool) (f : Callback σ) (fuel : Nat) (st : σ) (enc : Str) (d : List Str) :
    runRest dbg f (fuel + 1) st enc [] d = runPieces dbg f st enc d := by
  simp [runRest, writeStr]

theorem runRest_step (dbg : Bool) (f : Callback σ) (fuel : Nat) (st : σ) (enc s : Str) (d : List Str)
    (hs : s ≠ []) :
    runRest dbg f (fuel + 1) st enc s d = (writeStep dbg f st enc s).bind fun o =>
      if o.1.2 then some o.1.1 else runRest dbg f fuel o.1.1 o.2.1 o.2.2 d := by
  unfold runRest
  rw [writeStr]
  have : s.isEmpty = false := by cases s; exact absurd rfl hs; rfl
  rw [this]
  simp only [Bool.false_eq_true, if_false]
  cases writeStep dbg f st enc s with
  | none => rfl
  | some o =>
    obtain ⟨⟨st', b⟩, e⟩ := o
    cases b with
    | true => simp
    | false => simp

/-- A round that consumes `x`. -/
theorem runRest_consumed {dbg : Bool} {f : Callback σ} {fuel : Nat} {st : σ} {enc enc' x s : Str}
    {d : List Str} {res : Push} (hx : x ≠ []) (hp : pushLoop enc 0 (x ++ s) = some (enc', blen x, res)) :
    runRest dbg f (fuel + 1) st enc (x ++ s) d = (processPush f st res).bind fun o =>
      if o.2 then some o.1 else runRest dbg f fuel o.1 enc' s d := by
  rw [runRest_step _ _ _ _ _ _ _ (by simp [hx])]
  unfold writeStep
  rw [hp]
  have : blen x ≠ 0 := by
    cases x with
    | nil => exact absurd rfl hx
    | cons c x => have := c.utf8Size_pos; simp [blen_cons]; omega
  simp only [Option.bind_some, if_neg this]
  rw [sliceFrom_append]
  cases processPush f st res with
  | none => rfl
  | some o =>
    obtain ⟨st', b⟩ := o
    cases b <;> simp

theorem utf8Size_wide {c : Char} (h : 128 ≤ c.toNat) : 2 ≤ c.utf8Size := by
  rw [utf8Size_eq]
  unfold utf8
  simp only
  rw [if_neg (by omega)]
  repeat' split
  all_goals simp

theorem sliceFrom_inside {x r : Str} {c : Char} {n : Nat} (h0 : 0 < n) (h : n < c.utf8Size) :
    sliceFrom (x ++ c :: r) (blen x + n) = none := by
  unfold sliceFrom
  rw [Option.map_eq_none_iff]
  induction x with
  | nil =>
    obtain ⟨m, rfl⟩ : ∃ m, n = m + 1 := ⟨n - 1, by omega⟩
    simp only [List.nil_append, blen_nil, Nat.zero_add]
    rw [splitAtB, if_neg (by omega)]
  | cons a x ih =>
    have := a.utf8Size_pos
    simp only [List.cons_append, blen_cons]
    obtain ⟨m, hm⟩ : ∃ m, a.utf8Size + blen x + n = m + 1 := ⟨a.utf8Size + blen x + n - 1, by omega⟩
    rw [hm, splitAtB, if_pos (by omega), show m + 1 - a.utf8Size = blen x + n by omega, ih]
    rfl

/-- A round that ends inside a character. -/
theorem runRest_inside {dbg : Bool} {f : Callback σ} {fuel : Nat} {st : σ} {enc enc' x r : Str} {c : Char}
    {d : List Str} {res : Push} (hc : 128 ≤ c.toNat)
    (hp : pushLoop enc 0 (x ++ c :: r) = some (enc', blen x + (c.utf8Size - 1), res)) :
    runRest dbg f (fuel + 1) st enc (x ++ c :: r) d = (processPush f st res).bind fun o =>
      if o.2 then some o.1 else none := by
  rw [runRest_step _ _ _ _ _ _ _ (by simp)]
  unfold writeStep
  rw [hp]
  have h2 : 2 ≤ c.utf8Size := utf8Size_wide hc
  simp only [Option.bind_some]
  rw [if_neg (by omega), sliceFrom_inside (by omega) (by omega)]
  cases processPush f st res with
  | none => rfl
  | some o =>
    obtain ⟨st', b⟩ := o
    cases b <;> simp

/-- A round that consumes nothing: plain text. -/
theorem runRest_plain {dbg : Bool} {f : Callback σ} {fuel : Nat} {st : σ} {enc : Str} {c : Char} {r s : Str}
    {d : List Str} {res : Push} (hp : c ≠ '%') (hr : '%' ∉ r) (hs : s = [] ∨ ∃ s', s = '%' :: s')
    (h : pushLoop enc 0 (c :: r ++ s) = some ([], 0, res)) :
    runRest dbg f (fuel + 1) st enc (c :: r ++ s) d = (f st (.noPct (c :: r))).bind fun o =>
      if o.2 then some o.1 else runRest dbg f fuel o.1 [] s d := by
  rw [runRest_step _ _ _ _ _ _ _ (by simp)]
  unfold writeStep
  rw [h]
  have hfs : (find_split (c :: r ++ s) '%').getD (c :: r ++ s, []) = (c :: r, s) := by
    have hn : ∀ x ∈ (c :: r : Str), (x == '%') = false := by
      intro x hx
      simp at hx ⊢
      rintro rfl
      rcases hx with hx | hx
      · exact hp hx.symm
      · exact hr hx
    rcases hs with rfl | ⟨s', rfl⟩
    · have : find_split (c :: r ++ []) '%' = none := by
        unfold find_split
        rw [findSplitP_none]
        simpa using hn
      rw [this]; simp
    · have : find_split (c :: r ++ '%' :: s') '%' = some (c :: r, '%' :: s') := by
        unfold find_split
        rw [findSplitP_some]
        exact ⟨'%', s', rfl, by simp, by simp, hn⟩
      rw [this]; rfl
  simp only [Option.bind_some, if_true, flushRest, List.isEmpty_nil, plainPrefix,
    Bool.false_eq_true, if_false, hfs, List.isEmpty_cons, Bool.and_false]
  cases f st (.noPct (c :: r)) with
  | none => rfl
  | some o =>
    obtain ⟨st', b⟩ := o
    cases b <;> simp

/-- A round that consumes nothing: a percent sign. -/
theorem runRest_again {dbg : Bool} {f : Callback σ} {fuel : Nat} {st : σ} {enc : Str} {r : Str}
    {d : List Str} {res : Push} (h : pushLoop enc 0 ('%' :: r) = some ([], 0, res)) :
    runRest dbg f (fuel + 1) st enc ('%' :: r) d =
      if dbg then none else (f st (.noPct [])).bind fun o =>
        if o.2 then some o.1 else runRest dbg f fuel o.1 [] ('%' :: r) d := by
  rw [runRest_step _ _ _ _ _ _ _ (by simp)]
  unfold writeStep
  rw [h]
  have hfs : (find_split ('%' :: r) '%').getD ('%' :: r, []) = ([], '%' :: r) := by
    have : find_split ('%' :: r) '%' = some ([], '%' :: r) := by
      unfold find_split
      rw [findSplitP_some]
      exact ⟨'%', r, rfl, by simp, by simp, by simp⟩
    rw [this]; rfl
  simp only [Option.bind_some, if_true, flushRest, List.isEmpty_nil, plainPrefix,
    Bool.false_eq_true, if_false, hfs, Bool.and_true]
  cases dbg with
  | true => rfl
  | false =>
    simp only [Bool.false_eq_true, if_false]
    cases f st (.noPct []) with
    | none => rfl
    | some o =>
      obtain ⟨st', b⟩ := o
      cases b <;> simp

theorem pushLoop_none {enc : Str} {dbg : Bool} {f : Callback σ} {fuel : Nat} {st : σ} {s : Str}
    {d : List Str} (hs : s ≠ []) (h : pushLoop enc 0 s = none) :
    runRest dbg f (fuel + 1) st enc s d = none := by
  rw [runRest_step _ _ _ _ _ _ _ hs]
  unfold writeStep
  rw [h]
  rfl

/-! ## The fragments -/

theorem trip_inj {g : Str} {a b : List Nat} (h : Trip g a) (h' : Trip g b) : a = b := by
  exact Option.some.inj (by rw [← trip_decoded h, trip_decoded h'])

theorem blen_of_parts {t x g t' : Str} {ys : List Nat} (ht : Tail t) (hg : Trip g ys) (ht' : Tail t')
    (e : t ++ x = g ++ t') : t.length + blen x = g.length + t'.length := by
  have := congrArg blen e
  rw [blen_append, blen_append, tail_blen ht, tail_blen ht', trip_blen hg] at this
  exact this

/-- The state before the pieces `d`. -/
structure StateOK (k t : Str) : Prop where
  trip : ∃ kb, Trip k kb ∧ Hold kb
  tail : Tail t

theorem runK_fin_true {f : Callback σ} (st : σ) : fin_ (σ := σ) true st = none := rfl

def budget (t : Str) (s : Str) : Nat := 2 * s.length + (if t = [] then 0 else 1)

theorem run_fragments {dbg : Bool} {f : Callback σ} {k t : Str} {d : List Str} {fs : List Frag} {p : Bool}
    (h : Fragments dbg k t d fs p) :
    StateOK k t → ∀ st, (d = [] → runPieces dbg f st (k ++ t) [] = runK f st fs (fin_ p)) ∧
      ∀ s d', d = s :: d' → ∀ fuel, budget t s < fuel →
        runRest dbg f fuel st (k ++ t) s d' = runK f st fs (fin_ p) := by
  have okNil : StateOK [] [] := ⟨⟨[], .nil, .inl rfl⟩, .inl rfl⟩
  induction h with
  | done =>
    intro _ st
    refine ⟨fun _ => ?_, by simp⟩
    simp [runPieces, writeAll, finish, runK, fin_]
  | @doneHeld k t hne =>
    intro ok st
    refine ⟨fun _ => ?_, by simp⟩
    obtain ⟨kb, hk, hh⟩ := ok.trip
    simp only [runPieces, writeAll, finish, Option.bind_some, Bool.false_eq_true, if_false]
    have : (k ++ t).isEmpty = false := by
      cases h : k ++ t with
      | nil => exact absurd h hne
      | cons _ _ => rfl
    rw [this, ← undec_run f st hk ok.tail]
    simp only [Bool.false_eq_true, if_false]
    cases output_as_undecodable f st (k ++ t) with
    | none => rfl
    | some o =>
      obtain ⟨st', b⟩ := o
      cases b <;> simp [fin_]
  | @next k t d fs p h ih =>
    intro ok st
    refine ⟨by simp, ?_⟩
    intro s d' e fuel hfu
    simp at e
    obtain ⟨rfl, rfl⟩ := e
    obtain ⟨n, rfl⟩ : ∃ n, fuel = n + 1 := ⟨fuel - 1, by omega⟩
    rw [runRest_nil]
    cases d with
    | nil => exact (ih ok st).1 rfl
    | cons s d =>
      rw [runPieces_cons]
      refine (ih ok st).2 s d rfl _ ?_
      unfold budget
      split <;> omega
  | @plain k t c r s d fs p hc hp hx hr hs h ih =>
    intro ok st
    refine ⟨by simp, ?_⟩
    intro s' d' e fuel hfu
    simp at e
    obtain ⟨rfl, rfl⟩ := e
    obtain ⟨n, rfl⟩ : ∃ n, fuel = n + 1 := ⟨fuel - 1, by omega⟩
    obtain ⟨kb, hk, hh⟩ := ok.trip
    have hl := trip_length hk
    have hst : Stops t c := by unfold Stops; split; exact hp; next h => exact hx h
    have hpush := pushLoop_stops (n := 0) (r := r ++ s) (by omega : k.length % 3 = 0) ok.tail hst
    rw [utf8Size_ascii hc] at hpush
    have := runRest_plain (dbg := dbg) (f := f) (fuel := n) (st := st) (d := d) hp hr hs hpush
    rw [List.cons_append] at this
    rw [this]
    simp only [runK]
    congr 1
    funext o
    split
    · rfl
    · refine (ih okNil o.1).2 s d rfl n ?_
      simp [budget] at hfu ⊢
      split at hfu <;> omega
  | @wide k t c r d hc =>
    intro ok st
    refine ⟨by simp, ?_⟩
    intro s' d' e fuel hfu
    simp at e
    obtain ⟨rfl, rfl⟩ := e
    obtain ⟨n, rfl⟩ : ∃ n, fuel = n + 1 := ⟨fuel - 1, by omega⟩
    obtain ⟨kb, hk, hh⟩ := ok.trip
    have hl := trip_length hk
    have hst : Stops t c := stops_wide hc
    have hpush := pushLoop_stops (n := 0) (r := r) (by omega : k.length % 3 = 0) ok.tail hst
    have := runRest_inside (dbg := dbg) (f := f) (fuel := n) (st := st) (d := d) (x := []) (enc' := [])
      (res := .undecodable (k ++ t)) hc (by rw [List.nil_append, hpush]; simp)
    rw [List.nil_append] at this
    rw [this]
    exact undec_run f st hk ok.tail (fin_ true)
  | @againDebug k t r d hne hd =>
    intro ok st
    refine ⟨by simp, ?_⟩
    intro s' d' e fuel hfu
    simp at e
    obtain ⟨rfl, rfl⟩ := e
    obtain ⟨n, rfl⟩ : ∃ n, fuel = n + 1 := ⟨fuel - 1, by omega⟩
    obtain ⟨kb, hk, hh⟩ := ok.trip
    have hl := trip_length hk
    have hst : Stops t '%' := by unfold Stops; rw [if_neg hne]; decide
    have hpush := pushLoop_stops (n := 0) (r := r) (by omega : k.length % 3 = 0) ok.tail hst
    rw [runRest_again hpush, if_pos hd]
    rfl
  | @againRelease k t r d fs p hne hd h ih =>
    intro ok st
    refine ⟨by simp, ?_⟩
    intro s' d' e fuel hfu
    simp at e
    obtain ⟨rfl, rfl⟩ := e
    obtain ⟨n, rfl⟩ : ∃ n, fuel = n + 1 := ⟨fuel - 1, by omega⟩
    obtain ⟨kb, hk, hh⟩ := ok.trip
    have hl := trip_length hk
    have hst : Stops t '%' := by unfold Stops; rw [if_neg hne]; decide
    have hpush := pushLoop_stops (n := 0) (r := r) (by omega : k.length % 3 = 0) ok.tail hst
    rw [runRest_again hpush, if_neg (by simp [hd])]
    simp only [runK]
    congr 1
    funext o
    split
    · rfl
    · refine (ih okNil o.1).2 _ d rfl n ?_
      simp [budget, hne] at hfu ⊢
      omega
  | @cut k kb t x g ys t' c r d fs p hk hg ht' hx he hy hst hc h ih =>
    intro ok st
    refine ⟨by simp, ?_⟩
    intro s' d' e fuel hfu
    simp at e
    obtain ⟨rfl, rfl⟩ := e
    obtain ⟨n, rfl⟩ : ∃ n, fuel = n + 1 := ⟨fuel - 1, by omega⟩
    obtain ⟨kb', hk', hh⟩ := ok.trip
    obtain rfl := trip_inj hk hk'
    have hl := trip_length hk
    have hhl := hh.length
    have hb := blen_of_parts ok.tail hg ht' he
    have hpush := pushLoop_cut' (r := r) hk hh hg ht' hy hst
    rw [← he, List.append_assoc, utf8Size_ascii hc, ← hb] at hpush
    have hpush := pushLoop_resume (by omega) (by omega) ok.tail hpush
    rw [runRest_consumed hx hpush, processPush,
      undec_run f st (trip_append hk hg) ht' (fun st' => runRest dbg f n st' [] (c :: r) d), runK_append]
    congr 1
    funext st'
    refine (ih okNil st').2 _ d rfl n ?_
    have := List.length_pos_iff.2 hx
    simp [budget] at hfu ⊢
    split at hfu <;> omega
  | @cutWide k kb t x g ys t' c r d hk hg ht' hx he hy hc =>
    intro ok st
    refine ⟨by simp, ?_⟩
    intro s' d' e fuel hfu
    simp at e
    obtain ⟨rfl, rfl⟩ := e
    obtain ⟨n, rfl⟩ : ∃ n, fuel = n + 1 := ⟨fuel - 1, by omega⟩
    obtain ⟨kb', hk', hh⟩ := ok.trip
    obtain rfl := trip_inj hk hk'
    have hl := trip_length hk
    have hhl := hh.length
    have hb := blen_of_parts ok.tail hg ht' he
    have hpush := pushLoop_cut' (r := r) hk hh hg ht' hy (stops_wide hc)
    rw [← he, List.append_assoc, ← hb, Nat.add_assoc] at hpush
    have hpush := pushLoop_resume (by omega) (by omega) ok.tail hpush
    rw [runRest_inside hc hpush, processPush]
    exact undec_run f st (trip_append hk hg) ht' (fin_ true)
  | @stay k kb t x g ys t' d fs p hk hg ht' hx he hy h ih =>
    intro ok st
    refine ⟨by simp, ?_⟩
    intro s' d' e fuel hfu
    simp at e
    obtain ⟨rfl, rfl⟩ := e
    obtain ⟨n, rfl⟩ : ∃ n, fuel = n + 1 := ⟨fuel - 1, by omega⟩
    obtain ⟨kb', hk', hh⟩ := ok.trip
    obtain rfl := trip_inj hk hk'
    have hl := trip_length hk
    have hhl := hh.length
    have hb := blen_of_parts ok.tail hg ht' he
    have hpush := pushLoop_stay hk hh hg ht' hy
    rw [← he, ← hb] at hpush
    have hpush := pushLoop_resume (by omega) (by omega) ok.tail hpush
    have := runRest_consumed (dbg := dbg) (f := f) (fuel := n) (st := st) (d := d) (s := []) hx
      (by rw [List.append_nil]; exact hpush)
    rw [List.append_nil] at this
    rw [this, processPush]
    simp only [Option.bind_some, Bool.false_eq_true, if_false]
    have hpos := List.length_pos_iff.2 hx
    obtain ⟨m, rfl⟩ : ∃ m, n = m + 1 := ⟨n - 1, by simp [budget] at hfu; split at hfu <;> omega⟩
    have ok' : StateOK (k ++ g) t' := ⟨⟨_, trip_append hk hg, hold_append hh hy⟩, ht'⟩
    rw [runRest_nil]
    cases d with
    | nil => exact (ih ok' st).1 rfl
    | cons s d =>
      rw [runPieces_cons]
      refine (ih ok' st).2 s d rfl _ ?_
      unfold budget
      split <;> omega
  | @char k kb t x g ys s d fs p hk hg hys hx he hcp h ih =>
    intro ok st
    refine ⟨by simp, ?_⟩
    intro s' d' e fuel hfu
    simp at e
    obtain ⟨rfl, rfl⟩ := e
    obtain ⟨n, rfl⟩ : ∃ n, fuel = n + 1 := ⟨fuel - 1, by omega⟩
    obtain ⟨kb', hk', hh⟩ := ok.trip
    obtain rfl := trip_inj hk hk'
    have hl := trip_length hk
    have hhl := hh.length
    obtain ⟨yi, b, rfl⟩ : ∃ a b, ys = a ++ [b] := ⟨_, _, (List.dropLast_concat_getLast hys).symm⟩
    obtain ⟨gi, z, rfl, hgi, hz⟩ := trip_split hg
    have hpre : yi = [] ∨ Incomplete (kb ++ yi) := by
      by_cases hyi : yi = []
      · exact .inl hyi
      · exact .inr (Incomplete.of (b := [b]) (by simpa using hcp) (by simp [hyi]) (by simp))
    have hpush := pushLoop_last (s := s) hk hh hgi hz hpre (o := some ([], .decoded (k ++ gi ++ z))) (by
      unfold checkTriplets
      rw [trip_decoded (trip_append (trip_append hk hgi) hz), Option.bind_some, List.append_assoc, check_complete hcp]
      rfl)
    have hb := blen_of_parts ok.tail hg (.inl rfl) (he.trans (List.append_nil _).symm)
    simp only [Option.map_some] at hpush
    rw [← he, List.append_assoc, ← List.length_append, (by simpa using hb.symm :
      (gi ++ z).length = t.length + blen x)] at hpush
    have hpush := pushLoop_resume (by omega) (by omega) ok.tail hpush
    rw [runRest_consumed hx hpush, processPush, List.append_assoc]
    simp only [runK]
    congr 1
    funext o
    split
    · rfl
    · refine (ih okNil o.1).2 _ d rfl n ?_
      have := List.length_pos_iff.2 hx
      simp [budget] at hfu ⊢
      split at hfu <;> omega
  | @bad t x g b s d fs p hg hx he hbk h ih =>
    intro ok st
    refine ⟨by simp, ?_⟩
    intro s' d' e fuel hfu
    simp at e
    obtain ⟨rfl, rfl⟩ := e
    obtain ⟨n, rfl⟩ : ∃ n, fuel = n + 1 := ⟨fuel - 1, by omega⟩
    have hpush := pushLoop_bad (s := s) hg (broken1 hbk)
    have hb := blen_of_parts ok.tail hg (.inl rfl) (he.trans (List.append_nil _).symm)
    have hb' : g.length = t.length + blen x := by simpa using hb.symm
    rw [hb'] at hpush
    rw [← he, List.append_assoc] at hpush
    have hpush := pushLoop_resume (by simp) (by simp) ok.tail hpush
    have hu := undec_run f st hg (.inl rfl) fun st' => runRest dbg f n st' [] s d
    rw [List.append_nil] at hu
    rw [runRest_consumed hx hpush, processPush, he, hu]
    simp only [flushed, runK]
    congr 1
    funext o
    split
    · rfl
    · refine (ih okNil o.1).2 _ d rfl n ?_
      have := List.length_pos_iff.2 hx
      simp [budget] at hfu ⊢
      split at hfu <;> omega
  | @broken k kb t x g ys z b s d fs p hk hg hz hx he hin hbk h ih =>
    intro ok st
    refine ⟨by simp, ?_⟩
    intro s' d' e fuel hfu
    simp at e
    obtain ⟨rfl, rfl⟩ := e
    obtain ⟨n, rfl⟩ : ∃ n, fuel = n + 1 := ⟨fuel - 1, by omega⟩
    obtain ⟨kb', hk', hh⟩ := ok.trip
    obtain rfl := trip_inj hk hk'
    have hl := trip_length hk
    have hhl := hh.length
    have hgl := trip_length (trip_append hk hg)
    have hcheck : utf8Check 4 0 (kb ++ ys ++ [b]) = .err 0 (some (kb ++ ys).length) := by
      rcases hin with hin | ⟨rfl, y, rfl, hy⟩
      · exact check_broken hin hbk
      · exact check_bad2 hy
    have hpre : ys = [] ∨ Incomplete (kb ++ ys) := by
      rcases hin with hin | ⟨rfl, _⟩
      · exact .inr hin
      · exact .inl rfl
    have hpush := pushLoop_last (s := s) hk hh hg hz hpre (o := some (z, .undecodable (k ++ g))) (by
      unfold checkTriplets
      rw [trip_decoded (trip_append (trip_append hk hg) hz), Option.bind_some, hcheck]
      simp only [ne_eq, not_true, if_false]
      rw [Nat.mul_comm, ← hgl, List.drop_left, List.take_left]
      rfl)
    have hb := blen_of_parts ok.tail (trip_append hg hz) (.inl rfl) (he.trans (List.append_nil _).symm)
    simp only [Option.map_some] at hpush
    rw [← he, List.append_assoc, ← List.length_append, (by simpa using hb.symm :
      (g ++ z).length = t.length + blen x)] at hpush
    have hpush := pushLoop_resume (by omega) (by omega) ok.tail hpush
    have hu := undec_run f st (trip_append hk hg) (.inl rfl) fun st' => runRest dbg f n st' z s d
    rw [List.append_nil] at hu
    rw [runRest_consumed hx hpush, processPush, hu]
    simp only [flushed, runK]
    congr 1
    funext o
    split
    · rfl
    · have ok' : StateOK z [] := ⟨⟨_, hz, .inr (.inl ⟨b, rfl⟩)⟩, .inl rfl⟩
      have := (ih ok' o.1).2 _ d rfl n (by
        have := List.length_pos_iff.2 hx
        simp [budget] at hfu ⊢
        split at hfu <;> omega)
      rw [List.append_nil] at this
      exact this
  | @ascii k y t x g b s d fs p hk hy hg hx he hb128 h ih =>
    intro ok st
    refine ⟨by simp, ?_⟩
    intro s' d' e fuel hfu
    simp at e
    obtain ⟨rfl, rfl⟩ := e
    obtain ⟨n, rfl⟩ : ∃ n, fuel = n + 1 := ⟨fuel - 1, by omega⟩
    have hl := trip_length hk
    simp only [List.length_cons, List.length_nil] at hl
    have hpush := pushLoop_last (s := s) hk (.inr (.inl ⟨y, rfl⟩)) .nil hg (.inl rfl)
      (o := some ([], .decoded (k ++ g))) (by
      unfold checkTriplets
      rw [List.append_nil, trip_decoded (trip_append hk hg), Option.bind_some, List.cons_append, List.nil_append,
        check_ascii2 hy hb128]
      rfl)
    have hb := blen_of_parts ok.tail hg (.inl rfl) (he.trans (List.append_nil _).symm)
    simp only [Option.map_some, List.nil_append, List.length_nil, Nat.zero_add] at hpush
    rw [(by simpa using hb.symm : g.length = t.length + blen x)] at hpush
    rw [← he, List.append_assoc] at hpush
    have hpush := pushLoop_resume (by omega) (by omega) ok.tail hpush
    rw [runRest_consumed hx hpush, processPush, he]
    simp only [runK]
    congr 1
    funext o
    split
    · rfl
    · refine (ih okNil o.1).2 _ d rfl n ?_
      have := List.length_pos_iff.2 hx
      simp [budget] at hfu ⊢
      split at hfu <;> omega
  | @asciiPanic k y t x g b s d hk hy hg hx he hb128 =>
    intro ok st
    refine ⟨by simp, ?_⟩
    intro s' d' e fuel hfu
    simp at e
    obtain ⟨rfl, rfl⟩ := e
    obtain ⟨n, rfl⟩ : ∃ n, fuel = n + 1 := ⟨fuel - 1, by omega⟩
    have hl := trip_length hk
    simp only [List.length_cons, List.length_nil] at hl
    have hpush := pushLoop_last (s := s) hk (.inr (.inl ⟨y, rfl⟩)) .nil hg (.inl rfl)
      (o := none) (by
      unfold checkTriplets
      rw [List.append_nil, trip_decoded (trip_append hk hg), Option.bind_some, List.cons_append, List.nil_append]
      obtain ⟨l, hc⟩ := check_ascii_panic hy hb128
      rw [hc]
      simp)
    simp only [Option.map_none, List.nil_append] at hpush
    rw [← he, List.append_assoc] at hpush
    have hpush := pushLoop_resume_none (by omega) (by omega) ok.tail hpush
    rw [pushLoop_none (by simp [hx]) hpush]
    rfl

/-! ## Every value has fragments -/

theorem trip1 {h l : Char} (hh : HEXDIG h = true) (hl : HEXDIG l = true) :
    Trip ['%', h, l] [hexVal h * 16 + hexVal l] := .cons hh hl .nil

/-- The longest sequence of triplets that may go on, and what follows it. -/
theorem scan (kb : List Nat) (hk : Hold kb) : ∀ (n : Nat) (w : Str), w.length ≤ n → ∀ (ys : List Nat),
    (ys = [] ∨ Incomplete (kb ++ ys)) →
    ∃ g us, Trip g us ∧ (ys ++ us = [] ∨ Incomplete (kb ++ (ys ++ us))) ∧
      ((∃ t, Tail t ∧ w = g ++ t) ∨ (∃ t c r, Tail t ∧ Stops t c ∧ w = g ++ t ++ c :: r) ∨
        ∃ z b s, Trip z [b] ∧ ¬ Incomplete (kb ++ (ys ++ us) ++ [b]) ∧ w = g ++ z ++ s) := by
  have hpct : HEXDIG '%' = false := by decide
  intro n
  induction n with
  | zero =>
    intro w hw ys hys
    have : w = [] := List.length_eq_zero_iff.1 (by omega)
    subst this
    exact ⟨[], [], .nil, by simpa using hys, .inl ⟨[], .inl rfl, rfl⟩⟩
  | succ n ih =>
    intro w hw ys hys
    have base : ((∃ t, Tail t ∧ w = t) ∨ (∃ t c r, Tail t ∧ Stops t c ∧ w = t ++ c :: r)) →
      ∃ g us, Trip g us ∧ (ys ++ us = [] ∨ Incomplete (kb ++ (ys ++ us))) ∧
      ((∃ t, Tail t ∧ w = g ++ t) ∨ (∃ t c r, Tail t ∧ Stops t c ∧ w = g ++ t ++ c :: r) ∨
        ∃ z b s, Trip z [b] ∧ ¬ Incomplete (kb ++ (ys ++ us) ++ [b]) ∧ w = g ++ z ++ s) := by
      intro h
      refine ⟨[], [], .nil, by simpa using hys, ?_⟩
      rcases h with ⟨t, h1, h2⟩ | ⟨t, c, r, h1, h2, h3⟩
      · exact .inl ⟨t, h1, by simpa using h2⟩
      · exact .inr (.inl ⟨t, c, r, h1, h2, by simpa using h3⟩)
    match w, hw, base with
    | [], _, base => exact base (.inl ⟨[], .inl rfl, rfl⟩)
    | c :: w1, hw, base =>
      by_cases hc : c = '%'
      · subst hc
        match w1, hw, base with
        | [], _, base => exact base (.inl ⟨['%'], .inr (.inl rfl), rfl⟩)
        | h :: w2, hw, base =>
          cases hh : HEXDIG h with
          | false =>
            exact base (.inr ⟨['%'], h, w2, .inr (.inl rfl), by simpa [Stops] using hh, rfl⟩)
          | true =>
            match w2, hw, base with
            | [], _, base => exact base (.inl ⟨['%', h], .inr (.inr ⟨h, hh, rfl⟩), rfl⟩)
            | l :: s, hw, base =>
              cases hl : HEXDIG l with
              | false =>
                exact base (.inr ⟨['%', h], l, s, .inr (.inr ⟨h, hh, rfl⟩), by simpa [Stops] using hl, rfl⟩)
              | true =>
                by_cases hi : Incomplete (kb ++ ys ++ [hexVal h * 16 + hexVal l])
                · obtain ⟨g, us, h1, h2, h3⟩ := ih s (by simp at hw ⊢; omega)
                    (ys ++ [hexVal h * 16 + hexVal l]) (.inr (by rw [← List.append_assoc]; exact hi))
                  refine ⟨['%', h, l] ++ g, _, trip_append (trip1 hh hl) h1, ?_, ?_⟩
                  · rw [← List.append_assoc ys]; exact h2
                  · rcases h3 with ⟨t, g1, g2⟩ | ⟨t, c, r, g1, g2, g3⟩ | ⟨z, b, r, g1, g2, g3⟩
                    · exact .inl ⟨t, g1, by simp [g2]⟩
                    · exact .inr (.inl ⟨t, c, r, g1, g2, by simp [g3]⟩)
                    · refine .inr (.inr ⟨z, b, r, g1, ?_, by simp [g3]⟩)
                      rw [← List.append_assoc ys]; exact g2
                · exact ⟨[], [], .nil, by simpa using hys,
                    .inr (.inr ⟨['%', h, l], _, s, trip1 hh hl, by simpa using hi, rfl⟩)⟩
      · exact base (.inr ⟨[], c, w1, .inl rfl, by simpa [Stops] using hc, rfl⟩)

/-- Splitting plain text. -/
theorem plain_split (r : Str) : ∃ a s, r = a ++ s ∧ '%' ∉ a ∧ (s = [] ∨ ∃ s', s = '%' :: s') := by
  induction r with
  | nil => exact ⟨[], [], rfl, by simp, .inl rfl⟩
  | cons c r ih =>
    by_cases hc : c = '%'
    · exact ⟨[], c :: r, rfl, by simp, .inr ⟨r, by rw [hc]⟩⟩
    · obtain ⟨a, s, h1, h2, h3⟩ := ih
      exact ⟨c :: a, s, by simp [h1], by simp [h2]; exact fun e => hc e.symm, h3⟩

/-- Cutting a common prefix. -/
theorem cut_prefix {t u v w : Str} (e : t ++ u = v ++ w) (h : t.length < v.length) :
    ∃ x, x ≠ [] ∧ v = t ++ x ∧ u = x ++ w := by
  rcases List.append_eq_append_iff.1 e with ⟨a, h1, h2⟩ | ⟨a, h1, h2⟩
  · refine ⟨a, ?_, h1, h2⟩
    rintro rfl
    simp [h1] at h
  · rw [h1, List.length_append] at h
    omega

/-- A character that goes on is part of the triplets. -/
theorem goes_on {t g t' : Str} {ys : List Nat} {c : Char} {r w : Str} (ht : Tail t) (ht' : Tail t')
    (hg : Trip g ys) (hc : ¬ Stops t c) (e : t ++ c :: r = g ++ t' ++ w)
    (hw : ∀ c' r', w = c' :: r' → Stops t' c') : t.length < (g ++ t').length := by
  have hgl := trip_length hg
  have htl := tail_length ht
  rcases Nat.lt_or_ge t.length (g ++ t').length with h | h
  · exact h
  · exfalso
    rw [List.length_append] at h
    have hg0 : ys = [] := List.length_eq_zero_iff.1 (by omega)
    subst hg0
    cases hg
    simp only [List.nil_append, List.length_nil, Nat.zero_add] at e h
    rcases ht with rfl | rfl | ⟨x, hx, rfl⟩ <;> rcases ht' with rfl | rfl | ⟨y, hy, rfl⟩
    · exact hc (hw c r e.symm)
    · simp at h
    · simp at h
    · have := hw '%' _ e.symm
      simp [Stops] at this
    · simp at e
      exact hc (hw c r e.symm)
    · simp at h
    · have := hw '%' _ e.symm
      simp [Stops] at this
    · simp at e
      have := hw x _ e.symm
      simp [Stops, hx] at this
    · simp at e
      obtain ⟨rfl, e⟩ := e
      exact hc (hw c r e.symm)

def weight (t : Str) (d : List Str) : Nat :=
  (d.map fun s => 2 * s.length + 1).sum + (if t = [] then 0 else 1)

theorem fragments_total (dbg : Bool) : ∀ (n : Nat) (k t : Str) (d : List Str), weight t d ≤ n →
    StateOK k t → ∃ fs p, Fragments dbg k t d fs p := by
  intro n
  induction n with
  | zero =>
    intro k t d hw ok
    cases d with
    | cons s d => simp [weight] at hw
    | nil =>
      by_cases hne : k ++ t = []
      · simp at hne
        obtain ⟨rfl, rfl⟩ := hne
        exact ⟨_, _, .done⟩
      · exact ⟨_, _, .doneHeld hne⟩
  | succ n ih =>
    intro k t d hw ok
    have okNil : StateOK [] [] := ⟨⟨[], .nil, .inl rfl⟩, .inl rfl⟩
    obtain ⟨kb, hk, hh⟩ := ok.trip
    cases d with
    | nil =>
      by_cases hne : k ++ t = []
      · simp at hne
        obtain ⟨rfl, rfl⟩ := hne
        exact ⟨_, _, .done⟩
      · exact ⟨_, _, .doneHeld hne⟩
    | cons u d =>
      cases u with
      | nil =>
        obtain ⟨fs, p, h⟩ := ih k t d (by simp [weight] at hw ⊢; omega) ok
        exact ⟨_, _, .next h⟩
      | cons c r =>
        rcases Nat.lt_or_ge c.toNat 128 with hc | hc
        · -- an ASCII character
          by_cases hst : Stops t c
          · by_cases hp : c = '%'
            · subst hp
              have hne : t ≠ [] := by
                rintro rfl
                simp [Stops] at hst
              cases dbg with
              | true => exact ⟨_, _, .againDebug hne rfl⟩
              | false =>
                obtain ⟨fs, p, h⟩ := ih [] [] (('%' :: r) :: d) (by
                  simp [weight, hne] at hw ⊢; omega) okNil
                exact ⟨_, _, .againRelease hne rfl h⟩
            · obtain ⟨a, s, rfl, h2, h3⟩ := plain_split r
              obtain ⟨fs, p, h⟩ := ih [] [] (s :: d) (by
                simp [weight] at hw ⊢; omega) okNil
              refine ⟨_, _, .plain hc hp ?_ h2 h3 h⟩
              intro hne
              simpa [Stops, hne] using hst
          · -- the triplets go on
            obtain ⟨g, ys, hg, hys, hcase⟩ := scan kb hh _ (t ++ c :: r) (Nat.le_refl _) [] (.inl rfl)
            simp only [List.nil_append] at hys hcase
            have hgl := trip_length hg
            have htl := tail_length ok.tail
            rcases hcase with ⟨t', ht', e⟩ | ⟨t', c', r', ht', hst', e⟩ | ⟨z, b, s, hz, hni, e⟩
            · have hlt := goes_on (w := []) ok.tail ht' hg hst (by simpa using e) (by simp)
              obtain ⟨x, hx, e1, e2⟩ := cut_prefix (w := []) (by simpa using e) hlt
              obtain ⟨fs, p, h⟩ := ih (k ++ g) t' d (by
                simp [weight] at hw ⊢
                split <;> omega) ⟨⟨_, trip_append hk hg, hold_append hh hys⟩, ht'⟩
              rw [List.append_nil] at e2
              rw [e2]
              exact ⟨_, _, .stay hk hg ht' hx e1.symm hys h⟩
            · have hlt := goes_on ok.tail ht' hg hst e (by
                intro c'' r'' e'; simp at e'; rw [← e'.1]; exact hst')
              obtain ⟨x, hx, e1, e2⟩ := cut_prefix e hlt
              rw [e2]
              rcases Nat.lt_or_ge c'.toNat 128 with hc' | hc'
              · obtain ⟨fs, p, h⟩ := ih [] [] ((c' :: r') :: d) (by
                  rw [e2] at hw
                  have := List.length_pos_iff.2 hx
                  simp [weight] at hw ⊢
                  omega) okNil
                exact ⟨_, _, .cut hk hg ht' hx e1.symm hys hst' hc' h⟩
              · exact ⟨_, _, .cutWide hk hg ht' hx e1.symm hys hc'⟩
            · have hzl := trip_length hz
              obtain ⟨x, hx, e1, e2⟩ := cut_prefix e (by
                simp only [List.length_cons, List.length_nil] at hzl
                rw [List.length_append]; omega)
              rw [e2]
              have hlen : weight [] (s :: d) ≤ n := by
                rw [e2] at hw
                have := List.length_pos_iff.2 hx
                simp [weight] at hw ⊢
                omega
              obtain ⟨fs, p, h⟩ := ih [] [] (s :: d) hlen okNil
              obtain ⟨fs', p', h'⟩ := ih z [] (s :: d) hlen
                ⟨⟨_, hz, .inr (.inl ⟨b, rfl⟩)⟩, .inl rfl⟩
              have hgz := trip_append hg hz
              by_cases hcp : Complete (kb ++ ys ++ [b])
              · exact ⟨_, _, .char hk hgz (by simp) hx e1.symm (by simpa using hcp) h⟩
              · have hbk : Broken (kb ++ ys ++ [b]) := ⟨hni, hcp⟩
                by_cases hin : Incomplete (kb ++ ys)
                · exact ⟨_, _, .broken hk hg hz hx e1.symm (.inl hin) hbk h'⟩
                · have hys0 : ys = [] := by
                    rcases hys with hys | hys
                    · exact hys
                    · exact absurd hys hin
                  subst hys0
                  cases hg
                  simp only [List.append_nil] at hin
                  rcases hh with rfl | ⟨y, rfl⟩ | hh
                  · cases hk
                    exact ⟨_, _, .bad hz hx e1.symm (by simpa using hbk) h⟩
                  · by_cases hy : y < 128
                    · rcases Nat.lt_or_ge b 128 with hb | hb
                      · exact ⟨_, _, .ascii hk hy hz hx e1.symm hb h⟩
                      · exact ⟨_, _, .asciiPanic hk hy hz hx e1.symm hb⟩
                    · refine ⟨_, _, .broken hk .nil hz hx e1.symm (.inr ⟨rfl, y, rfl, hin, ?_⟩) hbk h'⟩
                      rintro ⟨c, hc⟩
                      have h1 : (utf8 c).length = 1 := by rw [← hc]; rfl
                      unfold utf8 at h1 hc
                      simp only at h1 hc
                      split at h1
                      · next h2 => rw [if_pos h2] at hc; simp at hc; omega
                      · split at h1
                        · simp at h1
                        · split at h1 <;> simp at h1
                  · exact absurd hh hin
        · exact ⟨_, _, .wide hc⟩

/-- Every value has fragments, and the callback is called with exactly these. -/
theorem process_exact {dbg : Bool} {f : Callback σ} {d : List Str} {fs : List Frag} {p : Bool}
    (h : Fragments dbg [] [] d fs p) (st : σ) :
    process_percent_encoded_best_effort dbg f st d = runK f st fs (fin_ p) := by
  have hr := run_fragments (f := f) h ⟨⟨[], .nil, .inl rfl⟩, .inl rfl⟩ st
  have e : process_percent_encoded_best_effort dbg f st d = runPieces dbg f st [] d := by
    unfold process_percent_encoded_best_effort runPieces finish
    congr 1
  rw [e]
  cases d with
  | nil => exact hr.1 rfl
  | cons s d =>
    rw [runPieces_cons]
    exact hr.2 s d rfl _ (by simp [budget])

theorem fragments_exist (dbg : Bool) (d : List Str) : ∃ fs p, Fragments dbg [] [] d fs p :=
  fragments_total dbg _ [] [] d (Nat.le_refl _) ⟨⟨[], .nil, .inl rfl⟩, .inl rfl⟩

/-- The callback that records the fragments. -/
def recordFrag (st : List Frag) (a : Frag) : Option (List Frag × Bool) := some (st ++ [a], false)

theorem runK_record (st fs : List Frag) (K : List Frag → Option (List Frag)) :
    runK recordFrag st fs K = K (st ++ fs) := by
  induction fs generalizing st with
  | nil => simp [runK]
  | cons a fs ih => simp [runK, recordFrag, ih]

end Verif.MaybePct
