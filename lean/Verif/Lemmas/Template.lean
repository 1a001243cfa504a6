import Verif.Lemmas.Abnf
import Verif.Lemmas.Split
import Verif.Lemmas.Utf8
import Verif.Model.Template
import Verif.Spec.Template

/-! # Lemmas on the template validator -/

namespace Verif.Tpl

open Verif.Abnf Verif.Rfc Verif.Rfc6570

/-! ### Characters -/

theorem literalChar_ascii {c : Char} (h : literalChar c = true) : c.toNat < 128 := by
  simp [literalChar] at h; omega

theorem literal_eq (c : Char) : (isAscii c && is_ascii_literal_char c) = literalChar c := by
  by_cases h : c.toNat < 128
  · revert c
    exact ascii_forall (P := fun c => (isAscii c && is_ascii_literal_char c) = literalChar c)
      (by decide +kernel)
  · have h1 : isAscii c = false := by simp [isAscii]; omega
    rw [h1]
    cases h2 : literalChar c
    · rfl
    · exact absurd (literalChar_ascii h2) h

theorem not_literal_eq (c : Char) :
    (!isAscii c || !is_ascii_literal_char c) = !literalChar c := by
  rw [← literal_eq]; simp

/-- Characters that may continue a variable name. -/
def contC (c : Char) : Bool := varcharPlain c || c == '.'

theorem varcharPlain_ascii {c : Char} (h : varcharPlain c = true) : c.toNat < 128 := by
  simp [varcharPlain, ALPHA, DIGIT, char_le_iff, char_eq_iff] at h; omega

theorem start_eq (c : Char) : (isAscii c && is_ascii_varchar_start c) = varcharPlain c := by
  by_cases h : c.toNat < 128
  · revert c
    exact ascii_forall (P := fun c => (isAscii c && is_ascii_varchar_start c) = varcharPlain c)
      (by decide +kernel)
  · have h1 : isAscii c = false := by simp [isAscii]; omega
    rw [h1]
    cases h2 : varcharPlain c
    · rfl
    · exact absurd (varcharPlain_ascii h2) h

theorem contC_ascii {c : Char} (h : contC c = true) : c.toNat < 128 := by
  simp only [contC, Bool.or_eq_true, beq_iff_eq] at h
  rcases h with h | rfl
  · exact varcharPlain_ascii h
  · decide

theorem cont_eq : cls is_ascii_varchar_continue (fun _ => false) = contC := by
  funext c
  by_cases h : c.toNat < 128
  · revert c
    exact ascii_forall (P := fun c => cls is_ascii_varchar_continue (fun _ => false) c = contC c)
      (by decide +kernel)
  · have h1 : isAscii c = false := by simp [isAscii]; omega
    simp only [cls, h1]
    cases h2 : contC c
    · rfl
    · exact absurd (contC_ascii h2) h

/-! ### Variable names -/

/-- The accepted variable names. -/
def NameP (s : Str) : Prop := PC contC s ∧ s ≠ [] ∧ s.head? ≠ some '.'

theorem varchar_unit (s : Str) : (varchar ∕ lit ['.']) s ↔ unit contC s := by
  simp only [varchar, alt, chr, lit, unit, contC]
  constructor
  · rintro ((⟨c, rfl, h⟩ | h) | rfl)
    · refine .inl ⟨c, rfl, ?_, by simp [h]⟩
      rintro rfl; exact absurd h (by decide)
    · exact .inr h
    · exact .inl ⟨'.', rfl, by decide, by decide⟩
  · rintro (⟨c, rfl, h1, h2⟩ | h)
    · simp at h2
      rcases h2 with h2 | rfl
      · exact .inl (.inl ⟨c, rfl, h2⟩)
      · exact .inr rfl
    · exact .inl (.inr h)

theorem varnameX_iff (s : Str) : varnameX s ↔ NameP s := by
  constructor
  · rintro ⟨a, b, rfl, ha, hb⟩
    rw [star_unit_iff varchar_unit] at hb
    rcases ha with ⟨c, rfl, hc⟩ | ha
    · refine ⟨?_, by simp, ?_⟩
      · rw [List.singleton_append]
        refine PC.chr ?_ (by simp [contC, hc]) hb
        rintro rfl; exact absurd hc (by decide)
      · simp; rintro rfl; exact absurd hc (by decide)
    · obtain ⟨h, l, rfl, h1, h2⟩ := (pct_encoded_iff _).1 ha
      exact ⟨PC.pct h1 h2 hb, by simp, by simp⟩
  · rintro ⟨h, h0, h1⟩
    cases h with
    | nil => exact absurd rfl h0
    | @chr c r g1 g2 g3 =>
      refine ⟨[c], r, rfl, .inl ⟨c, rfl, ?_⟩, (star_unit_iff varchar_unit _).2 g3⟩
      simp only [contC, Bool.or_eq_true, beq_iff_eq] at g2
      rcases g2 with g2 | rfl
      · exact g2
      · simp at h1
    | @pct h l r g1 g2 g3 =>
      exact ⟨['%', h, l], r, rfl, .inr ((pct_encoded_iff _).2 ⟨h, l, rfl, g1, g2⟩),
        (star_unit_iff varchar_unit _).2 g3⟩

theorem varnameRest_iff (s : Str) :
    (∃ r, varnameRest s = some r ∧ PC contC r) ↔ NameP s := by
  constructor
  · rintro ⟨r, h, hr⟩
    cases s with
    | nil => simp [varnameRest] at h
    | cons c s =>
      simp only [varnameRest, start_eq] at h
      split at h
      · next hc =>
        simp at hc
        obtain ⟨rfl, hx⟩ := hc
        match s, hx with
        | x :: y :: s, hx =>
          simp [starts_with_double_hexdigits] at hx h
          subst h
          exact ⟨PC.pct hx.1 hx.2 hr, by simp, by simp⟩
      · split at h
        · next hc =>
          simp at h; subst h
          refine ⟨PC.chr ?_ (by simp [contC, hc]) hr, by simp, ?_⟩
          · rintro rfl; exact absurd hc (by decide)
          · simp; rintro rfl; exact absurd hc (by decide)
        · cases h
  · rintro ⟨h, h0, h1⟩
    cases h with
    | nil => exact absurd rfl h0
    | @chr c r g1 g2 g3 =>
      refine ⟨r, ?_, g3⟩
      have : varcharPlain c = true := by
        simp only [contC, Bool.or_eq_true, beq_iff_eq] at g2
        rcases g2 with g2 | rfl
        · exact g2
        · simp at h1
      simp [varnameRest, start_eq, this, g1]
    | @pct h l r g1 g2 g3 =>
      exact ⟨r, by simp [varnameRest, starts_with_double_hexdigits, g1, g2], g3⟩

theorem varname_ok (s : Str) (o : Nat) : validate_varname s o = .ok () ↔ NameP s := by
  rw [← varnameRest_iff]
  unfold validate_varname
  cases h : varnameRest s with
  | none => simp
  | some r =>
    simp only
    split
    · next h1 => rw [satisfy_iff, cont_eq] at h1; simp [h1]
    · next h1 => rw [satisfy_iff, cont_eq] at h1; simp [h1]

theorem varname_res (s : Str) (o : Nat) :
    validate_varname s o = .ok () ∨ validate_varname s o = .err .invalidExpression o := by
  unfold validate_varname
  split
  · exact .inr rfl
  · split
    · exact .inl rfl
    · exact .inr rfl

theorem NameP.not_mem {s : Str} (h : NameP s) {d : Char} (h1 : d ≠ '%') (h2 : isHex d = false)
    (h3 : contC d = false) : d ∉ s := h.1.not_mem h1 h2 h3

theorem NameP.head {s : Str} (h : NameP s) : ∃ c r, s = c :: r ∧ startsVarList c = true := by
  obtain ⟨h, h0, h1⟩ := h
  cases h with
  | nil => exact absurd rfl h0
  | @chr c r g1 g2 g3 =>
    refine ⟨c, r, rfl, ?_⟩
    simp only [contC, Bool.or_eq_true, beq_iff_eq] at g2
    rcases g2 with g2 | rfl
    · simp only [varcharPlain, ALPHA_eq, DIGIT_eq] at g2
      simp [startsVarList] at g2 ⊢
      rcases g2 with (h | h) | h <;> simp [h]
    · simp at h1
  | @pct h l r g1 g2 g3 => exact ⟨'%', _, rfl, by decide⟩

/-! ### Variable specifications -/

/-- The text of an accepted varspec. -/
def SpecP (s : Str) : Prop := ∃ v : Var, v.WF varnameX maxLengthX ∧ v.render = s

theorem rep_chr (p : Char → Bool) (n : Nat) (s : Str) :
    rep n (chr p) s ↔ s.length = n ∧ s.all p = true := by
  induction n generalizing s with
  | zero => simp [rep]; rintro rfl; simp
  | succ n ih =>
    constructor
    · rintro ⟨_, b, rfl, ⟨c, rfl, hc⟩, hb⟩
      rw [ih] at hb
      simp [hb.1, hc]; simpa using hb.2
    · rintro ⟨h1, h2⟩
      cases s with
      | nil => simp at h1
      | cons c r =>
        simp at h1 h2
        exact ⟨[c], r, rfl, ⟨c, rfl, h2.1⟩, (ih r).2 ⟨h1, by simpa using h2.2⟩⟩

theorem maxLengthX_iff (s : Str) :
    maxLengthX s ↔ 1 ≤ s.length ∧ s.length ≤ 5 ∧ s.all isDigit = true := by
  simp only [maxLengthX, between, rep_chr, DIGIT_eq]
  constructor
  · rintro ⟨k, h1, h2, rfl, h3⟩; exact ⟨h1, h2, h3⟩
  · rintro ⟨h1, h2, h3⟩; exact ⟨_, h1, h2, rfl, h3⟩

theorem utf8Size_one {c : Char} (h : c.toNat < 128) : c.utf8Size = 1 := by
  rw [utf8Size_eq, utf8_ascii h]; rfl

theorem blen_ascii {s : Str} (h : ∀ c ∈ s, c.toNat < 128) : blen s = s.length := by
  induction s with
  | nil => rfl
  | cons c r ih =>
    simp only [List.mem_cons, forall_eq_or_imp] at h
    rw [blen_cons, ih h.2, utf8Size_one h.1, List.length_cons]; omega

theorem isDigit_ascii {c : Char} (h : isDigit c = true) : c.toNat < 128 := by
  simp [isDigit] at h; omega

theorem blen_digits {s : Str} (h : s.all isDigit = true) : blen s = s.length := by
  refine blen_ascii fun c hc => isDigit_ascii ?_
  simp at h; exact h c hc

theorem charPosition_none (p : Char → Bool) (s : Str) :
    charPosition p s = none ↔ ∀ c ∈ s, p c = false := by
  induction s with
  | nil => simp [charPosition]
  | cons c r ih =>
    unfold charPosition
    cases h : p c <;> simp [h, ih]

theorem maxlen_ok (n : Nat) (s : Str) (o : Nat) :
    validate_max_len n s o = .ok () ↔ maxLengthX s := by
  rw [maxLengthX_iff]
  unfold validate_max_len
  cases h : charPosition (fun c => !isDigit c) s with
  | none =>
    rw [charPosition_none] at h
    have hd : s.all isDigit = true := by simpa using h
    rw [blen_digits hd]
    by_cases h1 : 1 ≤ s.length ∧ s.length ≤ 5
    · simp [h1, hd]
    · have : (decide (1 ≤ s.length) && decide (s.length ≤ 5)) = false := by simpa using h1
      simp only [this]
      simp only [Bool.not_false, if_true]
      constructor
      · intro h; cases h
      · rintro ⟨a, b, _⟩; exact absurd ⟨a, b⟩ h1
  | some pos =>
    have hd : ¬ s.all isDigit = true := by
      intro hd
      have : charPosition (fun c => !isDigit c) s = none := by
        rw [charPosition_none]; simpa using hd
      rw [this] at h; cases h
    constructor
    · intro h; simp only at h; split at h <;> cases h
    · rintro ⟨_, _, h3⟩; exact absurd h3 hd

theorem maxlen_ne_panic (n : Nat) (s : Str) (o : Nat) : validate_max_len n s o ≠ .panic := by
  unfold validate_max_len
  repeat' split
  all_goals simp

theorem NameP.no_sep {s : Str} (h : NameP s) :
    ∀ c ∈ s, (c == ':' || c == '*') = false := by
  intro c hc
  simp only [Bool.or_eq_false_iff, beq_eq_false_iff_ne]
  constructor
  · rintro rfl; exact h.not_mem (by decide) (by decide) (by decide) hc
  · rintro rfl; exact h.not_mem (by decide) (by decide) (by decide) hc

theorem Var.name_ok {v : Var} (h : v.WF varnameX maxLengthX) : NameP v.name :=
  (varnameX_iff _).1 h.1

theorem varspec_ok (s : Str) (o : Nat) : validate_varspec s o = .ok () ↔ SpecP s := by
  constructor
  · intro h
    unfold validate_varspec at h
    cases hs : find_split2_hole s ':' '*' with
    | none =>
      rw [hs] at h
      exact ⟨⟨s, .none⟩, ⟨(varnameX_iff _).2 ((varname_ok _ _).1 h), trivial⟩, by simp [Var.render]⟩
    | some x =>
      obtain ⟨n, c, r⟩ := x
      rw [hs] at h
      simp only at h
      obtain ⟨e, hc, _⟩ := findSplitHoleP_some.1 hs
      split at h
      · next hc' =>
        subst hc'
        cases hn : validate_varname n o with
        | ok a =>
          rw [hn] at h
          exact ⟨⟨n, .pre r⟩, ⟨(varnameX_iff _).2 ((varname_ok _ _).1 hn),
            (maxlen_ok _ _ _).1 h⟩, by simp [Var.render, e]⟩
        | err => rw [hn] at h; cases h
        | panic => rw [hn] at h; cases h
      · next hc' =>
        have : c = '*' := by simpa [hc'] using hc
        subst this
        cases hn : validate_varname n o with
        | ok a =>
          rw [hn] at h
          simp only [Res.bind] at h
          have hr : r = [] := by
            cases r with
            | nil => rfl
            | cons => simp at h
          subst hr
          exact ⟨⟨n, .explode⟩, ⟨(varnameX_iff _).2 ((varname_ok _ _).1 hn), trivial⟩,
            by simp [Var.render, e]⟩
        | err => rw [hn] at h; cases h
        | panic => rw [hn] at h; cases h
  · rintro ⟨⟨n, m⟩, h, rfl⟩
    have hn : NameP n := Var.name_ok h
    have ho := (varname_ok n o).2 hn
    unfold validate_varspec
    cases m with
    | none =>
      have : find_split2_hole (Var.render ⟨n, .none⟩) ':' '*' = none := by
        simp only [Var.render, List.append_nil]
        exact findSplitHoleP_none.2 hn.no_sep
      rw [this]
      simpa [Var.render] using ho
    | pre ds =>
      have : find_split2_hole (Var.render ⟨n, .pre ds⟩) ':' '*' = some (n, ':', ds) := by
        simp only [Var.render]
        exact findSplitHoleP_eq (by decide) hn.no_sep
      rw [this]
      simp only [if_true, ho, Res.bind]
      exact (maxlen_ok _ _ _).2 h.2
    | explode =>
      have : find_split2_hole (Var.render ⟨n, .explode⟩) ':' '*' = some (n, '*', []) := by
        simp only [Var.render]
        exact findSplitHoleP_eq (by decide) hn.no_sep
      rw [this]
      simp [ho, Res.bind]

theorem varspec_ne_panic (s : Str) (o : Nat) : validate_varspec s o ≠ .panic := by
  unfold validate_varspec
  have hv : ∀ n, validate_varname n o ≠ .panic := by
    intro n; rcases varname_res n o with h | h <;> rw [h] <;> simp
  have hb : ∀ n (f : Unit → Res Unit), (∀ u, f u ≠ .panic) → (validate_varname n o).bind f ≠ .panic := by
    intro n f hf
    rcases varname_res n o with h | h <;> rw [h]
    · exact hf ()
    · simp [Res.bind]
  split
  · split
    · exact hb _ _ fun _ => maxlen_ne_panic _ _ _
    · refine hb _ _ fun _ => ?_
      split <;> simp
  · exact hv _

/-! ### Variable lists -/

theorem splitComma_ne_nil (s : Str) : splitComma s ≠ [] := by
  cases s with
  | nil => simp [splitComma]
  | cons c r =>
    unfold splitComma
    split
    · simp
    · split <;> simp

theorem splitComma_no_comma {s : Str} (h : ',' ∉ s) : splitComma s = [s] := by
  induction s with
  | nil => rfl
  | cons c r ih =>
    simp at h
    have hc : (c == ',') = false := by simp; exact fun e => h.1 e.symm
    simp [splitComma, hc, ih h.2]

theorem splitComma_append {a : Str} (h : ',' ∉ a) (b : Str) :
    splitComma (a ++ ',' :: b) = a :: splitComma b := by
  induction a with
  | nil => simp [splitComma]
  | cons c r ih =>
    simp at h
    have hc : (c == ',') = false := by simp; exact fun e => h.1 e.symm
    simp [splitComma, hc, ih h.2]

theorem joinWith_splitComma (s : Str) : joinWith [','] (splitComma s) = s := by
  induction s with
  | nil => rfl
  | cons c r ih =>
    unfold splitComma
    split
    · next h =>
      simp at h; subst h
      cases hr : splitComma r with
      | nil => exact absurd hr (splitComma_ne_nil r)
      | cons p ps => rw [hr] at ih; simp [joinWith, ih]
    · cases hr : splitComma r with
      | nil => exact absurd hr (splitComma_ne_nil r)
      | cons p ps =>
        rw [hr] at ih
        simp only
        cases ps with
        | nil => simp [joinWith] at ih ⊢; exact ih
        | cons q qs => simp [joinWith] at ih ⊢; exact ih

theorem splitComma_joinWith {ps : List Str} (h0 : ps ≠ []) (h : ∀ p ∈ ps, ',' ∉ p) :
    splitComma (joinWith [','] ps) = ps := by
  induction ps with
  | nil => exact absurd rfl h0
  | cons p ps ih =>
    simp only [List.mem_cons, forall_eq_or_imp] at h
    cases ps with
    | nil => exact splitComma_no_comma h.1
    | cons q qs =>
      simp only [joinWith, List.append_assoc, List.singleton_append]
      rw [splitComma_append h.1, ih (by simp) h.2]

theorem varspecs_ok (first : Bool) (vs : List Str) (o : Nat) :
    validateVarspecs first vs o = .ok () ↔ ∀ v ∈ vs, SpecP v := by
  induction vs generalizing first o with
  | nil => simp [validateVarspecs]
  | cons v vs ih =>
    unfold validateVarspecs
    simp only [List.mem_cons, forall_eq_or_imp]
    generalize (if first = true then o else o + 1) = o'
    rw [← varspec_ok v o']
    cases h : validate_varspec v o' with
    | ok a => simp [Res.bind, ih]
    | err => simp [Res.bind]
    | panic => simp [Res.bind]

theorem varspecs_ne_panic (first : Bool) (vs : List Str) (o : Nat) :
    validateVarspecs first vs o ≠ .panic := by
  induction vs generalizing first o with
  | nil => simp [validateVarspecs]
  | cons v vs ih =>
    unfold validateVarspecs
    generalize (if first = true then o else o + 1) = o'
    have := varspec_ne_panic v o'
    cases h : validate_varspec v o' with
    | ok a => simp only [h]; exact ih _ _
    | err => simp only [h]; simp [Res.bind]
    | panic => exact absurd h this

theorem SpecP.no_comma {s : Str} (h : SpecP s) : ',' ∉ s := by
  obtain ⟨⟨n, m⟩, hv, rfl⟩ := h
  have hn : NameP n := Var.name_ok hv
  have h1 : ',' ∉ n := hn.not_mem (by decide) (by decide) (by decide)
  cases m with
  | none => simp [Var.render, h1]
  | explode => simp [Var.render, h1]
  | pre ds =>
    have := ((maxLengthX_iff ds).1 hv.2).2.2
    simp only [Var.render, List.mem_append, List.mem_cons, not_or]
    refine ⟨h1, by decide, fun h => ?_⟩
    simp at this
    exact absurd (this _ h) (by decide)

theorem SpecP.no_brace {s : Str} (h : SpecP s) : '}' ∉ s := by
  obtain ⟨⟨n, m⟩, hv, rfl⟩ := h
  have hn : NameP n := Var.name_ok hv
  have h1 : '}' ∉ n := hn.not_mem (by decide) (by decide) (by decide)
  cases m with
  | none => simp [Var.render, h1]
  | explode => simp [Var.render, h1]
  | pre ds =>
    have := ((maxLengthX_iff ds).1 hv.2).2.2
    simp only [Var.render, List.mem_append, List.mem_cons, not_or]
    refine ⟨h1, by decide, fun h => ?_⟩
    simp at this
    exact absurd (this _ h) (by decide)

theorem SpecP.head {s : Str} (h : SpecP s) : ∃ c r, s = c :: r ∧ startsVarList c = true := by
  obtain ⟨⟨n, m⟩, hv, rfl⟩ := h
  have hn : NameP n := Var.name_ok hv
  obtain ⟨c, r, h1, h2⟩ := hn.head
  subst h1
  exact ⟨c, _, rfl, h2⟩

/-- The texts of accepted variable lists. -/
def ListP (s : Str) : Prop := ∀ p ∈ splitComma s, SpecP p

theorem listP_iff (s : Str) :
    ListP s ↔ ∃ vars : List Var, vars ≠ [] ∧ (∀ v ∈ vars, v.WF varnameX maxLengthX) ∧
      joinWith [','] (vars.map Var.render) = s := by
  constructor
  · intro h
    have : ∀ ps : List Str, (∀ p ∈ ps, SpecP p) →
        ∃ vars : List Var, (∀ v ∈ vars, v.WF varnameX maxLengthX) ∧ vars.map Var.render = ps := by
      intro ps
      induction ps with
      | nil => intro _; exact ⟨[], by simp, rfl⟩
      | cons p ps ih =>
        intro h
        simp only [List.mem_cons, forall_eq_or_imp] at h
        obtain ⟨v, hv, rfl⟩ := h.1
        obtain ⟨vs, hvs, rfl⟩ := ih h.2
        exact ⟨v :: vs, by simpa using ⟨hv, hvs⟩, rfl⟩
    obtain ⟨vars, h1, h2⟩ := this _ h
    refine ⟨vars, ?_, h1, by rw [h2, joinWith_splitComma]⟩
    rintro rfl
    exact splitComma_ne_nil s h2.symm
  · rintro ⟨vars, h0, h1, rfl⟩ p hp
    rw [splitComma_joinWith (by simpa using h0)] at hp
    · simp at hp
      obtain ⟨v, hv, rfl⟩ := hp
      exact ⟨v, h1 v hv, rfl⟩
    · intro p hp
      simp at hp
      obtain ⟨v, hv, rfl⟩ := hp
      exact SpecP.no_comma ⟨v, h1 v hv, rfl⟩

theorem mem_joinWith {sep : Str} {ps : List Str} {c : Char} (h : c ∈ joinWith sep ps) :
    c ∈ sep ∨ ∃ p ∈ ps, c ∈ p := by
  induction ps with
  | nil => simp [joinWith] at h
  | cons p ps ih =>
    cases ps with
    | nil => simp [joinWith] at h; exact .inr ⟨p, by simp, h⟩
    | cons q qs =>
      simp only [joinWith, List.mem_append] at h
      rcases h with (h | h) | h
      · exact .inr ⟨p, by simp, h⟩
      · exact .inl h
      · rcases ih h with h | ⟨p', h1, h2⟩
        · exact .inl h
        · exact .inr ⟨p', by simp at h1 ⊢; exact .inr h1, h2⟩

theorem ListP.no_brace {s : Str} (h : ListP s) : '}' ∉ s := by
  intro hb
  rw [← joinWith_splitComma s] at hb
  rcases mem_joinWith hb with hb | ⟨p, hp, hb⟩
  · simp at hb
  · exact (h p hp).no_brace hb

theorem ListP.head {s : Str} (h : ListP s) : ∃ c r, s = c :: r ∧ startsVarList c = true := by
  cases hs : splitComma s with
  | nil => exact absurd hs (splitComma_ne_nil s)
  | cons p ps =>
    obtain ⟨c, r, rfl, hc⟩ := (h p (by rw [hs]; simp)).head
    have := joinWith_splitComma s
    rw [hs] at this
    cases ps with
    | nil => exact ⟨c, r, this.symm, hc⟩
    | cons q qs => exact ⟨c, _, this.symm, hc⟩

/-! ### Expressions -/

theorem startsVarList_ascii {c : Char} (h : startsVarList c = true) : c.toNat < 128 := by
  simp [startsVarList, isDigit, isAlpha, char_eq_iff] at h; omega

theorem maybeOp_cases (c : Char) :
    (isOp c = true ∧ startsVarList c = false ∧ ∃ op, MaybeOperator.from_byte c = some (.operator op) ∧
      Operator.from_byte c = some op) ∨
    (isOp c = false ∧ startsVarList c = false ∧ MaybeOperator.from_byte c = some .reserved) ∨
    (isOp c = false ∧ MaybeOperator.from_byte c = none) := by
  by_cases h1 : c = '+'
  · subst h1; exact .inl ⟨by decide, by decide, _, rfl, by decide⟩
  by_cases h2 : c = '#'
  · subst h2; exact .inl ⟨by decide, by decide, _, rfl, by decide⟩
  by_cases h3 : c = '.'
  · subst h3; exact .inl ⟨by decide, by decide, _, rfl, by decide⟩
  by_cases h4 : c = '/'
  · subst h4; exact .inl ⟨by decide, by decide, _, rfl, by decide⟩
  by_cases h5 : c = ';'
  · subst h5; exact .inl ⟨by decide, by decide, _, rfl, by decide⟩
  by_cases h6 : c = '?'
  · subst h6; exact .inl ⟨by decide, by decide, _, rfl, by decide⟩
  by_cases h7 : c = '&'
  · subst h7; exact .inl ⟨by decide, by decide, _, rfl, by decide⟩
  by_cases h8 : c = '='
  · subst h8; exact .inr (.inl ⟨by decide, by decide, rfl⟩)
  by_cases h9 : c = ','
  · subst h9; exact .inr (.inl ⟨by decide, by decide, rfl⟩)
  by_cases h10 : c = '!'
  · subst h10; exact .inr (.inl ⟨by decide, by decide, rfl⟩)
  by_cases h11 : c = '@'
  · subst h11; exact .inr (.inl ⟨by decide, by decide, rfl⟩)
  by_cases h12 : c = '|'
  · subst h12; exact .inr (.inl ⟨by decide, by decide, rfl⟩)
  refine .inr (.inr ⟨by simp [isOp, *], by simp [MaybeOperator.from_byte, *]⟩)

/-- The accepted expression bodies. -/
def BodyP (s : Str) : Prop :=
  ListP s ∨ ∃ c r, s = c :: r ∧ isOp c = true ∧ ListP r

theorem startsVarList_not_op {c : Char} (h : startsVarList c = true) : isOp c = false := by
  rcases maybeOp_cases c with ⟨_, h2, _⟩ | ⟨_, h2, _⟩ | ⟨h1, _⟩
  · rw [h] at h2; cases h2
  · rw [h] at h2; cases h2
  · exact h1

theorem startsVarList_from_byte {c : Char} (h : startsVarList c = true) :
    MaybeOperator.from_byte c = none := by
  rcases maybeOp_cases c with ⟨_, h2, _⟩ | ⟨_, h2, _⟩ | ⟨_, h1⟩
  · rw [h] at h2; cases h2
  · rw [h] at h2; cases h2
  · exact h1

theorem body_ok (s : Str) (o : Nat) : validate_expr_body s o = .ok () ↔ BodyP s := by
  cases s with
  | nil =>
    simp only [validate_expr_body, BodyP]
    constructor
    · intro h; cases h
    · rintro (h | ⟨_, _, h, _⟩)
      · obtain ⟨_, _, h, _⟩ := h.head; cases h
      · cases h
  | cons c r =>
    simp only [validate_expr_body]
    rcases maybeOp_cases c with ⟨h1, h2, op, h3, _⟩ | ⟨h1, h2, h3⟩ | ⟨h1, h3⟩
    · rw [h3]
      simp only [varspecs_ok]
      constructor
      · intro h; exact .inr ⟨c, r, rfl, h1, h⟩
      · rintro (h | ⟨_, _, e, _, h⟩)
        · obtain ⟨c', r', e, hc⟩ := h.head
          cases e; rw [hc] at h2; cases h2
        · cases e; exact h
    · rw [h3]
      constructor
      · intro h; cases h
      · rintro (h | ⟨_, _, e, h, _⟩)
        · obtain ⟨c', r', e, hc⟩ := h.head
          cases e; rw [hc] at h2; cases h2
        · cases e; rw [h] at h1; cases h1
    · rw [h3]
      simp only [varspecs_ok]
      constructor
      · intro h; exact .inl h
      · rintro (h | ⟨_, _, e, h, _⟩)
        · exact h
        · cases e; rw [h] at h1; cases h1

theorem body_ne_panic (s : Str) (o : Nat) : validate_expr_body s o ≠ .panic := by
  unfold validate_expr_body
  split
  · simp
  · split
    · exact varspecs_ne_panic _ _ _
    · simp
    · exact varspecs_ne_panic _ _ _

theorem isOp_ne_brace {c : Char} (h : isOp c = true) : c ≠ '}' := by
  rintro rfl; exact absurd h (by decide)

theorem BodyP.no_brace {s : Str} (h : BodyP s) : '}' ∉ s := by
  rcases h with h | ⟨c, r, rfl, h1, h2⟩
  · exact h.no_brace
  · simp only [List.mem_cons, not_or]
    exact ⟨(isOp_ne_brace h1).symm, h2.no_brace⟩

theorem bodyP_iff (s : Str) :
    BodyP s ↔ ∃ op vars, Piece.WF asciiLiterals varnameX maxLengthX (.expr op vars) ∧
      Piece.render (.expr op vars) = '{' :: (s ++ ['}']) := by
  constructor
  · rintro (h | ⟨c, r, rfl, h1, h2⟩)
    · obtain ⟨vars, g0, g1, g2⟩ := (listP_iff s).1 h
      exact ⟨none, vars, ⟨by simp, g0, g1⟩, by simp [Piece.render, g2]⟩
    · obtain ⟨vars, g0, g1, g2⟩ := (listP_iff r).1 h2
      exact ⟨some c, vars, ⟨by simp [h1], g0, g1⟩, by simp [Piece.render, g2]⟩
  · rintro ⟨op, vars, ⟨h1, h2, h3⟩, h⟩
    simp only [Piece.render, List.cons.injEq, true_and, List.append_cancel_right_eq] at h
    have hl : ListP (joinWith [','] (vars.map Var.render)) := (listP_iff _).2 ⟨vars, h2, h3, rfl⟩
    cases op with
    | none => left; rw [← h]; simpa using hl
    | some c => right; exact ⟨c, _, h.symm, h1 c rfl, hl⟩

/-! ### The whole template -/

/-- Outcome without the error details. -/
def K {α : Type} : Res α → Option Bool
  | .panic => none
  | .err _ _ => some false
  | .ok _ => some true

theorem K_eq_true {r : Res Unit} : K r = some true ↔ r = .ok () := by
  cases r <;> simp [K]

theorem K_eq_none {α : Type} {r : Res α} : K r = none ↔ r = .panic := by
  cases r <;> simp [K]

theorem literal_ok (s : Str) (o : Nat) : validate_literal s o = .ok () ↔ s.all literalChar = true := by
  unfold validate_literal
  simp only [not_literal_eq]
  cases h : charPosition (fun c => !literalChar c) s with
  | none => rw [charPosition_none] at h; simpa using h
  | some p =>
    simp only [reduceCtorEq, false_iff]
    intro hh
    have : charPosition (fun c => !literalChar c) s = none := by
      rw [charPosition_none]; simpa using hh
    rw [this] at h; cases h

theorem K_literal (s : Str) (o : Nat) : K (validate_literal s o) = some (s.all literalChar) := by
  have := literal_ok s o
  cases h : validate_literal s o with
  | ok a => rw [h] at this; simp at this; simp [K]; simpa using this
  | err =>
    rw [h] at this; simp only [reduceCtorEq, false_iff] at this
    simp only [K]; congr 1; symm; simpa using this
  | panic => unfold validate_literal at h; split at h <;> cases h

/-- What the `%` arm does with the text after `%`. -/
def pctOut (after : Str) : Res Str :=
  if blen after < 2 then .err .invalidPercentEncoding 0
  else
    match splitAtB after 2 with
    | none => .panic
    | some (x, r) =>
      if isHexB ((utf8s x).getD 0 0) && isHexB ((utf8s x).getD 1 0) then .ok r
      else .err .invalidPercentEncoding 0

/-- What the `{` arm does with the text after `{`. -/
def exprOut (after : Str) : Res Str :=
  match find_split_hole after '}' with
  | none => .err .expressionNotClosed 0
  | some (b, r) => (validate_expr_body b 0).bind fun _ => .ok r

/-- Equal up to the error details. -/
def Sim {α : Type} (a b : Res α) : Prop :=
  (a = .panic ∧ b = .panic) ∨ (∃ k l k' l', a = .err k l ∧ b = .err k' l') ∨
  (∃ x, a = .ok x ∧ b = .ok x)

theorem Sim.bind {α β : Type} {a a' : Res α} {f f' : α → Res β} (h : Sim a a')
    (hf : ∀ x, K (f x) = K (f' x)) : K (a.bind f) = K (a'.bind f') := by
  rcases h with ⟨rfl, rfl⟩ | ⟨k, l, k', l', rfl, rfl⟩ | ⟨x, rfl, rfl⟩
  · rfl
  · rfl
  · exact hf x

theorem validatePct_sim {lit after : Str} {o : Nat} (h : lit.all literalChar = true) :
    Sim (validatePct lit after o) (pctOut after) := by
  unfold validatePct pctOut
  rw [(literal_ok lit o).2 h]
  simp only [Res.bind]
  split
  · exact .inr (.inl ⟨_, _, _, _, rfl, rfl⟩)
  · cases hs : splitAtB after 2 with
    | none => exact .inl ⟨rfl, rfl⟩
    | some p =>
      obtain ⟨x, r⟩ := p
      simp only
      cases h1 : isHexB ((utf8s x).getD 0 0)
      · exact .inr (.inl ⟨_, _, _, _, rfl, rfl⟩)
      · cases h2 : isHexB ((utf8s x).getD 1 0)
        · exact .inr (.inl ⟨_, _, _, _, rfl, rfl⟩)
        · exact .inr (.inr ⟨r, rfl, rfl⟩)

theorem body_sim (b : Str) (o o' : Nat) (r : Str) :
    Sim ((validate_expr_body b o).bind fun _ => Res.ok r)
      ((validate_expr_body b o').bind fun _ => Res.ok r) := by
  have h1 := body_ne_panic b o
  have h2 := body_ne_panic b o'
  have h3 := body_ok b o
  have h4 := body_ok b o'
  cases e : validate_expr_body b o with
  | panic => exact absurd e h1
  | ok a =>
    have := h4.2 (h3.1 e)
    rw [this]; exact .inr (.inr ⟨r, rfl, rfl⟩)
  | err k l =>
    cases e' : validate_expr_body b o' with
    | panic => exact absurd e' h2
    | err k' l' => exact .inr (.inl ⟨_, _, _, _, rfl, rfl⟩)
    | ok a =>
      have := h3.2 (h4.1 e'); rw [this] at e; cases e

theorem validateExpr_sim {lit after : Str} {o : Nat} (h : lit.all literalChar = true) :
    Sim (validateExpr lit after o) (exprOut after) := by
  unfold validateExpr exprOut
  rw [(literal_ok lit o).2 h]
  show Sim (match find_split_hole after '}' with
    | none => _
    | some (expr, new_rest) => _) _
  cases hs : find_split_hole after '}' with
  | none => exact .inr (.inl ⟨_, _, _, _, rfl, rfl⟩)
  | some p => exact body_sim _ _ _ _

/-- What the loop does with the text from a `%` or `{` on. -/
def armOut (c : Char) (after : Str) : Res Str := if c = '%' then pctOut after else exprOut after

theorem arm_sim {lit after : Str} {c : Char} {o : Nat} (h : lit.all literalChar = true) :
    Sim (if c = '%' then validatePct lit after o else validateExpr lit after o) (armOut c after) := by
  unfold armOut
  split
  · exact validatePct_sim h
  · exact validateExpr_sim h

theorem arm_bad {lit after : Str} {c : Char} {o : Nat} (h : lit.all literalChar = false)
    (f : Str → Res Unit) :
    K ((if c = '%' then validatePct lit after o else validateExpr lit after o).bind f) = some false := by
  have hk := K_literal lit o
  rw [h] at hk
  cases e : validate_literal lit o with
  | panic => rw [e] at hk; cases hk
  | ok => rw [e] at hk; cases hk
  | err =>
    split
    · unfold validatePct; rw [e]; rfl
    · unfold validateExpr; rw [e]; rfl

/-- The `rest` after an arm is shorter. -/
theorem armOut_shorter {c : Char} {after r : Str} (h : armOut c after = .ok r) :
    r.length ≤ after.length := by
  unfold armOut at h
  split at h
  · unfold pctOut at h
    split at h
    · cases h
    · split at h
      · cases h
      · next x r' hs =>
        split at h
        · simp at h; subst h
          obtain ⟨e, _⟩ := splitAtB_some.1 hs
          rw [e]; simp
        · cases h
  · unfold exprOut at h
    split at h
    · cases h
    · next b r' hs =>
      obtain ⟨e, _⟩ := find_split_hole_some.1 hs
      cases hb : validate_expr_body b 0 with
      | ok => rw [hb] at h; simp [Res.bind] at h; subst h; rw [e]; simp; omega
      | err => rw [hb] at h; cases h
      | panic => rw [hb] at h; cases h

/-- The loop without error details. -/
theorem loop_eq (f total : Nat) (s : Str) (o : Nat) :
    K (validateLoop (f + 1) total s o) =
      match find_split2_hole s '%' '{' with
      | some (lit, c, after) =>
        if lit.all literalChar then
          K ((armOut c after).bind fun r => validateLoop f total r (total - blen r))
        else some false
      | none => some (s.all literalChar) := by
  rw [validateLoop]
  cases s with
  | nil => rfl
  | cons c r =>
    simp only [List.isEmpty_cons, Bool.false_eq_true, if_false]
    cases h : find_split2_hole (c :: r) '%' '{' with
    | none => simp only; rw [K_literal]
    | some x =>
      obtain ⟨lit, d, after⟩ := x
      simp only
      cases hl : lit.all literalChar
      · simp only [Bool.false_eq_true, if_false]; exact arm_bad hl _
      · simp only [if_true]; exact (arm_sim hl).bind fun _ => rfl

theorem K_bind_congr {α β : Type} {a : Res α} {f f' : α → Res β}
    (h : ∀ x, a = .ok x → K (f x) = K (f' x)) : K (a.bind f) = K (a.bind f') := by
  cases a with
  | ok x => exact h x rfl
  | err => rfl
  | panic => rfl

theorem loop_indep : ∀ (n f f' t t' o o' : Nat) (s : Str), s.length ≤ n → s.length < f →
    s.length < f' → K (validateLoop f t s o) = K (validateLoop f' t' s o') := by
  intro n
  induction n with
  | zero =>
    intro f f' t t' o o' s h h1 h2
    have : s = [] := List.length_eq_zero_iff.1 (by omega)
    subst this
    obtain ⟨f, rfl⟩ : ∃ g, f = g + 1 := ⟨f - 1, by omega⟩
    obtain ⟨f', rfl⟩ : ∃ g, f' = g + 1 := ⟨f' - 1, by omega⟩
    rfl
  | succ n ih =>
    intro f f' t t' o o' s h h1 h2
    obtain ⟨f, rfl⟩ : ∃ g, f = g + 1 := ⟨f - 1, by omega⟩
    obtain ⟨f', rfl⟩ : ∃ g, f' = g + 1 := ⟨f' - 1, by omega⟩
    rw [loop_eq, loop_eq]
    cases hs : find_split2_hole s '%' '{' with
    | none => rfl
    | some x =>
      obtain ⟨lit, c, after⟩ := x
      simp only
      split
      · refine K_bind_congr fun r hr => ?_
        have := armOut_shorter hr
        obtain ⟨e, _⟩ := findSplitHoleP_some.1 hs
        rw [e] at h h1 h2
        simp at h h1 h2
        exact ih _ _ _ _ _ _ _ (by omega) (by omega) (by omega)
      · rfl

/-- Outcome of validation, without error details. -/
def val (s : Str) : Option Bool := K (validate_template_str s)

theorem val_eq (s : Str) :
    val s =
      match find_split2_hole s '%' '{' with
      | some (lit, c, after) =>
        if lit.all literalChar then
          K ((armOut c after).bind fun r => validate_template_str r)
        else some false
      | none => some (s.all literalChar) := by
  unfold val validate_template_str
  rw [loop_eq]
  cases hs : find_split2_hole s '%' '{' with
  | none => rfl
  | some x =>
    obtain ⟨lit, c, after⟩ := x
    simp only
    split
    · refine K_bind_congr fun r hr => ?_
      have := armOut_shorter hr
      obtain ⟨e, _⟩ := findSplitHoleP_some.1 hs
      refine loop_indep r.length _ _ _ _ _ _ _ (Nat.le_refl _) ?_ (by omega)
      rw [e]; simp; omega
    · rfl

theorem val_nil : val [] = some true := rfl

theorem val_cons {c : Char} {r : Str} (h1 : c ≠ '%') (h2 : c ≠ '{') :
    val (c :: r) = if literalChar c then val r else
      match find_split2_hole r '%' '{' with
      | some _ => some false
      | none => some false := by
  rw [val_eq, val_eq r]
  have h : find_split2_hole (c :: r) '%' '{' =
      (find_split2_hole r '%' '{').map fun x => (c :: x.1, x.2) := by
    simp [find_split2_hole, findSplitHoleP, h1, h2]
  rw [h]
  cases hs : find_split2_hole r '%' '{' with
  | none => simp; cases literalChar c <;> simp
  | some x =>
    obtain ⟨lit, d, after⟩ := x
    simp
    cases literalChar c <;> simp

theorem val_literal {c : Char} {r : Str} (h : literalChar c = true) : val (c :: r) = val r := by
  rw [val_cons, if_pos h]
  · rintro rfl; exact absurd h (by decide)
  · rintro rfl; exact absurd h (by decide)

theorem val_bad {c : Char} {r : Str} (h1 : c ≠ '%') (h2 : c ≠ '{') (h : literalChar c = false) :
    val (c :: r) = some false := by
  rw [val_cons h1 h2, h]
  simp; split <;> rfl

theorem val_pct (r : Str) : val ('%' :: r) = K ((pctOut r).bind fun r => validate_template_str r) := by
  rw [val_eq]; simp [find_split2_hole, findSplitHoleP, armOut]

theorem val_brace (r : Str) :
    val ('{' :: r) = K ((exprOut r).bind fun r => validate_template_str r) := by
  rw [val_eq]; simp [find_split2_hole, findSplitHoleP, armOut]

theorem isHexB_toNat (c : Char) : isHexB c.toNat = isHex c := by simp [isHexB]

theorem isHex_ascii {c : Char} (h : isHex c = true) : c.toNat < 128 := by
  simp [isHex] at h; omega

theorem pctOut_hex {h l : Char} (h1 : isHex h = true) (h2 : isHex l = true) (r : Str) :
    pctOut (h :: l :: r) = .ok r := by
  have a1 := isHex_ascii h1
  have a2 := isHex_ascii h2
  have e : splitAtB (h :: l :: r) 2 = some ([h, l], r) := by
    refine splitAtB_some.2 ⟨rfl, ?_⟩
    simp [blen, utf8Size_one a1, utf8Size_one a2]
  unfold pctOut
  rw [if_neg (by simp [utf8Size_one a1, utf8Size_one a2]; omega), e]
  simp [utf8s, utf8_ascii a1, utf8_ascii a2, isHexB_toNat, h1, h2]

theorem isHexB_lt {b : Nat} (h : isHexB b = true) (hb : b < 256) : b < 128 := by
  have := isHex_ascii h
  have e : (Char.ofNat b).toNat = b := by
    have hv : b.isValidChar := by simp [Nat.isValidChar]; omega
    simp [Char.ofNat, hv, Char.toNat, Char.ofNatAux]
  rw [e] at this; exact this

theorem pctOut_ok {a r : Str} (h : pctOut a = .ok r) :
    ∃ x y, a = x :: y :: r ∧ isHex x = true ∧ isHex y = true := by
  unfold pctOut at h
  split at h
  · cases h
  · split at h
    · cases h
    · next z r' hs =>
      obtain ⟨e, hl⟩ := splitAtB_some.1 hs
      split at h
      · next hx =>
        simp at h; subst h
        simp only [Bool.and_eq_true] at hx
        cases z with
        | nil => simp at hl
        | cons c z =>
          have hc : c.toNat < 128 := by
            by_cases hh : c.toNat < 128
            · exact hh
            · exfalso
              have hu := utf8_nonascii (c := c) (by omega)
              cases hq : utf8 c with
              | nil => exact utf8_ne_nil c hq
              | cons b bs =>
                rw [hq] at hu
                have := hu b (by simp)
                have hx1 := hx.1
                simp [utf8s, hq] at hx1
                have := isHexB_lt hx1 this.2
                omega
          cases z with
          | nil => simp [utf8Size_one hc] at hl
          | cons d z =>
            have hd : d.toNat < 128 := by
              by_cases hh : d.toNat < 128
              · exact hh
              · exfalso
                have hu := utf8_nonascii (c := d) (by omega)
                cases hq : utf8 d with
                | nil => exact utf8_ne_nil d hq
                | cons b bs =>
                  rw [hq] at hu
                  have := hu b (by simp)
                  have hx1 := hx.2
                  simp [utf8s, utf8_ascii hc, hq] at hx1
                  have := isHexB_lt hx1 this.2
                  omega
            have hz : z = [] := by
              simp [utf8Size_one hc, utf8Size_one hd] at hl
              exact blen_eq_zero.1 (by omega)
            subst hz
            refine ⟨c, d, e, ?_, ?_⟩
            · have := hx.1; simpa [utf8s, utf8_ascii hc, isHexB_toNat] using this
            · have := hx.2; simpa [utf8s, utf8_ascii hc, utf8_ascii hd, isHexB_toNat] using this
      · cases h

theorem exprOut_ok {a r : Str} :
    exprOut a = .ok r ↔ ∃ b, a = b ++ '}' :: r ∧ BodyP b := by
  constructor
  · intro h
    unfold exprOut at h
    split at h
    · cases h
    · next b r' hs =>
      obtain ⟨e, _⟩ := find_split_hole_some.1 hs
      cases hb : validate_expr_body b 0 with
      | ok =>
        rw [hb] at h; simp [Res.bind] at h; subst h
        exact ⟨b, e, (body_ok _ _).1 hb⟩
      | err => rw [hb] at h; cases h
      | panic => rw [hb] at h; cases h
  · rintro ⟨b, rfl, hb⟩
    unfold exprOut
    rw [find_split_hole_eq hb.no_brace]
    simp [(body_ok b 0).2 hb, Res.bind]

theorem exprOut_ne_panic (a : Str) : exprOut a ≠ .panic := by
  unfold exprOut
  split
  · simp
  · next b r _ =>
    have := body_ne_panic b 0
    cases hb : validate_expr_body b 0 with
    | ok => simp [Res.bind]
    | err => simp [Res.bind]
    | panic => exact absurd hb this

/-- `val` of a piece followed by anything. -/
theorem val_piece {p : Piece} (h : p.WF asciiLiterals varnameX maxLengthX) (r : Str) :
    val (p.render ++ r) = val r := by
  cases p with
  | lit s =>
    rcases h with ⟨c, rfl, hc⟩ | h
    · exact val_literal hc
    · obtain ⟨x, y, rfl, h1, h2⟩ := (pct_encoded_iff _).1 h
      simp only [Piece.render, List.cons_append, List.nil_append]
      rw [val_pct, pctOut_hex h1 h2]
      rfl
  | expr op vars =>
    have : BodyP (op.toList ++ joinWith [','] (vars.map Var.render)) :=
      (bodyP_iff _).2 ⟨op, vars, h, rfl⟩
    simp only [Piece.render, List.cons_append, List.append_assoc, List.nil_append]
    rw [val_brace]
    rw [exprOut_ok.2 ⟨_, by rw [List.append_assoc], this⟩]
    rfl

theorem val_render {t : List Piece} (h : Accepted t) (r : Str) : val (text t ++ r) = val r := by
  induction t with
  | nil => rfl
  | cons p t ih =>
    rw [Accepted] at h
    simp only [List.mem_cons, forall_eq_or_imp] at h
    simp only [text, List.flatMap_cons, List.append_assoc]
    rw [val_piece h.1]
    exact ih h.2

/-- Every text is a maximal sequence of accepted parts followed by something. -/
theorem val_parse : ∀ (n : Nat) (s : Str), s.length ≤ n →
    ∃ t r, Accepted t ∧ s = text t ++ r ∧
      (r = [] ∨ (val r = some false) ∨ ∃ r', r = '%' :: r' ∧ pctOut r' = .panic) := by
  intro n
  induction n with
  | zero =>
    intro s h
    have : s = [] := List.length_eq_zero_iff.1 (by omega)
    subst this
    exact ⟨[], [], by simp [Accepted], rfl, .inl rfl⟩
  | succ n ih =>
    intro s hn
    have step : ∀ (p : Piece) (r : Str), p.WF asciiLiterals varnameX maxLengthX → s = p.render ++ r →
        r.length ≤ n → ∃ t r, Accepted t ∧ s = text t ++ r ∧
          (r = [] ∨ (val r = some false) ∨ ∃ r', r = '%' :: r' ∧ pctOut r' = .panic) := by
      intro p r hp e hr
      obtain ⟨t, r', ht, e', hr'⟩ := ih r hr
      refine ⟨p :: t, r', ?_, ?_, hr'⟩
      · simp only [Accepted, List.mem_cons, forall_eq_or_imp]; exact ⟨hp, ht⟩
      · rw [e, e']; simp [text]
    have stop : val s = some false → ∃ t r, Accepted t ∧ s = text t ++ r ∧
          (r = [] ∨ (val r = some false) ∨ ∃ r', r = '%' :: r' ∧ pctOut r' = .panic) :=
      fun h => ⟨[], s, by simp [Accepted], rfl, .inr (.inl h)⟩
    cases s with
    | nil => exact ⟨[], [], by simp [Accepted], rfl, .inl rfl⟩
    | cons c r =>
      simp at hn
      by_cases h1 : c = '%'
      · subst h1
        cases hp : pctOut r with
        | panic => exact ⟨[], '%' :: r, by simp [Accepted], rfl, .inr (.inr ⟨r, rfl, hp⟩)⟩
        | err => exact stop (by rw [val_pct, hp]; rfl)
        | ok r' =>
          obtain ⟨x, y, rfl, hx, hy⟩ := pctOut_ok hp
          refine step (.lit ['%', x, y]) r' ?_ rfl (by simp at hn; omega)
          exact .inr ((pct_encoded_iff _).2 ⟨x, y, rfl, hx, hy⟩)
      · by_cases h2 : c = '{'
        · subst h2
          cases hp : exprOut r with
          | panic => exact absurd hp (exprOut_ne_panic r)
          | err => exact stop (by rw [val_brace, hp]; rfl)
          | ok r' =>
            obtain ⟨b, rfl, hb⟩ := exprOut_ok.1 hp
            obtain ⟨op, vars, hw, hr⟩ := (bodyP_iff b).1 hb
            refine step (.expr op vars) r' hw ?_ (by simp at hn; omega)
            rw [hr]; simp
        · cases hl : literalChar c
          · exact stop (val_bad h1 h2 hl)
          · exact step (.lit [c]) r (.inl ⟨c, rfl, hl⟩) rfl (by omega)

theorem ok_iff (s : Str) :
    validate_template_str s = .ok () ↔ ∃ t, Accepted t ∧ text t = s := by
  rw [← K_eq_true]
  constructor
  · intro h
    obtain ⟨t, r, ht, rfl, hr⟩ := val_parse _ s (Nat.le_refl _)
    have hv : val r = some true := by rw [← val_render ht]; exact h
    rcases hr with rfl | hr | ⟨r', rfl, hr⟩
    · exact ⟨t, ht, by simp⟩
    · rw [hv] at hr; cases hr
    · rw [val_pct, hr] at hv; cases hv
  · rintro ⟨t, ht, rfl⟩
    have := val_render ht []
    rw [List.append_nil, val_nil] at this
    exact this

theorem panic_iff (s : Str) :
    validate_template_str s = .panic ↔
      ∃ t r, Accepted t ∧ s = text t ++ '%' :: r ∧ pctOut r = .panic := by
  rw [← K_eq_none]
  constructor
  · intro h
    obtain ⟨t, r, ht, rfl, hr⟩ := val_parse _ s (Nat.le_refl _)
    have hv : val r = none := by rw [← val_render ht]; exact h
    rcases hr with rfl | hr | ⟨r', rfl, hr⟩
    · cases hv
    · rw [hv] at hr; cases hr
    · exact ⟨t, r', ht, rfl, hr⟩
  · rintro ⟨t, r, ht, rfl, hr⟩
    have := val_render ht ('%' :: r)
    rw [val_pct, hr] at this
    exact this

theorem pctOut_panic_iff (r : Str) :
    pctOut r = .panic ↔ (∃ c r', r = c :: r' ∧ 0x800 ≤ c.toNat) ∨
      (∃ c d r', r = c :: d :: r' ∧ c.toNat < 0x80 ∧ 0x80 ≤ d.toNat) := by
  have hsz : ∀ c : Char, (c.toNat < 0x80 → c.utf8Size = 1) ∧
      (0x80 ≤ c.toNat → 2 ≤ c.utf8Size) ∧ (c.toNat < 0x800 → c.utf8Size ≤ 2) ∧
      (0x800 ≤ c.toNat → 3 ≤ c.utf8Size) := by
    intro c
    rw [utf8Size_eq]
    unfold utf8
    simp only
    refine ⟨?_, ?_, ?_, ?_⟩ <;> intro h <;> repeat' split
    all_goals simp
    all_goals omega
  unfold pctOut
  split
  · next hb =>
    simp only [reduceCtorEq, false_iff, not_or]
    constructor
    · rintro ⟨c, r', rfl, h⟩
      have := (hsz c).2.2.2 h
      simp at hb; omega
    · rintro ⟨c, d, r', rfl, h1, h2⟩
      have := (hsz d).2.1 h2
      simp at hb; omega
  · next hb =>
    split
    · next hs =>
      simp only [true_iff]
      cases r with
      | nil => simp at hb
      | cons c r' =>
        by_cases h3 : 0x800 ≤ c.toNat
        · exact .inl ⟨c, r', rfl, h3⟩
        · right
          by_cases h1 : c.toNat < 0x80
          · have e1 := (hsz c).1 h1
            cases r' with
            | nil => simp [e1] at hb
            | cons d r'' =>
              refine ⟨c, d, r'', rfl, h1, ?_⟩
              by_cases h2 : 0x80 ≤ d.toNat
              · exact h2
              · exfalso
                have e2 := (hsz d).1 (by omega)
                have : splitAtB (c :: d :: r'') 2 = some ([c, d], r'') :=
                  splitAtB_some.2 ⟨rfl, by simp [e1, e2]⟩
                rw [this] at hs; cases hs
          · exfalso
            have e1 := (hsz c).2.1 (by omega)
            have e2 := (hsz c).2.2.1 (by omega)
            have : splitAtB (c :: r') 2 = some ([c], r') :=
              splitAtB_some.2 ⟨rfl, by simp; omega⟩
            rw [this] at hs; cases hs
    · next x r' hs =>
      have : ¬ ((∃ c r', r = c :: r' ∧ 0x800 ≤ c.toNat) ∨
          (∃ c d r', r = c :: d :: r' ∧ c.toNat < 0x80 ∧ 0x80 ≤ d.toNat)) := by
        obtain ⟨e, hl⟩ := splitAtB_some.1 hs
        rintro (⟨c, r'', rfl, h⟩ | ⟨c, d, r'', rfl, h1, h2⟩)
        · have := (hsz c).2.2.2 h
          cases x with
          | nil => simp at hl
          | cons y x => simp at e; obtain ⟨rfl, _⟩ := e; simp at hl; omega
        · have e1 := (hsz c).1 h1
          have e2 := (hsz d).2.1 h2
          match x with
          | [] => simp at hl
          | [y] => simp at e; obtain ⟨rfl, _⟩ := e; simp at hl; omega
          | y :: z :: x =>
            simp at e; obtain ⟨rfl, rfl, _⟩ := e; simp at hl; omega
      simp only [this, iff_false]
      split <;> simp

end Verif.Tpl
