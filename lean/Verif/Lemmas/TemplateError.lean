import Verif.Spec.TemplateError
import Verif.Lemmas.TemplateVars

/-!
# Kinds and locations of template validation errors
-/

namespace Verif.Tpl

open Verif.Rfc6570 Verif.Abnf

/-- The same outcome, `d` bytes later. -/
def Res.shift {α : Type} (d : Nat) : Res α → Res α
  | .panic => .panic
  | .err k l => .err k (l + d)
  | .ok a => .ok a

theorem shift_bind {α β : Type} (d : Nat) (a : Res α) (f : α → Res β) :
    (a.shift d).bind (fun x => (f x).shift d) = (a.bind f).shift d := by
  cases a <;> rfl

theorem shift_shift {α : Type} (a b : Nat) (r : Res α) : (r.shift a).shift b = r.shift (a + b) := by
  cases r <;> simp [Res.shift, Nat.add_assoc]

theorem shift_zero {α : Type} (r : Res α) : r.shift 0 = r := by cases r <;> rfl

theorem bind_assoc' {α β γ : Type} (a : Res α) (f : α → Res β) (g : β → Res γ) :
    (a.bind f).bind g = a.bind fun x => (f x).bind g := by cases a <;> rfl

theorem literal_shift (s : Str) (o : Nat) : validate_literal s o = (validate_literal s 0).shift o := by
  unfold validate_literal
  split <;> simp [Res.shift, Nat.add_comm]

theorem varname_shift (s : Str) (o : Nat) : validate_varname s o = (validate_varname s 0).shift o := by
  unfold validate_varname
  split
  · simp [Res.shift]
  · split <;> simp [Res.shift]

theorem maxlen_shift (n : Nat) (s : Str) (o : Nat) :
    validate_max_len n s o = (validate_max_len n s 0).shift o := by
  unfold validate_max_len
  split
  · simp [Res.shift]; omega
  · split <;> simp [Res.shift]; omega

theorem varspec_shift (s : Str) (o : Nat) : validate_varspec s o = (validate_varspec s 0).shift o := by
  unfold validate_varspec
  split
  · split
    · rw [varname_shift, maxlen_shift, shift_bind]
    · rw [varname_shift, ← shift_bind]
      congr 1
      funext _
      split <;> simp [Res.shift]; omega
  · exact varname_shift _ _

theorem varspecs_shift (first : Bool) (vs : List Str) (o d : Nat) :
    validateVarspecs first vs (o + d) = (validateVarspecs first vs o).shift d := by
  induction vs generalizing first o with
  | nil => rfl
  | cons v vs ih =>
    rw [validateVarspecs, validateVarspecs]
    have e : (if first then o + d else o + d + 1) = (if first then o else o + 1) + d := by
      split <;> omega
    simp only [e]
    generalize (if first then o else o + 1) = q
    rw [varspec_shift v (q + d), varspec_shift v q, ← shift_shift, ← shift_bind]
    congr 1
    funext _
    rw [← ih]
    congr 1; omega

theorem body_shift (s : Str) (o : Nat) : validate_expr_body s o = (validate_expr_body s 0).shift o := by
  unfold validate_expr_body
  split
  · simp [Res.shift]
  · split
    · rw [show o + 1 = (0 + 1) + o by omega, varspecs_shift]
    · simp [Res.shift]
    · rw [show o = 0 + o by omega, varspecs_shift]; simp

theorem validatePct_shift (l a : Str) (o : Nat) :
    validatePct l a o = (validatePct l a 0).shift o := by
  unfold validatePct
  rw [literal_shift, ← shift_bind]
  congr 1
  funext _
  split
  · simp [Res.shift]; omega
  · split
    · rfl
    · split
      · simp [Res.shift]; omega
      · split <;> simp [Res.shift]; omega

theorem validateExpr_shift (l a : Str) (o : Nat) :
    validateExpr l a o = (validateExpr l a 0).shift o := by
  unfold validateExpr
  rw [literal_shift, ← shift_bind]
  congr 1
  funext _
  split
  · simp [Res.shift]; omega
  · next b r _ =>
    rw [body_shift b, body_shift b (0 + blen l + 1)]
    cases validate_expr_body b 0 <;> simp [Res.bind, Res.shift]; omega

/-- The two arms of the loop. -/
def arm (c : Char) (l a : Str) (o : Nat) : Res Str :=
  if c = '%' then validatePct l a o else validateExpr l a o

theorem arm_shift (c : Char) (l a : Str) (o : Nat) : arm c l a o = (arm c l a 0).shift o := by
  unfold arm; split
  · exact validatePct_shift _ _ _
  · exact validateExpr_shift _ _ _

/-- The rest after an arm is a suffix. -/
theorem arm_suffix {c : Char} {l a r : Str} {o : Nat} (h : arm c l a o = .ok r) :
    ∃ p, a = p ++ r := by
  unfold arm at h
  split at h
  · unfold validatePct at h
    cases e : validate_literal l o with
    | panic => rw [e] at h; cases h
    | err => rw [e] at h; cases h
    | ok =>
      rw [e] at h
      simp only [Res.bind] at h
      split at h
      · cases h
      · split at h
        · cases h
        · next x r' hs =>
          obtain ⟨e, _⟩ := splitAtB_some.1 hs
          split at h
          · cases h
          · split at h
            · cases h
            · simp at h; subst h; exact ⟨_, e⟩
  · unfold validateExpr at h
    cases e : validate_literal l o with
    | panic => rw [e] at h; cases h
    | err => rw [e] at h; cases h
    | ok =>
      rw [e] at h
      simp only [Res.bind] at h
      split at h
      · cases h
      · next b r' hs =>
        obtain ⟨e, _⟩ := find_split_hole_some.1 hs
        split at h
        · cases h
        · cases h
        · simp at h; subst h; exact ⟨b ++ ['}'], by rw [e]; simp⟩

theorem loop_unfold (f total : Nat) (s : Str) (o : Nat) :
    validateLoop (f + 1) total s o =
      if s.isEmpty then .ok ()
      else
        match find_split2_hole s '%' '{' with
        | some (l, c, a) => (arm c l a o).bind fun r => validateLoop f total r (total - blen r)
        | none => validate_literal s o := by
  rw [validateLoop]; rfl

/-- The loop run on the rest of a text gives what validation of the rest gives, later. -/
theorem loop_at : ∀ (n f f' t t' o o' : Nat) (s : Str), s.length ≤ n → s.length < f →
    s.length < f' → o + blen s = t → o' + blen s = t' → o' ≤ o →
    validateLoop f t s o = (validateLoop f' t' s o').shift (o - o') := by
  intro n
  induction n with
  | zero =>
    intro f f' t t' o o' s h h1 h2 _ _ _
    have : s = [] := List.length_eq_zero_iff.1 (by omega)
    subst this
    obtain ⟨f, rfl⟩ : ∃ g, f = g + 1 := ⟨f - 1, by omega⟩
    obtain ⟨f', rfl⟩ : ∃ g, f' = g + 1 := ⟨f' - 1, by omega⟩
    rfl
  | succ n ih =>
    intro f f' t t' o o' s h h1 h2 ht ht' ho
    obtain ⟨f, rfl⟩ : ∃ g, f = g + 1 := ⟨f - 1, by omega⟩
    obtain ⟨f', rfl⟩ : ∃ g, f' = g + 1 := ⟨f' - 1, by omega⟩
    rw [loop_unfold, loop_unfold]
    split
    · rfl
    · cases hs : find_split2_hole s '%' '{' with
      | none =>
        simp only
        rw [literal_shift s o, literal_shift s o', shift_shift]; congr 1; omega
      | some x =>
        obtain ⟨l, c, a⟩ := x
        simp only
        rw [arm_shift c l a o, arm_shift c l a o', ← shift_bind, shift_shift,
          show o' + (o - o') = o by omega]
        cases ha : arm c l a 0 with
        | panic => rfl
        | err => rfl
        | ok r =>
          obtain ⟨p, hp⟩ := arm_suffix ha
          obtain ⟨e, _⟩ := findSplitHoleP_some.1 hs
          rw [hp] at e
          have hb : blen s = blen l + blen [c] + blen p + blen r := by
            rw [e]; simp [blen_append]; omega
          have hl : s.length = l.length + 1 + p.length + r.length := by
            rw [e]; simp; omega
          simp only [Res.shift, Res.bind]
          rw [show o - o' = (t - blen r) - (t' - blen r) by omega]
          exact ih _ _ _ _ _ _ _ (by omega) (by omega) (by omega) (by omega) (by omega) (by omega)

theorem loop_eq_shift {f t o : Nat} {s : Str} (h : s.length < f) (ht : o + blen s = t) :
    validateLoop f t s o = (validate_template_str s).shift o := by
  have := loop_at _ f (s.length + 1) t (blen s) o 0 s (Nat.le_refl _) h (by omega) ht (by omega)
    (by omega)
  simpa [validate_template_str] using this

/-- Validation, one step. -/
theorem V_step (s : Str) :
    validate_template_str s =
      match find_split2_hole s '%' '{' with
      | some (l, c, a) =>
        (arm c l a 0).bind fun r => (validate_template_str r).shift (blen s - blen r)
      | none => validate_literal s 0 := by
  rw [show validate_template_str s = validateLoop (s.length + 1) (blen s) s 0 from rfl, loop_unfold]
  cases s with
  | nil => rfl
  | cons x s =>
    simp only [List.isEmpty_cons, Bool.false_eq_true, if_false]
    cases hs : find_split2_hole (x :: s) '%' '{' with
    | none => rfl
    | some y =>
      obtain ⟨l, c, a⟩ := y
      simp only
      cases ha : arm c l a 0 with
      | panic => rfl
      | err => rfl
      | ok r =>
        obtain ⟨p, hp⟩ := arm_suffix ha
        obtain ⟨e, _⟩ := findSplitHoleP_some.1 hs
        rw [hp] at e
        simp only [Res.bind]
        refine loop_eq_shift ?_ ?_
        · rw [e]; simp; omega
        · rw [e]; simp [blen_append]; omega

theorem V_nil : validate_template_str [] = .ok () := rfl

theorem literal_cons {c : Char} {r : Str} {o : Nat} (h : literalChar c = true) :
    validate_literal (c :: r) o = (validate_literal r o).shift 1 := by
  unfold validate_literal
  have h' := not_literal_eq c
  rw [h] at h'
  simp only [charPosition, h']
  simp only [Bool.not_true, Bool.false_eq_true, if_false]
  cases charPosition (fun c => !isAscii c || !is_ascii_literal_char c) r <;> simp [Res.shift, Nat.add_assoc]

theorem literal_cons_bad {c : Char} {r : Str} {o : Nat} (h : literalChar c = false) :
    validate_literal (c :: r) o = .err .invalidCharacter o := by
  unfold validate_literal
  have h' := not_literal_eq c
  rw [h] at h'
  simp [charPosition, h']

theorem arm_cons {c x : Char} {l a : Str} (h : literalChar x = true) :
    arm c (x :: l) a 0 = (arm c l a 0).shift 1 := by
  have hx : x.utf8Size = 1 := utf8Size_one (literalChar_ascii h)
  unfold arm
  split
  · unfold validatePct
    rw [literal_cons h, ← shift_bind]
    congr 1
    funext _
    simp only [blen, hx]
    split
    · simp [Res.shift]; omega
    · split
      · rfl
      · split
        · simp [Res.shift]; omega
        · split <;> simp [Res.shift]; omega
  · unfold validateExpr
    rw [literal_cons h, ← shift_bind]
    congr 1
    funext _
    simp only [blen, hx]
    split
    · simp [Res.shift]; omega
    · next b r _ =>
      rw [body_shift b, body_shift b (0 + blen l + 1)]
      cases validate_expr_body b 0 <;> simp [Res.bind, Res.shift]; omega

theorem arm_cons_bad {c x : Char} {l a : Str} (h : literalChar x = false) :
    arm c (x :: l) a 0 = .err .invalidCharacter 0 := by
  unfold arm
  split
  · unfold validatePct; rw [literal_cons_bad h]; rfl
  · unfold validateExpr; rw [literal_cons_bad h]; rfl

theorem find_cons {c : Char} {r : Str} (h1 : c ≠ '%') (h2 : c ≠ '{') :
    find_split2_hole (c :: r) '%' '{' =
      (find_split2_hole r '%' '{').map fun x => (c :: x.1, x.2) := by
  unfold find_split2_hole
  rw [findSplitHoleP]
  simp [h1, h2]

theorem V_literal {c : Char} {r : Str} (h : literalChar c = true) :
    validate_template_str (c :: r) = (validate_template_str r).shift 1 := by
  have hx : c.utf8Size = 1 := utf8Size_one (literalChar_ascii h)
  have h1 : c ≠ '%' := by rintro rfl; revert h; decide
  have h2 : c ≠ '{' := by rintro rfl; revert h; decide
  rw [V_step, find_cons h1 h2, V_step r]
  cases hs : find_split2_hole r '%' '{' with
  | none => simp only [Option.map_none]; exact literal_cons h
  | some y =>
    obtain ⟨l, d, a⟩ := y
    simp only [Option.map_some]
    rw [arm_cons h, ← shift_bind]
    cases ha : arm d l a 0 with
    | panic => rfl
    | err => rfl
    | ok q =>
      obtain ⟨p, hp⟩ := arm_suffix ha
      obtain ⟨e, _⟩ := findSplitHoleP_some.1 hs
      rw [hp] at e
      have hb : blen r = blen l + blen [d] + blen p + blen q := by
        rw [e]; simp [blen_append]; omega
      show Res.shift _ _ = Res.shift _ (Res.shift _ _)
      rw [shift_shift]
      congr 1
      simp [hx]; omega

theorem V_bad {c : Char} {r : Str} (h1 : c ≠ '%') (h2 : c ≠ '{') (h : literalChar c = false) :
    validate_template_str (c :: r) = .err .invalidCharacter 0 := by
  rw [V_step, find_cons h1 h2]
  cases hs : find_split2_hole r '%' '{' with
  | none => simp only [Option.map_none]; exact literal_cons_bad h
  | some y =>
    simp only [Option.map_some]
    rw [arm_cons_bad h]; rfl

theorem V_pct (r : Str) :
    validate_template_str ('%' :: r) =
      (validatePct [] r 0).bind fun q => (validate_template_str q).shift (1 + blen r - blen q) := by
  rw [V_step]; rfl

theorem V_brace (r : Str) :
    validate_template_str ('{' :: r) =
      (validateExpr [] r 0).bind fun q => (validate_template_str q).shift (1 + blen r - blen q) := by
  rw [V_step]; rfl

/-! ### Variable specifications -/

theorem byteCount_eq (s : Str) : byteCount s = blen s := utf8s_length s

theorem charPosition_some {p : Char → Bool} {s : Str} {n : Nat} :
    charPosition p s = some n ↔ ∃ a c b, s = a ++ c :: b ∧ a.length = n ∧ p c = true ∧
      ∀ x ∈ a, p x = false := by
  induction s generalizing n with
  | nil => simp [charPosition]
  | cons d r ih =>
    unfold charPosition
    split
    · next hd =>
      constructor
      · intro h; simp at h; subst h; exact ⟨[], d, r, rfl, rfl, hd, by simp⟩
      · rintro ⟨a, c, b, e, rfl, hc, ha⟩
        cases a with
        | nil => rfl
        | cons x a => simp at e; have := ha x (by simp); rw [← e.1, hd] at this; cases this
    · next hd =>
      rw [Option.map_eq_some_iff]
      constructor
      · rintro ⟨m, hm, rfl⟩
        obtain ⟨a, c, b, rfl, rfl, hc, ha⟩ := ih.1 hm
        refine ⟨d :: a, c, b, rfl, rfl, hc, ?_⟩
        simp only [List.mem_cons, forall_eq_or_imp]
        exact ⟨by simpa using hd, ha⟩
      · rintro ⟨a, c, b, e, rfl, hc, ha⟩
        cases a with
        | nil => simp at e; rw [← e.1] at hc; exact absurd hc hd
        | cons x a =>
          simp at e
          simp only [List.mem_cons, forall_eq_or_imp] at ha
          exact ⟨a.length, ih.2 ⟨a, c, b, e.2, rfl, hc, ha.2⟩, by simp⟩

theorem varname_err {n : Str} {k : ErrorKind} {d : Nat} (h : validate_varname n 0 = .err k d) :
    k = .invalidExpression ∧ d = 0 ∧ ¬ varnameX n := by
  have h1 : ¬ varnameX n := by
    rw [varnameX_iff, ← varname_ok n 0, h]; simp
  unfold validate_varname at h
  split at h
  · simp at h; exact ⟨h.1.symm, h.2.symm, h1⟩
  · split at h
    · cases h
    · simp at h; exact ⟨h.1.symm, h.2.symm, h1⟩

theorem varname_of_not {n : Str} (h : ¬ varnameX n) :
    validate_varname n 0 = .err .invalidExpression 0 := by
  have h1 : ¬ validate_varname n 0 = .ok () := by rwa [varname_ok, ← varnameX_iff]
  unfold validate_varname at h1 ⊢
  split
  · rfl
  · next hr =>
    rw [hr] at h1
    simp only at h1
    split
    · next hs => rw [if_pos hs] at h1; exact absurd rfl h1
    · rfl

theorem maxlen_short {n : Nat} {s : Str} (h : ¬ (1 ≤ blen s ∧ blen s ≤ 5)) :
    validate_max_len n s 0 = .err .invalidExpression (n + 2) := by
  unfold validate_max_len
  have : (decide (1 ≤ blen s) && decide (blen s ≤ 5)) = false := by simpa using h
  rw [this]; simp

theorem maxlen_digit {n : Nat} {ds r : Str} {c : Char} (h : blen (ds ++ c :: r) ≤ 5)
    (h1 : ∀ x ∈ ds, isDigit x = true) (h2 : isDigit c = false) :
    validate_max_len n (ds ++ c :: r) 0 = .err .invalidExpression (n + 2 + blen ds) := by
  have hc : charPosition (fun c => !isDigit c) (ds ++ c :: r) = some ds.length :=
    charPosition_some.2 ⟨ds, c, r, rfl, rfl, by simp [h2], fun x hx => by simp [h1 x hx]⟩
  have hb : blen ds = ds.length := blen_digits (by simpa using h1)
  have hp : 1 ≤ blen (ds ++ c :: r) := by
    have := Char.utf8Size_pos c
    simp [blen_append]; omega
  unfold validate_max_len
  have : (decide (1 ≤ blen (ds ++ c :: r)) && decide (blen (ds ++ c :: r) ≤ 5)) = true := by
    simp only [Bool.and_eq_true, decide_eq_true_eq]; exact ⟨hp, h⟩
  rw [this, hc]
  simp [hb]

theorem maxlen_err {n : Nat} {s : Str} {k : ErrorKind} {d : Nat}
    (h : validate_max_len n s 0 = .err k d) : k = .invalidExpression ∧
      ((¬ (1 ≤ blen s ∧ blen s ≤ 5) ∧ d = n + 2) ∨
        ∃ ds c r, s = ds ++ c :: r ∧ blen s ≤ 5 ∧ (∀ x ∈ ds, isDigit x = true) ∧ isDigit c = false ∧
          d = n + 2 + blen ds) := by
  unfold validate_max_len at h
  split at h
  · next hb => simp at h; refine ⟨h.1.symm, .inl ⟨fun hh => ?_, by omega⟩⟩; simp at hb; omega
  · next hb =>
    split at h
    · next pos hp =>
      obtain ⟨a, c, b, rfl, rfl, hc, ha⟩ := charPosition_some.1 hp
      simp at h
      have ha' : ∀ x ∈ a, isDigit x = true := fun x hx => by simpa using ha x hx
      have hb' : blen a = a.length := blen_digits (by simpa using ha')
      refine ⟨h.1.symm, .inr ⟨a, c, b, rfl, ?_, ha', by simpa using hc, by omega⟩⟩
      have : 1 ≤ blen (a ++ c :: b) ∧ blen (a ++ c :: b) ≤ 5 := by
        simpa only [Bool.not_eq_true', Bool.not_eq_false, Bool.and_eq_true, decide_eq_true_eq] using hb
      exact this.2
    · cases h

theorem varspec_err {v : Str} {k : ErrorKind} {d : Nat} (h : validate_varspec v 0 = .err k d) :
    k = .invalidExpression ∧ BadVarspec v d := by
  unfold validate_varspec at h
  cases hs : find_split2_hole v ':' '*' with
  | none =>
    rw [hs] at h
    obtain ⟨h1, rfl, h2⟩ := varname_err h
    have hn := findSplitHoleP_none.1 hs
    refine ⟨h1, ?_⟩
    have := BadVarspec.name (n := v) (m := []) (fun hm => by simpa using hn _ hm)
      (fun hm => by simpa using hn _ hm) (.inl rfl) h2
    simpa using this
  | some x =>
    obtain ⟨n, c, r⟩ := x
    rw [hs] at h
    obtain ⟨e, hc, hn⟩ := findSplitHoleP_some.1 hs
    have hc' : c = ':' ∨ c = '*' := by simpa using hc
    have n1 : ':' ∉ n := fun hm => by simpa using hn _ hm
    have n2 : '*' ∉ n := fun hm => by simpa using hn _ hm
    simp only at h
    have key : ∀ (g : Res Unit), (validate_varname n 0).bind (fun _ => g) = .err k d →
        (k = .invalidExpression ∧ BadVarspec v d) ∨ (varnameX n ∧ g = .err k d) := by
      intro g hg
      cases hv : validate_varname n 0 with
      | panic => rw [hv] at hg; cases hg
      | ok => rw [hv] at hg; exact .inr ⟨(varnameX_iff _).2 ((varname_ok _ _).1 hv), hg⟩
      | err k' d' =>
        rw [hv] at hg
        simp [Res.bind] at hg
        obtain ⟨rfl, rfl⟩ := hg
        obtain ⟨h1, rfl, h2⟩ := varname_err hv
        refine .inl ⟨h1, ?_⟩
        rw [e]
        exact .name n1 n2 (.inr (by rcases hc' with rfl | rfl <;> simp)) h2
    split at h
    · next hc2 =>
      subst hc2
      rcases key _ h with hk | ⟨hx, hm⟩
      · exact hk
      · obtain ⟨h1, ⟨h2, rfl⟩ | ⟨ds, c, r', rfl, hb, hd, hc3, rfl⟩⟩ := maxlen_err hm
        · refine ⟨h1, ?_⟩
          rw [e, ← byteCount_eq n]
          exact .length hx (by rwa [byteCount_eq])
        · refine ⟨h1, ?_⟩
          rw [e, ← byteCount_eq n, ← byteCount_eq ds]
          exact .digit hx (by rwa [byteCount_eq]) (by rw [DIGIT_eq]; exact hd) (by rw [DIGIT_eq]; exact hc3)
    · next hc2 =>
      have : c = '*' := hc'.resolve_left hc2
      subst this
      rcases key _ h with hk | ⟨hx, hm⟩
      · exact hk
      · cases r with
        | nil => simp at hm
        | cons y r =>
          simp at hm
          obtain ⟨rfl, rfl⟩ := hm
          refine ⟨rfl, ?_⟩
          rw [e, ← byteCount_eq n]
          exact .explode hx (by simp)

theorem varspec_of_bad {v : Str} {d : Nat} (h : BadVarspec v d) :
    validate_varspec v 0 = .err .invalidExpression d := by
  have hsep : ∀ {n : Str}, varnameX n → ∀ c ∈ n, (c == ':' || c == '*') = false :=
    fun hx => ((varnameX_iff _).1 hx).no_sep
  have hok : ∀ {n : Str}, varnameX n → validate_varname n 0 = .ok () :=
    fun hx => (varname_ok _ _).2 ((varnameX_iff _).1 hx)
  unfold validate_varspec
  cases h with
  | @name n m h1 h2 h3 h4 =>
    have hs : ∀ c ∈ n, (c == ':' || c == '*') = false := by
      intro c hc
      simp only [Bool.or_eq_false_iff, beq_eq_false_iff_ne]
      exact ⟨fun e => h1 (e ▸ hc), fun e => h2 (e ▸ hc)⟩
    cases m with
    | nil =>
      rw [List.append_nil, show find_split2_hole n ':' '*' = none from findSplitHoleP_none.2 hs]
      exact varname_of_not h4
    | cons c m =>
      have hc : c = ':' ∨ c = '*' := by simpa using h3
      rw [show find_split2_hole (n ++ c :: m) ':' '*' = some (n, c, m) from
        findSplitHoleP_eq (by rcases hc with rfl | rfl <;> decide) hs]
      simp only
      split <;> rw [varname_of_not h4] <;> rfl
  | @length n len h1 h2 =>
    rw [show find_split2_hole (n ++ ':' :: len) ':' '*' = some (n, ':', len) from
      findSplitHoleP_eq (by decide) (hsep h1)]
    rw [byteCount_eq] at h2 ⊢
    simp only [if_true, hok h1, Res.bind]
    exact maxlen_short h2
  | @digit n ds r c h1 h2 h3 h4 =>
    rw [show find_split2_hole (n ++ ':' :: (ds ++ c :: r)) ':' '*' = some (n, ':', ds ++ c :: r) from
      findSplitHoleP_eq (by decide) (hsep h1)]
    rw [byteCount_eq] at h2 ⊢
    rw [byteCount_eq]
    rw [DIGIT_eq] at h3 h4
    simp only [if_true, hok h1, Res.bind]
    exact maxlen_digit h2 h3 h4
  | @explode n x h1 h2 =>
    rw [show find_split2_hole (n ++ '*' :: x) ':' '*' = some (n, '*', x) from
      findSplitHoleP_eq (by decide) (hsep h1)]
    rw [byteCount_eq]
    cases x with
    | nil => exact absurd rfl h2
    | cons y x => simp [hok h1, Res.bind]

/-! ### Variable lists -/

theorem varspecs_err {first : Bool} {vs : List Str} {o d : Nat} {k : ErrorKind}
    (h : validateVarspecs first vs o = .err k d) :
    k = .invalidExpression ∧ ∃ goods v rest e, vs = goods ++ v :: rest ∧ (∀ g ∈ goods, SpecP g) ∧
      BadVarspec v e ∧
      d = (if first then o else o + 1) + blen (goods.flatMap (· ++ [','])) + e := by
  induction vs generalizing first o with
  | nil => cases h
  | cons v vs ih =>
    rw [validateVarspecs] at h
    generalize (if first then o else o + 1) = q at h
    cases hv : validate_varspec v 0 with
    | panic => exact absurd hv (varspec_ne_panic _ _)
    | err k' d' =>
      rw [varspec_shift, hv] at h
      simp [Res.shift, Res.bind] at h
      obtain ⟨rfl, rfl⟩ := h
      obtain ⟨h1, h2⟩ := varspec_err hv
      exact ⟨h1, [], v, vs, d', rfl, by simp, h2, by simp; omega⟩
    | ok =>
      rw [varspec_shift, hv] at h
      simp only [Res.shift, Res.bind] at h
      obtain ⟨h1, goods, w, rest, e, rfl, hg, hb, he⟩ := ih h
      refine ⟨h1, v :: goods, w, rest, e, rfl, ?_, hb, ?_⟩
      · simp only [List.mem_cons, forall_eq_or_imp]
        exact ⟨(varspec_ok _ _).1 hv, hg⟩
      · have hcm : (',' : Char).utf8Size = 1 := by decide
        rw [he, if_neg (by decide)]; simp [blen_append, hcm]; omega

theorem varspecs_of_bad {goods rest : List Str} {v : Str} {e : Nat} (hg : ∀ g ∈ goods, SpecP g)
    (hb : BadVarspec v e) (first : Bool) (o : Nat) :
    validateVarspecs first (goods ++ v :: rest) o =
      .err .invalidExpression ((if first then o else o + 1) + blen (goods.flatMap (· ++ [','])) + e) := by
  induction goods generalizing first o with
  | nil =>
    rw [List.nil_append, validateVarspecs]
    rw [varspec_shift, varspec_of_bad hb]
    simp [Res.shift, Res.bind]; omega
  | cons g goods ih =>
    simp only [List.mem_cons, forall_eq_or_imp] at hg
    rw [List.cons_append, validateVarspecs]
    rw [(varspec_ok g _).2 hg.1]
    simp only [Res.bind]
    have hcm : (',' : Char).utf8Size = 1 := by decide
    rw [ih hg.2, if_neg (by decide)]
    simp [blen_append, hcm]; omega

theorem joinWith_cons_append {goods rest : List Str} {v : Str} :
    joinWith [','] (goods ++ v :: rest) =
      goods.flatMap (· ++ [',']) ++ v ++ (match rest with | [] => [] | _ => ',' :: joinWith [','] rest) := by
  induction goods with
  | nil => cases rest <;> simp [joinWith]
  | cons g goods ih =>
    rw [List.flatMap_cons, List.append_assoc, List.append_assoc, ← List.append_assoc (List.flatMap _ goods),
      ← ih]
    cases goods <;> simp [joinWith]

theorem splitComma_goods {goods : List Str} {x : Str} (hg : ∀ g ∈ goods, ',' ∉ g) :
    splitComma (goods.flatMap (· ++ [',']) ++ x) = goods ++ splitComma x := by
  induction goods with
  | nil => rfl
  | cons g goods ih =>
    simp only [List.mem_cons, forall_eq_or_imp] at hg
    simp only [List.flatMap_cons, List.append_assoc, List.cons_append]
    rw [splitComma_append hg.1, List.nil_append, ih hg.2]

theorem splitComma_bad {goods : List Str} {v tail : Str} (hg : ∀ g ∈ goods, ',' ∉ g) (hv : ',' ∉ v)
    (ht : tail = [] ∨ tail.head? = some ',') :
    ∃ rest, splitComma (goods.flatMap (· ++ [',']) ++ v ++ tail) = goods ++ v :: rest := by
  rw [List.append_assoc, splitComma_goods hg]
  cases tail with
  | nil => exact ⟨[], by rw [List.append_nil, splitComma_no_comma hv]⟩
  | cons c t =>
    have : c = ',' := by simpa using ht
    subst this
    exact ⟨splitComma t, by rw [splitComma_append hv]⟩

/-! ### Beginnings that are neither a literal nor an expression -/

/-- The error kind that stands for a fault. -/
def kindOf : Fault → ErrorKind
  | .character => .invalidCharacter
  | .percent => .invalidPercentEncoding
  | .notClosed => .expressionNotClosed
  | .operator => .unsupportedOperator
  | .expression => .invalidExpression

theorem specP_iff (s : Str) : SpecP s ↔ varspecOf varnameX maxLengthX s := (varspecOf_iff _ _ _).symm

theorem maybeOp_reserve {c : Char} : isOpReserve c = true ↔ MaybeOperator.from_byte c = some .reserved := by
  constructor
  · intro h
    have : c = '=' ∨ c = ',' ∨ c = '!' ∨ c = '@' ∨ c = '|' := by simpa [isOpReserve] using h
    rcases this with rfl | rfl | rfl | rfl | rfl <;> rfl
  · intro h
    cases hc : isOpReserve c with
    | true => rfl
    | false =>
      exfalso
      have : ¬ (c = '=' ∨ c = ',' ∨ c = '!' ∨ c = '@' ∨ c = '|') := by
        intro hh
        have : isOpReserve c = true := by simpa [isOpReserve] using hh
        rw [hc] at this; cases this
      simp only [not_or] at this
      obtain ⟨a, b, c', d, e⟩ := this
      unfold MaybeOperator.from_byte at h
      simp only [a, b, c', d, e, if_false] at h
      repeat' split at h
      all_goals cases h

theorem flat_no_brace {goods : List Str} (h : ∀ g ∈ goods, SpecP g) :
    '}' ∉ goods.flatMap (· ++ [',']) := by
  intro hm
  obtain ⟨g, hg, hm⟩ := List.mem_flatMap.1 hm
  simp at hm
  exact (h g hg).no_brace hm

theorem list_err {s : Str} {o d : Nat} {k : ErrorKind}
    (h : validateVarspecs true (splitComma s) o = .err k d) :
    k = .invalidExpression ∧ ∃ (goods : List Str) (v tail : Str) (e : Nat), s = goods.flatMap (· ++ [',']) ++ v ++ tail ∧
      (∀ g ∈ goods, SpecP g) ∧ BadVarspec v e ∧ ',' ∉ v ∧ (tail = [] ∨ tail.head? = some ',') ∧
      d = o + blen (goods.flatMap (· ++ [','])) + e := by
  obtain ⟨h1, goods, v, rest, e, hs, hg, hb, hd⟩ := varspecs_err h
  have hj := joinWith_splitComma s
  rw [hs, joinWith_cons_append] at hj
  refine ⟨h1, goods, v, _, e, hj.symm, hg, hb, ?_, ?_, by simpa using hd⟩
  · have : ∀ (s : Str), ∀ p ∈ splitComma s, ',' ∉ p := by
      intro s
      induction s with
      | nil => simp [splitComma]
      | cons c r ih =>
        unfold splitComma
        split
        · simpa using ih
        · next hc =>
          cases hr : splitComma r with
          | nil => exact absurd hr (splitComma_ne_nil r)
          | cons p ps =>
            rw [hr] at ih
            simp only [List.mem_cons, forall_eq_or_imp] at ih ⊢
            refine ⟨?_, ih.2⟩
            rintro (h | h)
            · exact hc (by simp [← h])
            · exact ih.1 h
    exact this s v (by rw [hs]; simp)
  · cases rest <;> simp

theorem expr_err {r : Str} {k : ErrorKind} {d : Nat} (h : validateExpr [] r 0 = .err k d) :
    ∃ f, k = kindOf f ∧ BadStart ('{' :: r) f d := by
  unfold validateExpr at h
  rw [(literal_ok [] 0).2 rfl] at h
  simp only [Res.bind] at h
  cases hs : find_split_hole r '}' with
  | none =>
    rw [hs] at h; simp at h
    obtain ⟨rfl, rfl⟩ := h
    exact ⟨.notClosed, rfl, .notClosed (find_split_hole_none.1 hs)⟩
  | some x =>
    obtain ⟨b, q⟩ := x
    rw [hs] at h
    obtain ⟨rfl, hb⟩ := find_split_hole_some.1 hs
    simp only [blen_nil, Nat.zero_add] at h
    have h : validate_expr_body b 1 = .err k d := by
      split at h
      · cases h
      · next e => simp at h; rw [e, h.1, h.2]
      · cases h
    cases b with
    | nil =>
      simp [validate_expr_body] at h
      obtain ⟨rfl, rfl⟩ := h
      refine ⟨.expression, rfl, ?_⟩
      exact BadStart.expression (op := none) (goods := []) (v := []) (tail := []) (r := q) (d := 0)
        (by simp) (by simp) (by simp)
        (BadVarspec.name (n := []) (m := []) (by simp) (by simp) (.inl rfl)
          (by rw [varnameX_iff]; exact fun h => h.2.1 rfl)) (by simp) (by simp) (.inl rfl) (by simp)
    | cons c b =>
      simp only [validate_expr_body] at h
      simp only [List.mem_cons, not_or] at hb
      rcases maybeOp_cases c with ⟨h1, h2, op, h3, _⟩ | ⟨h1, h2, h3⟩ | ⟨h1, h3⟩
      · rw [h3] at h
        obtain ⟨hk, goods, v, tail, e, rfl, hg, hv, hc, ht, rfl⟩ := list_err h
        refine ⟨.expression, hk, ?_⟩
        have := BadStart.expression (op := some c) (r := q) (by simpa using h1) (by simp)
          (fun g hgg => (specP_iff g).1 (hg g hgg)) hv hc (fun hm => hb.2 (by simp [hm])) ht
          (fun hm => hb.2 (by simp [hm]))
        rw [byteCount_eq] at this
        simpa using this
      · rw [h3] at h; simp at h
        obtain ⟨rfl, rfl⟩ := h
        exact ⟨.operator, rfl, .operator (maybeOp_reserve.2 h3) hb.2⟩
      · rw [h3] at h
        obtain ⟨hk, goods, v, tail, e, hs', hg, hv, hc, ht, rfl⟩ := list_err h
        have hbb : '}' ∉ c :: b := by simpa using hb
        refine ⟨.expression, hk, ?_⟩
        rw [hs'] at hbb ⊢
        have := BadStart.expression (op := none) (r := q) (by simp) (fun _ x hx => by
            rw [← hs'] at hx
            simp at hx; subst hx
            refine ⟨h1, ?_⟩
            cases hh : isOpReserve c with
            | false => rfl
            | true => rw [maybeOp_reserve.1 hh] at h3; cases h3)
          (fun g hgg => (specP_iff g).1 (hg g hgg)) hv hc (fun hm => hbb (by simp [hm])) ht
          (fun hm => hbb (by simp [hm]))
        rw [byteCount_eq] at this
        simpa using this

theorem body_of_bad_list {s : Str} {goods : List Str} {v tail : Str} {e o : Nat}
    (hs : s = goods.flatMap (· ++ [',']) ++ v ++ tail) (hg : ∀ g ∈ goods, SpecP g)
    (hv : BadVarspec v e) (hc : ',' ∉ v) (ht : tail = [] ∨ tail.head? = some ',') :
    validateVarspecs true (splitComma s) o =
      .err .invalidExpression (o + blen (goods.flatMap (· ++ [','])) + e) := by
  obtain ⟨rest, hr⟩ := splitComma_bad (goods := goods) (fun g hgg => (hg g hgg).no_comma) hc ht
  rw [hs, hr, varspecs_of_bad hg hv]
  simp

theorem isHexB_head {x : Char} {z : Str} : isHexB ((utf8s (x :: z)).getD 0 0) = isHex x := by
  by_cases hx : x.toNat < 128
  · simp [utf8s, utf8_ascii hx, isHexB_toNat]
  · have hu := utf8_nonascii (c := x) (by omega)
    have h1 : isHex x = false := by
      cases h : isHex x with
      | false => rfl
      | true => exact absurd (isHex_ascii h) hx
    rw [h1]
    cases hq : utf8 x with
    | nil => exact absurd hq (utf8_ne_nil x)
    | cons b bs =>
      rw [hq] at hu
      have := hu b (by simp)
      simp only [utf8s, List.flatMap_cons, hq, List.cons_append, List.getD_cons_zero]
      cases h : isHexB b with
      | false => rfl
      | true => have := isHexB_lt h this.2; omega

theorem pct_err {r : Str} {k : ErrorKind} {d : Nat} (h : validatePct [] r 0 = .err k d) :
    k = .invalidPercentEncoding ∧ BadStart ('%' :: r) .percent d := by
  unfold validatePct at h
  rw [(literal_ok [] 0).2 rfl] at h
  simp only [Res.bind, blen_nil, Nat.zero_add] at h
  split at h
  · next hb =>
    simp at h; obtain ⟨rfl, rfl⟩ := h
    exact ⟨rfl, .short (by rwa [byteCount_eq])⟩
  · next hb =>
    cases hs : splitAtB r 2 with
    | none => rw [hs] at h; cases h
    | some y =>
      obtain ⟨z, q⟩ := y
      rw [hs] at h
      obtain ⟨rfl, hl⟩ := splitAtB_some.1 hs
      cases z with
      | nil => simp at hl
      | cons x z =>
        simp only [isHexB_head] at h
        split at h
        · next hx =>
          simp at h; obtain ⟨rfl, rfl⟩ := h
          exact ⟨rfl, .first (by rw [byteCount_eq]; simpa using hb) (by rw [HEXDIG_eq]; simpa using hx)⟩
        · next hx =>
          simp at hx
          have e1 := utf8Size_one (isHex_ascii hx)
          cases z with
          | nil => simp [e1] at hl
          | cons y z =>
            have hy : isHexB ((utf8s (x :: y :: z)).getD 1 0) = isHex y := by
              have := isHexB_head (x := y) (z := z)
              rw [← this]
              simp [utf8s, utf8_ascii (isHex_ascii hx)]
            rw [hy] at h
            split at h
            · next hy' =>
              simp at h; obtain ⟨rfl, rfl⟩ := h
              exact ⟨rfl, .second (by rw [HEXDIG_eq]; exact hx) (by rw [HEXDIG_eq]; simpa using hy')⟩
            · cases h

/-- A bad start is reported, unless validation panics. -/
theorem V_of_bad {s : Str} {f : Fault} {d : Nat} (h : BadStart s f d)
    (hp : validate_template_str s ≠ .panic) : validate_template_str s = .err (kindOf f) d := by
  cases h with
  | character h1 h2 h3 => exact V_bad h1 h2 h3
  | @short r h =>
    rw [byteCount_eq] at h
    rw [V_pct]
    unfold validatePct
    rw [(literal_ok [] 0).2 rfl]
    simp [Res.bind, h, kindOf]
  | @first x r h1 h2 =>
    rw [byteCount_eq] at h1
    rw [HEXDIG_eq] at h2
    rw [V_pct] at hp ⊢
    unfold validatePct at hp ⊢
    rw [(literal_ok [] 0).2 rfl] at hp ⊢
    have hb : ¬ blen (x :: r) < 2 := by omega
    simp only [Res.bind, if_neg hb] at hp ⊢
    cases hs : splitAtB (x :: r) 2 with
    | none => rw [hs] at hp; exact absurd rfl hp
    | some y =>
      obtain ⟨z, q⟩ := y
      obtain ⟨e, hl⟩ := splitAtB_some.1 hs
      cases z with
      | nil => simp at hl
      | cons x' z =>
        simp at e; obtain ⟨rfl, _⟩ := e
        simp only [isHexB_head, h2]
        simp [kindOf]
  | @second x y r h1 h2 =>
    rw [HEXDIG_eq] at h1 h2
    have a1 := isHex_ascii h1
    have e1 := utf8Size_one a1
    have e2 := Char.utf8Size_pos y
    rw [V_pct] at hp ⊢
    unfold validatePct at hp ⊢
    rw [(literal_ok [] 0).2 rfl] at hp ⊢
    have hb : ¬ blen (x :: y :: r) < 2 := by simp; omega
    simp only [Res.bind, if_neg hb] at hp ⊢
    cases hs : splitAtB (x :: y :: r) 2 with
    | none => rw [hs] at hp; exact absurd rfl hp
    | some w =>
      obtain ⟨z, q⟩ := w
      obtain ⟨e, hl⟩ := splitAtB_some.1 hs
      match z with
      | [] => simp at hl
      | [x'] => simp at e; obtain ⟨rfl, _⟩ := e; simp [e1] at hl
      | x' :: y' :: z =>
        simp at e; obtain ⟨rfl, rfl, _⟩ := e
        have hy : isHexB ((utf8s (x :: y :: z)).getD 1 0) = isHex y := by
          have := isHexB_head (x := y) (z := z)
          rw [← this]
          simp [utf8s, utf8_ascii a1]
        simp only [isHexB_head, h1, hy, h2]
        simp [kindOf]
  | @notClosed r h =>
    rw [V_brace]
    unfold validateExpr
    rw [(literal_ok [] 0).2 rfl, find_split_hole_none.2 h]
    simp [Res.bind, kindOf]
  | @operator c b r h1 h2 =>
    have hc : c ≠ '}' := by rintro rfl; exact absurd h1 (by decide)
    rw [V_brace]
    unfold validateExpr
    rw [(literal_ok [] 0).2 rfl, ← List.cons_append,
      find_split_hole_eq (by simp only [List.mem_cons, not_or]; exact ⟨hc.symm, h2⟩)]
    simp [Res.bind, validate_expr_body, maybeOp_reserve.1 h1, kindOf]
  | @expression op goods v tail r e h1 h2 h3 h4 h5 h6 h7 h8 =>
    have hg : ∀ g ∈ goods, SpecP g := fun g hgg => (specP_iff g).2 (h3 g hgg)
    have hb : '}' ∉ op.toList ++ goods.flatMap (· ++ [',']) ++ v ++ tail := by
      simp only [List.mem_append, not_or]
      refine ⟨⟨⟨?_, flat_no_brace hg⟩, h6⟩, h8⟩
      cases op with
      | none => simp
      | some c => simp; exact fun e => (isOp_ne_brace (h1 c rfl)) e.symm
    rw [V_brace]
    unfold validateExpr
    rw [(literal_ok [] 0).2 rfl, find_split_hole_eq hb, byteCount_eq]
    have key : validate_expr_body (op.toList ++ goods.flatMap (· ++ [',']) ++ v ++ tail) 1 =
        .err .invalidExpression (1 + op.toList.length + blen (goods.flatMap (· ++ [','])) + e) := by
      cases op with
      | some c =>
        rcases maybeOp_cases c with ⟨_, _, o, g3, _⟩ | ⟨g1, _, _⟩ | ⟨g1, _⟩
        · simp only [Option.toList_some, List.cons_append, List.nil_append, validate_expr_body, g3]
          rw [body_of_bad_list rfl hg h4 h5 h7]
          simp
        · rw [h1 c rfl] at g1; cases g1
        · rw [h1 c rfl] at g1; cases g1
      | none =>
        simp only [Option.toList_none, List.nil_append, List.length_nil, Nat.add_zero]
        have h2 := h2 rfl
        have hl := body_of_bad_list (o := 1) rfl hg h4 h5 h7
        generalize hw : goods.flatMap (· ++ [',']) ++ v ++ tail = w at hl h2
        cases w with
        | nil =>
          have hgn : goods = [] := by
            cases goods with
            | nil => rfl
            | cons g gs => simp at hw
          subst hgn
          simp [splitComma, validateVarspecs] at hl
          simp at hw
          obtain ⟨rfl, rfl⟩ := hw
          rw [varspec_shift, varspec_of_bad h4] at hl
          have he : validate_varspec [] 0 = .err .invalidExpression e := varspec_of_bad h4
          have : e = 0 := by
            have e0 : validate_varspec [] 0 = .err .invalidExpression 0 := by decide
            rw [e0] at he; simp at he; exact he.symm
          subst this
          simp [validate_expr_body]
        | cons c w =>
          have := h2 c rfl
          rcases maybeOp_cases c with ⟨g1, _⟩ | ⟨_, _, g3⟩ | ⟨_, g3⟩
          · rw [this.1] at g1; cases g1
          · rw [maybeOp_reserve.2 g3] at this; cases this.2
          · simp only [validate_expr_body, g3]; exact hl
    simp only [Res.bind, blen_nil, Nat.zero_add, key, kindOf]

/-! ### The whole template -/

theorem V_piece {p : Piece} (h : p.WF asciiLiterals varnameX maxLengthX) (r : Str) :
    validate_template_str (p.render ++ r) = (validate_template_str r).shift (blen p.render) := by
  cases p with
  | lit s =>
    rcases h with ⟨c, rfl, hc⟩ | h
    · rw [show blen (Piece.lit [c]).render = 1 by simp [Piece.render, utf8Size_one (literalChar_ascii hc)]]
      exact V_literal hc
    · obtain ⟨x, y, rfl, h1, h2⟩ := (pct_encoded_iff _).1 h
      have a1 := isHex_ascii h1
      have a2 := isHex_ascii h2
      have e : splitAtB (x :: y :: r) 2 = some ([x, y], r) := by
        refine splitAtB_some.2 ⟨rfl, ?_⟩
        simp [blen, utf8Size_one a1, utf8Size_one a2]
      simp only [Piece.render, List.cons_append, List.nil_append]
      rw [V_pct]
      unfold validatePct
      rw [(literal_ok [] 0).2 rfl]
      simp only [Res.bind]
      rw [if_neg (by simp [utf8Size_one a1, utf8Size_one a2]; omega), e]
      simp [utf8s, utf8_ascii a1, utf8_ascii a2, isHexB_toNat, h1, h2]
      congr 1
      simp [utf8Size_one a1, utf8Size_one a2]
      have : ('%' : Char).utf8Size = 1 := by decide
      omega
  | expr op vars =>
    have hb : BodyP (op.toList ++ joinWith [','] (vars.map Var.render)) :=
      (bodyP_iff _).2 ⟨op, vars, h, rfl⟩
    simp only [Piece.render, List.cons_append, List.append_assoc, List.nil_append]
    rw [V_brace, ← List.append_assoc]
    unfold validateExpr
    rw [(literal_ok [] 0).2 rfl, find_split_hole_eq hb.no_brace]
    simp only [Res.bind, (body_ok _ _).2 hb]
    congr 1
    have e1 : ('{' : Char).utf8Size = 1 := by decide
    have e2 : ('}' : Char).utf8Size = 1 := by decide
    simp [blen_append, e1, e2]
    omega

theorem V_render {t : List Piece} (h : Accepted t) (r : Str) :
    validate_template_str (text t ++ r) = (validate_template_str r).shift (blen (text t)) := by
  induction t with
  | nil => exact (shift_zero _).symm
  | cons p t ih =>
    rw [Accepted] at h
    simp only [List.mem_cons, forall_eq_or_imp] at h
    simp only [text, List.flatMap_cons, List.append_assoc]
    rw [V_piece h.1]
    have := ih h.2
    simp only [text] at this
    rw [this, shift_shift, blen_append, Nat.add_comm]

theorem V_err : ∀ (n : Nat) (s : Str), s.length ≤ n → ∀ k l, validate_template_str s = .err k l →
    ∃ t bad f d, Accepted t ∧ s = text t ++ bad ∧ BadStart bad f d ∧ k = kindOf f ∧
      l = blen (text t) + d := by
  intro n
  induction n with
  | zero =>
    intro s h k l he
    have : s = [] := List.length_eq_zero_iff.1 (by omega)
    subst this
    cases he
  | succ n ih =>
    intro s hn k l he
    have step : ∀ (p : Piece) (r : Str), p.WF asciiLiterals varnameX maxLengthX → s = p.render ++ r →
        r.length ≤ n → ∃ t bad f d, Accepted t ∧ s = text t ++ bad ∧ BadStart bad f d ∧ k = kindOf f ∧
          l = blen (text t) + d := by
      intro p r hp e hr
      rw [e, V_piece hp] at he
      cases hv : validate_template_str r with
      | panic => rw [hv] at he; cases he
      | ok => rw [hv] at he; cases he
      | err k' l' =>
        rw [hv] at he
        simp [Res.shift] at he
        obtain ⟨rfl, rfl⟩ := he
        obtain ⟨t, bad, f, d, ht, e', hb, hk, rfl⟩ := ih r hr _ _ hv
        refine ⟨p :: t, bad, f, d, ?_, ?_, hb, hk, ?_⟩
        · simp only [Accepted, List.mem_cons, forall_eq_or_imp]; exact ⟨hp, ht⟩
        · rw [e, e']; simp [text]
        · simp [text, blen_append]; omega
    have stop : ∀ f, k = kindOf f → BadStart s f l → ∃ t bad f d, Accepted t ∧ s = text t ++ bad ∧
        BadStart bad f d ∧ k = kindOf f ∧ l = blen (text t) + d :=
      fun f hk hb => ⟨[], s, f, l, by simp [Accepted], rfl, hb, hk, by simp [text]⟩
    cases s with
    | nil => cases he
    | cons c r =>
      simp at hn
      by_cases h1 : c = '%'
      · subst h1
        cases hp : validatePct [] r 0 with
        | panic => rw [V_pct, hp] at he; cases he
        | err k' l' =>
          rw [V_pct, hp] at he
          simp [Res.bind] at he
          obtain ⟨rfl, rfl⟩ := he
          obtain ⟨hk, hb⟩ := pct_err hp
          exact stop .percent hk hb
        | ok r' =>
          have : pctOut r = .ok r' := by
            have hsim := validatePct_sim (lit := []) (after := r) (o := 0) rfl
            rw [hp] at hsim
            rcases hsim with ⟨h, _⟩ | ⟨_, _, _, _, h, _⟩ | ⟨x, h, h'⟩
            · cases h
            · cases h
            · simp at h; rw [h', h]
          obtain ⟨x, y, rfl, hx, hy⟩ := pctOut_ok this
          refine step (.lit ['%', x, y]) r' ?_ rfl (by simp at hn; omega)
          exact .inr ((pct_encoded_iff _).2 ⟨x, y, rfl, hx, hy⟩)
      · by_cases h2 : c = '{'
        · subst h2
          cases hp : validateExpr [] r 0 with
          | panic => rw [V_brace, hp] at he; cases he
          | err k' l' =>
            rw [V_brace, hp] at he
            simp [Res.bind] at he
            obtain ⟨rfl, rfl⟩ := he
            obtain ⟨f, hk, hb⟩ := expr_err hp
            exact stop _ hk hb
          | ok r' =>
            have : exprOut r = .ok r' := by
              have hsim := validateExpr_sim (lit := []) (after := r) (o := 0) rfl
              rw [hp] at hsim
              rcases hsim with ⟨h, _⟩ | ⟨_, _, _, _, h, _⟩ | ⟨x, h, h'⟩
              · cases h
              · cases h
              · simp at h; rw [h', h]
            obtain ⟨b, rfl, hb⟩ := exprOut_ok.1 this
            obtain ⟨op, vars, hw, hr⟩ := (bodyP_iff b).1 hb
            refine step (.expr op vars) r' hw ?_ (by simp at hn; omega)
            rw [hr]; simp
        · cases hl : literalChar c
          · rw [V_bad h1 h2 hl] at he
            simp at he
            obtain ⟨rfl, rfl⟩ := he
            exact stop .character rfl (.character h1 h2 hl)
          · exact step (.lit [c]) r (.inl ⟨c, rfl, hl⟩) rfl (by omega)

end Verif.Tpl
