import Verif.Model.TemplateWork
import Verif.Props.ValidateWork
import Verif.Lemmas.Split
import Verif.Lemmas.Ip
import Verif.Spec.Lit

/-!
# C88: validating a template and listing its variables looks at each byte a bounded number of times
-/

namespace Verif

namespace Work

@[simp] theorem rb_fst {α β : Type} (x : T (Tpl.Res α)) (f : α → T (Tpl.Res β)) :
    (rb x f).1 = x.1.bind fun a => (f a).1 := by
  obtain ⟨r, n⟩ := x
  cases r <;> rfl

/-- What `rb` costs. -/
theorem rb_le {α β : Type} (x : T (Tpl.Res α)) (f : α → T (Tpl.Res β)) (m : Nat)
    (h : ∀ a, x.1 = .ok a → (f a).2 ≤ m) : (rb x f).2 ≤ x.2 + m := by
  obtain ⟨r, n⟩ := x
  cases r with
  | panic => exact Nat.le_add_right _ _
  | err k l => exact Nat.le_add_right _ _
  | ok a => exact Nat.add_le_add_left (h a rfl) n

theorem rb_ok {α β : Type} {x : T (Tpl.Res α)} {f : α → T (Tpl.Res β)} {b : β} (h : (rb x f).1 = .ok b) :
    ∃ a, x.1 = .ok a ∧ (f a).1 = .ok b ∧ (rb x f).2 = x.2 + (f a).2 := by
  obtain ⟨r, n⟩ := x
  cases r with
  | panic => cases h
  | err k l => cases h
  | ok a => exact ⟨a, rfl, h, rfl⟩

@[simp] theorem charPosition_fst (p : Char → Bool) (s : Str) : (charPosition p s).1 = Tpl.charPosition p s := by
  induction s with
  | nil => rfl
  | cons c r ih =>
    unfold charPosition Tpl.charPosition
    by_cases h : p c = true
    · simp [h]
    · simp [h, ih]

theorem charPosition_snd (p : Char → Bool) (s : Str) : (charPosition p s).2 ≤ blen s := by
  induction s with
  | nil => simp [charPosition]
  | cons c r ih =>
    unfold charPosition
    rw [blen_cons]
    split
    · dsimp only; omega
    · dsimp only; omega

theorem charPosition_full (p : Char → Bool) (s : Str) (h : Tpl.charPosition p s = none) :
    (charPosition p s).2 = blen s := by
  induction s with
  | nil => rfl
  | cons c r ih =>
    unfold Tpl.charPosition at h
    unfold charPosition
    by_cases hc : p c = true
    · simp [hc] at h
    · simp only [hc, Bool.false_eq_true, if_false, Option.map_eq_none_iff] at h ⊢
      rw [ih h, blen_cons]

@[simp] theorem validate_literal_fst (s : Str) (o : Nat) : (validate_literal s o).1 = Tpl.validate_literal s o := by
  unfold validate_literal Tpl.validate_literal
  simp only [bind_fst, charPosition_fst]
  cases Tpl.charPosition (fun c => !isAscii c || !Tpl.is_ascii_literal_char c) s <;> rfl

theorem validate_literal_snd (s : Str) (o : Nat) : (validate_literal s o).2 ≤ blen s := by
  unfold validate_literal
  have := charPosition_snd (fun c => !isAscii c || !Tpl.is_ascii_literal_char c) s
  simp only [bind_snd, charPosition_fst]
  cases Tpl.charPosition (fun c => !isAscii c || !Tpl.is_ascii_literal_char c) s <;> simpa using this

theorem validate_literal_full {s : Str} {o : Nat} (h : (validate_literal s o).1 = .ok ()) :
    (validate_literal s o).2 = blen s := by
  unfold validate_literal at h ⊢
  have := charPosition_full (fun c => !isAscii c || !Tpl.is_ascii_literal_char c) s
  simp only [bind_fst, bind_snd, charPosition_fst] at h ⊢
  cases hp : Tpl.charPosition (fun c => !isAscii c || !Tpl.is_ascii_literal_char c) s with
  | none => simpa using this hp
  | some n => rw [hp] at h; cases h

@[simp] theorem varnameRest_fst (s : Str) : (varnameRest s).1 = Tpl.varnameRest s := by
  cases s <;> rfl

@[simp] theorem validate_varname_fst (s : Str) (o : Nat) : (validate_varname s o).1 = Tpl.validate_varname s o := by
  unfold validate_varname Tpl.validate_varname
  simp only [bind_fst, varnameRest_fst]
  cases Tpl.varnameRest s with
  | none => rfl
  | some r => simp only [bind_fst, ret_fst, satisfy_fst]

theorem hex_size {c : Char} (h : isHex c = true) : c.utf8Size = 1 := by
  apply utf8Size_ascii
  simp only [isHex, Bool.or_eq_true, Bool.and_eq_true, decide_eq_true_eq] at h
  omega

theorem validate_varname_snd (s : Str) (o : Nat) : (validate_varname s o).2 ≤ blen s := by
  unfold validate_varname
  simp only [bind_snd, varnameRest_fst]
  cases s with
  | nil => simp [varnameRest, Tpl.varnameRest]
  | cons c r =>
    rw [blen_cons]
    simp only [varnameRest]
    cases h : Tpl.varnameRest (c :: r) with
    | none =>
      simp only [ret_snd]
      split <;> omega
    | some t =>
      have ht := satisfy_snd Tpl.is_ascii_varchar_continue (fun _ => false) t
      simp only [bind_snd, ret_snd]
      unfold Tpl.varnameRest at h
      by_cases h1 : (c == '%') = true
      · by_cases h2 : starts_with_double_hexdigits r = true
        · simp only [h1, h2, Bool.and_self, if_true, Option.some.injEq] at h ⊢
          rcases r with _ | ⟨x, _ | ⟨y, r'⟩⟩
          · cases h2
          · cases h2
          · simp only [starts_with_double_hexdigits, Bool.and_eq_true] at h2
            have hx := hex_size h2.1
            have hy := hex_size h2.2
            simp only [List.drop_succ_cons, List.drop_zero] at h
            subst h
            simp only [blen_cons]
            omega
        · exfalso
          have hc : c = '%' := by simpa using h1
          subst hc
          simp only [h2] at h
          revert h
          have : (isAscii '%' && Tpl.is_ascii_varchar_start '%') = false := by decide
          simp [this]
      · simp only [h1, Bool.false_and, Bool.false_eq_true, if_false] at h ⊢
        split at h
        · cases h; omega
        · cases h

theorem validate_max_len_fst (n : Nat) (s : Str) (o : Nat) :
    (validate_max_len n s o).1 = Tpl.validate_max_len n s o := by
  unfold validate_max_len Tpl.validate_max_len
  by_cases h : (!(decide (1 ≤ blen s) && decide (blen s ≤ 5))) = true
  · rw [if_pos h, if_pos h]; rfl
  · rw [if_neg h, if_neg h]
    simp only [bind_fst, charPosition_fst]
    cases Tpl.charPosition (fun c => !isDigit c) s <;> rfl

theorem validate_max_len_snd (n : Nat) (s : Str) (o : Nat) : (validate_max_len n s o).2 ≤ blen s := by
  unfold validate_max_len
  split
  · simp
  · have := charPosition_snd (fun c => !isDigit c) s
    simp only [bind_snd, charPosition_fst]
    cases Tpl.charPosition (fun c => !isDigit c) s <;> simpa using this

@[simp] theorem validate_varspec_fst (s : Str) (o : Nat) : (validate_varspec s o).1 = Tpl.validate_varspec s o := by
  unfold validate_varspec Tpl.validate_varspec
  simp only [bind_fst, find_split2_hole_fst]
  rcases Verif.find_split2_hole s ':' '*' with _ | ⟨a, c, b⟩
  · exact validate_varname_fst _ _
  · dsimp only
    by_cases h : c = ':'
    · rw [if_pos h, if_pos h, rb_fst, validate_varname_fst]
      simp only [validate_max_len_fst]
    · rw [if_neg h, if_neg h, rb_fst, validate_varname_fst]
      rfl

theorem validate_varspec_snd (s : Str) (o : Nat) : (validate_varspec s o).2 ≤ 2 * blen s := by
  unfold validate_varspec
  have hf := find_split2_hole_snd s ':' '*'
  simp only [bind_snd, find_split2_hole_fst]
  rcases h : Verif.find_split2_hole s ':' '*' with _ | ⟨a, c, b⟩
  · have := validate_varname_snd s o
    dsimp only
    omega
  · have h1 := hf.1 _ _ _ h
    have h2 := validate_varname_snd a o
    dsimp only
    split
    · have := rb_le (validate_varname a o) (fun _ => validate_max_len (blen a) b o) (blen b)
        fun _ _ => validate_max_len_snd _ _ _
      omega
    · have := rb_le (validate_varname a o)
        (fun _ => ret (if !b.isEmpty then .err .invalidExpression (o + blen a + 1) else .ok ())) 0
        fun _ _ => by simp
      omega

@[simp] theorem validateVarspecs_fst : ∀ (b : Bool) (vs : List Str) (o : Nat),
    (validateVarspecs b vs o).1 = Tpl.validateVarspecs b vs o
  | _, [], _ => rfl
  | b, v :: vs, o => by
    unfold validateVarspecs Tpl.validateVarspecs
    simp only [bind_fst, rb_fst, validate_varspec_fst]
    simp only [validateVarspecs_fst false vs]

/-- The bytes of the pieces and the commas between them. -/
def piecesLen : List Str → Nat
  | [] => 0
  | v :: vs => pieceCost v vs + piecesLen vs

theorem splitComma_ne (s : Str) : Tpl.splitComma s ≠ [] := by
  cases s with
  | nil => simp [Tpl.splitComma]
  | cons c r =>
    unfold Tpl.splitComma
    split
    · simp
    · split <;> simp

theorem splitComma_len (s : Str) : piecesLen (Tpl.splitComma s) = blen s := by
  induction s with
  | nil => rfl
  | cons c r ih =>
    unfold Tpl.splitComma
    rw [blen_cons]
    by_cases h : (c == ',') = true
    · have hc : c = ',' := by simpa using h
      subst hc
      have hs : (',' : Char).utf8Size = 1 := by decide
      have hne := splitComma_ne r
      simp only [h, if_true, piecesLen, pieceCost, blen_nil, ih, hs]
      rcases hr : Tpl.splitComma r with _ | ⟨a, b⟩
      · exact absurd hr hne
      · simp
    · simp only [h, Bool.false_eq_true, if_false]
      rcases hr : Tpl.splitComma r with _ | ⟨p, ps⟩
      · exact absurd hr (splitComma_ne r)
      · rw [hr] at ih
        simp only [piecesLen, pieceCost, blen_cons] at ih ⊢
        omega

theorem validateVarspecs_snd : ∀ (b : Bool) (vs : List Str) (o : Nat),
    (validateVarspecs b vs o).2 ≤ 3 * piecesLen vs
  | _, [], _ => by simp [validateVarspecs]
  | b, v :: vs, o => by
    unfold validateVarspecs
    simp only [bind_snd]
    have h1 := validate_varspec_snd v (if b then o else o + 1)
    have h2 := rb_le (validate_varspec v (if b then o else o + 1))
      (fun _ => validateVarspecs false vs ((if b then o else o + 1) + blen v)) (3 * piecesLen vs)
      fun _ _ => validateVarspecs_snd _ _ _
    have h3 : blen v ≤ pieceCost v vs := by unfold pieceCost; omega
    simp only [piecesLen]
    omega

theorem validateVarspecs_full : ∀ (b : Bool) (vs : List Str) (o : Nat),
    (validateVarspecs b vs o).1 = .ok () → piecesLen vs ≤ (validateVarspecs b vs o).2
  | _, [], _, _ => by simp [piecesLen]
  | b, v :: vs, o, h => by
    unfold validateVarspecs at h ⊢
    simp only [bind_snd]
    rw [bind_fst] at h
    obtain ⟨_, h1, h2, h3⟩ := rb_ok h
    have := validateVarspecs_full _ _ _ h2
    rw [h3]
    simp only [piecesLen]
    omega

@[simp] theorem validate_expr_body_fst (s : Str) (o : Nat) :
    (validate_expr_body s o).1 = Tpl.validate_expr_body s o := by
  unfold validate_expr_body Tpl.validate_expr_body
  rcases s with _ | ⟨c, r⟩
  · rfl
  · simp only [bind_fst]
    rcases Tpl.MaybeOperator.from_byte c with _ | (_ | _) <;> first | rfl | exact validateVarspecs_fst _ _ _

theorem validate_expr_body_snd (s : Str) (o : Nat) : (validate_expr_body s o).2 ≤ 3 * blen s + 1 := by
  unfold validate_expr_body
  rcases s with _ | ⟨c, r⟩
  · simp
  · have h1 := validateVarspecs_snd true (Tpl.splitComma r) (o + 1)
    have h2 := validateVarspecs_snd true (Tpl.splitComma (c :: r)) o
    rw [splitComma_len, blen_cons] at h2
    rw [splitComma_len] at h1
    rw [blen_cons]
    simp only [bind_snd]
    rcases Tpl.MaybeOperator.from_byte c with _ | (_ | _) <;> simp only [ret_snd] <;> omega

theorem op_size {c : Char} {x : Tpl.MaybeOperator} (h : Tpl.MaybeOperator.from_byte c = some x) : c.utf8Size = 1 := by
  unfold Tpl.MaybeOperator.from_byte at h
  by_cases h0 : c = '+'; · subst h0; decide
  rw [if_neg h0] at h
  by_cases h1 : c = '#'; · subst h1; decide
  rw [if_neg h1] at h
  by_cases h2 : c = '.'; · subst h2; decide
  rw [if_neg h2] at h
  by_cases h3 : c = '/'; · subst h3; decide
  rw [if_neg h3] at h
  by_cases h4 : c = ';'; · subst h4; decide
  rw [if_neg h4] at h
  by_cases h5 : c = '?'; · subst h5; decide
  rw [if_neg h5] at h
  by_cases h6 : c = '&'; · subst h6; decide
  rw [if_neg h6] at h
  by_cases h7 : c = '='; · subst h7; decide
  rw [if_neg h7] at h
  by_cases h8 : c = ','; · subst h8; decide
  rw [if_neg h8] at h
  by_cases h9 : c = '!'; · subst h9; decide
  rw [if_neg h9] at h
  by_cases h10 : c = '@'; · subst h10; decide
  rw [if_neg h10] at h
  by_cases h11 : c = '|'; · subst h11; decide
  rw [if_neg h11] at h
  cases h

theorem validate_expr_body_full {s : Str} {o : Nat} (h : (validate_expr_body s o).1 = .ok ()) :
    blen s ≤ (validate_expr_body s o).2 := by
  unfold validate_expr_body at h ⊢
  rcases s with _ | ⟨c, r⟩
  · cases h
  · rw [blen_cons]
    simp only [bind_fst, bind_snd] at h ⊢
    rcases hc : Tpl.MaybeOperator.from_byte c with _ | (_ | _) <;> rw [hc] at h
    · have := validateVarspecs_full _ _ _ h
      rw [splitComma_len, blen_cons] at this
      dsimp only
      omega
    · have := validateVarspecs_full _ _ _ h
      rw [splitComma_len] at this
      have := op_size hc
      dsimp only
      omega
    · cases h

@[simp] theorem validatePct_fst (l x : Str) (o : Nat) : (validatePct l x o).1 = Tpl.validatePct l x o := by
  unfold validatePct Tpl.validatePct
  rw [rb_fst, validate_literal_fst]
  rfl

@[simp] theorem validateExpr_fst (l x : Str) (o : Nat) : (validateExpr l x o).1 = Tpl.validateExpr l x o := by
  unfold validateExpr Tpl.validateExpr
  rw [rb_fst, validate_literal_fst]
  congr 1
  funext _
  unfold closeExpr
  simp only [bind_fst, find_split_hole_fst]
  rcases Verif.find_split_hole x '}' with _ | ⟨a, b⟩
  · rfl
  · simp only [rb_fst, validate_expr_body_fst, ret_fst]

@[simp] theorem validateLoop_fst : ∀ (f n : Nat) (r : Str) (o : Nat),
    (validateLoop f n r o).1 = Tpl.validateLoop f n r o
  | 0, _, _, _ => rfl
  | f + 1, n, r, o => by
    unfold validateLoop Tpl.validateLoop
    by_cases h : r.isEmpty = true
    · rw [if_pos h, if_pos h]; rfl
    · rw [if_neg h, if_neg h]
      simp only [bind_fst, find_split2_hole_fst]
      rcases Verif.find_split2_hole r '%' '{' with _ | ⟨a, c, b⟩
      · exact validate_literal_fst _ _
      · simp only [rb_fst, validateLoop_fst f n]
        by_cases hc : c = '%'
        · rw [if_pos hc, if_pos hc, validatePct_fst]
        · rw [if_neg hc, if_neg hc, validateExpr_fst]

theorem splitAt2_len {s a b : Str} (h : splitAtB s 2 = some (a, b)) : blen b + 2 = blen s := by
  obtain ⟨e, ha⟩ := splitAtB_some.1 h
  rw [e, blen_append]
  omega

/-- What one percent-encoding costs, and what is left. -/
theorem validatePct_snd (l x : Str) (o : Nat) :
    (validatePct l x o).2 ≤ blen l + min 2 (blen x) ∧
    ∀ r, (validatePct l x o).1 = .ok r → blen r + 2 = blen x ∧ (validatePct l x o).2 = blen l + 2 := by
  have h0 := validate_literal_snd l o
  have h1 := rb_le (validate_literal l o)
    (fun _ => (pctDigits (blen l) x o, min 2 (blen x))) (min 2 (blen x)) fun _ _ => Nat.le_refl _
  refine ⟨Nat.le_trans h1 (by omega), ?_⟩
  intro r hr
  obtain ⟨_, h2, h3, h4⟩ := rb_ok (x := validate_literal l o)
    (f := fun _ => (pctDigits (blen l) x o, min 2 (blen x))) hr
  have h5 := validate_literal_full h2
  have h6 : (validatePct l x o).2 = blen l + min 2 (blen x) := by
    rw [← h5]; exact h4
  have h7 : blen r + 2 = blen x := by
    dsimp only at h3
    unfold pctDigits at h3
    split at h3
    · cases h3
    · split at h3
      · cases h3
      · next hs =>
        split at h3
        · cases h3
        · split at h3
          · cases h3
          · cases h3; exact splitAt2_len hs
  omega

/-- What one expression costs, and what is left. -/
theorem validateExpr_snd (l x : Str) (o : Nat) :
    (validateExpr l x o).2 ≤ blen l + 4 * blen x + 1 ∧
    ∀ r, (validateExpr l x o).1 = .ok r → blen r ≤ blen x ∧ (validateExpr l x o).2 + 4 * blen r ≤ blen l + 4 * blen x ∧
      blen l + blen x ≤ (validateExpr l x o).2 + blen r := by
  have h0 := validate_literal_snd l o
  have hf := find_split_hole_snd x '}'
  have key : (closeExpr (blen l) x o).2 ≤ 4 * blen x + 1 := by
    unfold closeExpr
    simp only [bind_snd, find_split_hole_fst]
    rcases h : Verif.find_split_hole x '}' with _ | ⟨a, b⟩
    · simp only [ret_snd]; omega
    · have h1 := hf.1 _ _ h
      have h2 := validate_expr_body_snd a (o + blen l + 1)
      have := rb_le (validate_expr_body a (o + blen l + 1)) (fun _ => ret (.ok b)) 0 fun _ _ => Nat.le_refl _
      dsimp only
      omega
  constructor
  · have := rb_le (validate_literal l o) (fun _ => closeExpr (blen l) x o) _ fun _ _ => key
    unfold validateExpr
    omega
  · intro r hr
    obtain ⟨_, h2, h3, h4⟩ := rb_ok hr
    have h5 := validate_literal_full h2
    have h4' : (validateExpr l x o).2 = _ := h4
    rw [h4', h5]
    unfold closeExpr at h3 ⊢
    simp only [bind_fst, bind_snd, find_split_hole_fst] at h3 ⊢
    rcases h : Verif.find_split_hole x '}' with _ | ⟨a, b⟩ <;> rw [h] at h3
    · cases h3
    · have h1 := hf.1 _ _ h
      obtain ⟨_, h6, h7, h8⟩ := rb_ok h3
      cases h7
      have h9 := validate_expr_body_full h6
      have h10 := validate_expr_body_snd a (o + blen l + 1)
      dsimp only
      rw [h8]
      simp only [ret_snd]
      omega

theorem validateLoop_snd : ∀ (f n : Nat) (r : Str) (o : Nat), (validateLoop f n r o).2 ≤ 4 * blen r
  | 0, _, _, _ => by simp [validateLoop]
  | f + 1, n, r, o => by
    unfold validateLoop
    split
    · simp
    · have hf := find_split2_hole_snd r '%' '{'
      simp only [bind_snd, find_split2_hole_fst]
      rcases h : Verif.find_split2_hole r '%' '{' with _ | ⟨a, c, b⟩
      · have := validate_literal_snd r o
        dsimp only
        omega
      · have h1 := hf.1 _ _ _ h
        dsimp only
        by_cases hc : c = '%'
        · rw [if_pos hc]
          have h2 := validatePct_snd a b o
          cases he : (validatePct a b o).1 with
          | ok t =>
            have h3 := h2.2 t he
            have := rb_le (validatePct a b o) (fun rest => validateLoop f n rest (n - blen rest)) (4 * blen t)
              fun t' ht => by rw [he] at ht; cases ht; exact validateLoop_snd _ _ _ _
            omega
          | panic =>
            have := rb_le (validatePct a b o) (fun rest => validateLoop f n rest (n - blen rest)) 0
              fun t' ht => by rw [he] at ht; cases ht
            omega
          | err k l =>
            have := rb_le (validatePct a b o) (fun rest => validateLoop f n rest (n - blen rest)) 0
              fun t' ht => by rw [he] at ht; cases ht
            omega
        · rw [if_neg hc]
          have h2 := validateExpr_snd a b o
          cases he : (validateExpr a b o).1 with
          | ok t =>
            have h3 := h2.2 t he
            have := rb_le (validateExpr a b o) (fun rest => validateLoop f n rest (n - blen rest)) (4 * blen t)
              fun t' ht => by rw [he] at ht; cases ht; exact validateLoop_snd _ _ _ _
            omega
          | panic =>
            have := rb_le (validateExpr a b o) (fun rest => validateLoop f n rest (n - blen rest)) 0
              fun t' ht => by rw [he] at ht; cases ht
            omega
          | err k l =>
            have := rb_le (validateExpr a b o) (fun rest => validateLoop f n rest (n - blen rest)) 0
              fun t' ht => by rw [he] at ht; cases ht
            omega

theorem validateLoop_full : ∀ (f n : Nat) (r : Str) (o : Nat), (validateLoop f n r o).1 = .ok () →
    blen r ≤ (validateLoop f n r o).2
  | 0, _, _, _, h => by cases h
  | f + 1, n, r, o, h => by
    unfold validateLoop at h ⊢
    by_cases hr : r.isEmpty = true
    · rw [List.isEmpty_iff.1 hr]; simp
    · rw [if_neg hr] at h ⊢
      have hf := find_split2_hole_snd r '%' '{'
      simp only [bind_fst, bind_snd, find_split2_hole_fst] at h ⊢
      rcases hs : Verif.find_split2_hole r '%' '{' with _ | ⟨a, c, b⟩ <;> rw [hs] at h
      · have := validate_literal_full h
        dsimp only
        omega
      · have h1 := hf.1 _ _ _ hs
        dsimp only at h ⊢
        obtain ⟨t, h2, h3, h4⟩ := rb_ok h
        rw [h4]
        have h5 := validateLoop_full _ _ _ _ h3
        by_cases hc : c = '%'
        · rw [if_pos hc] at h2 ⊢
          have := (validatePct_snd a b o).2 t h2
          omega
        · rw [if_neg hc] at h2 ⊢
          have := (validateExpr_snd a b o).2 t h2
          omega

/-! ### The list of variables -/

@[simp] theorem parse_trusted_fst (s : Str) : (parse_trusted s).1 = Tpl.parse_trusted s := by
  unfold parse_trusted Tpl.parse_trusted
  simp only [bind_fst]
  cases Tpl.strip_suffix_char s '*' with
  | some v => rfl
  | none =>
    simp only [bind_fst, find_split_hole_fst]
    rcases Verif.find_split_hole s ':' with _ | ⟨a, b⟩
    · rfl
    · rfl

theorem parse_trusted_snd (s : Str) : (parse_trusted s).2 ≤ 2 * blen s := by
  unfold parse_trusted
  have hf := find_split_hole_snd s ':'
  simp only [bind_snd]
  cases Tpl.strip_suffix_char s '*' with
  | some v => simp only [ret_snd]; omega
  | none =>
    simp only [bind_snd, find_split_hole_fst]
    rcases h : Verif.find_split_hole s ':' with _ | ⟨a, b⟩
    · simp only [ret_snd]; omega
    · have := hf.1 _ _ h
      simp only [bind_snd, ret_snd]; omega

@[simp] theorem varListNext_fst (s : Str) : (varListNext s).1 = Tpl.varListNext s := by
  unfold varListNext Tpl.varListNext
  simp only [bind_fst, find_split_hole_fst]
  rcases Verif.find_split_hole s ',' with _ | ⟨a, b⟩
  · dsimp only
    by_cases h : s.isEmpty = true
    · rw [if_pos h, if_pos h]; rfl
    · rw [if_neg h, if_neg h]; simp only [bind_fst, ret_fst, parse_trusted_fst]
  · simp only [bind_fst, ret_fst, parse_trusted_fst]

/-- The bytes looked at are at most three times those that are no longer left. -/
theorem varListNext_snd (s : Str) : (varListNext s).2 ≤ 3 * blen s ∧
    ∀ x r, (varListNext s).1 = some (some (x, r)) → (varListNext s).2 + 3 * blen r ≤ 3 * blen s := by
  unfold varListNext
  have hf := find_split_hole_snd s ','
  simp only [bind_snd, bind_fst, find_split_hole_fst]
  rcases h : Verif.find_split_hole s ',' with _ | ⟨a, b⟩
  · dsimp only
    split
    · simp only [ret_snd, ret_fst]
      refine ⟨by omega, fun x r h => by cases h⟩
    · have := parse_trusted_snd s
      simp only [bind_snd, bind_fst, ret_fst, ret_snd, parse_trusted_fst]
      refine ⟨by omega, fun x r h => ?_⟩
      rw [Option.map_eq_some_iff] at h
      obtain ⟨v, _, h⟩ := h
      cases h
      simp only [blen_nil]
      omega
  · have h1 := hf.1 _ _ h
    have := parse_trusted_snd a
    simp only [bind_snd, bind_fst, ret_fst, ret_snd, parse_trusted_fst]
    refine ⟨by omega, fun x r h => ?_⟩
    rw [Option.map_eq_some_iff] at h
    obtain ⟨v, _, h⟩ := h
    cases h
    omega

@[simp] theorem chunksNext_fst (s : Str) : (chunksNext s).1 = Tpl.chunksNext s := by
  unfold chunksNext Tpl.chunksNext
  by_cases h : s.isEmpty = true
  · rw [if_pos h, if_pos h]; rfl
  · rw [if_neg h, if_neg h]
    simp only [bind_fst, find_split_fst]
    rcases Verif.find_split s '{' with _ | ⟨a, b⟩
    · rfl
    · dsimp only
      by_cases ha : a.isEmpty = true
      · rw [if_pos ha, if_pos ha]
        simp only [bind_fst, find_split_hole_fst]
        rcases Verif.find_split_hole (s.drop 1) '}' with _ | ⟨x, y⟩ <;> rfl
      · rw [if_neg ha, if_neg ha]; rfl

theorem find_brace_snd (s : Str) :
    (∀ a b, Verif.find_split s '{' = some (a, b) → (find_split s '{').2 = blen a + 1 ∧
      s = a ++ b ∧ b.head? = some '{') ∧ (find_split s '{').2 ≤ blen s := by
  unfold find_split Verif.find_split
  induction s with
  | nil => simp [findSplitP, Verif.findSplitP]
  | cons c r ih =>
    unfold findSplitP Verif.findSplitP
    rw [blen_cons]
    by_cases h : (c == '{') = true
    · have hc : c = '{' := by simpa using h
      subst hc
      simp only [h, if_true]
      refine ⟨?_, by omega⟩
      rintro a b ⟨rfl, rfl⟩
      exact ⟨by decide, rfl, rfl⟩
    · simp only [h, Bool.false_eq_true, if_false]
      refine ⟨?_, by omega⟩
      intro a b hab
      rw [Option.map_eq_some_iff] at hab
      obtain ⟨⟨a', b'⟩, h1, h2⟩ := hab
      cases h2
      obtain ⟨h3, h4, h5⟩ := ih.1 _ _ h1
      refine ⟨by simp only [blen_cons]; omega, by rw [List.cons_append, ← h4], h5⟩

/-- A literal costs at most twice its bytes, an expression its bytes. -/
theorem chunksNext_snd (s : Str) : (chunksNext s).2 ≤ 2 * blen s ∧
    (∀ l r, (chunksNext s).1 = some (some (.literal l, r)) → (chunksNext s).2 + 2 * blen r ≤ 2 * blen s) ∧
    (∀ e r, (chunksNext s).1 = some (some (.expr e, r)) → (chunksNext s).2 = blen e + 2 ∧
      blen e + 2 + blen r = blen s) := by
  unfold chunksNext
  by_cases h : s.isEmpty = true
  · rw [if_pos h]
    refine ⟨by simp, ?_, ?_⟩ <;> intro l r h <;> cases h
  · rw [if_neg h]
    have hf := find_brace_snd s
    simp only [bind_snd, bind_fst, find_split_fst]
    rcases hs : Verif.find_split s '{' with _ | ⟨a, b⟩
    · simp only [ret_snd, ret_fst]
      refine ⟨by omega, ?_, ?_⟩
      · intro l r h; cases h; simp only [blen_nil]; omega
      · intro l r h; cases h
    · obtain ⟨h1, h2, h3⟩ := hf.1 _ _ hs
      have h4 : blen s = blen a + blen b := by rw [h2, blen_append]
      dsimp only
      by_cases ha : a.isEmpty = true
      · rw [if_pos ha]
        have ha' := List.isEmpty_iff.1 ha
        subst ha'
        rcases b with _ | ⟨c, b⟩
        · cases h3
        · have hc : c = '{' := by simpa using h3
          subst hc
          have hs1 : ('{' : Char).utf8Size = 1 := by decide
          have h5 := find_split_hole_snd b '}'
          have h6 : blen s = 1 + blen b := by rw [h4, blen_cons, hs1, blen_nil]; omega
          rw [show s.drop 1 = b by rw [h2]; rfl]
          simp only [bind_snd, bind_fst, find_split_hole_fst]
          rw [blen_nil] at h1
          rcases hb : Verif.find_split_hole b '}' with _ | ⟨x, y⟩
          · simp only [ret_snd, ret_fst]
            refine ⟨by omega, ?_, ?_⟩ <;> intro l r h <;> cases h
          · have h7 := h5.1 _ _ hb
            have h8 : blen x + 1 + blen y = blen b := by
              obtain ⟨⟨a', c', b'⟩, e1, e2⟩ := Option.map_eq_some_iff.1 (show
                (Verif.findSplitHoleP (· == '}') b).map (fun x => (x.1, x.2.2)) = some (x, y) from hb)
              cases e2
              have e3 := ((findSplitHoleP_snd (· == '}') b).1 _ _ _ e1).2
              have e4 : c' = '}' := by
                simpa using (findSplitHoleP_some.1 e1).2.1
              subst e4
              have : ('}' : Char).utf8Size = 1 := by decide
              dsimp only
              omega
            simp only [ret_snd, ret_fst]
            refine ⟨by omega, ?_, ?_⟩
            · intro l r h; cases h
            · intro l r h; cases h; omega
      · rw [if_neg ha]
        have : 0 < blen a := by
          rcases a with _ | ⟨c, a⟩
          · simp at ha
          · have := Char.utf8Size_pos c
            rw [blen_cons]; omega
        simp only [ret_snd, ret_fst]
        refine ⟨by omega, ?_, ?_⟩
        · intro l r h; cases h; omega
        · intro l r h; cases h

@[simp] theorem nextExpr_fst : ∀ (f : Nat) (s : Str), (nextExpr f s).1 = Tpl.nextExpr f s
  | 0, _ => rfl
  | f + 1, s => by
    unfold nextExpr Tpl.nextExpr
    simp only [bind_fst, chunksNext_fst]
    rcases Tpl.chunksNext s with _ | _ | ⟨_ | _, r⟩
    · rfl
    · rfl
    · exact nextExpr_fst f r
    · rfl

theorem nextExpr_snd : ∀ (f : Nat) (s : Str), (nextExpr f s).2 ≤ 4 * blen s ∧
    ∀ e r, (nextExpr f s).1 = some (some (e, r)) → (nextExpr f s).2 + 3 * blen e + 1 + 4 * blen r ≤ 4 * blen s
  | 0, s => ⟨by simp [nextExpr], fun e r h => by cases h⟩
  | f + 1, s => by
    unfold nextExpr
    have hc := chunksNext_snd s
    simp only [bind_fst, bind_snd]
    rcases h : (chunksNext s).1 with _ | _ | ⟨_ | _, r⟩
    · simp only [ret_fst, ret_snd]
      exact ⟨by omega, fun e r h => by cases h⟩
    · simp only [ret_fst, ret_snd]
      exact ⟨by omega, fun e r h => by cases h⟩
    · have h1 := hc.2.1 _ _ h
      have h2 := nextExpr_snd f r
      dsimp only
      refine ⟨by omega, fun e r' h' => ?_⟩
      have := h2.2 _ _ h'
      omega
    · have h1 := hc.2.2 _ _ h
      simp only [ret_fst, ret_snd]
      refine ⟨by omega, fun e r' h' => ?_⟩
      cases h'
      omega

/-- What there is left to look at. -/
def left (it : Tpl.VarsIter) : Nat := 4 * blen it.chunks + 3 * blen (it.vars_in_chunk.getD [])

theorem firstVar_snd (it : Tpl.VarsIter) : (firstVar it).2 + 4 * blen it.chunks ≤ left it ∧
    ∀ x r, (firstVar it).1 = some (some (x, r)) →
      (firstVar it).2 + left ⟨it.chunks, some r⟩ ≤ left it := by
  obtain ⟨ch, vs⟩ := it
  cases vs with
  | none => exact ⟨by simp [firstVar, left], fun x r h => by cases h⟩
  | some v =>
    have := varListNext_snd v
    simp only [firstVar, left, Option.getD_some]
    refine ⟨by omega, fun x r h => ?_⟩
    have := this.2 _ _ h
    omega

theorem decompose_len {body l : Str} {op : Tpl.Operator} (h : Tpl.decompose body = some (op, l)) :
    blen l ≤ blen body := by
  unfold Tpl.decompose at h
  split at h
  · cases h
  · split at h
    · cases h; exact Nat.le_refl _
    · rw [Option.map_eq_some_iff] at h
      obtain ⟨_, _, h⟩ := h
      cases h
      rw [blen_cons]
      omega

@[simp] theorem varsNext_fst : ∀ (f : Nat) (it : Tpl.VarsIter), (varsNext f it).1 = Tpl.varsNext f it
  | 0, _ => rfl
  | f + 1, it => by
    obtain ⟨ch, vs⟩ := it
    unfold varsNext Tpl.varsNext
    rcases vs with _ | v
    · simp only [bind_fst, firstVar, ret_fst]
      simp only [bind_fst, nextExpr_fst]
      rcases Tpl.nextExpr (ch.length + 1) ch with _ | _ | ⟨b, r⟩
      · rfl
      · rfl
      · simp only [bind_fst]
        rcases Tpl.decompose b with _ | ⟨op, l⟩
        · rfl
        · exact varsNext_fst f _
    · simp only [bind_fst, firstVar, varListNext_fst]
      rcases Tpl.varListNext v with _ | _ | ⟨⟨n, w⟩, r⟩
      · rfl
      · simp only [bind_fst, nextExpr_fst]
        rcases Tpl.nextExpr (ch.length + 1) ch with _ | _ | ⟨b, r⟩
        · rfl
        · rfl
        · simp only [bind_fst]
          rcases Tpl.decompose b with _ | ⟨op, l⟩
          · rfl
          · exact varsNext_fst f _
      · rfl

theorem varsNext_snd : ∀ (f : Nat) (it : Tpl.VarsIter), (varsNext f it).2 ≤ left it ∧
    ∀ x it', (varsNext f it).1 = some (some (x, it')) → (varsNext f it).2 + left it' ≤ left it
  | 0, it => ⟨by simp [varsNext], fun x r h => by cases h⟩
  | f + 1, it => by
    unfold varsNext
    have h0 := firstVar_snd it
    simp only [bind_fst, bind_snd]
    rcases hv : (firstVar it).1 with _ | _ | ⟨⟨n, v⟩, r⟩
    · simp only [ret_fst, ret_snd]
      exact ⟨by omega, fun e r h => by cases h⟩
    · have h1 := nextExpr_snd (it.chunks.length + 1) it.chunks
      simp only [bind_fst, bind_snd]
      rcases hn : (nextExpr (it.chunks.length + 1) it.chunks).1 with _ | _ | ⟨b, r⟩
      · simp only [ret_fst, ret_snd]
        exact ⟨by omega, fun e r h => by cases h⟩
      · simp only [ret_fst, ret_snd]
        exact ⟨by omega, fun e r h => by cases h⟩
      · have h2 := h1.2 _ _ hn
        simp only [bind_fst, bind_snd]
        rcases hd : Tpl.decompose b with _ | ⟨op, l⟩
        · simp only [ret_fst, ret_snd]
          exact ⟨by omega, fun e r h => by cases h⟩
        · have h3 := varsNext_snd f ⟨r, some l⟩
          have h4 := decompose_len hd
          have h5 : left ⟨r, some l⟩ = 4 * blen r + 3 * blen l := rfl
          rw [h5] at h3
          dsimp only
          refine ⟨by omega, fun x it' h => ?_⟩
          have := h3.2 _ _ h
          omega
    · have h1 := h0.2 _ _ hv
      simp only [ret_fst, ret_snd]
      refine ⟨by omega, fun x it' h => ?_⟩
      cases h
      omega

@[simp] theorem varsCollect_fst : ∀ (f : Nat) (it : Tpl.VarsIter), (varsCollect f it).1 = Tpl.varsCollect f it
  | 0, _ => rfl
  | f + 1, it => by
    unfold varsCollect Tpl.varsCollect
    simp only [bind_fst, varsNext_fst]
    rcases Tpl.varsNext (it.chunks.length + 2) it with _ | _ | ⟨n, it'⟩
    · rfl
    · rfl
    · simp only [bind_fst, ret_fst, varsCollect_fst f]

theorem varsCollect_snd : ∀ (f : Nat) (it : Tpl.VarsIter), (varsCollect f it).2 ≤ left it
  | 0, it => by simp [varsCollect]
  | f + 1, it => by
    unfold varsCollect
    have h0 := varsNext_snd (it.chunks.length + 2) it
    simp only [bind_snd]
    rcases hv : (varsNext (it.chunks.length + 2) it).1 with _ | _ | ⟨n, it'⟩
    · simp only [ret_snd]; omega
    · simp only [ret_snd]; omega
    · have h1 := h0.2 _ _ hv
      have h2 := varsCollect_snd f it'
      simp only [bind_snd, ret_snd]
      omega

end Work

/-- **C88 (the counter changes nothing).**  With the counter, template validation gives the same verdict (error,
place and panic too) and the list of variables is the same. -/
theorem C88_same (s : Str) :
    (Work.validate_template_str s).1 = Tpl.validate_template_str s ∧ (Work.variables s).1 = Tpl.variables s :=
  ⟨Work.validateLoop_fst _ _ _ _, Work.varsCollect_fst _ _⟩

/-- **C88 (linear).**  Whatever the text, accepted or not, validating it as a template looks at no more than four
bytes per byte of the text; so does listing all the variables of a template. -/
theorem C88_linear (s : Str) :
    (Work.validate_template_str s).2 ≤ 4 * blen s ∧ (Work.variables s).2 ≤ 4 * blen s := by
  refine ⟨Work.validateLoop_snd _ _ _ _, ?_⟩
  have := Work.varsCollect_snd (s.length + 1) ⟨s, none⟩
  unfold Work.variables
  simpa [Work.left] using this

/-- **C88 (nothing is accepted unread).**  A template that is accepted has been looked at at least once per byte. -/
theorem C88_full (s : Str) (h : Tpl.validate_template_str s = .ok ()) : blen s ≤ (Work.validate_template_str s).2 :=
  Work.validateLoop_full _ _ _ _ (by rw [Work.validateLoop_fst]; exact h)

/-- 30 bytes: validated with 70 looks, its variables listed with 55. -/
example : Work.validate_template_str (chars! "http://x/{+a,b:3}%20{?list*,q}") = (.ok (), 70) ∧
    Work.variables (chars! "http://x/{+a,b:3}%20{?list*,q}") =
      (some [chars! "a", chars! "b", chars! "list", chars! "q"], 55) ∧
    blen (chars! "http://x/{+a,b:3}%20{?list*,q}") = 30 := by
  decide +kernel

end Verif
