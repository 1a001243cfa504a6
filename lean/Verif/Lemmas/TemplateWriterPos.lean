import Verif.Lemmas.TemplateWriter
import Verif.Lemmas.TemplateDelims

/-!
# Where an expansion into a writer stops
-/

namespace Verif.Tpl

open Verif.Abnf Verif.Rfc Verif.Rfc6570

variable {τ σ : Type} {α β γ : Type}

/-- `x?` followed by `k`. -/
def thenW (x : Option (DynOutW τ σ α)) (k : α → τ → σ → Option (DynOutW τ σ β)) :
    Option (DynOutW τ σ β) :=
  match x with
  | none => none
  | some ⟨.error e, t, st⟩ => some ⟨.error e, t, st⟩
  | some ⟨.ok a, t, st⟩ => k a t st

theorem thenW_assoc (x : Option (DynOutW τ σ α)) (k : α → τ → σ → Option (DynOutW τ σ β))
    (l : β → τ → σ → Option (DynOutW τ σ γ)) :
    thenW (thenW x k) l = thenW x fun a t st => thenW (k a t st) l := by
  cases x with
  | none => rfl
  | some d =>
    obtain ⟨r, t, st⟩ := d
    cases r <;> rfl

theorem thenW_ok (x : Option (DynOutW τ σ α)) : thenW x (fun a t st => some ⟨.ok a, t, st⟩) = x := by
  cases x with
  | none => rfl
  | some d =>
    obtain ⟨r, t, st⟩ := d
    cases r <;> rfl

theorem thenW_error {x : Option (DynOutW τ σ α)} {k : α → τ → σ → Option (DynOutW τ σ β)}
    {e : ErrorKind × Nat} {t : τ} {st : σ} (h : thenW x k = some ⟨.error e, t, st⟩) :
    x = some ⟨.error e, t, st⟩ ∨ ∃ a t' st', x = some ⟨.ok a, t', st'⟩ ∧ k a t' st' = some ⟨.error e, t, st⟩ := by
  cases x with
  | none => cases h
  | some d =>
    obtain ⟨r, t', st'⟩ := d
    cases r with
    | error e' => cases h; exact .inl rfl
    | ok a => exact .inr ⟨a, t', st', rfl, h⟩

section

variable (S : Spec) (hex : Nat → List Str) (dbg : Bool) (w : Writer τ) (ctx : DynCtx σ)

/-- One varspec; the result is `is_first_varspec` and the position. -/
def varW (op : Operator) (v : Var) (a : Bool × Nat) (t : τ) (st : σ) :
    Option (DynOutW τ σ (Bool × Nat)) :=
  if badType (toSpec v).modifier (typeOf (ctx.visit .typecheck v.name st).1) then
    some ⟨.error (.unexpectedValueType, a.2), t, (ctx.visit .typecheck v.name st).2⟩
  else
    match visitValueW S hex dbg w op (toSpec v) a.1 t
        (ctx.visit .expand v.name (ctx.visit .typecheck v.name st).2).1 with
    | none => none
    | some (t, false) =>
      some ⟨.error (.writeFailed, a.2), t, (ctx.visit .expand v.name (ctx.visit .typecheck v.name st).2).2⟩
    | some (t, true) =>
      some ⟨.ok (stillFirst a.1 (ctx.visit .expand v.name (ctx.visit .typecheck v.name st).2).1,
          a.2 + (blen v.render + 1)), t,
        (ctx.visit .expand v.name (ctx.visit .typecheck v.name st).2).2⟩

/-- Several varspecs. -/
def varsW (op : Operator) : List Var → Bool × Nat → τ → σ → Option (DynOutW τ σ (Bool × Nat))
  | [], a, t, st => some ⟨.ok a, t, st⟩
  | v :: vs, a, t, st => thenW (varW S hex dbg w ctx op v a t st) (varsW op vs)

theorem varsW_append (op : Operator) (vs vs' : List Var) (a : Bool × Nat) (t : τ) (st : σ) :
    varsW S hex dbg w ctx op (vs ++ vs') a t st =
      thenW (varsW S hex dbg w ctx op vs a t st) (varsW S hex dbg w ctx op vs') := by
  induction vs generalizing a t st with
  | nil => rfl
  | cons v vs ih =>
    simp only [List.cons_append, varsW, thenW_assoc]
    congr 1
    funext a t st
    exact ih a t st

/-- A part of a template; the result is the position. -/
def pieceW (p : Piece) (pos : Nat) (t : τ) (st : σ) : Option (DynOutW τ σ Nat) :=
  match p with
  | .lit s =>
    match w t s with
    | none => none
    | some (t, false) => some ⟨.error (.writeFailed, pos), t, st⟩
    | some (t, true) => some ⟨.ok (pos + blen s), t, st⟩
  | .expr op vars =>
    thenW (varsW S hex dbg w ctx (toOp op) vars (true, pos + (blen op.toList + 1)) t st)
      fun a t st => some ⟨.ok a.2, t, st⟩

/-- Several parts. -/
def runW : List Piece → Nat → τ → σ → Option (DynOutW τ σ Nat)
  | [], pos, t, st => some ⟨.ok pos, t, st⟩
  | p :: ps, pos, t, st => thenW (pieceW S hex dbg w ctx p pos t st) (runW ps)

theorem runW_append (ps ps' : List Piece) (pos : Nat) (t : τ) (st : σ) :
    runW S hex dbg w ctx (ps ++ ps') pos t st =
      thenW (runW S hex dbg w ctx ps pos t st) (runW S hex dbg w ctx ps') := by
  induction ps generalizing pos t st with
  | nil => rfl
  | cons v vs ih =>
    simp only [List.cons_append, runW, thenW_assoc]
    congr 1
    funext a t st
    exact ih a t st

theorem expandVarsMutW_eq (op : Operator) (vars : List Var) (first : Bool) (pos fuel : Nat) (t : τ)
    (st : σ) (hw : ∀ v ∈ vars, v.WF varnameX maxLengthX) (hf : ∀ v ∈ vars, Fits v)
    (hfu : vars.length < fuel) :
    expandVarsMutW S hex dbg w ctx op fuel first pos (varsText vars) t st =
      thenW (varsW S hex dbg w ctx op vars (first, pos) t st) fun a t st => some ⟨.ok a.2, t, st⟩ := by
  induction vars generalizing first pos fuel t st with
  | nil =>
    obtain ⟨n, rfl⟩ : ∃ n, fuel = n + 1 := ⟨fuel - 1, by omega⟩
    rfl
  | cons v vs ih =>
    obtain ⟨n, rfl⟩ : ∃ n, fuel = n + 1 := ⟨fuel - 1, by omega⟩
    rw [expandVarsMutW, (varListNext_cons (hw v (by simp)) vs).1 (hf v (by simp))]
    simp only [varsW, varW]
    have e : (toSpec v).name = v.name := rfl
    rw [e]
    by_cases hb : badType (toSpec v).modifier (typeOf (ctx.visit .typecheck v.name st).1) = true
    · rw [if_pos hb, if_pos hb]; rfl
    · rw [if_neg hb, if_neg hb]
      cases visitValueW S hex dbg w op (toSpec v) first t
        (ctx.visit .expand v.name (ctx.visit .typecheck v.name st).2).1 with
      | none => rfl
      | some o =>
        obtain ⟨t', b⟩ := o
        cases b with
        | false => rfl
        | true =>
          exact ih _ _ n _ _ (fun v hv => hw v (by simp [hv])) (fun v hv => hf v (by simp [hv]))
            (by simp at hfu; omega)

theorem varW_ok {op : Operator} {v : Var} {a a' : Bool × Nat} {t t' : τ} {st st' : σ}
    (h : varW S hex dbg w ctx op v a t st = some ⟨.ok a', t', st'⟩) :
    a'.2 = a.2 + (blen v.render + 1) := by
  unfold varW at h
  split at h
  · cases h
  · split at h <;> cases h
    rfl

theorem varsW_ok {op : Operator} {vars : List Var} {a a' : Bool × Nat} {t t' : τ} {st st' : σ}
    (h : varsW S hex dbg w ctx op vars a t st = some ⟨.ok a', t', st'⟩) :
    a'.2 = a.2 + specsLen vars := by
  induction vars generalizing a t st with
  | nil => cases h; simp [specsLen]
  | cons v vs ih =>
    rw [varsW] at h
    cases e : varW S hex dbg w ctx op v a t st with
    | none => rw [e] at h; cases h
    | some d =>
      rw [e] at h
      obtain ⟨r, t1, st1⟩ := d
      cases r with
      | error e => cases h
      | ok a1 =>
        have h1 := varW_ok S hex dbg w ctx e
        have h2 := ih h
        simp [specsLen] at h1 h2 ⊢
        omega

theorem expandExprMutW_eq {op : Option Char} {vars : List Var} (pos : Nat) (t : τ) (st : σ)
    (h : Piece.WF asciiLiterals varnameX maxLengthX (.expr op vars)) (hf : ∀ v ∈ vars, Fits v) :
    expandExprMutW S hex dbg w ctx pos (bodyText op vars) t st =
      pieceW S hex dbg w ctx (.expr op vars) pos t st := by
  unfold expandExprMutW
  rw [decompose_eq h]
  simp only
  have := varsText_length h.2.2
  rw [expandVarsMutW_eq S hex dbg w ctx _ vars _ _ _ _ _ h.2.2 hf (by omega), toOp_len h.1]
  unfold pieceW
  simp only
  cases ht : varsW S hex dbg w ctx (toOp op) vars (true, pos + (blen op.toList + 1)) t st with
  | none => rfl
  | some d =>
    obtain ⟨r, t', st'⟩ := d
    cases r with
    | error e => rfl
    | ok a =>
      have h1 := varsW_ok S hex dbg w ctx ht
      have h2 := specsLen_eq h.2.1
      show (if a.2 = pos + blen (bodyText op vars) + 2 then some _ else none) = some _
      rw [if_pos]
      rw [bodyText, blen_append]
      simp only at h1
      omega

/-- The result without the position. -/
def forgetPos (x : Option (DynOutW τ σ Nat)) : Option (DynOutW τ σ Unit) :=
  thenW x fun _ t st => some ⟨.ok (), t, st⟩

theorem dynW_chunked {ps : List Piece} (h : Chunked ps) (hs : ∀ v ∈ varsOf ps, Fits v) (fuel pos : Nat)
    (t : τ) (st : σ) (hfu : (text ps).length < fuel) :
    expandDynLoopW S hex dbg w ctx fuel pos (text ps) t st =
      forgetPos (runW S hex dbg w ctx ps pos t st) := by
  induction ps generalizing fuel pos t st with
  | nil =>
    obtain ⟨n, rfl⟩ : ∃ n, fuel = n + 1 := ⟨fuel - 1, by omega⟩
    rfl
  | cons p ps ih =>
    obtain ⟨n, rfl⟩ : ∃ n, fuel = n + 1 := ⟨fuel - 1, by omega⟩
    obtain ⟨h1, h2, h3, h4⟩ := chunks_step h
    rw [expandDynLoopW, h1]
    have ih' := fun pos t st => ih h2 (fun v hv => hs v (by simp [varsOf] at hv ⊢; exact .inr hv)) n
      pos t st (by omega)
    cases p with
    | lit s =>
      simp only [chunkOf, runW, pieceW, forgetPos]
      cases w t s with
      | none => rfl
      | some o =>
        obtain ⟨t', b⟩ := o
        cases b with
        | false => rfl
        | true => exact ih' _ _ _
    | expr op vars =>
      simp only [chunkOf, runW, forgetPos]
      rw [expandExprMutW_eq S hex dbg w ctx pos t st (h4 op vars rfl)
        (fun v hv => hs v (by simp [varsOf]; exact .inl hv))]
      cases pieceW S hex dbg w ctx (.expr op vars) pos t st with
      | none => rfl
      | some d =>
        obtain ⟨r, t', st'⟩ := d
        cases r with
        | error e => rfl
        | ok a => exact ih' _ _ _

theorem runW_ok {ps : List Piece} {pos pos' : Nat} {t t' : τ} {st st' : σ}
    (hw : ∀ op vars, Piece.expr op vars ∈ ps → vars ≠ [])
    (h : runW S hex dbg w ctx ps pos t st = some ⟨.ok pos', t', st'⟩) :
    pos' = pos + blen (text ps) := by
  induction ps generalizing pos t st with
  | nil => cases h; simp [text]
  | cons p ps ih =>
    rw [runW] at h
    cases e : pieceW S hex dbg w ctx p pos t st with
    | none => rw [e] at h; cases h
    | some d =>
      rw [e] at h
      obtain ⟨r, t1, st1⟩ := d
      cases r with
      | error e => cases h
      | ok pos1 =>
        have h2 := ih (fun op vars hm => hw op vars (by simp [hm])) h
        have h1 : pos1 = pos + blen p.render := by
          cases p with
          | lit s =>
            simp only [pieceW] at e
            split at e <;> cases e
            rfl
          | expr op vars =>
            simp only [pieceW] at e
            cases e' : varsW S hex dbg w ctx (toOp op) vars (true, pos + (blen op.toList + 1)) t st with
            | none => rw [e'] at e; cases e
            | some d =>
              rw [e'] at e
              obtain ⟨r, t1, st1⟩ := d
              cases r with
              | error e => cases e
              | ok a =>
                cases e
                have h3 := varsW_ok S hex dbg w ctx e'
                have h4 := specsLen_eq (hw op vars (by simp))
                simp only at h3
                rw [render_expr, h3, bodyText]
                simp [blen_append, utf8Size_ascii (c := '{') (by decide),
                  utf8Size_ascii (c := '}') (by decide)]
                omega
        subst h1
        rw [h2]
        have : text (p :: ps) = p.render ++ text ps := rfl
        rw [this, blen_append]
        omega

/-- An error comes from one of the parts. -/
theorem runW_error {ps : List Piece} {pos : Nat} {t t' : τ} {st st' : σ} {e : ErrorKind × Nat}
    (h : runW S hex dbg w ctx ps pos t st = some ⟨.error e, t', st'⟩) :
    ∃ pre p post pos1 t1 st1, ps = pre ++ p :: post ∧
      runW S hex dbg w ctx pre pos t st = some ⟨.ok pos1, t1, st1⟩ ∧
      pieceW S hex dbg w ctx p pos1 t1 st1 = some ⟨.error e, t', st'⟩ := by
  induction ps generalizing pos t st with
  | nil => cases h
  | cons p ps ih =>
    rw [runW] at h
    rcases thenW_error h with h1 | ⟨a, t1, st1, h1, h2⟩
    · exact ⟨[], p, ps, pos, t, st, rfl, rfl, h1⟩
    · obtain ⟨pre, q, post, pos2, t2, st2, rfl, h3, h4⟩ := ih h2
      refine ⟨p :: pre, q, post, pos2, t2, st2, rfl, ?_, h4⟩
      rw [runW, h1]
      exact h3

theorem varsW_error {op : Operator} {vars : List Var} {a : Bool × Nat} {t t' : τ} {st st' : σ}
    {e : ErrorKind × Nat}
    (h : varsW S hex dbg w ctx op vars a t st = some ⟨.error e, t', st'⟩) :
    ∃ vs v vs' a1 t1 st1, vars = vs ++ v :: vs' ∧
      varsW S hex dbg w ctx op vs a t st = some ⟨.ok a1, t1, st1⟩ ∧
      varW S hex dbg w ctx op v a1 t1 st1 = some ⟨.error e, t', st'⟩ := by
  induction vars generalizing a t st with
  | nil => cases h
  | cons v vs ih =>
    rw [varsW] at h
    rcases thenW_error h with h1 | ⟨a, t1, st1, h1, h2⟩
    · exact ⟨[], v, vs, a, t, st, rfl, rfl, h1⟩
    · obtain ⟨pre, q, post, pos2, t2, st2, rfl, h3, h4⟩ := ih h2
      refine ⟨v :: pre, q, post, pos2, t2, st2, rfl, ?_, h4⟩
      rw [varsW, h1]
      exact h3

end

/-! ### Parts of a template and chunks -/

theorem merge_nil {t : List Piece} (h : merge t = []) : t = [] := by
  cases t with
  | nil => rfl
  | cons p t =>
    cases p with
    | expr op vars => cases h
    | lit s =>
      simp only [merge] at h
      split at h <;> cases h

theorem merge_lit_not {t : List Piece} {s : Str} (h : ∀ s' t', merge t ≠ .lit s' :: t') :
    merge (.lit s :: t) = .lit s :: merge t := by
  simp only [merge]

theorem merge_lit_cons {t t' : List Piece} {s s' : Str} (h : merge t = .lit s' :: t') :
    merge (.lit s :: t) = .lit (s ++ s') :: t' := by
  simp only [merge, h]

theorem merge_split_expr {t pre' post' : List Piece} {op : Option Char} {vars : List Var}
    (h : merge t = pre' ++ .expr op vars :: post') :
    ∃ pre post, t = pre ++ .expr op vars :: post ∧ merge pre = pre' := by
  induction t generalizing pre' with
  | nil => simp [merge] at h
  | cons p t ih =>
    cases p with
    | expr op' vars' =>
      simp only [merge] at h
      cases pre' with
      | nil =>
        simp at h
        obtain ⟨⟨rfl, rfl⟩, _⟩ := h
        exact ⟨[], t, rfl, rfl⟩
      | cons q pre' =>
        simp at h
        obtain ⟨rfl, h⟩ := h
        obtain ⟨pre, post, rfl, rfl⟩ := ih h
        exact ⟨.expr op' vars' :: pre, post, rfl, rfl⟩
    | lit s =>
      cases pre' with
      | nil =>
        simp only [merge] at h
        split at h <;> simp at h
      | cons q pre' =>
        by_cases hm : ∃ s' t', merge t = .lit s' :: t'
        · obtain ⟨s', t', hm⟩ := hm
          rw [merge_lit_cons hm] at h
          simp at h
          obtain ⟨rfl, rfl⟩ := h
          obtain ⟨pre, post, rfl, hp⟩ := ih (pre' := .lit s' :: pre') hm
          exact ⟨.lit s :: pre, post, rfl, merge_lit_cons hp⟩
        · simp only [not_exists] at hm
          rw [merge_lit_not hm] at h
          simp at h
          obtain ⟨rfl, h⟩ := h
          obtain ⟨pre, post, rfl, hp⟩ := ih h
          refine ⟨.lit s :: pre, post, rfl, ?_⟩
          rw [merge_lit_not, hp]
          intro s' t' e
          rw [hp] at e
          subst e
          exact hm _ _ h

theorem chunked_ne {t : List Piece} (h : Chunked t) {op : Option Char} {vars : List Var}
    (hm : Piece.expr op vars ∈ t) : vars ≠ [] := by
  induction t with
  | nil => cases hm
  | cons p t ih =>
    obtain ⟨_, h2, _, h4⟩ := chunks_step h
    rcases List.mem_cons.1 hm with rfl | hm
    · exact (h4 op vars rfl).2.1
    · exact ih h2 hm

theorem merge_split_lit {t pre' post' : List Piece} {s : Str}
    (h : merge t = pre' ++ .lit s :: post') :
    ∃ pre lits post, t = pre ++ lits ++ post ∧ merge pre = pre' ∧ lits ≠ [] ∧ (∀ p ∈ lits, ∃ s, p = .lit s) ∧
      text lits = s ∧ merge (pre ++ lits) = pre' ++ [.lit s] := by
  induction t generalizing pre' s with
  | nil => simp [merge] at h
  | cons p t ih =>
    cases p with
    | expr op' vars' =>
      simp only [merge] at h
      cases pre' with
      | nil => simp at h
      | cons q pre' =>
        simp at h
        obtain ⟨rfl, h⟩ := h
        obtain ⟨pre, lits, post, rfl, rfl, h1, h2, h3, h4⟩ := ih h
        exact ⟨.expr op' vars' :: pre, lits, post, rfl, rfl, h1, h2, h3, by simp [merge, h4]⟩
    | lit a =>
      cases pre' with
      | nil =>
        by_cases hm : ∃ s' t', merge t = .lit s' :: t'
        · obtain ⟨s', t', hm⟩ := hm
          rw [merge_lit_cons hm] at h
          simp at h
          obtain ⟨rfl, rfl⟩ := h
          obtain ⟨pre, lits, post, rfl, hp, h1, h2, h3, h4⟩ := ih (pre' := []) hm
          have := merge_nil hp
          subst this
          refine ⟨[], .lit a :: lits, post, rfl, rfl, by simp, ?_, ?_, ?_⟩
          · intro p hp
            rcases List.mem_cons.1 hp with rfl | hp
            · exact ⟨_, rfl⟩
            · exact h2 p hp
          · simp [text, Piece.render] at h3 ⊢
            exact h3
          · exact merge_lit_cons h4
        · simp only [not_exists] at hm
          rw [merge_lit_not hm] at h
          simp at h
          obtain ⟨rfl, h⟩ := h
          exact ⟨[], [.lit a], t, rfl, rfl, by simp, by simp, by simp [text, Piece.render],
            rfl⟩
      | cons q pre' =>
        by_cases hm : ∃ s' t', merge t = .lit s' :: t'
        · obtain ⟨s', t', hm⟩ := hm
          rw [merge_lit_cons hm] at h
          simp at h
          obtain ⟨rfl, rfl⟩ := h
          obtain ⟨pre, lits, post, rfl, hp, h1, h2, h3, h4⟩ := ih (pre' := .lit s' :: pre') hm
          exact ⟨.lit a :: pre, lits, post, rfl, merge_lit_cons hp, h1, h2, h3, merge_lit_cons h4⟩
        · simp only [not_exists] at hm
          rw [merge_lit_not hm] at h
          simp at h
          obtain ⟨rfl, h⟩ := h
          obtain ⟨pre, lits, post, rfl, hp, h1, h2, h3, h4⟩ := ih h
          have hne : ∀ s' t', pre' ++ [.lit s] ≠ .lit s' :: t' := by
            intro s' t' e
            cases pre' with
            | nil => exact hm _ _ h
            | cons q pre' =>
              simp at e
              obtain ⟨rfl, _⟩ := e
              exact hm _ _ h
          refine ⟨.lit a :: pre, lits, post, rfl, ?_, h1, h2, h3, ?_⟩
          · rw [merge_lit_not, hp]
            intro s' t' e
            rw [hp] at e
            subst e
            exact hm _ _ h
          · show merge (.lit a :: (pre ++ lits)) = _
            rw [merge_lit_not, h4]
            · rfl
            · rw [h4]; exact hne

end Verif.Tpl
