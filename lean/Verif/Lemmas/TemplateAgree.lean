import Verif.Lemmas.TemplateValue

/-!
# Static and dynamic expansion; type errors
-/

namespace Verif.Tpl

open Verif.Rfc Verif.Rfc6570 Verif.MaybePct

/-! ## Static and dynamic, for every input -/

section agree

variable (S : Spec) (dbg : Bool) (ctx : Ctx)

/-- The outcome of a dynamic run that goes with a type check and an expansion. -/
def Goes {α : Type} (tc : Res α) (ex : Option Str) (dy : Option (DynOut Unit α)) : Prop :=
  match tc with
  | .panic => dy = none
  | .ok a => dy = ex.map fun t => ⟨.ok a, t, ()⟩
  | .err k l => dy = none ∨ ∃ out, dy = some ⟨.error (k, l), out, ()⟩

theorem goes_vars (op : Operator) (fuel : Nat) (first : Bool) (pos : Nat) (vl : Str) :
    Goes (typecheckVars ctx fuel pos vl) (expandVars S dbg ctx op fuel first vl)
      (expandVarsMut S dbg ctx.toDyn op fuel first pos vl ()) := by
  induction fuel generalizing first pos vl with
  | zero => rfl
  | succ n ih =>
    rw [typecheckVars, expandVars, expandVarsMut]
    cases varListNext vl with
    | none => rfl
    | some o =>
      cases o with
      | none => rfl
      | some x =>
        obtain ⟨⟨len, spec⟩, rest⟩ := x
        simp only
        by_cases hb : badType spec.modifier (typeOf (ctx .typecheck spec.name)) = true
        · rw [if_pos hb, if_pos (show badType spec.modifier
            (typeOf (ctx.toDyn.visit .typecheck spec.name ()).1) = true from hb)]
          exact .inr ⟨_, rfl⟩
        · rw [if_neg hb, if_neg (show ¬ badType spec.modifier
            (typeOf (ctx.toDyn.visit .typecheck spec.name ()).1) = true from hb)]
          simp only [Ctx.toDyn]
          have ih := fun first => ih first (pos + (len + 1)) rest
          cases hv : visit_value S dbg op spec first (ctx .expand spec.name) with
          | none =>
            simp only [Option.bind_none]
            cases typecheckVars ctx n (pos + (len + 1)) rest with
            | panic => rfl
            | ok a => rfl
            | err k l => exact .inl rfl
          | some o =>
            simp only [Option.bind_some]
            have ih := ih o.2
            simp only [Ctx.toDyn] at ih
            cases ht : typecheckVars ctx n (pos + (len + 1)) rest with
            | panic => rw [ht] at ih; simp only [Goes] at ih ⊢; rw [ih]; rfl
            | ok a =>
              rw [ht] at ih; simp only [Goes] at ih ⊢; rw [ih]
              cases expandVars S dbg ctx op n o.2 rest <;> rfl
            | err k l =>
              rw [ht] at ih; simp only [Goes] at ih ⊢
              rcases ih with ih | ⟨out, ih⟩
              · rw [ih]; exact .inl rfl
              · rw [ih]; exact .inr ⟨_, rfl⟩

theorem goes_expr (pos : Nat) (body : Str) :
    Goes (typecheckExpr ctx pos body) (expandExpr S dbg ctx body)
      (expandExprMut S dbg ctx.toDyn pos body ()) := by
  unfold typecheckExpr expandExpr expandExprMut
  cases decompose body with
  | none => rfl
  | some d =>
    obtain ⟨op, vl⟩ := d
    simp only [Option.bind_some]
    have h := goes_vars S dbg ctx op (vl.length + 1) true (pos + (op.len + 1)) vl
    cases ht : typecheckVars ctx (vl.length + 1) (pos + (op.len + 1)) vl with
    | panic => rw [ht] at h; simp only [Goes] at h; rw [h]; rfl
    | ok a =>
      rw [ht] at h; simp only [Goes] at h; rw [h]
      simp only [Res.bind]
      by_cases he : a = pos + blen body + 2
      · rw [if_pos he]
        cases expandVars S dbg ctx op (vl.length + 1) true vl with
        | none => rfl
        | some t => simp [Goes, checkEnd, he]
      · rw [if_neg he]
        cases expandVars S dbg ctx op (vl.length + 1) true vl with
        | none => rfl
        | some t => simp [Goes, checkEnd, he]
    | err k l =>
      rw [ht] at h; simp only [Goes] at h
      simp only [Res.bind, Goes]
      rcases h with h | ⟨out, h⟩
      · rw [h]; exact .inl rfl
      · rw [h]; exact .inr ⟨out, rfl⟩

theorem goes_loop (fuel : Nat) (pos : Nat) (s : Str) :
    Goes (typecheck ctx fuel pos s) (displayExpanded S dbg ctx fuel s)
      (expandDynLoop S dbg ctx.toDyn fuel pos s ()) := by
  induction fuel generalizing pos s with
  | zero => rfl
  | succ n ih =>
    rw [typecheck, displayExpanded, expandDynLoop]
    cases chunksNext s with
    | none => rfl
    | some o =>
      cases o with
      | none => rfl
      | some x =>
        obtain ⟨c, rest⟩ := x
        cases c with
        | literal lit =>
          simp only
          have ih := ih (pos + blen lit) rest
          cases ht : typecheck ctx n (pos + blen lit) rest with
          | panic => rw [ht] at ih; simp only [Goes] at ih ⊢; rw [ih]; rfl
          | ok a =>
            rw [ht] at ih; simp only [Goes] at ih ⊢; rw [ih]
            cases displayExpanded S dbg ctx n rest <;> rfl
          | err k l =>
            rw [ht] at ih; simp only [Goes] at ih ⊢
            rcases ih with ih | ⟨out, ih⟩
            · rw [ih]; exact .inl rfl
            · rw [ih]; exact .inr ⟨_, rfl⟩
        | expr body =>
          simp only
          have he := goes_expr S dbg ctx pos body
          cases ht : typecheckExpr ctx pos body with
          | panic => rw [ht] at he; simp only [Goes] at he; rw [he]; rfl
          | err k l =>
            rw [ht] at he; simp only [Goes] at he
            simp only [Res.bind, Goes]
            rcases he with he | ⟨out, he⟩
            · rw [he]; exact .inl rfl
            · rw [he]; exact .inr ⟨_, rfl⟩
          | ok pos' =>
            rw [ht] at he; simp only [Goes] at he; rw [he]
            simp only [Res.bind]
            have ih := ih pos' rest
            cases expandExpr S dbg ctx body with
            | none =>
              cases typecheck ctx n pos' rest with
              | panic => rfl
              | ok a => rfl
              | err k l => exact .inl rfl
            | some a =>
              simp only [Option.map_some, Option.bind_some, dynThen]
              cases ht : typecheck ctx n pos' rest with
              | panic => rw [ht] at ih; simp only [Goes] at ih ⊢; rw [ih]; rfl
              | ok u =>
                rw [ht] at ih; simp only [Goes] at ih ⊢; rw [ih]
                cases displayExpanded S dbg ctx n rest <;> rfl
              | err k l =>
                rw [ht] at ih; simp only [Goes] at ih ⊢
                rcases ih with ih | ⟨out, ih⟩
                · rw [ih]; exact .inl rfl
                · rw [ih]; exact .inr ⟨_, rfl⟩

end agree

theorem encU_name {S : Spec} {s : Str} (h : varnameX s) (hp : '%' ∉ s) : encU S s = s := by
  rw [varnameX_iff] at h
  replace h := h.1
  induction h with
  | nil => rfl
  | pct _ _ _ _ => simp at hp
  | @chr c r h1 h2 h3 ih =>
    have hu : iunreserved S c = true := by
      simp only [contC, Bool.or_eq_true, beq_iff_eq, varcharPlain] at h2
      have : unreserved c = true := by
        simp only [unreserved, Bool.or_eq_true]
        simp at h2 ⊢
        rcases h2 with ((h2 | h2) | h2) | h2 <;> simp [h2]
      cases S <;> simp [iunreserved, this]
    simp only [List.mem_cons, not_or] at hp
    have ih := ih hp.2
    unfold encU at ih ⊢
    rw [List.flatMap_cons, ih, if_pos hu]
    rfl

theorem utf8Size_nonascii {c : Char} (h : 128 ≤ c.toNat) : 1 < c.utf8Size := by
  rw [utf8Size_eq]
  simp only [utf8]
  rw [if_neg (by omega)]
  split
  · simp
  · split <;> simp

/-- A piece that starts with a non-ASCII character makes `write_str` slice inside a character. -/
theorem process_nonascii {σ : Type} {dbg : Bool} {f : Callback σ} {st st' : σ} {c : Char} {r : Str}
    {d : Disp} (hc : 128 ≤ c.toNat) (hf : f st (.invalid []) = some (st', false)) :
    process_percent_encoded_best_effort dbg f st ((c :: r) :: d) = none := by
  have hs := utf8Size_nonascii hc
  have hpct : c ≠ '%' := by rintro rfl; exact absurd hc (by decide)
  have hpush : pushLoop [] 0 (c :: r) = some ([], 0 + c.utf8Size - 1, .undecodable []) := by
    rw [pushLoop, if_pos (by decide), if_pos hpct]
  have hslice : sliceFrom (c :: r) (0 + c.utf8Size - 1) = none := by
    obtain ⟨n, hn⟩ : ∃ n, 0 + c.utf8Size - 1 = n + 1 := ⟨c.utf8Size - 2, by omega⟩
    rw [hn, sliceFrom, splitAtB, if_neg (by omega)]
    rfl
  have hstep : writeStep dbg f st [] (c :: r) = none := by
    unfold writeStep
    rw [hpush]
    simp only [Option.bind_some]
    rw [if_neg (by omega)]
    have : processPush f st (.undecodable []) = some (st', false) := by
      simp [processPush, output_as_undecodable, hf]
    rw [this]
    simp only [Option.bind_some, Bool.false_eq_true, if_false]
    rw [hslice]
    rfl
  unfold process_percent_encoded_best_effort
  rw [writeAll, writeStr]
  simp [hstep]

/-! ## Type errors -/

theorem badType_iff (v : Var) (val : Value) :
    badType (toSpec v).modifier (typeOf val) = true ↔ ¬ TypeOk v.mod (flat val) := by
  obtain ⟨n, m⟩ := v
  cases m with
  | none => simp [toSpec, badType, TypeOk]
  | explode => simp [toSpec, badType, TypeOk]
  | pre ds =>
    cases val with
    | undefined => simp [toSpec, badType, TypeOk, flat, typeOf]
    | string d => simp [toSpec, badType, TypeOk, flat, typeOf]
    | list l => cases l <;> simp [toSpec, badType, TypeOk, flat, typeOf]
    | assoc l => cases l <;> simp [toSpec, badType, TypeOk, flat, typeOf]

theorem tcVars_wellTyped (ctx : Ctx) (vars : List Var) (pos : Nat)
    (h : ∀ v ∈ vars, TypeOk v.mod (flat (ctx .typecheck v.name))) :
    tcVars ctx pos vars = .ok (pos + specsLen vars) := by
  induction vars generalizing pos with
  | nil => simp [tcVars, specsLen]
  | cons v vs ih =>
    rw [tcVars, if_neg (by rw [badType_iff]; exact fun hn => hn (h v (by simp))),
      ih _ (fun v hv => h v (by simp [hv]))]
    simp [specsLen]; omega

theorem tcVars_bad (ctx : Ctx) (vs vs' : List Var) (v : Var) (pos : Nat)
    (h : ∀ v ∈ vs, TypeOk v.mod (flat (ctx .typecheck v.name)))
    (hv : ¬ TypeOk v.mod (flat (ctx .typecheck v.name))) :
    tcVars ctx pos (vs ++ v :: vs') = .err .unexpectedValueType (pos + specsLen vs) := by
  induction vs generalizing pos with
  | nil => rw [List.nil_append, tcVars, if_pos (by rw [badType_iff]; exact hv)]; simp [specsLen]
  | cons w vs ih =>
    rw [List.cons_append, tcVars,
      if_neg (by rw [badType_iff]; exact fun hn => hn (h w (by simp))),
      ih _ (fun v hv => h v (by simp [hv]))]
    simp [specsLen]; omega

theorem blen_body (op : Option Char) {vars : List Var} (h : vars ≠ []) :
    blen op.toList + 1 + specsLen vars = blen (Piece.render (.expr op vars)) := by
  have := specsLen_eq h
  rw [this]
  simp only [varsText, Piece.render, blen_cons, blen_append]
  rw [utf8Size_ascii (c := '{') (by decide)]
  simp [blen_cons, utf8Size_ascii (c := '}') (by decide)]
  omega

theorem tc_fold_ok (ctx : Ctx) {t : List Piece} (r : Nat → Res Unit) (pos : Nat) (ha : Accepted t)
    (h : WellTyped (fun n => flat (ctx .typecheck n)) t) :
    t.foldr (tcG ctx) r pos = r (pos + blen (text t)) := by
  induction t generalizing pos with
  | nil => simp [text]
  | cons p t ih =>
    have ih := fun pos => ih pos (fun p hp => ha p (by simp [hp]))
      (fun op vars hm => h op vars (by simp [hm]))
    rw [List.foldr_cons]
    have e : text (p :: t) = p.render ++ text t := by simp [text]
    rw [e, blen_append]
    cases p with
    | lit s =>
      simp only [tcG]
      rw [ih, Nat.add_assoc]; rfl
    | expr op vars =>
      simp only [tcG]
      rw [tcVars_wellTyped ctx vars _ (h op vars (by simp))]
      simp only [Res.bind]
      rw [ih]
      have := blen_body op (ha (.expr op vars) (by simp)).2.1
      congr 1
      omega

theorem accepted_split {a b : List Piece} (h : Accepted (a ++ b)) : Accepted a ∧ Accepted b :=
  ⟨fun p hp => h p (by simp [hp]), fun p hp => h p (by simp [hp])⟩

theorem typecheck_ok (ctx : Ctx) {t : List Piece} (ha : Accepted t) (hs : SmallLengths t)
    (h : WellTyped (fun n => flat (ctx .typecheck n)) t) :
    typecheck ctx ((text t).length + 1) 0 (text t) = .ok () := by
  rw [typecheck_eq ctx ha hs _ _ (by omega), tc_fold_ok ctx _ _ ha h]

theorem typecheck_bad (ctx : Ctx) {pre post : List Piece} {op : Option Char} {vs vs' : List Var}
    {v : Var} (ha : Accepted (pre ++ .expr op (vs ++ v :: vs') :: post))
    (hs : SmallLengths (pre ++ .expr op (vs ++ v :: vs') :: post))
    (h : WellTyped (fun n => flat (ctx .typecheck n)) pre)
    (hvs : ∀ w ∈ vs, TypeOk w.mod (flat (ctx .typecheck w.name)))
    (hv : ¬ TypeOk v.mod (flat (ctx .typecheck v.name))) :
    typecheck ctx ((text (pre ++ .expr op (vs ++ v :: vs') :: post)).length + 1) 0
        (text (pre ++ .expr op (vs ++ v :: vs') :: post)) =
      .err .unexpectedValueType (blen (text pre) + (1 + blen op.toList) + specsLen vs) := by
  rw [typecheck_eq ctx ha hs _ _ (by omega), List.foldr_append,
    tc_fold_ok ctx _ _ (accepted_split ha).1 h]
  simp only [List.foldr_cons, tcG]
  rw [tcVars_bad ctx vs vs' v _ hvs hv]
  simp only [Res.bind]
  congr 1
  omega

/-- Not well typed: there is a first varspec of a wrong type. -/
theorem first_bad {val : Str → Val} {t : List Piece} (h : ¬ WellTyped val t) :
    ∃ pre op vs v vs' post, t = pre ++ .expr op (vs ++ v :: vs') :: post ∧ WellTyped val pre ∧
      (∀ w ∈ vs, TypeOk w.mod (val w.name)) ∧ ¬ TypeOk v.mod (val v.name) := by
  induction t with
  | nil => exact absurd (fun _ _ hm => by cases hm) h
  | cons p t ih =>
    by_cases hp : WellTyped val [p]
    · have hne : ¬ WellTyped val t := by
        intro ht
        refine h fun op vars hm => ?_
        rcases List.mem_cons.1 hm with rfl | hm
        · exact hp op vars (by simp)
        · exact ht op vars hm
      obtain ⟨pre, op, vs, v, vs', post, rfl, h1, h2, h3⟩ := ih hne
      refine ⟨p :: pre, op, vs, v, vs', post, rfl, ?_, h2, h3⟩
      intro op vars hm
      rcases List.mem_cons.1 hm with rfl | hm
      · exact hp op vars (by simp)
      · exact h1 op vars hm
    · cases p with
      | lit s => exact absurd (fun _ _ hm => by simp at hm) hp
      | expr op vars =>
        have hb : ¬ ∀ v ∈ vars, TypeOk v.mod (val v.name) := by
          intro hb
          refine hp fun op' vars' hm => ?_
          simp at hm
          rw [hm.2]; exact hb
        have : ∃ vs v vs', vars = vs ++ v :: vs' ∧ (∀ w ∈ vs, TypeOk w.mod (val w.name)) ∧
            ¬ TypeOk v.mod (val v.name) := by
          clear hp h ih
          induction vars with
          | nil => exact absurd (fun _ hm => by cases hm) hb
          | cons w ws ih =>
            by_cases hw : TypeOk w.mod (val w.name)
            · have : ¬ ∀ v ∈ ws, TypeOk v.mod (val v.name) := by
                intro hn
                refine hb fun v hv => ?_
                rcases List.mem_cons.1 hv with rfl | hv
                · exact hw
                · exact hn v hv
              obtain ⟨vs, v, vs', rfl, h1, h2⟩ := ih this
              refine ⟨w :: vs, v, vs', rfl, ?_, h2⟩
              intro x hx
              rcases List.mem_cons.1 hx with rfl | hx
              · exact hw
              · exact h1 x hx
            · exact ⟨[], w, ws, rfl, by simp, hw⟩
        obtain ⟨vs, v, vs', rfl, h1, h2⟩ := this
        exact ⟨[], op, vs, v, vs', t, rfl, (by intro _ _ hm; simp at hm), h1, h2⟩

/-! ## Dynamic expansion of handled values does not panic -/

theorem dynVars_ne_none (S : Spec) (dbg : Bool) (ctx : Ctx) {op : Option Char}
    (hop : ∀ c, op = some c → isOp c = true) (first : Bool) (pos : Nat) (vars : List Var)
    (hc : ∀ n, ctx .typecheck n = ctx .expand n)
    (h : ∀ v ∈ vars, Handled dbg (row op) v.mod (ctx .expand v.name)) :
    dynVars S dbg ctx.toDyn (toOp op) first pos vars () ≠ none := by
  induction vars generalizing first pos with
  | nil => simp [dynVars]
  | cons v vs ih =>
    rw [dynVars]
    by_cases hb : badType (toSpec v).modifier (typeOf (ctx .typecheck v.name)) = true
    · rw [if_pos (show badType (toSpec v).modifier
            (typeOf (ctx.toDyn.visit .typecheck v.name ()).1) = true from hb)]; simp
    · rw [if_neg (show ¬ badType (toSpec v).modifier
            (typeOf (ctx.toDyn.visit .typecheck v.name ()).1) = true from hb)]
      simp only [Ctx.toDyn]
      rw [badType_iff, hc] at hb
      rw [visit_value_eq S dbg hop v first (Classical.not_not.1 hb) (h v (by simp))]
      simp only [Option.bind_some, ne_eq, Option.map_eq_none_iff]
      exact ih _ _ (fun v hv => h v (by simp [hv]))

theorem dyn_ne_none (S : Spec) (dbg : Bool) (ctx : Ctx) {t : List Piece} (ha : Accepted t)
    (hs : SmallLengths t) (hc : ∀ n, ctx .typecheck n = ctx .expand n)
    (hh : AllHandled dbg (ctx .expand) t) (fuel pos : Nat) (hfu : (text t).length < fuel) :
    expandDynLoop S dbg ctx.toDyn fuel pos (text t) () ≠ none := by
  rw [dyn_eq S dbg ctx.toDyn ha hs fuel pos () hfu]
  clear hfu hs
  induction t generalizing pos with
  | nil => simp
  | cons p t ih =>
    have ih := fun pos => ih (fun p hp => ha p (by simp [hp]))
      (fun op vars hm => hh op vars (by simp [hm])) pos
    rw [List.foldr_cons]
    cases p with
    | lit s =>
      simp only [dynG, ne_eq, Option.map_eq_none_iff]
      exact ih _
    | expr op vars =>
      simp only [dynG]
      cases hd : dynVars S dbg ctx.toDyn (toOp op) true (pos + (blen op.toList + 1)) vars () with
      | none =>
        exact absurd hd (dynVars_ne_none S dbg ctx (ha (.expr op vars) (by simp)).1 _ _ _ hc
          (hh op vars (by simp)))
      | some d =>
        obtain ⟨r, out, st⟩ := d
        cases r with
        | error e => simp [dynThen]
        | ok p =>
          simp only [Option.bind_some, dynThen, ne_eq, Option.map_eq_none_iff]
          exact ih _

end Verif.Tpl
