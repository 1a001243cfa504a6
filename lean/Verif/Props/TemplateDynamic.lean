import Verif.Props.TemplateExact
import Verif.Props.TemplateSize
import Verif.Props.TemplateSafe
import Verif.Spec.TemplateDynamic

/-!
# C89: expansion with a context that changes while it is asked
-/

namespace Verif

open Verif.Abnf Verif.Rfc Verif.Rfc6570 Verif.Tpl Verif.MaybePct

namespace TplDyn

variable {σ : Type} (S : Spec) (dbg : Bool) (ctx : DynCtx σ)

/-- The loop over the varspecs in `expand_expr_mut`, for every accepted list. -/
def dynVarsX (op : Operator) : Bool → Nat → List Var → σ → Option (DynOut σ Nat)
  | _, pos, [], st => some ⟨.ok pos, [], st⟩
  | first, pos, v :: vs, st =>
    if v.tooLong then none
    else if v.misfits (flat (ctx.visit .typecheck v.name st).1) then
      some ⟨.error (.unexpectedValueType, pos), [], (ctx.visit .typecheck v.name st).2⟩
    else
      (visit_value S dbg op (toSpec v) first
        (ctx.visit .expand v.name (ctx.visit .typecheck v.name st).2).1).bind fun o =>
        (dynVarsX op o.2 (pos + (blen v.render + 1)) vs
          (ctx.visit .expand v.name (ctx.visit .typecheck v.name st).2).2).map fun d =>
          ⟨d.result, o.1 ++ d.out, d.state⟩

theorem expandVarsMut_all (op : Operator) (vars : List Var) (first : Bool) (pos fuel : Nat) (st : σ)
    (hw : ∀ v ∈ vars, v.WF varnameX maxLengthX) (hfu : vars.length < fuel) :
    expandVarsMut S dbg ctx op fuel first pos (varsText vars) st =
      dynVarsX S dbg ctx op first pos vars st := by
  induction vars generalizing first pos fuel st with
  | nil =>
    obtain ⟨n, rfl⟩ : ∃ n, fuel = n + 1 := ⟨fuel - 1, by omega⟩
    rfl
  | cons v vs ih =>
    obtain ⟨n, rfl⟩ : ∃ n, fuel = n + 1 := ⟨fuel - 1, by omega⟩
    rw [expandVarsMut, dynVarsX]
    cases ht : v.tooLong with
    | true =>
      rw [(varListNext_cons (hw v (by simp)) vs).2 (by rw [← tooLong_iff, ht]; simp)]
      rfl
    | false =>
      rw [(varListNext_cons (hw v (by simp)) vs).1 ((tooLong_iff v).1 ht)]
      have e : (toSpec v).name = v.name := rfl
      simp only [e, Bool.false_eq_true, if_false]
      rw [misfits_eq]
      split
      · rfl
      · congr 1
        funext o
        rw [ih o.2 _ n _ (fun v hv => hw v (by simp [hv])) (by simp at hfu; omega)]

/-- The position after a list of variables, or the error. -/
def posOf (pos : Nat) : Option Nat → Except (ErrorKind × Nat) Nat
  | none => .ok pos
  | some p => .error (.unexpectedValueType, p)

/-- What is written for the variables of an expression. -/
def joined (o : OpRow) (first : Bool) (ps : List Str) : Str :=
  if first then exprOfTexts o ps else ps.flatMap (o.sep ++ ·)

theorem joined_cons (o : OpRow) (first : Bool) (t : Str) (ps : List Str) :
    joined o first (t :: ps) = lead o first ++ t ++ joined o false ps := by
  cases first
  · simp [joined, lead]
  · simp [joined, lead, exprOfTexts, joinWith_cons]

theorem dynVarsX_ask {op : Option Char} (hop : ∀ c, op = some c → isOp c = true) (vars : List Var) (first : Bool)
    (pos : Nat) (st : σ) :
    dynVarsX S dbg ctx (toOp op) first pos vars st =
      (ask S dbg ctx ((placeVars pos vars).map fun x => (row op, x)) st).map fun x =>
        ⟨posOf (pos + specsLen vars) x.error, joined (row op) first (x.texts.filterMap id), x.state⟩ := by
  induction vars generalizing first pos st with
  | nil => cases first <;> rfl
  | cons v vs ih =>
    simp only [dynVarsX, placeVars, List.map_cons, ask]
    split
    · rfl
    · split
      · cases first <;> rfl
      · rw [value_exact S dbg hop]
        unfold valueText
        generalize (ctx.visit .expand v.name (ctx.visit .typecheck v.name st).2) = b
        have ep : pos + (blen v.render + 1) + specsLen vs = pos + specsLen (v :: vs) := by
          simp only [specsLen, List.map_cons, List.sum_cons]; omega
        have ep2 : pos + (blen v.render + 1) = pos + bytes v.render + 1 := by rw [bytes_eq]; omega
        by_cases hd : (flat b.1).defined = true
        · simp only [hd, if_true]
          cases varExact S dbg (row op) v b.1 with
          | none => rfl
          | some t =>
            simp only [Option.map_some, Option.bind_some]
            rw [ih, ep, ep2]
            simp only [Option.map_map]
            congr 1
            funext x
            simp only [Function.comp, Answers.add, List.filterMap_cons, id, joined_cons, List.append_assoc]
        · simp only [hd, Bool.false_eq_true, if_false, Option.bind_some]
          rw [ih, ep, ep2]
          simp only [Option.map_map]
          congr 1

/-- One list of variables after another. -/
theorem ask_append (a b : List (OpRow × Nat × Var)) (st : σ) :
    ask S dbg ctx (a ++ b) st = (ask S dbg ctx a st).bind fun x =>
      match x.error with
      | some _ => some x
      | none => (ask S dbg ctx b x.state).map fun y => ⟨y.error, x.values ++ y.values, x.texts ++ y.texts, y.state⟩ := by
  induction a generalizing st with
  | nil => simp [ask]
  | cons h a ih =>
    obtain ⟨o, pos, v⟩ := h
    simp only [List.cons_append, ask]
    split
    · rfl
    · split
      · rfl
      · cases valueText S dbg o v _ with
        | none => rfl
        | some t =>
          simp only [Option.bind_some]
          rw [ih]
          generalize ask S dbg ctx a _ = r
          cases r with
          | none => rfl
          | some x =>
            obtain ⟨e, vs, ts, s⟩ := x
            cases e with
            | some p => rfl
            | none =>
              simp only [Option.bind_some, Option.map_some, Answers.add, Option.map_map]
              congr 1

/-- Either all variables were asked for, or there is an error and some were not. -/
theorem ask_length {l : List (OpRow × Nat × Var)} {st : σ} {x : Answers σ} (h : ask S dbg ctx l st = some x) :
    (x.error = none → x.texts.length = l.length) ∧ (x.error ≠ none → x.texts.length < l.length) := by
  induction l generalizing st x with
  | nil => cases h; simp
  | cons y l ih =>
    obtain ⟨o, pos, v⟩ := y
    simp only [ask] at h
    split at h
    · cases h
    · split at h
      · cases h; simp
      · rw [Option.bind_eq_some_iff] at h
        obtain ⟨t, _, h⟩ := h
        rw [Option.map_eq_some_iff] at h
        obtain ⟨z, h, rfl⟩ := h
        have := ih h
        simp only [Answers.add, List.length_cons]
        exact ⟨fun e => by rw [this.1 e], fun e => by have := this.2 e; omega⟩

theorem placeVars_length (pos : Nat) (vars : List Var) : (placeVars pos vars).length = vars.length := by
  induction vars generalizing pos with
  | nil => rfl
  | cons v vs ih => simp [placeVars, ih]

theorem expandExprMut_all {op : Option Char} {vars : List Var} (pos : Nat) (st : σ)
    (h : Piece.WF asciiLiterals varnameX maxLengthX (.expr op vars)) :
    expandExprMut S dbg ctx pos (bodyText op vars) st =
      dynVarsX S dbg ctx (toOp op) true (pos + (blen op.toList + 1)) vars st := by
  unfold expandExprMut
  rw [Tpl.decompose_eq h]
  simp only
  have := varsText_length h.2.2
  rw [expandVarsMut_all S dbg ctx _ vars _ _ _ _ h.2.2 (by omega), toOp_len h.1, dynVarsX_ask S dbg ctx h.1]
  cases ask S dbg ctx ((placeVars (pos + (blen op.toList + 1)) vars).map fun x => (row op, x)) st with
  | none => rfl
  | some x =>
    obtain ⟨e, vs, ts, s⟩ := x
    cases e with
    | some p => rfl
    | none =>
      have h2 := specsLen_eq h.2.1
      simp only [Option.map_some, Option.bind_some, checkEnd, posOf]
      rw [if_pos]
      rw [bodyText, blen_append]
      omega

/-- One chunk of `expand_whole_dynamic_impl`. -/
def dynGX (p : Piece) (r : Nat → σ → Option (DynOut σ Unit)) (pos : Nat) (st : σ) :
    Option (DynOut σ Unit) :=
  match p with
  | .lit s => (r (pos + blen s) st).map fun d => ⟨d.result, s ++ d.out, d.state⟩
  | .expr op vars =>
    (dynVarsX S dbg ctx (toOp op) true (pos + (blen op.toList + 1)) vars st).bind fun d => dynThen d r

theorem dyn_chunked_all {t : List Piece} (h : Chunked t) (fuel pos : Nat)
    (st : σ) (hfu : (text t).length < fuel) :
    expandDynLoop S dbg ctx fuel pos (text t) st =
      t.foldr (dynGX S dbg ctx) (fun _ st => some ⟨.ok (), [], st⟩) pos st := by
  induction t generalizing fuel pos st with
  | nil =>
    obtain ⟨n, rfl⟩ : ∃ n, fuel = n + 1 := ⟨fuel - 1, by omega⟩
    rfl
  | cons p t ih =>
    obtain ⟨n, rfl⟩ : ∃ n, fuel = n + 1 := ⟨fuel - 1, by omega⟩
    obtain ⟨h1, h2, h3, h4⟩ := chunks_step h
    rw [expandDynLoop, h1]
    have ih' := fun pos st => ih h2 n pos st (by omega)
    cases p with
    | lit s =>
      simp only [chunkOf, List.foldr_cons, dynGX]
      rw [ih']
    | expr op vars =>
      simp only [chunkOf, List.foldr_cons, dynGX]
      rw [expandExprMut_all S dbg ctx pos st (h4 op vars rfl)]
      congr 1
      funext d
      congr 1
      funext pos st
      exact ih' pos st

theorem dyn_eq_all {t : List Piece} (h : Accepted t) (fuel pos : Nat) (st : σ) (hfu : (text t).length < fuel) :
    expandDynLoop S dbg ctx fuel pos (text t) st =
      t.foldr (dynGX S dbg ctx) (fun _ st => some ⟨.ok (), [], st⟩) pos st := by
  have := dyn_chunked_all S dbg ctx (merge_chunked h) fuel pos st (by rw [text_merge]; exact hfu)
  rw [text_merge] at this
  rw [this, merge_foldr]
  intro a b y
  funext pos st
  simp only [dynGX, blen_append, Nat.add_assoc]
  cases y (pos + (blen a + blen b)) st <;> simp

theorem fold_ask {t : List Piece} (h : Accepted t) (pos : Nat) (st : σ) :
    t.foldr (dynGX S dbg ctx) (fun _ st => some ⟨.ok (), [], st⟩) pos st =
      (ask S dbg ctx (visitsOf pos t) st).map fun x => ⟨resultOf x.error, assemble t x.texts, x.state⟩ := by
  induction t generalizing pos st with
  | nil => rfl
  | cons p t ih =>
    have ih' := ih (fun p hp => h p (by simp [hp]))
    rw [List.foldr_cons]
    cases p with
    | lit s =>
      simp only [dynGX, visitsOf, List.nil_append, Piece.render, bytes_eq]
      rw [ih', Option.map_map]
      rfl
    | expr op vars =>
      have hw := h (.expr op vars) (by simp)
      simp only [dynGX, visitsOf]
      rw [dynVarsX_ask S dbg ctx hw.1, ask_append, bytes_eq,
        show pos + (blen op.toList + 1) = pos + 1 + blen op.toList by omega]
      have h2 := specsLen_eq hw.2.1
      have e : pos + 1 + blen op.toList + specsLen vars = pos + bytes (Piece.expr op vars).render := by
        rw [h2, bytes_eq, render_expr]
        simp only [bodyText, blen_cons, blen_append, blen_nil]
        rw [utf8Size_ascii (c := '{') (by decide), utf8Size_ascii (c := '}') (by decide)]
        omega
      rw [e]
      have hl : ((placeVars (pos + 1 + blen op.toList) vars).map fun x => (row op, x)).length = vars.length := by
        rw [List.length_map, placeVars_length]
      cases ha : ask S dbg ctx ((placeVars (pos + 1 + blen op.toList) vars).map fun x => (row op, x)) st with
      | none => rfl
      | some x =>
        have hx := ask_length S dbg ctx ha
        rw [hl] at hx
        obtain ⟨er, vs, ts, s⟩ := x
        cases er with
        | some p =>
          have hx := hx.2 (by simp)
          dsimp only at hx
          simp only [Option.map_some, Option.bind_some, dynThen, posOf, resultOf, assemble, joined, if_true, hx,
            List.append_nil]
          rw [List.take_of_length_le (by omega)]
        | none =>
          have hx := hx.1 rfl
          dsimp only at hx
          simp only [Option.map_some, Option.bind_some, dynThen, posOf]
          rw [ih', Option.map_map, Option.map_map]
          congr 1
          funext y
          have e1 : (ts ++ y.texts).take vars.length = ts := by rw [← hx]; simp
          have e2 : (ts ++ y.texts).drop vars.length = y.texts := by rw [← hx]; simp
          have e3 : ¬ (ts ++ y.texts).length < vars.length := by simp; omega
          simp only [Function.comp, assemble, joined, if_true, e1, e2, e3, if_false]

/-! ### Size -/

/-- Every text is bounded by the size of its value. -/
def Bd : List (OpRow × Nat × Var) → List (Str × Value) → List (Option Str) → Prop
  | _, [], [] => True
  | x :: l, (n, val) :: vs, t :: ts =>
    (∀ s, t = some s → blen s ≤ 3 * (blen x.2.2.render + valueSize n val) + 1) ∧ Bd l vs ts
  | _, _, _ => False

theorem ask_bd {l : List (OpRow × Nat × Var)} (hl : ∀ x ∈ l, ∃ op, x.1 = row op) {st : σ} {x : Answers σ}
    (h : ask S dbg ctx l st = some x) : Bd l x.values x.texts := by
  induction l generalizing st x with
  | nil => cases h; trivial
  | cons y l ih =>
    obtain ⟨o, pos, v⟩ := y
    simp only [ask] at h
    split at h
    · cases h
    · split at h
      · cases h; trivial
      · rw [Option.bind_eq_some_iff] at h
        obtain ⟨t, ht, h⟩ := h
        rw [Option.map_eq_some_iff] at h
        obtain ⟨z, h, rfl⟩ := h
        refine ⟨?_, ih (fun x hx => hl x (by simp [hx])) h⟩
        rintro s rfl
        obtain ⟨op, rfl⟩ := hl _ (List.mem_cons_self ..)
        unfold valueText at ht
        split at ht
        · rw [Option.map_eq_some_iff] at ht
          obtain ⟨s', ht, e⟩ := ht
          cases e
          have := TplSize.var_le ht
          have : blen v.name ≤ blen v.render := by unfold Var.render; rw [blen_append]; omega
          dsimp only
          omega
        · cases ht

theorem bd_append {a b : List (OpRow × Nat × Var)} : ∀ {vs : List (Str × Value)} {ts : List (Option Str)},
    Bd (a ++ b) vs ts → Bd a (vs.take a.length) (ts.take a.length) ∧ Bd b (vs.drop a.length) (ts.drop a.length) := by
  induction a with
  | nil =>
    intro vs ts h
    refine ⟨?_, by simpa using h⟩
    simp [Bd]
  | cons x a ih =>
    intro vs ts h
    rcases vs with _ | ⟨⟨n, v⟩, vs⟩ <;> rcases ts with _ | ⟨t, ts⟩
    · refine ⟨trivial, ?_⟩
      simp only [List.drop_nil]
      cases b <;> trivial
    · cases h
    · cases h
    · obtain ⟨h1, h2⟩ := h
      obtain ⟨h3, h4⟩ := ih h2
      exact ⟨⟨h1, h3⟩, h4⟩

/-- The sizes of the values. -/
def sizes (vs : List (Str × Value)) : Nat := (vs.map fun x => valueSize x.1 x.2).sum

theorem bd_total {l : List (OpRow × Nat × Var)} : ∀ {vs : List (Str × Value)} {ts : List (Option Str)}, Bd l vs ts →
    TplSize.total (ts.filterMap id) ≤ 3 * (TplSize.total (l.map fun x => x.2.2.render) + sizes vs) +
      (ts.filterMap id).length ∧ (ts.filterMap id).length ≤ l.length := by
  induction l with
  | nil =>
    intro vs ts h
    rcases vs with _ | ⟨⟨n, v⟩, vs⟩ <;> rcases ts with _ | ⟨t, ts⟩ <;> first | (cases h; done) | simp [TplSize.total]
  | cons x l ih =>
    intro vs ts h
    rcases vs with _ | ⟨⟨n, v⟩, vs⟩ <;> rcases ts with _ | ⟨t, ts⟩
    · simp [TplSize.total]
    · cases h
    · cases h
    · obtain ⟨h1, h2⟩ := h
      have h3 := ih h2
      have e : sizes ((n, v) :: vs) = valueSize n v + sizes vs := by simp [sizes]
      rw [e, List.map_cons, TplSize.total_cons, List.length_cons]
      cases t with
      | none => simp only [List.filterMap_cons, id]; omega
      | some s =>
        have := h1 s rfl
        simp only [List.filterMap_cons, id, TplSize.total_cons, List.length_cons]
        omega

theorem sizes_split (n : Nat) (vs : List (Str × Value)) : sizes vs = sizes (vs.take n) + sizes (vs.drop n) := by
  conv => lhs; rw [← List.take_append_drop n vs]
  simp only [sizes, List.map_append, List.sum_append]

theorem placed_render (pos : Nat) (vars : List Var) (o : OpRow) :
    (((placeVars pos vars).map fun x => (o, x)).map fun x => x.2.2.render) = vars.map Var.render := by
  induction vars generalizing pos with
  | nil => rfl
  | cons v vs ih => simp only [placeVars, List.map_cons]; rw [← ih]

theorem expr_size {op : Option Char} {vars : List Var} {vs : List (Str × Value)} {ts : List (Option Str)} {pos : Nat}
    (hv : vars ≠ []) (h : Bd ((placeVars pos vars).map fun x => (row op, x)) vs ts) :
    blen (exprOfTexts (row op) (ts.filterMap id)) ≤ 3 * (blen (Piece.expr op vars).render + sizes vs) := by
  obtain ⟨hf, hs, -⟩ := TplSize.row_small op
  have h1 := bd_total h
  rw [placed_render, List.length_map, placeVars_length] at h1
  generalize ts.filterMap id = parts at h1 ⊢
  have h6 := TplSize.join_ge (vars.map Var.render) (by simpa using hv)
  have h8 : blen (Piece.expr op vars).render = blen op.toList + blen (joinWith [','] (vars.map Var.render)) + 2 := by
    simp only [Piece.render, blen_cons, blen_append, blen_nil]
    have h1 : '{'.utf8Size = 1 := by decide
    have h2 : '}'.utf8Size = 1 := by decide
    omega
  rw [List.length_map] at h6
  have h9 := TplSize.join_len (row op).sep hs parts
  have h11 : blen (exprOfTexts (row op) parts) ≤ 1 + blen (joinWith (row op).sep parts) := by
    rcases parts with _ | ⟨a, r⟩
    · simp [exprOfTexts]
    · simp only [exprOfTexts, blen_append]; omega
  omega

theorem assemble_size {t : List Piece} (ha : Accepted t) (pos : Nat) {vs : List (Str × Value)}
    {ts : List (Option Str)} (h : Bd (visitsOf pos t) vs ts) :
    blen (assemble t ts) ≤ 3 * (blen (text t) + sizes vs) := by
  induction t generalizing pos vs ts with
  | nil => simp [assemble]
  | cons p t ih =>
    have ih' := fun pos => @ih (fun p hp => ha p (by simp [hp])) pos
    have e1 : text (p :: t) = p.render ++ text t := by simp [text]
    rw [e1, blen_append]
    cases p with
    | lit s =>
      simp only [visitsOf, List.nil_append] at h
      have := ih' _ h
      simp only [assemble, blen_append, Piece.render]
      omega
    | expr op vars =>
      simp only [visitsOf] at h
      obtain ⟨h1, h2⟩ := bd_append h
      rw [List.length_map, placeVars_length] at h1 h2
      have h3 := expr_size (ha (.expr op vars) (by simp)).2.1 h1
      have h4 := ih' _ h2
      have h5 := sizes_split vars.length vs
      simp only [assemble, blen_append]
      split
      · rw [blen_nil]; omega
      · omega

theorem visits_rows (pos : Nat) (t : List Piece) : ∀ x ∈ visitsOf pos t, ∃ op, x.1 = row op := by
  induction t generalizing pos with
  | nil => intro x hx; cases hx
  | cons p t ih =>
    intro x hx
    simp only [visitsOf, List.mem_append] at hx
    rcases hx with hx | hx
    · cases p with
      | lit s => cases hx
      | expr op vars =>
        simp only [List.mem_map] at hx
        obtain ⟨y, _, rfl⟩ := hx
        exact ⟨op, rfl⟩
    · exact ih _ x hx

end TplDyn

variable {σ : Type}

/-- **C89 (a context that changes while it is asked).**  For every accepted template and every context, whatever state
it has and however its answers depend on it: `expand_dynamic` is `start`, then asking for the variables in order, each for
its type and then for its value, and `finish`; what is written is the literals and, for every variable, the text of the
value that was given for this occurrence of it.  A panic and the type error are where `ask` has them. -/
theorem C89_exact (S : Spec) (dbg : Bool) (ctx : DynCtx σ) (t : List Piece) (ha : Accepted t) (st : σ) :
    expand_dynamic S dbg ctx (text t) st =
      (ask S dbg ctx (visitsOf 0 t) (ctx.start st)).map fun x =>
        ⟨resultOf x.error, assemble t x.texts, ctx.finish x.state⟩ := by
  unfold expand_dynamic
  rw [TplDyn.dyn_eq_all S dbg ctx ha _ _ _ (by omega), TplDyn.fold_ask S dbg ctx ha, Option.map_map]
  rfl

/-- **C89 (no amplification).**  What `expand_dynamic` has written when it ends, with or without a type error, is at most
three times as long as the template and the values that the context has given. -/
theorem C89_size (S : Spec) (dbg : Bool) (ctx : DynCtx σ) (t : List Piece) (ha : Accepted t) (st : σ)
    (x : Answers σ) (h : ask S dbg ctx (visitsOf 0 t) (ctx.start st) = some x) :
    ∃ d, expand_dynamic S dbg ctx (text t) st = some d ∧
      blen d.out ≤ 3 * (blen (text t) + (x.values.map fun y => valueSize y.1 y.2).sum) := by
  rw [C89_exact S dbg ctx t ha st, h]
  exact ⟨_, rfl, TplDyn.assemble_size ha 0 (TplDyn.ask_bd S dbg ctx (TplDyn.visits_rows 0 t) h)⟩

/-- A context that counts: it gives 0, 1, 2, … whatever it is asked for, and forgets nothing but at `finish`. -/
def countingCtx : DynCtx Nat :=
  ⟨fun p _ n => match p with
    | .typecheck => (.string [[]], n)
    | .expand => (.string [(toString n).toList], n + 1), fun _ => 0, fun n => 100 + n⟩

/-- `{n}/{n}{?n}` with it: three occurrences of one variable, three values. -/
example : (expand_dynamic .uri true countingCtx (chars! "{n}/{n}{?n}") 7).map (fun d => (d.out, d.state)) =
    some (chars! "0/1?n=2", 103) := by
  decide +kernel

/-- A context that is a string the first time and a list the second time it is asked for its type. -/
def fickleCtx : DynCtx Nat :=
  ⟨fun _ _ n => (if n < 2 then .string [['x']] else .list [[['y']]], n + 1), id, id⟩

/-- `a{n:3,n}b{n:3}c` with it: `{n:3}` fails, at byte 10; what is written ends before it. -/
example : (expand_dynamic .uri true fickleCtx (chars! "a{n:3,n}b{n:3}c") 0).map
      (fun d => (match d.result with | .error e => some e | .ok _ => none, d.out, d.state)) =
        some (some (.unexpectedValueType, 10), chars! "ax,yb", 5) := by
  decide +kernel

end Verif
