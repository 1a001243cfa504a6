import Verif.Props.Template
import Verif.Props.TemplateFragments
import Verif.Spec.TemplateExact

/-!
# C33: what every accepted template expands to, for every context
-/

namespace Verif

open Verif.Abnf Verif.Rfc Verif.Rfc6570 Verif.Tpl Verif.MaybePct

theorem fragmentsOf_spec (dbg : Bool) (d : List Str) :
    Fragments dbg [] [] d (fragmentsOf dbg d).1 (fragmentsOf dbg d).2 := by
  obtain ⟨fs, p, h, _⟩ := C33_fragments dbg d
  exact Classical.epsilon_spec (p := fun r : List Frag × Bool => Fragments dbg [] [] d r.1 r.2) ⟨(fs, p), h⟩

theorem encU_flatten (S : Spec) (d : List Str) : encU S d.flatten = d.flatMap (encU S) := by
  induction d with
  | nil => rfl
  | cons a d ih => simp only [List.flatten_cons, List.flatMap_cons, ← ih, encU, List.flatMap_append]

section

variable (S : Spec) (dbg : Bool) {op : Option Char} (hop : ∀ c, op = some c → isOp c = true)

include hop

theorem escape_member (d : Disp) :
    escape_write S dbg d (opProps (toOp op)).allow_reserved = memberText S dbg (row op) d := by
  rw [opProps_row hop]
  unfold memberText
  simp only
  cases (row op).reserved with
  | true => rw [if_pos rfl, escape_write_exact S (fragmentsOf_spec dbg d)]
  | false =>
    simp only [escape_write, Bool.false_eq_true, if_false, unreserve_eq]
    rw [encU_flatten]

theorem escape_string (v : Var) (d : Disp) :
    escape_write_with_maxlen S dbg d (opProps (toOp op)).allow_reserved (maxLenOf (toSpec v).modifier) =
      stringText S dbg (row op) v.mod d := by
  have hm : maxLenOf (toSpec v).modifier = modMax v.mod := by
    unfold toSpec
    cases v.mod <;> rfl
  rw [opProps_row hop, hm]
  simp only
  unfold stringText
  cases v.mod with
  | pre ds =>
    simp only [modMax]
    cases (row op).reserved with
    | true => rw [if_pos rfl, escape_prefix_exact S _ (fragmentsOf_spec dbg d)]
    | false => simp [escape_write_with_maxlen, truncate_exact]
  | none =>
    simp only [modMax]
    cases (row op).reserved with
    | true => rw [if_pos rfl, escape_unbounded_exact S (fragmentsOf_spec dbg d)]
    | false => simp [escape_write_with_maxlen, unreserve_flatten]
  | explode =>
    simp only [modMax]
    cases (row op).reserved with
    | true => rw [if_pos rfl, escape_unbounded_exact S (fragmentsOf_spec dbg d)]
    | false => simp [escape_write_with_maxlen, unreserve_flatten]

theorem isExplode_all (v : Var) : isExplode (toSpec v).modifier =
    if v.hasPrefix then none else some (decide (v.mod = .explode)) := by
  have _ := hop
  obtain ⟨n, m⟩ := v
  cases m <;> rfl

theorem named_name (hn : (row op).named = true) (s : Str) :
    escape_write S dbg [s] (opProps (toOp op)).allow_reserved = some (encU S s) := by
  rw [Tpl.escape_name S dbg hop hn, enc_of_named hn]

/-- What is written before the items of a list after the first one. -/
def sepItem (S : Spec) (o : OpRow) (v : Var) : Str :=
  if v.mod = .explode then
    if o.named then o.sep ++ encU S v.name ++ ['='] else o.sep
  else [',']

theorem item_exact (v : Var) (first : Bool) (n : Nat) (d : Disp) (hv : v.hasPrefix = false) :
    visit_item S dbg (toOp op) (toSpec v) first n d =
      (memberText S dbg (row op) d).map fun t =>
        (if n = 0 then lead (row op) first ++ (if (row op).named then v.name ++ ['='] else [])
          else sepItem S (row op) v) ++ t := by
  unfold visit_item
  rw [isExplode_all hop, hv]
  simp only [Bool.false_eq_true, if_false, Option.bind_some]
  rw [escape_member S dbg hop d]
  have e2 : (toSpec v).name = v.name := rfl
  rw [e2, leader_eq hop]
  have e3 : (opProps (toOp op)).named = (row op).named := by rw [opProps_row hop]
  have e4 : (opProps (toOp op)).sep = (row op).sep := by rw [opProps_row hop]
  rw [e3, e4]
  by_cases hn : n = 0
  · simp [hn]
  · simp only [hn, if_false, sepItem]
    by_cases hx : v.mod = .explode
    · simp only [hx, decide_true, Bool.not_true, Bool.false_eq_true, if_false, if_true]
      by_cases hna : (row op).named = true
      · rw [named_name S dbg hop hna]
        simp [hna]
      · simp [hna]
    · simp [hx]

theorem items_succ (v : Var) (first : Bool) (n : Nat) (items : List Disp) (hv : v.hasPrefix = false) :
    visit_items S dbg (toOp op) (toSpec v) first (n + 1) items =
      (allSome (items.map (memberText S dbg (row op)))).map fun ts =>
        ts.flatMap (sepItem S (row op) v ++ ·) := by
  induction items generalizing n with
  | nil => rfl
  | cons d items ih =>
    rw [visit_items, item_exact S dbg hop v first _ _ hv, ih]
    simp only [List.map_cons, allSome]
    cases memberText S dbg (row op) d with
    | none => rfl
    | some t =>
      cases allSome (items.map (memberText S dbg (row op))) with
      | none => rfl
      | some ts => simp

theorem items_exact (v : Var) (first : Bool) (items : List Disp) (h0 : items ≠ []) :
    visit_items S dbg (toOp op) (toSpec v) first 0 items =
      (varExact S dbg (row op) v (.list items)).map (lead (row op) first ++ ·) := by
  cases items with
  | nil => exact absurd rfl h0
  | cons d items =>
    unfold varExact
    cases hv : v.hasPrefix with
    | true => simp [visit_items, visit_item, isExplode_all hop, hv]
    | false =>
      rw [visit_items, item_exact S dbg hop v first _ _ hv, items_succ S dbg hop v first _ _ hv]
      simp only [List.map_cons, allSome, Bool.false_eq_true, if_false, if_true]
      cases memberText S dbg (row op) d with
      | none => rfl
      | some t =>
        cases allSome (items.map (memberText S dbg (row op))) with
        | none => rfl
        | some ts =>
          simp only [Option.map_some, Option.bind_some, listText, sepItem]
          congr 1
          by_cases hx : v.mod = .explode
          · by_cases hna : (row op).named = true
            · simp [hx, hna, joinWith_cons, List.flatMap_map]
            · simp [hx, hna, joinWith_cons]
          · simp [hx, joinWith_cons]

/-- An entry of an associative array. -/
noncomputable def pairText (S : Spec) (dbg : Bool) (o : OpRow) (e : Disp × Disp) : Option (Str × Str) :=
  (memberText S dbg o e.1).bind fun k => (memberText S dbg o e.2).map fun x => (k, x)

def entryJoin (v : Var) (e : Str × Str) : Str := e.1 ++ (if v.mod = .explode then ['='] else [',']) ++ e.2

theorem entry_exact (v : Var) (first : Bool) (n : Nat) (e : Disp × Disp) (hv : v.hasPrefix = false) :
    visit_entry S dbg (toOp op) (toSpec v) first n e =
      (pairText S dbg (row op) e).map fun t =>
        (if n = 0 then lead (row op) first ++
          (if (row op).named ∧ v.mod ≠ .explode then encU S v.name ++ ['='] else [])
        else (if v.mod = .explode then (row op).sep else [','])) ++ entryJoin v t := by
  unfold visit_entry pairText
  rw [isExplode_all hop, hv]
  simp only [Bool.false_eq_true, if_false, Option.bind_some]
  rw [escape_member S dbg hop e.1, escape_member S dbg hop e.2]
  have e2 : (toSpec v).name = v.name := rfl
  rw [e2, leader_eq hop]
  have e3 : (opProps (toOp op)).named = (row op).named := by rw [opProps_row hop]
  have e4 : (opProps (toOp op)).sep = (row op).sep := by rw [opProps_row hop]
  rw [e3, e4]
  have key : ∀ (a b : Option Str) (f : Str → Str) (g : Str × Str → Str), (∀ x y, f x ++ y = g (x, y)) →
      ((a.map f).bind fun pre => b.map fun t => pre ++ t) =
        (a.bind fun k => b.map fun x => (k, x)).map g := by
    intro a b f g h
    cases a <;> cases b <;> simp [h]
  by_cases hn : n = 0
  · subst hn
    by_cases hx : v.mod = .explode
    · simp only [hx, decide_true, if_true, ne_eq, not_true_eq_false, and_false, if_false]
      apply key
      intro x y; simp [entryJoin, hx]
    · simp only [hx, decide_false, Bool.false_eq_true, if_false, if_true]
      by_cases hna : (row op).named = true
      · rw [named_name S dbg hop hna]
        simp only [hna, if_true, Option.map_some, Option.bind_some]
        apply key
        intro x y; simp [entryJoin, hx]
      · simp only [hna, Bool.false_eq_true, if_false, Option.bind_some]
        apply key
        intro x y; simp [entryJoin, hx]
  · simp only [hn, if_false]
    by_cases hx : v.mod = .explode
    · simp only [hx, decide_true, Bool.not_true, Bool.false_eq_true, if_false, if_true]
      apply key
      intro x y; simp [entryJoin, hx]
    · simp only [hx, decide_false, Bool.not_false, if_true, if_false]
      apply key
      intro x y; simp [entryJoin, hx]

theorem entries_succ (v : Var) (first : Bool) (n : Nat) (es : List (Disp × Disp)) (hv : v.hasPrefix = false) :
    visit_entries S dbg (toOp op) (toSpec v) first (n + 1) es =
      (allSome (es.map (pairText S dbg (row op)))).map fun ts =>
        ts.flatMap fun t => (if v.mod = .explode then (row op).sep else [',']) ++ entryJoin v t := by
  induction es generalizing n with
  | nil => rfl
  | cons d es ih =>
    rw [visit_entries, entry_exact S dbg hop v first _ _ hv, ih]
    simp only [List.map_cons, allSome]
    cases pairText S dbg (row op) d with
    | none => rfl
    | some t =>
      cases allSome (es.map (pairText S dbg (row op))) with
      | none => rfl
      | some ts => simp

theorem entries_exact (v : Var) (first : Bool) (es : List (Disp × Disp)) (h0 : es ≠ []) :
    visit_entries S dbg (toOp op) (toSpec v) first 0 es =
      (varExact S dbg (row op) v (.assoc es)).map (lead (row op) first ++ ·) := by
  cases es with
  | nil => exact absurd rfl h0
  | cons d es =>
    have hp : varExact S dbg (row op) v (.assoc (d :: es)) = if v.hasPrefix then none else
        (allSome ((d :: es).map (pairText S dbg (row op)))).map (assocText S (row op) v) := rfl
    rw [hp]
    cases hv : v.hasPrefix with
    | true => simp [visit_entries, visit_entry, isExplode_all hop, hv]
    | false =>
      rw [visit_entries, entry_exact S dbg hop v first _ _ hv, entries_succ S dbg hop v first _ _ hv]
      simp only [List.map_cons, allSome, Bool.false_eq_true, if_false, if_true]
      cases pairText S dbg (row op) d with
      | none => rfl
      | some t =>
        cases allSome (es.map (pairText S dbg (row op))) with
        | none => rfl
        | some ts =>
          simp only [Option.map_some, Option.bind_some, assocText, entryJoin]
          congr 1
          by_cases hx : v.mod = .explode
          · simp [hx, joinWith_cons, List.flatMap_map]
          · by_cases hna : (row op).named = true
            · simp [hx, hna, joinWith_cons, List.flatMap_map]
            · simp [hx, hna, joinWith_cons, List.flatMap_map]

theorem value_exact (v : Var) (first : Bool) (val : Value) :
    visit_value S dbg (toOp op) (toSpec v) first val =
      if (flat val).defined then
        (varExact S dbg (row op) v val).map fun t => (lead (row op) first ++ t, false)
      else some ([], first) := by
  cases val with
  | undefined => simp [visit_value, flat, Val.defined]
  | string d =>
    rw [visit_value, visit_string]
    simp only [flat, Val.defined, if_true]
    rw [escape_string S dbg hop, leader_eq hop, varExact, opProps_row hop]
    have e2 : (toSpec v).name = v.name := rfl
    simp only [e2, Option.map_map]
    congr 1
    funext t
    simp only [Function.comp]
    cases t <;> simp
  | list items =>
    cases items with
    | nil => simp [visit_value, visit_items, flat, Val.defined]
    | cons d items =>
      rw [visit_value, items_exact S dbg hop v first _ (by simp)]
      simp only [flat, Val.defined, Option.map_map, List.map_cons, List.isEmpty_cons, Bool.not_false, if_true,
        Bool.and_false]
      rfl
  | assoc es =>
    cases es with
    | nil => simp [visit_value, visit_entries, flat, Val.defined]
    | cons e es =>
      rw [visit_value, entries_exact S dbg hop v first _ (by simp)]
      simp only [flat, Val.defined, Option.map_map, List.map_cons, List.isEmpty_cons, Bool.not_false, if_true,
        Bool.and_false]
      rfl

theorem vars_rest (ctx : Ctx) (vars : List Var) :
    varsP S dbg ctx (toOp op) false vars =
      (allSome ((vars.filter fun v => (flat (ctx .expand v.name)).defined).map fun v =>
        varExact S dbg (row op) v (ctx .expand v.name))).map fun ps => ps.flatMap ((row op).sep ++ ·) := by
  induction vars with
  | nil => rfl
  | cons v vs ih =>
    rw [varsP, value_exact S dbg hop v false]
    by_cases hd : (flat (ctx .expand v.name)).defined = true
    · simp only [hd, if_true, List.filter_cons, List.map_cons, allSome]
      cases varExact S dbg (row op) v (ctx .expand v.name) with
      | none => rfl
      | some t =>
        simp only [Option.map_some, Option.bind_some]
        rw [ih]
        simp only [Option.map_map]
        congr 1
    · simp only [hd, List.filter_cons, Bool.false_eq_true, if_false, Option.bind_some]
      rw [ih, Option.map_map]
      rfl

theorem vars_exact (ctx : Ctx) (vars : List Var) :
    varsP S dbg ctx (toOp op) true vars = exprExact S dbg (ctx .expand) op vars := by
  induction vars with
  | nil => rfl
  | cons v vs ih =>
    rw [varsP, value_exact S dbg hop v true]
    unfold exprExact
    by_cases hd : (flat (ctx .expand v.name)).defined = true
    · simp only [hd, if_true, List.filter_cons, List.map_cons, allSome]
      cases varExact S dbg (row op) v (ctx .expand v.name) with
      | none => rfl
      | some t =>
        simp only [Option.map_some, Option.bind_some]
        rw [vars_rest S dbg hop]
        simp only [Option.map_map]
        congr 1
        funext ps
        simp [lead, joinWith_cons]
    · simp only [hd, List.filter_cons, Bool.false_eq_true, if_false, Option.bind_some]
      rw [ih, exprExact, Option.map_map]
      rfl

end

theorem display_exact (S : Spec) (dbg : Bool) (ctx : Ctx) {t : List Piece} (h : Accepted t) :
    t.foldr (dispG S dbg ctx) (some []) = expansionExact S dbg (ctx .expand) t := by
  unfold expansionExact
  induction t with
  | nil => rfl
  | cons p t ih =>
    rw [List.foldr_cons, ih (fun p hp => h p (by simp [hp]))]
    simp only [List.map_cons, allSome]
    cases p with
    | lit s =>
      simp only [dispG, pieceExact, Option.map_map, Option.bind_some]
      rfl
    | expr op vars =>
      simp only [dispG, pieceExact]
      rw [vars_exact S dbg (h (.expr op vars) (by simp)).1 ctx vars]
      cases exprExact S dbg (ctx .expand) op vars with
      | none => rfl
      | some a =>
        simp only [Option.map_map, Option.bind_some]
        rfl

/-! ## The type check -/

/-- The loop over the varspecs in `typecheck_context`. -/
def chkVars (ctx : Ctx) : Nat → List Var → Res Nat
  | pos, [] => .ok pos
  | pos, v :: vs =>
    if v.tooLong then .panic
    else if v.misfits (flat (ctx .typecheck v.name)) then .err .unexpectedValueType pos
    else chkVars ctx (pos + (blen v.render + 1)) vs

theorem tooLong_iff (v : Var) : v.tooLong = false ↔ Fits v := by
  unfold Var.tooLong Fits
  cases v.mod with
  | pre ds => simp
  | none => simp
  | explode => simp

theorem misfits_eq (v : Var) (val : Value) :
    badType (toSpec v).modifier (typeOf val) = v.misfits (flat val) := by
  obtain ⟨n, m⟩ := v
  cases m <;> cases val <;> try rfl
  · rename_i l; cases l <;> rfl
  · rename_i l; cases l <;> rfl

theorem chkVars_eq (ctx : Ctx) (vars : List Var) (pos fuel : Nat)
    (hw : ∀ v ∈ vars, v.WF varnameX maxLengthX) (hfu : vars.length < fuel) :
    typecheckVars ctx fuel pos (varsText vars) = chkVars ctx pos vars := by
  induction vars generalizing pos fuel with
  | nil =>
    obtain ⟨n, rfl⟩ : ∃ n, fuel = n + 1 := ⟨fuel - 1, by omega⟩
    rfl
  | cons v vs ih =>
    obtain ⟨n, rfl⟩ : ∃ n, fuel = n + 1 := ⟨fuel - 1, by omega⟩
    rw [typecheckVars, chkVars]
    cases ht : v.tooLong with
    | true =>
      rw [(varListNext_cons (hw v (by simp)) vs).2 (by rw [← tooLong_iff, ht]; simp)]
      rfl
    | false =>
      rw [(varListNext_cons (hw v (by simp)) vs).1 ((tooLong_iff v).1 ht)]
      have e : (toSpec v).name = v.name := rfl
      simp only [e, Bool.false_eq_true, if_false]
      rw [misfits_eq, ih _ n (fun v hv => hw v (by simp [hv])) (by simp at hfu; omega)]

theorem chkVars_ok {ctx : Ctx} {pos pos' : Nat} {vars : List Var} (h : chkVars ctx pos vars = .ok pos') :
    pos' = pos + specsLen vars := by
  induction vars generalizing pos with
  | nil => simp [chkVars] at h; simp [specsLen, h]
  | cons v vs ih =>
    simp only [chkVars] at h
    split at h
    · cases h
    · split at h
      · cases h
      · have := ih h
        simp [specsLen] at this ⊢
        omega

theorem chkExpr_eq (ctx : Ctx) {op : Option Char} {vars : List Var} (pos : Nat)
    (h : Piece.WF asciiLiterals varnameX maxLengthX (.expr op vars)) :
    typecheckExpr ctx pos (bodyText op vars) = chkVars ctx (pos + (blen op.toList + 1)) vars := by
  unfold typecheckExpr
  rw [Tpl.decompose_eq h]
  simp only
  have := varsText_length h.2.2
  rw [chkVars_eq ctx vars _ _ h.2.2 (by omega), toOp_len h.1]
  cases ht : chkVars ctx (pos + (blen op.toList + 1)) vars with
  | panic => rfl
  | err k l => rfl
  | ok pos' =>
    have h1 := chkVars_ok ht
    have h2 := specsLen_eq h.2.1
    show (if pos' = pos + blen (bodyText op vars) + 2 then Res.ok pos' else .panic) = _
    rw [if_pos]
    rw [bodyText, blen_append]
    omega

/-- One chunk of `typecheck_context`. -/
def chkG (ctx : Ctx) (p : Piece) (r : Nat → Res Unit) (pos : Nat) : Res Unit :=
  match p with
  | .lit s => r (pos + blen s)
  | .expr op vars => (chkVars ctx (pos + (blen op.toList + 1)) vars).bind r

theorem chk_chunked (ctx : Ctx) {t : List Piece} (h : Chunked t) (fuel pos : Nat)
    (hfu : (text t).length < fuel) :
    typecheck ctx fuel pos (text t) = t.foldr (chkG ctx) (fun _ => .ok ()) pos := by
  induction t generalizing fuel pos with
  | nil =>
    obtain ⟨n, rfl⟩ : ∃ n, fuel = n + 1 := ⟨fuel - 1, by omega⟩
    rfl
  | cons p t ih =>
    obtain ⟨n, rfl⟩ : ∃ n, fuel = n + 1 := ⟨fuel - 1, by omega⟩
    obtain ⟨h1, h2, h3, h4⟩ := chunks_step h
    rw [typecheck, h1]
    have ih' := fun pos => ih h2 n pos (by omega)
    cases p with
    | lit s =>
      simp only [chunkOf, List.foldr_cons, chkG]
      rw [ih']
    | expr op vars =>
      simp only [chunkOf, List.foldr_cons, chkG]
      rw [chkExpr_eq ctx pos (h4 op vars rfl)]
      congr 1
      funext pos'
      rw [ih']

theorem chk_eq (ctx : Ctx) {t : List Piece} (h : Accepted t) (fuel pos : Nat)
    (hfu : (text t).length < fuel) :
    typecheck ctx fuel pos (text t) = t.foldr (chkG ctx) (fun _ => .ok ()) pos := by
  have := chk_chunked ctx (merge_chunked h) fuel pos (by rw [text_merge]; exact hfu)
  rw [text_merge] at this
  rw [this, merge_foldr]
  intro a b y
  funext pos
  simp [chkG, blen_append, Nat.add_assoc]

theorem checkAll_append (val : Str → Val) (a b : List (Nat × Var)) :
    checkAll val (a ++ b) = (checkAll val a).bind fun _ => checkAll val b := by
  induction a with
  | nil => rfl
  | cons x a ih =>
    obtain ⟨pos, v⟩ := x
    simp only [List.cons_append, checkAll]
    split
    · rfl
    · split
      · rfl
      · exact ih

theorem chkVars_check (ctx : Ctx) (pos : Nat) (vars : List Var) (r : Nat → Res Unit) :
    (chkVars ctx pos vars).bind r =
      (checkAll (fun n => flat (ctx .typecheck n)) (placeVars pos vars)).bind fun _ =>
        r (pos + specsLen vars) := by
  induction vars generalizing pos with
  | nil => simp [chkVars, placeVars, checkAll, Res.bind, specsLen]
  | cons v vs ih =>
    simp only [chkVars, placeVars, checkAll]
    split
    · rfl
    · split
      · rfl
      · rw [ih, bytes_eq]
        simp only [specsLen, List.map_cons, List.sum_cons, Nat.add_assoc]

theorem chk_places (ctx : Ctx) {t : List Piece} (h : Accepted t) (pos : Nat) :
    t.foldr (chkG ctx) (fun _ => .ok ()) pos =
      checkAll (fun n => flat (ctx .typecheck n)) (places pos t) := by
  induction t generalizing pos with
  | nil => rfl
  | cons p t ih =>
    have ih' := ih (fun p hp => h p (by simp [hp]))
    cases p with
    | lit s =>
      simp only [List.foldr_cons, chkG, places, List.nil_append, Piece.render, bytes_eq]
      exact ih' _
    | expr op vars =>
      simp only [List.foldr_cons, chkG, places]
      rw [checkAll_append, chkVars_check, bytes_eq]
      have h2 := specsLen_eq (h (.expr op vars) (by simp)).2.1
      have e : pos + (blen op.toList + 1) + specsLen vars = pos + bytes (Piece.expr op vars).render := by
        rw [h2, bytes_eq, render_expr]
        simp only [bodyText, blen_cons, blen_append, blen_nil]
        rw [utf8Size_ascii (c := '{') (by decide), utf8Size_ascii (c := '}') (by decide)]
        omega
      rw [e, ih', show pos + (blen op.toList + 1) = pos + 1 + blen op.toList by omega]

theorem check_ok_small {val : Str → Val} {t : List Piece} {pos : Nat} (h : checkAll val (places pos t) = .ok ()) :
    SmallLengths t := by
  have hc : ∀ l : List (Nat × Var), checkAll val l = .ok () → ∀ x ∈ l, x.2.tooLong = false := by
    intro l
    induction l with
    | nil => intro _ x hx; cases hx
    | cons y l ih =>
      obtain ⟨p, v⟩ := y
      intro h x hx
      simp only [checkAll] at h
      split at h
      · cases h
      · rename_i hv
        split at h
        · cases h
        · rcases List.mem_cons.1 hx with rfl | hx
          · simpa using hv
          · exact ih h x hx
  have hp : ∀ (vars : List Var) (pos : Nat), ∀ v ∈ vars, ∃ p, (p, v) ∈ placeVars pos vars := by
    intro vars
    induction vars with
    | nil => intro _ v hv; cases hv
    | cons w vs ih =>
      intro pos v hv
      rcases List.mem_cons.1 hv with rfl | hv
      · exact ⟨pos, by simp [placeVars]⟩
      · obtain ⟨p, hp⟩ := ih (pos + bytes w.render + 1) v hv
        exact ⟨p, by simp [placeVars, hp]⟩
  have hq : ∀ (t : List Piece) (pos : Nat) op vars, Piece.expr op vars ∈ t → ∀ v ∈ vars,
      ∃ p, (p, v) ∈ places pos t := by
    intro t
    induction t with
    | nil => intro _ _ _ h; cases h
    | cons p t ih =>
      intro pos op vars hm v hv
      rcases List.mem_cons.1 hm with rfl | hm
      · obtain ⟨q, hq⟩ := hp vars (pos + 1 + bytes op.toList) v hv
        exact ⟨q, by simp [places, hq]⟩
      · obtain ⟨q, hq⟩ := ih (pos + bytes p.render) op vars hm v hv
        exact ⟨q, by simp [places, hq]⟩
  intro op vars hm v hv ds e
  obtain ⟨q, hq⟩ := hq t pos op vars hm v hv
  exact (tooLong_iff v).1 (hc _ h _ hq) ds e

/-- **C33, every accepted template and every context**: the first variable whose prefix length is too
long (panic) or whose type is not applicable (error at its position) decides; if there is none the result
is the exact expansion, or a panic if there is one in it. -/
theorem C33_exact (S : Spec) (dbg : Bool) (ctx : Ctx) (t : List Piece) (ha : Accepted t) :
    expand_to_string S dbg ctx (text t) =
      (checkAll (fun n => flat (ctx .typecheck n)) (places 0 t)).bind fun _ =>
        match expansionExact S dbg (ctx .expand) t with
        | some out => .ok out
        | none => .panic := by
  unfold expand_to_string
  rw [chk_eq ctx ha _ _ (by omega), chk_places ctx ha]
  cases h : checkAll (fun n => flat (ctx .typecheck n)) (places 0 t) with
  | panic => rfl
  | err k l => rfl
  | ok u =>
    simp only [Res.bind]
    rw [Tpl.display_eq S dbg _ ha (check_ok_small h) _ (by omega), display_exact S dbg ctx ha]
    cases expansionExact S dbg (ctx .expand) t <;> rfl

theorem places_names {t : List Piece} {pos q : Nat} {v : Var} (h : (q, v) ∈ places pos t) :
    v.name ∈ names t := by
  have hp : ∀ (vars : List Var) (pos : Nat), (q, v) ∈ placeVars pos vars → v ∈ vars := by
    intro vars
    induction vars with
    | nil => intro _ h; cases h
    | cons w vs ih =>
      intro pos h
      simp only [placeVars, List.mem_cons, Prod.mk.injEq] at h ⊢
      rcases h with ⟨_, h⟩ | h
      · exact .inl h
      · exact .inr (ih _ h)
  induction t generalizing pos with
  | nil => cases h
  | cons p t ih =>
    cases p with
    | lit s => simpa [names] using ih (by simpa [places] using h)
    | expr op vars =>
      simp only [places, List.mem_append] at h
      simp only [names, List.flatMap_cons, List.mem_append, List.mem_map]
      rcases h with h | h
      · exact .inl ⟨v, hp _ _ h, rfl⟩
      · exact .inr (by simpa [names] using ih h)

theorem checkAll_congr {f g : Str → Val} {l : List (Nat × Var)} (h : ∀ x ∈ l, f x.2.name = g x.2.name) :
    checkAll f l = checkAll g l := by
  induction l with
  | nil => rfl
  | cons x l ih =>
    obtain ⟨p, v⟩ := x
    simp only [checkAll]
    rw [h (p, v) (by simp), ih fun x hx => h x (by simp [hx])]

theorem expansionExact_congr (S : Spec) (dbg : Bool) {f g : Str → Value} {t : List Piece}
    (h : ∀ n ∈ names t, f n = g n) : expansionExact S dbg f t = expansionExact S dbg g t := by
  unfold expansionExact
  have e : t.map (pieceExact S dbg f) = t.map (pieceExact S dbg g) := by
    refine List.map_congr_left fun p hp => ?_
    cases p with
    | lit s => rfl
    | expr op vars =>
      have hv : ∀ v ∈ vars, f v.name = g v.name := fun v hv => h _ (by
        simp only [names, List.mem_flatMap]
        exact ⟨_, hp, List.mem_map.2 ⟨v, hv, rfl⟩⟩)
      simp only [pieceExact, exprExact]
      have e1 : (vars.filter fun v => (flat (f v.name)).defined) =
          vars.filter fun v => (flat (g v.name)).defined :=
        List.filter_congr fun v hx => by rw [hv v hx]
      rw [e1]
      congr 2
      refine List.map_congr_left fun v hx => ?_
      rw [hv v (List.mem_filter.1 hx).1]
  rw [e]

/-- **C33**: the expansion depends on nothing but the values of the variables that `variables()` lists. -/
theorem C33_variables_only (S : Spec) (dbg : Bool) (ctx ctx' : Ctx) (template : Str) (ns : List Str)
    (ht : validate_template_str template = .ok ()) (hn : variables template = some ns)
    (h : ∀ n ∈ ns, ∀ p, ctx p n = ctx' p n) :
    expand_to_string S dbg ctx template = expand_to_string S dbg ctx' template := by
  obtain ⟨t, ha, rfl⟩ := C32_cover template ht
  have hn' : ns = names t := by
    obtain ⟨h1, h2⟩ := C32_variables_partial t ha
    by_cases hs : SmallLengths t
    · have := h1 hs; rw [hn] at this; cases this; rfl
    · have := h2 hs; rw [hn] at this; cases this
  subst hn'
  rw [C33_exact S dbg ctx t ha, C33_exact S dbg ctx' t ha,
    expansionExact_congr S dbg (fun n hn => h n hn .expand),
    checkAll_congr (g := fun n => flat (ctx' .typecheck n)) fun x hx => by rw [h _ (places_names hx) .typecheck]]

/-- A concrete template, `/{#v,l}{?l*,w:70}`, with its variables in their places. -/
def exactExample : List Piece :=
  [.lit ['/'], .expr (some '#') [⟨['v'], .none⟩, ⟨['l'], .none⟩],
    .expr (some '?') [⟨['l'], .explode⟩, ⟨['w'], .pre (chars! "70")⟩]]

theorem exactExample_accepted : Accepted exactExample := by
  have hv : ∀ c, varcharPlain c = true → varnameX [c] := fun c hc =>
    ⟨[c], [], rfl, .inl ⟨c, rfl, hc⟩, star_nil _⟩
  have hn : ∀ c, varcharPlain c = true → ∀ m, (∀ ds, m ≠ Mod.pre ds) → (⟨[c], m⟩ : Var).WF varnameX maxLengthX := by
    intro c hc m hm
    refine ⟨hv c hc, ?_⟩
    cases m with
    | pre ds => exact absurd rfl (hm ds)
    | none => trivial
    | explode => trivial
  intro p hp
  simp [exactExample] at hp
  rcases hp with rfl | rfl | rfl
  · exact .inl ⟨'/', rfl, by decide⟩
  · refine ⟨by simp; decide, by simp, ?_⟩
    intro v hv
    simp at hv
    rcases hv with rfl | rfl <;> exact hn _ (by decide) _ (by simp)
  · refine ⟨by simp; decide, by simp, ?_⟩
    intro v hv'
    simp at hv'
    rcases hv' with rfl | rfl
    · exact hn _ (by decide) _ (by simp)
    · refine ⟨hv _ (by decide), ?_⟩
      exact (maxLengthX_iff _).2 (by decide)

def exactCtx (w : Value) : Ctx := fun _ n =>
  if n = ['v'] then .string [chars! "a%20%C3", chars! "%A9%zz%41", chars! " b"]
  else if n = ['l'] then .list [[chars! "x/y"], [chars! "z"]] else w

example : text exactExample = chars! "/{#v,l}{?l*,w:70}" ∧
    places 0 exactExample = [(3, ⟨['v'], .none⟩), (5, ⟨['l'], .none⟩), (9, ⟨['l'], .explode⟩),
      (12, ⟨['w'], .pre (chars! "70")⟩)] := by decide +kernel

/-- The exact expansion of a value that is written in pieces, with a triplet cut in two and a stray percent
sign. -/
example : expansionExact .uri true (exactCtx (.string [chars! "é"]) .expand) exactExample =
    some (chars! "/#a%20%C3%A9%25zz%41%20b,x/y,z?l=x%2Fy&l=z&w=%C3%A9") := by
  have h := C33_exact .uri true (exactCtx (.string [chars! "é"])) exactExample exactExample_accepted
  have e : expand_to_string .uri true (exactCtx (.string [chars! "é"])) (text exactExample) =
    .ok (chars! "/#a%20%C3%A9%25zz%41%20b,x/y,z?l=x%2Fy&l=z&w=%C3%A9") := by decide +kernel
  have c : checkAll (fun n => flat (exactCtx (.string [chars! "é"]) .typecheck n)) (places 0 exactExample) = .ok () := by
    decide +kernel
  rw [e, c] at h
  simp only [Res.bind] at h
  split at h
  · rename_i heq; rw [heq]; cases h; rfl
  · cases h

end Verif
