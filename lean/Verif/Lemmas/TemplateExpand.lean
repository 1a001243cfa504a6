import Verif.Lemmas.MaybePct
import Verif.Lemmas.TemplateVars
import Verif.Spec.TemplateValues

/-!
# Lemmas on template expansion
-/

namespace Verif.Tpl

open Verif.Rfc Verif.Rfc6570 Verif.MaybePct

/-! ## Encoding of one value -/

theorem escape_write_nonreserved (S : Spec) (dbg : Bool) (d : Disp) :
    escape_write S dbg d false = some (encU S d.flatten) := by
  unfold escape_write
  rw [if_neg (by simp), ← unreserve_flatten]
  congr 1
  induction d with
  | nil => rfl
  | cons a d ih =>
    rw [List.flatMap_cons, ih, unreserve_flatten, unreserve_flatten, unreserve_flatten, ← encU_append]
    simp

theorem escape_write_reserved (S : Spec) (dbg : Bool) {d : Disp} (h : TidyAll d) :
    escape_write S dbg d true = some (encR S d.flatten) := by
  unfold escape_write
  rw [if_pos rfl, process_tidy (emits_escape S) h]
  rfl

theorem bytes_eq (s : Str) : bytes s = blen s := utf8s_length s

theorem lastIdx_some {s : Str} (h : s ≠ []) : lastIdx s = some (blen s.dropLast) := by
  unfold lastIdx
  rw [if_neg (by cases s; exact absurd rfl h; simp)]

theorem blen_of_ascii {s : Str} (h : ∀ c ∈ s, c.toNat < 128) : blen s = s.length := by
  induction s with
  | nil => rfl
  | cons c s ih =>
    rw [blen_cons, utf8Size_ascii (h c (by simp)), ih (fun d hd => h d (by simp [hd]))]
    simp; omega

theorem mem_of_dropLast {α : Type} {l : List α} {x : α} (h : x ∈ l.dropLast) : x ∈ l :=
  List.dropLast_subset l h

theorem truncateWrite_zero (S : Spec) (dbg : Bool) (d : Disp) : truncateWrite S dbg 0 d = some [] := by
  induction d with
  | nil => rfl
  | cons s d ih => rw [truncateWrite, if_pos rfl, ih]

theorem truncateWrite_ascii (S : Spec) (dbg : Bool) (d : Disp) (n : Nat)
    (h : ∀ s ∈ d, ∀ c ∈ s, c.toNat < 128) :
    truncateWrite S dbg n d = some (encU S (d.flatten.take n)) := by
  induction d generalizing n with
  | nil => simp [truncateWrite, encU]
  | cons s d ih =>
    by_cases hn : n = 0
    · subst hn; rw [truncateWrite_zero]; simp [encU]
    · rw [truncateWrite, if_neg hn]
      have hlen : (((lastIdx (s.take n)).map (· + 1)).getD 0) = min n s.length := by
        cases s with
        | nil => simp [lastIdx]
        | cons c s =>
          have hne : (c :: s).take n ≠ [] := by
            cases n with
            | zero => exact absurd rfl hn
            | succ n => simp
          rw [lastIdx_some hne]
          simp only [Option.map_some, Option.getD_some]
          rw [blen_of_ascii]
          · rw [List.length_dropLast, List.length_take]
            have : 0 < min n (c :: s).length := by
              simp only [List.length_cons]; omega
            omega
          · intro x hx
            exact h (c :: s) (by simp) x (List.mem_of_mem_take (mem_of_dropLast hx))
      rw [hlen]
      unfold usizeSub
      rw [if_pos (by omega)]
      simp only [Option.bind_some]
      rw [ih (n - min n s.length) (fun s' hs' => h s' (by simp [hs']))]
      simp only [Option.map_some, Option.some.injEq]
      rw [unreserve_eq, ← encU_append, List.flatten_cons, List.take_append]
      congr 3
      omega

theorem truncateWrite_one (S : Spec) (dbg : Bool) (s : Str) (n : Nat)
    (h : dbg = true → n = 0 ∨ s = [] ∨ bytes (s.take n).dropLast < n) :
    truncateWrite S dbg n [s] = some (encU S (s.take n)) := by
  by_cases hn : n = 0
  · subst hn; rw [truncateWrite_zero]; simp [encU]
  · rw [truncateWrite, if_neg hn]
    have hsub : ∃ m, usizeSub dbg n (((lastIdx (s.take n)).map (· + 1)).getD 0) = some m := by
      by_cases hs : s = []
      · subst hs; simp [lastIdx, usizeSub]
      · have hne : s.take n ≠ [] := by
          cases s with
          | nil => exact absurd rfl hs
          | cons c s =>
            cases n with
            | zero => exact absurd rfl hn
            | succ n => simp
        rw [lastIdx_some hne]
        simp only [Option.map_some, Option.getD_some]
        unfold usizeSub
        by_cases hd : dbg = true
        · rcases h hd with h | h | h
          · exact absurd h hn
          · exact absurd h hs
          · rw [bytes_eq] at h
            rw [if_pos (by omega)]
            exact ⟨_, rfl⟩
        · simp only [hd]
          split
          · exact ⟨_, rfl⟩
          · exact ⟨_, rfl⟩
    obtain ⟨m, hm⟩ := hsub
    rw [hm]
    simp [truncateWrite, unreserve_eq]

theorem truncateWrite_ok (S : Spec) (dbg : Bool) {d : Disp} {n : Nat} (h : PrefixOk dbg n d) :
    truncateWrite S dbg n d = some (encU S (d.flatten.take n)) := by
  rcases h with h | ⟨s, rfl, h⟩
  · exact truncateWrite_ascii S dbg d n h
  · rw [truncateWrite_one S dbg s n h]; simp

theorem truncate_reserved (S : Spec) (dbg : Bool) {d : Disp} {n : Nat} (h : PrefixOkR dbg n d) :
    (process_percent_encoded_best_effort dbg (truncFrag S dbg) ([], n) d).map Prod.fst =
      some (encR S (d.flatten.take n)) := by
  obtain ⟨s, rfl, hp, ha, hd⟩ := h
  cases s with
  | nil =>
    simp [process_percent_encoded_best_effort, writeAll, writeStr, encR]
  | cons c r =>
    have hc : c.toNat < 128 := ha
    simp at hp
    have hpush := pushLoop_plain (e := []) (k := 0) (r := r) rfl hc (fun e => hp.1 e.symm)
    have hfs : (find_split (c :: r) '%').getD (c :: r, []) = (c :: r, []) := by
      have : find_split (c :: r) '%' = none := by
        unfold find_split
        rw [findSplitP_none]
        intro x hx
        simp at hx
        simp
        rintro rfl
        rcases hx with hx | hx
        · exact hp.1 hx
        · exact hp.2 hx
      rw [this]; rfl
    have hn' : '%' ∉ (c :: r).take n := by
      intro hx
      have := List.mem_of_mem_take hx
      simp at this
      rcases this with hx | hx
      · exact hp.1 hx
      · exact hp.2 hx
    have hout : encR S ((c :: r).take n) = ((c :: r).take n).flatMap (encR1 S) := by
      have := encR_chs (S := S) hn' []
      simpa [encR] using this
    have key : ∃ m b, truncFrag S dbg ([], n) (.noPct (c :: r)) =
        some ((encR S ((c :: r).take n), m), b) := by
      unfold truncFrag
      simp only
      by_cases hn : n = 0
      · subst hn; exact ⟨0, true, by simp [encR]⟩
      · rw [if_neg hn]
        have hne : (c :: r).take n ≠ [] := by
          cases n with
          | zero => exact absurd rfl hn
          | succ n => simp
        rw [lastIdx_some hne]
        have : ∃ m, usizeSub dbg n (blen ((c :: r).take n).dropLast) = some m := by
          unfold usizeSub
          by_cases hdb : dbg = true
          · have := hd hdb
            rw [bytes_eq] at this
            rw [if_pos this]; exact ⟨_, rfl⟩
          · simp only [hdb]
            split
            · exact ⟨_, rfl⟩
            · exact ⟨_, rfl⟩
        obtain ⟨m, hm⟩ := this
        refine ⟨m, false, ?_⟩
        simp only [Option.bind_some, hm, Option.map_some]
        rw [characters_eq, hout]
        simp
    obtain ⟨m, b, hk⟩ := key
    have hstep : writeStep dbg (truncFrag S dbg) ([], n) [] (c :: r) =
        some (((encR S ((c :: r).take n), m), b), [], []) := by
      unfold writeStep
      rw [hpush]
      simp only [Option.bind_some, if_true, flushRest, List.isEmpty_nil, plainPrefix,
        Bool.false_eq_true, if_false, hfs, List.isEmpty_cons, Bool.and_false, hk, Option.map_some]
    have hw : writeStr dbg (truncFrag S dbg) (2 * (c :: r).length + 2) ([], n) [] (c :: r) =
        some (((encR S ((c :: r).take n), m), b), []) := by
      rw [show 2 * (c :: r).length + 2 = (2 * (c :: r).length) + 1 + 1 by omega]
      rw [writeStr]
      simp only [List.isEmpty_cons, Bool.false_eq_true, if_false, hstep, Option.bind_some]
      cases b
      · rfl
      · rfl
    unfold process_percent_encoded_best_effort
    rw [writeAll, hw]
    cases b
    · simp [writeAll]
    · simp

/-! ## The template as a list of parts -/

/-- The chunk of a part. -/
def chunkOf : Piece → Chunk
  | .lit s => .literal s
  | .expr op vars => .expr (bodyText op vars)

theorem chunks_step {p : Piece} {t : List Piece} (h : Chunked (p :: t)) :
    chunksNext (text (p :: t)) = some (some (chunkOf p, text t)) ∧ Chunked t ∧
      (text t).length < (text (p :: t)).length ∧
      (∀ op vars, p = .expr op vars → Piece.WF asciiLiterals varnameX maxLengthX (.expr op vars)) := by
  cases h with
  | @expr op vars _ h1 h2 =>
    refine ⟨chunksNext_expr h1 _, h2, ?_, by rintro _ _ ⟨⟩; exact h1⟩
    simp [text, render_expr]; omega
  | @litEnd s h0 h1 =>
    refine ⟨?_, .nil, ?_, by rintro _ _ ⟨⟩⟩
    · have : text [.lit s] = s := by simp [text, Piece.render]
      rw [this]
      exact chunksNext_lit_end h0 h1
    · have := List.length_pos_iff.2 h0
      simp [text, Piece.render]; omega
  | @lit s op vars t h0 h1 h2 =>
    refine ⟨?_, h2, ?_, by rintro _ _ ⟨⟩⟩
    · have : text (.lit s :: .expr op vars :: t) =
          s ++ '{' :: (bodyText op vars ++ ['}'] ++ text t) := by
        simp [text, Piece.render, bodyText, varsText]
      rw [this, chunksNext_lit h0 h1]
      simp [text, render_expr, chunkOf]
    · have := List.length_pos_iff.2 h0
      simp [text, Piece.render]; omega

section display

variable (S : Spec) (dbg : Bool) (ctx : Ctx)

/-- The loop over the varspecs in `expand`. -/
def varsP (op : Operator) : Bool → List Var → Option Str
  | _, [] => some []
  | first, v :: vs =>
    (visit_value S dbg op (toSpec v) first (ctx .expand v.name)).bind fun o =>
      (varsP op o.2 vs).map fun t => o.1 ++ t

theorem expandVars_eq (op : Operator) (vars : List Var) (first : Bool) (fuel : Nat)
    (hw : ∀ v ∈ vars, v.WF varnameX maxLengthX) (hf : ∀ v ∈ vars, Fits v)
    (hfu : vars.length < fuel) :
    expandVars S dbg ctx op fuel first (varsText vars) = varsP S dbg ctx op first vars := by
  induction vars generalizing first fuel with
  | nil =>
    obtain ⟨n, rfl⟩ : ∃ n, fuel = n + 1 := ⟨fuel - 1, by omega⟩
    rfl
  | cons v vs ih =>
    obtain ⟨n, rfl⟩ : ∃ n, fuel = n + 1 := ⟨fuel - 1, by omega⟩
    rw [expandVars, (varListNext_cons (hw v (by simp)) vs).1 (hf v (by simp))]
    simp only [varsP]
    have e : (toSpec v).name = v.name := rfl
    rw [e]
    cases visit_value S dbg op (toSpec v) first (ctx .expand v.name) with
    | none => rfl
    | some o =>
      simp only [Option.bind_some]
      rw [ih o.2 n (fun v hv => hw v (by simp [hv])) (fun v hv => hf v (by simp [hv]))
        (by simp at hfu; omega)]

theorem expandExpr_eq {op : Option Char} {vars : List Var}
    (h : Piece.WF asciiLiterals varnameX maxLengthX (.expr op vars)) (hf : ∀ v ∈ vars, Fits v) :
    expandExpr S dbg ctx (bodyText op vars) = varsP S dbg ctx (toOp op) true vars := by
  unfold expandExpr
  rw [decompose_eq h]
  simp only [Option.bind_some]
  have := varsText_length h.2.2
  exact expandVars_eq S dbg ctx _ vars true _ h.2.2 hf (by omega)

/-- One chunk of `Display` for `Expanded`. -/
def dispG (p : Piece) (r : Option Str) : Option Str :=
  match p with
  | .lit s => r.map fun t => s ++ t
  | .expr op vars => (varsP S dbg ctx (toOp op) true vars).bind fun a => r.map fun t => a ++ t

theorem display_chunked {t : List Piece} (h : Chunked t) (hs : ∀ v ∈ varsOf t, Fits v) (fuel : Nat)
    (hfu : (text t).length < fuel) :
    displayExpanded S dbg ctx fuel (text t) = t.foldr (dispG S dbg ctx) (some []) := by
  induction t generalizing fuel with
  | nil =>
    obtain ⟨n, rfl⟩ : ∃ n, fuel = n + 1 := ⟨fuel - 1, by omega⟩
    rfl
  | cons p t ih =>
    obtain ⟨n, rfl⟩ : ∃ n, fuel = n + 1 := ⟨fuel - 1, by omega⟩
    obtain ⟨h1, h2, h3, h4⟩ := chunks_step h
    rw [displayExpanded, h1]
    have ih' := ih h2 (fun v hv => hs v (by simp [varsOf] at hv ⊢; exact .inr hv)) n (by omega)
    cases p with
    | lit s =>
      simp only [chunkOf, List.foldr_cons, dispG]
      rw [ih']
    | expr op vars =>
      simp only [chunkOf, List.foldr_cons, dispG]
      rw [ih', expandExpr_eq S dbg ctx (h4 op vars rfl)
        (fun v hv => hs v (by simp [varsOf]; exact .inl hv))]

theorem display_eq {t : List Piece} (h : Accepted t) (hs : SmallLengths t) (fuel : Nat)
    (hfu : (text t).length < fuel) :
    displayExpanded S dbg ctx fuel (text t) = t.foldr (dispG S dbg ctx) (some []) := by
  have := display_chunked S dbg ctx (merge_chunked h)
    (by rw [varsOf_merge]; exact (smallLengths_iff t).1 hs) fuel (by rw [text_merge]; exact hfu)
  rw [text_merge] at this
  rw [this]
  refine merge_foldr _ _ ?_ t
  intro a b y
  cases y <;> simp [dispG]

/-! ## Type checking -/

/-- Byte length of the operator. -/
theorem toOp_len {op : Option Char} (h : ∀ c, op = some c → isOp c = true) :
    (toOp op).len = blen op.toList := by
  cases op with
  | none => rfl
  | some c =>
    have := h c rfl
    simp [isOp] at this
    rcases this with rfl | rfl | rfl | rfl | rfl | rfl | rfl <;> decide

/-- The loop over the varspecs in `typecheck_context`. -/
def tcVars : Nat → List Var → Res Nat
  | pos, [] => .ok pos
  | pos, v :: vs =>
    if badType (toSpec v).modifier (typeOf (ctx .typecheck v.name)) then
      .err .unexpectedValueType pos
    else tcVars (pos + (blen v.render + 1)) vs

theorem typecheckVars_eq (vars : List Var) (pos fuel : Nat)
    (hw : ∀ v ∈ vars, v.WF varnameX maxLengthX) (hf : ∀ v ∈ vars, Fits v)
    (hfu : vars.length < fuel) :
    typecheckVars ctx fuel pos (varsText vars) = tcVars ctx pos vars := by
  induction vars generalizing pos fuel with
  | nil =>
    obtain ⟨n, rfl⟩ : ∃ n, fuel = n + 1 := ⟨fuel - 1, by omega⟩
    rfl
  | cons v vs ih =>
    obtain ⟨n, rfl⟩ : ∃ n, fuel = n + 1 := ⟨fuel - 1, by omega⟩
    rw [typecheckVars, (varListNext_cons (hw v (by simp)) vs).1 (hf v (by simp))]
    simp only [tcVars]
    have e : (toSpec v).name = v.name := rfl
    rw [e, ih _ n (fun v hv => hw v (by simp [hv])) (fun v hv => hf v (by simp [hv]))
        (by simp at hfu; omega)]

/-- Sum of the lengths of the varspecs with the character after each. -/
def specsLen (vars : List Var) : Nat := (vars.map fun v => blen v.render + 1).sum

theorem tcVars_ok {pos pos' : Nat} {vars : List Var} (h : tcVars ctx pos vars = .ok pos') :
    pos' = pos + specsLen vars := by
  induction vars generalizing pos with
  | nil => simp [tcVars] at h; simp [specsLen, h]
  | cons v vs ih =>
    simp only [tcVars] at h
    split at h
    · cases h
    · have := ih h
      simp [specsLen] at this ⊢
      omega

theorem tcVars_ne_panic {pos : Nat} {vars : List Var} : tcVars ctx pos vars ≠ .panic := by
  induction vars generalizing pos with
  | nil => simp [tcVars]
  | cons v vs ih =>
    simp only [tcVars]
    split
    · simp
    · exact ih

theorem specsLen_eq {vars : List Var} (h : vars ≠ []) : specsLen vars = blen (varsText vars) + 1 := by
  induction vars with
  | nil => exact absurd rfl h
  | cons v vs ih =>
    cases vs with
    | nil => simp [specsLen, varsText, joinWith]
    | cons w vs =>
      have := ih (by simp)
      simp [specsLen, varsText, joinWith, blen_append] at this ⊢
      rw [utf8Size_ascii (c := ',') (by decide)]
      omega

theorem typecheckExpr_eq {op : Option Char} {vars : List Var} (pos : Nat)
    (h : Piece.WF asciiLiterals varnameX maxLengthX (.expr op vars)) (hf : ∀ v ∈ vars, Fits v) :
    typecheckExpr ctx pos (bodyText op vars) =
      tcVars ctx (pos + (blen op.toList + 1)) vars := by
  unfold typecheckExpr
  rw [decompose_eq h]
  simp only
  have := varsText_length h.2.2
  rw [typecheckVars_eq ctx vars _ _ h.2.2 hf (by omega), toOp_len h.1]
  cases ht : tcVars ctx (pos + (blen op.toList + 1)) vars with
  | panic => rfl
  | err k l => rfl
  | ok pos' =>
    have h1 := tcVars_ok ctx ht
    have h2 := specsLen_eq h.2.1
    show (if pos' = pos + blen (bodyText op vars) + 2 then Res.ok pos' else .panic) = _
    rw [if_pos]
    rw [bodyText, blen_append]
    omega

/-- One chunk of `typecheck_context`. -/
def tcG (p : Piece) (r : Nat → Res Unit) (pos : Nat) : Res Unit :=
  match p with
  | .lit s => r (pos + blen s)
  | .expr op vars => (tcVars ctx (pos + (blen op.toList + 1)) vars).bind r

theorem typecheck_chunked {t : List Piece} (h : Chunked t) (hs : ∀ v ∈ varsOf t, Fits v) (fuel pos : Nat)
    (hfu : (text t).length < fuel) :
    typecheck ctx fuel pos (text t) = t.foldr (tcG ctx) (fun _ => .ok ()) pos := by
  induction t generalizing fuel pos with
  | nil =>
    obtain ⟨n, rfl⟩ : ∃ n, fuel = n + 1 := ⟨fuel - 1, by omega⟩
    rfl
  | cons p t ih =>
    obtain ⟨n, rfl⟩ : ∃ n, fuel = n + 1 := ⟨fuel - 1, by omega⟩
    obtain ⟨h1, h2, h3, h4⟩ := chunks_step h
    rw [typecheck, h1]
    have ih' := fun pos => ih h2 (fun v hv => hs v (by simp [varsOf] at hv ⊢; exact .inr hv)) n pos
      (by omega)
    cases p with
    | lit s =>
      simp only [chunkOf, List.foldr_cons, tcG]
      rw [ih']
    | expr op vars =>
      simp only [chunkOf, List.foldr_cons, tcG]
      rw [typecheckExpr_eq ctx pos (h4 op vars rfl)
        (fun v hv => hs v (by simp [varsOf]; exact .inl hv))]
      congr 1
      funext pos'
      exact ih' pos'

theorem typecheck_eq {t : List Piece} (h : Accepted t) (hs : SmallLengths t) (fuel pos : Nat)
    (hfu : (text t).length < fuel) :
    typecheck ctx fuel pos (text t) = t.foldr (tcG ctx) (fun _ => .ok ()) pos := by
  have := typecheck_chunked ctx (merge_chunked h)
    (by rw [varsOf_merge]; exact (smallLengths_iff t).1 hs) fuel pos (by rw [text_merge]; exact hfu)
  rw [text_merge] at this
  rw [this, merge_foldr]
  intro a b y
  funext pos
  simp [tcG, blen_append, Nat.add_assoc]

end display

section dynamic

variable {σ : Type} (S : Spec) (dbg : Bool) (ctx : DynCtx σ)

/-- The loop over the varspecs in `expand_expr_mut`. -/
def dynVars (op : Operator) : Bool → Nat → List Var → σ → Option (DynOut σ Nat)
  | _, pos, [], st => some ⟨.ok pos, [], st⟩
  | first, pos, v :: vs, st =>
    if badType (toSpec v).modifier (typeOf (ctx.visit .typecheck v.name st).1) then
      some ⟨.error (.unexpectedValueType, pos), [], (ctx.visit .typecheck v.name st).2⟩
    else
      (visit_value S dbg op (toSpec v) first
        (ctx.visit .expand v.name (ctx.visit .typecheck v.name st).2).1).bind fun o =>
        (dynVars op o.2 (pos + (blen v.render + 1)) vs
          (ctx.visit .expand v.name (ctx.visit .typecheck v.name st).2).2).map fun d =>
          ⟨d.result, o.1 ++ d.out, d.state⟩

theorem expandVarsMut_eq (op : Operator) (vars : List Var) (first : Bool) (pos fuel : Nat) (st : σ)
    (hw : ∀ v ∈ vars, v.WF varnameX maxLengthX) (hf : ∀ v ∈ vars, Fits v)
    (hfu : vars.length < fuel) :
    expandVarsMut S dbg ctx op fuel first pos (varsText vars) st =
      dynVars S dbg ctx op first pos vars st := by
  induction vars generalizing first pos fuel st with
  | nil =>
    obtain ⟨n, rfl⟩ : ∃ n, fuel = n + 1 := ⟨fuel - 1, by omega⟩
    rfl
  | cons v vs ih =>
    obtain ⟨n, rfl⟩ : ∃ n, fuel = n + 1 := ⟨fuel - 1, by omega⟩
    rw [expandVarsMut, (varListNext_cons (hw v (by simp)) vs).1 (hf v (by simp))]
    simp only [dynVars]
    have e : (toSpec v).name = v.name := rfl
    rw [e]
    split
    · rfl
    · congr 1
      funext o
      rw [ih o.2 _ n _ (fun v hv => hw v (by simp [hv])) (fun v hv => hf v (by simp [hv]))
        (by simp at hfu; omega)]

theorem dynVars_ok {op : Operator} {first : Bool} {pos pos' : Nat} {vars : List Var} {st st' : σ}
    {out : Str} (h : dynVars S dbg ctx op first pos vars st = some ⟨.ok pos', out, st'⟩) :
    pos' = pos + specsLen vars := by
  induction vars generalizing first pos st out with
  | nil => simp [dynVars] at h; simp [specsLen, h.1]
  | cons v vs ih =>
    simp only [dynVars] at h
    split at h
    · cases h
    · rw [Option.bind_eq_some_iff] at h
      obtain ⟨o, _, h⟩ := h
      rw [Option.map_eq_some_iff] at h
      obtain ⟨d, h, e⟩ := h
      obtain ⟨r, ou, s⟩ := d
      simp at e
      obtain ⟨rfl, _, rfl⟩ := e
      have := ih h
      simp [specsLen] at this ⊢
      omega

theorem expandExprMut_eq {op : Option Char} {vars : List Var} (pos : Nat) (st : σ)
    (h : Piece.WF asciiLiterals varnameX maxLengthX (.expr op vars)) (hf : ∀ v ∈ vars, Fits v) :
    expandExprMut S dbg ctx pos (bodyText op vars) st =
      dynVars S dbg ctx (toOp op) true (pos + (blen op.toList + 1)) vars st := by
  unfold expandExprMut
  rw [decompose_eq h]
  simp only
  have := varsText_length h.2.2
  rw [expandVarsMut_eq S dbg ctx _ vars _ _ _ _ h.2.2 hf (by omega), toOp_len h.1]
  cases ht : dynVars S dbg ctx (toOp op) true (pos + (blen op.toList + 1)) vars st with
  | none => rfl
  | some d =>
    obtain ⟨r, out, st'⟩ := d
    cases r with
    | error e => rfl
    | ok pos' =>
      have h1 := dynVars_ok S dbg ctx ht
      have h2 := specsLen_eq h.2.1
      show (if pos' = pos + blen (bodyText op vars) + 2 then some _ else none) = _
      rw [if_pos]
      rw [bodyText, blen_append]
      omega

/-- One chunk of `expand_whole_dynamic_impl`. -/
def dynG (p : Piece) (r : Nat → σ → Option (DynOut σ Unit)) (pos : Nat) (st : σ) :
    Option (DynOut σ Unit) :=
  match p with
  | .lit s => (r (pos + blen s) st).map fun d => ⟨d.result, s ++ d.out, d.state⟩
  | .expr op vars =>
    (dynVars S dbg ctx (toOp op) true (pos + (blen op.toList + 1)) vars st).bind fun d => dynThen d r

theorem dyn_chunked {t : List Piece} (h : Chunked t) (hs : ∀ v ∈ varsOf t, Fits v) (fuel pos : Nat)
    (st : σ) (hfu : (text t).length < fuel) :
    expandDynLoop S dbg ctx fuel pos (text t) st =
      t.foldr (dynG S dbg ctx) (fun _ st => some ⟨.ok (), [], st⟩) pos st := by
  induction t generalizing fuel pos st with
  | nil =>
    obtain ⟨n, rfl⟩ : ∃ n, fuel = n + 1 := ⟨fuel - 1, by omega⟩
    rfl
  | cons p t ih =>
    obtain ⟨n, rfl⟩ : ∃ n, fuel = n + 1 := ⟨fuel - 1, by omega⟩
    obtain ⟨h1, h2, h3, h4⟩ := chunks_step h
    rw [expandDynLoop, h1]
    have ih' := fun pos st => ih h2 (fun v hv => hs v (by simp [varsOf] at hv ⊢; exact .inr hv)) n
      pos st (by omega)
    cases p with
    | lit s =>
      simp only [chunkOf, List.foldr_cons, dynG]
      rw [ih']
    | expr op vars =>
      simp only [chunkOf, List.foldr_cons, dynG]
      rw [expandExprMut_eq S dbg ctx pos st (h4 op vars rfl)
        (fun v hv => hs v (by simp [varsOf]; exact .inl hv))]
      congr 1
      funext d
      congr 1
      funext pos st
      exact ih' pos st

theorem dyn_eq {t : List Piece} (h : Accepted t) (hs : SmallLengths t) (fuel pos : Nat) (st : σ)
    (hfu : (text t).length < fuel) :
    expandDynLoop S dbg ctx fuel pos (text t) st =
      t.foldr (dynG S dbg ctx) (fun _ st => some ⟨.ok (), [], st⟩) pos st := by
  have := dyn_chunked S dbg ctx (merge_chunked h)
    (by rw [varsOf_merge]; exact (smallLengths_iff t).1 hs) fuel pos st
    (by rw [text_merge]; exact hfu)
  rw [text_merge] at this
  rw [this, merge_foldr]
  intro a b y
  funext pos st
  simp only [dynG, blen_append, Nat.add_assoc]
  cases y (pos + (blen a + blen b)) st <;> simp

end dynamic

end Verif.Tpl
