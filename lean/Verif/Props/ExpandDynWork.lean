import Verif.Props.ExpandWork

/-!
# C97: expansion with a dynamic context is linear work
-/

namespace Verif

namespace Work

variable {σ : Type}

@[simp] theorem expandVarsMut_fst (S : Spec) (dbg : Bool) (ctx : Tpl.DynCtx σ) (op : Tpl.Operator) :
    ∀ (f : Nat) (first : Bool) (pos : Nat) (s : Str) (st : σ),
      (expandVarsMut S dbg ctx op f first pos s st).1 = Tpl.expandVarsMut S dbg ctx op f first pos s st
  | 0, _, _, _, _ => rfl
  | f + 1, first, pos, s, st => by
    unfold expandVarsMut Tpl.expandVarsMut
    rw [bind_fst, varListNext_fst]
    rcases Tpl.varListNext s with _ | (_ | ⟨⟨len, sp⟩, rest⟩)
    · rfl
    · rfl
    · dsimp only
      split
      · rfl
      · rw [obind_fst, visit_value_fst]
        congr 1; funext o
        rw [obind_fst, expandVarsMut_fst S dbg ctx op f]
        rcases Tpl.expandVarsMut S dbg ctx op f o.2 (pos + (len + 1)) rest _ with _ | _ <;> rfl

@[simp] theorem expandExprMut_fst (S : Spec) (dbg : Bool) (ctx : Tpl.DynCtx σ) (pos : Nat) (b : Str) (st : σ) :
    (expandExprMut S dbg ctx pos b st).1 = Tpl.expandExprMut S dbg ctx pos b st := by
  unfold expandExprMut Tpl.expandExprMut
  rw [obind_fst]
  show (Tpl.decompose b).bind _ = _
  rcases Tpl.decompose b with _ | ⟨op, l⟩
  · rfl
  · simp only [Option.bind_some]
    rw [obind_fst, expandVarsMut_fst]
    rfl

theorem dynThen_fst (d : Tpl.DynOut σ Nat) {k : Nat → σ → T (Option (Tpl.DynOut σ Unit))}
    {k' : Nat → σ → Option (Tpl.DynOut σ Unit)} (h : ∀ p st, (k p st).1 = k' p st) :
    (dynThen d k).1 = Tpl.dynThen d k' := by
  unfold dynThen Tpl.dynThen
  obtain ⟨r, o, s⟩ := d
  cases r with
  | error e => rfl
  | ok pos =>
    dsimp only
    rw [obind_fst, h]
    rcases k' pos s with _ | _ <;> rfl

@[simp] theorem expandDynLoop_fst (S : Spec) (dbg : Bool) (ctx : Tpl.DynCtx σ) : ∀ (f pos : Nat) (s : Str) (st : σ),
    (expandDynLoop S dbg ctx f pos s st).1 = Tpl.expandDynLoop S dbg ctx f pos s st
  | 0, _, _, _ => rfl
  | f + 1, pos, s, st => by
    unfold expandDynLoop Tpl.expandDynLoop
    rw [bind_fst, chunksNext_fst]
    rcases Tpl.chunksNext s with _ | (_ | ⟨l | b, rest⟩)
    · rfl
    · rfl
    · dsimp only
      rw [bind_fst, obind_fst, expandDynLoop_fst S dbg ctx f]
      rcases Tpl.expandDynLoop S dbg ctx f (pos + blen l) rest st with _ | _ <;> rfl
    · dsimp only
      rw [obind_fst, expandExprMut_fst]
      congr 1; funext d
      exact dynThen_fst d fun p st => expandDynLoop_fst S dbg ctx f p rest st

open Verif.Abnf Verif.Rfc Verif.Rfc6570 Verif.Tpl

/-- No value of the variable `n` is larger than `size n`. -/
def Bounded (ctx : Tpl.DynCtx σ) (size : Str → Nat) : Prop :=
  ∀ n st, valueSize n (ctx.visit .expand n st).1 ≤ size n

theorem expandVarsMut_snd (S : Spec) (dbg : Bool) (ctx : Tpl.DynCtx σ) {size : Str → Nat} (hb : Bounded ctx size)
    (op : Tpl.Operator) : ∀ (vars : List Var) (f : Nat) (first : Bool) (pos : Nat) (st : σ),
    (∀ v ∈ vars, v.WF varnameX maxLengthX) → (∀ v ∈ vars, Fits v) →
    (expandVarsMut S dbg ctx op f first pos (varsText vars) st).2 ≤
      51 * blen (varsText vars) + 48 * (vars.map fun v => size v.name).sum
  | [], f, first, pos, st, _, _ => by
    cases f with
    | zero => exact Nat.zero_le _
    | succ f =>
      have h1 := (varListNext_snd (varsText [])).1
      unfold expandVarsMut
      rw [bind_snd, varListNext_fst]
      have e : Tpl.varListNext (varsText []) = some none := rfl
      rw [e]
      simp only [ret_snd]
      omega
  | v :: vs, 0, first, pos, st, _, _ => Nat.zero_le _
  | v :: vs, f + 1, first, pos, st, hw, hf => by
    have e := (varListNext_cons (hw v (by simp)) vs).1 (hf v (by simp))
    have h1 := (varListNext_snd (varsText (v :: vs))).2
    rw [varListNext_fst] at h1
    have h1 := h1 _ _ e
    have h2 := varsText_cons_len v vs
    have h3 := name_le v
    unfold expandVarsMut
    rw [bind_snd, varListNext_fst, e]
    dsimp only
    have e2 : (toSpec v).name = v.name := rfl
    rw [e2, List.map_cons, List.sum_cons]
    split
    · simp only [ret_snd]; omega
    · have h4 := visit_value_snd S dbg op (toSpec v) first (ctx.visit .expand v.name (ctx.visit .typecheck v.name st).2).1
      have h6 := hb v.name (ctx.visit .typecheck v.name st).2
      rw [e2] at h4
      have h5 := obind_le
        (visit_value S dbg op (toSpec v) first (ctx.visit .expand v.name (ctx.visit .typecheck v.name st).2).1)
        (fun o => obind (expandVarsMut S dbg ctx op f o.2 (pos + (blen v.render + 1)) (varsText vs)
          (ctx.visit .expand v.name (ctx.visit .typecheck v.name st).2).2) fun d =>
            ret (some (⟨d.result, o.1 ++ d.out, d.state⟩ : Tpl.DynOut σ Nat)))
        (51 * blen (varsText vs) + 48 * (vs.map fun v => size v.name).sum)
        (fun o _ => by
          refine Nat.le_trans (obind_le _ _ 0 fun _ _ => Nat.zero_le _) ?_
          exact expandVarsMut_snd S dbg ctx hb op vs f o.2 _ _ (fun v hv => hw v (by simp [hv]))
            (fun v hv => hf v (by simp [hv])))
      omega

theorem expandExprMut_snd (S : Spec) (dbg : Bool) (ctx : Tpl.DynCtx σ) {size : Str → Nat} (hb : Bounded ctx size)
    {op : Option Char} {vars : List Var} (pos : Nat) (st : σ)
    (h : Piece.WF asciiLiterals varnameX maxLengthX (.expr op vars)) (hf : ∀ v ∈ vars, Fits v) :
    (expandExprMut S dbg ctx pos (bodyText op vars) st).2 ≤
      51 * blen (bodyText op vars) + 1 + 48 * (vars.map fun v => size v.name).sum := by
  unfold expandExprMut
  have h1 := expandVarsMut_snd S dbg ctx hb (toOp op) vars ((varsText vars).length + 1) true
    (pos + ((toOp op).len + 1)) st h.2.2 hf
  have h2 := bodyText_len op vars
  have e : (decompose (bodyText op vars)).1 = some (toOp op, varsText vars) := Tpl.decompose_eq h
  rw [obind_some e]
  have e2 : (decompose (bodyText op vars)).2 = 1 := rfl
  dsimp only
  have h3 := obind_le (expandVarsMut S dbg ctx (toOp op) ((varsText vars).length + 1) true
    (pos + ((toOp op).len + 1)) (varsText vars) st)
    (fun x => ret (Tpl.checkEnd (pos + blen (bodyText op vars) + 2) x)) 0 (fun _ _ => Nat.zero_le _)
  omega

theorem expandDynLoop_snd (S : Spec) (dbg : Bool) (ctx : Tpl.DynCtx σ) {size : Str → Nat} (hb : Bounded ctx size) :
    ∀ (t : List Piece) (f pos : Nat) (st : σ), Chunked t → (∀ v ∈ varsOf t, Fits v) →
      (expandDynLoop S dbg ctx f pos (text t) st).2 ≤
        52 * blen (text t) + 48 * ((varsOf t).map fun v => size v.name).sum
  | _, 0, _, _, _, _ => Nat.zero_le _
  | [], f + 1, _, _, _, _ => by
    have h1 := (chunksNext_snd (text [])).1
    have e : Tpl.chunksNext (text []) = some none := rfl
    unfold expandDynLoop
    rw [bind_snd, chunksNext_fst, e]
    simp only [ret_snd]
    omega
  | p :: t, f + 1, pos, st, h, hs => by
    obtain ⟨g1, g2, g3, g4⟩ := chunks_step h
    obtain ⟨c1, c2, c3⟩ := chunksNext_snd (text (p :: t))
    rw [chunksNext_fst] at c2 c3
    have ih := fun pos st => expandDynLoop_snd S dbg ctx hb t f pos st g2
      (fun v hv => hs v (by simp [varsOf] at hv ⊢; exact .inr hv))
    have el : blen (text (p :: t)) = blen p.render + blen (text t) := by simp [text]
    unfold expandDynLoop
    rw [bind_snd, chunksNext_fst, g1]
    cases p with
    | lit s =>
      have c2 := c2 _ _ g1
      have eu : varsOf (.lit s :: t) = varsOf t := by simp [varsOf]
      have er : (Piece.lit s).render = s := rfl
      rw [er] at el
      simp only [chunkOf]
      rw [bind_snd, eu]
      have h5 := obind_le (expandDynLoop S dbg ctx f (pos + blen s) (text t) st)
        (fun d => ret (some (⟨d.result, s ++ d.out, d.state⟩ : Tpl.DynOut σ Unit))) 0 (fun _ _ => Nat.zero_le _)
      have := ih (pos + blen s) st
      dsimp only at h5 ⊢
      omega
    | expr op vars =>
      have c3 := c3 _ _ g1
      have eu : ((varsOf (.expr op vars :: t)).map fun v => size v.name).sum =
          (vars.map fun v => size v.name).sum + ((varsOf t).map fun v => size v.name).sum := by
        simp [varsOf]
      have h4 := expandExprMut_snd S dbg ctx hb pos st (g4 op vars rfl)
        (fun v hv => hs v (by simp [varsOf]; exact .inl hv))
      simp only [chunkOf]
      rw [eu]
      have h5 := obind_le (expandExprMut S dbg ctx pos (bodyText op vars) st)
        (fun d => dynThen d fun pos st => expandDynLoop S dbg ctx f pos (text t) st)
        (52 * blen (text t) + 48 * ((varsOf t).map fun v => size v.name).sum)
        (fun d _ => by
          unfold dynThen
          split
          · exact Nat.zero_le _
          · exact Nat.le_trans (obind_le _ _ 0 fun _ _ => Nat.zero_le _) (ih _ _))
      omega

end Work

variable {σ : Type}

/-- **C97 (the counter changes nothing).**  With the counter, dynamic expansion gives the same result, writes the same
text and leaves the context in the same state. -/
theorem C97_same (S : Spec) (dbg : Bool) (ctx : Tpl.DynCtx σ) (template : Str) (st : σ) :
    (Work.expand_dynamic S dbg ctx template st).1 = Tpl.expand_dynamic S dbg ctx template st := by
  unfold Work.expand_dynamic Tpl.expand_dynamic
  rw [Work.obind_fst, Work.expandDynLoop_fst]
  rcases Tpl.expandDynLoop S dbg ctx (template.length + 1) 0 template (ctx.start st) with _ | _ <;> rfl

open Verif.Abnf Verif.Rfc Verif.Rfc6570 Verif.Tpl in
/-- **C97 (linear).**  Whatever a dynamic context answers, and whether the expansion succeeds, stops at a variable of
the wrong type, or panics: if no value it gives for the variable `n` counts more than `size n` bytes, dynamic expansion
looks at and copies at most 52 bytes per byte of the template and of the sizes of its variables. -/
theorem C97_linear (S : Spec) (dbg : Bool) (ctx : Tpl.DynCtx σ) (size : Str → Nat) (template : Str) (ns : List Str)
    (st : σ) (ht : Tpl.validate_template_str template = .ok ()) (hn : Tpl.variables template = some ns)
    (hb : ∀ n s, valueSize n (ctx.visit .expand n s).1 ≤ size n) :
    (Work.expand_dynamic S dbg ctx template st).2 ≤ 52 * (blen template + (ns.map size).sum) := by
  obtain ⟨t, ha, rfl⟩ := C32_cover template ht
  have hsm : SmallLengths t := by
    by_cases hs : SmallLengths t
    · exact hs
    · have := (C32_variables_partial t ha).2 hs; rw [hn] at this; cases this
  have hn' : ns = names t := by
    have := (C32_variables_partial t ha).1 hsm; rw [hn] at this; cases this; rfl
  subst hn'
  have h2 := Work.expandDynLoop_snd S dbg ctx hb (merge t) ((text t).length + 1) 0 (ctx.start st) (merge_chunked ha) (by
    rw [varsOf_merge]; exact (smallLengths_iff t).1 hsm)
  rw [text_merge, varsOf_merge] at h2
  have h3 : ((varsOf t).map fun v => size v.name).sum = ((names t).map size).sum := by
    rw [names_eq, List.map_map]
    rfl
  rw [h3] at h2
  unfold Work.expand_dynamic
  refine Nat.le_trans (Work.obind_le _ _ 0 fun _ _ => Nat.zero_le _) ?_
  omega

/-- A context that counts how often it is asked and answers with that many letters: a template of 10 bytes
with three uses of variables, answered with 1, 3 and 5 letters; 35 bytes looked at and copied. -/
example :
    let ctx : Tpl.DynCtx Nat := ⟨fun _ _ n => (.string [List.replicate (n % 8) 'x'], n + 1), id, id⟩
    (Work.expand_dynamic .uri true ctx (chars! "a{v}{?w,v}") 0).1.map (fun d => (d.out, d.state)) =
      some (chars! "ax?w=xxx&v=xxxxx", 6) ∧
    (Work.expand_dynamic .uri true ctx (chars! "a{v}{?w,v}") 0).2 = 35 ∧
    Tpl.variables (chars! "a{v}{?w,v}") = some [['v'], ['w'], ['v']] := by
  decide +kernel

end Verif
