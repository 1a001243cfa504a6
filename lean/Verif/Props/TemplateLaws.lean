import Verif.Spec.TemplateLaws
import Verif.Props.TemplateExact
import Verif.Props.TemplateRead

/-!
# C84: laws of template expressions
-/

namespace Verif

open Rfc6570 Tpl

namespace TemplateLaws

variable {S : Spec} {dbg : Bool}

/-- Pieces of the text of an expression. -/
noncomputable def parts (S : Spec) (dbg : Bool) (val : Str → Value) (o : OpRow) (vars : List Var) :
    Option (List Str) :=
  allSome ((vars.filter fun v => (flat (val v.name)).defined).map fun v => varExact S dbg o v (val v.name))

def assemble (o : OpRow) (l : List Str) : Str := if l = [] then [] else o.first ++ joinWith o.sep l

theorem expr_parts (val : Str → Value) (op : Option Char) (vars : List Var) :
    exprExact S dbg val op vars = (parts S dbg val (row op) vars).map (assemble (row op)) := by
  unfold exprExact parts
  congr 1
  funext l
  cases l <;> rfl

theorem allSome_append {α : Type} (a b : List (Option α)) :
    allSome (a ++ b) = (allSome a).bind fun x => (allSome b).map fun y => x ++ y := by
  induction a with
  | nil => simp [allSome]
  | cons x a ih =>
    cases x with
    | none => simp [allSome]
    | some x =>
      simp only [List.cons_append, allSome, Option.bind_some, ih]
      cases allSome a <;> simp
      cases allSome b <;> simp

theorem parts_append (val : Str → Value) (o : OpRow) (vs ws : List Var) :
    parts S dbg val o (vs ++ ws) =
      (parts S dbg val o vs).bind fun a => (parts S dbg val o ws).map fun b => a ++ b := by
  unfold parts
  rw [List.filter_append, List.map_append, allSome_append]

theorem allSome_nil {α : Type} {l : List (Option α)} (h : allSome l = some []) : l = [] := by
  cases l with
  | nil => rfl
  | cons x l =>
    cases x with
    | none => simp [allSome] at h
    | some x => simp [allSome] at h

theorem parts_nonempty {val : Str → Value} {o : OpRow} {vs : List Var} {a : List Str}
    (h : parts S dbg val o vs = some a) (hd : ∃ v ∈ vs, (flat (val v.name)).defined = true) : a ≠ [] := by
  rintro rfl
  have := allSome_nil h
  obtain ⟨v, hv, hd⟩ := hd
  rw [List.map_eq_nil_iff, List.filter_eq_nil_iff] at this
  exact this v hv hd

theorem parts_none {val : Str → Value} {o : OpRow} {vs : List Var}
    (hd : ∀ v ∈ vs, (flat (val v.name)).defined = false) : parts S dbg val o vs = some [] := by
  unfold parts
  have : vs.filter (fun v => (flat (val v.name)).defined) = [] := by
    rw [List.filter_eq_nil_iff]; intro v hv; rw [hd v hv]; simp
  rw [this]; rfl

theorem parts_first (val : Str → Value) (o : OpRow) (x : Str) (vs : List Var) :
    parts S dbg val { o with first := x } vs = parts S dbg val o vs := by
  unfold parts
  congr 2

/-- Joining the parts of two expressions. -/
theorem assemble_append {o o' : OpRow} {a b : List Str} (hs : o'.sep = o.sep)
    (h : (a = [] → o'.first = o.first) ∧ (a ≠ [] → b ≠ [] → o'.first = o.sep)) :
    assemble o (a ++ b) = assemble o a ++ assemble o' b := by
  unfold assemble
  by_cases ha : a = []
  · subst ha; simp [hs, h.1 rfl]
  · by_cases hb : b = []
    · subst hb; simp
    · rw [if_neg (by simp [ha]), if_neg ha, if_neg hb, joinWith_append ha hb, hs, h.2 ha hb]
      simp

/-! ### The type check -/

def pieceVars : Piece → List Var
  | .lit _ => []
  | .expr _ vars => vars

/-- The type check, positions aside. -/
def verdict (val : Str → Val) : List Var → Option Bool
  | [] => some true
  | v :: r => if v.tooLong then none else if v.misfits (val v.name) then some false else verdict val r

theorem checkAll_verdict (val : Str → Val) (l : List (Nat × Var)) :
    match verdict val (l.map Prod.snd) with
    | none => checkAll val l = .panic
    | some true => checkAll val l = .ok ()
    | some false => ∃ k, checkAll val l = .err .unexpectedValueType k := by
  induction l with
  | nil => rfl
  | cons x l ih =>
    obtain ⟨pos, v⟩ := x
    simp only [List.map_cons, verdict, checkAll]
    by_cases h1 : v.tooLong = true
    · simp [h1]
    · by_cases h2 : v.misfits (val v.name) = true
      · simp [h1, h2]
      · simp only [h1, h2, if_false, Bool.false_eq_true]; exact ih

theorem placeVars_snd (pos : Nat) (vs : List Var) : (placeVars pos vs).map Prod.snd = vs := by
  induction vs generalizing pos with
  | nil => rfl
  | cons v vs ih => simp [placeVars, ih]

theorem places_snd (pos : Nat) (t : List Piece) : (places pos t).map Prod.snd = t.flatMap pieceVars := by
  induction t generalizing pos with
  | nil => rfl
  | cons p t ih =>
    cases p with
    | lit s => simp [places, pieceVars, ih]
    | expr op vars => simp [places, pieceVars, ih, placeVars_snd]

theorem verdict_append (val : Str → Val) (a b : List Var) :
    verdict val (a ++ b) = (verdict val a).bind fun x => if x then verdict val b else some false := by
  induction a with
  | nil => simp [verdict]
  | cons v a ih =>
    simp only [List.cons_append, verdict]
    by_cases h1 : v.tooLong = true
    · simp [h1]
    · by_cases h2 : v.misfits (val v.name) = true
      · simp [h1, h2]
      · simp only [h1, h2, if_false, Bool.false_eq_true]; exact ih

/-- Templates with the same verdict of the type check and the same expansion have the same result. -/
theorem sameResult {ctx : Ctx} {t t' : List Piece} (ha : Accepted t) (ha' : Accepted t')
    (hv : verdict (fun n => flat (ctx .typecheck n)) (t.flatMap pieceVars) =
      verdict (fun n => flat (ctx .typecheck n)) (t'.flatMap pieceVars))
    (he : expansionExact S dbg (ctx .expand) t = expansionExact S dbg (ctx .expand) t') :
    SameResult (expand_to_string S dbg ctx (text t)) (expand_to_string S dbg ctx (text t')) := by
  rw [C33_exact S dbg ctx t ha, C33_exact S dbg ctx t' ha', he]
  have h := checkAll_verdict (fun n => flat (ctx .typecheck n)) (places 0 t)
  have h' := checkAll_verdict (fun n => flat (ctx .typecheck n)) (places 0 t')
  rw [places_snd] at h h'
  rw [← hv] at h'
  generalize verdict (fun n => flat (ctx .typecheck n)) (t.flatMap pieceVars) = w at h h'
  cases w with
  | none => simp only at h h'; rw [h, h']; exact ⟨fun _ => .rfl, .rfl, .rfl⟩
  | some b =>
    cases b with
    | true => simp only at h h'; rw [h, h']; exact ⟨fun _ => .rfl, .rfl, .rfl⟩
    | false =>
      simp only at h h'
      obtain ⟨k, h⟩ := h
      obtain ⟨k', h'⟩ := h'
      rw [h, h']
      refine ⟨fun _ => ?_, ?_, ?_⟩ <;> simp [Res.bind]

theorem exact_append (val : Str → Value) (a b : List Piece) :
    expansionExact S dbg val (a ++ b) = (expansionExact S dbg val a).bind fun x =>
      (expansionExact S dbg val b).map fun y => x ++ y := by
  unfold expansionExact
  rw [List.map_append, allSome_append]
  cases allSome (a.map (pieceExact S dbg val)) <;> simp
  cases allSome (b.map (pieceExact S dbg val)) <;> simp

theorem exact_mid (val : Str → Value) (pre post mid mid' : List Piece)
    (h : expansionExact S dbg val mid = expansionExact S dbg val mid') :
    expansionExact S dbg val (pre ++ (mid ++ post)) = expansionExact S dbg val (pre ++ (mid' ++ post)) := by
  rw [exact_append, exact_append, exact_append, exact_append, h]

theorem exact_expr (val : Str → Value) (op : Option Char) (vars : List Var) :
    expansionExact S dbg val [.expr op vars] = (parts S dbg val (row op) vars).map (assemble (row op)) := by
  rw [← expr_parts]
  unfold expansionExact
  simp only [List.map_cons, List.map_nil, allSome, pieceExact]
  cases exprExact S dbg val op vars <;> simp

theorem exact_lit (val : Str → Value) (s : Str) : expansionExact S dbg val [.lit s] = some s := by
  simp [expansionExact, allSome, pieceExact]

/-- The general splitting law. -/
theorem exact_split (val : Str → Value) (op op' : Option Char) (vs ws : List Var)
    (hr : row op' = { row op with first := (row op').first })
    (h : (row op').first = (row op).first ∧ (row op).first = (row op).sep ∨
      (∃ v ∈ vs, (flat (val v.name)).defined = true) ∧ (row op').first = (row op).sep) :
    expansionExact S dbg val [.expr op (vs ++ ws)] =
      expansionExact S dbg val ([.expr op vs] ++ [.expr op' ws]) := by
  have e : parts S dbg val (row op') ws = parts S dbg val (row op) ws := by rw [hr, parts_first]
  rw [exact_append, exact_expr, exact_expr, exact_expr, parts_append, e]
  cases h1 : parts S dbg val (row op) vs with
  | none => simp
  | some a =>
    cases h2 : parts S dbg val (row op) ws with
    | none => simp
    | some b =>
      simp only [Option.bind_some, Option.map_some, Option.some.injEq]
      refine assemble_append (by rw [hr]) ⟨fun ha => ?_, fun ha _ => ?_⟩
      · rcases h with ⟨h, -⟩ | ⟨hd, -⟩
        · exact h
        · exact absurd ha (parts_nonempty h1 hd)
      · rcases h with ⟨h, h'⟩ | ⟨-, h⟩
        · rw [h, h']
        · exact h

end TemplateLaws

open TemplateLaws

theorem accepted_mid {pre post mid mid' : List Piece} (h : Accepted (pre ++ (mid ++ post)))
    (hm : Accepted mid') : Accepted (pre ++ (mid' ++ post)) := by
  intro p hp
  simp only [List.mem_append] at hp
  rcases hp with hp | hp | hp
  · exact h p (by simp [hp])
  · exact hm p hp
  · exact h p (by simp [hp])

theorem accepted_expr {pre post : List Piece} {op : Option Char} {vars : List Var}
    (h : Accepted (pre ++ ([.expr op vars] ++ post))) :
    (∀ c, op = some c → isOp c = true) ∧ vars ≠ [] ∧ ∀ v ∈ vars, v.WF varnameX maxLengthX :=
  h (.expr op vars) (by simp)

/-- **C84**: `{/a,b}` is `{/a}{/b}`, and likewise for the operators `.`, `;` and `&`, whatever the values are:
an expression with one of these operators can be cut at any comma. -/
theorem C84_cut (S : Spec) (dbg : Bool) (ctx : Ctx) (pre post : List Piece) (op : Char)
    (hop : op ∈ ['.', '/', ';', '&']) (vs ws : List Var) (hv : vs ≠ []) (hw : ws ≠ [])
    (h : Accepted (pre ++ ([.expr (some op) (vs ++ ws)] ++ post))) :
    Accepted (pre ++ (([.expr (some op) vs] ++ [.expr (some op) ws]) ++ post)) ∧
    SameResult (expand_to_string S dbg ctx (text (pre ++ ([.expr (some op) (vs ++ ws)] ++ post))))
      (expand_to_string S dbg ctx
        (text (pre ++ (([.expr (some op) vs] ++ [.expr (some op) ws]) ++ post)))) := by
  obtain ⟨h1, h2, h3⟩ := accepted_expr h
  have ha := accepted_mid (mid' := [.expr (some op) vs] ++ [.expr (some op) ws]) h (by
    intro p hp
    simp only [List.cons_append, List.nil_append, List.mem_cons, List.not_mem_nil, or_false] at hp
    rcases hp with rfl | rfl
    · exact ⟨h1, hv, fun v hm => h3 v (by simp [hm])⟩
    · exact ⟨h1, hw, fun v hm => h3 v (by simp [hm])⟩)
  refine ⟨ha, sameResult h ha (by simp [pieceVars]) (exact_mid _ _ _ _ _ (exact_split _ _ _ _ _ rfl (.inl ⟨rfl, ?_⟩)))⟩
  simp only [List.mem_cons, List.not_mem_nil, or_false] at hop
  rcases hop with rfl | rfl | rfl | rfl <;> decide

/-- **C84**: `{?a,b}` is `{?a}{&b}`, provided that a variable before the cut is defined. -/
theorem C84_form_continuation (S : Spec) (dbg : Bool) (ctx : Ctx) (pre post : List Piece)
    (vs ws : List Var) (hw : ws ≠ []) (hd : ∃ v ∈ vs, Defined ctx v)
    (h : Accepted (pre ++ ([.expr (some '?') (vs ++ ws)] ++ post))) :
    Accepted (pre ++ (([.expr (some '?') vs] ++ [.expr (some '&') ws]) ++ post)) ∧
    SameResult (expand_to_string S dbg ctx (text (pre ++ ([.expr (some '?') (vs ++ ws)] ++ post))))
      (expand_to_string S dbg ctx
        (text (pre ++ (([.expr (some '?') vs] ++ [.expr (some '&') ws]) ++ post)))) := by
  obtain ⟨h1, h2, h3⟩ := accepted_expr h
  have hv : vs ≠ [] := by rintro rfl; obtain ⟨v, hv, -⟩ := hd; cases hv
  have ha := accepted_mid (mid' := [.expr (some '?') vs] ++ [.expr (some '&') ws]) h (by
    intro p hp
    simp only [List.cons_append, List.nil_append, List.mem_cons, List.not_mem_nil, or_false] at hp
    rcases hp with rfl | rfl
    · exact ⟨h1, hv, fun v hm => h3 v (by simp [hm])⟩
    · exact ⟨by rintro c ⟨⟩; decide, hw, fun v hm => h3 v (by simp [hm])⟩)
  exact ⟨ha, sameResult h ha (by simp [pieceVars])
    (exact_mid _ _ _ _ _ (exact_split _ _ _ _ _ rfl (.inr ⟨hd, by decide⟩)))⟩

theorem comma_accepted : Accepted [.lit [',']] := by
  intro p hp
  simp only [List.mem_cons, List.not_mem_nil, or_false] at hp
  subst hp
  exact .inl ⟨',', rfl, by decide⟩

/-- **C84**: `{a,b}` is `{a},{b}`, `{+a,b}` is `{+a},{+b}` and `{#a,b}` is `{#a},{+b}`, provided that there is a
defined variable on both sides of the cut. -/
theorem C84_cut_comma (S : Spec) (dbg : Bool) (ctx : Ctx) (pre post : List Piece) (op op' : Option Char)
    (hop : (op, op') ∈ [(none, none), (some '+', some '+'), (some '#', some '+')]) (vs ws : List Var)
    (hd : ∃ v ∈ vs, Defined ctx v) (hd' : ∃ v ∈ ws, Defined ctx v)
    (h : Accepted (pre ++ ([.expr op (vs ++ ws)] ++ post))) :
    Accepted (pre ++ (([.expr op vs] ++ ([.lit [',']] ++ [.expr op' ws])) ++ post)) ∧
    SameResult (expand_to_string S dbg ctx (text (pre ++ ([.expr op (vs ++ ws)] ++ post))))
      (expand_to_string S dbg ctx
        (text (pre ++ (([.expr op vs] ++ ([.lit [',']] ++ [.expr op' ws])) ++ post)))) := by
  obtain ⟨h1, h2, h3⟩ := accepted_expr h
  have hv : vs ≠ [] := by rintro rfl; obtain ⟨v, hv, -⟩ := hd; cases hv
  have hw : ws ≠ [] := by rintro rfl; obtain ⟨v, hv, -⟩ := hd'; cases hv
  have hr : row op' = { row op with first := (row op').first } ∧ (row op).sep = [','] ∧ (row op').first = [] ∧
      ∀ c, op' = some c → isOp c = true := by
    simp only [List.mem_cons, List.not_mem_nil, or_false, Prod.mk.injEq] at hop
    rcases hop with ⟨rfl, rfl⟩ | ⟨rfl, rfl⟩ | ⟨rfl, rfl⟩
    · exact ⟨rfl, rfl, rfl, by simp⟩
    · exact ⟨rfl, rfl, rfl, by rintro c ⟨⟩; decide⟩
    · exact ⟨rfl, rfl, rfl, by rintro c ⟨⟩; decide⟩
  obtain ⟨hr1, hr2, hr3, hr4⟩ := hr
  have ha := accepted_mid (mid' := [.expr op vs] ++ ([.lit [',']] ++ [.expr op' ws])) h (by
    intro p hp
    simp only [List.cons_append, List.nil_append, List.mem_cons, List.not_mem_nil, or_false] at hp
    rcases hp with rfl | rfl | rfl
    · exact ⟨h1, hv, fun v hm => h3 v (by simp [hm])⟩
    · exact comma_accepted _ (by simp)
    · exact ⟨hr4, hw, fun v hm => h3 v (by simp [hm])⟩)
  refine ⟨ha, sameResult h ha (by simp [pieceVars]) (exact_mid _ _ _ _ _ ?_)⟩
  have e : parts S dbg (ctx .expand) (row op') ws = parts S dbg (ctx .expand) (row op) ws := by
    rw [hr1, parts_first]
  rw [exact_append, exact_append, exact_expr, exact_expr, exact_expr, parts_append, e, exact_lit]
  cases p1 : parts S dbg (ctx .expand) (row op) vs with
  | none => simp
  | some a =>
    cases p2 : parts S dbg (ctx .expand) (row op) ws with
    | none => simp
    | some b =>
      have na := parts_nonempty p1 hd
      have nb := parts_nonempty p2 hd'
      have hs : (row op').sep = [','] := by rw [hr1]; exact hr2
      simp only [Option.bind_some, Option.map_some, Option.some.injEq, assemble]
      rw [if_neg (by simp [na]), if_neg na, if_neg nb, joinWith_append na nb, hr2, hs, hr3]
      simp

theorem verdict_drop (val : Str → Val) (a b : List Var) (v : Var) (h1 : v.tooLong = false)
    (h2 : (val v.name).defined = false) : verdict val (a ++ v :: b) = verdict val (a ++ b) := by
  have h3 : v.misfits (val v.name) = false := by
    unfold Var.misfits
    cases hv : val v.name <;> rw [hv] at h2 <;> simp_all [Val.defined]
  rw [verdict_append, verdict_append]
  congr 1
  funext x
  simp [verdict, h1, h3]

/-- **C84**: a variable that is undefined (and that does not have a prefix length of more than 65535, which
panics) can be left out of an expression that has others. -/
theorem C84_drop (S : Spec) (dbg : Bool) (ctx : Ctx) (pre post : List Piece) (op : Option Char)
    (vs ws : List Var) (v : Var) (hu : Undefined ctx v) (hl : v.tooLong = false) (hn : vs ++ ws ≠ [])
    (h : Accepted (pre ++ ([.expr op (vs ++ v :: ws)] ++ post))) :
    Accepted (pre ++ ([.expr op (vs ++ ws)] ++ post)) ∧
    SameResult (expand_to_string S dbg ctx (text (pre ++ ([.expr op (vs ++ v :: ws)] ++ post))))
      (expand_to_string S dbg ctx (text (pre ++ ([.expr op (vs ++ ws)] ++ post)))) := by
  obtain ⟨h1, h2, h3⟩ := accepted_expr h
  have ha := accepted_mid (mid' := [.expr op (vs ++ ws)]) h (by
    intro p hp
    simp only [List.mem_cons, List.not_mem_nil, or_false] at hp
    subst hp
    exact ⟨h1, hn, fun w hm => h3 w (by
      rcases List.mem_append.1 hm with hm | hm <;> simp [hm])⟩)
  refine ⟨ha, sameResult h ha ?_ (exact_mid _ _ _ _ _ ?_)⟩
  · have e := verdict_drop (fun n => flat (ctx .typecheck n)) (pre.flatMap pieceVars ++ vs)
      (ws ++ post.flatMap pieceVars) v hl (hu .typecheck)
    simpa [pieceVars] using e
  · rw [exact_expr, exact_expr, parts_append, parts_append]
    have : parts S dbg (ctx .expand) (row op) (v :: ws) = parts S dbg (ctx .expand) (row op) ws := by
      unfold parts
      rw [List.filter_cons_of_neg (by rw [hu .expand]; simp)]
    rw [this]

/-- **C84**: an expression all of whose variables are undefined can be left out. -/
theorem C84_drop_expression (S : Spec) (dbg : Bool) (ctx : Ctx) (pre post : List Piece) (op : Option Char)
    (vs : List Var) (hu : ∀ v ∈ vs, Undefined ctx v ∧ v.tooLong = false)
    (h : Accepted (pre ++ ([.expr op vs] ++ post))) :
    Accepted (pre ++ post) ∧
    SameResult (expand_to_string S dbg ctx (text (pre ++ ([.expr op vs] ++ post))))
      (expand_to_string S dbg ctx (text (pre ++ post))) := by
  have ha : Accepted (pre ++ post) := fun p hp => h p (by
    rcases List.mem_append.1 hp with hp | hp <;> simp [hp])
  refine ⟨ha, sameResult h ha ?_ ?_⟩
  · have key : ∀ (vs : List Var) (a b : List Var), (∀ v ∈ vs, Undefined ctx v ∧ v.tooLong = false) →
        verdict (fun n => flat (ctx .typecheck n)) (a ++ (vs ++ b)) =
          verdict (fun n => flat (ctx .typecheck n)) (a ++ b) := by
      intro vs
      induction vs with
      | nil => intro a b _; rfl
      | cons v vs ih =>
        intro a b hv
        obtain ⟨h1, h2⟩ := hv v (by simp)
        rw [List.cons_append, verdict_drop _ _ _ _ h2 (h1 .typecheck)]
        exact ih a b fun w hw => hv w (by simp [hw])
    have := key vs (pre.flatMap pieceVars) (post.flatMap pieceVars) hu
    simpa [pieceVars] using this
  · have := exact_mid (S := S) (dbg := dbg) (ctx .expand) pre post [.expr op vs] [] (by
      rw [exact_expr, parts_none fun v hv => (hu v hv).1 .expand]
      rfl)
    exact this

/-! ### Concrete cases -/

/-- `a` is a string, `k` an associative array, `l` a list; everything else is undefined. -/
def lawCtx : Ctx := fun _ n =>
  if n = ['a'] then .string [chars! "x/y"]
  else if n = ['k'] then .assoc [([['p']], [['1']]), ([['q']], [['2']])]
  else if n = ['l'] then .list [[['1']], [['2']]]
  else .undefined

def lawVar (c : Char) : Var := ⟨[c], .none⟩

theorem lawVar_wf {c : Char} (h : varcharPlain c = true) : (lawVar c).WF varnameX maxLengthX :=
  ⟨⟨[c], [], rfl, .inl ⟨c, rfl, h⟩, 0, rfl⟩, trivial⟩

example : Accepted ([.lit ['/']] ++ ([.expr (some '?') ([lawVar 'a'] ++ [lawVar 'u', lawVar 'l'])] ++ [])) ∧
    text ([.lit ['/']] ++ ([.expr (some '?') ([lawVar 'a'] ++ [lawVar 'u', lawVar 'l'])] ++ [])) =
      chars! "/{?a,u,l}" ∧
    text ([.lit ['/']] ++ (([.expr (some '?') [lawVar 'a']] ++ [.expr (some '&') [lawVar 'u', lawVar 'l']]) ++ [])) =
      chars! "/{?a}{&u,l}" ∧ Defined lawCtx (lawVar 'a') ∧ Undefined lawCtx (lawVar 'u') ∧
    (lawVar 'u').tooLong = false := by
  refine ⟨?_, by decide +kernel, by decide +kernel, by unfold Defined; decide +kernel, fun p => by cases p <;> decide +kernel,
    by decide +kernel⟩
  intro p hp
  simp only [List.cons_append, List.nil_append, List.mem_cons, List.not_mem_nil, or_false] at hp
  rcases hp with rfl | rfl
  · exact .inl ⟨'/', rfl, by decide⟩
  · refine ⟨by rintro c ⟨⟩; decide, by simp, fun v hv => ?_⟩
    simp only [List.mem_cons, List.not_mem_nil, or_false] at hv
    rcases hv with rfl | rfl | rfl <;> exact lawVar_wf (by decide)

example : expand_to_string .uri true lawCtx (chars! "/{?a,u,l}") = .ok (chars! "/?a=x%2Fy&l=1,2") ∧
    expand_to_string .uri true lawCtx (chars! "/{?a}{&u,l}") = .ok (chars! "/?a=x%2Fy&l=1,2") ∧
    expand_to_string .uri true lawCtx (chars! "/{?a,l}") = .ok (chars! "/?a=x%2Fy&l=1,2") ∧
    expand_to_string .uri true lawCtx (chars! "{/k*,a}") = .ok (chars! "/p=1/q=2/x%2Fy") ∧
    expand_to_string .uri true lawCtx (chars! "{/k*}{/a}") = .ok (chars! "/p=1/q=2/x%2Fy") ∧
    expand_to_string .uri true lawCtx (chars! "{#a,l*}") = .ok (chars! "#x/y,1,2") ∧
    expand_to_string .uri true lawCtx (chars! "{#a},{+l*}") = .ok (chars! "#x/y,1,2") ∧
    expand_to_string .uri true lawCtx (chars! "x{?u,v}y") = .ok (chars! "xy") := by decide +kernel

/-- The conditions of the laws are needed: with an undefined variable before the cut `{?u,a}` is not
`{?u}{&a}`, and with one on either side `{u,a}` is not `{u},{a}`. -/
theorem C84_conditions_needed :
    ¬ SameResult (expand_to_string .uri true lawCtx (chars! "{?u,a}"))
      (expand_to_string .uri true lawCtx (chars! "{?u}{&a}")) ∧
    ¬ SameResult (expand_to_string .uri true lawCtx (chars! "{u,a}"))
      (expand_to_string .uri true lawCtx (chars! "{u},{a}")) ∧
    ¬ SameResult (expand_to_string .uri true lawCtx (chars! "{a,u}"))
      (expand_to_string .uri true lawCtx (chars! "{a},{u}")) := by
  have e1 : expand_to_string .uri true lawCtx (chars! "{?u,a}") = .ok (chars! "?a=x%2Fy") := by decide +kernel
  have e2 : expand_to_string .uri true lawCtx (chars! "{?u}{&a}") = .ok (chars! "&a=x%2Fy") := by decide +kernel
  have e3 : expand_to_string .uri true lawCtx (chars! "{u,a}") = .ok (chars! "x%2Fy") := by decide +kernel
  have e4 : expand_to_string .uri true lawCtx (chars! "{u},{a}") = .ok (chars! ",x%2Fy") := by decide +kernel
  have e5 : expand_to_string .uri true lawCtx (chars! "{a,u}") = .ok (chars! "x%2Fy") := by decide +kernel
  have e6 : expand_to_string .uri true lawCtx (chars! "{a},{u}") = .ok (chars! "x%2Fy,") := by decide +kernel
  rw [e1, e2, e3, e4, e5, e6]
  refine ⟨fun h => ?_, fun h => ?_, fun h => ?_⟩
  all_goals
    have := (h.text _).1 rfl
    revert this
    decide

end Verif
