import Verif.Lemmas.TemplateCode
import Verif.Props.TemplateWriter

/-!
# C62: contexts as code

The other theorems about templates take a context as a map to values.  Here it is arbitrary code that calls
the methods of the visitor and can look at what they return.  `denote` is the map to values that the code
amounts to when nothing fails.
-/

namespace Verif.Tpl

variable {σ α τ : Type}

/-! ## The type check -/

theorem SeqCode.runType_items (c : SeqCode σ α false) (h : c.ReturnsBreak) :
    c.runType.1 = !c.items.1.isEmpty := by
  cases c with
  | finish st => rfl
  | item v k br =>
    obtain ⟨⟨st, rfl⟩, _⟩ := h
    rfl

theorem Code.runType_value (c : Code σ) (h : c.ReturnsBreak) : c.runType.1 = typeOf c.value := by
  cases c with
  | undefined st => rfl
  | string v st => rfl
  | list c =>
    simp only [Code.runType, Code.value, c.runType_items h]
    cases c.items.1 <;> rfl
  | assoc c =>
    simp only [Code.runType, Code.value, c.runType_items h]
    cases c.items.1 <;> rfl

/-! ## Dynamic contexts -/

/-- The same outcome, except perhaps for the state of the context if a write has failed. -/
inductive SameOutcome : Option (DynOutW τ σ α) → Option (DynOutW τ σ α) → Prop
  | panic : SameOutcome none none
  | ends (d : DynOutW τ σ α) : SameOutcome (some d) (some d)
  | failed (pos : Nat) (t : τ) (st st' : σ) :
      SameOutcome (some ⟨.error (.writeFailed, pos), t, st⟩) (some ⟨.error (.writeFailed, pos), t, st'⟩)

/-- Both theorems at once: `may` says whether a write may fail. -/
inductive Same (may : Prop) : Option (DynOutW τ σ α) → Option (DynOutW τ σ α) → Prop
  | panic : Same may none none
  | ends (d : DynOutW τ σ α) : Same may (some d) (some d)
  | failed (h : may) (pos : Nat) (t : τ) (st st' : σ) :
      Same may (some ⟨.error (.writeFailed, pos), t, st⟩) (some ⟨.error (.writeFailed, pos), t, st'⟩)

/-- What is asked of the code of a context. -/
def Rule (w : Writer τ) (ctx : CodeCtx σ) : Prop :=
  (∀ n st, (ctx.visit .typecheck n st).ReturnsBreak) ∧
    ((∀ n st, (ctx.visit .expand n st).ReturnsBreak) ∨ NeverFails w)

theorem visitValue_neverFails {S : Spec} {hex : Nat → List Str} (hh : HexOk hex) {dbg : Bool}
    {w : Writer τ} (h : NeverFails w) {op : Operator} {spec : VarSpec} {first : Bool} {t t' : τ} (v : Value) :
    visitValueW S hex dbg w op spec first t v ≠ some (t', false) := by
  cases v with
  | undefined => simp [visitValueW, okW]
  | string v => exact sim_true (visitString_sim (neverFails_tracks h) hh dbg op spec first t v) t'
  | list l => exact sim_true (visitItems_sim (neverFails_tracks h) hh dbg op spec first 0 t l) t'
  | assoc l => exact sim_true (visitEntries_sim (neverFails_tracks h) hh dbg op spec first 0 t l) t'

theorem vars_code {S : Spec} {hex : Nat → List Str} (hh : HexOk hex) {dbg : Bool} {w : Writer τ}
    {ctx : CodeCtx σ} (hc : Rule w ctx) (op : Operator) (fuel : Nat)
    (first : Bool) (pos : Nat) (vl : Str) (t : τ) (st : σ) :
    Same (¬ NeverFails w) (expandVarsCode S hex dbg w ctx op fuel first pos vl t st)
      (expandVarsMutW S hex dbg w ctx.denote op fuel first pos vl t st) := by
  induction fuel generalizing first pos vl t st with
  | zero => exact .panic
  | succ n ih =>
    rw [expandVarsCode, expandVarsMutW]
    cases hv : varListNext vl with
    | none => exact .panic
    | some o =>
      cases o with
      | none => exact .ends _
      | some x =>
        obtain ⟨⟨len, spec⟩, rest⟩ := x
        have e1 := Code.runType_value _ (hc.1 spec.name st)
        have e2 : (ctx.denote.visit .typecheck spec.name st) =
          ((ctx.visit .typecheck spec.name st).value, (ctx.visit .typecheck spec.name st).runType.2) := rfl
        simp only [e2, ← e1]
        by_cases hb : badType spec.modifier (ctx.visit .typecheck spec.name st).runType.1 = true
        · rw [if_pos hb, if_pos hb]; exact .ends _
        · rw [if_neg hb, if_neg hb]
          generalize (ctx.visit .typecheck spec.name st).runType.2 = st1
          have e3 : (ctx.denote.visit .expand spec.name st1) =
            ((ctx.visit .expand spec.name st1).value, (ctx.visit .expand spec.name st1).endState) := rfl
          rw [e3]
          have ha := code_agrees (S := S) hh (dbg := dbg) (w := w) (op := op) (spec := spec)
            (first := first) (t := t) (ctx.visit .expand spec.name st1) (hc.2.imp (fun h => h _ _) id)
          cases hr : visitValueW S hex dbg w op spec first t (ctx.visit .expand spec.name st1).value with
          | none =>
            rw [hr] at ha
            have ha : _ = none := ha
            rw [ha]; exact .panic
          | some o =>
            obtain ⟨t', b⟩ := o
            rw [hr] at ha
            cases b with
            | false =>
              obtain ⟨f, st', ha⟩ := ha
              rw [ha]; exact .failed (fun h => visitValue_neverFails hh h _ hr) _ _ _ _
            | true =>
              have ha : _ = some _ := ha
              rw [ha]
              exact ih _ _ _ _ _

theorem expr_code {S : Spec} {hex : Nat → List Str} (hh : HexOk hex) {dbg : Bool} {w : Writer τ}
    {ctx : CodeCtx σ} (hc : Rule w ctx) (pos : Nat) (body : Str) (t : τ) (st : σ) :
    Same (¬ NeverFails w) (expandExprCode S hex dbg w ctx pos body t st)
      (expandExprMutW S hex dbg w ctx.denote pos body t st) := by
  unfold expandExprCode expandExprMutW
  cases decompose body with
  | none => exact .panic
  | some x =>
    obtain ⟨op, vl⟩ := x
    simp only
    have := vars_code (S := S) hh (dbg := dbg) (w := w) hc op (vl.length + 1) true (pos + (op.len + 1)) vl t st
    generalize expandVarsCode S hex dbg w ctx op (vl.length + 1) true (pos + (op.len + 1)) vl t st = a at this
    generalize expandVarsMutW S hex dbg w ctx.denote op (vl.length + 1) true (pos + (op.len + 1)) vl t st = b
      at this
    cases this with
    | panic => exact .panic
    | failed h => exact .failed h _ _ _ _
    | ends d =>
      obtain ⟨r, t', st'⟩ := d
      cases r with
      | error e => exact .ends _
      | ok p =>
        simp only
        split
        · exact .ends _
        · exact .panic

theorem loop_code {S : Spec} {hex : Nat → List Str} (hh : HexOk hex) {dbg : Bool} {w : Writer τ}
    {ctx : CodeCtx σ} (hc : Rule w ctx) (fuel pos : Nat) (s : Str) (t : τ) (st : σ) :
    Same (¬ NeverFails w) (expandLoopCode S hex dbg w ctx fuel pos s t st)
      (expandDynLoopW S hex dbg w ctx.denote fuel pos s t st) := by
  induction fuel generalizing pos s t st with
  | zero => exact .panic
  | succ n ih =>
    rw [expandLoopCode, expandDynLoopW]
    cases chunksNext s with
    | none => exact .panic
    | some o =>
      cases o with
      | none => exact .ends _
      | some x =>
        obtain ⟨c, rest⟩ := x
        cases c with
        | literal lit =>
          simp only
          cases w t lit with
          | none => exact .panic
          | some o =>
            obtain ⟨t', b⟩ := o
            cases b
            · exact .ends _
            · exact ih _ _ _ _
        | expr body =>
          simp only
          have := expr_code (S := S) hh (dbg := dbg) (w := w) hc pos body t st
          generalize expandExprCode S hex dbg w ctx pos body t st = a at this
          generalize expandExprMutW S hex dbg w ctx.denote pos body t st = b at this
          cases this with
          | panic => exact .panic
          | failed h => exact .failed h _ _ _ _
          | ends d =>
            obtain ⟨r, t', st'⟩ := d
            cases r with
            | error e => exact .ends _
            | ok p => exact ih _ _ _ _

theorem dynamic_code {S : Spec} {hex : Nat → List Str} (hh : HexOk hex) {dbg : Bool} {w : Writer τ}
    {ctx : CodeCtx σ} (hc : Rule w ctx) (template : Str) (t : τ) (st : σ) :
    Same (¬ NeverFails w) (expand_dynamic_code S hex dbg w ctx template t st)
      (expand_dynamic_into S hex dbg w ctx.denote template t st) := by
  unfold expand_dynamic_code expand_dynamic_into
  have e1 : ctx.denote.start = ctx.start := rfl
  have e2 : ctx.denote.finish = ctx.finish := rfl
  have := loop_code (S := S) hh (dbg := dbg) (w := w) hc (template.length + 1) 0 template t (ctx.start st)
  rw [e1, e2]
  generalize expandLoopCode S hex dbg w ctx (template.length + 1) 0 template t (ctx.start st) = a at this
  generalize expandDynLoopW S hex dbg w ctx.denote (template.length + 1) 0 template t (ctx.start st) = b
    at this
  cases this with
  | panic => exact .panic
  | ends d => exact .ends _
  | failed h => exact .failed h _ _ _ _

/-! ## Static contexts -/

theorem typecheckVars_code {ctx : StaticCode} (hc : ∀ n, (ctx .typecheck n).ReturnsBreak) (fuel pos : Nat)
    (vl : Str) : typecheckVarsCode ctx fuel pos vl = typecheckVars ctx.denote fuel pos vl := by
  induction fuel generalizing pos vl with
  | zero => rfl
  | succ n ih =>
    rw [typecheckVarsCode, typecheckVars]
    cases varListNext vl with
    | none => rfl
    | some o =>
      cases o with
      | none => rfl
      | some x =>
        obtain ⟨⟨len, spec⟩, rest⟩ := x
        simp only [Code.runType_value _ (hc spec.name), ih]
        rfl

theorem typecheck_code {ctx : StaticCode} (hc : ∀ n, (ctx .typecheck n).ReturnsBreak) (fuel pos : Nat)
    (s : Str) : typecheckCode ctx fuel pos s = typecheck ctx.denote fuel pos s := by
  induction fuel generalizing pos s with
  | zero => rfl
  | succ n ih =>
    rw [typecheckCode, typecheck]
    cases chunksNext s with
    | none => rfl
    | some o =>
      cases o with
      | none => rfl
      | some x =>
        obtain ⟨c, rest⟩ := x
        cases c with
        | literal lit => exact ih _ _
        | expr body =>
          simp only [typecheckExpr]
          cases decompose body with
          | none => rfl
          | some y =>
            obtain ⟨op, vl⟩ := y
            simp only [typecheckVars_code hc]
            cases typecheckVars ctx.denote (vl.length + 1) (pos + (op.len + 1)) vl with
            | panic => rfl
            | err k l => rfl
            | ok p =>
              simp only [Res.bind]
              split
              · exact ih _ _
              · rfl

theorem displayVars_code {S : Spec} {hex : Nat → List Str} (hh : HexOk hex) {dbg : Bool} {w : Writer τ}
    {ctx : StaticCode} (hc : (∀ p n, (ctx p n).ReturnsBreak) ∨ NeverFails w) (op : Operator) (fuel : Nat)
    (first : Bool) (t : τ) (vl : Str) :
    displayVarsCode S hex dbg w ctx op fuel first t vl =
      expandVarsW S hex dbg w ctx.denote op fuel first t vl := by
  induction fuel generalizing first t vl with
  | zero => rfl
  | succ n ih =>
    rw [displayVarsCode, expandVarsW]
    cases varListNext vl with
    | none => rfl
    | some o =>
      cases o with
      | none => rfl
      | some x =>
        obtain ⟨⟨len, spec⟩, rest⟩ := x
        have ha := code_agrees (S := S) hh (dbg := dbg) (w := w) (op := op) (spec := spec)
            (first := first) (t := t) (ctx .expand spec.name) (hc.imp (fun h => h _ _) id)
        simp only [StaticCode.denote]
        cases hr : visitValueW S hex dbg w op spec first t (ctx .expand spec.name).value with
        | none =>
          rw [hr] at ha
          have ha : _ = none := ha
          rw [ha]; rfl
        | some o =>
          obtain ⟨t', b⟩ := o
          rw [hr] at ha
          cases b with
          | false =>
            obtain ⟨f, st', ha⟩ := ha
            rw [ha]; rfl
          | true =>
            have ha : _ = some _ := ha
            rw [ha]
            exact ih _ _ _

theorem display_code {S : Spec} {hex : Nat → List Str} (hh : HexOk hex) {dbg : Bool} {w : Writer τ}
    {ctx : StaticCode} (hc : (∀ p n, (ctx p n).ReturnsBreak) ∨ NeverFails w) (fuel : Nat)
    (t : τ) (s : Str) :
    displayCode S hex dbg w ctx fuel t s = displayExpandedW S hex dbg w ctx.denote fuel t s := by
  induction fuel generalizing t s with
  | zero => rfl
  | succ n ih =>
    rw [displayCode, displayExpandedW]
    cases chunksNext s with
    | none => rfl
    | some o =>
      cases o with
      | none => rfl
      | some x =>
        obtain ⟨c, rest⟩ := x
        cases c with
        | literal lit => simp only [ih]
        | expr body =>
          simp only
          cases decompose body with
          | none => rfl
          | some y =>
            obtain ⟨op, vl⟩ := y
            simp only [displayVars_code hh hc, ih]

/-! ## The theorems -/

/-- A dynamic expansion, for every context whose code keeps the documented rule, with any state, every
template and every writer: the result and what the writer gets are those for the values that the code
denotes; so is the state of the context, unless a write has failed. -/
theorem _root_.Verif.C62_dynamic (S : Spec) (hex : Nat → List Str) (hh : HexOk hex) (dbg : Bool)
    (w : Writer τ) (ctx : CodeCtx σ) (hc : ∀ p n st, (ctx.visit p n st).ReturnsBreak) (template : Str)
    (t : τ) (st : σ) :
    SameOutcome (expand_dynamic_code S hex dbg w ctx template t st)
      (expand_dynamic_into S hex dbg w ctx.denote template t st) := by
  have := dynamic_code (S := S) hh (dbg := dbg) (w := w) ⟨fun n st => hc _ n st, .inl fun n st => hc _ n st⟩
    template t st
  generalize expand_dynamic_code S hex dbg w ctx template t st = a at this ⊢
  generalize expand_dynamic_into S hex dbg w ctx.denote template t st = b at this ⊢
  cases this with
  | panic => exact .panic
  | ends d => exact .ends _
  | failed h => exact .failed _ _ _ _

/-- A static expansion: the code of a context that keeps the rule can be replaced by its values. -/
theorem _root_.Verif.C62_static (S : Spec) (hex : Nat → List Str) (hh : HexOk hex) (dbg : Bool)
    (w : Writer τ) (ctx : StaticCode) (hc : ∀ p n, (ctx p n).ReturnsBreak) (template : Str) (t : τ) :
    expand_and_write_code S hex dbg w ctx template t =
      expand_and_write S hex dbg w ctx.denote template t := by
  unfold expand_and_write_code expand_and_write
  rw [typecheck_code (hc _), display_code hh (.inl hc)]
  cases typecheck ctx.denote (template.length + 1) 0 template <;> rfl

/-- With a writer that accepts everything, such as a `String`, the rule matters only for the type check: the
code for the expansion may do what it wants, and nothing changes, the state of the context included. -/
theorem _root_.Verif.C62_infallible (S : Spec) (hex : Nat → List Str) (hh : HexOk hex) (dbg : Bool)
    (w : Writer τ) (hw : NeverFails w) (template : Str) (t : τ) :
    (∀ (ctx : CodeCtx σ) (st : σ), (∀ n st, (ctx.visit .typecheck n st).ReturnsBreak) →
      expand_dynamic_code S hex dbg w ctx template t st =
        expand_dynamic_into S hex dbg w ctx.denote template t st) ∧
    (∀ ctx : StaticCode, (∀ n, (ctx .typecheck n).ReturnsBreak) →
      expand_and_write_code S hex dbg w ctx template t =
        expand_and_write S hex dbg w ctx.denote template t) := by
  constructor
  · intro ctx st hc
    have := dynamic_code (S := S) hh (dbg := dbg) (w := w) ⟨hc, .inr hw⟩ template t st
    generalize expand_dynamic_code S hex dbg w ctx template t st = a at this ⊢
    generalize expand_dynamic_into S hex dbg w ctx.denote template t st = b at this ⊢
    cases this with
    | panic => rfl
    | ends d => rfl
    | failed h => exact absurd hw h
  · intro ctx hc
    unfold expand_and_write_code expand_and_write
    rw [typecheck_code hc, display_code hh (.inr hw)]
    cases typecheck ctx.denote (template.length + 1) 0 template <;> rfl

/-- The helpers of the crate that visit a whole list or array keep the rule, and hand over exactly the items
of the iterator, from the first to the last; a type check takes one item from the iterator, and an
expansion all of them. -/
theorem _root_.Verif.C62_visit_all (st : Nat → σ) (l : List α) :
    (visit_all (b := false) st 0 l).ReturnsBreak ∧
    (visit_all (b := false) st 0 l).items = (l, st l.length) ∧
    (visit_all (b := false) st 0 l).runType = (!l.isEmpty, st (min l.length 1)) := by
  have h : ∀ n, (visit_all (b := false) st n l).ReturnsBreak ∧
      (visit_all (b := false) st n l).items = (l, st (n + l.length)) := by
    induction l with
    | nil => intro n; exact ⟨trivial, rfl⟩
    | cons v r ih =>
      intro n
      obtain ⟨h1, h2⟩ := ih (n + 1)
      refine ⟨⟨⟨_, rfl⟩, h1⟩, ?_⟩
      simp only [visit_all, SeqCode.items, h2, List.length_cons]
      congr 2
      omega
  refine ⟨(h 0).1, by have := (h 0).2; rwa [Nat.zero_add] at this, ?_⟩
  cases l with
  | nil => rfl
  | cons v r => simp [visit_all, SeqCode.runType]

/-! ## A context that keeps the rule, and two that do not -/

/-- Pairs from an iterator, with a count of the items taken; a list whose code stops by itself. -/
def exampleCode : CodeCtx Nat where
  visit := fun _ n st =>
    if n = chars! "a" then .assoc (visit_all (fun k => st + k) 0
      [([chars! "k"], [chars! "v"]), ([chars! "l"], [chars! "w"])])
    else if n = chars! "l" then .list (.item [chars! "x"] (.item [chars! "y z"] (.finish (st + 2))
      (.ret (st + 2))) (.ret (st + 1)))
    else .undefined st
  start := id
  finish := id

/-- Code that ignores the `Break` of the visitor. -/
def ignoring : Purpose → Str → Code Unit := fun _ _ => .list (.item [chars! "x"] (.finish ()) (.finish ()))

/-- The hypotheses of the theorems are met by `exampleCode`. -/
theorem exampleCode_rule (p : Purpose) (n : Str) (st : Nat) : (exampleCode.visit p n st).ReturnsBreak := by
  simp only [exampleCode]
  split
  · exact (C62_visit_all _ _).1
  · split
    · exact ⟨⟨_, rfl⟩, ⟨_, rfl⟩, trivial⟩
    · trivial

/-- The three parts of an outcome. -/
def parts (o : Option (DynOutW τ σ Unit)) : Option ((Option (ErrorKind × Nat)) × τ × σ) :=
  o.map fun d => (match d.result with | .ok _ => none | .error e => some e, d.writer, d.state)

/-- With a writer that accepts everything: 3 items of `a` are taken and 3 of `l`. -/
example : parts (expand_dynamic_code .uri (fun b => [writePct b]) false (sink fun _ => true) exampleCode
    (chars! "/{?a*}{/l}") [] 0) =
    some (none, [chars! "/", chars! "?", chars! "k", chars! "=", chars! "v", chars! "&", chars! "l",
      chars! "=", chars! "w", chars! "/", chars! "x", chars! ",", chars! "y", chars! "%20", chars! "z"], 6) := by
  decide +kernel

/-- With one that refuses the ninth call: the error arises in the second entry of `a`. -/
example : parts (expand_dynamic_code .uri (fun b => [writePct b]) false (sink fun c => c.length < 9)
    exampleCode (chars! "/{?a*}{/l}") [] 0) =
    some (some (.writeFailed, 3), [chars! "/", chars! "?", chars! "k", chars! "=", chars! "v", chars! "&",
      chars! "l", chars! "=", chars! "w"], 3) := by decide +kernel

theorem neverFails_sink : NeverFails (sink fun _ => true) := fun t s => ⟨t ++ [s], rfl⟩

/-- The rule is needed.  Of a context that goes on after a `Break` in spite of the documentation, a nonempty
list passes the type check as undefined; a prefix modifier then leads to a panic where the value leads to
an "unexpected value type" error, and the error of a writer is lost where the value leads to a "write
failed" error. -/
theorem _root_.Verif.C62_rule_needed :
    ((ignoring .typecheck (chars! "x")).runType.1 = .undefined ∧
      typeOf ((StaticCode.denote ignoring) .typecheck (chars! "x")) = .list) ∧
    (expand_and_write_code .uri (fun b => [writePct b]) false (sink fun _ => true) ignoring
        (chars! "{x:3}") [] = .panic ∧
      expand_and_write .uri (fun b => [writePct b]) false (sink fun _ => true) (StaticCode.denote ignoring)
        (chars! "{x:3}") [] = .err .unexpectedValueType 1) ∧
    (expand_and_write_code .uri (fun b => [writePct b]) false (sink fun _ => false) ignoring
        (chars! "{x}") [] = .ok ([[]], true) ∧
      expand_and_write .uri (fun b => [writePct b]) false (sink fun _ => false) (StaticCode.denote ignoring)
        (chars! "{x}") [] = .ok ([[]], false)) := by
  refine ⟨⟨?_, ?_⟩, ⟨?_, ?_⟩, ?_, ?_⟩ <;> decide +kernel

end Verif.Tpl
