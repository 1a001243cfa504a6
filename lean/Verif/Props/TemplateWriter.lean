import Verif.Spec.Writer
import Verif.Lemmas.TemplateWriterPos
import Verif.Props.TemplateSafe

/-!
# C54: expansion of a template into a writer that may fail

The writer is an adversary (`sink ok`): it sees every call and accepts it or not.  `hex` is any way in
which the standard library can split the three characters of a triplet into calls.
-/

namespace Verif

open Verif.Abnf Verif.Rfc Verif.Rfc6570 Verif.Tpl

theorem wrote_nil_true {ok : List Str → Bool} {x : Str} {calls : List Str}
    (h : Wrote ok [] x calls true) : AllAccepted ok calls ∧ calls.flatten = x := by
  obtain ⟨ps, e, h1, h2, _⟩ := h
  simp only [List.nil_append] at e h1
  subst e
  exact ⟨fun xs ys e hx => h1 xs ys e hx (.inr trivial), h2 rfl⟩

theorem wrote_nil_false {ok : List Str → Bool} {x : Str} {calls : List Str}
    (h : Wrote ok [] x calls false) : LastFailed ok calls ∧ calls.flatten <+: x := by
  obtain ⟨ps, e, h1, _, h3⟩ := h
  simp only [List.nil_append] at e h1
  subst e
  obtain ⟨g1, g2, g3⟩ := h3 rfl
  exact ⟨⟨fun xs ys e hx hy => h1 xs ys e hx (.inl hy), g1, g2⟩, g3⟩

/-- A dynamic expansion, for every template, every context with any state, and every writer: if the
expansion into a `String` ends (well or with a type error), then either no call of the writer fails, and
the writer has been given exactly the text that the `String` gets, with the same result and the same
effect on the context; or the last call failed, the writer has been given a beginning of that text, and
the result is a "write failed" error. -/
theorem C54_dynamic {σ : Type} (S : Spec) (hex : Nat → List Str) (hh : HexOk hex) (dbg : Bool)
    (ok : List Str → Bool) (ctx : DynCtx σ) (template : Str) (st : σ) (d : DynOut σ Unit)
    (h : expand_dynamic S dbg ctx template st = some d) :
    ∃ o, expand_dynamic_into S hex dbg (sink ok) ctx template [] st = some o ∧
      ((AllAccepted ok o.writer ∧ o.writer.flatten = d.out ∧ o.result = d.result ∧
          o.state = d.state) ∨
        (LastFailed ok o.writer ∧ o.writer.flatten <+: d.out ∧
          ∃ pos, o.result = .error (.writeFailed, pos))) := by
  have hs := expandDynLoop_sim (S := S) (sink_tracks ok) hh dbg ctx (template.length + 1) 0 template []
    (ctx.start st)
  unfold expand_dynamic at h
  rw [Option.map_eq_some_iff] at h
  obtain ⟨d', h, rfl⟩ := h
  rw [h] at hs
  unfold expand_dynamic_into
  obtain ⟨o, e, h1 | h1⟩ := hs
  · rw [e]
    obtain ⟨g1, g2, g3⟩ := h1
    obtain ⟨g4, g5⟩ := wrote_nil_true g3
    exact ⟨_, rfl, .inl ⟨g4, g5, g1, by simp only [g2]⟩⟩
  · rw [e]
    obtain ⟨g1, g2⟩ := h1
    obtain ⟨g3, g4⟩ := wrote_nil_false g2
    exact ⟨_, rfl, .inr ⟨g3, g4, g1⟩⟩

/-- If the expansion into a `String` panics, the expansion into a writer panics too or stops with an
error of the writer before. -/
theorem C54_dynamic_panic {σ : Type} (S : Spec) (hex : Nat → List Str) (hh : HexOk hex) (dbg : Bool)
    (ok : List Str → Bool) (ctx : DynCtx σ) (template : Str) (st : σ)
    (h : expand_dynamic S dbg ctx template st = none) :
    expand_dynamic_into S hex dbg (sink ok) ctx template [] st = none ∨
      ∃ o, expand_dynamic_into S hex dbg (sink ok) ctx template [] st = some o ∧
        LastFailed ok o.writer ∧ ∃ pos, o.result = .error (.writeFailed, pos) := by
  have hs := expandDynLoop_sim (S := S) (sink_tracks ok) hh dbg ctx (template.length + 1) 0 template []
    (ctx.start st)
  unfold expand_dynamic at h
  rw [Option.map_eq_none_iff] at h
  rw [h] at hs
  unfold expand_dynamic_into
  rcases hs with e | ⟨o, e, hp, x, hx⟩
  · rw [e]; exact .inl rfl
  · rw [e]; exact .inr ⟨_, rfl, (wrote_nil_false hx).1, hp⟩

theorem vars_kind {σ : Type} {S : Spec} {dbg : Bool} {ctx : DynCtx σ} {op : Operator} {fuel : Nat}
    {first : Bool} {pos : Nat} {vl : Str} {st : σ} {d : DynOut σ Nat}
    (h : expandVarsMut S dbg ctx op fuel first pos vl st = some d) (p : Nat) :
    d.result ≠ .error (.writeFailed, p) := by
  induction fuel generalizing first pos vl st d with
  | zero => cases h
  | succ n ih =>
    rw [expandVarsMut] at h
    split at h
    · cases h
    · cases h; simp
    · simp only at h
      split at h
      · cases h; simp
      · rw [Option.bind_eq_some_iff] at h
        obtain ⟨o, _, h⟩ := h
        rw [Option.map_eq_some_iff] at h
        obtain ⟨d', h, rfl⟩ := h
        exact ih (d := d') h

theorem expr_kind {σ : Type} {S : Spec} {dbg : Bool} {ctx : DynCtx σ}
    {pos : Nat} {body : Str} {st : σ} {d : DynOut σ Nat}
    (h : expandExprMut S dbg ctx pos body st = some d) (p : Nat) :
    d.result ≠ .error (.writeFailed, p) := by
  unfold expandExprMut at h
  split at h
  · cases h
  · rw [Option.bind_eq_some_iff] at h
    obtain ⟨d', h1, h⟩ := h
    have := vars_kind h1 p
    unfold checkEnd at h
    split at h
    · split at h
      · cases h; exact this
      · cases h
    · cases h; exact this

theorem loop_kind {σ : Type} {S : Spec} {dbg : Bool} {ctx : DynCtx σ} {fuel pos : Nat}
    {s : Str} {st : σ} {d : DynOut σ Unit}
    (h : expandDynLoop S dbg ctx fuel pos s st = some d) (p : Nat) :
    d.result ≠ .error (.writeFailed, p) := by
  induction fuel generalizing pos s st d with
  | zero => cases h
  | succ n ih =>
    rw [expandDynLoop] at h
    split at h
    · cases h
    · cases h; simp
    · rw [Option.map_eq_some_iff] at h
      obtain ⟨d', h, rfl⟩ := h
      exact ih (d := d') h
    · rw [Option.bind_eq_some_iff] at h
      obtain ⟨d', h1, h⟩ := h
      have := expr_kind h1 p
      unfold dynThen at h
      split at h
      · rename_i e he
        cases h
        rw [he] at this
        simpa using this
      · rw [Option.map_eq_some_iff] at h
        obtain ⟨d', h, rfl⟩ := h
        exact ih (d := d') h

theorem dynamic_kind {σ : Type} {S : Spec} {dbg : Bool} {ctx : DynCtx σ} {template : Str} {st : σ}
    {d : DynOut σ Unit} (h : expand_dynamic S dbg ctx template st = some d) (p : Nat) :
    d.result ≠ .error (.writeFailed, p) := by
  unfold expand_dynamic at h
  rw [Option.map_eq_some_iff] at h
  obtain ⟨d', h, rfl⟩ := h
  exact loop_kind h p

/-- A "write failed" error has no other cause than the writer. -/
theorem C54_write_failed_iff {σ : Type} (S : Spec) (hex : Nat → List Str) (hh : HexOk hex) (dbg : Bool)
    (ok : List Str → Bool) (ctx : DynCtx σ) (template : Str) (st : σ) (o : DynOutW (List Str) σ Unit)
    (h : expand_dynamic_into S hex dbg (sink ok) ctx template [] st = some o) :
    (∃ pos, o.result = .error (.writeFailed, pos)) ↔ LastFailed ok o.writer := by
  cases hd : expand_dynamic S dbg ctx template st with
  | none =>
    rcases C54_dynamic_panic S hex hh dbg ok ctx template st hd with e | ⟨o', e, h1, h2⟩
    · rw [e] at h; cases h
    · rw [e] at h; cases h
      exact ⟨fun _ => h1, fun _ => h2⟩
  | some d =>
    obtain ⟨o', e, h1 | h1⟩ := C54_dynamic S hex hh dbg ok ctx template st d hd
    · rw [e] at h; cases h
      constructor
      · rintro ⟨p, hp⟩
        rw [h1.2.2.1] at hp
        exact absurd hp (dynamic_kind hd p)
      · rintro ⟨_, h2, h3⟩
        rw [h1.1 o.writer [] (by simp) h2] at h3
        cases h3
    · rw [e] at h; cases h
      exact ⟨fun _ => h1.1, fun _ => h1.2.2⟩

/-- A writer that never fails gets what the `String` gets, also for a panic. -/
theorem C54_infallible {σ : Type} (S : Spec) (hex : Nat → List Str) (hh : HexOk hex) (dbg : Bool)
    (ctx : DynCtx σ) (template : Str) (st : σ) :
    (expand_dynamic_into S hex dbg (sink fun _ => true) ctx template [] st).map
        (fun o => (o.result, o.writer.flatten, o.state)) =
      (expand_dynamic S dbg ctx template st).map (fun d => (d.result, d.out, d.state)) := by
  cases hd : expand_dynamic S dbg ctx template st with
  | none =>
    rcases C54_dynamic_panic S hex hh dbg (fun _ => true) ctx template st hd with e | ⟨o, _, h, _⟩
    · rw [e]; rfl
    · cases h.2.2
  | some d =>
    obtain ⟨o, e, h | h⟩ := C54_dynamic S hex hh dbg (fun _ => true) ctx template st d hd
    · rw [e]
      obtain ⟨_, h1, h2, h3⟩ := h
      simp [h1, h2, h3]
    · cases h.1.2.2

/-- A static expansion (`expand`, then `write!` of the result): a type error is found before anything
is written; if the text is `out`, then either no call fails and the writer is given exactly `out`, or the
last call failed, the formatting returns an error, and the writer has been given a beginning of `out`. -/
theorem C54_static (S : Spec) (hex : Nat → List Str) (hh : HexOk hex) (dbg : Bool)
    (ok : List Str → Bool) (ctx : Ctx) (template : Str) :
    (∀ out, expand_to_string S dbg ctx template = .ok out →
      ∃ calls b, expand_and_write S hex dbg (sink ok) ctx template [] = .ok (calls, b) ∧
        ((b = true ∧ AllAccepted ok calls ∧ calls.flatten = out) ∨
          (b = false ∧ LastFailed ok calls ∧ calls.flatten <+: out))) ∧
    (∀ k l, expand_to_string S dbg ctx template = .err k l →
      expand_and_write S hex dbg (sink ok) ctx template [] = .err k l) ∧
    (expand_to_string S dbg ctx template = .panic →
      expand_and_write S hex dbg (sink ok) ctx template [] = .panic ∨
      ∃ calls, expand_and_write S hex dbg (sink ok) ctx template [] = .ok (calls, false) ∧
        LastFailed ok calls) := by
  have hs := display_sim (S := S) (sink_tracks ok) hh dbg ctx (template.length + 1) [] template
  unfold expand_to_string expand_and_write
  cases typecheck ctx (template.length + 1) 0 template with
  | panic => simp [Res.bind]
  | err k l => simp [Res.bind]
  | ok u =>
    simp only [Res.bind]
    cases hd : displayExpanded S dbg ctx (template.length + 1) template with
    | none =>
      rw [hd] at hs
      refine ⟨by simp, by simp, fun _ => ?_⟩
      rcases hs with e | ⟨t', x, e, hx⟩
      · rw [e]; exact .inl rfl
      · rw [e]; exact .inr ⟨_, rfl, (wrote_nil_false hx).1⟩
    | some x =>
      rw [hd] at hs
      obtain ⟨t', b, e, hx⟩ := hs
      rw [e]
      refine ⟨?_, by simp, by simp⟩
      intro out ho
      cases ho
      refine ⟨t', b, rfl, ?_⟩
      cases b with
      | true => exact .inl ⟨rfl, wrote_nil_true hx⟩
      | false => exact .inr ⟨rfl, wrote_nil_false hx⟩

/-! ### Where the expansion stops -/

theorem merge_append_expr (t : List Piece) (op : Option Char) (vars : List Var) :
    merge (t ++ [.expr op vars]) = merge t ++ [.expr op vars] := by
  induction t with
  | nil => rfl
  | cons p t ih =>
    cases p with
    | expr op' vars' => simp [merge, ih]
    | lit s =>
      by_cases hm : ∃ s' t', merge t = .lit s' :: t'
      · obtain ⟨s', t', hm⟩ := hm
        rw [List.cons_append, merge_lit_cons hm,
          merge_lit_cons (s' := s') (t' := t' ++ [.expr op vars]) (by rw [ih, hm]; rfl)]
        rfl
      · simp only [not_exists] at hm
        rw [List.cons_append, merge_lit_not hm, merge_lit_not, ih]
        · rfl
        · intro s' t' e
          rw [ih] at e
          cases hmt : merge t with
          | nil => rw [hmt] at e; cases e
          | cons q l =>
            rw [hmt] at e
            simp at e
            exact hm s' l (by rw [hmt, e.1])

/-- `finish` at the end. -/
def finishW {τ σ : Type} (ctx : DynCtx σ) (x : Option (DynOutW τ σ Nat)) : Option (DynOutW τ σ Unit) :=
  match x with
  | none => none
  | some ⟨.error e, t, st⟩ => some ⟨.error e, t, ctx.finish st⟩
  | some ⟨.ok _, t, st⟩ => some ⟨.ok (), t, ctx.finish st⟩

theorem into_eq {τ σ : Type} (S : Spec) (hex : Nat → List Str) (dbg : Bool) (w : Writer τ)
    (ctx : DynCtx σ) {t : List Piece} (ha : Accepted t) (hs : SmallLengths t) (wt : τ) (st : σ) :
    expand_dynamic_into S hex dbg w ctx (text t) wt st =
      finishW ctx (runW S hex dbg w ctx (merge t) 0 wt (ctx.start st)) := by
  unfold expand_dynamic_into
  have := dynW_chunked S hex dbg w ctx (merge_chunked ha)
    (by rw [varsOf_merge]; exact (smallLengths_iff t).1 hs) ((text t).length + 1) 0 wt (ctx.start st)
    (by rw [text_merge]; omega)
  rw [text_merge] at this
  rw [this]
  cases runW S hex dbg w ctx (merge t) 0 wt (ctx.start st) with
  | none => rfl
  | some d =>
    obtain ⟨r, t', st'⟩ := d
    cases r <;> rfl

/-- Where an error arises, for every writer and every context, of every type: at a run of literals, or at
a variable.  The expansion of what comes before it ends well; the expansion of a template that
ends after it ends in the same way as the whole; and the position in the error is its byte offset. -/
theorem C54_error_position {τ σ : Type} (S : Spec) (hex : Nat → List Str) (dbg : Bool) (w : Writer τ)
    (ctx : DynCtx σ) (t : List Piece) (ha : Accepted t) (hs : SmallLengths t) (wt : τ) (st : σ)
    (o : DynOutW τ σ Unit) (kind : ErrorKind) (pos : Nat)
    (h : expand_dynamic_into S hex dbg w ctx (text t) wt st = some o)
    (he : o.result = .error (kind, pos)) :
    (∃ pre lits post o1, t = pre ++ lits ++ post ∧ lits ≠ [] ∧ (∀ p ∈ lits, ∃ s, p = .lit s) ∧
      expand_dynamic_into S hex dbg w ctx (text pre) wt st = some o1 ∧ o1.result = .ok () ∧
      expand_dynamic_into S hex dbg w ctx (text (pre ++ lits)) wt st = some o ∧
      kind = .writeFailed ∧ pos = (utf8s (text pre)).length) ∨
    (∃ pre op vs v vs' post o1, t = pre ++ .expr op (vs ++ v :: vs') :: post ∧
      expand_dynamic_into S hex dbg w ctx (text (if vs = [] then pre else pre ++ [.expr op vs])) wt st =
        some o1 ∧ o1.result = .ok () ∧
      expand_dynamic_into S hex dbg w ctx (text (pre ++ [.expr op (vs ++ [v])])) wt st = some o ∧
      (kind = .writeFailed ∨ kind = .unexpectedValueType) ∧
      pos = (utf8s (text pre ++ '{' :: op.toList ++ vs.flatMap fun w => w.render ++ [','])).length) := by
  rw [into_eq S hex dbg w ctx ha hs] at h
  obtain ⟨r, ot, ost⟩ := o
  simp only at he
  subst he
  obtain ⟨st', hrun, rfl⟩ : ∃ st', runW S hex dbg w ctx (merge t) 0 wt (ctx.start st) =
      some ⟨.error (kind, pos), ot, st'⟩ ∧ ctx.finish st' = ost := by
    cases e : runW S hex dbg w ctx (merge t) 0 wt (ctx.start st) with
    | none => rw [e] at h; cases h
    | some d =>
      rw [e] at h
      obtain ⟨r, t', st'⟩ := d
      cases r with
      | ok a => cases h
      | error e' => cases h; exact ⟨_, rfl, rfl⟩
  obtain ⟨pre', p, post', pos1, t1, st1, hm, h1, h2⟩ := runW_error S hex dbg w ctx hrun
  cases p with
  | lit s =>
    obtain ⟨pre, lits, post, rfl, rfl, hl1, hl2, rfl, hl4⟩ := merge_split_lit hm
    left
    have ha2 : Accepted (pre ++ lits) := (accepted_split ha).1
    have hs2 : SmallLengths (pre ++ lits) := fun op vars hm => hs op vars (List.mem_append_left _ hm)
    have ha1 : Accepted pre := fun p hp => ha2 p (by simp [hp])
    have hs1 : SmallLengths pre := fun op vars hm => hs2 op vars (by simp [hm])
    simp only [pieceW] at h2
    split at h2 <;> cases h2
    rename_i hw
    refine ⟨pre, lits, post, ⟨.ok (), t1, ctx.finish st'⟩, rfl, hl1, hl2, ?_, rfl, ?_, rfl, ?_⟩
    · rw [into_eq S hex dbg w ctx ha1 hs1, h1]; rfl
    · rw [into_eq S hex dbg w ctx ha2 hs2, hl4, runW_append, h1]
      simp only [thenW, runW, pieceW, hw, finishW]
    · have := runW_ok S hex dbg w ctx (ps := merge pre) (by
        intro op vars hm
        have h3 := merge_chunked ha1
        exact chunked_ne h3 hm) h1
      rw [text_merge] at this
      rw [utf8s_length]; omega
  | expr op vars =>
    obtain ⟨pre, post, rfl, rfl⟩ := merge_split_expr hm
    right
    have ha1 : Accepted pre := (accepted_split ha).1
    have hs1 : SmallLengths pre := fun op vars hm => hs op vars (by simp [hm])
    have hwf := ha (.expr op vars) (by simp)
    simp only [pieceW] at h2
    have h2 := (thenW_error h2).resolve_right (by rintro ⟨_, _, _, _, h2⟩; cases h2)
    obtain ⟨vs, v, vs', a1, t2, st2, rfl, h3, h4⟩ := varsW_error S hex dbg w ctx h2
    have hsub : ∀ us : List Var, us ≠ [] → (∀ u ∈ us, u ∈ vs ++ v :: vs') →
        Accepted (pre ++ [.expr op us]) ∧ SmallLengths (pre ++ [.expr op us]) := by
      intro us hne hus
      constructor
      · intro p hp
        rcases List.mem_append.1 hp with hp | hp
        · exact ha1 p hp
        · rw [List.mem_singleton.1 hp]
          exact ⟨hwf.1, hne, fun u hu => hwf.2.2 u (hus u hu)⟩
      · intro op' us' hm v' hv'
        rcases List.mem_append.1 hm with hm | hm
        · exact hs1 op' us' hm v' hv'
        · simp at hm
          obtain ⟨rfl, rfl⟩ := hm
          exact hs op' _ (by simp) v' (hus v' hv')
    obtain ⟨hsa, hss⟩ := hsub (vs ++ [v]) (by simp) (by
      intro u hu; simp at hu ⊢; rcases hu with hu | hu <;> simp [hu])
    refine ⟨pre, op, vs, v, vs', post, ⟨.ok (), t2, ctx.finish st2⟩, rfl, ?_, rfl, ?_, ?_, ?_⟩
    · by_cases hvs : vs = []
      · subst hvs
        cases h3
        rw [if_pos rfl, into_eq S hex dbg w ctx ha1 hs1, h1]
        rfl
      · rw [if_neg hvs]
        obtain ⟨g1, g2⟩ := hsub vs hvs (by intro u hu; simp [hu])
        rw [into_eq S hex dbg w ctx g1 g2, merge_append_expr, runW_append, h1]
        simp only [thenW, runW, pieceW, h3, finishW]
    · rw [into_eq S hex dbg w ctx hsa hss, merge_append_expr, runW_append, h1]
      simp only [thenW, runW, pieceW, varsW_append, h3, varsW, h4, finishW]
    · unfold varW at h4
      split at h4
      · cases h4; exact .inr rfl
      · split at h4 <;> cases h4
        exact .inl rfl
    · have e1 := runW_ok S hex dbg w ctx (ps := merge pre) (by
        intro op vars hm
        exact chunked_ne (merge_chunked ha1) hm) h1
      rw [text_merge] at e1
      have e2 := varsW_ok S hex dbg w ctx h3
      have e3 : pos = a1.2 := by
        unfold varW at h4
        split at h4
        · cases h4; rfl
        · split at h4 <;> cases h4
          rfl
      simp only at e2
      rw [e3, e2, e1, utf8s_length, blen_append, blen_append, blen_cons,
        utf8Size_ascii (c := '{') (by decide)]
      have : ∀ vs : List Var, specsLen vs = blen (vs.flatMap fun w => w.render ++ [',']) := by
        intro vs
        induction vs with
        | nil => rfl
        | cons w ws ih =>
          rw [List.flatMap_cons, blen_append, ← ih]
          simp [specsLen, blen_append, utf8Size_ascii (c := ',') (by decide)]
      rw [this]
      omega

/-! ### The hooks of the context -/

theorem rec_varW {τ : Type} {S : Spec} {hex : Nat → List Str} {dbg : Bool} {w : Writer τ}
    {f : List Event → Purpose → Str → Value} {op : Operator} {v : Var} {a : Bool × Nat} {t : τ}
    {log : List Event} {o : DynOutW τ (List Event) (Bool × Nat)}
    (h : varW S hex dbg w (recorder f) op v a t log = some o) :
    (∀ p, o.result = .ok p → o.state = log ++ visits v.name) ∧
    (∀ p, o.result = .error (.writeFailed, p) → o.state = log ++ visits v.name) ∧
    (∀ k p, o.result = .error (k, p) → k ≠ .writeFailed →
      o.state = log ++ [.visit .typecheck v.name]) := by
  unfold varW at h
  split at h
  · cases h; simp [recorder]
  · split at h <;> cases h <;> simp [recorder, visits]

theorem rec_varsW {τ : Type} {S : Spec} {hex : Nat → List Str} {dbg : Bool} {w : Writer τ}
    {f : List Event → Purpose → Str → Value} {op : Operator} {vars : List Var} {a a' : Bool × Nat}
    {t t' : τ} {log log' : List Event}
    (h : varsW S hex dbg w (recorder f) op vars a t log = some ⟨.ok a', t', log'⟩) :
    log' = log ++ (vars.map Var.name).flatMap visits := by
  induction vars generalizing a t log with
  | nil => cases h; simp
  | cons v vs ih =>
    rw [varsW] at h
    cases e : varW S hex dbg w (recorder f) op v a t log with
    | none => rw [e] at h; cases h
    | some d =>
      rw [e] at h
      have := (rec_varW e).1
      obtain ⟨r, t1, st1⟩ := d
      cases r with
      | error e => cases h
      | ok a1 =>
        have h1 := this a1 rfl
        simp only at h1
        have h2 := ih h
        rw [h2, h1]
        simp

theorem rec_runW {τ : Type} {S : Spec} {hex : Nat → List Str} {dbg : Bool} {w : Writer τ}
    {f : List Event → Purpose → Str → Value} {ps : List Piece} {pos pos' : Nat}
    {t t' : τ} {log log' : List Event}
    (h : runW S hex dbg w (recorder f) ps pos t log = some ⟨.ok pos', t', log'⟩) :
    log' = log ++ (names ps).flatMap visits := by
  induction ps generalizing pos t log with
  | nil => cases h; simp [names]
  | cons p ps ih =>
    rw [runW] at h
    cases e : pieceW S hex dbg w (recorder f) p pos t log with
    | none => rw [e] at h; cases h
    | some d =>
      rw [e] at h
      obtain ⟨r, t1, st1⟩ := d
      cases r with
      | error e => cases h
      | ok pos1 =>
        have h2 := ih h
        cases p with
        | lit s =>
          simp only [pieceW] at e
          split at e <;> cases e
          simpa [names] using h2
        | expr op vars =>
          simp only [pieceW] at e
          cases e' : varsW S hex dbg w (recorder f) (toOp op) vars (true, pos + (blen op.toList + 1)) t log
            with
          | none => rw [e'] at e; cases e
          | some d =>
            rw [e'] at e
            obtain ⟨r, t1, st1⟩ := d
            cases r with
            | error e => cases e
            | ok a =>
              cases e
              have h3 := rec_varsW e'
              rw [h2, h3]
              simp [names]

theorem names_append (a b : List Piece) : names (a ++ b) = names a ++ names b := by simp [names]

theorem names_merge (t : List Piece) : names (merge t) = names t := by
  rw [names_eq, names_eq, varsOf_merge]

/-- The calls of the methods of the context: `start` once, before everything else, `finish` once,
after everything else, also if the writer fails; in between the varspecs are visited in order, first for the
type, then for the value, up to the one at which the expansion stops. -/
theorem C54_hooks {τ : Type} (S : Spec) (hex : Nat → List Str) (dbg : Bool) (w : Writer τ)
    (f : List Event → Purpose → Str → Value) (t : List Piece) (ha : Accepted t) (hs : SmallLengths t)
    (wt : τ) (o : DynOutW τ (List Event) Unit)
    (h : expand_dynamic_into S hex dbg w (recorder f) (text t) wt [] = some o) :
    (o.result = .ok () → o.state = .start :: (names t).flatMap visits ++ [.finish]) ∧
    (∀ pos, o.result = .error (.writeFailed, pos) → ∃ visited rest, names t = visited ++ rest ∧
      o.state = .start :: visited.flatMap visits ++ [.finish]) ∧
    (∀ kind pos, o.result = .error (kind, pos) → kind ≠ .writeFailed →
      ∃ before n after, names t = before ++ n :: after ∧
        o.state = .start :: before.flatMap visits ++ [.visit .typecheck n, .finish]) := by
  rw [into_eq S hex dbg w (recorder f) ha hs] at h
  cases hrun : runW S hex dbg w (recorder f) (merge t) 0 wt ((recorder f).start []) with
  | none => rw [hrun] at h; cases h
  | some d =>
    rw [hrun] at h
    obtain ⟨r, t', st'⟩ := d
    cases r with
    | ok a =>
      cases h
      refine ⟨fun _ => ?_, by simp, by simp⟩
      have := rec_runW hrun
      simp only [names_merge] at this
      simp [recorder, this]
    | error e =>
      cases h
      obtain ⟨pre, p, post, pos1, t1, st1, hm, h1, h2⟩ := runW_error S hex dbg w (recorder f) hrun
      have h3 := rec_runW h1
      have hn : names t = names pre ++ (names [p] ++ names post) := by
        rw [← names_merge, hm, names_append]
        congr 1
        exact names_append [p] post
      cases p with
      | lit s =>
        simp only [pieceW] at h2
        split at h2 <;> cases h2
        refine ⟨by simp, ?_, ?_⟩
        · intro pos _
          exact ⟨names pre, _, hn, by simp [recorder, h3]⟩
        · intro k pos hk hne
          simp at hk
          exact absurd hk.1.symm hne
      | expr op vars =>
        simp only [pieceW] at h2
        have h2 := (thenW_error h2).resolve_right (by rintro ⟨_, _, _, _, h2⟩; cases h2)
        obtain ⟨vs, v, vs', a1, t2, st2, rfl, h4, h5⟩ := varsW_error S hex dbg w (recorder f) h2
        have h6 := rec_varsW h4
        obtain ⟨_, g2, g3⟩ := rec_varW h5
        refine ⟨by simp, ?_, ?_⟩
        · intro pos hp
          have := g2 pos (by simpa using hp)
          refine ⟨names pre ++ (vs.map Var.name ++ [v.name]), vs'.map Var.name ++ names post, ?_, ?_⟩
          · rw [hn]; simp [names]
          · simp only at this
            simp [recorder, this, h6, h3]
        · intro k pos hp hne
          have := g3 k pos (by simpa using hp) hne
          refine ⟨names pre ++ vs.map Var.name, v.name, vs'.map Var.name ++ names post, ?_, ?_⟩
          · rw [hn]; simp [names]
          · simp only at this
            simp [recorder, this, h6, h3]

/-! ### Concrete cases -/

/-- `write!(w, "%{:02X}", b)` in one piece, or as the literal `%` and two digits. -/
example : HexOk (fun b => [writePct b]) := fun b => by simp [writePct]
example : HexOk (fun b => [['%'], (writePct b).tail]) := fun b => by simp [writePct]

/-- A writer with room for `n` characters. -/
def room (n : Nat) (calls : List Str) : Bool := decide (calls.flatten.length ≤ n)

/-- The template `a{b,c}d`, the value of every variable is `x/y`. -/
def roomRun (n : Nat) : Option (DynOutW (List Str) (List Event) Unit) :=
  expand_dynamic_into .uri (fun b => [['%'], (writePct b).tail]) true (sink (room n))
    (recorder fun _ _ _ => .string [(chars! "x/y")]) (chars! "a{?b,c}d") [] []

example : (roomRun 17).map (fun o => (o.writer.flatten, o.state.length)) =
    some (chars! "a?b=x%2Fy&c=x%2Fyd", 6) := by decide +kernel
example : (roomRun 17).map (fun o => match o.result with | .ok _ => 0 | .error e => e.2) = some 7 := by
  decide +kernel
example : (roomRun 18).map (fun o => match o.result with | .ok _ => none | .error e => some e) =
    some none := by decide +kernel
example : (roomRun 6).map (fun o => (o.writer, match o.result with | .ok _ => none | .error e => some e)) =
    some ([['a'], ['?'], ['b'], ['='], ['x'], ['%'], ['2', 'F']], some (.writeFailed, 3)) := by
  decide +kernel
/-- A failure at `b`: `c` is not visited, `finish` is called. -/
example : (roomRun 5).map (·.state) =
    some [.start, .visit .typecheck ['b'], .visit .expand ['b'], .finish] := by decide +kernel

end Verif
