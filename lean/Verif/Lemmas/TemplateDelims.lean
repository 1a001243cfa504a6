import Verif.Lemmas.TemplateSafe

/-!
# The delimiters of an expansion do not depend on the values
-/

namespace Verif.Tpl

open Verif.Rfc Verif.Rfc6570 Verif.MaybePct

theorem delims_append (a b : Str) : delims (a ++ b) = delims a ++ delims b := by
  simp [delims]

theorem not_delim_unreserved {S : Spec} {c : Char} (h : iunreserved S c = true) :
    (gen_delims c || sub_delims c) = false := by
  by_cases ha : c.toNat < 128
  · refine ascii_forall (P := fun c => iunreserved S c = true →
      (gen_delims c || sub_delims c) = false) ?_ c ha h
    cases S <;> decide +kernel
  · cases hd : (gen_delims c || sub_delims c) with
    | false => rfl
    | true =>
      exfalso
      simp [gen_delims, sub_delims, char_eq_iff] at hd
      omega

theorem not_delim_hex {c : Char} (h : isHex c = true) : (gen_delims c || sub_delims c) = false := by
  have ha : c.toNat < 128 := by
    simp [isHex] at h; omega
  refine ascii_forall (P := fun c => isHex c = true → (gen_delims c || sub_delims c) = false) ?_ c ha h
  decide +kernel

theorem delims_unreserved {S : Spec} {s : Str} (h : PC (iunreserved S) s) : delims s = [] := by
  have hp : (gen_delims '%' || sub_delims '%') = false := by decide
  induction h with
  | nil => rfl
  | chr _ h2 _ ih =>
    unfold delims at ih ⊢
    rw [List.filter_cons_of_neg (by rw [not_delim_unreserved h2]; simp), ih]
  | pct h1 h2 _ ih =>
    unfold delims at ih ⊢
    rw [List.filter_cons_of_neg (by rw [hp]; simp),
      List.filter_cons_of_neg (by rw [not_delim_hex h1]; simp),
      List.filter_cons_of_neg (by rw [not_delim_hex h2]; simp), ih]

theorem delims_escape {S : Spec} {dbg : Bool} {d : Disp} {t : Str}
    (h : escape_write S dbg d false = some t) : delims t = [] := by
  rw [escape_write_nonreserved] at h
  simp at h; subst h
  exact delims_unreserved (pc_encU S _)

section values

variable {S : Spec} {dbg : Bool} {op : Operator} {spec : VarSpec}
  (hr : (opProps op).allow_reserved = false)

include hr

theorem delims_string {first : Bool} {d d' : Disp} {t t' : Str}
    (h : visit_string S dbg op spec first d = some t)
    (h' : visit_string S dbg op spec first d' = some t') (hs : d.flatten = [] ↔ d'.flatten = []) :
    delims t = delims t' := by
  unfold visit_string at h h'
  simp only [hr] at h h'
  rw [Option.map_eq_some_iff] at h h'
  obtain ⟨u, h1, rfl⟩ := h
  obtain ⟨u', h1', rfl⟩ := h'
  obtain ⟨p1, p2⟩ := escape_maxlen_unreserved h1
  obtain ⟨p1', p2'⟩ := escape_maxlen_unreserved h1'
  have he : u = [] ↔ u' = [] := by rw [p2, p2', hs]
  have q1 := delims_unreserved p1
  have q2 := delims_unreserved p1'
  rw [delims_append, delims_append]
  congr 1
  split
  · rw [delims_append, delims_append]
    congr 1
    by_cases hu : u = []
    · have hu' := he.1 hu
      simp [hu, hu']
    · have hu' : u' ≠ [] := fun e => hu (he.2 e)
      simp only [List.isEmpty_iff, hu, hu', if_false]
      have e : ∀ w : Str, delims ('=' :: w) = '=' :: delims w := fun w => rfl
      rw [e, e, q1, q2]
  · rw [q1, q2]

theorem delims_item {first : Bool} {n : Nat} {d d' : Disp} {t t' : Str}
    (h : visit_item S dbg op spec first n d = some t)
    (h' : visit_item S dbg op spec first n d' = some t') : delims t = delims t' := by
  unfold visit_item at h h'
  simp only [hr] at h h'
  rw [Option.bind_eq_some_iff] at h h'
  obtain ⟨x, g, h⟩ := h
  obtain ⟨x', g', h'⟩ := h'
  rw [g] at g'; simp at g'; subst g'
  rw [Option.bind_eq_some_iff] at h h'
  obtain ⟨pre, h1, h⟩ := h
  obtain ⟨pre', h1', h'⟩ := h'
  rw [h1] at h1'; simp at h1'; subst h1'
  rw [Option.map_eq_some_iff] at h h'
  obtain ⟨u, h2, rfl⟩ := h
  obtain ⟨u', h2', rfl⟩ := h'
  rw [delims_append, delims_append, delims_escape h2, delims_escape h2']

theorem delims_items {first : Bool} {n : Nat} {l l' : List Disp} {t t' : Str}
    (h : visit_items S dbg op spec first n l = some t)
    (h' : visit_items S dbg op spec first n l' = some t') (hl : l.length = l'.length) :
    delims t = delims t' := by
  induction l generalizing n l' t t' with
  | nil =>
    cases l' with
    | nil => simp [visit_items] at h h'; rw [h, h']
    | cons _ _ => simp at hl
  | cons d l ih =>
    cases l' with
    | nil => simp at hl
    | cons d' l' =>
      rw [visit_items, Option.bind_eq_some_iff] at h h'
      obtain ⟨a, h1, h⟩ := h
      obtain ⟨a', h1', h'⟩ := h'
      rw [Option.map_eq_some_iff] at h h'
      obtain ⟨b, h2, rfl⟩ := h
      obtain ⟨b', h2', rfl⟩ := h'
      rw [delims_append, delims_append, delims_item hr h1 h1', ih h2 h2' (by simpa using hl)]

theorem delims_entry {first : Bool} {n : Nat} {d d' : Disp × Disp} {t t' : Str}
    (h : visit_entry S dbg op spec first n d = some t)
    (h' : visit_entry S dbg op spec first n d' = some t') : delims t = delims t' := by
  unfold visit_entry at h h'
  simp only [hr] at h h'
  rw [Option.bind_eq_some_iff] at h h'
  obtain ⟨x, g, h⟩ := h
  obtain ⟨x', g', h'⟩ := h'
  rw [g] at g'; simp at g'; subst g'
  simp only [escape_write_nonreserved, Option.map_some, Option.bind_some] at h h'
  have hd := fun s => delims_unreserved (pc_encU S s)
  split at h
  · next hn =>
    rw [if_pos hn] at h'
    split at h
    · next hx =>
      rw [if_pos hx] at h'
      simp at h h'
      subst h h'
      simp [delims_append, hd, show ∀ w : Str, delims ('=' :: w) = '=' :: delims w from fun _ => rfl]
    · next hx =>
      rw [if_neg hx] at h'
      split at h
      · next hna =>
        rw [if_pos hna] at h'
        simp at h h'
        subst h h'
        simp [delims_append, hd, show ∀ w : Str, delims ('=' :: w) = '=' :: delims w from fun _ => rfl,
          show ∀ w : Str, delims (',' :: w) = ',' :: delims w from fun _ => rfl]
      · next hna =>
        rw [if_neg hna] at h'
        simp at h h'
        subst h h'
        simp [delims_append, hd, show ∀ w : Str, delims (',' :: w) = ',' :: delims w from fun _ => rfl]
  · next hn =>
    rw [if_neg hn] at h'
    split at h
    · next hx =>
      rw [if_pos hx] at h'
      simp at h h'
      subst h h'
      simp [delims_append, hd, show ∀ w : Str, delims (',' :: w) = ',' :: delims w from fun _ => rfl]
    · next hx =>
      rw [if_neg hx] at h'
      simp at h h'
      subst h h'
      simp [delims_append, hd, show ∀ w : Str, delims ('=' :: w) = '=' :: delims w from fun _ => rfl]

theorem delims_entries {first : Bool} {n : Nat} {l l' : List (Disp × Disp)} {t t' : Str}
    (h : visit_entries S dbg op spec first n l = some t)
    (h' : visit_entries S dbg op spec first n l' = some t') (hl : l.length = l'.length) :
    delims t = delims t' := by
  induction l generalizing n l' t t' with
  | nil =>
    cases l' with
    | nil => simp [visit_entries] at h h'; rw [h, h']
    | cons _ _ => simp at hl
  | cons d l ih =>
    cases l' with
    | nil => simp at hl
    | cons d' l' =>
      rw [visit_entries, Option.bind_eq_some_iff] at h h'
      obtain ⟨a, h1, h⟩ := h
      obtain ⟨a', h1', h'⟩ := h'
      rw [Option.map_eq_some_iff] at h h'
      obtain ⟨b, h2, rfl⟩ := h
      obtain ⟨b', h2', rfl⟩ := h'
      rw [delims_append, delims_append, delims_entry hr h1 h1', ih h2 h2' (by simpa using hl)]

theorem delims_value {first : Bool} {val val' : Value} {o o' : Str × Bool}
    (h : visit_value S dbg op spec first val = some o)
    (h' : visit_value S dbg op spec first val' = some o') (hs : SameShape (flat val) (flat val')) :
    delims o.1 = delims o'.1 ∧ o.2 = o'.2 := by
  cases val with
  | undefined =>
    cases val' with
    | undefined => simp [visit_value] at h h'; subst h h'; exact ⟨rfl, rfl⟩
    | string _ => exact hs.elim
    | list _ => exact hs.elim
    | assoc _ => exact hs.elim
  | string d =>
    cases val' with
    | undefined => exact hs.elim
    | string d' =>
      rw [visit_value, Option.map_eq_some_iff] at h h'
      obtain ⟨t, h1, rfl⟩ := h
      obtain ⟨t', h1', rfl⟩ := h'
      exact ⟨delims_string hr h1 h1' hs, rfl⟩
    | list _ => exact hs.elim
    | assoc _ => exact hs.elim
  | list l =>
    cases val' with
    | undefined => exact hs.elim
    | string _ => exact hs.elim
    | list l' =>
      have hl : l.length = l'.length := by simpa [flat, SameShape] using hs
      rw [visit_value, Option.map_eq_some_iff] at h h'
      obtain ⟨t, h1, rfl⟩ := h
      obtain ⟨t', h1', rfl⟩ := h'
      refine ⟨delims_items hr h1 h1' hl, ?_⟩
      cases l <;> cases l' <;> simp at hl ⊢
    | assoc _ => exact hs.elim
  | assoc l =>
    cases val' with
    | undefined => exact hs.elim
    | string _ => exact hs.elim
    | list _ => exact hs.elim
    | assoc l' =>
      have hl : l.length = l'.length := by simpa [flat, SameShape] using hs
      rw [visit_value, Option.map_eq_some_iff] at h h'
      obtain ⟨t, h1, rfl⟩ := h
      obtain ⟨t', h1', rfl⟩ := h'
      refine ⟨delims_entries hr h1 h1' hl, ?_⟩
      cases l <;> cases l' <;> simp at hl ⊢

theorem delims_varsP {ctx ctx' : Ctx} {first : Bool} {vars : List Var} {t t' : Str}
    (h : varsP S dbg ctx op first vars = some t) (h' : varsP S dbg ctx' op first vars = some t')
    (hs : ∀ v ∈ vars, SameShape (flat (ctx .expand v.name)) (flat (ctx' .expand v.name))) :
    delims t = delims t' := by
  induction vars generalizing first t t' with
  | nil => simp [varsP] at h h'; subst h h'; rfl
  | cons v vs ih =>
    rw [varsP, Option.bind_eq_some_iff] at h h'
    obtain ⟨o, h1, h⟩ := h
    obtain ⟨o', h1', h'⟩ := h'
    rw [Option.map_eq_some_iff] at h h'
    obtain ⟨b, h2, rfl⟩ := h
    obtain ⟨b', h2', rfl⟩ := h'
    obtain ⟨e1, e2⟩ := delims_value hr h1 h1' (hs v (by simp))
    rw [← e2] at h2'
    rw [delims_append, delims_append, e1, ih h2 h2' (fun v hv => hs v (by simp [hv]))]

end values

theorem varsP_congr {S : Spec} {dbg : Bool} {op : Operator} {ctx ctx' : Ctx} {vars : List Var}
    (h : ∀ v ∈ vars, ctx .expand v.name = ctx' .expand v.name) (first : Bool) :
    varsP S dbg ctx op first vars = varsP S dbg ctx' op first vars := by
  induction vars generalizing first with
  | nil => rfl
  | cons v vs ih =>
    rw [varsP, varsP, h v (by simp)]
    congr 1
    funext o
    rw [ih (fun v hv => h v (by simp [hv]))]

theorem delims_display {S : Spec} {dbg : Bool} {ctx ctx' : Ctx} {t : List Piece} {out out' : Str}
    (ha : Accepted t)
    (hs : ∀ op vars, Piece.expr op vars ∈ t → ∀ v ∈ vars,
      if op = some '+' ∨ op = some '#' then ctx .expand v.name = ctx' .expand v.name
      else SameShape (flat (ctx .expand v.name)) (flat (ctx' .expand v.name)))
    (h : t.foldr (dispG S dbg ctx) (some []) = some out)
    (h' : t.foldr (dispG S dbg ctx') (some []) = some out') : delims out = delims out' := by
  induction t generalizing out out' with
  | nil => simp at h h'; subst h h'; rfl
  | cons p t ih =>
    rw [List.foldr_cons] at h h'
    have ih := fun out out' => ih (out := out) (out' := out') (fun p hp => ha p (by simp [hp]))
      (fun op vars hm => hs op vars (by simp [hm]))
    have hp := ha p (by simp)
    cases p with
    | lit s =>
      simp only [dispG] at h h'
      rw [Option.map_eq_some_iff] at h h'
      obtain ⟨b, h2, rfl⟩ := h
      obtain ⟨b', h2', rfl⟩ := h'
      rw [delims_append, delims_append, ih _ _ h2 h2']
    | expr op vars =>
      simp only [dispG] at h h'
      rw [Option.bind_eq_some_iff] at h h'
      obtain ⟨a, h1, h⟩ := h
      obtain ⟨a', h1', h'⟩ := h'
      rw [Option.map_eq_some_iff] at h h'
      obtain ⟨b, h2, rfl⟩ := h
      obtain ⟨b', h2', rfl⟩ := h'
      rw [delims_append, delims_append, ih _ _ h2 h2']
      congr 1
      have hv := hs op vars (by simp)
      by_cases hop : op = some '+' ∨ op = some '#'
      · rw [varsP_congr (ctx' := ctx') (fun v hm => by have := hv v hm; rwa [if_pos hop] at this),
          h1'] at h1
        simp at h1; rw [h1]
      · refine delims_varsP ?_ h1 h1' (fun v hm => by have := hv v hm; rwa [if_neg hop] at this)
        rw [opProps_row hp.1]
        show (row op).reserved = false
        cases op with
        | none => rfl
        | some c =>
          have h3 : c ≠ '+' := fun e => hop (.inl (by rw [e]))
          have h4 : c ≠ '#' := fun e => hop (.inr (by rw [e]))
          simp only [row, if_neg h3, if_neg h4]
          repeat' split
          all_goals rfl

/-- Display of a concatenation. -/
theorem display_append (S : Spec) (dbg : Bool) (ctx : Ctx) (a b : List Piece) :
    (a ++ b).foldr (dispG S dbg ctx) (some []) =
      (a.foldr (dispG S dbg ctx) (some [])).bind fun x =>
        (b.foldr (dispG S dbg ctx) (some [])).map fun y => x ++ y := by
  induction a with
  | nil => simp
  | cons p a ih =>
    rw [List.cons_append, List.foldr_cons, List.foldr_cons, ih]
    generalize b.foldr (dispG S dbg ctx) (some []) = B
    generalize a.foldr (dispG S dbg ctx) (some []) = A
    cases p with
    | lit s => cases A <;> cases B <;> simp [dispG]
    | expr op vars =>
      simp only [dispG]
      cases varsP S dbg ctx (toOp op) true vars <;> cases A <;> cases B <;> simp

/-- An expansion that ends well. -/
theorem expand_ok {S : Spec} {dbg : Bool} {ctx : Ctx} {t : List Piece} {out : Str} (ha : Accepted t)
    (hs : SmallLengths t) : expand_to_string S dbg ctx (text t) = .ok out ↔
      WellTyped (fun n => flat (ctx .typecheck n)) t ∧
        t.foldr (dispG S dbg ctx) (some []) = some out := by
  unfold expand_to_string
  by_cases hw : WellTyped (fun n => flat (ctx .typecheck n)) t
  · rw [typecheck_ok ctx ha hs hw, Tpl.display_eq S dbg ctx ha hs _ (by omega)]
    simp only [Res.bind, hw, true_and]
    cases t.foldr (dispG S dbg ctx) (some []) <;> simp
  · obtain ⟨pre, op, vs, v, vs', post, rfl, h1, h2, h3⟩ := first_bad hw
    rw [typecheck_bad ctx ha hs h1 h2 h3]
    simp [Res.bind, hw]

/-! ## The calls of a dynamic context -/

theorem rec_vars (S : Spec) (dbg : Bool) (f : List Event → Purpose → Str → Value) {op : Operator}
    {first : Bool} {pos : Nat} {vars : List Var} {log : List Event} {d : DynOut (List Event) Nat}
    (h : dynVars S dbg (recorder f) op first pos vars log = some d) :
    (∀ p, d.result = .ok p → d.state = log ++ (vars.map Var.name).flatMap visits) ∧
    (∀ e, d.result = .error e → ∃ b n a, vars.map Var.name = b ++ n :: a ∧
      d.state = log ++ b.flatMap visits ++ [.visit .typecheck n]) := by
  induction vars generalizing first pos log d with
  | nil => simp [dynVars] at h; subst h; simp
  | cons v vs ih =>
    rw [dynVars] at h
    split at h
    · simp at h; subst h
      refine ⟨by simp, fun _ _ => ⟨[], v.name, vs.map Var.name, rfl, by simp [recorder]⟩⟩
    · rw [Option.bind_eq_some_iff] at h
      obtain ⟨o, _, h⟩ := h
      rw [Option.map_eq_some_iff] at h
      obtain ⟨d', h, rfl⟩ := h
      obtain ⟨i1, i2⟩ := ih h
      simp only [recorder] at i1 i2 ⊢
      refine ⟨fun p hp => ?_, fun e he => ?_⟩
      · rw [i1 p hp]; simp [visits]
      · obtain ⟨b, n, a, e1, e2⟩ := i2 e he
        refine ⟨v.name :: b, n, a, by simp [e1], ?_⟩
        rw [e2]; simp [visits]

theorem rec_fold (S : Spec) (dbg : Bool) (f : List Event → Purpose → Str → Value) {pos : Nat}
    {t : List Piece} {log : List Event} {d : DynOut (List Event) Unit}
    (h : t.foldr (dynG S dbg (recorder f)) (fun _ st => some ⟨.ok (), [], st⟩) pos log = some d) :
    (d.result = .ok () → d.state = log ++ (names t).flatMap visits) ∧
    (∀ e, d.result = .error e → ∃ b n a, names t = b ++ n :: a ∧
      d.state = log ++ b.flatMap visits ++ [.visit .typecheck n]) := by
  induction t generalizing pos log d with
  | nil => simp at h; subst h; simp [names]
  | cons p t ih =>
    rw [List.foldr_cons] at h
    cases p with
    | lit s =>
      simp only [dynG] at h
      rw [Option.map_eq_some_iff] at h
      obtain ⟨d', h, rfl⟩ := h
      have e : names (.lit s :: t) = names t := by simp [names]
      rw [e]
      exact ih (d := d') h
    | expr op vars =>
      simp only [dynG] at h
      rw [Option.bind_eq_some_iff] at h
      obtain ⟨d1, h1, h⟩ := h
      obtain ⟨i1, i2⟩ := rec_vars S dbg f h1
      have e : names (.expr op vars :: t) = vars.map Var.name ++ names t := by simp [names]
      rw [e]
      obtain ⟨r, o, st⟩ := d1
      cases r with
      | error er =>
        simp [dynThen] at h
        subst h
        refine ⟨by simp, fun e' he => ?_⟩
        obtain ⟨b, n, a, e1, e2⟩ := i2 er rfl
        exact ⟨b, n, a ++ names t, by simp [e1], e2⟩
      | ok p =>
        simp only [dynThen] at h
        rw [Option.map_eq_some_iff] at h
        obtain ⟨d', h, rfl⟩ := h
        obtain ⟨j1, j2⟩ := ih h
        have hst : st = _ := i1 p rfl
        subst hst
        refine ⟨fun hp => ?_, fun e he => ?_⟩
        · rw [j1 hp]; simp
        · obtain ⟨b, n, a, e1, e2⟩ := j2 e he
          refine ⟨vars.map Var.name ++ b, n, a, by simp [e1], ?_⟩
          rw [e2]; simp

end Verif.Tpl
