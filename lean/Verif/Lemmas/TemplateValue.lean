import Verif.Lemmas.TemplateExpand

/-!
# Expansion of one variable and of an expression
-/

namespace Verif.Tpl

open Verif.Rfc Verif.Rfc6570 Verif.MaybePct

theorem opProps_row {op : Option Char} (h : ∀ c, op = some c → isOp c = true) :
    opProps (toOp op) = ⟨(row op).first, (row op).sep, (row op).named, (row op).ifemp,
      (row op).reserved⟩ := by
  cases op with
  | none => rfl
  | some c =>
    have := h c rfl
    simp [isOp] at this
    rcases this with rfl | rfl | rfl | rfl | rfl | rfl | rfl <;> decide

theorem row_named {op : Option Char} : (row op).named = true → (row op).reserved = false := by
  cases op with
  | none => simp [row]
  | some c =>
    simp only [row]
    intro h
    split at h <;> simp_all
    split at h <;> simp_all
    split at h <;> simp_all
    split at h <;> simp_all
    split at h <;> simp_all
    split at h <;> simp_all

theorem enc_of_named {op : Option Char} (h : (row op).named = true) (S : Spec) (s : Str) :
    (row op).enc S s = encU S s := by
  simp [OpRow.enc, row_named h]

theorem escape_enc (S : Spec) (dbg : Bool) (o : OpRow) {d : Disp} (h : o.reserved = true → TidyAll d) :
    escape_write S dbg d o.reserved = some (o.enc S d.flatten) := by
  cases hr : o.reserved with
  | false => rw [escape_write_nonreserved]; simp [OpRow.enc, hr]
  | true => rw [escape_write_reserved S dbg (h hr)]; simp [OpRow.enc, hr]

theorem encU_eq_nil {S : Spec} {s : Str} : encU S s = [] ↔ s = [] := by
  constructor
  · intro h
    cases s with
    | nil => rfl
    | cons c s =>
      simp only [encU, List.flatMap_cons, List.append_eq_nil_iff] at h
      exfalso
      have h1 := h.1
      split at h1
      · cases h1
      · cases hu : utf8 c with
        | nil => exact utf8_ne_nil c hu
        | cons b r => rw [hu] at h1; simp [pctUpper] at h1
  · rintro rfl; rfl

/-- The maximum length of a varspec. -/
def modMax : Mod → Option Nat
  | .pre ds => some (decimal ds)
  | _ => none

theorem escape_maxlen (S : Spec) (dbg : Bool) (o : OpRow) (m : Mod) {d : Disp}
    (h : Handled dbg o m (.string d)) :
    escape_write_with_maxlen S dbg d o.reserved (modMax m) = some (o.enc S (m.cut d.flatten)) := by
  unfold escape_write_with_maxlen
  have hun : (o.reserved = true → TidyAll d) →
      (if o.reserved = true then process_percent_encoded_best_effort dbg (unboundedFrag S) [] d
        else some (unreserve S d)) = some (o.enc S d.flatten) := by
    intro h
    cases hr : o.reserved with
    | false => simp [OpRow.enc, hr, unreserve_flatten]
    | true =>
      rw [if_pos rfl, process_tidy (emits_unbounded S) (h hr)]
      simp [OpRow.enc, hr]
  cases m with
  | none => exact hun h
  | explode => exact hun h
  | pre ds =>
    simp only [Handled] at h
    simp only [modMax, Mod.cut]
    cases hr : o.reserved with
    | false =>
      rw [hr] at h
      simp only [Bool.false_eq_true, if_false] at h ⊢
      rw [truncateWrite_ok S dbg h]; simp [OpRow.enc, hr]
    | true =>
      rw [hr] at h
      simp only [if_true] at h ⊢
      rw [truncate_reserved S dbg h]; simp [OpRow.enc, hr]

section

variable (S : Spec) (dbg : Bool) {op : Option Char} (hop : ∀ c, op = some c → isOp c = true)

/-- `first` or `sep`. -/
def lead (o : OpRow) (first : Bool) : Str := if first then o.first else o.sep

theorem leader_eq (hop : ∀ c, op = some c → isOp c = true) (first : Bool) :
    leader (opProps (toOp op)) first = lead (row op) first := by
  rw [opProps_row hop]; rfl

include hop

theorem visit_string_eq (v : Var) (first : Bool) {d : Disp}
    (h : Handled dbg (row op) v.mod (.string d)) :
    visit_string S dbg (toOp op) (toSpec v) first d =
      some (lead (row op) first ++ varTextCrate S (row op) v (.str d.flatten)) := by
  have hm : maxLenOf (toSpec v).modifier = modMax v.mod := by
    unfold toSpec
    cases v.mod <;> rfl
  unfold visit_string
  simp only [hm]
  rw [leader_eq hop, opProps_row hop]
  simp only
  rw [escape_maxlen S dbg (row op) v.mod h]
  simp only [Option.map_some, varTextCrate, varText]
  by_cases hn : (row op).named = true
  · simp only [hn, if_true, enc_of_named hn]
    congr 3
    by_cases he : v.mod.cut d.flatten = []
    · simp [he, encU]
    · simp only [he, if_false]
      rw [if_neg]
      intro e
      exact he (encU_eq_nil.1 (List.isEmpty_iff.1 e))
  · simp [hn]

theorem escape_enc' {d : Disp} (h : (row op).reserved = true → TidyAll d) :
    escape_write S dbg d (opProps (toOp op)).allow_reserved = some ((row op).enc S d.flatten) := by
  rw [opProps_row hop]
  exact escape_enc S dbg (row op) h

theorem escape_name (hn : (row op).named = true) (s : Str) :
    escape_write S dbg [s] (opProps (toOp op)).allow_reserved = some ((row op).enc S s) := by
  rw [escape_enc' S dbg hop (by rw [row_named hn]; simp)]
  simp

/-- What is written before the items of a list after the first one. -/
def itemPre (S : Spec) (o : OpRow) (v : Var) : Str :=
  if v.mod = .explode then
    if o.named then o.sep ++ o.enc S v.name ++ ['='] else o.sep
  else [',']

theorem isExplode_eq {m : Mod} (hm : ∀ ds, m ≠ .pre ds) (name : Str) :
    isExplode (toSpec ⟨name, m⟩).modifier = some (decide (m = .explode)) := by
  cases m with
  | none => rfl
  | explode => rfl
  | pre ds => exact absurd rfl (hm ds)

theorem visit_item_eq (v : Var) (first : Bool) (n : Nat) {d : Disp} (hm : ∀ ds, v.mod ≠ .pre ds)
    (h : (row op).reserved = true → TidyAll d) :
    visit_item S dbg (toOp op) (toSpec v) first n d =
      some ((if n = 0 then lead (row op) first ++ (if (row op).named then v.name ++ ['='] else [])
        else itemPre S (row op) v) ++ (row op).enc S d.flatten) := by
  unfold visit_item
  have e1 : isExplode (toSpec v).modifier = some (decide (v.mod = .explode)) :=
    isExplode_eq (op := op) hop hm v.name
  rw [e1]
  simp only [Option.bind_some]
  rw [escape_enc' S dbg hop h]
  have e2 : (toSpec v).name = v.name := rfl
  rw [e2, leader_eq hop]
  have e3 : (opProps (toOp op)).named = (row op).named := by rw [opProps_row hop]
  have e4 : (opProps (toOp op)).sep = (row op).sep := by rw [opProps_row hop]
  rw [e3, e4]
  by_cases hn : n = 0
  · simp [hn]
  · simp only [hn, if_false, itemPre]
    by_cases hx : v.mod = .explode
    · simp only [hx, decide_true, Bool.not_true, Bool.false_eq_true, if_false, if_true]
      by_cases hna : (row op).named = true
      · rw [escape_name S dbg hop hna]
        simp [hna]
      · simp [hna]
    · simp [hx]

theorem visit_items_succ (v : Var) (first : Bool) (n : Nat) (items : List Disp)
    (hm : ∀ ds, v.mod ≠ .pre ds) (h : (row op).reserved = true → ∀ d ∈ items, TidyAll d) :
    visit_items S dbg (toOp op) (toSpec v) first (n + 1) items =
      some (items.flatMap fun d => itemPre S (row op) v ++ (row op).enc S d.flatten) := by
  induction items generalizing n with
  | nil => rfl
  | cons d items ih =>
    rw [visit_items, visit_item_eq S dbg hop v first _ hm (fun hr => h hr d (by simp)),
      ih _ (fun hr d hd => h hr d (by simp [hd]))]
    simp

theorem visit_items_eq (v : Var) (first : Bool) (items : List Disp) (h0 : items ≠ [])
    (hm : ∀ ds, v.mod ≠ .pre ds) (h : (row op).reserved = true → ∀ d ∈ items, TidyAll d) :
    visit_items S dbg (toOp op) (toSpec v) first 0 items =
      some (lead (row op) first ++ varTextCrate S (row op) v (.list (items.map List.flatten))) := by
  cases items with
  | nil => exact absurd rfl h0
  | cons d items =>
    rw [visit_items, visit_item_eq S dbg hop v first _ hm (fun hr => h hr d (by simp)),
      visit_items_succ S dbg hop v first _ _ hm (fun hr d hd => h hr d (by simp [hd]))]
    simp only [Option.bind_some, Option.map_some, if_true, varTextCrate, itemPre]
    congr 1
    by_cases hx : v.mod = .explode
    · by_cases hna : (row op).named = true
      · simp [hx, hna, joinWith_cons, List.flatMap_map]
      · simp [hx, hna, joinWith_cons, List.flatMap_map]
    · simp [hx, joinWith_cons, List.flatMap_map]

/-- An entry without what precedes it. -/
def entryText (S : Spec) (o : OpRow) (v : Var) (e : Disp × Disp) : Str :=
  o.enc S e.1.flatten ++ (if v.mod = .explode then ['='] else [',']) ++ o.enc S e.2.flatten

theorem visit_entry_eq (v : Var) (first : Bool) (n : Nat) {e : Disp × Disp}
    (hm : ∀ ds, v.mod ≠ .pre ds)
    (h : (row op).reserved = true → TidyAll e.1 ∧ TidyAll e.2) :
    visit_entry S dbg (toOp op) (toSpec v) first n e =
      some ((if n = 0 then lead (row op) first ++
          (if (row op).named ∧ v.mod ≠ .explode then (row op).enc S v.name ++ ['='] else [])
        else (if v.mod = .explode then (row op).sep else [','])) ++ entryText S (row op) v e) := by
  unfold visit_entry
  have e1 : isExplode (toSpec v).modifier = some (decide (v.mod = .explode)) :=
    isExplode_eq (op := op) hop hm v.name
  rw [e1]
  simp only [Option.bind_some]
  rw [escape_enc' S dbg hop (fun hr => (h hr).1), escape_enc' S dbg hop (fun hr => (h hr).2)]
  have e2 : (toSpec v).name = v.name := rfl
  rw [e2, leader_eq hop]
  have e3 : (opProps (toOp op)).named = (row op).named := by rw [opProps_row hop]
  have e4 : (opProps (toOp op)).sep = (row op).sep := by rw [opProps_row hop]
  rw [e3, e4]
  by_cases hn : n = 0
  · subst hn
    by_cases hx : v.mod = .explode
    · simp [hx, entryText]
    · by_cases hna : (row op).named = true
      · rw [escape_name S dbg hop hna]
        simp [hx, hna, entryText]
      · simp [hx, hna, entryText]
  · by_cases hx : v.mod = .explode
    · simp [hx, hn, entryText]
    · simp [hx, hn, entryText]

theorem visit_entries_succ (v : Var) (first : Bool) (n : Nat) (es : List (Disp × Disp))
    (hm : ∀ ds, v.mod ≠ .pre ds)
    (h : (row op).reserved = true → ∀ e ∈ es, TidyAll e.1 ∧ TidyAll e.2) :
    visit_entries S dbg (toOp op) (toSpec v) first (n + 1) es =
      some (es.flatMap fun e =>
        (if v.mod = .explode then (row op).sep else [',']) ++ entryText S (row op) v e) := by
  induction es generalizing n with
  | nil => rfl
  | cons e es ih =>
    rw [visit_entries, visit_entry_eq S dbg hop v first _ hm (fun hr => h hr e (by simp)),
      ih _ (fun hr e he => h hr e (by simp [he]))]
    simp

theorem visit_entries_eq (v : Var) (first : Bool) (es : List (Disp × Disp)) (h0 : es ≠ [])
    (hm : ∀ ds, v.mod ≠ .pre ds)
    (h : (row op).reserved = true → ∀ e ∈ es, TidyAll e.1 ∧ TidyAll e.2) :
    visit_entries S dbg (toOp op) (toSpec v) first 0 es =
      some (lead (row op) first ++
        varTextCrate S (row op) v (.assoc (es.map fun e => (e.1.flatten, e.2.flatten)))) := by
  cases es with
  | nil => exact absurd rfl h0
  | cons e es =>
    rw [visit_entries, visit_entry_eq S dbg hop v first _ hm (fun hr => h hr e (by simp)),
      visit_entries_succ S dbg hop v first _ _ hm (fun hr e he => h hr e (by simp [he]))]
    simp only [Option.bind_some, Option.map_some, if_true, varTextCrate, entryText]
    congr 1
    by_cases hx : v.mod = .explode
    · simp [hx, joinWith_cons, List.flatMap_map]
    · by_cases hna : (row op).named = true
      · simp [hx, hna, joinWith_cons, List.flatMap_map]
      · simp [hx, hna, joinWith_cons, List.flatMap_map]

/-- The visitor on a value of an applicable type that the crate handles. -/
theorem visit_value_eq (v : Var) (first : Bool) {val : Value} (ht : TypeOk v.mod (flat val))
    (h : Handled dbg (row op) v.mod val) :
    visit_value S dbg (toOp op) (toSpec v) first val =
      some (if (flat val).defined then
          lead (row op) first ++ varTextCrate S (row op) v (flat val) else [],
        first && !(flat val).defined) := by
  cases val with
  | undefined => simp [visit_value, flat, Val.defined]
  | string d =>
    rw [visit_value, visit_string_eq S dbg hop v first h]
    simp [flat, Val.defined]
  | list items =>
    cases items with
    | nil => simp [visit_value, visit_items, flat, Val.defined]
    | cons d items =>
      have hm : ∀ ds, v.mod ≠ .pre ds := by
        intro ds e
        have := ht ds e
        simp [flat] at this
      rw [visit_value, visit_items_eq S dbg hop v first _ (by simp) hm h]
      simp [flat, Val.defined]
  | assoc es =>
    cases es with
    | nil => simp [visit_value, visit_entries, flat, Val.defined]
    | cons e es =>
      have hm : ∀ ds, v.mod ≠ .pre ds := by
        intro ds e
        have := ht ds e
        simp [flat] at this
      rw [visit_value, visit_entries_eq S dbg hop v first _ (by simp) hm h]
      simp [flat, Val.defined]

/-- The varspecs after the first defined one. -/
theorem varsP_rest (ctx : Ctx) (val : Str → Val) (hval : ∀ n, flat (ctx .expand n) = val n)
    (vars : List Var) (ht : ∀ v ∈ vars, TypeOk v.mod (val v.name))
    (h : ∀ v ∈ vars, Handled dbg (row op) v.mod (ctx .expand v.name)) :
    varsP S dbg ctx (toOp op) false vars =
      some (((vars.filter fun v => (val v.name).defined).map fun v =>
        varTextCrate S (row op) v (val v.name)).flatMap ((row op).sep ++ ·)) := by
  induction vars with
  | nil => rfl
  | cons v vs ih =>
    rw [varsP, visit_value_eq S dbg hop v false (by rw [hval]; exact ht v (by simp)) (h v (by simp))]
    simp only [Option.bind_some, Bool.false_and]
    rw [ih (fun v hv => ht v (by simp [hv])) (fun v hv => h v (by simp [hv])), hval]
    by_cases hd : (val v.name).defined = true
    · simp [hd, lead]
    · simp [hd]

theorem varsP_eq (ctx : Ctx) (val : Str → Val) (hval : ∀ n, flat (ctx .expand n) = val n)
    (vars : List Var) (ht : ∀ v ∈ vars, TypeOk v.mod (val v.name))
    (h : ∀ v ∈ vars, Handled dbg (row op) v.mod (ctx .expand v.name)) :
    varsP S dbg ctx (toOp op) true vars = some (exprText (varTextCrate S) val op vars) := by
  induction vars with
  | nil => rfl
  | cons v vs ih =>
    rw [varsP, visit_value_eq S dbg hop v true (by rw [hval]; exact ht v (by simp)) (h v (by simp))]
    simp only [Option.bind_some]
    rw [hval]
    by_cases hd : (val v.name).defined = true
    · simp only [hd, if_true, Bool.not_true, Bool.and_false]
      rw [varsP_rest S dbg hop ctx val hval vs (fun v hv => ht v (by simp [hv]))
        (fun v hv => h v (by simp [hv]))]
      simp [exprText, hd, lead, joinWith_cons]
    · simp only [hd, Bool.false_eq_true, if_false, Bool.not_false, Bool.and_true]
      rw [ih (fun v hv => ht v (by simp [hv])) (fun v hv => h v (by simp [hv]))]
      simp [exprText, hd]

end

/-- `Display` of the result, on well typed and handled values. -/
theorem display_handled (S : Spec) (dbg : Bool) (ctx : Ctx) (val : Str → Val)
    (hval : ∀ n, flat (ctx .expand n) = val n) {t : List Piece} (h : Accepted t)
    (ht : WellTyped val t) (hh : AllHandled dbg (ctx .expand) t) :
    t.foldr (dispG S dbg ctx) (some []) = some (expansionCrate S val t) := by
  induction t with
  | nil => rfl
  | cons p t ih =>
    rw [List.foldr_cons, ih (fun p hp => h p (by simp [hp]))
      (fun op vars hm => ht op vars (by simp [hm])) (fun op vars hm => hh op vars (by simp [hm]))]
    cases p with
    | lit s => rfl
    | expr op vars =>
      simp only [dispG]
      rw [varsP_eq S dbg (h (.expr op vars) (by simp)).1 ctx val hval vars (ht op vars (by simp))
        (hh op vars (by simp))]
      rfl

end Verif.Tpl
