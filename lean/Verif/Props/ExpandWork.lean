import Verif.Model.ExpandWork
import Verif.Props.TemplateWork
import Verif.Props.EditWork
import Verif.Props.TemplateSize
import Verif.Lemmas.DisplayWriterPath
import Verif.Spec.Lit

/-!
# C96: template expansion is linear work
-/

namespace Verif

open Verif.MaybePct (Frag Push)

namespace Work

/-! ### The counter changes nothing -/

@[simp] theorem checkTriplets_fst (e : Str) : (checkTriplets e).1 = MaybePct.checkTriplets e := rfl

@[simp] theorem pushLoop_fst : ∀ (enc : Str) (k : Nat) (r : Str), (pushLoop enc k r).1 = MaybePct.pushLoop enc k r
  | enc, k, [] => rfl
  | enc, k, c :: r => by
    unfold pushLoop MaybePct.pushLoop
    rw [bind_fst]
    dsimp only
    by_cases h0 : enc.length % 3 = 0
    · rw [if_pos h0, if_pos h0]
      by_cases h1 : c ≠ '%'
      · rw [if_pos h1, if_pos h1]
      · rw [if_neg h1, if_neg h1]
        by_cases h2 : 12 ≤ enc.length
        · rw [if_pos h2, if_pos h2]; rfl
        · rw [if_neg h2, if_neg h2]; exact pushLoop_fst _ _ _
    · rw [if_neg h0, if_neg h0]
      by_cases h1 : (!isHex c) = true
      · rw [if_pos h1, if_pos h1]
      · rw [if_neg h1, if_neg h1]
        by_cases h2 : enc.length % 3 = 1
        · rw [if_pos h2, if_pos h2]; exact pushLoop_fst _ _ _
        · rw [if_neg h2, if_neg h2, bind_fst, checkTriplets_fst]
          rcases MaybePct.checkTriplets (enc ++ [c]) with _ | (_ | ⟨e, p⟩)
          · rfl
          · exact pushLoop_fst _ _ _
          · rfl

variable {σ : Type}

/-- A callback with its cost and one without do the same. -/
def Same (f : Callback σ) (g : MaybePct.Callback σ) : Prop := ∀ st frag, (f st frag).1 = g st frag

theorem andThen_fst {f : Callback σ} {g : MaybePct.Callback σ} (h : Same f g) (frag : Frag) (o : σ × Bool) :
    (andThen f frag o).1 = MaybePct.andThen g frag o := by
  obtain ⟨st, _ | _⟩ := o
  · exact h _ _
  · rfl

theorem output_as_undecodable_fst {f : Callback σ} {g : MaybePct.Callback σ} (h : Same f g) (st : σ) (s : Str) :
    (output_as_undecodable f st s).1 = MaybePct.output_as_undecodable g st s := by
  unfold output_as_undecodable MaybePct.output_as_undecodable
  dsimp only
  rw [bind_fst, obind_fst, h]
  congr 1; funext o
  split
  · rfl
  · rw [obind_fst, andThen_fst h]
    congr 1; funext o
    split
    · rfl
    · exact andThen_fst h _ _

theorem flushRest_fst {f : Callback σ} {g : MaybePct.Callback σ} (h : Same f g) (st : σ) (e r : Str) :
    (flushRest f st e r).1 = MaybePct.flushRest g st e r := by
  unfold flushRest MaybePct.flushRest
  split
  · rfl
  · rw [obind_fst, output_as_undecodable_fst h]
    rfl

theorem plainPrefix_fst {f : Callback σ} {g : MaybePct.Callback σ} (h : Same f g) (dbg : Bool)
    (o : (σ × Bool) × Str) : (plainPrefix dbg f o).1 = MaybePct.plainPrefix dbg g o := by
  unfold plainPrefix MaybePct.plainPrefix
  split
  · rfl
  · rw [bind_fst, find_split_fst]
    dsimp only
    split
    · rfl
    · rw [obind_fst, h]
      rcases g _ _ with _ | _ <;> rfl

theorem processPush_fst {f : Callback σ} {g : MaybePct.Callback σ} (h : Same f g) (st : σ) (p : Push) :
    (processPush f st p).1 = MaybePct.processPush g st p := by
  cases p with
  | needMore => rfl
  | decoded s => exact h _ _
  | undecodable s => exact output_as_undecodable_fst h _ _

theorem writeStep_fst {f : Callback σ} {g : MaybePct.Callback σ} (h : Same f g) (dbg : Bool) (st : σ) (e r : Str) :
    (writeStep dbg f st e r).1 = MaybePct.writeStep dbg g st e r := by
  unfold writeStep MaybePct.writeStep
  rw [obind_fst, pushLoop_fst]
  congr 1; funext x
  obtain ⟨e', k, p⟩ := x
  dsimp only
  split
  · rw [obind_fst, obind_fst, flushRest_fst h]
    have : (fun a => (plainPrefix dbg f a).1) = MaybePct.plainPrefix dbg g := by
      funext a; exact plainPrefix_fst h dbg a
    rw [this]
    rcases (MaybePct.flushRest g st e' r).bind (MaybePct.plainPrefix dbg g) with _ | ⟨_, _⟩ <;> rfl
  · rw [obind_fst, processPush_fst h]
    congr 1

theorem writeStr_fst {f : Callback σ} {g : MaybePct.Callback σ} (h : Same f g) (dbg : Bool) :
    ∀ (n : Nat) (st : σ) (e r : Str), (writeStr dbg f n st e r).1 = MaybePct.writeStr dbg g n st e r
  | 0, _, _, _ => rfl
  | n + 1, st, e, r => by
    unfold writeStr MaybePct.writeStr
    split
    · rfl
    · rw [obind_fst, writeStep_fst h]
      congr 1; funext x
      obtain ⟨o, e', r'⟩ := x
      dsimp only
      split
      · rfl
      · exact writeStr_fst h dbg n _ _ _

theorem writeAll_fst {f : Callback σ} {g : MaybePct.Callback σ} (h : Same f g) (dbg : Bool) :
    ∀ (v : List Str) (st : σ) (e : Str), (writeAll dbg f st e v).1 = MaybePct.writeAll dbg g st e v
  | [], _, _ => rfl
  | s :: v, st, e => by
    unfold writeAll MaybePct.writeAll
    rw [obind_fst, writeStr_fst h]
    congr 1; funext x
    obtain ⟨o, e'⟩ := x
    dsimp only
    split
    · rfl
    · exact writeAll_fst h dbg v _ _

theorem process_fst {f : Callback σ} {g : MaybePct.Callback σ} (h : Same f g) (dbg : Bool) (st : σ) (v : List Str) :
    (process_percent_encoded_best_effort dbg f st v).1 = MaybePct.process_percent_encoded_best_effort dbg g st v := by
  unfold process_percent_encoded_best_effort MaybePct.process_percent_encoded_best_effort
  rw [obind_fst, writeAll_fst h]
  congr 1; funext x
  obtain ⟨o, e⟩ := x
  dsimp only
  split
  · rfl
  · split
    · rfl
    · rw [obind_fst, output_as_undecodable_fst h]
      rcases MaybePct.output_as_undecodable g o.1 e with _ | _ <;> rfl

@[simp] theorem percent_encode_fst (S : Spec) (c : Context) (v : List Str) :
    (percent_encode S c v).1 = Verif.percent_encode S c v := rfl

theorem escapeFrag_fst (S : Spec) : Same (escapeFrag S) (Tpl.escapeFrag S) := by
  intro st frag
  cases frag <;> rfl

theorem truncFrag_fst (S : Spec) (dbg : Bool) : Same (truncFrag S dbg) (Tpl.truncFrag S dbg) := by
  intro st frag
  unfold truncFrag Tpl.truncFrag
  by_cases h : st.2 = 0
  · dsimp only; rw [if_pos h, if_pos h]; rfl
  · dsimp only
    rw [if_neg h, if_neg h]
    cases frag with
    | noPct s =>
      dsimp only
      rw [obind_fst]
      show (Tpl.lastIdx (s.take st.2)).bind _ = _
      congr 1; funext count
      rw [obind_fst]
      rcases Tpl.usizeSub dbg st.2 count with _ | _ <;> rfl
    | _ => rfl

theorem unboundedFrag_fst (S : Spec) : Same (unboundedFrag S) (Tpl.unboundedFrag S) := by
  intro st frag
  cases frag with
  | noPct s =>
    unfold unboundedFrag Tpl.unboundedFrag
    rw [bind_fst]
    dsimp only
    cases s.isEmpty <;> rfl
  | _ => rfl

@[simp] theorem escape_write_fst (S : Spec) (dbg : Bool) (v : Tpl.Disp) (b : Bool) :
    (escape_write S dbg v b).1 = Tpl.escape_write S dbg v b := by
  unfold escape_write Tpl.escape_write
  split
  · exact process_fst (escapeFrag_fst S) _ _ _
  · rw [bind_fst, ret_fst, percent_encode_fst]
    unfold unreserve Verif.percent_encode
    simp

@[simp] theorem truncateWrite_fst (S : Spec) (dbg : Bool) : ∀ (v : Tpl.Disp) (n : Nat),
    (truncateWrite S dbg n v).1 = Tpl.truncateWrite S dbg n v
  | [], _ => rfl
  | s :: r, n => by
    unfold truncateWrite Tpl.truncateWrite
    split
    · exact truncateWrite_fst S dbg r n
    · rw [bind_fst, bind_fst, obind_fst]
      show (Tpl.usizeSub dbg n (((Tpl.lastIdx (s.take n)).map (· + 1)).getD 0)).bind _ = _
      congr 1; funext m
      rw [obind_fst, truncateWrite_fst S dbg r m]
      rcases Tpl.truncateWrite S dbg m r with _ | _ <;> rfl

@[simp] theorem escape_write_with_maxlen_fst (S : Spec) (dbg : Bool) (v : Tpl.Disp) (b : Bool) (m : Option Nat) :
    (escape_write_with_maxlen S dbg v b m).1 = Tpl.escape_write_with_maxlen S dbg v b m := by
  unfold escape_write_with_maxlen Tpl.escape_write_with_maxlen
  cases b <;> cases m <;> dsimp only
  · rfl
  · exact truncateWrite_fst S dbg v _
  · exact process_fst (unboundedFrag_fst S) _ _ _
  · simp only [if_true]
    rw [obind_fst, process_fst (truncFrag_fst S dbg)]
    rcases MaybePct.process_percent_encoded_best_effort dbg (Tpl.truncFrag S dbg) ([], _) v with _ | _ <;> rfl

@[simp] theorem visit_string_fst (S : Spec) (dbg : Bool) (op : Tpl.Operator) (sp : Tpl.VarSpec) (first : Bool)
    (v : Tpl.Disp) : (visit_string S dbg op sp first v).1 = Tpl.visit_string S dbg op sp first v := by
  unfold visit_string Tpl.visit_string
  dsimp only
  rw [bind_fst, obind_fst, escape_write_with_maxlen_fst]
  rcases Tpl.escape_write_with_maxlen S dbg v _ _ with _ | t
  · rfl
  · cases (Tpl.opProps op).named
    · simp
    · cases t.isEmpty <;> simp [writeName]

@[simp] theorem visit_item_fst (S : Spec) (dbg : Bool) (op : Tpl.Operator) (sp : Tpl.VarSpec) (first : Bool) (n : Nat)
    (v : Tpl.Disp) : (visit_item S dbg op sp first n v).1 = Tpl.visit_item S dbg op sp first n v := by
  unfold visit_item Tpl.visit_item
  dsimp only
  rw [obind_fst]
  show (Tpl.isExplode sp.modifier).bind _ = _
  congr 1; funext e
  have h2 : ∀ a : Str, (obind (escape_write S dbg v (Tpl.opProps op).allow_reserved) fun t => ret (some (a ++ t))).1 =
      (Tpl.escape_write S dbg v (Tpl.opProps op).allow_reserved).map fun t => a ++ t := by
    intro a
    rw [obind_fst, escape_write_fst]
    rcases Tpl.escape_write S dbg v _ with _ | _ <;> rfl
  rw [obind_fst]
  congr 1
  · split
    · rw [bind_fst, ret_fst]
      cases (Tpl.opProps op).named <;> rfl
    · split
      · rfl
      · split
        · rfl
        · rw [obind_fst, escape_write_fst]
          rcases Tpl.escape_write S dbg _ _ with _ | _ <;> rfl
  · funext a; exact h2 a

@[simp] theorem visit_items_fst (S : Spec) (dbg : Bool) (op : Tpl.Operator) (sp : Tpl.VarSpec) (first : Bool) :
    ∀ (l : List Tpl.Disp) (n : Nat), (visit_items S dbg op sp first n l).1 = Tpl.visit_items S dbg op sp first n l
  | [], _ => rfl
  | a :: l, n => by
    unfold visit_items Tpl.visit_items
    rw [obind_fst, visit_item_fst]
    congr 1; funext x
    rw [obind_fst, visit_items_fst S dbg op sp first l]
    rcases Tpl.visit_items S dbg op sp first (n + 1) l with _ | _ <;> rfl

@[simp] theorem visit_entry_fst (S : Spec) (dbg : Bool) (op : Tpl.Operator) (sp : Tpl.VarSpec) (first : Bool) (n : Nat)
    (v : Tpl.Disp × Tpl.Disp) : (visit_entry S dbg op sp first n v).1 = Tpl.visit_entry S dbg op sp first n v := by
  unfold visit_entry Tpl.visit_entry
  dsimp only
  rw [obind_fst]
  show (Tpl.isExplode sp.modifier).bind _ = _
  congr 1; funext e
  have h2 : ∀ (w : Tpl.Disp) (g : Str → Str),
      (obind (escape_write S dbg w (Tpl.opProps op).allow_reserved) fun t => ret (some (g t))).1 =
      (Tpl.escape_write S dbg w (Tpl.opProps op).allow_reserved).map g := by
    intro w g
    rw [obind_fst, escape_write_fst]
    rcases Tpl.escape_write S dbg w _ with _ | _ <;> rfl
  rw [obind_fst]
  congr 1
  · split
    · split
      · exact h2 _ _
      · rw [obind_fst]
        congr 1
        · split
          · exact h2 _ _
          · rfl
        · funext a; exact h2 _ _
    · split
      · exact h2 _ _
      · exact h2 _ _
  · funext a; exact h2 _ _

@[simp] theorem visit_entries_fst (S : Spec) (dbg : Bool) (op : Tpl.Operator) (sp : Tpl.VarSpec) (first : Bool) :
    ∀ (l : List (Tpl.Disp × Tpl.Disp)) (n : Nat),
      (visit_entries S dbg op sp first n l).1 = Tpl.visit_entries S dbg op sp first n l
  | [], _ => rfl
  | a :: l, n => by
    unfold visit_entries Tpl.visit_entries
    rw [obind_fst, visit_entry_fst]
    congr 1; funext x
    rw [obind_fst, visit_entries_fst S dbg op sp first l]
    rcases Tpl.visit_entries S dbg op sp first (n + 1) l with _ | _ <;> rfl

@[simp] theorem visit_value_fst (S : Spec) (dbg : Bool) (op : Tpl.Operator) (sp : Tpl.VarSpec) (first : Bool)
    (v : Tpl.Value) : (visit_value S dbg op sp first v).1 = Tpl.visit_value S dbg op sp first v := by
  cases v with
  | undefined => rfl
  | string v =>
    unfold visit_value Tpl.visit_value
    dsimp only
    rw [obind_fst, visit_string_fst]
    rcases Tpl.visit_string S dbg op sp first v with _ | _ <;> rfl
  | list v =>
    unfold visit_value Tpl.visit_value
    dsimp only
    rw [obind_fst, visit_items_fst]
    rcases Tpl.visit_items S dbg op sp first 0 v with _ | _ <;> rfl
  | assoc v =>
    unfold visit_value Tpl.visit_value
    dsimp only
    rw [obind_fst, visit_entries_fst]
    rcases Tpl.visit_entries S dbg op sp first 0 v with _ | _ <;> rfl

@[simp] theorem expandVars_fst (S : Spec) (dbg : Bool) (ctx : Tpl.Ctx) (op : Tpl.Operator) :
    ∀ (f : Nat) (first : Bool) (s : Str),
      (expandVars S dbg ctx op f first s).1 = Tpl.expandVars S dbg ctx op f first s
  | 0, _, _ => rfl
  | f + 1, first, s => by
    unfold expandVars Tpl.expandVars
    rw [bind_fst, varListNext_fst]
    rcases Tpl.varListNext s with _ | (_ | ⟨⟨len, sp⟩, rest⟩)
    · rfl
    · rfl
    · dsimp only
      rw [obind_fst, visit_value_fst]
      congr 1; funext o
      rw [obind_fst, expandVars_fst S dbg ctx op f]
      rcases Tpl.expandVars S dbg ctx op f o.2 rest with _ | _ <;> rfl

@[simp] theorem expandExpr_fst (S : Spec) (dbg : Bool) (ctx : Tpl.Ctx) (b : Str) :
    (expandExpr S dbg ctx b).1 = Tpl.expandExpr S dbg ctx b := by
  unfold expandExpr Tpl.expandExpr
  rw [obind_fst]
  show (Tpl.decompose b).bind _ = _
  congr 1; funext d
  exact expandVars_fst S dbg ctx _ _ _ _

@[simp] theorem displayExpanded_fst (S : Spec) (dbg : Bool) (ctx : Tpl.Ctx) : ∀ (f : Nat) (s : Str),
    (displayExpanded S dbg ctx f s).1 = Tpl.displayExpanded S dbg ctx f s
  | 0, _ => rfl
  | f + 1, s => by
    unfold displayExpanded Tpl.displayExpanded
    rw [bind_fst, chunksNext_fst]
    rcases Tpl.chunksNext s with _ | (_ | ⟨_ | _, rest⟩)
    · rfl
    · rfl
    · dsimp only
      rw [bind_fst, obind_fst, displayExpanded_fst S dbg ctx f]
      rcases Tpl.displayExpanded S dbg ctx f rest with _ | _ <;> rfl
    · dsimp only
      rw [obind_fst, expandExpr_fst]
      congr 1; funext a
      rw [obind_fst, displayExpanded_fst S dbg ctx f]
      rcases Tpl.displayExpanded S dbg ctx f rest with _ | _ <;> rfl

@[simp] theorem typecheckVars_fst (ctx : Tpl.Ctx) : ∀ (f pos : Nat) (s : Str),
    (typecheckVars ctx f pos s).1 = Tpl.typecheckVars ctx f pos s
  | 0, _, _ => rfl
  | f + 1, pos, s => by
    unfold typecheckVars Tpl.typecheckVars
    rw [bind_fst, varListNext_fst]
    rcases Tpl.varListNext s with _ | (_ | ⟨⟨len, sp⟩, rest⟩)
    · rfl
    · rfl
    · dsimp only
      split
      · rfl
      · exact typecheckVars_fst ctx f _ _

@[simp] theorem typecheckExpr_fst (ctx : Tpl.Ctx) (pos : Nat) (b : Str) :
    (typecheckExpr ctx pos b).1 = Tpl.typecheckExpr ctx pos b := by
  unfold typecheckExpr Tpl.typecheckExpr
  rw [bind_fst]
  show _ = _
  have e : (decompose b).1 = Tpl.decompose b := rfl
  rw [e]
  rcases Tpl.decompose b with _ | ⟨op, l⟩
  · rfl
  · dsimp only
    rw [rb_fst, typecheckVars_fst]
    rfl

@[simp] theorem typecheck_fst (ctx : Tpl.Ctx) : ∀ (f pos : Nat) (s : Str),
    (typecheck ctx f pos s).1 = Tpl.typecheck ctx f pos s
  | 0, _, _ => rfl
  | f + 1, pos, s => by
    unfold typecheck Tpl.typecheck
    rw [bind_fst, chunksNext_fst]
    rcases Tpl.chunksNext s with _ | (_ | ⟨_ | _, rest⟩)
    · rfl
    · rfl
    · exact typecheck_fst ctx f _ _
    · dsimp only
      rw [rb_fst, typecheckExpr_fst]
      congr 1; funext a
      exact typecheck_fst ctx f _ _

/-! ### How much work -/

/-- Text of one-byte characters. -/
def Ok1 (s : Str) : Prop := ∀ c ∈ s, c.utf8Size = 1

theorem Ok1.blen {s : Str} (h : Ok1 s) : blen s = s.length := by
  induction s with
  | nil => rfl
  | cons c r ih =>
    rw [blen_cons, List.length_cons, h c (by simp), ih fun x hx => h x (by simp [hx])]
    omega

theorem Ok1.take {s : Str} (h : Ok1 s) (n : Nat) : Ok1 (s.take n) := fun c hc => h c (List.mem_of_mem_take hc)
theorem Ok1.drop {s : Str} (h : Ok1 s) (n : Nat) : Ok1 (s.drop n) := fun c hc => h c (List.mem_of_mem_drop hc)
theorem Ok1.nil : Ok1 [] := by intro c hc; cases hc

theorem Ok1.snoc {s : Str} (h : Ok1 s) {c : Char} (hc : c.utf8Size = 1) : Ok1 (s ++ [c]) := by
  intro x hx
  rcases List.mem_append.1 hx with hx | hx
  · exact h x hx
  · simp only [List.mem_cons, List.not_mem_nil, or_false] at hx; subst hx; exact hc

/-- The text of a push result. -/
def pushText : Push → Str
  | .decoded s => s
  | .undecodable s => s
  | .needMore => []

/-- What is known of a push: the buffer stays small, and the work is paid by what is consumed and by what leaves the
buffer. -/
def PushB (enc : Str) (k : Nat) (r : Str) (x : T (Option (Str × Nat × Push))) : Prop :=
  x.2 ≤ 16 * enc.length + 24 * blen r ∧
  ∀ e n p, x.1 = some (e, n, p) → Ok1 e ∧ e.length ≤ 12 ∧ Ok1 (pushText p) ∧ (pushText p).length ≤ 12 ∧
    k ≤ n ∧ n ≤ k + blen r ∧
    x.2 + 16 * e.length + 3 * (pushText p).length + 24 * k ≤ 16 * enc.length + 24 * n + 12 ∧
    (n = 0 → x.2 ≤ enc.length + 4 ∧ (r ≠ [] → e = []) ∧ (enc = [] → r.head? ≠ some '%'))

theorem PushB.step {enc : Str} {c d : Char} {k : Nat} {r : Str} {x : T (Option (Str × Nat × Push))} {m : Nat}
    (hc : c.utf8Size = 1) (h : PushB (enc ++ [d]) (k + c.utf8Size) r x) (hm : m ≤ 7) :
    PushB enc k (c :: r) (x.1, m + x.2) := by
  obtain ⟨h1, h2⟩ := h
  simp only [List.length_append, List.length_cons, List.length_nil] at h1 h2
  refine ⟨by rw [blen_cons]; dsimp only; omega, ?_⟩
  intro e n p hx
  obtain ⟨a1, a2, a3, a4, a5, a6, a7, _⟩ := h2 e n p hx
  refine ⟨a1, a2, a3, a4, by omega, by rw [blen_cons]; omega, by dsimp only; omega, ?_⟩
  intro hn
  omega

theorem PushB.bad {enc : Str} {c : Char} {k : Nat} {r : Str} (ho : Ok1 enc) (hl : enc.length ≤ 12)
    (hp : enc = [] → c ≠ '%') :
    PushB enc k (c :: r) (some ([], k + c.utf8Size - 1, .undecodable enc), c.utf8Size + enc.length) := by
  have h1 := Char.utf8Size_pos c
  have h4 := Char.utf8Size_le_four c
  refine ⟨by rw [blen_cons]; dsimp only; omega, ?_⟩
  intro e n p hx
  cases hx
  refine ⟨Ok1.nil, by simp, ho, hl, by omega, by rw [blen_cons]; omega, ?_, ?_⟩
  · simp only [List.length_nil, pushText]; omega
  · intro hn
    refine ⟨by dsimp only; omega, fun _ => rfl, fun he => ?_⟩
    simp only [List.head?_cons, ne_eq, Option.some.injEq]
    exact hp he

theorem checkTriplets_some {enc e : Str} {p : Push} (h : MaybePct.checkTriplets enc = some (some (e, p))) :
    (e = [] ∧ p = .decoded enc) ∨ ∃ v, e = enc.drop (v * 3) ∧ p = .undecodable (enc.take (v * 3)) := by
  unfold MaybePct.checkTriplets at h
  rw [Option.bind_eq_some_iff] at h
  obtain ⟨d, _, h⟩ := h
  split at h
  · cases h; exact .inl ⟨rfl, rfl⟩
  · split at h
    · cases h
    · split at h
      · cases h
      · cases h; exact .inr ⟨_, rfl, rfl⟩

theorem pushLoop_snd : ∀ (enc : Str) (k : Nat) (r : Str), Ok1 enc → enc.length ≤ 12 →
    PushB enc k r (pushLoop enc k r)
  | enc, k, [], ho, hl => by
    refine ⟨Nat.zero_le _, ?_⟩
    intro e n p hx
    cases hx
    refine ⟨ho, hl, Ok1.nil, by simp [pushText], by omega, by simp, ?_, ?_⟩
    · simp only [pushText, List.length_nil, pushLoop, ret_snd]; omega
    · intro _
      refine ⟨Nat.zero_le _, fun h => absurd rfl h, fun _ => by simp⟩
  | enc, k, c :: r, ho, hl => by
    have hp1 : ('%' : Char).utf8Size = 1 := by decide
    unfold pushLoop
    have eb : ∀ f : Nat → T (Option (Str × Nat × Push)), bind (enc.length % 3, c.utf8Size) f =
        ((f (enc.length % 3)).1, c.utf8Size + (f (enc.length % 3)).2) := fun f => rfl
    rw [eb]
    by_cases h0 : enc.length % 3 = 0
    · rw [if_pos h0]
      by_cases h1 : c ≠ '%'
      · rw [if_pos h1]
        exact PushB.bad ho hl fun _ => h1
      · rw [if_neg h1]
        have hc : c = '%' := Classical.not_not.1 h1
        subst hc
        by_cases h2 : 12 ≤ enc.length
        · rw [if_pos h2]
          refine ⟨by rw [blen_cons]; simp only [ret_snd]; omega, ?_⟩
          intro e n p hx; cases hx
        · rw [if_neg h2]
          refine PushB.step hp1 (pushLoop_snd _ _ r (ho.snoc hp1) (by
            rw [List.length_append]; simp only [List.length_cons, List.length_nil]; omega)) (by omega)
    · rw [if_neg h0]
      have hne : enc ≠ [] := by rintro rfl; exact h0 rfl
      by_cases h1 : (!isHex c) = true
      · rw [if_pos h1]
        exact PushB.bad ho hl fun h => absurd h hne
      · rw [if_neg h1]
        have hc : c.utf8Size = 1 := hex_size (by simpa using h1)
        have hl' : (enc ++ [c]).length ≤ 12 := by
          rw [List.length_append]; simp only [List.length_cons, List.length_nil]; omega
        by_cases h2 : enc.length % 3 = 1
        · rw [if_pos h2]
          exact PushB.step hc (pushLoop_snd _ _ r (ho.snoc hc) hl') (by omega)
        · rw [if_neg h2]
          have ec : (checkTriplets (enc ++ [c])).2 ≤ 6 := by
            show 2 + (enc ++ [c]).length / 3 ≤ 6
            omega
          have eb2 : ∀ f : Option (Option (Str × Push)) → T (Option (Str × Nat × Push)),
              bind (checkTriplets (enc ++ [c])) f = ((f (MaybePct.checkTriplets (enc ++ [c]))).1,
                (checkTriplets (enc ++ [c])).2 + (f (MaybePct.checkTriplets (enc ++ [c]))).2) := fun f => rfl
          rw [eb2]
          rcases hx : MaybePct.checkTriplets (enc ++ [c]) with _ | (_ | ⟨e, p⟩)
          · refine ⟨by rw [blen_cons]; simp only [ret_snd]; omega, ?_⟩
            intro e n p hx; cases hx
          · dsimp only
            rw [← Nat.add_assoc]
            exact PushB.step hc (pushLoop_snd _ _ r (ho.snoc hc) hl') (by omega)
          · have hlen : (enc ++ [c]).length = enc.length + 1 := by simp
            have key : Ok1 e ∧ Ok1 (pushText p) ∧ e.length + (pushText p).length = enc.length + 1 := by
              rcases checkTriplets_some hx with ⟨rfl, rfl⟩ | ⟨v, rfl, rfl⟩
              · refine ⟨Ok1.nil, ho.snoc hc, ?_⟩
                simp only [pushText, List.length_nil]; omega
              · refine ⟨(ho.snoc hc).drop _, (ho.snoc hc).take _, ?_⟩
                simp only [pushText, List.length_drop, List.length_take]; omega
            obtain ⟨k1, k2, k3⟩ := key
            refine ⟨by rw [blen_cons]; dsimp only; omega, ?_⟩
            intro e' n p' hx'
            simp only [Option.some.injEq, Prod.mk.injEq] at hx'
            obtain ⟨rfl, rfl, rfl⟩ := hx'
            refine ⟨k1, by omega, k2, by omega, by omega, by rw [blen_cons]; omega, by dsimp only; omega, ?_⟩
            intro hn; omega

/-- The bytes of a fragment that are not fixed text. -/
def fragLen : Frag → Nat
  | .char s => blen s
  | .noPct s => blen s
  | .stray => 0
  | .invalid s => blen s

/-- A callback that looks at a fragment at most twice. -/
def Cheap (f : Callback σ) : Prop := ∀ st frag, (f st frag).2 ≤ 2 * fragLen frag + 3

theorem andThen_snd {f : Callback σ} (h : Cheap f) (frag : Frag) (o : σ × Bool) :
    (andThen f frag o).2 ≤ 2 * fragLen frag + 3 := by
  obtain ⟨st, _ | _⟩ := o
  · exact h _ _
  · exact Nat.zero_le _

theorem obind_le {α β : Type} (x : T (Option α)) (f : α → T (Option β)) (m : Nat)
    (h : ∀ a, x.1 = some a → (f a).2 ≤ m) : (obind x f).2 ≤ x.2 + m := by
  rcases hx : x.1 with _ | a
  · rw [obind_none hx]; omega
  · rw [obind_some hx]; have := h a hx; omega

theorem output_as_undecodable_snd {f : Callback σ} (h : Cheap f) (st : σ) {s : Str} (ho : Ok1 s) :
    (output_as_undecodable f st s).2 ≤ 3 * s.length + 9 := by
  unfold output_as_undecodable
  dsimp only
  rw [bind_snd]
  have h1 := h st (.invalid (s.take (s.length - s.length % 3)))
  have e1 := (ho.take (s.length - s.length % 3)).blen
  have e2 := ((ho.drop (s.length - s.length % 3)).drop 1).blen
  simp only [fragLen] at h1
  rw [e1, List.length_take] at h1
  rw [List.length_drop, List.length_drop] at e2
  have h2 : (obind (f st (.invalid (s.take (s.length - s.length % 3)))) fun o =>
      if (s.drop (s.length - s.length % 3)).length = 0 then ret (some o)
      else obind (andThen f .stray o) fun o =>
        if (s.drop (s.length - s.length % 3)).length = 1 then ret (some o)
        else andThen f (.noPct ((s.drop (s.length - s.length % 3)).drop 1)) o).2 ≤
      (f st (.invalid (s.take (s.length - s.length % 3)))).2 +
        (3 + (2 * blen ((s.drop (s.length - s.length % 3)).drop 1) + 3)) := by
    refine obind_le _ _ _ fun o _ => ?_
    split
    · simp
    · refine Nat.le_trans (obind_le _ _ (2 * blen ((s.drop (s.length - s.length % 3)).drop 1) + 3) fun o _ => ?_) ?_
      · split
        · simp
        · exact andThen_snd h _ _
      · have := andThen_snd h .stray o
        simp only [fragLen] at this
        omega
  dsimp only at h2 ⊢
  omega

theorem processPush_snd {f : Callback σ} (h : Cheap f) (st : σ) {p : Push} (ho : Ok1 (pushText p)) :
    (processPush f st p).2 ≤ 3 * (pushText p).length + 9 := by
  cases p with
  | needMore => exact Nat.zero_le _
  | decoded s =>
    unfold processPush
    rw [bind_snd]
    have := h st (.char s)
    have e : blen s = s.length := ho.blen
    simp only [fragLen, pushText] at this ⊢
    omega
  | undecodable s => exact output_as_undecodable_snd h st ho

theorem find_pct_snd (s : Str) :
    (∀ a b, Verif.find_split s '%' = some (a, b) → (find_split s '%').2 ≤ blen a + 4 ∧
      blen a + blen b = blen s ∧ (s.head? ≠ some '%' → a ≠ [])) ∧ (find_split s '%').2 ≤ blen s := by
  unfold find_split Verif.find_split
  obtain ⟨h1, h2⟩ := findSplitP_snd (· == '%') s
  refine ⟨fun a b hab => ?_, h2⟩
  obtain ⟨h3, h4⟩ := h1 a b hab
  refine ⟨by omega, h4, fun hh ha => ?_⟩
  subst ha
  rcases s with _ | ⟨c, s⟩
  · cases hab
  · unfold Verif.findSplitP at hab
    by_cases hc : (c == '%') = true
    · have : c = '%' := by simpa using hc
      subst this
      exact hh rfl
    · rw [if_neg hc, Option.map_eq_some_iff] at hab
      obtain ⟨x, _, hx⟩ := hab
      cases hx

theorem plainPrefix_snd {f : Callback σ} (h : Cheap f) (dbg : Bool) (st : σ) (r : Str) :
    (plainPrefix dbg f ((st, false), r)).2 ≤ 3 * blen r + 7 ∧
    ∀ o r', (plainPrefix dbg f ((st, false), r)).1 = some (o, r') →
      (plainPrefix dbg f ((st, false), r)).2 + 3 * blen r' ≤ 3 * blen r + 7 ∧ blen r' ≤ blen r ∧
      (r.head? ≠ some '%' → r ≠ [] → blen r' < blen r) := by
  unfold plainPrefix
  simp only [Bool.false_eq_true, if_false]
  rw [bind_fst, bind_snd, find_split_fst]
  obtain ⟨h1, h2⟩ := find_pct_snd r
  have hpos : ∀ a : Str, a ≠ [] → 0 < blen a := by
    intro a ha
    rcases a with _ | ⟨c, a⟩
    · exact absurd rfl ha
    · have := Char.utf8Size_pos c
      rw [blen_cons]; omega
  have gen : ∀ a b : Str, (find_split r '%').2 ≤ blen a + 4 → blen a + blen b = blen r →
      (r.head? ≠ some '%' → r ≠ [] → a ≠ []) →
      (find_split r '%').2 + (if (dbg && a.isEmpty) = true then ret none
        else obind (f st (.noPct a)) fun o' => ret (some (o', b))).2 ≤ 3 * blen r + 7 ∧
      ∀ o r', (if (dbg && a.isEmpty) = true then ret none
        else obind (f st (.noPct a)) fun o' => ret (some (o', b))).1 = some (o, r') →
        (find_split r '%').2 + (if (dbg && a.isEmpty) = true then ret none
          else obind (f st (.noPct a)) fun o' => ret (some (o', b))).2 + 3 * blen r' ≤ 3 * blen r + 7 ∧
        blen r' ≤ blen r ∧ (r.head? ≠ some '%' → r ≠ [] → blen r' < blen r) := by
    intro a b e1 e2 e3
    have hf := h st (.noPct a)
    simp only [fragLen] at hf
    by_cases hd : (dbg && a.isEmpty) = true
    · rw [if_pos hd]
      refine ⟨by simp only [ret_snd]; omega, fun o r' hx => by cases hx⟩
    · rw [if_neg hd]
      have hc : (obind (f st (.noPct a)) fun o' => ret (some (o', b))).2 ≤ (f st (.noPct a)).2 + 0 :=
        obind_le _ _ 0 fun _ _ => Nat.zero_le _
      refine ⟨by omega, fun o r' hx => ?_⟩
      have hb : r' = b := by
        rw [obind_fst, Option.bind_eq_some_iff] at hx
        obtain ⟨o', _, hx⟩ := hx
        cases hx; rfl
      subst hb
      refine ⟨by omega, by omega, fun g1 g2 => ?_⟩
      have := hpos a (e3 g1 g2)
      omega
  rcases hs : Verif.find_split r '%' with _ | ⟨a, b⟩
  · exact gen r [] (by omega) (by simp) fun _ h => h
  · obtain ⟨e1, e2, e3⟩ := h1 a b hs
    exact gen a b e1 e2 fun g _ => e3 g

theorem writeStep_snd {f : Callback σ} (h : Cheap f) (dbg : Bool) (st : σ) {e r : Str} (ho : Ok1 e)
    (hl : e.length ≤ 12) (hr : r ≠ []) :
    (writeStep dbg f st e r).2 ≤ 16 * e.length + 48 * blen r ∧
    ∀ o e' r', (writeStep dbg f st e r).1 = some (o, e', r') → o.2 = false → Ok1 e' ∧ e'.length ≤ 12 ∧
      (writeStep dbg f st e r).2 + 16 * e'.length + 48 * blen r' ≤ 16 * e.length + 48 * blen r := by
  have hpos : 0 < blen r := by
    rcases r with _ | ⟨c, r⟩
    · exact absurd rfl hr
    · have := Char.utf8Size_pos c
      rw [blen_cons]; omega
  obtain ⟨p1, p2⟩ := pushLoop_snd e 0 r ho hl
  unfold writeStep
  rcases hx : (pushLoop e 0 r).1 with _ | ⟨e1, n, p⟩
  · rw [obind_none hx, obind_fst, hx]
    refine ⟨by omega, fun _ _ _ h => by cases h⟩
  · obtain ⟨a1, a2, a3, a4, a5, a6, a7, a8⟩ := p2 e1 n p hx
    rw [obind_some hx, obind_fst, hx, Option.bind_some]
    dsimp only
    by_cases hn : n = 0
    · rw [if_pos hn]
      obtain ⟨b1, b2, b3⟩ := a8 hn
      have b2 := b2 hr
      subst b2
      have ef : flushRest f st [] r = ret (some ((st, false), r)) := rfl
      rw [ef]
      have eo : obind (ret (some ((st, false), r))) (plainPrefix dbg f) = plainPrefix dbg f ((st, false), r) := by
        unfold obind bind
        simp [ret]
      rw [eo]
      obtain ⟨q1, q2⟩ := plainPrefix_snd h dbg st r
      have hc : (obind (plainPrefix dbg f ((st, false), r)) fun y => ret (some (y.1, ([] : Str), y.2))).2 ≤
          (plainPrefix dbg f ((st, false), r)).2 + 0 := obind_le _ _ 0 fun _ _ => Nat.zero_le _
      have helen : e = [] ∨ 0 < e.length := by
        rcases e with _ | ⟨c, e⟩
        · exact .inl rfl
        · exact .inr (by simp)
      refine ⟨by rcases helen with rfl | _ <;> simp only [List.length_nil] at * <;> omega, ?_⟩
      intro o e' r' ho' _
      rw [obind_fst, Option.bind_eq_some_iff] at ho'
      obtain ⟨⟨o1, r1⟩, ho1, ho2⟩ := ho'
      cases ho2
      obtain ⟨q3, q4, q5⟩ := q2 _ _ ho1
      refine ⟨Ok1.nil, by simp, ?_⟩
      rcases helen with rfl | hp
      · have := q5 (b3 rfl) hr
        simp only [List.length_nil] at *
        omega
      · simp only [List.length_nil] at *
        omega
    · rw [if_neg hn]
      have q := processPush_snd h st a3
      have hc : (obind (processPush f st p) fun o => ret (if o.2 then some (o, e1, r)
          else (sliceFrom r n).map fun r => (o, e1, r))).2 ≤ (processPush f st p).2 + 0 :=
        obind_le _ _ 0 fun _ _ => Nat.zero_le _
      refine ⟨by omega, ?_⟩
      intro o e' r' ho' hs
      rw [obind_fst, Option.bind_eq_some_iff] at ho'
      obtain ⟨o1, ho1, ho2⟩ := ho'
      rw [ret_fst] at ho2
      by_cases hb : o1.2 = true
      · rw [if_pos hb] at ho2
        cases ho2
        rw [hs] at hb; cases hb
      · rw [if_neg hb, Option.map_eq_some_iff] at ho2
        obtain ⟨r1, ho3, ho4⟩ := ho2
        cases ho4
        obtain ⟨pre, e5, e6⟩ := Out.sliceFrom_suffix ho3
        have e7 : blen r = blen pre + blen r' := by rw [e5, blen_append]
        refine ⟨a1, a2, by omega⟩

theorem writeStr_snd {f : Callback σ} (h : Cheap f) (dbg : Bool) : ∀ (n : Nat) (st : σ) (e r : Str), Ok1 e →
    e.length ≤ 12 → (writeStr dbg f n st e r).2 ≤ 16 * e.length + 48 * blen r ∧
    ∀ o e', (writeStr dbg f n st e r).1 = some (o, e') → o.2 = false → Ok1 e' ∧ e'.length ≤ 12 ∧
      (writeStr dbg f n st e r).2 + 16 * e'.length ≤ 16 * e.length + 48 * blen r
  | 0, _, _, _, _, _ => ⟨Nat.zero_le _, fun _ _ h => by cases h⟩
  | n + 1, st, e, r, ho, hl => by
    unfold writeStr
    by_cases hr : r.isEmpty = true
    · rw [if_pos hr]
      refine ⟨Nat.zero_le _, fun o e' hx _ => ?_⟩
      cases hx
      refine ⟨ho, hl, ?_⟩
      simp only [ret_snd]; omega
    · rw [if_neg hr]
      obtain ⟨s1, s2⟩ := writeStep_snd h dbg st ho hl (by simpa using hr)
      rcases hx : (writeStep dbg f st e r).1 with _ | ⟨o1, e1, r1⟩
      · rw [obind_none hx, obind_fst, hx]
        exact ⟨s1, fun _ _ h => by cases h⟩
      · rw [obind_some hx, obind_fst, hx, Option.bind_some]
        dsimp only
        by_cases hb : o1.2 = true
        · rw [if_pos hb]
          refine ⟨by simp only [ret_snd]; omega, fun o e' hx hs => ?_⟩
          cases hx
          rw [hs] at hb; cases hb
        · rw [if_neg hb]
          obtain ⟨t1, t2, t3⟩ := s2 o1 e1 r1 hx (by simpa using hb)
          obtain ⟨u1, u2⟩ := writeStr_snd h dbg n o1.1 e1 r1 t1 t2
          refine ⟨by omega, fun o e' hx hs => ?_⟩
          obtain ⟨v1, v2, v3⟩ := u2 o e' hx hs
          exact ⟨v1, v2, by omega⟩

/-- Bytes of the pieces. -/
theorem flatten_cons_len (s : Str) (v : List Str) : blen (s :: v).flatten = blen s + blen v.flatten := by
  rw [List.flatten_cons, blen_append]

theorem writeAll_snd {f : Callback σ} (h : Cheap f) (dbg : Bool) : ∀ (v : List Str) (st : σ) (e : Str), Ok1 e →
    e.length ≤ 12 → (writeAll dbg f st e v).2 ≤ 16 * e.length + 48 * blen v.flatten ∧
    ∀ o e', (writeAll dbg f st e v).1 = some (o, e') → o.2 = false → Ok1 e' ∧
      (writeAll dbg f st e v).2 + 16 * e'.length ≤ 16 * e.length + 48 * blen v.flatten
  | [], st, e, ho, hl => by
    refine ⟨Nat.zero_le _, fun o e' hx _ => ?_⟩
    cases hx
    refine ⟨ho, ?_⟩
    simp only [writeAll, ret_snd]; omega
  | s :: v, st, e, ho, hl => by
    unfold writeAll
    rw [flatten_cons_len]
    obtain ⟨s1, s2⟩ := writeStr_snd h dbg (2 * s.length + 2) st e s ho hl
    rcases hx : (writeStr dbg f (2 * s.length + 2) st e s).1 with _ | ⟨o1, e1⟩
    · rw [obind_none hx, obind_fst, hx]
      exact ⟨by omega, fun _ _ h => by cases h⟩
    · rw [obind_some hx, obind_fst, hx, Option.bind_some]
      dsimp only
      by_cases hb : o1.2 = true
      · rw [if_pos hb]
        refine ⟨by simp only [ret_snd]; omega, fun o e' hx hs => ?_⟩
        cases hx
        rw [hs] at hb; cases hb
      · rw [if_neg hb]
        obtain ⟨t1, t2, t3⟩ := s2 o1 e1 hx (by simpa using hb)
        obtain ⟨u1, u2⟩ := writeAll_snd h dbg v o1.1 e1 t1 t2
        refine ⟨by omega, fun o e' hx hs => ?_⟩
        obtain ⟨v1, v2⟩ := u2 o e' hx hs
        exact ⟨v1, by omega⟩

theorem process_snd {f : Callback σ} (h : Cheap f) (dbg : Bool) (st : σ) (v : List Str) :
    (process_percent_encoded_best_effort dbg f st v).2 ≤ 48 * blen v.flatten := by
  unfold process_percent_encoded_best_effort
  obtain ⟨s1, s2⟩ := writeAll_snd h dbg v st [] Ok1.nil (by simp)
  simp only [List.length_nil, Nat.mul_zero, Nat.zero_add] at s1 s2
  rcases hx : (writeAll dbg f st [] v).1 with _ | ⟨o1, e1⟩
  · rw [obind_none hx]; omega
  · rw [obind_some hx]
    dsimp only
    by_cases hb : o1.2 = true
    · rw [if_pos hb]; simp only [ret_snd]; omega
    · rw [if_neg hb]
      obtain ⟨t1, t2⟩ := s2 o1 e1 hx (by simpa using hb)
      by_cases he : e1.isEmpty = true
      · rw [if_pos he]; simp only [ret_snd]; omega
      · rw [if_neg he]
        have hc : (obind (output_as_undecodable f o1.1 e1) fun o => ret (some o.1)).2 ≤
          (output_as_undecodable f o1.1 e1).2 + 0 := obind_le _ _ 0 fun _ _ => Nat.zero_le _
        have := output_as_undecodable_snd h o1.1 t1
        have : 0 < e1.length := by
          rcases e1 with _ | ⟨c, e1⟩
          · exact absurd rfl he
          · simp
        omega

theorem pieces_sum (v : List Str) : (v.map blen).sum = blen v.flatten := by
  induction v with
  | nil => rfl
  | cons s v ih => rw [flatten_cons_len, List.map_cons, List.sum_cons, ih]

theorem percent_encode_snd (S : Spec) (c : Context) (v : List Str) : (percent_encode S c v).2 = blen v.flatten :=
  pieces_sum v

theorem percent_encode_one (S : Spec) (c : Context) (s : Str) : (percent_encode S c [s]).2 = blen s := by
  rw [percent_encode_snd]; simp

theorem escapeFrag_cheap (S : Spec) : Cheap (escapeFrag S) := by
  intro st frag
  cases frag with
  | noPct s =>
    show (percent_encode S .character [s]).2 + 0 ≤ 2 * blen s + 3
    rw [percent_encode_one]; omega
  | char s => show blen s ≤ 2 * blen s + 3; omega
  | stray => exact Nat.le_refl _
  | invalid s => show blen s ≤ 2 * blen s + 3; omega

theorem unboundedFrag_cheap (S : Spec) : Cheap (unboundedFrag S) := by
  intro st frag
  cases frag with
  | noPct s =>
    unfold unboundedFrag
    rw [bind_snd]
    dsimp only
    cases s.isEmpty
    · show blen s + ((percent_encode S .character [s]).2 + 0) ≤ 2 * blen s + 3
      rw [percent_encode_one]; omega
    · show blen s + 0 ≤ 2 * blen s + 3
      omega
  | char s => exact escapeFrag_cheap S _ _
  | stray => exact escapeFrag_cheap S _ _
  | invalid s => exact escapeFrag_cheap S _ _

theorem truncFrag_cheap (S : Spec) (dbg : Bool) : Cheap (truncFrag S dbg) := by
  intro st frag
  unfold truncFrag
  by_cases h : st.2 = 0
  · dsimp only; rw [if_pos h]; exact Nat.zero_le _
  · dsimp only
    rw [if_neg h]
    cases frag with
    | char s => show blen s ≤ 2 * blen s + 3; omega
    | stray => exact Nat.le_refl _
    | invalid s =>
      have := TplSize.blen_take s (min st.2 (s.length / 3) * 3)
      show blen (s.take (min st.2 (s.length / 3) * 3)) ≤ 2 * blen s + 3
      omega
    | noPct s =>
      have ht := TplSize.blen_take s st.2
      dsimp only
      refine Nat.le_trans (obind_le _ _ (blen s) fun a _ => ?_) ?_
      · refine Nat.le_trans (obind_le _ _ (blen s) fun a _ => ?_) ?_
        · rw [bind_snd, percent_encode_one]; simp only [ret_snd]; omega
        · show 0 + blen s ≤ blen s
          omega
      · show blen (s.take st.2) + blen s ≤ 2 * blen s + 3
        omega

theorem escape_write_snd (S : Spec) (dbg : Bool) (v : Tpl.Disp) (b : Bool) :
    (escape_write S dbg v b).2 ≤ 48 * blen v.flatten := by
  unfold escape_write
  split
  · exact process_snd (escapeFrag_cheap S) _ _ _
  · rw [bind_snd, percent_encode_snd]; simp only [ret_snd]; omega

theorem truncateWrite_snd (S : Spec) (dbg : Bool) : ∀ (v : Tpl.Disp) (n : Nat),
    (truncateWrite S dbg n v).2 ≤ 2 * blen v.flatten
  | [], _ => Nat.zero_le _
  | s :: r, n => by
    unfold truncateWrite
    rw [flatten_cons_len]
    split
    · have := truncateWrite_snd S dbg r n
      omega
    · have ht := TplSize.blen_take s n
      rw [bind_snd, bind_snd, percent_encode_one]
      have h1 : (obind (Tpl.usizeSub dbg n (((lastOfFirst s n).1.map (· + 1)).getD 0), 0) fun rest' =>
          obind (truncateWrite S dbg rest' r) fun u =>
            ret (some ((percent_encode S .unreserve [s.take n]).1 ++ u))).2 ≤ 0 + 2 * blen r.flatten := by
        refine obind_le _ _ _ fun m _ => ?_
        refine Nat.le_trans (obind_le _ _ 0 fun _ _ => Nat.zero_le _) ?_
        have := truncateWrite_snd S dbg r m
        omega
      have h2 : (lastOfFirst s n).2 = blen (s.take n) := rfl
      omega

theorem escape_write_with_maxlen_snd (S : Spec) (dbg : Bool) (v : Tpl.Disp) (b : Bool) (m : Option Nat) :
    (escape_write_with_maxlen S dbg v b m).2 ≤ 48 * blen v.flatten := by
  unfold escape_write_with_maxlen
  cases b <;> cases m <;> dsimp only
  · simp only [Bool.false_eq_true, if_false, bind_snd, percent_encode_snd, ret_snd]; omega
  · have := truncateWrite_snd S dbg v
    simp only [Bool.false_eq_true, if_false]
    have := this (by assumption)
    omega
  · exact process_snd (unboundedFrag_cheap S) _ _ _
  · simp only [if_true]
    refine Nat.le_trans (obind_le _ _ 0 fun _ _ => Nat.zero_le _) ?_
    exact process_snd (truncFrag_cheap S dbg) _ _ _

theorem writeName_le (b : Bool) (n : Str) : (if b then writeName n else ret []).2 ≤ blen n := by
  cases b
  · exact Nat.zero_le _
  · exact Nat.le_refl _

theorem visit_string_snd (S : Spec) (dbg : Bool) (op : Tpl.Operator) (sp : Tpl.VarSpec) (first : Bool) (v : Tpl.Disp) :
    (visit_string S dbg op sp first v).2 ≤ blen sp.name + 48 * blen v.flatten := by
  unfold visit_string
  dsimp only
  rw [bind_snd]
  have h1 := writeName_le (Tpl.opProps op).named sp.name
  have h2 := escape_write_with_maxlen_snd S dbg v (Tpl.opProps op).allow_reserved (Tpl.maxLenOf sp.modifier)
  refine Nat.add_le_add h1 (Nat.le_trans (obind_le _ _ 0 fun _ _ => Nat.zero_le _) ?_)
  omega

theorem one_flatten (s : Str) : blen [s].flatten = blen s := by simp

theorem visit_item_snd (S : Spec) (dbg : Bool) (op : Tpl.Operator) (sp : Tpl.VarSpec) (first : Bool) (n : Nat)
    (v : Tpl.Disp) : (visit_item S dbg op sp first n v).2 ≤ 48 * (blen v.flatten + blen sp.name) := by
  unfold visit_item
  dsimp only
  refine Nat.le_trans (obind_le _ _ (48 * (blen v.flatten + blen sp.name)) fun e _ => ?_) (by
    show 0 + _ ≤ _; omega)
  have h2 := escape_write_snd S dbg v (Tpl.opProps op).allow_reserved
  refine Nat.le_trans (obind_le _ _ (48 * blen v.flatten) fun a _ => ?_) ?_
  · exact Nat.le_trans (obind_le _ _ 0 fun _ _ => Nat.zero_le _) (by omega)
  · have h3 : ∀ x : T (Option Str), x.2 ≤ 48 * blen sp.name →
        x.2 + 48 * blen v.flatten ≤ 48 * (blen v.flatten + blen sp.name) := by intro x hx; omega
    refine h3 _ ?_
    split
    · rw [bind_snd]
      have := writeName_le (Tpl.opProps op).named sp.name
      simp only [ret_snd]; omega
    · split
      · exact Nat.zero_le _
      · split
        · exact Nat.zero_le _
        · refine Nat.le_trans (obind_le _ _ 0 fun _ _ => Nat.zero_le _) ?_
          have := escape_write_snd S dbg [sp.name] (Tpl.opProps op).allow_reserved
          rw [one_flatten] at this
          omega

theorem visit_items_snd (S : Spec) (dbg : Bool) (op : Tpl.Operator) (sp : Tpl.VarSpec) (first : Bool) :
    ∀ (l : List Tpl.Disp) (n : Nat), (visit_items S dbg op sp first n l).2 ≤
      48 * (l.map fun d => blen d.flatten + blen sp.name).sum
  | [], _ => Nat.zero_le _
  | a :: l, n => by
    unfold visit_items
    rw [List.map_cons, List.sum_cons]
    have h1 := visit_item_snd S dbg op sp first n a
    have h2 := visit_items_snd S dbg op sp first l (n + 1)
    refine Nat.le_trans (obind_le _ _ (visit_items S dbg op sp first (n + 1) l).2 fun x _ => ?_) (by omega)
    exact Nat.le_trans (obind_le _ _ 0 fun _ _ => Nat.zero_le _) (by omega)

theorem visit_entry_snd (S : Spec) (dbg : Bool) (op : Tpl.Operator) (sp : Tpl.VarSpec) (first : Bool) (n : Nat)
    (v : Tpl.Disp × Tpl.Disp) : (visit_entry S dbg op sp first n v).2 ≤
      48 * (blen v.1.flatten + blen v.2.flatten) + if n = 0 then 48 * blen sp.name else 0 := by
  unfold visit_entry
  dsimp only
  have hk := escape_write_snd S dbg v.1 (Tpl.opProps op).allow_reserved
  have hv := escape_write_snd S dbg v.2 (Tpl.opProps op).allow_reserved
  have hn := escape_write_snd S dbg [sp.name] (Tpl.opProps op).allow_reserved
  rw [one_flatten] at hn
  have hk' : ∀ g : Str → Str, (obind (escape_write S dbg v.1 (Tpl.opProps op).allow_reserved)
      fun k => ret (some (g k))).2 ≤ 48 * blen v.1.flatten := fun g =>
    Nat.le_trans (obind_le _ _ 0 fun _ _ => Nat.zero_le _) (by omega)
  refine Nat.le_trans (obind_le _ _ (48 * (blen v.1.flatten + blen v.2.flatten) +
    if n = 0 then 48 * blen sp.name else 0) fun e _ => ?_) (by show 0 + _ ≤ _; omega)
  refine Nat.le_trans (obind_le _ _ (48 * blen v.2.flatten) fun a _ => ?_) ?_
  · exact Nat.le_trans (obind_le _ _ 0 fun _ _ => Nat.zero_le _) (by omega)
  · have h3 : ∀ x : T (Option Str), x.2 ≤ 48 * blen v.1.flatten + (if n = 0 then 48 * blen sp.name else 0) →
        x.2 + 48 * blen v.2.flatten ≤ 48 * (blen v.1.flatten + blen v.2.flatten) +
          if n = 0 then 48 * blen sp.name else 0 := by intro x hx; omega
    refine h3 _ ?_
    by_cases h0 : n = 0
    · rw [if_pos h0, if_pos h0]
      split
      · exact Nat.le_trans (hk' _) (by omega)
      · refine Nat.le_trans (obind_le _ _ (48 * blen v.1.flatten) fun m _ => hk' _) ?_
        have h4 : ∀ x : T (Option Str), x.2 ≤ 48 * blen sp.name →
            x.2 + 48 * blen v.1.flatten ≤ 48 * blen v.1.flatten + 48 * blen sp.name := by intro x hx; omega
        refine h4 _ ?_
        split
        · exact Nat.le_trans (obind_le _ _ 0 fun _ _ => Nat.zero_le _) (by omega)
        · exact Nat.zero_le _
    · rw [if_neg h0, if_neg h0]
      split
      · exact Nat.le_trans (hk' _) (by omega)
      · exact Nat.le_trans (hk' _) (by omega)

theorem visit_entries_snd (S : Spec) (dbg : Bool) (op : Tpl.Operator) (sp : Tpl.VarSpec) (first : Bool) :
    ∀ (l : List (Tpl.Disp × Tpl.Disp)) (n : Nat), (visit_entries S dbg op sp first n l).2 ≤
      48 * (l.map fun e => blen e.1.flatten + blen e.2.flatten).sum + if n = 0 then 48 * blen sp.name else 0
  | [], _ => Nat.zero_le _
  | a :: l, n => by
    unfold visit_entries
    rw [List.map_cons, List.sum_cons]
    have h1 := visit_entry_snd S dbg op sp first n a
    have h2 := visit_entries_snd S dbg op sp first l (n + 1)
    rw [if_neg (by omega)] at h2
    refine Nat.le_trans (obind_le _ _ (visit_entries S dbg op sp first (n + 1) l).2 fun x _ => ?_) (by omega)
    exact Nat.le_trans (obind_le _ _ 0 fun _ _ => Nat.zero_le _) (by omega)

open Verif.Rfc6570 (valueSize)

theorem sum_mono {α : Type} (f g : α → Nat) (h : ∀ a, f a ≤ g a) (l : List α) : (l.map f).sum ≤ (l.map g).sum := by
  induction l with
  | nil => exact Nat.le_refl _
  | cons a l ih => simp only [List.map_cons, List.sum_cons]; have := h a; omega

theorem visit_value_snd (S : Spec) (dbg : Bool) (op : Tpl.Operator) (sp : Tpl.VarSpec) (first : Bool)
    (v : Tpl.Value) : (visit_value S dbg op sp first v).2 ≤ 48 * (blen sp.name + valueSize sp.name v) := by
  cases v with
  | undefined => exact Nat.zero_le _
  | string v =>
    have := visit_string_snd S dbg op sp first v
    refine Nat.le_trans (obind_le _ _ 0 fun _ _ => Nat.zero_le _) ?_
    simp only [valueSize, Tpl.bytes_eq]
    omega
  | list l =>
    have := visit_items_snd S dbg op sp first l 0
    have hs := sum_mono (fun d : Tpl.Disp => blen d.flatten + blen sp.name)
      (fun d => blen d.flatten + blen sp.name + 1) (fun d => by omega) l
    refine Nat.le_trans (obind_le _ _ 0 fun _ _ => Nat.zero_le _) ?_
    simp only [valueSize, Tpl.bytes_eq]
    omega
  | assoc l =>
    have := visit_entries_snd S dbg op sp first l 0
    rw [if_pos rfl] at this
    have hs := sum_mono (fun e : Tpl.Disp × Tpl.Disp => blen e.1.flatten + blen e.2.flatten)
      (fun e => blen e.1.flatten + blen e.2.flatten + 1) (fun e => by omega) l
    refine Nat.le_trans (obind_le _ _ 0 fun _ _ => Nat.zero_le _) ?_
    simp only [valueSize, Tpl.bytes_eq]
    omega

open Verif.Abnf Verif.Rfc Verif.Rfc6570 Verif.Tpl

theorem varsText_cons_len (v : Var) (vs : List Var) :
    blen v.render + blen (varsText vs) ≤ blen (varsText (v :: vs)) := by
  cases vs with
  | nil => simp [varsText, joinWith]
  | cons w vs =>
    have e : varsText (v :: w :: vs) = v.render ++ ([','] ++ varsText (w :: vs)) := by
      simp [varsText, joinWith]
    rw [e, blen_append, blen_append]
    omega

theorem name_le (v : Var) : blen v.name ≤ blen v.render := by
  unfold Var.render; rw [blen_append]; omega

theorem expandVars_snd (S : Spec) (dbg : Bool) (ctx : Tpl.Ctx) (op : Tpl.Operator) : ∀ (vars : List Var)
    (f : Nat) (first : Bool), (∀ v ∈ vars, v.WF varnameX maxLengthX) → (∀ v ∈ vars, Fits v) →
    (expandVars S dbg ctx op f first (varsText vars)).2 ≤
      51 * blen (varsText vars) + 48 * (vars.map fun v => valueSize v.name (ctx .expand v.name)).sum
  | [], f, first, _, _ => by
    cases f with
    | zero => exact Nat.zero_le _
    | succ f =>
      have h1 := (varListNext_snd (varsText [])).1
      unfold expandVars
      rw [bind_snd, varListNext_fst]
      have e : Tpl.varListNext (varsText []) = some none := rfl
      rw [e]
      simp only [ret_snd]
      omega
  | v :: vs, 0, first, _, _ => Nat.zero_le _
  | v :: vs, f + 1, first, hw, hf => by
    have e := (varListNext_cons (hw v (by simp)) vs).1 (hf v (by simp))
    have h1 := (varListNext_snd (varsText (v :: vs))).2
    rw [varListNext_fst] at h1
    have h1 := h1 _ _ e
    have h2 := varsText_cons_len v vs
    have h3 := name_le v
    unfold expandVars
    rw [bind_snd, varListNext_fst, e]
    dsimp only
    have e2 : (toSpec v).name = v.name := rfl
    rw [e2, List.map_cons, List.sum_cons]
    have h4 := visit_value_snd S dbg op (toSpec v) first (ctx .expand v.name)
    rw [e2] at h4
    have h5 := obind_le (visit_value S dbg op (toSpec v) first (ctx .expand v.name))
      (fun o => obind (expandVars S dbg ctx op f o.2 (varsText vs)) fun t => ret (some (o.1 ++ t)))
      (51 * blen (varsText vs) + 48 * (vs.map fun v => valueSize v.name (ctx .expand v.name)).sum)
      (fun o _ => by
        refine Nat.le_trans (obind_le _ _ 0 fun _ _ => Nat.zero_le _) ?_
        exact expandVars_snd S dbg ctx op vs f o.2 (fun v hv => hw v (by simp [hv])) (fun v hv => hf v (by simp [hv])))
    omega

theorem bodyText_len (op : Option Char) (vars : List Var) :
    blen (varsText vars) ≤ blen (bodyText op vars) := by
  unfold bodyText; rw [blen_append]; omega

theorem expandExpr_snd (S : Spec) (dbg : Bool) (ctx : Tpl.Ctx) {op : Option Char} {vars : List Var}
    (h : Piece.WF asciiLiterals varnameX maxLengthX (.expr op vars)) (hf : ∀ v ∈ vars, Fits v) :
    (expandExpr S dbg ctx (bodyText op vars)).2 ≤
      51 * blen (bodyText op vars) + 1 + 48 * (vars.map fun v => valueSize v.name (ctx .expand v.name)).sum := by
  unfold expandExpr
  have h1 := expandVars_snd S dbg ctx (toOp op) vars ((varsText vars).length + 1) true h.2.2 hf
  have h2 := bodyText_len op vars
  have e : (decompose (bodyText op vars)).1 = some (toOp op, varsText vars) := Tpl.decompose_eq h
  rw [obind_some e]
  have e2 : (decompose (bodyText op vars)).2 = 1 := rfl
  dsimp only
  omega

/-- What the variables of a template count. -/
def used (ctx : Tpl.Ctx) (t : List Piece) : Nat :=
  ((varsOf t).map fun v => valueSize v.name (ctx .expand v.name)).sum

theorem displayExpanded_snd (S : Spec) (dbg : Bool) (ctx : Tpl.Ctx) : ∀ (t : List Piece) (f : Nat), Chunked t →
    (∀ v ∈ varsOf t, Fits v) → (displayExpanded S dbg ctx f (text t)).2 ≤ 52 * blen (text t) + 48 * used ctx t
  | _, 0, _, _ => Nat.zero_le _
  | [], f + 1, _, _ => by
    have h1 := (chunksNext_snd (text [])).1
    have e : Tpl.chunksNext (text []) = some none := rfl
    unfold displayExpanded
    rw [bind_snd, chunksNext_fst, e]
    simp only [ret_snd]
    omega
  | p :: t, f + 1, h, hs => by
    obtain ⟨g1, g2, g3, g4⟩ := chunks_step h
    obtain ⟨c1, c2, c3⟩ := chunksNext_snd (text (p :: t))
    rw [chunksNext_fst] at c2 c3
    have ih := displayExpanded_snd S dbg ctx t f g2 (fun v hv => hs v (by simp [varsOf] at hv ⊢; exact .inr hv))
    have el : blen (text (p :: t)) = blen p.render + blen (text t) := by simp [text]
    unfold displayExpanded
    rw [bind_snd, chunksNext_fst, g1]
    cases p with
    | lit s =>
      have c2 := c2 _ _ g1
      have eu : used ctx (.lit s :: t) = used ctx t := by simp [used, varsOf]
      have er : (Piece.lit s).render = s := rfl
      rw [er] at el
      simp only [chunkOf]
      rw [bind_snd, eu]
      have h5 := obind_le (displayExpanded S dbg ctx f (text t)) (fun u => ret (some (s ++ u))) 0
        (fun _ _ => Nat.zero_le _)
      dsimp only at h5 ⊢
      omega
    | expr op vars =>
      have c3 := c3 _ _ g1
      have eu : used ctx (.expr op vars :: t) =
          (vars.map fun v => valueSize v.name (ctx .expand v.name)).sum + used ctx t := by
        simp [used, varsOf]
      have h4 := expandExpr_snd S dbg ctx (g4 op vars rfl) (fun v hv => hs v (by simp [varsOf]; exact .inl hv))
      simp only [chunkOf]
      rw [eu]
      have h5 := obind_le (expandExpr S dbg ctx (bodyText op vars))
        (fun a => obind (displayExpanded S dbg ctx f (text t)) fun u => ret (some (a ++ u)))
        (displayExpanded S dbg ctx f (text t)).2
        (fun a _ => Nat.le_trans (obind_le _ _ 0 fun _ _ => Nat.zero_le _) (by omega))
      omega

theorem typecheckVars_snd (ctx : Tpl.Ctx) : ∀ (f pos : Nat) (s : Str), (typecheckVars ctx f pos s).2 ≤ 3 * blen s
  | 0, _, _ => Nat.zero_le _
  | f + 1, pos, s => by
    obtain ⟨h1, h2⟩ := varListNext_snd s
    unfold typecheckVars
    rw [bind_snd]
    rcases e : (varListNext s).1 with _ | (_ | ⟨⟨len, sp⟩, r⟩)
    · simp only [ret_snd]; omega
    · simp only [ret_snd]; omega
    · have h3 := h2 _ _ e
      dsimp only
      split
      · simp only [ret_snd]; omega
      · have := typecheckVars_snd ctx f (pos + (len + 1)) r
        omega

theorem typecheckExpr_snd (ctx : Tpl.Ctx) (pos : Nat) (b : Str) : (typecheckExpr ctx pos b).2 ≤ 3 * blen b + 1 := by
  unfold typecheckExpr
  rw [bind_snd]
  have e2 : (decompose b).2 = 1 := rfl
  rcases e : (decompose b).1 with _ | ⟨op, l⟩
  · simp only [ret_snd]; omega
  · have h1 := typecheckVars_snd ctx (l.length + 1) (pos + (op.len + 1)) l
    have h2 := decompose_len e
    dsimp only
    have h3 := rb_le (typecheckVars ctx (l.length + 1) (pos + (op.len + 1)) l)
      (fun pos' => ret (if pos' = pos + blen b + 2 then .ok pos' else .panic)) 0 (fun _ _ => Nat.zero_le _)
    omega

theorem typecheck_snd (ctx : Tpl.Ctx) : ∀ (f pos : Nat) (s : Str), (typecheck ctx f pos s).2 ≤ 4 * blen s
  | 0, _, _ => Nat.zero_le _
  | f + 1, pos, s => by
    obtain ⟨c1, c2, c3⟩ := chunksNext_snd s
    unfold typecheck
    rw [bind_snd]
    rcases e : (chunksNext s).1 with _ | (_ | ⟨l | b, r⟩)
    · simp only [ret_snd]; omega
    · simp only [ret_snd]; omega
    · have := c2 _ _ e
      have := typecheck_snd ctx f (pos + blen l) r
      dsimp only
      omega
    · have := c3 _ _ e
      have := typecheckExpr_snd ctx pos b
      dsimp only
      have h3 := rb_le (typecheckExpr ctx pos b) (fun pos' => typecheck ctx f pos' r) (4 * blen r)
        (fun p _ => typecheck_snd ctx f p r)
      omega

end Work

/-- **C96 (the counter changes nothing).**  With the counter, expansion gives the same text, error or panic. -/
theorem C96_same (S : Spec) (dbg : Bool) (ctx : Tpl.Ctx) (template : Str) :
    (Work.expand_to_string S dbg ctx template).1 = Tpl.expand_to_string S dbg ctx template := by
  unfold Work.expand_to_string Tpl.expand_to_string
  rw [Work.rb_fst, Work.typecheck_fst]
  congr 1; funext u
  rw [Work.bind_fst, Work.displayExpanded_fst]
  rcases Tpl.displayExpanded S dbg ctx (template.length + 1) template with _ | _ <;> rfl

open Verif.Abnf Verif.Rfc Verif.Rfc6570 Verif.Tpl in
/-- **C96 (linear).**  Expanding a template into a string (the check of the types, and the text) looks at and copies at
most 56 bytes per byte of the template and of the values of its variables, counted as often as they occur in it.  No
template and no value, in however many pieces it is written, and however its percent-encoded triplets are broken
or cut, makes it more. -/
theorem C96_linear (S : Spec) (dbg : Bool) (ctx : Tpl.Ctx) (template : Str) (ns : List Str)
    (ht : Tpl.validate_template_str template = .ok ()) (hn : Tpl.variables template = some ns) :
    (Work.expand_to_string S dbg ctx template).2 ≤
      56 * (blen template + (ns.map fun n => valueSize n (ctx .expand n)).sum) := by
  obtain ⟨t, ha, rfl⟩ := C32_cover template ht
  have hsm : SmallLengths t := by
    by_cases hs : SmallLengths t
    · exact hs
    · have := (C32_variables_partial t ha).2 hs; rw [hn] at this; cases this
  have hn' : ns = names t := by
    have := (C32_variables_partial t ha).1 hsm; rw [hn] at this; cases this; rfl
  subst hn'
  have h1 := Work.typecheck_snd ctx ((text t).length + 1) 0 (text t)
  have h2 := Work.displayExpanded_snd S dbg ctx (merge t) ((text t).length + 1) (merge_chunked ha) (by
    rw [varsOf_merge]; exact (smallLengths_iff t).1 hsm)
  rw [text_merge] at h2
  have h3 : Work.used ctx (merge t) = ((names t).map fun n => valueSize n (ctx .expand n)).sum := by
    unfold Work.used
    rw [varsOf_merge, names_eq, List.map_map]
    rfl
  rw [h3] at h2
  unfold Work.expand_to_string
  refine Nat.le_trans (Work.rb_le _ _
    (52 * blen (text t) + 48 * ((names t).map fun n => valueSize n (ctx .expand n)).sum) fun u _ => ?_) (by omega)
  rw [Work.bind_snd]
  rcases (Work.displayExpanded S dbg ctx ((text t).length + 1) (text t)).1 with _ | _ <;>
    simp only [Work.ret_snd] <;> omega

/-- Percent-encoded text cut between two pieces and broken, a list and an associative array: 20 bytes of template and
47 bytes of values, 184 bytes looked at and copied. -/
example :
    let ctx : Tpl.Ctx := fun _ n =>
      if n = ['v'] then .string [chars! "a b%C3", chars! "%A9%E3%81%zz"]
      else if n = ['l'] then .list [[chars! "x/"], [chars! "y"]] else .assoc [([chars! "k"], [chars! "é"])]
    Work.expand_to_string .uri true ctx (chars! "/p{+v}{?l*,m*}{v:2}!") =
      (.ok (chars! "/pa%20b%C3%A9%E3%81%25zz?l=x%2F&l=y&k=%C3%A9a%20!"), 184) ∧
    Tpl.variables (chars! "/p{+v}{?l*,m*}{v:2}!") = some [['v'], ['l'], ['m'], ['v']] ∧
    blen (chars! "/p{+v}{?l*,m*}{v:2}!") = 20 ∧
    2 * Rfc6570.valueSize ['v'] (ctx .expand ['v']) + Rfc6570.valueSize ['l'] (ctx .expand ['l']) +
      Rfc6570.valueSize ['m'] (ctx .expand ['m']) = 47 := by
  decide +kernel

end Verif
