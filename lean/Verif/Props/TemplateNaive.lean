import Verif.Lemmas.TemplateNaive
import Verif.Props.TemplateExpand
import Verif.Props.TemplateFragments
import Verif.Props.Construct
import Verif.Props.TemplateSafe

/-!
# C55: Rust values as values of template variables; C56: expansion into an IRI type
-/

namespace Verif.Tpl

open Verif.Rfc6570 Verif.Rfc

/-! ## C55 -/

/-- **C55** (`SimpleContext`): calling the visitor item by item is handing over the value, for every
map of variables, every text as template, and with every outcome. -/
theorem _root_.Verif.C55_simple (S : Spec) (dbg : Bool) (m : Variables) (template : Str) :
    expand_with S dbg (simpleVisit m) template = expand_to_string S dbg (Ctx.ofSimple m) template :=
  expand_with_eq (simple_hands m) S dbg template

theorem one_eq {d e : Disp} (h : OneCall d) (h' : OneCall e) (he : d.flatten = e.flatten) : d = e := by
  obtain ⟨a, rfl⟩ := h
  obtain ⟨b, rfl⟩ := h'
  simpa using he

theorem ones_eq {l l' : List Disp} (h : ∀ d ∈ l, OneCall d) (h' : ∀ d ∈ l', OneCall d)
    (he : l.map List.flatten = l'.map List.flatten) : l = l' := by
  induction l generalizing l' with
  | nil => cases l' with
    | nil => rfl
    | cons => simp at he
  | cons a r ih => cases l' with
    | nil => simp at he
    | cons b r' =>
      simp only [List.map_cons, List.cons.injEq] at he
      rw [one_eq (h a (by simp)) (h' b (by simp)) he.1,
        ih (fun d hd => h d (by simp [hd])) (fun d hd => h' d (by simp [hd])) he.2]

theorem onePairs_eq {l l' : List (Disp × Disp)} (h : ∀ e ∈ l, OneCall e.1 ∧ OneCall e.2)
    (h' : ∀ e ∈ l', OneCall e.1 ∧ OneCall e.2)
    (he : l.map (fun e => (e.1.flatten, e.2.flatten)) = l'.map fun e => (e.1.flatten, e.2.flatten)) :
    l = l' := by
  induction l generalizing l' with
  | nil => cases l' with
    | nil => rfl
    | cons => simp at he
  | cons a r ih => cases l' with
    | nil => simp at he
    | cons b r' =>
      simp only [List.map_cons, List.cons.injEq, Prod.mk.injEq] at he
      have h1 := h a (by simp)
      have h2 := h' b (by simp)
      rw [Prod.ext (one_eq h1.1 h2.1 he.1.1) (one_eq h1.2 h2.2 he.1.2),
        ih (fun d hd => h d (by simp [hd])) (fun d hd => h' d (by simp [hd])) he.2]

/-- Every text of the value is written in one call. -/
def OneValue : Value → Prop
  | .undefined => True
  | .string d => OneCall d
  | .list l => ∀ d ∈ l, OneCall d
  | .assoc l => ∀ e ∈ l, OneCall e.1 ∧ OneCall e.2

theorem flat_inj {a b : Value} (ha : OneValue a) (hb : OneValue b) (h : flat a = flat b) : a = b := by
  cases a <;> cases b <;> simp only [flat, reduceCtorEq, Val.str.injEq, Val.list.injEq, Val.assoc.injEq] at h
  · rfl
  · rw [one_eq ha hb h]
  · rw [ones_eq ha hb h]
  · rw [onePairs_eq ha hb h]

theorem onePiece_value {v : RustValue} (h : OnePiece v) : OneValue v.value := by
  induction h with
  | unit => trivial
  | none => trivial
  | some _ ih => exact ih
  | ref _ ih => exact ih
  | @int i hi =>
    cases i with
    | ofNat n => exact ⟨_, rfl⟩
    | negSucc n => omega
  | str => exact ⟨_, rfl⟩
  | list h => exact h
  | map h => exact h

theorem onePieceField_value {f : FieldVisit} (h : OnePieceField f) : OneValue f.value := by
  cases f with
  | naive v => exact onePiece_value h
  | _ => exact h

theorem struct_one {fields : List Field} (h : ∀ f ∈ fields, OnePieceField f.visit) (n : Str) :
    OneValue (structValue fields n) := by
  induction fields with
  | nil => trivial
  | cons a r ih =>
    rw [structValue]
    split
    · exact onePieceField_value (h a (by simp))
    · exact ih fun f hf => h f (by simp [hf])

theorem simple_one (m : Variables) (n : Str) : OneValue (Ctx.ofSimple m .expand n) := by
  unfold Ctx.ofSimple
  rcases mapGet m n with _ | _ | _ | _ | _
  · trivial
  · trivial
  · exact ⟨_, rfl⟩
  · intro d hd
    obtain ⟨s, _, rfl⟩ := List.mem_map.1 hd
    exact ⟨s, rfl⟩
  · intro d hd
    obtain ⟨s, _, rfl⟩ := List.mem_map.1 hd
    exact ⟨⟨_, rfl⟩, ⟨_, rfl⟩⟩

theorem flat_simple (m : Variables) (n : Str) :
    flat (Ctx.ofSimple m .expand n) = simpleVal (mapGet m n) := by
  unfold Ctx.ofSimple simpleVal
  rcases mapGet m n with _ | _ | _ | _ | _ <;> simp [flat, Function.comp_def]

/-- **C55** (structs): a struct whose fields have the same meaning as the variables of a
`SimpleContext` is expanded in the same way, for every text as template and with every outcome (text,
type error, panic).  Missing: fields that write a text in several calls, see `C55_ascii_partial`. -/
theorem _root_.Verif.C55_struct_partial (S : Spec) (dbg : Bool) (fields : List Field) (val : Str → Val)
    (hf : StructMeans fields val) (ho : ∀ f ∈ fields, OnePieceField f.visit)
    (m : Variables) (hm : ∀ n, simpleVal (mapGet m n) = val n) (template : Str) :
    expand_with S dbg (structVisit fields) template =
      expand_to_string S dbg (Ctx.ofSimple m) template := by
  rw [expand_with_eq (struct_hands fields)]
  congr 1
  funext p n
  show structValue fields n = Ctx.ofSimple m .expand n
  refine flat_inj (struct_one ho n) (simple_one m n) ?_
  rw [flat_simple, hm n, structMeans_iff.1 hf n]

/-- **C55** (structs, RFC 6570): templates without prefix modifiers and without the operators `+` and
`#`: for all fields, no matter how their texts are written, the text is exact, and the expansion never
fails. -/
theorem _root_.Verif.C55_plain (S : Spec) (dbg : Bool) (fields : List Field) (val : Str → Val)
    (hf : StructMeans fields val) (t : List Piece) (ha : Accepted t)
    (hp : ∀ op vars, Piece.expr op vars ∈ t →
      op ≠ some '+' ∧ op ≠ some '#' ∧ ∀ v ∈ vars, v.mod = .none ∨ v.mod = .explode) :
    expand_with S dbg (structVisit fields) (text t) = .ok (expansionCrate S val t) := by
  rw [expand_with_eq (struct_hands fields), C33_plain S dbg (structValue fields) t ha hp]
  rw [show (fun n => flat (structValue fields n)) = val from funext (structMeans_iff.1 hf)]

theorem pieces_plain {d : Disp} (h : PlainAscii d.flatten) : ∀ s ∈ d, PlainAscii s := by
  intro s hs c hc
  exact h c (List.mem_flatten.2 ⟨s, hs, hc⟩)

theorem tidyAll_plain {d : Disp} (h : PlainAscii d.flatten) : TidyAll d := by
  have hp := pieces_plain h
  clear h
  induction d with
  | nil => trivial
  | cons a r ih =>
    have ih := ih fun s hs => hp s (by simp [hs])
    cases r with
    | nil => exact tidy_ascii (hp a (by simp)) true
    | cons b r => exact ⟨tidy_ascii (hp a (by simp)) false, ih⟩

/-- **C55** (all templates): fields with plain ASCII texts, written in any number of calls, and any
template whose prefix modifiers fit the types: the text is exact.  Missing: prefix modifiers under `+`
and `#` on a text written in several calls, for which it is false (`C55_negative_refuted`). -/
theorem _root_.Verif.C55_ascii_partial (S : Spec) (dbg : Bool) (fields : List Field) (val : Str → Val)
    (hf : StructMeans fields val) (t : List Piece) (ha : Accepted t) (hs : SmallLengths t)
    (ht : WellTyped val t) (hv : ∀ n, PlainVal (val n))
    (hr : ∀ op vars, Piece.expr op vars ∈ t → op = some '+' ∨ op = some '#' → ∀ v ∈ vars,
      (∃ ds, v.mod = .pre ds) → ∀ f ∈ fields, f.name = v.name → OnePieceField f.visit) :
    expand_with S dbg (structVisit fields) (text t) = .ok (expansionCrate S val t) := by
  have e : (fun n => flat (structValue fields n)) = val := funext (structMeans_iff.1 hf)
  rw [expand_with_eq (struct_hands fields), ← e]
  refine C33_expand_partial S dbg (structValue fields) t ha hs (by rw [e]; exact ht) ?_
  intro op vars hmem v hvm
  have hv' : PlainVal (flat (structValue fields v.name)) := by
    rw [structMeans_iff.1 hf]; exact hv _
  have hone : (op = some '+' ∨ op = some '#') → (∃ ds, v.mod = .pre ds) →
      OneValue (structValue fields v.name) := by
    intro h1 h2
    have := hr op vars hmem h1 v hvm h2
    clear hr hv' hv hf e ht hmem
    induction fields with
    | nil => trivial
    | cons a r ih =>
      rw [structValue]
      split
      · rename_i hn
        exact onePieceField_value (this a (by simp) hn)
      · exact ih fun f hf hn => this f (by simp [hf]) hn
  have hres : (row op).reserved = true → op = some '+' ∨ op = some '#' := by
    intro h
    cases op with
    | none => simp [row] at h
    | some c =>
      simp only [row] at h
      split at h
      · subst_vars; exact .inl rfl
      split at h
      · subst_vars; exact .inr rfl
      iterate 4 (split at h; · simp at h)
      simp at h
  generalize hx : structValue fields v.name = x at hv' hone
  cases x with
  | undefined => trivial
  | string d =>
    have hd : PlainAscii d.flatten := hv'
    simp only [Handled]
    split
    · next ds hm =>
      split
      · next hrv =>
        obtain ⟨s, rfl⟩ := hone (hres hrv) ⟨ds, hm⟩
        have hd : PlainAscii s := by simpa using hd
        refine ⟨s, rfl, fun h => (hd _ h).2 rfl, ?_, ?_⟩
        · cases s with
          | nil => trivial
          | cons c r => exact (hd c (by simp)).1
        · intro _
          have : bytes (s.take (Rfc6570.decimal ds)).dropLast = min (Rfc6570.decimal ds) s.length - 1 := by
            rw [bytes_eq, blen_of_ascii]
            · simp
            · intro c hc
              exact (hd c (List.mem_of_mem_take (mem_of_dropLast hc))).1
          rw [this]
          omega
      · exact .inl fun s hs c hc => (pieces_plain hd s hs c hc).1
    · exact fun _ => tidyAll_plain hd
  | list items =>
    intro _ d hd
    exact tidyAll_plain (hv' _ (List.mem_map.2 ⟨d, hd, rfl⟩))
  | assoc entries =>
    intro _ e he
    have := hv' _ (List.mem_map.2 ⟨e, he, rfl⟩)
    exact ⟨tidyAll_plain this.1, tidyAll_plain this.2⟩

theorem digit_plain {c : Char} (h : DIGIT c = true) : c.toNat < 128 ∧ c ≠ '%' := by
  have hc : 48 ≤ c.toNat ∧ c.toNat ≤ 57 := by
    simp [DIGIT, Char.le_def, UInt32.le_iff_toNat_le] at h
    exact h
  refine ⟨by omega, ?_⟩
  rintro rfl
  simp at hc

theorem intText_plain {s : Str} {i : Int} (h : IntText s i) : PlainAscii s := by
  rcases h with ⟨_, d⟩ | ⟨_, ds, rfl, d⟩
  · exact fun c hc => digit_plain (d.2.1 c hc)
  · intro c hc
    rcases List.mem_cons.1 hc with rfl | hc
    · decide
    · exact digit_plain (d.2.1 c hc)

/-- **C55** (integers): if the variables are integers (possibly `Some` of one) or undefined, every
template expands to the text that RFC 6570 demands.  Missing: prefix modifiers on negative integers
under `+` and `#`, for which it is false (`C55_negative_exact_partial`). -/
theorem _root_.Verif.C55_integers_partial (S : Spec) (dbg : Bool) (fields : List Field) (val : Str → Val)
    (hf : StructMeans fields val) (hi : ∀ n, val n = .undefined ∨ ∃ s i, val n = .str s ∧ IntText s i)
    (t : List Piece) (ha : Accepted t) (hs : SmallLengths t)
    (hr : ∀ op vars, Piece.expr op vars ∈ t → op = some '+' ∨ op = some '#' → ∀ v ∈ vars,
      (∃ ds, v.mod = .pre ds) → ∀ f ∈ fields, f.name = v.name → OnePieceField f.visit) :
    expand_with S dbg (structVisit fields) (text t) = .ok (expansion S val t) := by
  have hA : Agrees S val t := by
    intro op vars _ _ v _
    rcases hi v.name with h | ⟨s, i, h, _⟩ <;> rw [h] <;> trivial
  rw [← C33_agrees S val t hA ha]
  refine C55_ascii_partial S dbg fields val hf t ha hs ?_ ?_ hr
  · intro op vars _ v _ ds _
    rcases hi v.name with h | ⟨s, i, h, _⟩ <;> rw [h] <;> trivial
  · intro n
    rcases hi n with h | ⟨s, i, h, hx⟩
    · rw [h]; trivial
    · rw [h]; exact intText_plain hx

/-- What a prefix modifier does to a negative integer under `+` and `#`: one character too many is
written (unless the length is 0): the sign does not count. -/
theorem _root_.Verif.C55_negative_exact_partial (S : Spec) (dbg : Bool) (op : Char) (hop : op = '+' ∨ op = '#')
    (v : Var) (ds : Str) (hv : v.mod = .pre ds) (ha : Accepted (oneVar (some op) v))
    (hs : SmallLengths (oneVar (some op) v)) (i : Int) (hi : i < 0) (digits : Str)
    (hd : IsDecimal digits i.natAbs) :
    expand_with S dbg (structVisit [⟨v.name, none, .naive (.int i)⟩]) (text (oneVar (some op) v)) =
      .ok ((row (some op)).first ++
        (if Rfc6570.decimal ds = 0 then [] else '-' :: digits.take (Rfc6570.decimal ds))) := by
  rw [expand_with_eq (struct_hands _)]
  have hctx : (fun (_ : Purpose) n => structValue [⟨v.name, none, .naive (.int i)⟩] n) =
      oneVal v.name (.string [['-'], digits]) := by
    funext p n
    have e : displayInt i = [['-'], digits] := by
      cases i with
      | ofNat n => exact absurd hi (Int.not_lt.2 (Int.natCast_nonneg n))
      | negSucc n => rw [decimal_unique hd]; rfl
    simp only [structValue, Field.name, FieldVisit.value, RustValue.value, e, oneVal, eq_comm]
  rw [hctx]
  obtain ⟨h1, h2, _, _⟩ := hd
  obtain ⟨c, r, rfl⟩ : ∃ c r, digits = c :: r := by
    cases digits with
    | nil => exact absurd rfl h1
    | cons c r => exact ⟨c, r, rfl⟩
  have hp : ∀ x ∈ c :: r, x.toNat < 128 ∧ x ≠ '%' := fun x hx => digit_plain (h2 x hx)
  have hF : Fragments dbg [] [] [['-'], c :: r] [.noPct ['-'], .noPct (c :: r)] false := by
    refine .plain (c := '-') (r := []) (s := []) (by decide) (by decide) (by simp) (by simp) (.inl rfl) (.next ?_)
    have := Fragments.plain (dbg := dbg) (k := []) (t := []) (c := c) (r := r) (s := []) (d := [])
      (fs := []) (p := false) (hp c (by simp)).1 (hp c (by simp)).2 (by simp)
      (fun h => (hp _ (by simp [h])).2 rfl) (.inl rfl) (.next .done)
    simpa using this
  rw [C33_reserved_prefix_exact S dbg op hop v ds hv ha hs _ _ _ hF]
  have henc : ∀ u : Str, (∀ x ∈ u, DIGIT x = true) → u.flatMap (encR1 S) = u := by
    intro u hu
    induction u with
    | nil => rfl
    | cons a u ih =>
      rw [List.flatMap_cons, ih fun x hx => hu x (by simp [hx])]
      have : iunreserved S a = true := by
        have := hu a (by simp)
        cases S <;> simp [iunreserved, unreserved, this]
      simp [encR1, this]
  cases hn : Rfc6570.decimal ds with
  | zero => simp [prefixText]
  | succ n =>
    have hminus : encR1 S '-' = ['-'] := by cases S <;> decide
    have hb : bytes ((c :: r).take (n + 1)).dropLast ≤ n + 1 := by
      rw [bytes_eq, blen_of_ascii]
      · simp; omega
      · intro x hx
        exact (hp x (List.mem_of_mem_take (mem_of_dropLast hx))).1
    have he := henc ((c :: r).take (n + 1)) (fun x hx => h2 x (List.mem_of_mem_take hx))
    have hb0 : bytes [] = 0 := by decide
    simp only [prefixText, List.take_succ_cons, List.take_nil, List.flatMap_cons, List.flatMap_nil,
      hminus] at hb he ⊢
    simp [prefixText, hb0, hb, he]

/-- **C55 is false of the code** for negative integers with a prefix modifier under `+`: `{+n:3}` with
the number -1234 gives four characters.  RFC 6570 demands the first three. -/
theorem _root_.Verif.C55_negative_refuted :
    expand_with .uri false (structVisit [⟨['n'], none, .naive (.int (-1234))⟩]) (chars! "{+n:3}") =
        .ok (chars! "-123") ∧
      expansion .uri (fun _ => .str (chars! "-1234")) [.expr (some '+') [⟨['n'], .pre ['3']⟩]] =
        chars! "-12" := by decide +kernel

/-- **C55** (type errors): the error arises exactly if a prefix modifier is applied to a field that
means a non-empty list or map. -/
theorem _root_.Verif.C55_type_error_iff (S : Spec) (dbg : Bool) (fields : List Field) (val : Str → Val)
    (hf : StructMeans fields val) (t : List Piece) (ha : Accepted t) (hs : SmallLengths t) :
    (∃ k l, expand_with S dbg (structVisit fields) (text t) = .err k l) ↔ ¬ WellTyped val t := by
  rw [expand_with_eq (struct_hands fields), C34_type_error_iff S dbg _ t ha hs,
    show (fun n => flat (structValue fields n)) = val from funext (structMeans_iff.1 hf)]

/-- Every struct has a meaning, and only one. -/
theorem _root_.Verif.C55_meaning (fields : List Field) :
    ∃ val, StructMeans fields val ∧ ∀ val', StructMeans fields val' → val' = val :=
  ⟨fun n => flat (structValue fields n), structMeans_iff.2 fun _ => rfl,
    fun _ h => funext fun n => (structMeans_iff.1 h n).symm⟩

/-- A concrete struct: its meaning and its expansion. -/
def demo : List Field :=
  [⟨chars! "id", some (chars! "user_id"), .naive (.some (.int 42))⟩,
   ⟨chars! "tags", none, .naive (.ref (.list [[chars! "user"], [chars! "admin"]]))⟩,
   ⟨chars! "children", none, .assocDirect [([chars! "bar"], [chars! "9", chars! "9"])]⟩,
   ⟨chars! "parent", none, .naive .none⟩,
   ⟨chars! "delta", none, .naive (.int (-7))⟩]

example : expand_with .uri true (structVisit demo) (chars! "{?user_id,parent,tags*,children*,id,delta}") =
    .ok (chars! "?user_id=42&tags=user&tags=admin&bar=99&delta=-7") := by decide +kernel

example : StructMeans [⟨chars! "delta", none, .naive (.int (-7))⟩] (fun n =>
    if n = chars! "delta" then .str (chars! "-7") else .undefined) := by
  intro n
  by_cases h : n = chars! "delta"
  · subst h
    refine .inl ⟨[], _, [], rfl, rfl, by simp, ?_⟩
    exact .naive (.int (.inr ⟨by decide, _, rfl, by decide +kernel, by decide +kernel, by decide +kernel, by decide +kernel⟩))
  · refine .inr ⟨?_, if_neg h⟩
    intro g hg
    simp at hg
    subst hg
    exact fun e => h e.symm

/-! ## C56 -/

/-- **C56**: the conversion of an expanded template to a URI/IRI type yields a value exactly if the
expansion is a text of the grammar of the type; its text is the expansion; otherwise the error hands
back the expansion.  Type errors and panics are those of the expansion. -/
theorem _root_.Verif.C56_try_from (S : Spec) (dbg : Bool) (ctx : VCtx) (k : IriKind) (template : Str) :
    (∀ out, expand_with S dbg ctx template = .ok out →
      (language S (.iriLike k) out →
        expand_try_into S dbg ctx k template = .ok (some (.ok out))) ∧
      (¬ language S (.iriLike k) out →
        ∃ c : CreationError, expand_try_into S dbg ctx k template = .ok (some (.err c)) ∧
          c.into_source = out)) ∧
    (∀ kind pos, expand_with S dbg ctx template = .err kind pos →
      expand_try_into S dbg ctx k template = .err kind pos) ∧
    (expand_with S dbg ctx template = .panic → expand_try_into S dbg ctx k template = .panic) := by
  unfold expand_with expand_try_into
  cases typecheckV ctx (template.length + 1) 0 template with
  | ok u =>
    simp only [Res.bind]
    cases displayExpandedV S dbg ctx (template.length + 1) template with
    | none => simp
    | some t =>
      refine ⟨?_, by simp, by simp⟩
      intro out h
      cases h
      have := C38_from_text S (.iriLike k) t (C38_no_panic _ (by simp) t)
      refine ⟨fun hl => by simp only [(this.1 hl).2.2.2], fun hl => ?_⟩
      obtain ⟨e, _, _, _, c, hc, h1, _⟩ := this.2 hl
      exact ⟨c, by simp only [hc], h1⟩
  | err kind pos => simp [Res.bind]
  | panic => simp [Res.bind]

/-- **C56**: what a conversion returns is a value of the type: it is the expansion, and it is valid. -/
theorem _root_.Verif.C56_valid (S : Spec) (dbg : Bool) (ctx : VCtx) (k : IriKind) (template : Str) (out : Str)
    (h : expand_try_into S dbg ctx k template = .ok (some (.ok out))) :
    expand_with S dbg ctx template = .ok out ∧ k.validate S out = some true := by
  have hx := C56_try_from S dbg ctx k template
  cases he : expand_with S dbg ctx template with
  | panic => rw [hx.2.2 he] at h; cases h
  | err a b => rw [hx.2.1 a b he] at h; cases h
  | ok t =>
    by_cases hl : language S (.iriLike k) t
    · rw [(hx.1 t he).1 hl] at h
      cases h
      refine ⟨rfl, ?_⟩
      have := (C38_from_text S (.iriLike k) out (C38_no_panic _ (by simp) out)).1 hl
      have := this.2.2.2
      simp only [owned_try_from_string, TypeKind.validate] at this
      revert this
      cases k.validate S out with
      | none => simp
      | some b => cases b <;> simp [checkedOwned]
    · obtain ⟨c, hc, _⟩ := (hx.1 t he).2 hl
      rw [hc] at h; cases h

example : expand_try_into .uri true (structVisit demo) .iri (chars! "http://h/{user_id}{?tags}") =
    .ok (some (.ok (chars! "http://h/42?tags=user,admin"))) := by decide +kernel

example : expand_try_into .uri true (structVisit demo) .iri (chars! "/{user_id}") =
    .ok (some (.err ⟨chars! "/42", .invalid⟩)) := by decide +kernel

end Verif.Tpl
