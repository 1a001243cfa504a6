import Verif.Lemmas.Template

/-! # Abstract syntax of templates; the variable list -/

namespace Verif.Tpl

open Verif.Abnf Verif.Rfc Verif.Rfc6570

/-! ### The grammar and the abstract syntax -/

theorem varspecOf_iff (name len : Lang) (s : Str) :
    varspecOf name len s ↔ ∃ v : Var, v.WF name len ∧ v.render = s := by
  constructor
  · rintro ⟨n, m, rfl, hn, rfl | ⟨_, ds, rfl, rfl, hd⟩ | rfl⟩
    · exact ⟨⟨n, .none⟩, ⟨hn, trivial⟩, rfl⟩
    · exact ⟨⟨n, .pre ds⟩, ⟨hn, hd⟩, rfl⟩
    · exact ⟨⟨n, .explode⟩, ⟨hn, trivial⟩, rfl⟩
  · rintro ⟨⟨n, m⟩, ⟨hn, hm⟩, rfl⟩
    cases m with
    | none => exact ⟨n, [], rfl, hn, .inl rfl⟩
    | pre ds => exact ⟨n, ':' :: ds, rfl, hn, .inr (.inl ⟨[':'], ds, rfl, rfl, hm⟩)⟩
    | explode => exact ⟨n, ['*'], rfl, hn, .inr (.inr rfl)⟩

theorem joinWith_cons (sep x : Str) (ps : List Str) :
    joinWith sep (x :: ps) = x ++ ps.flatMap (sep ++ ·) := by
  induction ps generalizing x with
  | nil => simp [joinWith]
  | cons y ps ih => simp [joinWith, ih]

theorem varListOf_iff (name len : Lang) (s : Str) :
    varListOf name len s ↔ ∃ vars : List Var, vars ≠ [] ∧ (∀ v ∈ vars, v.WF name len) ∧
      joinWith [','] (vars.map Var.render) = s := by
  constructor
  · rintro ⟨a, b, rfl, ha, hb⟩
    obtain ⟨v, hv, rfl⟩ := (varspecOf_iff _ _ _).1 ha
    have : ∃ vars : List Var, (∀ v ∈ vars, v.WF name len) ∧
        (vars.map Var.render).flatMap ([','] ++ ·) = b := by
      refine star_ind (P := fun b => ∃ vars : List Var, (∀ v ∈ vars, v.WF name len) ∧
        (vars.map Var.render).flatMap ([','] ++ ·) = b) ⟨[], by simp, rfl⟩ ?_ b hb
      rintro _ b ⟨_, x, rfl, rfl, hx⟩ _ ⟨vars, h1, rfl⟩
      obtain ⟨v, hv, rfl⟩ := (varspecOf_iff _ _ _).1 hx
      exact ⟨v :: vars, by simpa using ⟨hv, h1⟩, by simp⟩
    obtain ⟨vars, h1, rfl⟩ := this
    exact ⟨v :: vars, by simp, by simpa using ⟨hv, h1⟩, by rw [List.map_cons, joinWith_cons]⟩
  · rintro ⟨vars, h0, h1, rfl⟩
    cases vars with
    | nil => exact absurd rfl h0
    | cons v vars =>
      simp only [List.mem_cons, forall_eq_or_imp] at h1
      refine ⟨v.render, (vars.map Var.render).flatMap ([','] ++ ·), ?_,
        (varspecOf_iff _ _ _).2 ⟨v, h1.1, rfl⟩, ?_⟩
      · rw [List.map_cons, joinWith_cons]
      · have h2 := h1.2
        clear h1 h0
        induction vars with
        | nil => exact star_nil _
        | cons w vars ih =>
          simp only [List.mem_cons, forall_eq_or_imp] at h2
          simp only [List.map_cons, List.flatMap_cons]
          exact star_cons ⟨[','], w.render, rfl, rfl, (varspecOf_iff _ _ _).2 ⟨w, h2.1, rfl⟩⟩
            (ih h2.2)

theorem expressionOf_iff (name len lits : Lang) (s : Str) :
    expressionOf (chr isOp) name len s ↔
      ∃ op vars, Piece.WF lits name len (.expr op vars) ∧ Piece.render (.expr op vars) = s := by
  constructor
  · rintro ⟨_, _, rfl, rfl, o, _, rfl, ho, l, _, rfl, hl, rfl⟩
    obtain ⟨vars, h0, h1, rfl⟩ := (varListOf_iff _ _ _).1 hl
    rcases ho with rfl | ⟨c, rfl, hc⟩
    · exact ⟨none, vars, ⟨by simp, h0, h1⟩, by simp [Piece.render]⟩
    · exact ⟨some c, vars, ⟨by simpa using hc, h0, h1⟩, by simp [Piece.render]⟩
  · rintro ⟨op, vars, ⟨h0, h1, h2⟩, rfl⟩
    refine ⟨['{'], _, rfl, rfl, op.toList, joinWith [','] (vars.map Var.render) ++ ['}'], ?_, ?_,
      _, ['}'], rfl, (varListOf_iff _ _ _).2 ⟨vars, h1, h2, rfl⟩, rfl⟩
    · simp
    · cases op with
      | none => exact .inl rfl
      | some c => exact .inr ⟨c, rfl, h0 c rfl⟩

theorem templateOf_iff (lits name len : Lang) (s : Str) :
    templateOf lits (chr isOp) name len s ↔
      ∃ t : List Piece, (∀ p ∈ t, p.WF lits name len) ∧ text t = s := by
  constructor
  · refine star_ind (P := fun s => ∃ t : List Piece, (∀ p ∈ t, p.WF lits name len) ∧ text t = s)
      ⟨[], by simp, rfl⟩ ?_ s
    rintro a b (ha | ha) _ ⟨t, ht, rfl⟩
    · exact ⟨.lit a :: t, by simpa using ⟨ha, ht⟩, rfl⟩
    · obtain ⟨op, vars, hw, rfl⟩ := (expressionOf_iff name len lits _).1 ha
      exact ⟨.expr op vars :: t, by simpa using ⟨hw, ht⟩, rfl⟩
  · rintro ⟨t, ht, rfl⟩
    induction t with
    | nil => exact star_nil _
    | cons p t ih =>
      simp only [List.mem_cons, forall_eq_or_imp] at ht
      simp only [text, List.flatMap_cons]
      refine star_cons ?_ (ih ht.2)
      cases p with
      | lit s => exact .inl ht.1
      | expr op vars => exact .inr ((expressionOf_iff name len lits _).2 ⟨op, vars, ht.1, rfl⟩)

/-! ### `varname`, `max-length` are special cases of what is accepted -/

theorem varname_sub {s : Str} (h : varname s) : varnameX s := by
  obtain ⟨a, b, rfl, ha, hb⟩ := h
  refine ⟨a, b, rfl, ha, ?_⟩
  refine star_ind (P := star (varchar ∕ lit ['.'])) (star_nil _) ?_ b hb
  rintro _ y ⟨d, v, rfl, hd, hv⟩ _ ih
  rcases hd with rfl | rfl
  · exact star_cons (.inl hv) ih
  · rw [List.append_assoc]
    exact star_cons (.inr rfl) (star_cons (.inl hv) ih)

theorem maxLength_iff (s : Str) :
    maxLength s ↔ ∃ c r, s = c :: r ∧ isDigit c = true ∧ c ≠ '0' ∧ r.length ≤ 3 ∧
      r.all isDigit = true := by
  simp only [maxLength, seq, upTo, rep_chr, DIGIT_eq]
  constructor
  · rintro ⟨a, b, rfl, ⟨c, rfl, hc⟩, k, hk, rfl, hd⟩
    simp at hc
    refine ⟨c, b, rfl, by simp [isDigit]; omega, ?_, hk, hd⟩
    rw [Ne, char_eq_iff]; simp; omega
  · rintro ⟨c, r, rfl, h1, h2, h3, h4⟩
    refine ⟨[c], r, rfl, ⟨c, rfl, ?_⟩, _, h3, rfl, h4⟩
    simp [isDigit] at h1 ⊢
    rw [Ne, char_eq_iff] at h2; simp at h2; omega

theorem maxLength_sub {s : Str} (h : maxLength s) : maxLengthX s := by
  obtain ⟨c, r, rfl, h1, _, h3, h4⟩ := (maxLength_iff s).1 h
  refine (maxLengthX_iff _).2 ⟨by simp, by simp; omega, ?_⟩
  simp [h1]; simpa using h4

theorem var_sub {v : Var} (h : v.WF varname maxLength) : v.WF varnameX maxLengthX := by
  obtain ⟨n, m⟩ := v
  refine ⟨varname_sub h.1, ?_⟩
  cases m with
  | pre ds => exact maxLength_sub h.2
  | _ => trivial

theorem Strict.accepted {t : List Piece} (h : Strict t) : Accepted t := by
  intro p hp
  have := h p hp
  cases p with
  | lit s => exact this
  | expr op vars => exact ⟨this.1, this.2.1, fun v hv => var_sub (this.2.2 v hv)⟩

theorem varname_last {s : Str} (h : varname s) : s.getLast? ≠ some '.' := by
  have hv : ∀ x y, varchar x → (∀ z, y.getLast? = some z → z ≠ '.') →
      (∃ z, (x ++ y).getLast? = some z ∧ z ≠ '.') := by
    intro x y hx hy
    cases hl : y.getLast? with
    | some z =>
      refine ⟨z, ?_, hy z hl⟩
      rw [List.getLast?_append, hl]; rfl
    | none =>
      have : y = [] := List.getLast?_eq_none_iff.1 hl
      subst this
      rcases hx with ⟨c, rfl, hc⟩ | hx
      · refine ⟨c, by simp, ?_⟩
        rintro rfl; exact absurd hc (by decide)
      · obtain ⟨h, l, rfl, h1, h2⟩ := (pct_encoded_iff _).1 hx
        refine ⟨l, by simp, ?_⟩
        rintro rfl; exact absurd h2 (by decide)
  obtain ⟨a, b, rfl, ha, hb⟩ := h
  have hb' : ∀ z, b.getLast? = some z → z ≠ '.' := by
    refine star_ind (P := fun b => ∀ z, b.getLast? = some z → z ≠ '.') (by simp) ?_ b hb
    rintro _ y ⟨d, v, rfl, hd, hx⟩ _ ih z hz
    obtain ⟨w, h1, h2⟩ := hv v y hx ih
    rw [List.append_assoc, List.getLast?_append, h1] at hz
    simp at hz; subst hz; exact h2
  obtain ⟨w, h1, h2⟩ := hv a b ha hb'
  rw [h1]; simpa using h2

/-! ### Parsing of varspecs -/

/-- The parsed form of a varspec. -/
def toSpec (v : Var) : VarSpec :=
  ⟨v.name, match v.mod with
    | .none => .none
    | .pre ds => .maxLen (decimal ds)
    | .explode => .explode⟩

/-- The prefix length fits in `u16`. -/
def Fits (v : Var) : Prop := ∀ ds, v.mod = .pre ds → decimal ds ≤ 65535

theorem digitsVal_eq (s : Str) (n : Nat) (h : s.all isDigit = true) :
    digitsVal n s = some (s.foldl (fun n c => n * 10 + (c.toNat - 48)) n) := by
  induction s generalizing n with
  | nil => rfl
  | cons c r ih =>
    simp at h
    simp [digitsVal, h.1]
    exact ih _ (by simpa using h.2)

theorem parse_u16_eq {s : Str} (h0 : s ≠ []) (h : s.all isDigit = true) :
    parse_u16 s = if decimal s ≤ 65535 then some (decimal s) else none := by
  cases s with
  | nil => exact absurd rfl h0
  | cons c r =>
    have hc : c ≠ '+' := by
      rintro rfl
      simp at h; exact absurd h.1 (by decide)
    unfold parse_u16
    simp only [if_neg hc, List.isEmpty_cons, Bool.false_eq_true, if_false]
    rw [digitsVal_eq _ _ h]
    rfl

theorem NameP.no_star {s : Str} (h : NameP s) : '*' ∉ s :=
  h.not_mem (by decide) (by decide) (by decide)
theorem NameP.no_colon {s : Str} (h : NameP s) : ':' ∉ s :=
  h.not_mem (by decide) (by decide) (by decide)

theorem strip_suffix_none {s : Str} {c : Char} (h : c ∉ s) : strip_suffix_char s c = none := by
  unfold strip_suffix_char
  rw [if_neg]
  intro hl
  exact h (List.mem_of_getLast? hl)

theorem parse_trusted_eq {v : Var} (h : v.WF varnameX maxLengthX) :
    (Fits v → parse_trusted v.render = some (toSpec v)) ∧
    (¬ Fits v → parse_trusted v.render = none) := by
  obtain ⟨n, m⟩ := v
  have hn : NameP n := Var.name_ok h
  cases m with
  | none =>
    refine ⟨fun _ => ?_, fun hf => absurd (fun ds hd => by cases hd) hf⟩
    simp only [Var.render, List.append_nil, parse_trusted]
    rw [strip_suffix_none hn.no_star, find_split_hole_none.2 hn.no_colon]
    rfl
  | explode =>
    refine ⟨fun _ => ?_, fun hf => absurd (fun ds hd => by cases hd) hf⟩
    simp [Var.render, parse_trusted, strip_suffix_char, toSpec]
  | pre ds =>
    obtain ⟨l1, l2, hd⟩ := (maxLengthX_iff ds).1 h.2
    have hs : '*' ∉ n ++ ':' :: ds := by
      simp only [List.mem_append, List.mem_cons, not_or]
      refine ⟨hn.no_star, by decide, fun hm => ?_⟩
      simp at hd
      exact absurd (hd _ hm) (by decide)
    have hf : Fits ⟨n, .pre ds⟩ ↔ decimal ds ≤ 65535 := by simp [Fits]
    rw [hf]
    have e : parse_trusted (Var.render ⟨n, .pre ds⟩) =
        (parse_u16 ds).map fun k => ⟨n, .maxLen k⟩ := by
      simp only [Var.render, parse_trusted]
      rw [strip_suffix_none hs, find_split_hole_eq hn.no_colon]
    rw [e, parse_u16_eq (by rintro rfl; simp at l1) hd]
    constructor
    · intro hf; rw [if_pos hf]; rfl
    · intro hf; rw [if_neg hf]; rfl

theorem Var.render_ne_nil {v : Var} (h : v.WF varnameX maxLengthX) : v.render ≠ [] := by
  obtain ⟨c, r, e, _⟩ := SpecP.head ⟨v, h, rfl⟩
  rw [e]; simp

/-- Text of a variable list. -/
def varsText (vars : List Var) : Str := joinWith [','] (vars.map Var.render)

theorem varListNext_nil : varListNext [] = some none := rfl

theorem varListNext_cons {v : Var} (h : v.WF varnameX maxLengthX) (vs : List Var) :
    (Fits v → varListNext (varsText (v :: vs)) =
      some (some ((blen v.render, toSpec v), varsText vs))) ∧
    (¬ Fits v → varListNext (varsText (v :: vs)) = none) := by
  have hc : ',' ∉ v.render := SpecP.no_comma ⟨v, h, rfl⟩
  have e : varListNext (varsText (v :: vs)) =
      (parse_trusted v.render).map fun x => some ((blen v.render, x), varsText vs) := by
    cases vs with
    | nil =>
      simp only [varsText, List.map_cons, List.map_nil, joinWith, varListNext]
      rw [find_split_hole_none.2 hc]
      have := Var.render_ne_nil h
      simp only [List.isEmpty_iff, this, if_false]
    | cons w vs =>
      simp only [varsText, List.map_cons, joinWith, varListNext, List.append_assoc,
        List.singleton_append]
      rw [find_split_hole_eq hc]
  rw [e]
  obtain ⟨h1, h2⟩ := parse_trusted_eq h
  exact ⟨fun hf => by rw [h1 hf]; rfl, fun hf => by rw [h2 hf]; rfl⟩

/-! ### Chunks -/

/-- Text between the braces. -/
def bodyText (op : Option Char) (vars : List Var) : Str := op.toList ++ varsText vars

/-- Operator of an expression. -/
def toOp : Option Char → Operator
  | none => .string
  | some c => (Operator.from_byte c).getD .string

theorem decompose_eq {op : Option Char} {vars : List Var}
    (h : Piece.WF asciiLiterals varnameX maxLengthX (.expr op vars)) :
    decompose (bodyText op vars) = some (toOp op, varsText vars) := by
  obtain ⟨h0, h1, h2⟩ := h
  have hl : ListP (varsText vars) := (listP_iff _).2 ⟨vars, h1, h2, rfl⟩
  obtain ⟨c, r, e, hc⟩ := hl.head
  cases op with
  | none =>
    simp only [bodyText, Option.toList_none, List.nil_append, toOp]
    rw [e]; simp [decompose, hc]
  | some d =>
    have hd := h0 d rfl
    rcases maybeOp_cases d with ⟨_, g2, o, _, g4⟩ | ⟨g1, _⟩ | ⟨g1, _⟩
    · simp [bodyText, decompose, g2, g4, toOp]
    · rw [hd] at g1; cases g1
    · rw [hd] at g1; cases g1

theorem bodyText_no_brace {op : Option Char} {vars : List Var}
    (h : Piece.WF asciiLiterals varnameX maxLengthX (.expr op vars)) : '}' ∉ bodyText op vars :=
  BodyP.no_brace ((bodyP_iff _).2 ⟨op, vars, h, by simp [Piece.render, bodyText, varsText]⟩)

theorem render_expr (op : Option Char) (vars : List Var) :
    Piece.render (.expr op vars) = '{' :: (bodyText op vars ++ ['}']) := by
  simp [Piece.render, bodyText, varsText]

theorem chunksNext_expr {op : Option Char} {vars : List Var}
    (h : Piece.WF asciiLiterals varnameX maxLengthX (.expr op vars)) (r : Str) :
    chunksNext (Piece.render (.expr op vars) ++ r) = some (some (.expr (bodyText op vars), r)) := by
  rw [render_expr]
  simp only [List.cons_append, List.append_assoc, List.nil_append]
  have e : find_split ('{' :: (bodyText op vars ++ '}' :: r)) '{' =
      some ([], '{' :: (bodyText op vars ++ '}' :: r)) := find_split_eq (a := []) (by simp)
  unfold chunksNext
  rw [e]
  simp [find_split_hole_eq (bodyText_no_brace h)]

theorem chunksNext_lit {s : Str} (h0 : s ≠ []) (h : '{' ∉ s) (r : Str) :
    chunksNext (s ++ '{' :: r) = some (some (.literal s, '{' :: r)) := by
  unfold chunksNext
  rw [find_split_eq h]
  simp [h0]

theorem chunksNext_lit_end {s : Str} (h0 : s ≠ []) (h : '{' ∉ s) :
    chunksNext s = some (some (.literal s, [])) := by
  unfold chunksNext
  rw [find_split_none.2 h]
  simp [h0]

/-- Adjacent literals joined. -/
def merge : List Piece → List Piece
  | [] => []
  | .expr op vars :: t => .expr op vars :: merge t
  | .lit s :: t =>
    match merge t with
    | .lit s' :: t' => .lit (s ++ s') :: t'
    | t' => .lit s :: t'

/-- A template split into chunks: literals are not adjacent, not empty, and contain no brace;
expressions are well-formed. -/
inductive Chunked : List Piece → Prop
  | nil : Chunked []
  | expr {op vars t} : Piece.WF asciiLiterals varnameX maxLengthX (.expr op vars) → Chunked t →
      Chunked (.expr op vars :: t)
  | litEnd {s} : s ≠ [] → '{' ∉ s → Chunked [.lit s]
  | lit {s op vars t} : s ≠ [] → '{' ∉ s → Chunked (.expr op vars :: t) →
      Chunked (.lit s :: .expr op vars :: t)

theorem literal_no_brace {s : Str} (h : asciiLiterals s) : s ≠ [] ∧ '{' ∉ s := by
  rcases h with ⟨c, rfl, hc⟩ | h
  · refine ⟨by simp, ?_⟩
    simp; rintro rfl; exact absurd hc (by decide)
  · obtain ⟨x, y, rfl, h1, h2⟩ := (pct_encoded_iff _).1 h
    refine ⟨by simp, ?_⟩
    simp
    constructor
    · rintro rfl; exact absurd h1 (by decide)
    · rintro rfl; exact absurd h2 (by decide)

theorem merge_chunked {t : List Piece} (h : Accepted t) : Chunked (merge t) := by
  induction t with
  | nil => exact .nil
  | cons p t ih =>
    rw [Accepted] at h
    simp only [List.mem_cons, forall_eq_or_imp] at h
    have ih := ih h.2
    cases p with
    | expr op vars => exact .expr h.1 ih
    | lit s =>
      obtain ⟨h1, h2⟩ := literal_no_brace h.1
      simp only [merge]
      generalize merge t = t' at ih
      cases ih with
      | nil => exact .litEnd h1 h2
      | expr g1 g2 => exact .lit h1 h2 (.expr g1 g2)
      | @litEnd s' g1 g2 => exact .litEnd (by simp [h1]) (by simp [h2, g2])
      | @lit s' _ _ _ g1 g2 g3 => exact .lit (by simp [h1]) (by simp [h2, g2]) g3

/-- Functions that treat adjacent literals like one literal do not see the difference. -/
theorem merge_foldr {α : Type} (g : Piece → α → α) (x : α)
    (hg : ∀ a b y, g (.lit a) (g (.lit b) y) = g (.lit (a ++ b)) y) (t : List Piece) :
    (merge t).foldr g x = t.foldr g x := by
  induction t with
  | nil => rfl
  | cons p t ih =>
    cases p with
    | expr op vars => simp [merge, ih]
    | lit s =>
      simp only [merge, List.foldr_cons]
      rw [← ih]
      cases merge t with
      | nil => rfl
      | cons q t' =>
        cases q with
        | expr op vars => rfl
        | lit s' => simp [hg]

theorem text_foldr (t : List Piece) : text t = t.foldr (fun p r => p.render ++ r) [] := by
  induction t with
  | nil => rfl
  | cons p t ih => simp [text] at ih ⊢; exact ih

theorem text_merge (t : List Piece) : text (merge t) = text t := by
  rw [text_foldr, text_foldr]
  exact merge_foldr _ _ (by simp [Piece.render]) t

/-! ### The variables -/

/-- The variables of a template. -/
def varsOf (t : List Piece) : List Var :=
  t.flatMap fun
    | .lit _ => []
    | .expr _ vars => vars

theorem varsOf_foldr (t : List Piece) :
    varsOf t = t.foldr (fun p r => (match p with | .lit _ => [] | .expr _ vars => vars) ++ r) [] := by
  induction t with
  | nil => rfl
  | cons p t ih => simp [varsOf] at ih ⊢; rw [ih]

theorem varsOf_merge (t : List Piece) : varsOf (merge t) = varsOf t := by
  rw [varsOf_foldr, varsOf_foldr]
  exact merge_foldr _ _ (by simp) t

theorem names_eq (t : List Piece) : names t = (varsOf t).map Var.name := by
  induction t with
  | nil => rfl
  | cons p t ih => cases p <;> simp [names, varsOf] at ih ⊢ <;> exact ih

/-- A chunked template with the first expression exposed. -/
theorem nextExpr_eq : ∀ (t : List Piece) (n : Nat), Chunked t → (text t).length < n →
    nextExpr n (text t) = some none ∧ varsOf t = [] ∨
    ∃ op vars t', nextExpr n (text t) = some (some (bodyText op vars, text t')) ∧
      Piece.WF asciiLiterals varnameX maxLengthX (.expr op vars) ∧ Chunked t' ∧
      varsOf t = vars ++ varsOf t' ∧ (text t').length < (text t).length := by
  intro t n ht hn
  have expr_case : ∀ op vars t' n, Chunked (.expr op vars :: t') →
      (text (.expr op vars :: t')).length < n →
      nextExpr n (text (.expr op vars :: t')) = some (some (bodyText op vars, text t')) ∧
        Piece.WF asciiLiterals varnameX maxLengthX (.expr op vars) ∧ Chunked t' := by
    intro op vars t' n h hn
    cases h with
    | expr h1 h2 =>
      refine ⟨?_, h1, h2⟩
      obtain ⟨m, rfl⟩ : ∃ m, n = m + 1 := ⟨n - 1, by omega⟩
      simp only [nextExpr, text, List.flatMap_cons]
      rw [chunksNext_expr h1]
  have hlen : ∀ op vars t', (text t').length < (text (.expr op vars :: t')).length := by
    intro op vars t'
    simp [text, render_expr]; omega
  cases ht with
  | nil =>
    left
    obtain ⟨m, rfl⟩ : ∃ m, n = m + 1 := ⟨n - 1, by omega⟩
    exact ⟨rfl, rfl⟩
  | @expr op vars t' h1 h2 =>
    right
    obtain ⟨g1, g2, g3⟩ := expr_case op vars t' n (.expr h1 h2) hn
    exact ⟨op, vars, t', g1, g2, g3, rfl, hlen _ _ _⟩
  | @litEnd s h0 h1 =>
    left
    obtain ⟨m, rfl⟩ : ∃ m, n = m + 1 := ⟨n - 1, by omega⟩
    have : text [.lit s] = s := by simp [text, Piece.render]
    rw [this] at hn ⊢
    have hs : 0 < s.length := List.length_pos_iff.2 h0
    obtain ⟨k, rfl⟩ : ∃ k, m = k + 1 := ⟨m - 1, by omega⟩
    refine ⟨?_, rfl⟩
    simp only [nextExpr]
    rw [chunksNext_lit_end h0 h1]
    rfl
  | @lit s op vars t' h0 h1 h2 =>
    right
    obtain ⟨m, rfl⟩ : ∃ m, n = m + 1 := ⟨n - 1, by omega⟩
    have e : text (.lit s :: .expr op vars :: t') = s ++ text (.expr op vars :: t') := by
      simp [text, Piece.render]
    have hs : 0 < s.length := List.length_pos_iff.2 h0
    rw [e] at hn ⊢
    have e2 : text (.expr op vars :: t') = '{' :: (bodyText op vars ++ ['}'] ++ text t') := by
      simp [text, render_expr]
    obtain ⟨g1, g2, g3⟩ := expr_case op vars t' m h2 (by simp at hn; omega)
    refine ⟨op, vars, t', ?_, g2, g3, rfl, ?_⟩
    · rw [nextExpr, e2, chunksNext_lit h0 h1, ← e2]
      exact g1
    · have := hlen op vars t'
      simp; omega

theorem varsText_length {vars : List Var} (h : ∀ v ∈ vars, v.WF varnameX maxLengthX) :
    vars.length ≤ (varsText vars).length := by
  induction vars with
  | nil => simp
  | cons v vs ih =>
    simp only [List.mem_cons, forall_eq_or_imp] at h
    have h1 := List.length_pos_iff.2 (Var.render_ne_nil h.1)
    have ih := ih h.2
    cases vs with
    | nil => simp [varsText, joinWith]; omega
    | cons w ws => simp [varsText, joinWith] at ih ⊢; omega

/-- Outcome of collecting names from a variable list: the names up to the first whose length does
not fit, then a panic. -/
noncomputable def collectNames (vs : List Var) : Option (List Str) :=
  open Classical in if ∀ v ∈ vs, Fits v then some (vs.map Var.name) else none

theorem collectNames_cons (v : Var) (vs : List Var) (h : Fits v) :
    collectNames (v :: vs) = (collectNames vs).map (v.name :: ·) := by
  unfold collectNames
  by_cases h2 : ∀ v ∈ vs, Fits v
  · rw [if_pos h2, if_pos (by simpa using ⟨h, h2⟩)]; rfl
  · rw [if_neg h2, if_neg (by simp; intro _; simpa using h2)]; rfl

theorem collectNames_bad (v : Var) (vs : List Var) (h : ¬ Fits v) :
    collectNames (v :: vs) = none := by
  unfold collectNames
  rw [if_neg]; intro h2; exact h (h2 v (by simp))

theorem varsCollect_eq : ∀ (m k : Nat) (t : List Piece) (vs : List Var), Chunked t →
    (∀ v ∈ vs, v.WF varnameX maxLengthX) → (text t).length ≤ m →
    vs.length + (text t).length < k →
    varsCollect k ⟨text t, some (varsText vs)⟩ = collectNames (vs ++ varsOf t) := by
  intro m
  induction m using Nat.strongRecOn with
  | _ m ihm =>
    intro k t vs ht hv hm hk
    induction vs generalizing k with
    | nil =>
      obtain ⟨k, rfl⟩ : ∃ k', k = k' + 1 := ⟨k - 1, by omega⟩
      have e0 : varsText [] = [] := rfl
      rcases nextExpr_eq t ((text t).length + 1) ht (by omega) with ⟨g1, g2⟩ |
          ⟨op, vars, t', g1, g2, g3, g4, g5⟩
      · have : varsNext ((text t).length + 2) ⟨text t, some (varsText [])⟩ = some none := by
          simp only [varsNext, e0, varListNext_nil]
          rw [g1]
        rw [varsCollect, this]
        simp [g2, collectNames]
      · cases vars with
        | nil => exact absurd rfl g2.2.1
        | cons v vs' =>
          have hv' := g2.2.2
          simp only [List.mem_cons, forall_eq_or_imp] at hv'
          obtain ⟨c1, c2⟩ := varListNext_cons hv'.1 vs'
          have hstep : varsNext ((text t).length + 2) ⟨text t, some (varsText [])⟩ =
              varsNext ((text t).length + 1) ⟨text t', some (varsText (v :: vs'))⟩ := by
            rw [varsNext]
            simp only [e0, varListNext_nil]
            rw [g1]
            simp only [decompose_eq g2]
          have hl : (varsText (v :: vs')).length + (text t').length < (text t).length := by
            have : (text t).length ≥ (bodyText op (v :: vs')).length + (text t').length + 1 := by
              -- the expression is a part of the text
              have hh : ∀ (t : List Piece) n, Chunked t →
                  nextExpr n (text t) = some (some (bodyText op (v :: vs'), text t')) →
                  (bodyText op (v :: vs')).length + (text t').length + 1 ≤ (text t).length := by
                have key : ∀ n s b r, nextExpr n s = some (some (b, r)) →
                    b.length + r.length + 1 ≤ s.length := by
                  intro n
                  induction n with
                  | zero => intro s b r h; cases h
                  | succ n ih =>
                    intro s b r h
                    rw [nextExpr] at h
                    unfold chunksNext at h
                    by_cases hs : s.isEmpty
                    · simp [hs] at h
                    · simp only [hs, if_false, Bool.false_eq_true] at h
                      cases hf : find_split s '{' with
                      | none =>
                        rw [hf] at h; simp only at h
                        have := ih _ _ _ h
                        simp at this
                      | some x =>
                        obtain ⟨l, r'⟩ := x
                        rw [hf] at h
                        obtain ⟨q, rfl, e, _⟩ := find_split_some.1 hf
                        by_cases hl : l.isEmpty
                        · simp only [hl, if_true] at h
                          simp at hl; subst hl
                          rw [e] at h ⊢
                          simp only [List.nil_append, List.drop_succ_cons, List.drop_zero] at h
                          cases hh : find_split_hole q '}' with
                          | none => rw [hh] at h; cases h
                          | some y =>
                            obtain ⟨b', r''⟩ := y
                            rw [hh] at h
                            simp at h
                            obtain ⟨rfl, rfl⟩ := h
                            obtain ⟨e', _⟩ := find_split_hole_some.1 hh
                            rw [e']; simp
                        · simp only [hl, if_false, Bool.false_eq_true] at h
                          have := ih _ _ _ h
                          rw [e]; simp at this ⊢; omega
                intro t n _ h
                exact key n _ _ _ h
              exact hh t _ ht g1
            simp [bodyText] at this
            omega
          have hlen := varsText_length g2.2.2
          by_cases hf : Fits v
          · have hn : varsNext ((text t).length + 1) ⟨text t', some (varsText (v :: vs'))⟩ =
                some (some (v.name, ⟨text t', some (varsText vs')⟩)) := by
              rw [varsNext]; simp only [c1 hf]; first | rfl | skip
            rw [varsCollect, hstep, hn]
            simp only
            rw [ihm (text t').length (by omega) k t' vs' g3 hv'.2 (Nat.le_refl _)
              (by simp at hlen hk; omega)]
            rw [g4, List.nil_append, List.cons_append, collectNames_cons _ _ hf]
          · have hn : varsNext ((text t).length + 1) ⟨text t', some (varsText (v :: vs'))⟩ = none := by
              rw [varsNext]; simp only [c2 hf]
            rw [varsCollect, hstep, hn, g4, List.nil_append, List.cons_append,
              collectNames_bad _ _ hf]
    | cons v vs ih =>
      simp only [List.mem_cons, forall_eq_or_imp] at hv
      obtain ⟨k, rfl⟩ : ∃ k', k = k' + 1 := ⟨k - 1, by omega⟩
      obtain ⟨c1, c2⟩ := varListNext_cons hv.1 vs
      by_cases hf : Fits v
      · have hn : varsNext ((text t).length + 2) ⟨text t, some (varsText (v :: vs))⟩ =
            some (some (v.name, ⟨text t, some (varsText vs)⟩)) := by
          rw [varsNext]; simp only [c1 hf]; rfl
        rw [varsCollect, hn]
        simp only
        rw [ih k hv.2 (by simp at hk; omega), List.cons_append, collectNames_cons _ _ hf]
      · have hn : varsNext ((text t).length + 2) ⟨text t, some (varsText (v :: vs))⟩ = none := by
          rw [varsNext]; simp only [c2 hf]
        rw [varsCollect, hn, List.cons_append, collectNames_bad _ _ hf]

theorem variables_eq {t : List Piece} (h : Accepted t) :
    variables (text t) = collectNames (varsOf t) := by
  have hc := merge_chunked h
  rw [← text_merge t, ← varsOf_merge t]
  generalize merge t = t' at hc
  have : variables (text t') = varsCollect ((text t').length + 1) ⟨text t', some (varsText [])⟩ := by
    simp only [variables, varsCollect, varsNext]
    rfl
  rw [this, varsCollect_eq _ _ t' [] hc (by simp) (Nat.le_refl _) (by simp)]
  rfl

theorem smallLengths_iff (t : List Piece) : SmallLengths t ↔ ∀ v ∈ varsOf t, Fits v := by
  constructor
  · intro h v hv
    simp only [varsOf, List.mem_flatMap] at hv
    obtain ⟨p, hp, hv⟩ := hv
    cases p with
    | lit s => simp at hv
    | expr op vars => exact fun ds hd => h op vars hp v hv ds hd
  · intro h op vars hp v hv ds hd
    refine h v ?_ ds hd
    simp only [varsOf, List.mem_flatMap]
    exact ⟨_, hp, hv⟩

end Verif.Tpl
