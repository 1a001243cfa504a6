import Verif.Lemmas.TemplateDelims
import Verif.Props.TemplateExpand
import Verif.Props.Encode

/-!
# C35, C41, C42: what values can contribute to an expansion; the hooks of a dynamic context
-/

namespace Verif

open Verif.Abnf Verif.Rfc Verif.Rfc6570 Verif.Tpl

/-! ## C35 -/

/-- Literals are copied. -/
theorem C35_literal (S : Spec) (dbg : Bool) (ctx : Ctx) (s : Str) (h : star asciiLiterals s) :
    expand_to_string S dbg ctx s = .ok s := by
  obtain ⟨t, h1, h2, h3⟩ : ∃ t, Accepted t ∧ (∀ p ∈ t, ∃ a, p = .lit a) ∧ text t = s := by
    refine star_ind (P := fun s => ∃ t, Accepted t ∧ (∀ p ∈ t, ∃ a, p = .lit a) ∧ text t = s)
      ⟨[], (by intro p hp; cases hp), (by simp), rfl⟩ ?_ s h
    rintro a b ha _ ⟨t, h1, h2, rfl⟩
    refine ⟨.lit a :: t, ?_, ?_, by simp [text, Piece.render]⟩
    · intro p hp
      rcases List.mem_cons.1 hp with rfl | hp
      · exact ha
      · exact h1 p hp
    · intro p hp
      rcases List.mem_cons.1 hp with rfl | hp
      · exact ⟨a, rfl⟩
      · exact h2 p hp
  subst h3
  have hne : ∀ op vars, Piece.expr op vars ∉ t := by
    intro op vars hm
    obtain ⟨a, e⟩ := h2 _ hm
    cases e
  rw [expand_ok h1 (fun op vars hm => absurd hm (hne op vars))]
  refine ⟨fun op vars hm => absurd hm (hne op vars), ?_⟩
  clear h1 hne h
  induction t with
  | nil => rfl
  | cons p t ih =>
    obtain ⟨a, rfl⟩ := h2 p (by simp)
    rw [List.foldr_cons, ih (fun p hp => h2 p (by simp [hp]))]
    rfl

/-- The expansion of a concatenation of templates is the concatenation of the expansions: every part
is expanded on its own, and literals stay between the expressions where they are. -/
theorem C35_concat (S : Spec) (dbg : Bool) (ctx : Ctx) (a b : List Piece) (out : Str)
    (ha : Accepted (a ++ b)) (hs : SmallLengths (a ++ b)) :
    expand_to_string S dbg ctx (text (a ++ b)) = .ok out ↔
      ∃ x y, expand_to_string S dbg ctx (text a) = .ok x ∧
        expand_to_string S dbg ctx (text b) = .ok y ∧ out = x ++ y := by
  have ha1 := (accepted_split ha).1
  have ha2 := (accepted_split ha).2
  have hs1 : SmallLengths a := fun op vars hm => hs op vars (by simp [hm])
  have hs2 : SmallLengths b := fun op vars hm => hs op vars (by simp [hm])
  rw [expand_ok ha hs, display_append]
  simp only [expand_ok ha1 hs1, expand_ok ha2 hs2]
  constructor
  · rintro ⟨hw, h⟩
    rw [Option.bind_eq_some_iff] at h
    obtain ⟨x, h1, h⟩ := h
    rw [Option.map_eq_some_iff] at h
    obtain ⟨y, h2, rfl⟩ := h
    exact ⟨x, y, ⟨fun op vars hm => hw op vars (by simp [hm]), h1⟩,
      ⟨fun op vars hm => hw op vars (by simp [hm]), h2⟩, rfl⟩
  · rintro ⟨x, y, ⟨w1, h1⟩, ⟨w2, h2⟩, rfl⟩
    refine ⟨?_, by rw [h1, h2]; rfl⟩
    intro op vars hm
    rcases List.mem_append.1 hm with hm | hm
    · exact w1 op vars hm
    · exact w2 op vars hm

/-- The text that a string value contributes under an operator other than `+` and `#` consists of
unreserved characters and triplets, whatever the value is and however it is written. -/
theorem C35_value_text (S : Spec) (dbg : Bool) (ctx : Ctx) (op : Option Char) (v : Var) (d : Disp)
    (out : Str) (ha : Accepted [.expr op [v]]) (hs : SmallLengths [.expr op [v]])
    (hop : op ≠ some '+' ∧ op ≠ some '#') (hd : ctx .expand v.name = .string d)
    (h : expand_to_string S dbg ctx (text [.expr op [v]]) = .ok out) :
    ∃ e, unreservedText S e ∧
      out = (row op).first ++
        (if (row op).named then v.name ++ (if e = [] then (row op).ifemp else '=' :: e) else e) := by
  rw [expand_ok ha hs] at h
  have h := h.2
  have hop' := (ha _ (List.mem_singleton.2 rfl)).1
  have hr : (row op).reserved = false := by
    cases op with
    | none => rfl
    | some c =>
      have h3 : c ≠ '+' := fun e => hop.1 (by rw [e])
      have h4 : c ≠ '#' := fun e => hop.2 (by rw [e])
      simp only [row, if_neg h3, if_neg h4]
      repeat' split
      all_goals rfl
  simp only [List.foldr_cons, List.foldr_nil, dispG, varsP] at h
  rw [hd, visit_value] at h
  cases hv : visit_string S dbg (toOp op) (toSpec v) true d with
  | none => rw [hv] at h; simp at h
  | some t =>
    rw [hv] at h
    simp at h
    subst h
    unfold visit_string at hv
    simp only at hv
    rw [opProps_row hop', hr] at hv
    simp only at hv
    rw [Option.map_eq_some_iff] at hv
    obtain ⟨e, h1, rfl⟩ := hv
    refine ⟨e, (unreservedText_iff S e).2 (escape_maxlen_unreserved h1).1, ?_⟩
    simp only [leader, if_true, List.isEmpty_iff]
    rfl

/-- No injection: the delimiters of an expansion depend on the template and on the shapes of the
values only (kinds, numbers of members, emptiness of strings), for the variables that are not under
`+` or `#`. -/
theorem C35_no_injection (S : Spec) (dbg : Bool) (ctx ctx' : Ctx) (t : List Piece) (out out' : Str)
    (ha : Accepted t) (hs : SmallLengths t)
    (hv : ∀ op vars, Piece.expr op vars ∈ t → ∀ v ∈ vars,
      if op = some '+' ∨ op = some '#' then ctx .expand v.name = ctx' .expand v.name
      else SameShape (flat (ctx .expand v.name)) (flat (ctx' .expand v.name)))
    (h : expand_to_string S dbg ctx (text t) = .ok out)
    (h' : expand_to_string S dbg ctx' (text t) = .ok out') : delims out = delims out' :=
  delims_display ha hv ((expand_ok ha hs).1 h).2 ((expand_ok ha hs).1 h').2

/-! ### Concrete cases -/

example : expand_to_string .uri true (oneStr ['v'] (chars! "a/../b?x=1#é")) (chars! "http://h/{v}/z{?v}") =
    .ok (chars! "http://h/a%2F..%2Fb%3Fx%3D1%23%C3%A9/z?v=a%2F..%2Fb%3Fx%3D1%23%C3%A9") := by
  decide +kernel
example : delims (chars! "http://h/a%2F..%2Fb%3Fx%3D1%23%C3%A9/z?v=a%2F..%2Fb%3Fx%3D1%23%C3%A9") =
    delims (chars! "http://h/1/z?v=1") := by decide +kernel
example : SameShape (.str (chars! "a/../b?x=1#é")) (.str (chars! "1")) := by simp [SameShape]

/-- `+` does let delimiters through (as RFC 6570 says). -/
example : expand_to_string .uri true (oneStr ['v'] (chars! "a?b")) (chars! "{+v}") =
    .ok (chars! "a?b") := by decide +kernel

/-! ## C41 -/

theorem anyText_resource (S : Spec) (s : Str) : anyText S s ↔ PC (resourceChar S) s :=
  anyText_iff S s

/-- Whatever the context hands out, under every operator: an expansion that ends well consists of
reserved and unreserved characters and triplets. -/
theorem C41_expansion_chars (S : Spec) (dbg : Bool) (ctx : Ctx) (t : List Piece) (out : Str)
    (ha : Accepted t) (hs : SmallLengths t)
    (h : expand_to_string S dbg ctx (text t) = .ok out) : anyText S out :=
  (anyText_resource S out).2 (pc_display ha ((expand_ok ha hs).1 h).2)

/-- In particular the result of a URI expansion is ASCII. -/
theorem C41_uri_ascii (dbg : Bool) (ctx : Ctx) (t : List Piece) (out : Str)
    (ha : Accepted t) (hs : SmallLengths t)
    (h : expand_to_string .uri dbg ctx (text t) = .ok out) : ∀ c ∈ out, c.toNat < 128 := by
  have hp := (anyText_resource .uri out).1 (C41_expansion_chars .uri dbg ctx t out ha hs h)
  intro c hc
  rcases hp.mem hc with rfl | hx | hx
  · decide
  · simp [isHex] at hx; omega
  · simp [resourceChar, iunreserved, unreserved, queryPrivate, gen_delims, sub_delims, ALPHA, DIGIT,
      char_le_iff, char_eq_iff] at hx
    omega

example : expand_to_string .uri false (oneStr ['v'] (chars! "<%zz %E2\\^>é")) (chars! "{+v}") =
    .ok (chars! "%3C%25zz%20%E2%5C%5E%3E%C3%A9") := by decide +kernel

/-! ## C42 -/

/-- Every run of `expand_dynamic` that ends, with any context, however its values depend on what
happened before: `start` is called once, before everything else, `finish` once, after everything else,
also if there is a type error; in between every varspec is visited in the order of the template, first
for its type, then for its value; after a type error nothing more is visited. -/
theorem C42_hooks (S : Spec) (dbg : Bool) (f : List Event → Purpose → Str → Value) (t : List Piece)
    (ha : Accepted t) (hs : SmallLengths t) (d : DynOut (List Event) Unit)
    (h : expand_dynamic S dbg (recorder f) (text t) [] = some d) :
    (d.result = .ok () → d.state = .start :: (names t).flatMap visits ++ [.finish]) ∧
    (∀ e, d.result = .error e → ∃ before n after, names t = before ++ n :: after ∧
      d.state = .start :: before.flatMap visits ++ [.visit .typecheck n, .finish]) := by
  unfold expand_dynamic at h
  rw [Option.map_eq_some_iff] at h
  obtain ⟨d', h, rfl⟩ := h
  rw [dyn_eq S dbg (recorder f) ha hs _ _ _ (by omega)] at h
  obtain ⟨h1, h2⟩ := rec_fold S dbg f h
  constructor
  · intro e
    simp only [recorder] at h1 ⊢
    rw [h1 e]
    simp
  · intro e he
    obtain ⟨b, n, a, e1, e2⟩ := h2 e he
    refine ⟨b, n, a, e1, ?_⟩
    simp only [recorder] at e2 ⊢
    rw [e2]
    simp

example : (expand_dynamic .uri true (recorder fun _ _ _ => .string [['x']]) (chars! "a{b,c}") []).map
      DynOut.state =
    some [.start, .visit .typecheck ['b'], .visit .expand ['b'], .visit .typecheck ['c'],
      .visit .expand ['c'], .finish] := by decide +kernel

/-- The value may depend on the visits before: a counter. -/
example : (expand_dynamic .uri true
      (recorder fun log _ _ => .string [(log.map fun _ => 'i')]) (chars! "{b},{b}") []).map DynOut.out =
    some (chars! "ii,iiii") := by decide +kernel

end Verif
