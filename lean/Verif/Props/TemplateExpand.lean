import Verif.Lemmas.TemplateAgree
import Verif.Spec.Lit

/-!
# C33, C34: expansion of URI templates (RFC 6570 section 3)

`text t` is the text of the template with the parts `t`; every accepted template is such a text
(`C32_cover`).  `fun _ n => val n` is a context that hands out `val n` for the variable `n`.
-/

namespace Verif

open Verif.Abnf Verif.Rfc Verif.Rfc6570 Verif.Tpl

/-! ## C33 -/

/-- The exact text the crate writes for every template and all values it can handle. -/
theorem C33_expand_partial (S : Spec) (dbg : Bool) (val : Str → Value) (t : List Piece)
    (ha : Accepted t) (hs : SmallLengths t) (ht : WellTyped (fun n => flat (val n)) t)
    (hh : AllHandled dbg val t) :
    expand_to_string S dbg (fun _ n => val n) (text t) =
      .ok (expansionCrate S (fun n => flat (val n)) t) := by
  unfold expand_to_string
  rw [typecheck_ok (fun _ n => val n) ha hs ht]
  simp only [Res.bind]
  rw [Tpl.display_eq S dbg _ ha hs _ (by omega),
    display_handled S dbg (fun _ n => val n) (fun n => flat (val n)) (fun _ => rfl) ha ht hh]

/-- In the situations of `Agrees` that is the text that RFC 6570 demands. -/
theorem C33_agrees (S : Spec) (val : Str → Val) (t : List Piece) (h : Agrees S val t)
    (hop : Accepted t) : expansionCrate S val t = expansion S val t := by
  unfold expansionCrate expansion
  rw [List.flatMap_def, List.flatMap_def]
  congr 1
  refine List.map_congr_left fun p hp => ?_
  cases p with
  | lit s => rfl
  | expr op vars =>
    simp only [pieceText, exprText]
    have e : ((vars.filter fun v => (val v.name).defined).map fun v =>
          varTextCrate S (row op) v (val v.name)) =
        ((vars.filter fun v => (val v.name).defined).map fun v =>
          varText S (row op) v (val v.name)) := by
      refine List.map_congr_left fun v hv => ?_
      have hv' := (List.mem_filter.1 hv).1
      by_cases hn : (row op).named = true
      · have hA := h op vars hp hn v hv'
        have hw := ((hop _ hp).2.2 v hv').1
        have hname : '%' ∉ v.name → (row op).enc S v.name = v.name := by
          intro hpct
          rw [enc_of_named hn]
          exact encU_name hw hpct
        cases hval : val v.name with
        | undefined => rfl
        | str s => rfl
        | list items =>
          rw [hval] at hA
          simp only [varTextCrate, varText]
          by_cases hx : v.mod = .explode
          · simp only [hx, if_true, hn]
            obtain ⟨h1, h2⟩ := hA hx
            have hitem : ∀ i ∈ items, (v.name ++ (if i = [] then (row op).ifemp
                else '=' :: (row op).enc S i)) = v.name ++ '=' :: (row op).enc S i := by
              intro i hi
              by_cases he : i = []
              · subst he
                rcases h2 with h2 | h2
                · rw [if_pos rfl, h2, enc_of_named hn]; rfl
                · exact absurd hi h2
              · rw [if_neg he]
            cases items with
            | nil => rfl
            | cons i r =>
              rw [List.map_cons, hitem i (by simp)]
              simp only
              congr 2
              refine List.map_congr_left fun j hj => ?_
              rw [hitem j (by simp [hj])]
              rcases h1 with h1 | h1
              · cases r with
                | nil => cases hj
                | cons _ _ => simp at h1
              · rw [hname h1]
          · simp [hx]
        | assoc entries =>
          rw [hval] at hA
          simp only [varTextCrate, varText]
          by_cases hx : v.mod = .explode
          · simp only [hx, if_true, hn] at hA ⊢
            congr 1
            refine List.map_congr_left fun e he => ?_
            obtain ⟨h1, h2⟩ := hA e he
            rw [enc_of_named hn, ← h1]
            congr 1
            by_cases h0 : e.2 = []
            · rcases h2 with h2 | h2
              · rw [if_pos h0, h2, h0, enc_of_named hn]; rfl
              · exact absurd h0 h2
            · rw [if_neg h0]
          · simp only [hx, if_false, hn, if_true] at hA ⊢
            rcases hA with hA | hA
            · rw [hname hA]
            · subst hA
              have := (List.mem_filter.1 hv).2
              rw [hval] at this
              simp [Val.defined] at this
      · have hn : (row op).named = false := by simpa using hn
        cases hval : val v.name with
        | undefined => rfl
        | str s => rfl
        | list items => simp [varTextCrate, varText, hn]
        | assoc entries => simp [varTextCrate, varText, hn]
    rw [e]

/-- RFC 6570 expansion. -/
theorem C33_rfc_partial (S : Spec) (dbg : Bool) (val : Str → Value) (t : List Piece)
    (ha : Accepted t) (hs : SmallLengths t) (ht : WellTyped (fun n => flat (val n)) t)
    (hh : AllHandled dbg val t) (hA : Agrees S (fun n => flat (val n)) t) :
    expand_to_string S dbg (fun _ n => val n) (text t) =
      .ok (expansion S (fun n => flat (val n)) t) := by
  rw [C33_expand_partial S dbg val t ha hs ht hh, C33_agrees S _ t hA ha]

/-- Templates without prefix modifiers and without the operators `+` and `#`: the text is exact for
all values, the expansion never fails. -/
theorem C33_plain (S : Spec) (dbg : Bool) (val : Str → Value) (t : List Piece) (ha : Accepted t)
    (hp : ∀ op vars, Piece.expr op vars ∈ t →
      op ≠ some '+' ∧ op ≠ some '#' ∧ ∀ v ∈ vars, v.mod = .none ∨ v.mod = .explode) :
    expand_to_string S dbg (fun _ n => val n) (text t) =
      .ok (expansionCrate S (fun n => flat (val n)) t) := by
  have hr : ∀ op, op ≠ some '+' → op ≠ some '#' → (row op).reserved = false := by
    intro op h1 h2
    cases op with
    | none => rfl
    | some c =>
      have h1 : c ≠ '+' := fun e => h1 (by rw [e])
      have h2 : c ≠ '#' := fun e => h2 (by rw [e])
      simp only [row, if_neg h1, if_neg h2]
      repeat' split
      all_goals rfl
  have hm : ∀ op vars, Piece.expr op vars ∈ t → ∀ v ∈ vars, ∀ ds, v.mod ≠ .pre ds := by
    intro op vars h v hv ds e
    rcases (hp op vars h).2.2 v hv with h | h <;> rw [h] at e <;> cases e
  refine C33_expand_partial S dbg val t ha ?_ ?_ ?_
  · intro op vars h v hv ds e
    exact absurd e (hm op vars h v hv ds)
  · intro op vars h v hv ds e
    exact absurd e (hm op vars h v hv ds)
  · intro op vars h v hv
    have hr := hr op (hp op vars h).1 (hp op vars h).2.1
    unfold Handled
    split
    · trivial
    · split
      · next e => exact absurd e (hm op vars h v hv _)
      · intro h; rw [hr] at h; cases h
    · intro h; rw [hr] at h; cases h
    · intro h; rw [hr] at h; cases h

/-- A plain ASCII text. -/
def AsciiText (s : Str) : Prop := ∀ c ∈ s, c.toNat < 128 ∧ c ≠ '%'

/-- All texts in the value are plain ASCII. -/
def AsciiValue : SValue → Prop
  | .undefined => True
  | .string s => AsciiText s
  | .list l => ∀ s ∈ l, AsciiText s
  | .assoc l => ∀ e ∈ l, AsciiText e.1 ∧ AsciiText e.2

theorem tidy_ascii {s : Str} (h : AsciiText s) (b : Bool) : Tidy b s := by
  cases s with
  | nil => exact .nil
  | cons c r =>
    have := Tidy.plain (b := b) (r := r) (s := []) (h c (by simp)).1 (h c (by simp)).2
      (fun hm => (h '%' (by simp [hm])).2 rfl) (.inl rfl) .nil
    simpa using this

/-- All templates, with a `SimpleContext` of plain ASCII values: no failure. -/
theorem C33_simple_ascii (S : Spec) (dbg : Bool) (m : Variables) (t : List Piece)
    (ha : Accepted t) (hs : SmallLengths t)
    (hm : ∀ n v, mapGet m n = some v → AsciiValue v)
    (ht : WellTyped (fun n => flat (Ctx.ofSimple m .expand n)) t) :
    expand_to_string S dbg (Ctx.ofSimple m) (text t) =
      .ok (expansionCrate S (fun n => flat (Ctx.ofSimple m .expand n)) t) := by
  refine C33_expand_partial S dbg (Ctx.ofSimple m .expand) t ha hs ht ?_
  intro op vars _ v _
  have hlen : ∀ (s : Str) n, AsciiText s → bytes (s.take n).dropLast ≤ n ∧
      (n = 0 ∨ s = [] ∨ bytes (s.take n).dropLast < n) := by
    intro s n h
    have : bytes (s.take n).dropLast = min n s.length - 1 := by
      rw [bytes_eq, blen_of_ascii]
      · simp
      · intro c hc
        exact (h c (List.mem_of_mem_take (mem_of_dropLast hc))).1
    rw [this]
    omega
  unfold Ctx.ofSimple
  cases hg : mapGet m v.name with
  | none => trivial
  | some x =>
    have hx := hm _ _ hg
    cases x with
    | undefined => trivial
    | string s =>
      simp only [Handled]
      have hx : AsciiText s := hx
      split
      · next ds _ =>
        split
        · refine ⟨s, rfl, fun h => (hx _ h).2 rfl, ?_, fun _ => (hlen s _ hx).1⟩
          cases s with
          | nil => trivial
          | cons c r => exact (hx c (by simp)).1
        · exact .inr ⟨s, rfl, fun _ => (hlen s _ hx).2⟩
      · exact fun _ => tidy_ascii hx true
    | list l =>
      intro _ d hd
      simp at hd
      obtain ⟨s, hs, rfl⟩ := hd
      exact tidy_ascii (hx s hs) true
    | assoc l =>
      intro _ e he
      simp only [List.mem_map] at he
      obtain ⟨x, hx', rfl⟩ := he
      exact ⟨tidy_ascii (hx x hx').1 true, tidy_ascii (hx x hx').2 true⟩

/-! ### Where the property is false of the code -/

/-- One string variable. -/
def oneStr (n : Str) (s : Str) : Ctx := fun _ k => if k = n then .string [s] else .undefined

/-- "Does not panic" is refuted: a value that starts with a non-ASCII character makes reserved
expansion panic, in every build. -/
theorem C33_reserved_nonascii_refuted (S : Spec) (dbg : Bool) (c : Char) (r : Str)
    (hc : 128 ≤ c.toNat) :
    expand_to_string S dbg (oneStr ['v'] (c :: r)) (chars! "{+v}") = .panic := by
  have ha : Accepted [.expr (some '+') [⟨['v'], .none⟩]] := by
    intro p hp
    simp at hp
    subst hp
    refine ⟨by simp; decide, by simp, ?_⟩
    intro v hv
    simp at hv
    subst hv
    exact ⟨⟨['v'], [], rfl, .inl ⟨'v', rfl, by decide⟩, star_nil _⟩, trivial⟩
  have hs : SmallLengths [.expr (some '+') [⟨['v'], .none⟩]] := by
    intro op vars hp v hv ds e
    simp at hp
    rw [hp.2] at hv
    simp at hv
    rw [hv] at e
    cases e
  have e : chars! "{+v}" = text [.expr (some '+') [⟨['v'], .none⟩]] := rfl
  have htc : WellTyped (fun n => flat (oneStr ['v'] (c :: r) .typecheck n))
      [.expr (some '+') [⟨['v'], .none⟩]] := by
    intro op vars hp v hv ds e
    simp at hp
    rw [hp.2] at hv
    simp at hv
    rw [hv] at e
    cases e
  unfold expand_to_string
  rw [e, typecheck_ok _ ha hs htc]
  simp only [Res.bind]
  rw [Tpl.display_eq S dbg _ ha hs _ (by omega)]
  have hw : escape_write_with_maxlen S dbg [c :: r] true none = none := by
    unfold escape_write_with_maxlen
    exact process_nonascii hc rfl
  have hv : visit_value S dbg (toOp (some '+')) (toSpec ⟨['v'], .none⟩) true
      (oneStr ['v'] (c :: r) .expand ['v']) = none := by
    have e : oneStr ['v'] (c :: r) .expand ['v'] = .string [c :: r] := rfl
    rw [e, visit_value, visit_string]
    show Option.map _ (Option.map _ (escape_write_with_maxlen S dbg [c :: r] true none)) = none
    rw [hw]
    rfl
  simp only [List.foldr_cons, dispG, varsP]
  rw [hv]
  rfl

/-- "Yields the RFC result" is refuted: reserved expansion can lose data; in `%E2%41b` the triplet
`%41` disappears. -/
theorem C33_data_loss_refuted :
    expand_to_string .uri false (oneStr ['v'] (chars! "%E2%41b")) (chars! "{+v}") =
        .ok (chars! "%E2b") ∧
      expansion .uri (fun _ => .str (chars! "%E2%41b")) [.expr (some '+') [⟨['v'], .none⟩]] =
        chars! "%E2%41b" := by decide +kernel

/-- A prefix of a non-ASCII value: panic in a debug build (underflow of the remaining length). -/
theorem C33_prefix_debug_refuted :
    expand_to_string .uri true (oneStr ['v'] (chars! "あい")) (chars! "{v:2}") = .panic := by
  decide +kernel

/-- A prefix under `+` does not count the characters before a triplet right: the prefix of length 3
has 4 characters (a triplet counts as one). -/
theorem C33_reserved_prefix_refuted :
    expand_to_string .uri true (oneStr ['v'] (chars! "ab%20cd")) (chars! "{+v:3}") =
        .ok (chars! "ab%20c") ∧
      pctDecode (chars! "ab%20c") = utf8s (chars! "ab c") := by decide +kernel

/-- A list. -/
def oneList (n : Str) (l : List Str) : Ctx :=
  fun _ k => if k = n then .list (l.map fun s => [s]) else .undefined

/-- `;` with the explode modifier writes `=` before an empty item. -/
theorem C33_empty_item_refuted :
    expand_to_string .uri true (oneList ['l'] [['a'], []]) (chars! "{;l*}") =
        .ok (chars! ";l=a;l=") ∧
      expansion .uri (fun _ => .list [['a'], []]) [.expr (some ';') [⟨['l'], .explode⟩]] =
        chars! ";l=a;l" := by decide +kernel

/-- A variable name with a triplet is encoded once more from the second item on. -/
theorem C33_name_refuted :
    expand_to_string .uri true (oneList (chars! "%41") [['a'], ['b']]) (chars! "{?%41*}") =
        .ok (chars! "?%41=a&%2541=b") ∧
      expansion .uri (fun _ => .list [['a'], ['b']]) [.expr (some '?') [⟨chars! "%41", .explode⟩]] =
        chars! "?%41=a&%41=b" := by decide +kernel

/-! ### Concrete cases (RFC 6570 sections 3.2.2 - 3.2.9) -/

/-- Variables of RFC 6570 section 3.2. -/
def rfcVars : Variables :=
  [(chars! "dub", .string (chars! "me/too")), (chars! "hello", .string (chars! "Hello World!")),
   (chars! "half", .string (chars! "50%")), (chars! "var", .string (chars! "value")),
   (chars! "who", .string (chars! "fred")), (chars! "base", .string (chars! "http://example.com/home/")),
   (chars! "path", .string (chars! "/foo/bar")),
   (chars! "list", .list [chars! "red", chars! "green", chars! "blue"]),
   (chars! "keys", .assoc [(chars! "semi", chars! ";"), (chars! "dot", chars! "."),
     (chars! "comma", chars! ",")]),
   (chars! "empty", .string []), (chars! "empty_keys", .assoc [])]

example : expand_to_string .uri true (Ctx.ofSimple rfcVars) (chars! "{half}") = .ok (chars! "50%25") := by
  decide +kernel
example : expand_to_string .uri true (Ctx.ofSimple rfcVars) (chars! "up{+path:6}here") =
    .ok (chars! "up/foo/bhere") := by decide +kernel
example : expand_to_string .uri true (Ctx.ofSimple rfcVars) (chars! "{#path,empty,who}") =
    .ok (chars! "#/foo/bar,,fred") := by decide +kernel
example : expand_to_string .uri true (Ctx.ofSimple rfcVars) (chars! "{/list*,path:4}") =
    .ok (chars! "/red/green/blue/%2Ffoo") := by decide +kernel
example : expand_to_string .uri true (Ctx.ofSimple rfcVars) (chars! "{;keys*}") =
    .ok (chars! ";semi=%3B;dot=.;comma=%2C") := by decide +kernel
example : expand_to_string .uri true (Ctx.ofSimple rfcVars) (chars! "{?keys,empty,undef,empty_keys}") =
    .ok (chars! "?keys=semi,%3B,dot,.,comma,%2C&empty=") := by decide +kernel
example : expand_to_string .uri true (Ctx.ofSimple rfcVars) (chars! "{+base}index") =
    .ok (chars! "http://example.com/home/index") := by decide +kernel
example : expand_to_string .uri true (Ctx.ofSimple rfcVars) (chars! "{+half}{X.empty_keys*}{var:30}") =
    .ok (chars! "50%25value") := by decide +kernel

/-- The hypotheses of `C33_simple_ascii` are met by a template with all kinds of operators. -/
example : WellTyped (fun n => flat (Ctx.ofSimple rfcVars .expand n))
    [.lit ['x'], .expr (some '+') [⟨chars! "var", .pre ['3']⟩, ⟨chars! "list", .explode⟩]] := by
  intro op vars h v hv ds e
  simp at h
  rw [h.2] at hv
  simp at hv
  rcases hv with rfl | rfl
  · exact trivial
  · cases e

/-! ## C34 -/

/-- For every template and every context that does not change: the dynamic expansion writes the same
text as the static one; a panic of the static one is a panic of the dynamic one; a type error of the
static one is the same type error of the dynamic one, unless the dynamic one panics before it gets to
the wrong variable. -/
theorem C34_agree (S : Spec) (dbg : Bool) (ctx : Ctx) (template : Str) :
    (∀ out, expand_to_string S dbg ctx template = .ok out →
      expand_dynamic_to_string S dbg ctx.toDyn template () = some (.ok out, ())) ∧
    (∀ k l, expand_to_string S dbg ctx template = .err k l →
      expand_dynamic_to_string S dbg ctx.toDyn template () = some (.error (k, l), ()) ∨
      expand_dynamic_to_string S dbg ctx.toDyn template () = none) ∧
    (expand_to_string S dbg ctx template = .panic →
      expand_dynamic_to_string S dbg ctx.toDyn template () = none) := by
  have h := goes_loop S dbg ctx (template.length + 1) 0 template
  unfold expand_to_string expand_dynamic_to_string expand_dynamic
  have e : ctx.toDyn.start () = () := rfl
  rw [e]
  cases ht : typecheck ctx (template.length + 1) 0 template with
  | panic =>
    rw [ht] at h; simp only [Goes] at h; rw [h]
    simp [Res.bind]
  | err k l =>
    rw [ht] at h; simp only [Goes] at h
    simp only [Res.bind, Res.err.injEq, and_imp]
    refine ⟨by simp, ?_, by simp⟩
    rintro _ _ rfl rfl
    rcases h with h | ⟨out, h⟩
    · rw [h]; exact .inr rfl
    · rw [h]; exact .inl rfl
  | ok u =>
    rw [ht] at h; simp only [Goes] at h; rw [h]
    simp only [Res.bind]
    cases displayExpanded S dbg ctx (template.length + 1) template with
    | none => simp
    | some t =>
      simp only [Res.ok.injEq]
      refine ⟨?_, by simp, by simp⟩
      rintro _ rfl
      rfl

/-- For values that the crate can expand both return the type error. -/
theorem C34_same_error (S : Spec) (dbg : Bool) (val : Str → Value) (t : List Piece)
    (ha : Accepted t) (hs : SmallLengths t) (hh : AllHandled dbg val t) (k : ErrorKind) (l : Nat)
    (h : expand_to_string S dbg (fun _ n => val n) (text t) = .err k l) :
    expand_dynamic_to_string S dbg (Ctx.toDyn fun _ n => val n) (text t) () =
      some (.error (k, l), ()) := by
  rcases (C34_agree S dbg (fun _ n => val n) (text t)).2.1 k l h with h | h
  · exact h
  · exfalso
    unfold expand_dynamic_to_string expand_dynamic at h
    simp only [Option.map_eq_none_iff] at h
    exact dyn_ne_none S dbg (fun _ n => val n) ha hs (fun _ => rfl) hh _ 0 (by omega) h

/-- A type error arises exactly if the template applies a prefix modifier to a non-empty list or
associative array. -/
theorem C34_type_error_iff (S : Spec) (dbg : Bool) (ctx : Ctx) (t : List Piece) (ha : Accepted t)
    (hs : SmallLengths t) :
    (∃ k l, expand_to_string S dbg ctx (text t) = .err k l) ↔
      ¬ WellTyped (fun n => flat (ctx .typecheck n)) t := by
  constructor
  · rintro ⟨k, l, h⟩ hw
    unfold expand_to_string at h
    rw [typecheck_ok ctx ha hs hw] at h
    simp only [Res.bind] at h
    split at h <;> cases h
  · intro hw
    obtain ⟨pre, op, vs, v, vs', post, rfl, h1, h2, h3⟩ := first_bad hw
    refine ⟨.unexpectedValueType, blen (text pre) + (1 + blen op.toList) + specsLen vs, ?_⟩
    unfold expand_to_string
    rw [typecheck_bad ctx ha hs h1 h2 h3]
    rfl

/-- Kind and location of the error: the byte offset, in the template, of the first wrong varspec. -/
theorem C34_error_location (S : Spec) (dbg : Bool) (ctx : Ctx) (pre post : List Piece)
    (op : Option Char) (vs vs' : List Var) (v : Var)
    (ha : Accepted (pre ++ .expr op (vs ++ v :: vs') :: post))
    (hs : SmallLengths (pre ++ .expr op (vs ++ v :: vs') :: post))
    (h : WellTyped (fun n => flat (ctx .typecheck n)) pre)
    (hvs : ∀ w ∈ vs, TypeOk w.mod (flat (ctx .typecheck w.name)))
    (hv : ¬ TypeOk v.mod (flat (ctx .typecheck v.name))) :
    expand_to_string S dbg ctx (text (pre ++ .expr op (vs ++ v :: vs') :: post)) =
      .err .unexpectedValueType
        (utf8s (text pre ++ '{' :: op.toList ++ vs.flatMap fun w => w.render ++ [','])).length := by
  unfold expand_to_string
  rw [typecheck_bad ctx ha hs h hvs hv]
  simp only [Res.bind]
  congr 1
  rw [utf8s_length, blen_append, blen_append, blen_cons, utf8Size_ascii (c := '{') (by decide)]
  congr 1
  clear ha hs hvs
  induction vs with
  | nil => rfl
  | cons w ws ih =>
    rw [List.flatMap_cons, blen_append, ← ih]
    simp [specsLen, blen_append, utf8Size_ascii (c := ',') (by decide)]

/-! ### Concrete cases -/

example : expand_to_string .uri true (Ctx.ofSimple rfcVars) (chars! "a{var:3,list:3}") =
    .err .unexpectedValueType 8 := by decide +kernel
example : expand_dynamic_to_string .uri true (Ctx.ofSimple rfcVars).toDyn (chars! "a{var:3,list:3}") ()
    = some (.error (.unexpectedValueType, 8), ()) := by rfl
example : expand_to_string .uri true (Ctx.ofSimple rfcVars) (chars! "a{empty_keys:3}") =
    .ok ['a'] := by decide +kernel

end Verif
