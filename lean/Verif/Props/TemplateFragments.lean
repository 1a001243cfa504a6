import Verif.Lemmas.TemplateFragments
import Verif.Props.TemplateExpand

/-!
# C33: the exact result for every value

`C33_expand_partial` covers the values that the crate expands without a failure.  Here is what it
does with *any* value under the operators `+` and `#`, and under a prefix modifier
(`Spec/TemplateFragments.lean`).
-/

namespace Verif

open Verif.Abnf Verif.Rfc Verif.Rfc6570 Verif.Tpl Verif.MaybePct

/-- Every value is decomposed in exactly one way. -/
theorem fragments_unique {dbg : Bool} {d : List Str} {fs fs' : List Frag} {p p' : Bool}
    (h : Fragments dbg [] [] d fs p) (h' : Fragments dbg [] [] d fs' p') : fs = fs' ∧ p = p' := by
  -- the callback that records the fragments and stops at the `n`-th
  let f : Nat → Callback (List Frag) := fun n st a => some (st ++ [a], st.length + 1 == n)
  have run : ∀ (n : Nat) (fs st : List Frag) (p : Bool), st.length < n →
      runK (f n) st fs (fin_ p) = if n ≤ st.length + fs.length then some ((st ++ fs).take n)
        else fin_ p (st ++ fs) := by
    intro n fs
    induction fs with
    | nil =>
      intro st p hn
      rw [if_neg (by simp; omega)]
      simp [runK]
    | cons a fs ih =>
      intro st p hn
      simp only [runK, f, Option.bind_some]
      by_cases e : st.length + 1 = n
      · rw [if_pos (by simpa using e), if_pos (by simp; omega)]
        have : st ++ a :: fs = (st ++ [a]) ++ fs := by simp
        rw [this, List.take_append_of_le_length (by simp; omega), List.take_of_length_le (by simp; omega)]
      · rw [if_neg (by simpa using e)]
        have := ih (st ++ [a]) p (by simp; omega)
        simp only [f] at this
        rw [this]
        simp only [List.length_append, List.length_cons, List.length_nil, List.append_assoc,
          List.cons_append, List.nil_append]
        rw [show st.length + (0 + 1) + fs.length = st.length + (fs.length + 1) by omega]
  have key : ∀ n, 0 < n → (if n ≤ fs.length then some (fs.take n) else fin_ p fs) =
      (if n ≤ fs'.length then some (fs'.take n) else fin_ p' fs') := by
    intro n hn
    have h1 := process_exact (f := f n) h []
    have h2 := process_exact (f := f n) h' []
    rw [h1, run n fs [] p (by simpa using hn), run n fs' [] p' (by simpa using hn)] at h2
    simpa using h2
  have len : ∀ {a b : List Frag} {q : Bool}, fin_ q a = some b → a = b := by
    intro a b q h
    unfold fin_ at h
    split at h
    · cases h
    · exact Option.some.inj h
  have hl : fs.length = fs'.length := by
    rcases Nat.lt_trichotomy fs.length fs'.length with e | e | e
    · have := key fs'.length (by omega)
      rw [if_neg (by omega), if_pos (by omega), List.take_length] at this
      rw [len this]
    · exact e
    · have := key fs.length (by omega)
      rw [if_pos (by omega), if_neg (by omega), List.take_length] at this
      rw [len this.symm]
  have hfs : fs = fs' := by
    by_cases h0 : fs.length = 0
    · have h0' : fs'.length = 0 := by omega
      rw [List.length_eq_zero_iff.1 h0, List.length_eq_zero_iff.1 h0']
    · have := key fs.length (by omega)
      rw [if_pos (by omega), if_pos (by omega)] at this
      rw [List.take_length, hl, List.take_length] at this
      exact Option.some.inj this
  refine ⟨hfs, ?_⟩
  have := key (fs.length + 1) (by omega)
  rw [if_neg (by omega), if_neg (by omega), hfs] at this
  cases p <;> cases p' <;> simp [fin_] at this ⊢

theorem C33_fragments (dbg : Bool) (d : List Str) :
    ∃ fs p, Fragments dbg [] [] d fs p ∧ ∀ fs' p', Fragments dbg [] [] d fs' p' → fs' = fs ∧ p' = p := by
  obtain ⟨fs, p, h⟩ := fragments_exist dbg d
  exact ⟨fs, p, h, fun _ _ h' => fragments_unique h' h⟩

theorem fragText_eq (S : Spec) (a : Frag) : emit S a = fragText S a := by
  cases a <;> simp [emit, fragText, characters_eq]

theorem escape_write_exact (S : Spec) {dbg : Bool} {d : Disp} {fs : List Frag} {p : Bool}
    (h : Fragments dbg [] [] d fs p) :
    escape_write S dbg d true = if p then none else some (fs.flatMap (fragText S)) := by
  have run : ∀ (fs : List Frag) (out : Str), runK (escapeFrag S) out fs (fin_ p) =
      if p then none else some (out ++ fs.flatMap (fragText S)) := by
    intro fs
    induction fs with
    | nil => intro out; simp [runK, fin_]
    | cons a fs ih =>
      intro out
      have : escapeFrag S out a = some (out ++ fragText S a, false) := by
        rw [← fragText_eq]; cases a <;> rfl
      rw [runK, this]
      simp only [Option.bind_some, Bool.false_eq_true, if_false]
      rw [ih]
      simp
  unfold escape_write
  rw [if_pos rfl, process_exact h, run]
  simp

theorem escape_unbounded_exact (S : Spec) {dbg : Bool} {d : Disp} {fs : List Frag} {p : Bool}
    (h : Fragments dbg [] [] d fs p) :
    escape_write_with_maxlen S dbg d true none =
      if p || fs.contains (.noPct []) then none else some (fs.flatMap (fragText S)) := by
  have run : ∀ (fs : List Frag) (out : Str), runK (unboundedFrag S) out fs (fin_ p) =
      if p || fs.contains (.noPct []) then none else some (out ++ fs.flatMap (fragText S)) := by
    intro fs
    induction fs with
    | nil => intro out; cases p <;> simp [runK, fin_]
    | cons a fs ih =>
      intro out
      by_cases ha : a = .noPct []
      · subst ha
        simp [runK, unboundedFrag]
      · have : unboundedFrag S out a = some (out ++ fragText S a, false) := by
          rw [emits_unbounded S out a ha, fragText_eq]
        rw [runK, this]
        simp only [Option.bind_some, Bool.false_eq_true, if_false]
        rw [ih]
        have e : (a :: fs).contains (.noPct []) = fs.contains (.noPct []) := by
          rw [List.contains_cons]
          have : (Frag.noPct [] == a) = false := by simpa using fun e => ha e.symm
          rw [this]; simp
        rw [e]
        simp
  unfold escape_write_with_maxlen
  rw [if_pos rfl, process_exact h, run]
  simp

theorem lastIdx_take (c : Char) (r : Str) (n : Nat) :
    lastIdx ((c :: r).take (n + 1)) = some (bytes ((c :: r).take (n + 1)).dropLast) := by
  rw [lastIdx_some (by simp), bytes_eq]

theorem escape_prefix_exact (S : Spec) {dbg : Bool} {d : Disp} {fs : List Frag} {p : Bool} (n : Nat)
    (h : Fragments dbg [] [] d fs p) :
    escape_write_with_maxlen S dbg d true (some n) = prefixText S dbg n fs p := by
  have run : ∀ (fs : List Frag) (out : Str) (n : Nat),
      (runK (truncFrag S dbg) (out, n) fs (fin_ p)).map Prod.fst =
        (prefixText S dbg n fs p).map (out ++ ·) := by
    intro fs
    induction fs with
    | nil => intro out n; cases p <;> cases n <;> simp [runK, fin_, prefixText]
    | cons a fs ih =>
      intro out n
      cases n with
      | zero => simp [runK, truncFrag, prefixText]
      | succ n =>
        have step : ∀ (t : Str) (m : Nat), truncFrag S dbg (out, n + 1) a = some ((out ++ t, m), false) →
            (runK (truncFrag S dbg) (out, n + 1) (a :: fs) (fin_ p)).map Prod.fst =
              ((prefixText S dbg m fs p).map (t ++ ·)).map (out ++ ·) := by
          intro t m e
          rw [runK, e]
          simp only [Option.bind_some, Bool.false_eq_true, if_false]
          rw [ih, Option.map_map]
          congr 1
          funext x
          simp
        cases a with
        | char s => exact step s n (by simp [truncFrag])
        | stray => exact step _ n (by simp [truncFrag])
        | invalid s =>
          refine step _ (n + 1 - min (n + 1) (s.length / 3)) ?_
          simp only [truncFrag]
          rw [if_neg (by omega), Nat.mul_comm]
        | noPct s =>
          cases s with
          | nil => simp [runK, truncFrag, prefixText, lastIdx]
          | cons c r =>
            simp only [prefixText]
            have e : truncFrag S dbg (out, n + 1) (.noPct (c :: r)) =
                (usizeSub dbg (n + 1) (bytes ((c :: r).take (n + 1)).dropLast)).map fun m =>
                  ((out ++ ((c :: r).take (n + 1)).flatMap (encR1 S), m), false) := by
              simp only [truncFrag]
              rw [if_neg (by omega), lastIdx_take, Option.bind_some, characters_eq]
            unfold usizeSub at e
            split
            · next hle =>
              rw [if_pos hle] at e
              exact step _ _ e
            · next hle =>
              rw [if_neg hle] at e
              cases dbg with
              | true => simp [runK, e]
              | false => exact step _ _ e
  unfold escape_write_with_maxlen
  rw [if_pos rfl]
  simp only
  rw [process_exact h, run]
  simp

theorem truncate_exact (S : Spec) (dbg : Bool) (n : Nat) (d : Disp) :
    truncateWrite S dbg n d = prefixPieces S dbg n d := by
  induction d generalizing n with
  | nil => cases n <;> rfl
  | cons s d ih =>
    cases n with
    | zero =>
      rw [truncateWrite, if_pos rfl, truncateWrite_zero]
      simp [prefixPieces]
    | succ n =>
      rw [truncateWrite, if_neg (by omega)]
      cases s with
      | nil =>
        simp only [List.take_nil, lastIdx, List.isEmpty_nil, if_true, Option.map_none, Option.getD_none,
          usizeSub, Nat.zero_le, Nat.sub_zero, Option.bind_some]
        rw [ih, prefixPieces, unreserve_eq]
        simp [encU]
      | cons c r =>
        simp only [prefixPieces]
        rw [lastIdx_take]
        simp only [Option.map_some, Option.getD_some, usizeSub, unreserve_eq]
        split
        · simp only [Option.bind_some]; rw [ih]
        · cases dbg with
          | true => simp
          | false => simp only [Bool.false_eq_true, if_false, Option.bind_some]; rw [ih]

/-! ## At the level of the API -/

/-- The template `{<op>name<mod>}`. -/
def oneVar (op : Option Char) (v : Var) : List Piece := [.expr op [v]]

/-- A context with one variable. -/
def oneVal (n : Str) (val : Value) : Ctx := fun _ k => if k = n then val else .undefined

theorem expand_one (S : Spec) (dbg : Bool) {op : Option Char} {v : Var} (val : Value)
    (ha : Accepted (oneVar op v)) (hs : SmallLengths (oneVar op v)) (ht : TypeOk v.mod (flat val)) :
    expand_to_string S dbg (oneVal v.name val) (text (oneVar op v)) =
      match visit_value S dbg (toOp op) (toSpec v) true val with
      | some o => .ok o.1
      | none => .panic := by
  have htc : WellTyped (fun n => flat (oneVal v.name val .typecheck n)) (oneVar op v) := by
    intro op' vars hp v' hv
    simp [oneVar] at hp
    rw [hp.2] at hv
    simp at hv
    subst hv
    simpa [oneVal] using ht
  unfold expand_to_string
  rw [typecheck_ok _ ha hs htc]
  simp only [Res.bind]
  rw [Tpl.display_eq S dbg _ ha hs _ (by omega)]
  simp only [oneVar, List.foldr_cons, List.foldr_nil, dispG, varsP]
  have e : oneVal v.name val .expand v.name = val := by simp [oneVal]
  rw [e]
  cases visit_value S dbg (toOp op) (toSpec v) true val with
  | none => rfl
  | some o => simp

/-- **C33, every string value under `+` and `#`**: the decomposition `fs`, `p` of the value decides
whether the expansion panics and what it writes. -/
theorem C33_reserved_exact (S : Spec) (dbg : Bool) (op : Char) (hop : op = '+' ∨ op = '#') (v : Var)
    (hv : v.mod = .none ∨ v.mod = .explode) (ha : Accepted (oneVar (some op) v)) (d : Disp)
    (fs : List Frag) (p : Bool) (h : Fragments dbg [] [] d fs p) :
    expand_to_string S dbg (oneVal v.name (.string d)) (text (oneVar (some op) v)) =
      if p || fs.contains (.noPct []) then .panic
      else .ok ((row (some op)).first ++ fs.flatMap (fragText S)) := by
  have hs : SmallLengths (oneVar (some op) v) := by
    intro op' vars hp v' hv' ds e
    simp [oneVar] at hp
    rw [hp.2] at hv'
    simp at hv'
    subst hv'
    rcases hv with hv | hv <;> rw [hv] at e <;> cases e
  rw [expand_one S dbg (.string d) ha hs (by
    intro ds e; rcases hv with hv | hv <;> rw [hv] at e <;> cases e)]
  have hm : maxLenOf (toSpec v).modifier = none := by
    unfold toSpec
    rcases hv with hv | hv <;> rw [hv] <;> rfl
  have hx := escape_unbounded_exact S h
  simp only [visit_value, visit_string, hm]
  rcases hop with rfl | rfl
  · have hp' : opProps (toOp (some '+')) = ⟨[], [','], false, [], true⟩ := by decide
    simp only [hp', hx]
    cases (p || fs.contains (.noPct [])) <;> simp [leader, row]
  · have hp' : opProps (toOp (some '#')) = ⟨['#'], [','], false, [], true⟩ := by decide
    simp only [hp', hx]
    cases (p || fs.contains (.noPct [])) <;> simp [leader, row]

/-- The same for an item of a list. -/
theorem C33_reserved_item_exact (S : Spec) (dbg : Bool) (op : Char) (hop : op = '+' ∨ op = '#') (v : Var)
    (hv : v.mod = .none ∨ v.mod = .explode) (ha : Accepted (oneVar (some op) v)) (d : Disp)
    (fs : List Frag) (p : Bool) (h : Fragments dbg [] [] d fs p) :
    expand_to_string S dbg (oneVal v.name (.list [d])) (text (oneVar (some op) v)) =
      if p then .panic else .ok ((row (some op)).first ++ fs.flatMap (fragText S)) := by
  have hs : SmallLengths (oneVar (some op) v) := by
    intro op' vars hp v' hv' ds e
    simp [oneVar] at hp
    rw [hp.2] at hv'
    simp at hv'
    subst hv'
    rcases hv with hv | hv <;> rw [hv] at e <;> cases e
  rw [expand_one S dbg (.list [d]) ha hs (by
    intro ds e; rcases hv with hv | hv <;> rw [hv] at e <;> cases e)]
  have hm : ∃ b, isExplode (toSpec v).modifier = some b := by
    unfold toSpec
    rcases hv with hv | hv <;> rw [hv] <;> exact ⟨_, rfl⟩
  obtain ⟨b, hm⟩ := hm
  have hx := escape_write_exact S h
  simp only [visit_value, visit_items, visit_item, hm]
  rcases hop with rfl | rfl
  · have hp' : opProps (toOp (some '+')) = ⟨[], [','], false, [], true⟩ := by decide
    simp only [hp', hx]
    cases p <;> simp [leader, row]
  · have hp' : opProps (toOp (some '#')) = ⟨['#'], [','], false, [], true⟩ := by decide
    simp only [hp', hx]
    cases p <;> simp [leader, row]

/-- **C33, every string value under `+` and `#` with a prefix modifier.** -/
theorem C33_reserved_prefix_exact (S : Spec) (dbg : Bool) (op : Char) (hop : op = '+' ∨ op = '#')
    (v : Var) (ds : Str) (hv : v.mod = .pre ds) (ha : Accepted (oneVar (some op) v))
    (hs : SmallLengths (oneVar (some op) v)) (d : Disp)
    (fs : List Frag) (p : Bool) (h : Fragments dbg [] [] d fs p) :
    expand_to_string S dbg (oneVal v.name (.string d)) (text (oneVar (some op) v)) =
      match prefixText S dbg (decimal ds) fs p with
      | some t => .ok ((row (some op)).first ++ t)
      | none => .panic := by
  rw [expand_one S dbg (.string d) ha hs (by intro ds _; exact trivial)]
  have hm : maxLenOf (toSpec v).modifier = some (decimal ds) := by
    unfold toSpec
    rw [hv]; rfl
  have hx := escape_prefix_exact S (decimal ds) h
  simp only [visit_value, visit_string, hm]
  rcases hop with rfl | rfl
  · have hp' : opProps (toOp (some '+')) = ⟨[], [','], false, [], true⟩ := by decide
    simp only [hp', hx]
    cases prefixText S dbg (decimal ds) fs p <;> simp [leader, row]
  · have hp' : opProps (toOp (some '#')) = ⟨['#'], [','], false, [], true⟩ := by decide
    simp only [hp', hx]
    cases prefixText S dbg (decimal ds) fs p <;> simp [leader, row]

/-- **C33, every string value under the other operators with a prefix modifier.** -/
theorem C33_prefix_exact (S : Spec) (dbg : Bool) (op : Option Char) (hop : op ≠ some '+' ∧ op ≠ some '#')
    (v : Var) (ds : Str) (hv : v.mod = .pre ds) (ha : Accepted (oneVar op v))
    (hs : SmallLengths (oneVar op v)) (d : Disp) :
    expand_to_string S dbg (oneVal v.name (.string d)) (text (oneVar op v)) =
      match prefixPieces S dbg (decimal ds) d with
      | some t => .ok ((row op).first ++ (if (row op).named then
          v.name ++ (if t = [] then (row op).ifemp else '=' :: t) else t))
      | none => .panic := by
  have hop' : ∀ c, op = some c → isOp c = true := by
    have := (ha (.expr op [v]) (by simp [oneVar])).1
    exact this
  rw [expand_one S dbg (.string d) ha hs (by intro ds _; exact trivial)]
  have hm : maxLenOf (toSpec v).modifier = some (decimal ds) := by
    unfold toSpec
    rw [hv]; rfl
  have hr : (row op).reserved = false := by
    cases op with
    | none => rfl
    | some c =>
      have h1 : c ≠ '+' := fun e => hop.1 (by rw [e])
      have h2 : c ≠ '#' := fun e => hop.2 (by rw [e])
      simp only [row, if_neg h1, if_neg h2]
      repeat' split
      all_goals rfl
  have hname : (toSpec v).name = v.name := by unfold toSpec; rfl
  simp only [visit_value, visit_string, hm, opProps_row hop', hr, escape_write_with_maxlen,
    Bool.false_eq_true, if_false, truncate_exact, hname]
  cases prefixPieces S dbg (decimal ds) d with
  | none => rfl
  | some t =>
    simp only [Option.map_some, leader, if_true]
    cases t <;> simp

/-! ## The hypotheses are met -/

/-- The decomposition of `%E2%41b`: the triplet `%41` is lost. -/
theorem fragments_lost (dbg : Bool) : Fragments dbg [] [] [chars! "%E2%41b"]
    [.invalid (chars! "%E2"), .noPct ['b']] false := by
  have h1 : Trip (chars! "%E2") [0xE2] := Trip.cons (h := 'E') (l := '2') (by decide) (by decide) .nil
  have h2 : Trip (chars! "%41") [0x41] := Trip.cons (h := '4') (l := '1') (by decide) (by decide) .nil
  have hb : Broken ([] ++ [0xE2] ++ [0x41]) := by
    constructor
    · intro h; exact absurd (check_incomplete h) (by decide)
    · intro h; exact absurd (check_complete h) (by decide)
  refine Fragments.broken (k := []) (kb := []) (t := []) (x := chars! "%E2%41") (g := chars! "%E2")
    (s := ['b']) .nil h1 h2 (by simp) rfl (.inl (incomplete1 (by decide))) hb ?_
  exact Fragments.plain (r := []) (s := []) (by decide) (by decide) (by simp) (by simp) (.inl rfl)
    (.next .done)

theorem v_name : varnameX ['v'] :=
  (varnameX_iff _).2 ⟨.chr (by decide) (by decide) .nil, by simp, by simp⟩

theorem oneVar_accepted (op : Char) (hop : isOp op = true) (m : Mod)
    (hm : match m with | .pre ds => maxLengthX ds | _ => True) :
    Accepted (oneVar (some op) ⟨['v'], m⟩) := by
  intro p hp
  simp [oneVar] at hp
  subst hp
  refine ⟨by intro c e; cases e; exact hop, by simp, ?_⟩
  intro v hv
  simp at hv
  subst hv
  exact ⟨v_name, hm⟩

/-- `{+v}` with `v` = `%E2%41b`. -/
example (S : Spec) (dbg : Bool) :
    expand_to_string S dbg (oneVal ['v'] (.string [chars! "%E2%41b"])) (chars! "{+v}") =
      .ok (chars! "%E2b") := by
  have h := C33_reserved_exact S dbg '+' (.inl rfl) ⟨['v'], .none⟩ (.inl rfl)
    (oneVar_accepted '+' (by decide) .none trivial) _ _ _ (fragments_lost dbg)
  cases S <;> exact h

/-- `{#v}` with `v` a list with the item `%E2%41b`. -/
example (S : Spec) (dbg : Bool) :
    expand_to_string S dbg (oneVal ['v'] (.list [[chars! "%E2%41b"]])) (chars! "{#v}") =
      .ok (chars! "#%E2b") := by
  have h := C33_reserved_item_exact S dbg '#' (.inr rfl) ⟨['v'], .none⟩ (.inl rfl)
    (oneVar_accepted '#' (by decide) .none trivial) _ _ _ (fragments_lost dbg)
  cases S <;> exact h

/-- `{#v:1}` with `v` = `%E2%41b`. -/
example (S : Spec) (dbg : Bool) :
    expand_to_string S dbg (oneVal ['v'] (.string [chars! "%E2%41b"])) (chars! "{#v:1}") =
      .ok (chars! "#%E2") := by
  have h := C33_reserved_prefix_exact S dbg '#' (.inr rfl) ⟨['v'], .pre ['1']⟩ ['1'] rfl
    (oneVar_accepted '#' (by decide) (.pre ['1']) ⟨1, by simp, by simp, ['1'], [], rfl, ⟨'1', rfl, by decide⟩, rfl⟩)
    (by intro op vars hp v hv ds e
        simp [oneVar] at hp
        rw [hp.2] at hv
        simp at hv
        subst hv
        cases e
        decide)
    _ _ _ (fragments_lost dbg)
  cases S <;> cases dbg <;> exact h

/-- `{?v:2}` with `v` = `あいう`: the second character counts as three, so that a debug build panics
and a release build writes everything that follows. -/
example (S : Spec) (dbg : Bool) :
    expand_to_string S dbg (oneVal ['v'] (.string [['あ', 'い', 'う'], ['z']])) (chars! "{?v:2}") =
      match prefixPieces S dbg 2 [['あ', 'い', 'う'], ['z']] with
      | some t => .ok (chars! "?v=" ++ t)
      | none => .panic := by
  have h := C33_prefix_exact S dbg (some '?') (by decide) ⟨['v'], .pre ['2']⟩ ['2'] rfl
    (oneVar_accepted '?' (by decide) (.pre ['2']) ⟨1, by simp, by simp, ['2'], [], rfl, ⟨'2', rfl, by decide⟩, rfl⟩)
    (by intro op vars hp v hv ds e
        simp [oneVar] at hp
        rw [hp.2] at hv
        simp at hv
        subst hv
        cases e
        decide)
    [['あ', 'い', 'う'], ['z']]
  cases S <;> cases dbg <;> exact h

end Verif
