import Verif.Props.ReachOpaque
import Verif.Lemmas.Contain

/-!
# C92, continued: what can be reached from any base
-/

namespace Verif

open Rfc PathToNormalize

/-- The directory of the base: its path up to and with the last slash (RFC 3986 section 5.2.3: a single slash if it has
an authority and no path). -/
noncomputable def directory (base : Str) : Str :=
  open Classical in
  if RiReferenceStr.authority_str base ≠ none ∧ RiReferenceStr.path_str base = [] then ['/']
  else ((RiReferenceStr.path_str base).reverse.dropWhile (· != '/')).reverse

/-- The part of a path up to and with its first slash; nothing if there is no slash. -/
def upToSlash (p : Str) : Str := if '/' ∈ p then p.takeWhile (· != '/') ++ ['/'] else []

/-- The part of the base's path that every rootless path reached from it starts with: from the directory of the base,
without its dot segments, up to the first slash. -/
noncomputable def baseRoot (base : Str) : Str := upToSlash (remove_dot_segments (undot (directory base)))

/-- `t` has the authority of `base` (or neither has one), and its path has no dot segments and starts with a slash or
with the root of the base; it is written with the escape `/.` if it starts with `//` and there is no authority. -/
def BelowRoot (base t : Str) : Prop :=
  RiReferenceStr.authority_str t = RiReferenceStr.authority_str base ∧
  ∃ p, DotFree p ∧ (p.head? = some '/' ∨ baseRoot base <+: p) ∧
    RiReferenceStr.path_str t = escapePath (RiReferenceStr.authority_str t).isSome p

/-! ### Lemmas -/

theorem upToSlash_slash (r : Str) : upToSlash ('/' :: r) = ['/'] := by simp [upToSlash]

theorem upToSlash_name {s : Str} (h : '/' ∉ s) (r : Str) : upToSlash (s ++ '/' :: r) = s ++ ['/'] := by
  have : ∀ s : Str, '/' ∉ s → (s ++ '/' :: r).takeWhile (· != '/') = s := by
    intro s
    induction s with
    | nil => intro _; simp
    | cons c s ih =>
      intro h
      simp only [List.mem_cons, not_or] at h
      rw [List.cons_append, List.takeWhile_cons_of_pos (by simpa [bne_iff_ne] using fun e => h.1 e.symm), ih h.2]
  simp [upToSlash, this s h]

theorem mergePaths_dir (b : Parts) (x : Str) : mergePaths b x = mergePaths b [] ++ x := by
  unfold mergePaths
  split <;> simp

theorem mergePaths_dir_end (b : Parts) : mergePaths b [] = [] ∨ ∃ d, mergePaths b [] = d ++ ['/'] := by
  rcases mergePaths_cases b [] with ⟨h, _⟩ | ⟨h, _⟩ | ⟨a, c, _, h, _⟩
  · exact .inr ⟨[], h⟩
  · exact .inl h
  · exact .inr ⟨a, h⟩

theorem fin_last {E X : List PSeg} (hX : AllSlash X) (hne : X ≠ []) :
    ∃ A m, fin (E ++ X) = A ++ [((true, m) : PSeg)] := by
  rcases List.eq_nil_or_concat X with e | ⟨X', g, e⟩
  · exact absurd e hne
  · rw [List.concat_eq_append] at e
    subst e
    obtain ⟨b, n⟩ := g
    obtain rfl : b = true := (hX (b, n) (by simp)).1
    cases hd : isDots (true, n) with
    | true =>
      refine ⟨stk (E ++ (X' ++ [(true, n)])), [], ?_⟩
      have : endDots (E ++ (X' ++ [(true, n)])) = true := by
        rw [← List.append_assoc]; simp [endDots, hd]
      unfold fin
      rw [if_pos this]
    | false =>
      refine ⟨stk (E ++ X'), n, ?_⟩
      have : endDots (E ++ (X' ++ [(true, n)])) = false := by
        rw [← List.append_assoc]; simp [endDots, hd]
      unfold fin
      rw [if_neg (by simp [this]), ← List.append_assoc, stk_append, List.append_nil]
      rcases stkStep_cases (stk (E ++ X')) n with ⟨_, _, h⟩ | ⟨_, _, h⟩ | ⟨_, _, h, _⟩
      · rw [hd] at h; cases h
      · rw [hd] at h; cases h
      · exact h

/-- What follows a directory is rooted, or starts with the root of the directory. -/
theorem rds_root (D x : Str) (hD : D = [] ∨ ∃ d, D = d ++ ['/']) :
    (remove_dot_segments (undot (D ++ x))).head? = some '/' ∨
      upToSlash (remove_dot_segments (undot D)) <+: remove_dot_segments (undot (D ++ x)) := by
  rcases hD with rfl | ⟨d, rfl⟩
  · rw [rds_nil]; exact .inr ⟨_, rfl⟩
  · rw [List.append_assoc, List.singleton_append]
    rcases rds_before d with ⟨E, h1, h2, h3⟩ | hh
    · have e1 : remove_dot_segments (undot (d ++ ['/'])) = pathText E ++ ['/'] := by
        rw [rds_eq, h3, pathSegs_name (by simp), fin_snoc_normal h2 (isDots_nil true), pathText_append]
        rfl
      obtain ⟨hX, hXne⟩ := pathSegs_slash x
      rw [e1, rds_eq]
      have hok : OKSegs (rdsSegs (d ++ '/' :: x)) := rdsSegs_ok _
      rw [h3] at hok ⊢
      obtain ⟨A, m, hl⟩ := fin_last (E := E) hX hXne
      have hmem : ∀ g ∈ fin (E ++ pathSegs ('/' :: x)), g = (true, []) ∨ g ∈ E ++ pathSegs ('/' :: x) :=
        fun g hg => (fin_mem g hg).imp_right And.left
      rw [hl] at hok hmem ⊢
      cases A with
      | nil => left; simp [pathText, segText]
      | cons g A =>
        obtain ⟨b, n⟩ := g
        cases b with
        | true => left; simp [pathText, segText]
        | false =>
          right
          cases E with
          | nil =>
            exfalso
            rcases hmem (false, n) (by simp) with h | h
            · cases h
            · rw [List.nil_append] at h
              have := (hX _ h).1; cases this
          | cons e E =>
            have he : e = (false, n) := by
              rcases hmem (false, n) (by simp) with h | h
              · cases h
              · rcases List.mem_cons.1 (List.cons_append ▸ h) with h | h
                · exact h.symm
                · rcases List.mem_append.1 h with h | h
                  · have := (h1.2.2 _ h).1; cases this
                  · have := (hX _ h).1; cases this
            subst he
            have hn : '/' ∉ n := h1.1
            have hE : AllSlash (E ++ [(true, [])]) := AllSlash.append h1.2.2 (by
              intro g hg; simp at hg; subst hg; simp)
            have hA : AllSlash (A ++ [(true, m)]) := hok.2.2
            have e2 : ∃ r, pathText E ++ ['/'] = '/' :: r := by
              have : pathText E ++ ['/'] = pathText (E ++ [(true, [])]) := by rw [pathText_append]; rfl
              rw [this]
              rcases hE.head with ⟨_, h⟩ | h
              · simp at h
              · exact h
            have e3 : ∃ r, pathText (A ++ [(true, m)]) = '/' :: r := by
              rcases hA.head with ⟨_, h⟩ | h
              · simp at h
              · exact h
            obtain ⟨r2, e2⟩ := e2
            obtain ⟨r3, e3⟩ := e3
            rw [List.cons_append, pathText_cons, pathText_cons, List.append_assoc, e2, e3]
            simp only [segText, Bool.false_eq_true, if_false, List.nil_append]
            rw [upToSlash_name hn]
            exact ⟨r3, by simp⟩
    · have e1 : remove_dot_segments (undot (d ++ ['/'])) = [] := by
        rw [rds_eq, hh, rdsSegs_nil]; rfl
      rw [e1]
      exact .inr ⟨_, rfl⟩

/-- `./../../…/` and then the path. -/
def upRef (k : Nat) (y : Str) : Str := '.' :: '/' :: ((List.replicate k ['.', '.', '/']).flatten ++ y)

theorem splitSlash_ups (k : Nat) (y : Str) :
    splitSlash ((List.replicate k ['.', '.', '/']).flatten ++ y) = List.replicate k ['.', '.'] ++ splitSlash y := by
  induction k with
  | zero => rfl
  | succ k ih =>
    rw [List.replicate_succ, List.flatten_cons, List.append_assoc, List.replicate_succ,
      List.cons_append (as := List.replicate k _), ← ih]
    exact splitSlash_append (n := ['.', '.']) (by decide)

theorem splitSlash_upRef (k : Nat) (y : Str) :
    splitSlash (upRef k y) = ['.'] :: (List.replicate k ['.', '.'] ++ splitSlash y) := by
  rw [← splitSlash_ups]
  exact splitSlash_append (n := ['.']) (by decide)

theorem stk_ups (e : PSeg) : ∀ (F : List PSeg),
    (List.replicate F.length ((true, ['.', '.']) : PSeg)).foldl stkStep (e :: F) = [e] := by
  intro F
  induction h : F.length generalizing F with
  | zero => rw [List.length_eq_zero_iff.1 h]; rfl
  | succ n ih =>
    have hne : F ≠ [] := by intro e; rw [e] at h; cases h
    rw [List.replicate_succ, List.foldl_cons]
    have : stkStep (e :: F) (true, ['.', '.']) = e :: F.dropLast := by
      have : SegmentKind.from_segment ['.', '.'] = .dotDot := by decide +kernel
      simp only [stkStep, this]
      rw [List.dropLast_cons_of_ne_nil hne]
    rw [this]
    exact ih F.dropLast (by rw [List.length_dropLast, h]; rfl)

theorem foldl_normal : ∀ {R : List PSeg} (E : List PSeg), (∀ g ∈ R, isDots g = false) →
    R.foldl stkStep E = E ++ R := by
  intro R
  induction R with
  | nil => intro E _; simp
  | cons x r ih =>
    intro E h
    rw [List.foldl_cons, ih _ fun g hg => h g (by simp [hg])]
    have := h x (by simp)
    unfold isDots at this
    simp at this
    simp [stkStep, this]

/-- Every path without dot segments that starts with the root of a directory is reached from it. -/
theorem rds_reach (D p : Str) (hD : D = [] ∨ ∃ d, D = d ++ ['/']) (hp : DotFree p) (hs : p.head? ≠ some '/')
    (h : upToSlash (remove_dot_segments (undot D)) <+: p) :
    ∃ k y, (y = p ∨ ∃ s, p = s ++ '/' :: y) ∧ remove_dot_segments (undot (D ++ upRef k y)) = p := by
  rcases hD with rfl | ⟨d, rfl⟩
  · exact ⟨0, p, .inl rfl, rds_dot_rel hp⟩
  · rcases rds_before d with ⟨E, h1, h2, h3⟩ | hh
    · have e1 : remove_dot_segments (undot (d ++ ['/'])) = pathText E ++ ['/'] := by
        rw [rds_eq, h3, pathSegs_name (by simp), fin_snoc_normal h2 (isDots_nil true), pathText_append]
        rfl
      rw [e1] at h
      have habs : ∀ r, ¬ (['/'] : Str) ++ r = p := by
        rintro r rfl; exact hs rfl
      cases E with
      | nil =>
        exfalso
        obtain ⟨r, h⟩ := h
        exact habs r (by rw [← h]; rfl)
      | cons e E =>
        obtain ⟨b, s⟩ := e
        cases b with
        | true =>
          exfalso
          obtain ⟨r, h⟩ := h
          refine habs r ?_
          rw [← h, pathText_cons]
          simp only [segText, if_true, List.singleton_append, List.cons_append, upToSlash_slash]
        | false =>
          have hn : '/' ∉ s := h1.1
          have hE : AllSlash (E ++ [(true, [])]) := AllSlash.append h1.2.2 (by
            intro g hg; simp at hg; subst hg; simp)
          have e2 : ∃ r, pathText E ++ ['/'] = '/' :: r := by
            have : pathText E ++ ['/'] = pathText (E ++ [(true, [])]) := by rw [pathText_append]; rfl
            rw [this]
            rcases hE.head with ⟨_, h⟩ | h
            · simp at h
            · exact h
          obtain ⟨r2, e2⟩ := e2
          rw [pathText_cons, List.append_assoc, e2] at h
          simp only [segText, Bool.false_eq_true, if_false, List.nil_append] at h
          rw [upToSlash_name hn] at h
          obtain ⟨y, rfl⟩ := h
          rw [List.append_assoc, List.singleton_append] at hp ⊢
          have hy : ∀ g ∈ (splitSlash y).map fun n => ((true, n) : PSeg), isDots g = false := by
            intro g hg
            obtain ⟨n, hn', rfl⟩ := List.mem_map.1 hg
            refine (notDot_iff _).2 (hp _ ?_)
            rw [splitSlash_append hn]
            exact List.mem_cons_of_mem _ hn'
          have hyne : ((splitSlash y).map fun n => ((true, n) : PSeg)) ≠ [] := by
            simpa using splitSlash_ne_nil y
          refine ⟨E.length, y, .inr ⟨s, rfl⟩, ?_⟩
          rw [List.append_assoc, List.singleton_append, rds_eq, h3, pathSegs_splitSlash, splitSlash_upRef]
          have hstk : stk ((false, s) :: E ++ (['.'] :: (List.replicate E.length ['.', '.'] ++ splitSlash y)).map
              fun n => ((true, n) : PSeg)) = (false, s) :: (splitSlash y).map fun n => ((true, n) : PSeg) := by
            have hE : stk ((false, s) :: E) = (false, s) :: E := stk_all_normal h2
            unfold stk at hE ⊢
            rw [List.foldl_append, hE, List.map_cons, List.foldl_cons]
            have hd : stkStep ((false, s) :: E) (true, ['.']) = (false, s) :: E := by
              have : SegmentKind.from_segment ['.'] = .dot := by decide +kernel
              simp only [stkStep, this]
            rw [hd, List.map_append, List.foldl_append, List.map_replicate, stk_ups, foldl_normal _ hy]
            rfl
          have hend : endDots ((false, s) :: E ++ (['.'] :: (List.replicate E.length ['.', '.'] ++ splitSlash y)).map
              fun n => ((true, n) : PSeg)) = false := by
            rw [List.map_cons, List.map_append, ← List.singleton_append (l := List.map _ _ ++ _), ← List.append_assoc,
              ← List.append_assoc, endDots_append hyne]
            unfold endDots
            cases hl : ((splitSlash y).map fun n => ((true, n) : PSeg)).getLast? with
            | none => rfl
            | some g => exact hy g (List.mem_of_getLast? hl)
          unfold fin
          rw [hstk, hend, pathText_append, pathText_cons, ← pathSegs_splitSlash, (pathSegs_spec ('/' :: y)).2]
          simp [segText, pathText]
    · refine ⟨0, p, .inl rfl, ?_⟩
      rw [List.append_assoc, List.singleton_append, rds_eq, hh, ← rds_eq]
      exact rds_dot_rel hp

theorem pc_after {f : Char → Bool} {q : Str} (h : PC f q) : ∀ {s y : Str}, q = s ++ '/' :: y → PC f y := by
  induction h with
  | nil => intro s y e; cases s <;> cases e
  | chr _ _ h ih =>
    intro s y e
    cases s with
    | nil => cases e; exact h
    | cons c s => cases e; exact ih rfl
  | pct h1 h2 h ih =>
    intro s y e
    rcases s with _ | ⟨a, _ | ⟨b, _ | ⟨c, s⟩⟩⟩
    · cases e
    · cases e; exact absurd h1 (by decide)
    · cases e; exact absurd h2 (by decide)
    · cases e; exact ih rfl

theorem pc_upRef {S : Spec} {k : Nat} {y : Str} (h : PC (pcharSlashC S) y) : PC (pcharSlashC S) (upRef k y) := by
  have hd : pcharSlashC S '.' = true := by cases S <;> decide +kernel
  have hs : pcharSlashC S '/' = true := by cases S <;> decide +kernel
  refine .chr (by decide) hd (.chr (by decide) hs (PC.append ?_ h))
  induction k with
  | zero => exact .nil
  | succ k ih =>
    rw [List.replicate_succ, List.flatten_cons]
    exact .chr (by decide) hd (.chr (by decide) hd (.chr (by decide) hs ih))

section
variable {S : Spec} {b r t : Parts}

theorem pc_unescape (ht : t.Valid S) {auth : Bool} {p : Str} (hp : t.path = escapePath auth p) :
    PC (pcharSlashC S) p := by
  have h1 := path_iff.1 ht.path
  rw [hp] at h1
  unfold escapePath at h1
  split at h1
  · cases h1 with
    | chr _ _ h1 =>
      cases h1 with
      | chr _ _ h1 => exact h1
  · exact h1

/-- A relative-path reference. -/
theorem reach_upRef (hb : b.Valid S) (hbs : b.scheme ≠ none) (ht : t.Valid S) (hs : t.scheme = b.scheme)
    (ha : t.authority = b.authority) {p : Str} {k : Nat} {y : Str} (hy : y = p ∨ ∃ s, p = s ++ '/' :: y)
    (hp : t.path = escapePath t.authority.isSome p)
    (hr : remove_dot_segments (undot (mergePaths b [] ++ upRef k y)) = p) :
    Parts.Valid S ⟨none, none, upRef k y, t.query, t.fragment⟩ ∧
    resolve S .off b.recompose (Parts.recompose ⟨none, none, upRef k y, t.query, t.fragment⟩) = some t.recompose := by
  have hpc : PC (pcharSlashC S) y := by
    have h := pc_unescape ht hp
    rcases hy with rfl | ⟨s, rfl⟩
    · exact h
    · exact pc_after h rfl
  have hv : Parts.Valid S ⟨none, none, upRef k y, t.query, t.fragment⟩ := by
    refine ⟨by simp, by simp, path_iff.2 (pc_upRef hpc), ht.query, ht.fragment, by simp, ?_, fun _ _ => ?_⟩
    · intro _ q h; simp [upRef] at h
    · rintro ⟨a, c, h, hn⟩
      rcases a with _ | ⟨x, _ | ⟨y, a⟩⟩ <;> simp [upRef] at h hn
      exact absurd h.2.1 (fun e => hn.2.1 e)
  refine ⟨hv, ?_⟩
  rw [resolve_off_eq hb hbs hv]
  have hc : ((upRef k y).take 1 == ['/']) = false := by simp [upRef]
  have he : (upRef k y).isEmpty = false := rfl
  simp only [transform, Option.isSome_none, Bool.false_eq_true, if_false, he, hc]
  rw [mergePaths_dir, hr, ← hs, ← ha, ← hp]

/-- What comes out of a reference without a scheme. -/
theorem reached_exact (hb : b.Valid S) (hbs : b.scheme ≠ none)
    (hr : r.Valid S) (hrs : r.scheme = none) (ht : t.Valid S)
    (h : resolve S .off b.recompose r.recompose = some t.recompose) :
    t.scheme = b.scheme ∧
    ((r.authority ≠ none ∧ t.authority ≠ none ∧ DotFree t.path) ∨
     (r.authority = none ∧ t.authority = b.authority ∧
       ∃ p, DotFree p ∧
        (p.head? = some '/' ∨ upToSlash (remove_dot_segments (undot (mergePaths b []))) <+: p) ∧
        t.path = escapePath t.authority.isSome p) ∨
     (r.authority = none ∧ t.authority = b.authority ∧ t.path = b.path ∧ (t.query ≠ none ∨ t.query = b.query))) := by
  rw [resolve_off_eq hb hbs hr, Option.some.injEq] at h
  obtain ⟨hm, hms⟩ := merge_valid hb hbs hr
  have hv : Parts.Valid S { transform b r with
      path := escapePath (transform b r).authority.isSome (transform b r).path } := by
    rw [transform_eq]
    cases hsp : samePath r with
    | true =>
      rw [if_pos rfl, escape_valid hm]
      exact hm
    | false =>
      rw [if_neg (by simp)]
      have := normParts_valid (op := .off) hm hms
      rw [normParts_off] at this
      exact this
  have e := recompose_inj hv.delim ht.delim h
  rw [← e]
  simp only [transform, hrs, Option.isSome_none, Bool.false_eq_true, if_false]
  cases hra : r.authority with
  | some a =>
    simp only [Option.isSome_some, if_true]
    refine ⟨trivial, .inl ⟨by simp, by simp, ?_⟩⟩
    rw [show ∀ s, escapePath true s = s from fun _ => rfl]
    exact C16_no_dot_segments _
  | none =>
    simp only [Option.isSome_none, Bool.false_eq_true, if_false]
    cases hp : r.path with
    | nil =>
      simp only [List.isEmpty_nil, if_true]
      refine ⟨trivial, .inr (.inr ⟨trivial, trivial, escape_valid hb, ?_⟩)⟩
      cases r.query with
      | some _ => left; simp
      | none => right; rfl
    | cons c x =>
      simp only [List.isEmpty_cons, Bool.false_eq_true, if_false]
      refine ⟨trivial, .inr (.inl ⟨trivial, trivial, _, C16_no_dot_segments _, ?_, rfl⟩)⟩
      by_cases hc : ((c :: x).take 1 == ['/']) = true
      · rw [if_pos hc]
        simp at hc
        subst hc
        obtain ⟨y, hy⟩ := rds_slash_head x
        left; rw [hy]; rfl
      · rw [if_neg hc, mergePaths_dir]
        exact rds_root _ _ (mergePaths_dir_end b)

theorem baseRoot_eq (hb : b.Valid S) :
    baseRoot b.recompose = upToSlash (remove_dot_segments (undot (mergePaths b []))) := by
  obtain ⟨_, a2, a3, _⟩ := parts_accessors hb
  unfold baseRoot directory
  rw [a2, a3]
  unfold mergePaths
  cases ha : b.authority with
  | none => simp
  | some a =>
    cases hp : b.path with
    | nil => simp
    | cons c r => simp

end

/-- **C92**: from any base the relative references reach exactly the IRIs with the scheme of the base that have an
authority and no dot segments, those with the authority of the base whose path has no dot segments and starts with a
slash or with the root of the base, and those that keep path and query of the base, or only the path and have a
query. -/
theorem C92_exact (S : Spec) (base t : Str) (hb : validate_uri S base = some true)
    (ht : validate_uri S t = some true) :
    (∃ ref, validate_relative_ref S ref = some true ∧ resolve S .off base ref = some t) ↔
    RiReferenceStr.scheme_str t = RiReferenceStr.scheme_str base ∧
      ((RiReferenceStr.authority_str t ≠ none ∧ DotFree (RiReferenceStr.path_str t)) ∨
        BelowRoot base t ∨ SameUpToQuery base t) := by
  obtain ⟨b, hbv, hbs, rfl⟩ := iri_parts' hb
  obtain ⟨t, htv, hts, rfl⟩ := iri_parts' ht
  obtain ⟨a1, a2, a3, a4⟩ := parts_accessors hbv
  obtain ⟨c1, c2, c3, c4⟩ := parts_accessors htv
  unfold BelowRoot SameUpToQuery
  rw [baseRoot_eq hbv, a1, a2, a3, a4, c1, c2, c3, c4]
  constructor
  · rintro ⟨ref, h1, h3⟩
    obtain ⟨r, hrv, hrs, rfl⟩ := relative_parts' h1
    obtain ⟨k1, k2⟩ := reached_exact hbv hbs hrv hrs htv h3
    refine ⟨k1, ?_⟩
    rcases k2 with ⟨_, k⟩ | ⟨_, k⟩ | ⟨_, k3, k4, k5⟩
    · exact .inl k
    · exact .inr (.inl k)
    · exact .inr (.inr ⟨k3, k4, k5.imp (fun h e => h (Option.some.inj e)) (fun h => congrArg some h)⟩)
  · rintro ⟨hs, ⟨h1, h2⟩ | ⟨ha, p, hd, hr, hp⟩ | ⟨ha, hp, hq⟩⟩
    · obtain ⟨k1, k2⟩ := reach_network hbv hbs htv hs h1 h2
      exact ⟨_, validate_relative_of_parts k1 rfl, k2⟩
    · by_cases hh : p.head? = some '/'
      · cases p with
        | nil => cases hh
        | cons c p =>
          obtain rfl : c = '/' := by simpa using hh
          obtain ⟨k1, k2⟩ := reach_path hbv hbs htv hs ha hd hp
          exact ⟨_, validate_relative_of_parts k1 rfl, k2⟩
      · obtain ⟨k, y, hy, he⟩ := rds_reach _ p (mergePaths_dir_end b) hd hh (hr.resolve_left hh)
        obtain ⟨k1, k2⟩ := reach_upRef hbv hbs htv hs ha hy hp he
        exact ⟨_, validate_relative_of_parts k1 rfl, k2⟩
    · obtain ⟨k1, k2⟩ := reach_query hbv hbs htv hs ha hp
        (hq.imp (fun h e => h (congrArg some e)) (fun h => Option.some.inj h))
      exact ⟨_, validate_relative_of_parts k1 rfl, k2⟩

/-! Concrete bases: roots, and IRIs reached and not reached. -/

example : baseRoot (chars! "x:a/b/c") = chars! "a/" := by
  have h1 : RiReferenceStr.authority_str (chars! "x:a/b/c") = none := by decide +kernel
  unfold baseRoot directory
  rw [h1, if_neg (by simp)]
  decide +kernel
example : baseRoot (chars! "x:a/../c") = chars! "/" := by
  have h1 : RiReferenceStr.authority_str (chars! "x:a/../c") = none := by decide +kernel
  unfold baseRoot directory
  rw [h1, if_neg (by simp)]
  decide +kernel
example : validate_uri .uri (chars! "x:a/b/c") = some true ∧ validate_uri .uri (chars! "x:a//d:e") = some true ∧
    resolve .uri .off (chars! "x:a/b/c") (chars! "./..//d:e") = some (chars! "x:a//d:e") ∧
    resolve .uri .off (chars! "x:a/b/c") (chars! "./../../d") = some (chars! "x:/d") := by decide +kernel

/-- `x:d` is not reached from `x:a/b/c` by any relative reference: going up twice gives `x:/`. -/
example : ¬ ∃ ref, validate_relative_ref .uri ref = some true ∧
    resolve .uri .off (chars! "x:a/b/c") ref = some (chars! "x:d") := by
  rw [C92_exact .uri _ _ (by decide +kernel) (by decide +kernel)]
  have h1 : RiReferenceStr.authority_str (chars! "x:a/b/c") = none := by decide +kernel
  have hroot : baseRoot (chars! "x:a/b/c") = chars! "a/" := by
    unfold baseRoot directory
    rw [h1, if_neg (by simp)]
    decide +kernel
  have hp : RiReferenceStr.path_str (chars! "x:d") = chars! "d" := by decide +kernel
  rintro ⟨_, ⟨h, _⟩ | ⟨_, p, _, h, e⟩ | ⟨_, h, _⟩⟩
  · exact h (by decide +kernel)
  · have : p = chars! "d" := by
      rw [hp] at e
      unfold escapePath at e
      split at e
      · simp at e
      · exact e.symm
    subst this
    rw [hroot] at h
    exact absurd h (by decide +kernel)
  · exact absurd h (by decide +kernel)

end Verif
