import Verif.Props.Reach

/-!
# C92, continued: bases such as `mailto:x@y` or `urn:a:b`, without an authority and without a slash
-/

namespace Verif

open Rfc PathToNormalize

/-- The base is opaque: it has no authority, and there is no slash in its path. -/
def Opaque (base : Str) : Prop :=
  RiReferenceStr.authority_str base = none ∧ '/' ∉ RiReferenceStr.path_str base

/-- `t` has no authority and its path is any path without dot segments, written with the escape `/.` if it starts
with `//`. -/
def NoAuthority (t : Str) : Prop :=
  RiReferenceStr.authority_str t = none ∧ ∃ p, DotFree p ∧ RiReferenceStr.path_str t = escapePath false p

/-- `./` in front is removed, whatever path without dot segments follows. -/
theorem rds_dot_rel {p : Str} (h : DotFree p) : remove_dot_segments (undot ('.' :: '/' :: p)) = p := by
  obtain ⟨_, ht⟩ := pathSegs_spec p
  have e0 : pathSegs ('.' :: '/' :: p) = (false, ['.']) :: (splitSlash p).map fun n => (true, n) := by
    have h1 : splitSlash ('.' :: '/' :: p) = ['.'] :: splitSlash p := splitSlash_append (n := ['.']) (by decide)
    have h2 : ¬ '.' = '/' := by decide
    simp only [pathSegs, if_neg h2, h1]
  have e1 : stripRel (pathSegs ('.' :: '/' :: p)) = pathSegs p := by
    rw [e0, stripRel.eq_def]
    have hd : isDots (false, ['.']) = true := by decide +kernel
    simp only [hd, if_true]
    cases p with
    | nil => simp [splitSlash, pathSegs]
    | cons c r =>
      by_cases hc : c = '/'
      · subst hc
        rw [splitSlash_slash]
        simp [pathSegs]
      · obtain ⟨s, ss, _, h2⟩ := splitSlash_cons hc r
        simp only [pathSegs, if_neg hc, h2]
        simp only [List.map_cons, reduceCtorEq, if_false]
        refine stripRel_normal ((notDot_iff _).2 (h _ ?_))
        rw [h2]; simp
  rw [rds_eq]
  unfold rdsSegs
  rw [e1]
  have hn : ∀ g ∈ pathSegs p, isDots g = false := by
    intro g hg
    refine (notDot_iff g).2 (h _ ?_)
    cases p with
    | nil => simp [pathSegs] at hg
    | cons c r =>
      simp only [pathSegs] at hg
      by_cases hc : c = '/'
      · subst hc
        simp only [if_true, List.mem_map] at hg
        obtain ⟨n, hn, rfl⟩ := hg
        rw [splitSlash_slash]
        exact List.mem_cons_of_mem _ hn
      · obtain ⟨s, ss, _, h2⟩ := splitSlash_cons hc r
        rw [if_neg hc, h2] at hg
        rw [h2]
        rcases List.mem_cons.1 hg with rfl | hg
        · simp
        · obtain ⟨n, hn, rfl⟩ := List.mem_map.1 hg
          exact List.mem_cons_of_mem _ hn
  rw [fin_all_normal hn, ht]

section
variable {S : Spec} {b r t : Parts}

theorem mergePaths_opaque (ha : b.authority = none) (hp : '/' ∉ b.path) (x : Str) : mergePaths b x = x := by
  rcases mergePaths_cases b x with ⟨_, h, _⟩ | ⟨h, _, _⟩ | ⟨a, c, h, _, _⟩
  all_goals simp_all

/-- A relative-path reference against an opaque base. -/
theorem reach_rootless (hb : b.Valid S) (hbs : b.scheme ≠ none) (ht : t.Valid S) (hs : t.scheme = b.scheme)
    (hba : b.authority = none) (hbp : '/' ∉ b.path) (ha : t.authority = none) {p : Str} (hd : DotFree p)
    (hp : t.path = escapePath false p) :
    Parts.Valid S ⟨none, none, '.' :: '/' :: p, t.query, t.fragment⟩ ∧
    resolve S .off b.recompose (Parts.recompose ⟨none, none, '.' :: '/' :: p, t.query, t.fragment⟩) =
      some t.recompose := by
  have hpc : PC (pcharSlashC S) p := by
    have h1 := path_iff.1 ht.path
    rw [hp] at h1
    unfold escapePath at h1
    split at h1
    · cases h1 with
      | chr _ _ h1 =>
        cases h1 with
        | chr _ _ h1 => exact h1
    · exact h1
  have hpc2 : PC (pcharSlashC S) ('.' :: '/' :: p) :=
    .chr (by decide) (by cases S <;> decide +kernel) (.chr (by decide) (by cases S <;> decide +kernel) hpc)
  have hv : Parts.Valid S ⟨none, none, '.' :: '/' :: p, t.query, t.fragment⟩ := by
    refine ⟨by simp, by simp, path_iff.2 hpc2, ht.query, ht.fragment, by simp, ?_, fun _ _ => ?_⟩
    · intro _ q h; simp at h
    · rintro ⟨a, c, h, hn⟩
      rcases a with _ | ⟨x, _ | ⟨y, a⟩⟩ <;> simp at h hn
      exact absurd h.2.1 (fun e => hn.2.1 e)
  refine ⟨hv, ?_⟩
  rw [resolve_off_eq hb hbs hv]
  have hc : (['.'] == ['/']) = false := by decide
  simp only [transform, Option.isSome_none, Bool.false_eq_true, if_false, List.isEmpty_cons, List.take, hc,
    mergePaths_opaque hba hbp, rds_dot_rel hd]
  rw [hba, ← hs, show (none : Option Str).isSome = false from rfl, ← hp, ← ha]

/-- What comes out of a reference without a scheme, whatever the base. -/
theorem reached_any (hb : b.Valid S) (hbs : b.scheme ≠ none)
    (hr : r.Valid S) (hrs : r.scheme = none) (ht : t.Valid S)
    (h : resolve S .off b.recompose r.recompose = some t.recompose) :
    t.scheme = b.scheme ∧
    ((r.authority ≠ none ∧ t.authority ≠ none ∧ DotFree t.path) ∨
     (r.authority = none ∧ t.authority = b.authority ∧
       ∃ p, DotFree p ∧ t.path = escapePath t.authority.isSome p) ∨
     (r.authority = none ∧ t.authority = b.authority ∧ t.path = b.path ∧ (t.query ≠ none ∨ t.query = b.query))) := by
  rw [resolve_off_eq hb hbs hr, Option.some.injEq] at h
  obtain ⟨hm, hms⟩ := merge_valid hb hbs hr
  have hv : Parts.Valid S { transform b r with
      path := escapePath (transform b r).authority.isSome (transform b r).path } := by
    rw [transform_eq]
    cases hsp : samePath r with
    | true =>
      rw [if_pos rfl, escape_valid hm]
      exact hm
    | false =>
      rw [if_neg (by simp)]
      have := normParts_valid (op := .off) hm hms
      rw [normParts_off] at this
      exact this
  have e := recompose_inj hv.delim ht.delim h
  rw [← e]
  simp only [transform, hrs, Option.isSome_none, Bool.false_eq_true, if_false]
  cases hra : r.authority with
  | some a =>
    simp only [Option.isSome_some, if_true]
    refine ⟨trivial, .inl ⟨by simp, by simp, ?_⟩⟩
    rw [show ∀ s, escapePath true s = s from fun _ => rfl]
    exact C16_no_dot_segments _
  | none =>
    simp only [Option.isSome_none, Bool.false_eq_true, if_false]
    cases hp : r.path with
    | nil =>
      simp only [List.isEmpty_nil, if_true]
      refine ⟨trivial, .inr (.inr ⟨trivial, trivial, escape_valid hb, ?_⟩)⟩
      cases r.query with
      | some _ => left; simp
      | none => right; rfl
    | cons c x =>
      simp only [List.isEmpty_cons, Bool.false_eq_true, if_false]
      exact ⟨trivial, .inr (.inl ⟨trivial, trivial, _, C16_no_dot_segments _, rfl⟩)⟩

end

/-- **C92**: from an opaque base the relative references reach exactly the IRIs with the scheme of the base whose path
has no dot segments, with and without an authority, and those that keep path and query of the base, or only the path
and have a query. -/
theorem C92_opaque (S : Spec) (base t : Str) (hb : validate_uri S base = some true)
    (ht : validate_uri S t = some true) (ho : Opaque base) :
    (∃ ref, validate_relative_ref S ref = some true ∧ resolve S .off base ref = some t) ↔
    RiReferenceStr.scheme_str t = RiReferenceStr.scheme_str base ∧
      ((RiReferenceStr.authority_str t ≠ none ∧ DotFree (RiReferenceStr.path_str t)) ∨
        NoAuthority t ∨ SameUpToQuery base t) := by
  obtain ⟨b, hbv, hbs, rfl⟩ := iri_parts' hb
  obtain ⟨t, htv, hts, rfl⟩ := iri_parts' ht
  obtain ⟨a1, a2, a3, a4⟩ := parts_accessors hbv
  obtain ⟨c1, c2, c3, c4⟩ := parts_accessors htv
  unfold Opaque at ho
  unfold NoAuthority SameUpToQuery
  rw [a2, a3] at ho
  rw [a1, a2, a3, a4, c1, c2, c3, c4]
  constructor
  · rintro ⟨ref, h1, h3⟩
    obtain ⟨r, hrv, hrs, rfl⟩ := relative_parts' h1
    obtain ⟨k1, k2⟩ := reached_any hbv hbs hrv hrs htv h3
    refine ⟨k1, ?_⟩
    rcases k2 with ⟨_, k⟩ | ⟨_, k, p, k3, k4⟩ | ⟨_, k3, k4, k5⟩
    · exact .inl k
    · rw [ho.1] at k
      rw [k] at k4
      exact .inr (.inl ⟨k, p, k3, k4⟩)
    · exact .inr (.inr ⟨k3, k4, k5.imp (fun h e => h (Option.some.inj e)) (fun h => congrArg some h)⟩)
  · rintro ⟨hs, ⟨h1, h2⟩ | ⟨ha, p, hd, hp⟩ | ⟨ha, hp, hq⟩⟩
    · obtain ⟨k1, k2⟩ := reach_network hbv hbs htv hs h1 h2
      exact ⟨_, validate_relative_of_parts k1 rfl, k2⟩
    · obtain ⟨k1, k2⟩ := reach_rootless hbv hbs htv hs ho.1 ho.2 ha hd hp
      exact ⟨_, validate_relative_of_parts k1 rfl, k2⟩
    · obtain ⟨k1, k2⟩ := reach_query hbv hbs htv hs ha hp
        (hq.imp (fun h e => h (congrArg some e)) (fun h => Option.some.inj h))
      exact ⟨_, validate_relative_of_parts k1 rfl, k2⟩

/-- The bases: opaque, and reached from one, by hand. -/
example : Opaque (chars! "mailto:a@b") := by unfold Opaque; decide +kernel
example : validate_uri .uri (chars! "mailto:a@b") = some true ∧ validate_uri .uri (chars! "mailto:c:d//e?q") = some true ∧
    resolve .uri .off (chars! "mailto:a@b") (chars! "./c:d//e?q") = some (chars! "mailto:c:d//e?q") ∧
    resolve .uri .off (chars! "mailto:a@b") (chars! ".///c") = some (chars! "mailto:/.//c") ∧
    resolve .uri .off (chars! "mailto:a@b") (chars! "./") = some (chars! "mailto:") := by decide +kernel

/-- A path with a dot segment is not reached from `mailto:a@b`. -/
example : ¬ ∃ ref, validate_relative_ref .uri ref = some true ∧
    resolve .uri .off (chars! "mailto:a@b") ref = some (chars! "mailto:c/.") := by
  rw [C92_opaque .uri _ _ (by decide +kernel) (by decide +kernel) (by unfold Opaque; decide +kernel)]
  have hp : RiReferenceStr.path_str (chars! "mailto:c/.") = chars! "c/." := by decide +kernel
  have hm : ['.'] ∈ splitSlash (chars! "c/.") := by decide +kernel
  have key : ¬ DotFree (chars! "c/.") := fun h => (h _ hm).1 (by decide +kernel)
  rintro ⟨_, ⟨_, h⟩ | ⟨_, p, h, e⟩ | ⟨_, h, _⟩⟩
  · rw [hp] at h; exact key h
  · rw [hp] at e
    have : p = chars! "c/." := by
      unfold escapePath at e
      split at e
      · simp at e
      · exact e.symm
    rw [this] at h
    exact key h
  · exact absurd h (by decide +kernel)

end Verif
