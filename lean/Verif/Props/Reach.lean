import Verif.Props.ResolveLaws
import Verif.Spec.Lit

/-!
# C92: which IRIs a relative reference can reach from a base
-/

namespace Verif

open Rfc PathToNormalize

/-- No segment of the path is `.` or `..`, in any percent-encoded spelling. -/
def DotFree (p : Str) : Prop := ∀ n ∈ splitSlash p, NotDot n

/-- The base is hierarchical: it has an authority, or its path starts with a slash. -/
def Hierarchical (base : Str) : Prop :=
  RiReferenceStr.authority_str base ≠ none ∨ ∃ r, RiReferenceStr.path_str base = '/' :: r

/-- `t` differs from `base` in its fragment, and perhaps in its query, which it then has. -/
def SameUpToQuery (base t : Str) : Prop :=
  RiReferenceStr.authority_str t = RiReferenceStr.authority_str base ∧
  RiReferenceStr.path_str t = RiReferenceStr.path_str base ∧
  (RiReferenceStr.query_str t ≠ some none ∨ RiReferenceStr.query_str t = RiReferenceStr.query_str base)

/-- `t` has the authority of `base` (or neither has one) and its path is a path without dot segments that starts with
a slash, written with the escape `/.` if it starts with `//` and there is no authority. -/
def SameAuthority (base t : Str) : Prop :=
  RiReferenceStr.authority_str t = RiReferenceStr.authority_str base ∧
  ∃ p, DotFree ('/' :: p) ∧
    RiReferenceStr.path_str t = escapePath (RiReferenceStr.authority_str t).isSome ('/' :: p)

/-! ### Lemmas -/

theorem rds_dot_front {p : Str} (h : DotFree ('/' :: p)) :
    remove_dot_segments (undot ('/' :: '.' :: '/' :: p)) = '/' :: p := by
  obtain ⟨hok, ht⟩ := pathSegs_spec ('/' :: p)
  obtain ⟨hal, hne⟩ := pathSegs_slash p
  have hd : ∀ g ∈ pathSegs ('/' :: p), isDots g = false := by
    intro g hg
    refine (notDot_iff g).2 (h _ ?_)
    cases hs : splitSlash p with
    | nil => exact absurd hs (splitSlash_ne p)
    | cons a r =>
      unfold pathSegs at hg
      simp only [if_true, hs, List.mem_map] at hg
      obtain ⟨n, hn, rfl⟩ := hg
      simp only [splitSlash, beq_self_eq_true, if_true, hs]
      exact List.mem_cons_of_mem _ hn
  generalize pathSegs ('/' :: p) = W at hok ht hal hne hd
  have hok2 : OKSegs ((true, ['.']) :: W) := ⟨by decide, by simp, hal⟩
  have e3 : ('/' :: '.' :: pathText W) = pathText ((true, ['.']) :: W) := by
    rw [pathText_cons]; rfl
  rw [← ht, rds_eq]
  unfold rdsSegs
  rw [e3, pathSegs_unique hok2, stripRel_true]
  have := fin_dots (D := [(true, ['.'])]) (by intro g hg; simp at hg; subst hg; decide +kernel) hne
  rw [List.singleton_append] at this
  rw [this, fin_all_normal hd]

theorem append_colon_inj : ∀ {a b c d : Str}, ':' ∉ a → ':' ∉ b → a ++ ':' :: c = b ++ ':' :: d → a = b ∧ c = d
  | [], [], _, _, _, _, h => by cases h; exact ⟨rfl, rfl⟩
  | [], x :: b, _, _, _, hb, h => by cases h; simp at hb
  | x :: a, [], _, _, ha, _, h => by cases h; simp at ha
  | x :: a, y :: b, c, d, ha, hb, h => by
    simp only [List.cons_append, List.cons.injEq] at h
    obtain ⟨h1, h2⟩ := append_colon_inj (fun e => ha (List.mem_cons_of_mem _ e))
      (fun e => hb (List.mem_cons_of_mem _ e)) h.2
    exact ⟨by rw [h.1, h1], h2⟩

theorem no_colon_slash (s : Str) : ¬ ColonInFirstSegment ('/' :: s) := by
  rintro ⟨a, b, h, hn⟩
  cases a with
  | nil => cases h
  | cons c a =>
    simp only [List.cons_append, List.cons.injEq] at h
    obtain ⟨rfl, _⟩ := h
    simp at hn

theorem validate_relative_of_parts {S : Spec} {p : Parts} (h : p.Valid S) (hs : p.scheme = none) :
    validate_relative_ref S p.recompose = some true :=
  ((C03_relative_ref_validation S _).1).2 ((relative_parts S _).2 ⟨p, h, hs, rfl⟩)

section
variable {S : Spec} {b r t : Parts}

/-- A network-path reference. -/
theorem reach_network (hb : b.Valid S) (hbs : b.scheme ≠ none) (ht : t.Valid S) (hs : t.scheme = b.scheme)
    (ha : t.authority ≠ none) (hd : DotFree t.path) :
    Parts.Valid S { t with scheme := none } ∧
    resolve S .off b.recompose (Parts.recompose { t with scheme := none }) = some t.recompose := by
  have hv : Parts.Valid S { t with scheme := none } :=
    ⟨by simp, ht.authority, ht.path, ht.query, ht.fragment, ht.withAuthority, ht.withoutAuthority,
      fun _ h => absurd h ha⟩
  have hsome : t.authority.isSome = true := by
    cases h : t.authority with
    | none => exact absurd h ha
    | some _ => rfl
  refine ⟨hv, ?_⟩
  rw [resolve_off_eq hb hbs hv]
  simp only [transform, Option.isSome_none, Bool.false_eq_true, if_false, hsome, if_true,
    C16_no_dots_unchanged _ hd]
  rw [show escapePath true t.path = t.path from rfl, ← hs]

/-- An absolute-path reference. -/
theorem reach_path (hb : b.Valid S) (hbs : b.scheme ≠ none) (ht : t.Valid S) (hs : t.scheme = b.scheme)
    (ha : t.authority = b.authority) {p : Str} (hd : DotFree ('/' :: p))
    (hp : t.path = escapePath t.authority.isSome ('/' :: p)) :
    Parts.Valid S ⟨none, none, '/' :: '.' :: '/' :: p, t.query, t.fragment⟩ ∧
    resolve S .off b.recompose (Parts.recompose ⟨none, none, '/' :: '.' :: '/' :: p, t.query, t.fragment⟩) =
      some t.recompose := by
  have hpc : PC (pcharSlashC S) ('/' :: '.' :: '/' :: p) := by
    have h1 := path_iff.1 ht.path
    rw [hp] at h1
    unfold escapePath at h1
    split at h1
    · exact h1
    · exact .chr (by decide) (by cases S <;> decide +kernel) (.chr (by decide) (by cases S <;> decide +kernel) h1)
  have hv : Parts.Valid S ⟨none, none, '/' :: '.' :: '/' :: p, t.query, t.fragment⟩ :=
    ⟨by simp, by simp, path_iff.2 hpc, ht.query, ht.fragment, by simp, by simp, fun _ _ => no_colon_slash _⟩
  refine ⟨hv, ?_⟩
  rw [resolve_off_eq hb hbs hv]
  simp only [transform, Option.isSome_none, Bool.false_eq_true, if_false, List.isEmpty_cons, List.take,
    beq_self_eq_true, if_true, rds_dot_front hd]
  rw [← hs, ← ha, ← hp]

/-- A reference without a path. -/
theorem reach_query (hb : b.Valid S) (hbs : b.scheme ≠ none) (ht : t.Valid S) (hs : t.scheme = b.scheme)
    (ha : t.authority = b.authority) (hp : t.path = b.path) (hq : t.query ≠ none ∨ t.query = b.query) :
    Parts.Valid S ⟨none, none, [], t.query, t.fragment⟩ ∧
    resolve S .off b.recompose (Parts.recompose ⟨none, none, [], t.query, t.fragment⟩) = some t.recompose := by
  have hv : Parts.Valid S ⟨none, none, [], t.query, t.fragment⟩ :=
    ⟨by simp, by simp, path_iff.2 .nil, ht.query, ht.fragment, by simp, by simp,
      fun _ _ h => by obtain ⟨a, b, h, _⟩ := h; cases a <;> cases h⟩
  refine ⟨hv, ?_⟩
  rw [resolve_off_eq hb hbs hv]
  simp only [transform, Option.isSome_none, Bool.false_eq_true, if_false, List.isEmpty_nil, if_true, escape_valid hb]
  have e : (if t.query.isSome = true then t.query else b.query) = t.query := by
    cases h : t.query with
    | some _ => rfl
    | none =>
      rcases hq with hq | hq
      · exact absurd h hq
      · rw [h] at hq; simp [hq]
  rw [e, ← hs, ← ha, ← hp]

theorem mergePaths_slash (hb : b.Valid S) (hh : b.authority ≠ none ∨ ∃ r, b.path = '/' :: r) (x : Str) :
    ∃ y, mergePaths b x = '/' :: y := by
  have hbp : b.authority ≠ none → b.path = [] ∨ ∃ r, b.path = '/' :: r := hb.withAuthority
  rcases mergePaths_cases b x with ⟨h, _, _⟩ | ⟨_, h1, h2⟩ | ⟨a, c, h1, h2, _⟩
  · exact ⟨x, h⟩
  · exfalso
    rw [rfind_split_hole_none] at h2
    have : ¬ ∃ r, b.path = '/' :: r := by rintro ⟨r, e⟩; rw [e] at h2; simp at h2
    rcases hh with hh | hh
    · rcases hbp hh with h | h
      · rw [h] at h1
        cases ha : b.authority with
        | none => exact hh ha
        | some _ => rw [ha] at h1; simp at h1
      · exact this h
    · exact this hh
  · rw [h2]
    cases a with
    | nil => exact ⟨x, rfl⟩
    | cons c' a =>
      have : ∃ r, b.path = '/' :: r := by
        rcases hh with hh | hh
        · rcases hbp hh with h | h
          · rw [h] at h1; cases h1
          · exact h
        · exact hh
      obtain ⟨r, e⟩ := this
      rw [h1] at e
      simp only [List.cons_append, List.cons.injEq] at e
      obtain ⟨rfl, _⟩ := e
      exact ⟨_, rfl⟩

/-- What comes out of a reference without a scheme. -/
theorem reached (hb : b.Valid S) (hbs : b.scheme ≠ none) (hh : b.authority ≠ none ∨ ∃ r, b.path = '/' :: r)
    (hr : r.Valid S) (hrs : r.scheme = none) (ht : t.Valid S)
    (h : resolve S .off b.recompose r.recompose = some t.recompose) :
    t.scheme = b.scheme ∧
    ((r.authority ≠ none ∧ t.authority ≠ none ∧ DotFree t.path) ∨
     (r.authority = none ∧ t.authority = b.authority ∧
       ∃ p, DotFree ('/' :: p) ∧ t.path = escapePath t.authority.isSome ('/' :: p)) ∨
     (r.authority = none ∧ t.authority = b.authority ∧ t.path = b.path ∧ (t.query ≠ none ∨ t.query = b.query))) := by
  rw [resolve_off_eq hb hbs hr, Option.some.injEq] at h
  obtain ⟨hm, hms⟩ := merge_valid hb hbs hr
  have hv : Parts.Valid S { transform b r with
      path := escapePath (transform b r).authority.isSome (transform b r).path } := by
    rw [transform_eq]
    cases hsp : samePath r with
    | true =>
      rw [if_pos rfl, escape_valid hm]
      exact hm
    | false =>
      rw [if_neg (by simp)]
      have := normParts_valid (op := .off) hm hms
      rw [normParts_off] at this
      exact this
  have e := recompose_inj hv.delim ht.delim h
  rw [← e]
  simp only [transform, hrs, Option.isSome_none, Bool.false_eq_true, if_false]
  cases hra : r.authority with
  | some a =>
    simp only [Option.isSome_some, if_true]
    refine ⟨trivial, .inl ⟨by simp, by simp, ?_⟩⟩
    rw [show ∀ s, escapePath true s = s from fun _ => rfl]
    exact C16_no_dot_segments _
  | none =>
    simp only [Option.isSome_none, Bool.false_eq_true, if_false]
    cases hp : r.path with
    | nil =>
      simp only [List.isEmpty_nil, if_true]
      refine ⟨trivial, .inr (.inr ⟨trivial, trivial, escape_valid hb, ?_⟩)⟩
      cases r.query with
      | some _ => left; simp
      | none => right; rfl
    | cons c x =>
      simp only [List.isEmpty_cons, Bool.false_eq_true, if_false]
      refine ⟨trivial, .inr (.inl ⟨trivial, trivial, ?_⟩)⟩
      have : ∃ y, (if (c :: x).take 1 == ['/'] then c :: x else mergePaths b (c :: x)) = '/' :: y := by
        by_cases hc : ((c :: x).take 1 == ['/']) = true
        · rw [if_pos hc]
          simp at hc
          exact ⟨x, by rw [hc]⟩
        · rw [if_neg hc]
          exact mergePaths_slash hb hh _
      obtain ⟨y, hy⟩ := this
      rw [hy]
      obtain ⟨z, hz⟩ := rds_slash_head y
      refine ⟨z, ?_, by rw [hz]⟩
      rw [← hz]
      exact C16_no_dot_segments _

theorem parts_accessors (h : t.Valid S) :
    RiReferenceStr.scheme_str t.recompose = t.scheme ∧ RiReferenceStr.authority_str t.recompose = t.authority ∧
    RiReferenceStr.path_str t.recompose = t.path ∧ RiReferenceStr.query_str t.recompose = some t.query :=
  ⟨h.delim.extract_scheme_eq, h.delim.extract_authority_eq, h.delim.extract_path_eq, h.delim.extract_query_eq⟩

end

/-! ### The theorems -/

/-- **C92**: an IRI with the scheme of the base, with an authority and without dot segments is reached from every base
by its own text without the scheme. -/
theorem C92_network_path (S : Spec) (base x rest : Str) (hb : validate_uri S base = some true)
    (ht : validate_uri S (x ++ ':' :: '/' :: '/' :: rest) = some true)
    (hs : RiReferenceStr.scheme_str base = some x)
    (hd : DotFree (RiReferenceStr.path_str (x ++ ':' :: '/' :: '/' :: rest))) :
    validate_relative_ref S ('/' :: '/' :: rest) = some true ∧
    resolve S .off base ('/' :: '/' :: rest) = some (x ++ ':' :: '/' :: '/' :: rest) := by
  obtain ⟨b, hbv, hbs, rfl⟩ := iri_parts' hb
  obtain ⟨t, htv, hts, e⟩ := iri_parts' ht
  obtain ⟨h1, h2, h3, _⟩ := parts_accessors htv
  rw [(parts_accessors hbv).1] at hs
  obtain ⟨y, hy⟩ := Option.ne_none_iff_exists'.1 hts
  have hx := hbv.delim.scheme x hs
  have hyd := htv.delim.scheme y hy
  rw [← e] at hd
  rw [h3] at hd
  have e1 : y ++ ':' :: (optSuf ['/', '/'] t.authority ++ (t.path ++ (optSuf ['?'] t.query ++ optSuf ['#'] t.fragment))) =
      x ++ ':' :: '/' :: '/' :: rest := by
    rw [← e]; unfold Parts.recompose; rw [hy]; simp [optPre]
  have hxy : y = x ∧ (optSuf ['/', '/'] t.authority ++ (t.path ++ (optSuf ['?'] t.query ++ optSuf ['#'] t.fragment))) =
      '/' :: '/' :: rest := by
    have hcx : ':' ∉ x := hx.2.1
    have hcy : ':' ∉ y := hyd.2.1
    exact append_colon_inj hcy hcx e1
  obtain ⟨rfl, e2⟩ := hxy
  have ha : t.authority ≠ none := by
    intro ha
    rw [ha] at e2
    simp only [optSuf, List.nil_append] at e2
    have hn := htv.withoutAuthority ha
    rcases hp : t.path with _ | ⟨c, _ | ⟨d, p⟩⟩
    · rw [hp] at e2
      rcases hq : t.query with _ | q
      · rw [hq] at e2
        rcases hf : t.fragment with _ | f <;> rw [hf] at e2 <;> simp at e2
      · rw [hq] at e2; simp at e2
    · rw [hp] at e2
      rcases hq : t.query with _ | q
      · rw [hq] at e2
        rcases hf : t.fragment with _ | f <;> rw [hf] at e2 <;> simp at e2
      · rw [hq] at e2; simp at e2
    · rw [hp] at e2 hn
      simp only [List.cons_append, List.cons.injEq] at e2
      exact hn p (by rw [e2.1, e2.2.1])
  have := reach_network hbv hbs htv (by rw [hy, hs]) ha hd
  have er : Parts.recompose { t with scheme := none } = '/' :: '/' :: rest := by
    rw [← e2]; unfold Parts.recompose; simp [optPre]
  rw [er] at this
  have hrel := validate_relative_of_parts this.1 rfl
  rw [er] at hrel
  exact ⟨hrel, by rw [this.2, e]⟩

/-- **C92**: from a hierarchical base a relative reference without an authority reaches exactly the IRIs with the scheme
and the authority of the base whose path is absolute and free of dot segments, and those that keep path and query of the
base, or only the path and have a query. -/
theorem C92_same_authority (S : Spec) (base t : Str) (hb : validate_uri S base = some true)
    (ht : validate_uri S t = some true) (hh : Hierarchical base) :
    (∃ ref, validate_relative_ref S ref = some true ∧ RiReferenceStr.authority_str ref = none ∧
      resolve S .off base ref = some t) ↔
    RiReferenceStr.scheme_str t = RiReferenceStr.scheme_str base ∧ (SameAuthority base t ∨ SameUpToQuery base t) := by
  obtain ⟨b, hbv, hbs, rfl⟩ := iri_parts' hb
  obtain ⟨t, htv, hts, rfl⟩ := iri_parts' ht
  obtain ⟨a1, a2, a3, a4⟩ := parts_accessors hbv
  obtain ⟨c1, c2, c3, c4⟩ := parts_accessors htv
  unfold Hierarchical at hh
  unfold SameAuthority SameUpToQuery
  rw [a2, a3] at hh
  rw [a1, a2, a3, a4, c1, c2, c3, c4]
  constructor
  · rintro ⟨ref, h1, h2, h3⟩
    obtain ⟨r, hrv, hrs, rfl⟩ := relative_parts' h1
    rw [(parts_accessors hrv).2.1] at h2
    obtain ⟨k1, k2⟩ := reached hbv hbs hh hrv hrs htv h3
    refine ⟨k1, ?_⟩
    rcases k2 with ⟨k, _⟩ | ⟨_, k⟩ | ⟨_, k3, k4, k5⟩
    · exact absurd h2 k
    · exact .inl k
    · exact .inr ⟨k3, k4, k5.imp (fun h e => h (Option.some.inj e)) (fun h => congrArg some h)⟩
  · rintro ⟨hs, ⟨ha, p, hd, hp⟩ | ⟨ha, hp, hq⟩⟩
    · obtain ⟨k1, k2⟩ := reach_path hbv hbs htv hs ha hd hp
      exact ⟨_, validate_relative_of_parts k1 rfl, (parts_accessors k1).2.1, k2⟩
    · obtain ⟨k1, k2⟩ := reach_query hbv hbs htv hs ha hp
        (hq.imp (fun h e => h (congrArg some e)) (fun h => Option.some.inj h))
      exact ⟨_, validate_relative_of_parts k1 rfl, (parts_accessors k1).2.1, k2⟩

/-- **C92**: from a hierarchical base the relative references together reach exactly the IRIs with the scheme of the
base that have an authority and no dot segments, and those that a reference without an authority reaches. -/
theorem C92_reachable (S : Spec) (base t : Str) (hb : validate_uri S base = some true)
    (ht : validate_uri S t = some true) (hh : Hierarchical base) :
    (∃ ref, validate_relative_ref S ref = some true ∧ resolve S .off base ref = some t) ↔
    RiReferenceStr.scheme_str t = RiReferenceStr.scheme_str base ∧
      ((RiReferenceStr.authority_str t ≠ none ∧ DotFree (RiReferenceStr.path_str t)) ∨
        SameAuthority base t ∨ SameUpToQuery base t) := by
  constructor
  · rintro ⟨ref, h1, h3⟩
    cases ha : RiReferenceStr.authority_str ref with
    | none =>
      obtain ⟨k1, k2⟩ := (C92_same_authority S base t hb ht hh).1 ⟨ref, h1, ha, h3⟩
      exact ⟨k1, .inr k2⟩
    | some a =>
      obtain ⟨b, hbv, hbs, rfl⟩ := iri_parts' hb
      obtain ⟨t, htv, hts, rfl⟩ := iri_parts' ht
      obtain ⟨a1, a2, a3, a4⟩ := parts_accessors hbv
      obtain ⟨c1, c2, c3, c4⟩ := parts_accessors htv
      obtain ⟨r, hrv, hrs, rfl⟩ := relative_parts' h1
      rw [(parts_accessors hrv).2.1] at ha
      unfold Hierarchical at hh
      rw [a2, a3] at hh
      rw [a1, c1, c2, c3]
      obtain ⟨k1, k2⟩ := reached hbv hbs hh hrv hrs htv h3
      refine ⟨k1, ?_⟩
      rcases k2 with ⟨_, k⟩ | ⟨k, _⟩ | ⟨k, _⟩
      · exact .inl k
      · rw [ha] at k; cases k
      · rw [ha] at k; cases k
  · rintro ⟨hs, ⟨h1, h2⟩ | h⟩
    · obtain ⟨b, hbv, hbs, rfl⟩ := iri_parts' hb
      obtain ⟨t, htv, hts, rfl⟩ := iri_parts' ht
      obtain ⟨a1, _, _, _⟩ := parts_accessors hbv
      obtain ⟨c1, c2, c3, _⟩ := parts_accessors htv
      rw [c1, a1] at hs
      rw [c2] at h1
      rw [c3] at h2
      obtain ⟨k1, k2⟩ := reach_network hbv hbs htv hs h1 h2
      exact ⟨_, validate_relative_of_parts k1 rfl, k2⟩
    · obtain ⟨ref, k1, _, k2⟩ := (C92_same_authority S base t hb ht hh).2 ⟨hs, h⟩
      exact ⟨ref, k1, k2⟩

/-- **C92**: what is named in `C92_reachable` can be reached from every base, hierarchical or not. -/
theorem C92_sufficient (S : Spec) (base t : Str) (hb : validate_uri S base = some true)
    (ht : validate_uri S t = some true)
    (hs : RiReferenceStr.scheme_str t = RiReferenceStr.scheme_str base)
    (h : (RiReferenceStr.authority_str t ≠ none ∧ DotFree (RiReferenceStr.path_str t)) ∨
      SameAuthority base t ∨ SameUpToQuery base t) :
    ∃ ref, validate_relative_ref S ref = some true ∧ resolve S .off base ref = some t := by
  obtain ⟨b, hbv, hbs, rfl⟩ := iri_parts' hb
  obtain ⟨t, htv, hts, rfl⟩ := iri_parts' ht
  obtain ⟨a1, a2, a3, a4⟩ := parts_accessors hbv
  obtain ⟨c1, c2, c3, c4⟩ := parts_accessors htv
  unfold SameAuthority SameUpToQuery at h
  rw [a2, a3, a4, c2, c3, c4] at h
  rw [a1, c1] at hs
  rcases h with ⟨h1, h2⟩ | ⟨ha, p, hd, hp⟩ | ⟨ha, hp, hq⟩
  · obtain ⟨k1, k2⟩ := reach_network hbv hbs htv hs h1 h2
    exact ⟨_, validate_relative_of_parts k1 rfl, k2⟩
  · obtain ⟨k1, k2⟩ := reach_path hbv hbs htv hs ha hd hp
    exact ⟨_, validate_relative_of_parts k1 rfl, k2⟩
  · obtain ⟨k1, k2⟩ := reach_query hbv hbs htv hs ha hp
      (hq.imp (fun h e => h (congrArg some e)) (fun h => Option.some.inj h))
    exact ⟨_, validate_relative_of_parts k1 rfl, k2⟩

/-- **C92**: a normalized IRI with an authority is reached from every base with its scheme, by its text without the
scheme, with and without normalization. -/
theorem C92_normalized (S : Spec) (base x rest : Str) (hb : validate_uri S base = some true)
    (ht : validate_uri S (x ++ ':' :: '/' :: '/' :: rest) = some true)
    (hs : RiReferenceStr.scheme_str base = some x)
    (hn : normalize S (x ++ ':' :: '/' :: '/' :: rest) = some (x ++ ':' :: '/' :: '/' :: rest))
    (ha : RiReferenceStr.authority_str (x ++ ':' :: '/' :: '/' :: rest) ≠ none) :
    resolve S .off base ('/' :: '/' :: rest) = some (x ++ ':' :: '/' :: '/' :: rest) ∧
    resolve S .default base ('/' :: '/' :: rest) = some (x ++ ':' :: '/' :: '/' :: rest) := by
  have hd : DotFree (RiReferenceStr.path_str (x ++ ':' :: '/' :: '/' :: rest)) := by
    obtain ⟨t, htv, hts, e⟩ := iri_parts' ht
    rw [← e] at hn ha ⊢
    obtain ⟨_, h2, h3, _⟩ := parts_accessors htv
    rw [h2] at ha
    rw [h3]
    rw [normalize_eq htv hts, Option.some.injEq] at hn
    have e1 := recompose_inj (normParts_valid htv hts).delim htv.delim hn
    have hsome : t.authority.isSome = true := by
      cases h : t.authority with
      | none => exact absurd h ha
      | some _ => rfl
    have e2 : t.path = wr S .default (remove_dot_segments (undot t.path)) := by
      have : (normParts S .default t).path = t.path := by rw [e1]
      rw [← this]
      show pathn S .default t.authority.isSome t.path =
        wr S .default (remove_dot_segments (undot (normParts S .default t).path))
      rw [this]
      unfold pathn
      rw [if_neg (by simp), hsome]
      rfl
    rw [wr_rds htv.textOK] at e2
    rw [e2]
    intro n hn
    rcases splitSlash_pathSegs (wrSegs_ok (rdsSegs_textOK htv.textOK) (rdsSegs_ok _)) hn with rfl | ⟨g, hg, rfl⟩
    · exact notDot_nil
    · exact (notDot_iff g).1 (wrSegs_dots (rdsSegs_textOK htv.textOK) rdsSegs_mem g hg)
  obtain ⟨h1, h2⟩ := C92_network_path S base x rest hb ht hs hd
  refine ⟨h2, ?_⟩
  rw [C46_normalize_after_resolve S base _ hb ((C07_upcasts S _).2.2 h1), h2, Option.bind_some, hn]

/-! Concrete cases: the hypotheses, and IRIs reached and not reached. -/

example : validate_uri .uri (chars! "http://h/a/b") = some true ∧ validate_uri .uri (chars! "http://k//c?q") = some true ∧
    resolve .uri .off (chars! "http://h/a/b") (chars! "//k//c?q") = some (chars! "http://k//c?q") := by decide +kernel
example : normalize .uri (chars! "http://k//c?q") = some (chars! "http://k//c?q") ∧
    RiReferenceStr.scheme_str (chars! "http://h/a/b") = some (chars! "http") ∧
    RiReferenceStr.authority_str (chars! "http://k//c?q") ≠ none := by decide +kernel
example : Hierarchical (chars! "http://h/a/b") := .inl (by decide +kernel)
example : Hierarchical (chars! "a:/b") := .inr ⟨chars! "b", by decide +kernel⟩
/- A path that starts with `//` can be reached without repeating the authority. -/
example : resolve .uri .off (chars! "http://h/a/b") (chars! "/.//c?q#f") = some (chars! "http://h//c?q#f") := by
  decide +kernel
example : resolve .uri .off (chars! "a:/b") (chars! "/.//c") = some (chars! "a:/.//c") := by decide +kernel
/- The base's own dot segments can be reached only together with its path. -/
example : resolve .uri .off (chars! "http://h/a/../b?q") (chars! "?r") = some (chars! "http://h/a/../b?r") := by
  decide +kernel

theorem splitSlash_mem_dot : ['.'] ∈ splitSlash (chars! "/./b") := by decide +kernel

/-- An IRI with a dot segment that the base does not have is not reached by any relative reference. -/
example : ¬ ∃ ref, validate_relative_ref .uri ref = some true ∧
    resolve .uri .off (chars! "http://h/a") ref = some (chars! "http://h/./b") := by
  rw [C92_reachable .uri _ _ (by decide +kernel) (by decide +kernel) (.inl (by decide +kernel))]
  have hp : RiReferenceStr.path_str (chars! "http://h/./b") = chars! "/./b" := by decide +kernel
  have key : ¬ DotFree (chars! "/./b") := fun h => (h _ splitSlash_mem_dot).1 (by decide +kernel)
  rintro ⟨_, ⟨_, h⟩ | ⟨_, p, h, e⟩ | ⟨_, h, _⟩⟩
  · rw [hp] at h; exact key h
  · have ha : (RiReferenceStr.authority_str (chars! "http://h/./b")).isSome = true := by decide +kernel
    rw [hp, ha] at e
    rw [show escapePath true ('/' :: p) = '/' :: p from rfl] at e
    rw [← e] at h
    exact key h
  · exact absurd h (by decide +kernel)

end Verif
