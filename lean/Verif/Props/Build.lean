import Verif.Lemmas.Build
import Verif.Props.Normalize

/-!
# C28, C29, C30: the builder
-/

namespace Verif

open Rfc BuildSpec

/-! ## C28: setters -/

theorem lastSet_snoc {α : Type} (f : BuilderOp → Option α) (init : α) (ops : List BuilderOp)
    (op : BuilderOp) : lastSet f init (ops ++ [op]) = (f op).getD (lastSet f init ops) := by
  unfold lastSet
  rw [List.reverse_append]
  simp only [List.reverse_cons, List.reverse_nil, List.nil_append, List.singleton_append,
    List.findSome?_cons]
  cases f op <;> rfl

/-- **C28.**  After any history of setter calls on a new builder, every component is the one set
last (or unset), where `unset_authority` forgets the parts of the authority. -/
theorem C28_setters (ops : List BuilderOp) :
    Builder.run {} ops = {
      scheme := lastSet BuildSpec.scheme none ops
      authority := if lastSet hasAuthority false ops then some {
          userinfo := lastSet BuildSpec.userinfo .absent ops
          host := lastSet BuildSpec.host (.string []) ops
          port := lastSet BuildSpec.port .empty ops } else none
      path := lastSet BuildSpec.path [] ops
      query := lastSet BuildSpec.query none ops
      fragment := lastSet BuildSpec.fragment none ops
      normalize := lastSet BuildSpec.normalize false ops } ∧
    (lastSet hasAuthority false ops = false → lastSet BuildSpec.userinfo .absent ops = .absent ∧
      lastSet BuildSpec.host (.string []) ops = .string [] ∧
      lastSet BuildSpec.port .empty ops = .empty) := by
  obtain ⟨l, rfl⟩ : ∃ l, ops = List.reverse l := ⟨ops.reverse, by simp⟩
  induction l with
  | nil => exact ⟨rfl, fun _ => ⟨rfl, rfl, rfl⟩⟩
  | cons op l ih =>
    obtain ⟨h1, h2⟩ := ih
    rw [List.reverse_cons]
    have hr : Builder.run {} (l.reverse ++ [op]) = (Builder.run {} l.reverse).set op := by
      simp [Builder.run, List.foldl_append]
    rw [hr, h1]
    simp only [lastSet_snoc]
    cases hh : lastSet hasAuthority false l.reverse with
    | false =>
      obtain ⟨e1, e2, e3⟩ := h2 hh
      rw [e1, e2, e3]
      cases op <;> exact ⟨rfl, by first | (intro _; exact ⟨rfl, rfl, rfl⟩) | (intro h; cases h)⟩
    | true =>
      cases op <;> exact ⟨rfl, by first | (intro _; exact ⟨rfl, rfl, rfl⟩) | (intro h; cases h)⟩

example : Builder.run {} [.port (.integer 80), .host (chars! "h"), .scheme (chars! "a"),
    .unset_authority, .path (chars! "/x"), .host (chars! "g"), .normalize] =
    { scheme := some (chars! "a"), authority := some { host := .string (chars! "g") },
      path := chars! "/x", normalize := true } := by decide +kernel

/-! ## C28: without normalization -/

/-- **C28.**  Without normalization `build` never panics, succeeds exactly for the acceptable
settings (nothing is asked of the characters of the path), and the result displays as the
recomposition of exactly the components that were set. -/
theorem C28_build_raw (S : Spec) (k : IriKind) (b : Builder) (hn : b.normalize = false) :
    (Acceptable S k b → ∃ B, b.build S k = some (some B) ∧
      B.display S = some (parts b).recompose) ∧
    (¬ Acceptable S k b → b.build S k = some none) := by
  obtain ⟨h1, h2⟩ := build_eq (S := S) (b := b) (by rw [hn]; intro h; cases h) k
  refine ⟨fun h => ?_, h2⟩
  obtain ⟨B, h3, _, h5⟩ := h1 h
  refine ⟨B, h3, ?_⟩
  rw [h5]
  unfold outParts
  rw [if_pos hn]

theorem kindOk_parts {S : Spec} {k : IriKind} {b : Builder} (h : Acceptable S k b) :
    PartsKind (parts b) k := by
  have := h.kind
  cases k <;> exact this

/-- **C28** (partial: only for a path generated by the grammar rule `path`, because `build` does not
check the characters of the path, see `C28_path_refuted`).  The string displayed is generated by
the grammar of the target type, and its components are the ones that were set. -/
theorem C28_output_valid_partial (S : Spec) (k : IriKind) (b : Builder) (hn : b.normalize = false)
    (hp : Rfc.path S b.path) (B : Built) (hB : b.build S k = some (some B)) :
    ∃ s, B.display S = some s ∧ grammar S k s ∧ s = (parts b).recompose ∧ (parts b).Valid S := by
  obtain ⟨h1, h2⟩ := C28_build_raw S k b hn
  by_cases ha : Acceptable S k b
  · obtain ⟨B', h3, h4⟩ := h1 ha
    rw [hB] at h3
    cases h3
    have hv := parts_valid ha hp fun e => ha.withoutAuthority e hn
    exact ⟨_, h4, grammar_of_parts hv (kindOk_parts ha), rfl, hv⟩
  · rw [h2 ha] at hB
    cases hB

/-- … and only such a path gives a valid value: for a built value, the components that were set are
valid together exactly if the path is generated by its rule. -/
theorem C28_valid_iff (S : Spec) (k : IriKind) (b : Builder) (hn : b.normalize = false) (B : Built)
    (hB : b.build S k = some (some B)) : (parts b).Valid S ↔ Rfc.path S b.path := by
  refine ⟨fun h => h.path, fun hp => ?_⟩
  obtain ⟨_, _, _, _, h⟩ := C28_output_valid_partial S k b hn hp B hB
  exact h

/-- What the full claim C28 says: whatever the settings, a successful build displays a string of the
target type. -/
def C28Full (S : Spec) (k : IriKind) (b : Builder) : Prop :=
  ∀ B, b.build S k = some (some B) → ∃ s, B.display S = some s ∧ grammar S k s

/-- The full claim C28 is false: the builder accepts a path with a space. -/
theorem C28_path_refuted : ¬ C28Full .iri .reference { path := chars! "a b" } := by
  intro h
  obtain ⟨s, h1, h2⟩ := h ⟨{ path := chars! "a b" }, false⟩ (by decide +kernel)
  have e : s = chars! "a b" := by
    have : Built.display .iri ⟨{ path := chars! "a b" }, false⟩ = some (chars! "a b") := by decide +kernel
    rw [this] at h1
    exact (Option.some.inj h1).symm
  subst e
  have := ((C02_iri_reference_validation .iri (chars! "a b")).1).2 h2
  revert this
  decide +kernel

/-- The components are not kept either: a path `?x` becomes a query. -/
theorem C28_path_becomes_query : ∃ B s, Builder.build .iri .reference { path := chars! "?x" } = some (some B) ∧
    B.display .iri = some s ∧ components_to_major s = some ⟨none, none, [], some (chars! "x"), none⟩ :=
  ⟨⟨{ path := chars! "?x" }, false⟩, chars! "?x", by decide +kernel, by decide +kernel, by decide +kernel⟩

/-- With normalization an ill-formed path makes `build` or the formatting panic. -/
theorem C28_path_panics :
    Builder.build .iri .reference { path := chars! "/%", normalize := true } = none ∧
    ∃ B, Builder.build .iri .reference { path := chars! "%", normalize := true } = some (some B) ∧
      B.display .iri = none :=
  ⟨by decide +kernel, ⟨{ path := chars! "%", normalize := true }, false⟩, by decide +kernel, by decide +kernel⟩

/-- An example with every component. -/
def exampleBuilder : Builder where
  scheme := some (chars! "http")
  authority := some {
    host := .ipv4 127 0 0 1
    port := .integer 80
    userinfo := .userPass (chars! "u") (some (chars! "p:")) }
  path := chars! "/a"
  query := some (chars! "?")
  fragment := some []

example : exampleBuilder.build .uri .iri = some (some ⟨exampleBuilder, true⟩) ∧
    Built.display .uri ⟨exampleBuilder, true⟩ = some (chars! "http://u:p:@127.0.0.1:80/a??#") := by
  decide +kernel

/-! ## C28, C30: with normalization -/

/-- The settings whose path the builder fails to normalize: neither scheme nor authority, and an
absolute path other than `/` that would become exactly `/` by the removal of dot segments. -/
def RootPathCase (b : Builder) : Prop :=
  b.scheme = none ∧ b.authority = none ∧ (∃ r, b.path = '/' :: r) ∧
    remove_dot_segments (undot b.path) = ['/'] ∧ b.path ≠ ['/']

theorem escape_one {t : Str} : escapePath false t = ['/'] ↔ t = ['/'] := by
  unfold escapePath
  split
  · rename_i h
    constructor
    · intro e; cases e
    · rintro rfl; simp at h
  · exact Iff.rfl

theorem pathn_one {S : Spec} {s : Str} (h : WF s) : pathn S .default false s = ['/'] ↔
    remove_dot_segments (undot s) = ['/'] := by
  unfold pathn
  rw [if_neg (by simp), escape_one]
  have hw : WF (remove_dot_segments (undot s)) := rds_PC rfl h
  have hT : TextOK .default (remove_dot_segments (undot s)) := fun _ => hw
  constructor
  · intro e
    obtain ⟨t, ht⟩ := pctn_head hw (S := S) e
    rw [ht] at e hT ⊢
    have := wr_append (S := S) (op := .default) (a := []) (b := t) hT
    rw [List.nil_append, wr_nil] at this
    rw [this, List.nil_append] at e
    have hr : TextOK .default t := hT.right (a := [])
    rw [(wr_empty (S := S) hr).1 (List.cons.inj e).2]
  · intro e
    rw [e]
    cases S <;> decide

theorem colon_pctn {S : Spec} {s : Str} (h : WF s) (hc : ¬ ColonInFirstSegment s) :
    ¬ ColonInFirstSegment (pctn S s) := by
  have hno : ∀ a : Str, WF a → ':' ∉ a → ':' ∉ pctn S a := by
    intro a ha hn hm
    rcases pctn_mem ha hm with h | h | h | h
    · exact hn h
    · exact absurd h (by decide)
    · exact absurd h (by decide)
    · cases S <;> revert h <;> decide
  by_cases hs : '/' ∈ s
  · obtain ⟨a, r, rfl, hna⟩ := exists_first hs
    have hT : TextOK .default (a ++ '/' :: r) := fun _ => h
    have e := wr_append (S := S) (op := .default) hT
    have e' : pctn S (a ++ '/' :: r) = pctn S a ++ '/' :: pctn S r := e
    rw [e']
    have hca : ':' ∉ a := by
      intro hm
      obtain ⟨x, y, rfl⟩ := List.append_of_mem hm
      exact hc ⟨x, y ++ '/' :: r, by simp, fun hx => hna (by simp [hx])⟩
    have h1 := hno a (hT.left rfl) hca
    rintro ⟨x, y, e2, hx⟩
    rcases List.append_eq_append_iff.1 e2 with ⟨z, e3, e4⟩ | ⟨z, e3, e4⟩
    · cases z with
      | nil => cases (List.cons.inj e4).1
      | cons c z => exact hx (by rw [e3]; have := (List.cons.inj e4).1; simp [← this])
    · cases z with
      | nil => cases (List.cons.inj e4).1
      | cons c z => exact h1 (by rw [e3]; have := (List.cons.inj e4).1; simp [← this])
  · have hn : ':' ∉ s := by
      intro hm
      obtain ⟨x, y, rfl⟩ := List.append_of_mem hm
      exact hc ⟨x, y, rfl, fun hx => hs (by simp [hx])⟩
    rintro ⟨x, y, e2, _⟩
    exact hno s h hn (by rw [e2]; simp)

theorem outPath_cases {S : Spec} {b : Builder} (hn : b.normalize = true) (hw : WF b.path)
    (hr : ¬ RootPathCase b) : outPath S b =
      if b.scheme = none ∧ b.authority = none ∧ b.path.take 1 ≠ ['/'] then pctn S b.path
      else pathn S .default b.authority.isSome b.path := by
  unfold outPath
  simp only [hn, Bool.true_eq_false, if_false]
  by_cases h : b.scheme = none ∧ b.authority = none
  · obtain ⟨h1, h2⟩ := h
    simp only [h1, h2, ne_eq, not_true_eq_false, false_or, true_and, Option.isSome_none]
    by_cases h3 : b.path.take 1 = ['/']
    · by_cases h4 : pathn S .default false b.path = ['/']
      · have h5 : b.path = ['/'] := by
          apply Classical.byContradiction
          intro h5
          exact hr ⟨h1, h2, take1_slash.1 h3, (pathn_one hw).1 h4, h5⟩
        rw [h5]
        cases S <;> decide
      · simp [h3, h4]
    · simp [h3]
  · rw [if_pos, if_neg]
    · intro h'; exact h ⟨h'.1, h'.2.1⟩
    · rcases Classical.em (b.scheme = none) with h1 | h1
      · exact .inr (.inl fun h2 => h ⟨h1, h2⟩)
      · exact .inl h1

/-- The components other than the path. -/
def noPath (b : Builder) : Parts := { parts b with path := [] }

theorem noPath_valid {S : Spec} {k : IriKind} {b : Builder} (h : Acceptable S k b) :
    (noPath b).Valid S where
  scheme := h.scheme
  authority := by
    intro x hx
    cases ha : b.authority with
    | none => simp [noPath, parts, ha] at hx
    | some a =>
      simp only [noPath, parts, ha, Option.map_some, Option.some.injEq] at hx
      exact (authority_auth_parts S x).2 ⟨_, (h.authority a ha).1, hx⟩
  path := path_iff.2 .nil
  query := h.query
  fragment := h.fragment
  withAuthority := fun _ => .inl rfl
  withoutAuthority := by intro _ r e; cases e
  withoutScheme := by
    rintro _ _ ⟨a, b, e, _⟩
    change [] = _ at e
    cases a <;> cases e

theorem outParts_scheme {S : Spec} {b : Builder} : (outParts S b).scheme = none ↔ b.scheme = none := by
  unfold outParts
  split
  · rfl
  · simp [normParts, NormalizationMode.case_pct, parts]

theorem outParts_fragment {S : Spec} {b : Builder} : (outParts S b).fragment = none ↔ b.fragment = none := by
  unfold outParts
  split
  · rfl
  · simp [normParts, parts]

theorem outParts_authority {S : Spec} {b : Builder} :
    (outParts S b).authority = none ↔ b.authority = none := by
  unfold outParts
  split
  · simp [parts]
  · simp [normParts, NormalizationMode.case_pct, parts]

theorem outParts_valid {S : Spec} {k : IriKind} {b : Builder} (hn : b.normalize = true)
    (h : Acceptable S k b) (hp : Rfc.path S b.path) (hr : ¬ RootPathCase b) :
    (outParts S b).Valid S := by
  have hpc : PC (pcharSlashC S) b.path := path_iff.1 hp
  have hw : WF b.path := hpc.wf
  have hT : TextOK .default b.path := fun _ => hw
  have e := outPath_cases (S := S) hn hw hr
  have eo : (outParts S b).path = outPath S b := by unfold outParts; simp [hn]
  have hA : AuthPath b.authority.isSome b.path := by
    intro hs
    exact h.withAuthority (by intro e'; rw [e'] at hs; cases hs)
  have vs : ∀ x, (outParts S b).scheme = some x → Rfc.scheme x := by
    intro x hx
    unfold outParts at hx
    simp only [hn, Bool.true_eq_false, if_false] at hx
    cases hs : b.scheme with
    | none => simp [normParts, parts, hs, NormalizationMode.case_pct] at hx
    | some y =>
      simp [normParts, parts, hs, NormalizationMode.case_pct] at hx
      rw [← hx]
      exact LC_scheme _ (h.scheme y hs)
  have va : ∀ x, (outParts S b).authority = some x → Rfc.authority S x := by
    intro x hx
    unfold outParts at hx
    simp only [hn, Bool.true_eq_false, if_false] at hx
    cases hs : b.authority with
    | none => simp [normParts, parts, hs, NormalizationMode.case_pct] at hx
    | some y =>
      simp [normParts, parts, hs, NormalizationMode.case_pct] at hx
      rw [← hx]
      exact authn_valid ((authority_auth_parts S _).2 ⟨_, (h.authority y hs).1, rfl⟩)
  have vq : ∀ x, (outParts S b).query = some x → Rfc.query S x := by
    intro x hx
    unfold outParts at hx
    simp only [hn, Bool.true_eq_false, if_false] at hx
    cases hs : b.query with
    | none => simp [normParts, parts, hs] at hx
    | some y =>
      simp [normParts, parts, hs] at hx
      rw [← hx]
      exact (query_iff S _).2 (wr_PC ((query_iff S _).1 (h.query y hs)) fun c => queryC_unreserved)
  have vf : ∀ x, (outParts S b).fragment = some x → Rfc.fragment S x := by
    intro x hx
    unfold outParts at hx
    simp only [hn, Bool.true_eq_false, if_false] at hx
    cases hs : b.fragment with
    | none => simp [normParts, parts, hs] at hx
    | some y =>
      simp [normParts, parts, hs] at hx
      rw [← hx]
      exact (fragment_iff S _).2 (wr_PC ((fragment_iff S _).1 (h.fragment y hs)) fun c => fragC_unreserved)
  refine ⟨vs, va, ?_, vq, vf, ?_, ?_, ?_⟩
  · rw [eo, e]
    apply path_iff.2
    split
    · exact pctn_PC hpc fun c => pcharSlashC_unreserved
    · exact pathn_PC (pcharSlashC_slash S) (pcharSlashC_dot S) (fun c => pcharSlashC_unreserved) hpc
  · intro ha
    have ha' : b.authority ≠ none := fun e' => ha (outParts_authority.2 e')
    rw [eo, e, if_neg (fun h' => ha' h'.2.1)]
    exact pathn_authPath hT hA (isSome_ne.2 ha')
  · intro ha r
    have ha' := outParts_authority.1 ha
    rw [eo, e]
    split
    · rename_i hc
      intro e'
      obtain ⟨t, ht⟩ := pctn_head hw e'
      exact hc.2.2 (by rw [ht]; rfl)
    · rw [ha']
      exact pathn_no_dslash hT r
  · intro hs ha
    have hs' := outParts_scheme.1 hs
    have ha' := outParts_authority.1 ha
    rw [eo, e]
    split
    · exact colon_pctn hw (h.withoutScheme hs' ha')
    · rename_i hc
      have : ∃ r, b.path = '/' :: r := by
        apply take1_slash.1
        apply Classical.byContradiction
        intro h1
        exact hc ⟨hs', ha', h1⟩
      obtain ⟨r, hr⟩ := this
      rw [hr] at hT ⊢
      obtain ⟨q, hq⟩ := pathn_slash (S := S) (auth := b.authority.isSome) hT
      rw [hq]
      exact colon_slash q

/-- The displayed components are the normal form of the components that were set. -/
theorem outParts_normal {S : Spec} {k : IriKind} {b : Builder} (hn : b.normalize = true)
    (h : Acceptable S k b) (hw : WF b.path) (hr : ¬ RootPathCase b) :
    Normal S b.scheme.isNone (parts b) (outParts S b) := by
  have e := outPath_cases (S := S) hn hw hr
  have eo : (outParts S b).path = outPath S b := by unfold outParts; simp [hn]
  have hN := normParts_spec (op := .default) (noPath_valid h) rfl
  have e1 : (outParts S b).scheme = (normParts S .default (noPath b)).scheme := by
    unfold outParts; simp [hn]; rfl
  have e2 : (outParts S b).authority = (normParts S .default (noPath b)).authority := by
    unfold outParts; simp [hn]; rfl
  have e3 : (outParts S b).query = (normParts S .default (noPath b)).query := by
    unfold outParts; simp [hn]; rfl
  have e4 : (outParts S b).fragment = (normParts S .default (noPath b)).fragment := by
    unfold outParts; simp [hn]; rfl
  have ep : (parts b).path = b.path := rfl
  have hAs : (parts b).authority.isSome = b.authority.isSome := by simp [parts]
  have hAn : (parts b).authority = none ↔ b.authority = none := by simp [parts]
  refine ⟨e1 ▸ hN.scheme, e2 ▸ hN.authority, ?_, ?_, e3 ▸ hN.query, e4 ▸ hN.fragment⟩
  · intro hno
    rw [eo, e, hAs, ep]
    have key : PathNorm S b.authority.isSome b.path (pathn S .default b.authority.isSome b.path) := by
      refine ⟨_, pctn_text (S := S) (rds_PC rfl hw), ?_⟩
      unfold pathn
      rw [if_neg (by simp)]
      rfl
    split
    · rename_i hc
      have hnil : b.path = [] := by
        apply Classical.byContradiction
        intro h1
        exact hno ⟨by simp [hc.1], hAn.2 hc.2.1, h1, fun r e' => hc.2.2 (by rw [← ep, e']; rfl)⟩
      rw [hnil, pathn_nil] at key
      rw [hnil, pctn_nil]
      exact key
    · exact key
  · intro hs ho
    rw [eo, e, if_pos, ep]
    · exact pctn_text hw
    · refine ⟨by simpa using hs, hAn.1 ho.1, ?_⟩
      intro h1
      obtain ⟨r, hr⟩ := take1_slash.1 h1
      exact ho.2.2 r hr

theorem outKind {S : Spec} {k : IriKind} {b : Builder} (h : Acceptable S k b) :
    PartsKind (outParts S b) k := by
  have := h.kind
  cases k with
  | reference => trivial
  | iri => exact fun e => this (outParts_scheme.1 e)
  | absolute => exact ⟨fun e => this.1 (outParts_scheme.1 e), outParts_fragment.2 this.2⟩
  | relative => exact outParts_scheme.2 this

/-- **C28, C30** (partial: the path must be generated by the grammar rule `path`, and
`RootPathCase` is excluded; both restrictions are needed, see `C28_path_refuted`,
`C30_root_refuted`, `C28_normalized_refuted`).  With normalization on, `build` does not panic,
succeeds exactly for the acceptable settings, and displays a string of the target type whose
components are the normal form of the ones that were set (for a reference without scheme, the form
that keeps the dot segments of a relative path). -/
theorem C30_build_normalized_partial (S : Spec) (k : IriKind) (b : Builder) (hn : b.normalize = true)
    (hp : Rfc.path S b.path) (hr : ¬ RootPathCase b) :
    (Acceptable S k b → ∃ B q, b.build S k = some (some B) ∧ B.display S = some (q : Parts).recompose ∧
      q.Valid S ∧ grammar S k q.recompose ∧ Normal S b.scheme.isNone (parts b) q) ∧
    (¬ Acceptable S k b → b.build S k = some none) := by
  obtain ⟨h1, h2⟩ := build_eq (S := S) (b := b) (fun _ => (path_iff.1 hp).wf) k
  refine ⟨fun h => ?_, h2⟩
  obtain ⟨B, h3, _, h5⟩ := h1 h
  have hv := outParts_valid hn h hp hr
  exact ⟨B, _, h3, h5, hv, grammar_of_parts hv (outKind h), outParts_normal hn h (path_iff.1 hp).wf hr⟩

theorem wf_of_noStray : ∀ {s : Str}, NoStrayPercent s → WF s
  | [], _ => .nil
  | c :: s, h => by
    have ht : NoStrayPercent s := fun a r e => h (c :: a) r (by rw [e]; rfl)
    by_cases hc : c = '%'
    · subst hc
      obtain ⟨x, y, t, e, hx, hy⟩ := h [] s rfl
      subst e
      have h1 := wf_of_noStray (s := t) fun a r e => ht (x :: y :: a) r (by rw [e]; rfl)
      exact .pct hx hy h1
    · exact .chr hc rfl (wf_of_noStray ht)

/-- **C28, C30**, for every path in which each `%` begins a triplet, whatever its characters (`build`
does not check them): with normalization on, `build` does not panic and succeeds exactly for the
acceptable settings, and formatting the result does not panic; the text displayed recomposes the
normal form of the components that were set (`RootPathCase`: see `C30_root_exact`). -/
theorem C28_normalized_any_path (S : Spec) (k : IriKind) (b : Builder) (hn : b.normalize = true)
    (hp : NoStrayPercent b.path) :
    (Acceptable S k b → ∃ B q, b.build S k = some (some B) ∧ B.display S = some (q : Parts).recompose ∧
      (¬ RootPathCase b → Normal S b.scheme.isNone (parts b) q)) ∧
    (¬ Acceptable S k b → b.build S k = some none) := by
  obtain ⟨h1, h2⟩ := build_eq (S := S) (b := b) (fun _ => wf_of_noStray hp) k
  refine ⟨fun h => ?_, h2⟩
  obtain ⟨B, h3, _, h5⟩ := h1 h
  exact ⟨B, _, h3, h5, outParts_normal hn h (wf_of_noStray hp)⟩

/-- An ungrammatical path that is normalized all the same. -/
example : NoStrayPercent (chars! "/a b/../?%41") ∧ ¬ Rfc.path .iri (chars! "/a b/../?%41") := by
  constructor
  · intro a r e
    have : ∀ (s : Str) (n : Nat), (∀ i, i < n → s[i]? ≠ some '%') → ∀ a r : Str, s = a ++ '%' :: r → n ≤ a.length := by
      intro s n h a r e
      apply Classical.byContradiction
      intro hl
      exact h a.length (by omega) (by rw [e]; simp)
    have hl := this _ 9 (by decide) a r e
    have : a.length = 9 := by
      have h2 : (chars! "/a b/../?%41")[a.length]? = some '%' := by rw [e]; simp
      have : ∀ i, i < 13 → 9 ≤ i → (chars! "/a b/../?%41")[i]? = some '%' → i = 9 := by decide
      refine this _ ?_ hl h2
      have := congrArg List.length e
      simp at this
      omega
    have e2 := congrArg (List.drop 10) e
    rw [show 10 = a.length + 1 by omega, List.drop_append] at e2
    simp [this, List.drop_eq_nil_of_le (show a.length ≤ 10 by omega)] at e2
    exact ⟨'4', '1', [], e2.symm, by decide, by decide⟩
  · intro h
    have := (C05_path .iri _).2 h
    revert this
    decide +kernel

/-- **C30.**  With a scheme, where the value built without normalization exists, the string built
with normalization is the normalization of the one built without. -/
theorem C30_equals_normalize (S : Spec) (k : IriKind) (b : Builder) (hn : b.normalize = false)
    (hs : b.scheme ≠ none) (hp : Rfc.path S b.path) (B : Built)
    (hB : b.build S k = some (some B)) :
    ∃ B' s, (b.set .normalize).build S k = some (some B') ∧ B.display S = some s ∧
      B'.display S = normalize S s ∧ (normalize S s).isSome := by
  obtain ⟨s, h1, _, rfl, hv⟩ := C28_output_valid_partial S k b hn hp B hB
  have ha : Acceptable S k b := by
    apply Classical.byContradiction
    intro h
    rw [(C28_build_raw S k b hn).2 h] at hB
    cases hB
  have ha' : Acceptable S k (b.set .normalize) :=
    ⟨by cases k <;> exact ha.kind, ha.scheme, ha.authority, ha.withAuthority,
      (by intro _ h; cases h), ha.withoutScheme, ha.query, ha.fragment⟩
  obtain ⟨B', h2, _, h3⟩ := (build_eq (S := S) (b := b.set .normalize)
    (fun _ => (path_iff.1 hp).wf) k).1 ha'
  refine ⟨B', _, h2, h1, ?_, ?_⟩
  · rw [h3, normalize_eq hv hs]
    congr 2
    unfold outParts outPath
    have e1 : (b.set .normalize).normalize = true := rfl
    have e2 : (b.set .normalize).scheme = b.scheme := rfl
    rw [e1, e2]
    simp only [Bool.true_eq_false, if_false]
    rw [if_pos (.inl hs)]
    simp [normParts, parts, Builder.set]
  · rw [normalize_eq hv hs]; rfl

/-- The exclusion of `RootPathCase` in C30 is needed: without scheme and authority, the dot segments
of `/.` are not removed although those of `/a/.` are. -/
theorem C30_root_refuted :
    (∃ B, Builder.build .iri .reference { path := chars! "/.", normalize := true } = some (some B) ∧
      B.display .iri = some (chars! "/.")) ∧
    (∃ B, Builder.build .iri .reference { path := chars! "/a/.", normalize := true } = some (some B) ∧
      B.display .iri = some (chars! "/a/")) ∧
    ¬ PathNorm .iri false (chars! "/.") (chars! "/.") := by
  refine ⟨⟨⟨{ path := chars! "/.", normalize := true }, false⟩, by decide +kernel, by decide +kernel⟩,
    ⟨⟨{ path := chars! "/a/.", normalize := true }, true⟩, by decide +kernel, by decide +kernel⟩, ?_⟩
  rintro ⟨t, ⟨ts, h1, rfl⟩, h2⟩
  have e : remove_dot_segments (undot (chars! "/.")) = ['/'] := by decide +kernel
  rw [e] at h1
  have e2 : pctn .iri ['/'] = ['/'] := by decide
  have e3 := pctn_eq (S := .iri) (s := ['/']) (by exact .chr (by decide) rfl .nil) h1
  rw [← e3, e2] at h2
  revert h2
  decide

theorem wf_slash {t : Str} (h : WF ('/' :: t)) : WF t := by
  have hT : TextOK .default ([] ++ '/' :: t) := fun _ => h
  exact hT.right rfl

theorem pctn_slash {S : Spec} {t : Str} (h : WF ('/' :: t)) : pctn S ('/' :: t) = '/' :: pctn S t := by
  have hT : TextOK .default ([] ++ '/' :: t) := fun _ => h
  have := wr_append (S := S) (op := .default) hT
  rw [wr_nil] at this
  exact this

/-- A valid reference that begins with `//` has an authority. -/
theorem dslash_authority {S : Spec} {p : Parts} (h : p.Valid S) {r : Str}
    (e : p.recompose = '/' :: '/' :: r) : p.authority ≠ none := by
  intro ha
  unfold Parts.recompose at e
  rw [ha] at e
  cases hs : p.scheme with
  | some x =>
    obtain ⟨a, b, rfl, ⟨c, h2, h1⟩, _⟩ := h.scheme x hs
    subst h2
    rw [hs] at e
    have := (List.cons.inj e).1
    rw [this] at h1
    revert h1; decide
  | none =>
    rw [hs] at e
    have e : p.path ++ (optSuf ['?'] p.query ++ optSuf ['#'] p.fragment) = '/' :: '/' :: r := e
    have tail : ∀ t, optSuf ['?'] p.query ++ optSuf ['#'] p.fragment ≠ '/' :: t := by
      intro t
      cases p.query <;> cases p.fragment <;> simp [optSuf]
    rcases hq : p.path with _ | ⟨c, _ | ⟨d, q⟩⟩
    · rw [hq] at e; exact tail _ e
    · rw [hq] at e; exact tail _ (List.cons.inj e).2
    · rw [hq] at e
      have e1 := (List.cons.inj e).1
      have e2 := (List.cons.inj (List.cons.inj e).2).1
      exact h.withoutAuthority ha q (by rw [hq, e1, e2])

/-- In the excluded case, exactly: neither the dot segments are removed nor a leading `//` escaped;
only the percent-encoding of the path is normalized, and the other components as they should be.
Then without a leading `//` the output is valid; with one it is never read back as what was set: it
is no reference at all, or one with an authority. -/
theorem C30_root_exact (S : Spec) (k : IriKind) (b : Builder) (hn : b.normalize = true)
    (hp : Rfc.path S b.path) (hr : RootPathCase b) :
    (Acceptable S k b → ∃ B q, b.build S k = some (some B) ∧ B.display S = some (q : Parts).recompose ∧
      q.scheme = none ∧ q.authority = none ∧ PctNormText S b.path q.path ∧
      OptRel (PctNormText S) b.query q.query ∧ OptRel (PctNormText S) b.fragment q.fragment ∧
      ((∀ r, b.path ≠ '/' :: '/' :: r) → q.Valid S ∧ grammar S k q.recompose) ∧
      ((∃ r, b.path = '/' :: '/' :: r) →
        ∀ p : Parts, p.Valid S → p.recompose = q.recompose → p.authority ≠ none)) ∧
    (¬ Acceptable S k b → b.build S k = some none) := by
  obtain ⟨h1, h2⟩ := build_eq (S := S) (b := b) (fun _ => (path_iff.1 hp).wf) k
  refine ⟨fun h => ?_, h2⟩
  obtain ⟨B, h3, _, h5⟩ := h1 h
  obtain ⟨r1, r2, ⟨r, r3⟩, r4, r5⟩ := hr
  have hpc : PC (pcharSlashC S) b.path := path_iff.1 hp
  have hw : WF b.path := hpc.wf
  have eo : outPath S b = pctn S b.path := by
    unfold outPath
    rw [if_neg (by simp [hn]), if_neg]
    rintro (e | e | ⟨_, e⟩)
    · exact e r1
    · exact e r2
    · exact e ((pathn_one hw).2 r4)
  have ep : (outParts S b).path = pctn S b.path := by rw [← eo]; unfold outParts; simp [hn]
  have hN := normParts_spec (op := .default) (noPath_valid h) rfl
  have e3 : (outParts S b).query = (normParts S .default (noPath b)).query := by
    unfold outParts; simp [hn]; rfl
  have e4 : (outParts S b).fragment = (normParts S .default (noPath b)).fragment := by
    unfold outParts; simp [hn]; rfl
  have es := outParts_scheme (S := S).2 r1
  have ea := outParts_authority (S := S).2 r2
  refine ⟨B, _, h3, h5, es, ea, ep ▸ pctn_text hw, e3 ▸ hN.query, e4 ▸ hN.fragment, ?_, ?_⟩
  · intro hno
    have hv : (outParts S b).Valid S := by
      have vq : ∀ x, (outParts S b).query = some x → Rfc.query S x := by
        intro x hx
        unfold outParts at hx
        simp only [hn, Bool.true_eq_false, if_false] at hx
        cases hs : b.query with
        | none => simp [normParts, parts, hs] at hx
        | some y =>
          simp [normParts, parts, hs] at hx
          rw [← hx]
          exact (query_iff S _).2 (wr_PC ((query_iff S _).1 (h.query y hs)) fun c => queryC_unreserved)
      have vf : ∀ x, (outParts S b).fragment = some x → Rfc.fragment S x := by
        intro x hx
        unfold outParts at hx
        simp only [hn, Bool.true_eq_false, if_false] at hx
        cases hs : b.fragment with
        | none => simp [normParts, parts, hs] at hx
        | some y =>
          simp [normParts, parts, hs] at hx
          rw [← hx]
          exact (fragment_iff S _).2 (wr_PC ((fragment_iff S _).1 (h.fragment y hs)) fun c => fragC_unreserved)
      refine ⟨?_, ?_, ?_, vq, vf, ?_, ?_, ?_⟩
      · intro x hx; rw [es] at hx; cases hx
      · intro x hx; rw [ea] at hx; cases hx
      · rw [ep]; exact path_iff.2 (pctn_PC hpc fun c => pcharSlashC_unreserved)
      · intro e; exact absurd ea e
      · intro _ t e
        rw [ep] at e
        obtain ⟨u, hu⟩ := pctn_head hw e
        rw [hu] at hw
        rw [hu, pctn_slash hw] at e
        obtain ⟨v, hv⟩ := pctn_head (wf_slash hw) (List.cons.inj e).2
        exact hno v (by rw [hu, hv])
      · intro _ _
        rw [ep]
        exact colon_pctn hw (h.withoutScheme r1 r2)
    exact ⟨hv, grammar_of_parts hv (outKind h)⟩
  · rintro ⟨t, ht⟩ p hpv hpe hpa
    rw [ht] at hw
    have e' : (outParts S b).recompose = '/' :: '/' :: (pctn S t ++
        (optSuf ['?'] (outParts S b).query ++ optSuf ['#'] (outParts S b).fragment)) := by
      unfold Parts.recompose
      rw [es, ea, ep, ht, pctn_slash hw, pctn_slash (wf_slash hw)]
      rfl
    exact dslash_authority hpv (hpe.trans e') hpa

/-- The case exists, without and with a leading `//`; a relative path is none. -/
example : RootPathCase { path := chars! "/.", normalize := true } ∧
    RootPathCase { path := chars! "//a/../..", normalize := true } ∧
    ¬ RootPathCase { path := chars! "a/..", normalize := true } := by
  refine ⟨⟨rfl, rfl, ⟨_, rfl⟩, by decide +kernel, by decide⟩,
    ⟨rfl, rfl, ⟨_, rfl⟩, by decide +kernel, by decide⟩, ?_⟩
  rintro ⟨_, _, ⟨r, h⟩, _⟩
  exact absurd (List.cons.inj h).1 (by decide)

/-- … and with a leading `//` the output has an authority that was never set, or is no reference at
all. -/
theorem C28_normalized_refuted :
    (∃ B s, Builder.build .iri .reference { path := chars! "//a/../..", normalize := true } = some (some B) ∧
      B.display .iri = some s ∧ (components_to_major s).map Major.authority = some (some (chars! "a"))) ∧
    (∃ B s, Builder.build .iri .reference { path := chars! "//:x/../..", normalize := true } = some (some B) ∧
      B.display .iri = some s ∧ ¬ IRI_reference .iri s) := by
  refine ⟨⟨⟨{ path := chars! "//a/../..", normalize := true }, false⟩, chars! "//a/../..",
    by decide +kernel, by decide +kernel, by decide +kernel⟩,
    ⟨⟨{ path := chars! "//:x/../..", normalize := true }, false⟩, chars! "//:x/../..",
    by decide +kernel, by decide +kernel, ?_⟩⟩
  intro h
  have := ((C02_iri_reference_validation .iri _).1).2 h
  revert this
  decide +kernel

example : exampleBuilder.scheme ≠ none := by decide

/-- An example without scheme. -/
def exampleRelative : Builder where
  authority := some {
    host := .string (chars! "EX%61")
    port := .string [] }
  path := chars! "/b/../%7e"
  normalize := true

example : Builder.build .iri .relative exampleRelative = some (some ⟨exampleRelative, true⟩) ∧
    Built.display .iri ⟨exampleRelative, true⟩ = some (chars! "//exa/~") := by
  decide +kernel

/-- **C28.**  How the formatter cuts the text into writes does not matter for the classification of
the path. -/
theorem C28_chunks (chunks : List Str) :
    PathCharacteristic.ofChunks chunks = PathCharacteristic.ofChunks [chunks.flatten] := by
  rw [ofChunks_eq, ofChunks_eq]
  simp

/-- **C30.**  `ensure_rfc3986_normalizable` of a built value fails exactly if there is no authority
and the pure RFC 3986 normalization of the path would begin with `//`. -/
theorem C30_ensure (b : Built) : ∃ r, b.ensure_rfc3986_normalizable = some r ∧
    (r = false ↔ b.builder.authority = none ∧
      ∃ t, remove_dot_segments (undot b.builder.path) = '/' :: '/' :: t) := by
  unfold Built.ensure_rfc3986_normalizable
  cases h : b.builder.authority with
  | none =>
    obtain ⟨h1, h2⟩ := from_single_path_inv b.builder.path
    obtain ⟨r, h3, h4⟩ := ensure_path _ h1
    rw [h2] at h4
    exact ⟨r, h3, by simpa using h4⟩
  | some a => exact ⟨true, rfl, by simp⟩

/-! ## C29: round trip -/

theorem from_str_eq {S : Spec} {a : AuthParts} (h : a.Valid S) :
    ∃ A, AuthorityBuilder.from_str a.recompose = some A ∧ authParts A = a ∧ UserOk A.userinfo := by
  unfold AuthorityBuilder.from_str
  simp only [decompose_authority_eq h, offsets_host, offsets_port, offsets_userinfo]
  refine ⟨_, rfl, ?_, ?_⟩
  · obtain ⟨u, hst, p⟩ := a
    unfold authParts
    cases u <;> cases p <;> rfl
  · obtain ⟨u, hst, p⟩ := a
    cases u <;> trivial

theorem builder_from_iri {S : Spec} {p : Parts} (h : p.Valid S) :
    ∃ b, Builder.from_iri p.recompose = some b ∧ parts b = p ∧ b.normalize = false ∧
      ∀ k, PartsKind p k → Acceptable S k b := by
  unfold Builder.from_iri
  rw [to_major_eq h.delim]
  simp only [Parts.toMajor, Option.bind_eq_bind, Option.bind_some]
  have hk : ∀ (b : Builder), b.scheme = p.scheme → b.fragment = p.fragment →
      ∀ k, PartsKind p k → KindOk b k := by
    intro b h1 h2 k hk
    cases k with
    | reference => trivial
    | iri => exact fun e => hk (h1.symm.trans e)
    | absolute => exact ⟨fun e => hk.1 (h1.symm.trans e), h2.trans hk.2⟩
    | relative => exact h1.trans hk
  cases ha : p.authority with
  | none =>
    refine ⟨_, rfl, ?_, rfl, ?_⟩
    · cases p; simp only at ha; subst ha; rfl
    · intro k hkk
      refine ⟨hk _ rfl rfl k hkk, h.scheme, ?_,
        fun e => absurd rfl e, fun _ _ => h.withoutAuthority ha, fun hs _ => h.withoutScheme hs ha,
        h.query, h.fragment⟩
      intro a e
      cases e
  | some x =>
    obtain ⟨a, hv, rfl⟩ := (authority_auth_parts S x).1 (h.authority x ha)
    obtain ⟨A, h1, h2, h3⟩ := from_str_eq hv
    simp only [h1, Option.map_some, Option.bind_some]
    refine ⟨_, rfl, ?_, rfl, ?_⟩
    · cases p
      simp only at ha
      subst ha
      simp [parts, h2]
    · intro k hkk
      refine ⟨hk _ rfl rfl k hkk, h.scheme, ?_, fun _ => h.withAuthority (by simp [ha]), ?_, ?_,
        h.query, h.fragment⟩
      · intro a' e
        cases e
        rw [h2]
        exact ⟨hv, h3⟩
      · intro e; cases e
      · intro _ e; cases e

theorem round_trip {S : Spec} {k : IriKind} {p : Parts} (h : p.Valid S) (hk : PartsKind p k) :
    ∃ b B, Builder.from_iri p.recompose = some b ∧ parts b = p ∧ b.build S k = some (some B) ∧
      B.display S = some p.recompose := by
  obtain ⟨b, h1, h2, h3, h4⟩ := builder_from_iri h
  obtain ⟨B, h5, h6⟩ := (C28_build_raw S k b h3).1 (h4 k hk)
  exact ⟨b, B, h1, h2, h5, by rw [h6, h2]⟩

/-- **C29.**  For the reference, IRI and relative-reference types: every value accepted by the type's
validator turns into a builder (without panic) that builds a value of the same type displaying
the same string. -/
theorem C29_round_trip (S : Spec) (k : IriKind) (hk : k ≠ .absolute) (s : Str)
    (h : k.validate S s = some true) :
    ∃ b B, Builder.from_iri s = some b ∧ b.build S k = some (some B) ∧ B.display S = some s := by
  obtain ⟨p, hp, hf, rfl⟩ := (kind_validate_iff S k s).1 h
  have : PartsKind p k := by
    cases k with
    | absolute => exact absurd rfl hk
    | _ => exact hf
  obtain ⟨b, B, h1, _, h2, h3⟩ := round_trip hp this
  exact ⟨b, B, h1, h2, h3⟩

/-- **C29** (partial: for the absolute type, the strings generated by the RFC rule; the validator
accepts also strings with an empty fragment, for which the claim fails, see
`C29_absolute_refuted`). -/
theorem C29_absolute_partial (S : Spec) (s : Str) (h : absolute_IRI S s) :
    ∃ b B, Builder.from_iri s = some b ∧ b.build S .absolute = some (some B) ∧
      B.display S = some s := by
  obtain ⟨p, hp, h1, h2, rfl⟩ := (absolute_parts S s).1 h
  obtain ⟨b, B, h3, _, h4, h5⟩ := round_trip (k := .absolute) hp ⟨h1, h2⟩
  exact ⟨b, B, h3, h4, h5⟩

/-- The full claim fails for `a:#`: a value of the absolute type that its builder refuses to build. -/
theorem C29_absolute_refuted : IriKind.absolute.validate .iri (chars! "a:#") = some true ∧
    ∃ b, Builder.from_iri (chars! "a:#") = some b ∧ b.build .iri .absolute = some none :=
  ⟨by decide +kernel, { scheme := some (chars! "a"), fragment := some [] }, by decide +kernel,
    by decide +kernel⟩

/-- On exactly the other strings that the absolute type accepts, those ending in `#`, the builder of
the absolute type returns an error (and the builder of the IRI type reproduces the string). -/
theorem C29_absolute_exact (S : Spec) (s : Str) (h : IriKind.absolute.validate S s = some true)
    (hs : ¬ absolute_IRI S s) :
    ∃ b B, Builder.from_iri s = some b ∧ b.build S .absolute = some none ∧
      b.build S .iri = some (some B) ∧ B.display S = some s := by
  obtain ⟨p, hp, ⟨hf1, hf2⟩, rfl⟩ := (kind_validate_iff S .absolute s).1 h
  have hf : p.fragment ≠ none := fun e => hs ((absolute_parts S _).2 ⟨p, hp, hf1, e, rfl⟩)
  obtain ⟨b, h1, h2, h3, h4⟩ := builder_from_iri hp
  obtain ⟨B, h5, h6⟩ := (C28_build_raw S .iri b h3).1 (h4 .iri hf1)
  refine ⟨b, B, h1, (C28_build_raw S .absolute b h3).2 ?_, h5, by rw [h6, h2]⟩
  intro h
  exact hf (by rw [← h2]; exact h.kind.2)

/-- **C29, C30.**  Switching normalization on before rebuilding an IRI gives its normalization. -/
theorem C29_rebuild_normalized (S : Spec) (s : Str) (h : IriKind.iri.validate S s = some true) :
    ∃ b B, Builder.from_iri s = some b ∧ (b.set .normalize).build S .iri = some (some B) ∧
      B.display S = normalize S s ∧ (normalize S s).isSome := by
  obtain ⟨p, hp, hf, rfl⟩ := (kind_validate_iff S .iri s).1 h
  obtain ⟨b, h1, h2, h3, h4⟩ := builder_from_iri hp
  obtain ⟨B, h5, h6⟩ := (C28_build_raw S .iri b h3).1 (h4 .iri hf)
  have hs : b.scheme ≠ none := by
    intro e; exact hf (by rw [← h2]; exact e)
  have hpp : Rfc.path S b.path := by
    have : b.path = p.path := by rw [← h2]; rfl
    rw [this]; exact hp.path
  obtain ⟨B', s', h7, h8, h9, h10⟩ := C30_equals_normalize S .iri b h3 hs hpp B h5
  rw [h6, h2] at h8
  cases h8
  exact ⟨b, B', h1, h7, h9, h10⟩

example : IriKind.relative.validate .iri (chars! "//u@[::1]:/a?#") = some true := by decide +kernel
example : IriKind.iri.validate .iri (chars! "HTTP://u@[::1]:/a/../%7e") = some true := by decide +kernel

end Verif
