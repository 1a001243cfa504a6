import Verif.Model.AccessWork
import Verif.Props.ValidateWork
import Verif.Lemmas.Split

/-!
# C87: reading a component looks at each byte a bounded number of times
-/

namespace Verif

namespace Work

@[simp] theorem find_split2_fst (s : Str) (a b : Char) : (find_split2 s a b).1 = Verif.find_split2 s a b :=
  findSplitP_fst _ _
@[simp] theorem find_split3_fst (s : Str) (a b c : Char) : (find_split3 s a b c).1 = Verif.find_split3 s a b c :=
  findSplitP_fst _ _
@[simp] theorem find_split4_hole_fst (s : Str) (a b c d : Char) :
    (find_split4_hole s a b c d).1 = Verif.find_split4_hole s a b c d := findSplitHoleP_fst _ _
@[simp] theorem rfind_split2_fst (s : Str) (a b : Char) : (rfind_split2 s a b).1 = Verif.rfind_split2 s a b := by
  simp [rfind_split2, Verif.rfind_split2]

@[simp] theorem scheme_colon_fst (i : Str) : (scheme_colon i).1 = Verif.scheme_colon i := by
  simp [scheme_colon, Verif.scheme_colon]

@[simp] theorem scheme_colon_opt_fst (i : Str) : (scheme_colon_opt i).1 = Verif.scheme_colon_opt i := by
  unfold scheme_colon_opt Verif.scheme_colon_opt
  simp only [bind_fst, find_split4_hole_fst]
  rcases Verif.find_split4_hole i ':' '/' '?' '#' with _ | ⟨a, c, b⟩ <;> rfl

@[simp] theorem slash_slash_authority_opt_fst (i : Str) :
    (slash_slash_authority_opt i).1 = Verif.slash_slash_authority_opt i := by
  unfold slash_slash_authority_opt Verif.slash_slash_authority_opt
  simp only [bind_fst, strip_prefix_fst]
  rcases Verif.strip_prefix i ['/', '/'] with _ | s
  · rfl
  · simp only [bind_fst, find_split3_fst]
    rcases Verif.find_split3 s '/' '?' '#' with _ | ⟨a, b⟩ <;> rfl

@[simp] theorem until_query_fst (i : Str) : (until_query i).1 = Verif.until_query i := by
  unfold until_query Verif.until_query
  simp only [bind_fst, find_split2_fst]
  rcases Verif.find_split2 i '?' '#' with _ | ⟨a, b⟩ <;> rfl

@[simp] theorem decompose_query_and_fragment_fst (i : Str) :
    (decompose_query_and_fragment i).1 = Verif.decompose_query_and_fragment i := by
  unfold decompose_query_and_fragment Verif.decompose_query_and_fragment
  rcases i with _ | ⟨c, r⟩
  · rfl
  · simp only [bind_fst]
    rcases sliceFrom (c :: r) 1 with _ | rest
    · rfl
    · simp only [bind_fst, ret_fst, Option.map_some, queryAndFragment]
      by_cases h : (c == '?') = true
      · simp only [h, if_true, bind_fst, find_split_hole_fst]
        rcases Verif.find_split_hole rest '#' with _ | ⟨a, b⟩ <;> rfl
      · simp only [h, Bool.false_eq_true, if_false, ret_fst]

@[simp] theorem decompose_iri_reference_fst (s : Str) :
    (decompose_iri_reference s).1 = Verif.decompose_iri_reference s := by
  unfold decompose_iri_reference Verif.decompose_iri_reference
  simp only [bind_fst, ret_fst, scheme_colon_opt_fst, slash_slash_authority_opt_fst, until_query_fst,
    decompose_query_and_fragment_fst]
  congr 1

@[simp] theorem components_to_major_fst (s : Str) : (components_to_major s).1 = Verif.components_to_major s := by
  simp [components_to_major, Verif.components_to_major]

@[simp] theorem split_fragment_fst (s : Str) : (split_fragment s).1 = Verif.split_fragment s := by
  unfold split_fragment Verif.split_fragment
  simp only [bind_fst, find_split_hole_fst]
  rcases Verif.find_split_hole s '#' with _ | ⟨a, b⟩ <;> rfl

@[simp] theorem decompose_authority_fst (a : Str) : (decompose_authority a).1 = Verif.decompose_authority a := by
  unfold decompose_authority Verif.decompose_authority splitUserinfo colonPortLen
  simp only [bind_fst, ret_fst, find_split_hole_fst]
  rcases Verif.find_split_hole a '@' with _ | ⟨u, r⟩
  · simp only [ret_fst, rfind_split2_fst]
    rcases Verif.rfind_split2 a ':' ']' with _ | ⟨x, y⟩
    · rfl
    · simp only [bind_fst, ret_fst, starts_with_fst]
  · simp only [ret_fst, rfind_split2_fst]
    rcases Verif.rfind_split2 r ':' ']' with _ | ⟨x, y⟩
    · rfl
    · simp only [bind_fst, ret_fst, starts_with_fst]

@[simp] theorem extract_authority_fst (i : Str) : (extract_authority i).1 = Verif.extract_authority i := by
  simp [extract_authority, Verif.extract_authority]

@[simp] theorem authorityFromIri_fst (i : Str) : (authorityFromIri i).1 = AuthorityComponents.from_iri i := by
  unfold authorityFromIri AuthorityComponents.from_iri
  simp only [bind_fst, extract_authority_fst]
  rcases Verif.extract_authority i with _ | a
  · rfl
  · simp

/-! ### Bounds -/

theorem find_split4_hole_snd (s : Str) (w x y z : Char) :
    (∀ a c b, Verif.find_split4_hole s w x y z = some (a, c, b) →
      (find_split4_hole s w x y z).2 + blen b = blen s ∧ blen a + 1 + blen b ≤ blen s) ∧
    (find_split4_hole s w x y z).2 ≤ blen s := by
  obtain ⟨h1, h2⟩ := findSplitHoleP_snd (fun c => c == w || c == x || c == y || c == z) s
  refine ⟨fun a c b h => ?_, h2⟩
  have := h1 a c b h
  have := Char.utf8Size_pos c
  unfold find_split4_hole
  omega

theorem findSplitP_snd1 (p : Char → Bool) (hp : ∀ c, p c = true → c.utf8Size = 1) (s : Str) :
    (∀ a b, Verif.findSplitP p s = some (a, b) → (findSplitP p s).2 + blen b = blen s + 1 ∧
      blen a + blen b = blen s) ∧ (Verif.findSplitP p s = none → (findSplitP p s).2 = blen s) := by
  induction s with
  | nil => simp [findSplitP, Verif.findSplitP]
  | cons c r ih =>
    unfold findSplitP Verif.findSplitP
    by_cases h : p c = true
    · have := hp c h
      simp only [h, if_true, blen_cons, Option.some.injEq, Prod.mk.injEq]
      refine ⟨?_, by simp⟩
      rintro a b ⟨rfl, rfl⟩
      simp only [blen_cons, blen_nil]
      omega
    · simp only [h, Bool.false_eq_true, if_false, blen_cons]
      refine ⟨?_, ?_⟩
      · intro a b e
        rw [Option.map_eq_some_iff] at e
        obtain ⟨⟨a', b'⟩, e, h2⟩ := e
        cases h2
        have := ih.1 _ _ e
        simp only [blen_cons]
        omega
      · intro e
        rw [Option.map_eq_none_iff] at e
        have := ih.2 e
        omega

theorem delim_size {c : Char} (h : c = '/' ∨ c = '?' ∨ c = '#') : c.utf8Size = 1 := by
  rcases h with rfl | rfl | rfl <;> decide

theorem scheme_colon_opt_snd (i : Str) : (scheme_colon_opt i).2 ≤ blen i ∧
    (scheme_colon_opt i).2 + blen (Verif.scheme_colon_opt i).1 ≤ 2 * blen i ∧
    (∀ s, (Verif.scheme_colon_opt i).2 = some s → (scheme_colon_opt i).2 = blen s + 1) ∧
    blen (Verif.scheme_colon_opt i).1 ≤ blen i := by
  have hf := find_split4_hole_snd i ':' '/' '?' '#'
  have hs := findSplitHoleP_snd (fun c => c == ':' || c == '/' || c == '?' || c == '#') i
  unfold scheme_colon_opt Verif.scheme_colon_opt
  simp only [bind_snd, find_split4_hole_fst]
  rcases h : Verif.find_split4_hole i ':' '/' '?' '#' with _ | ⟨a, c, b⟩
  · simp only [ret_snd]
    refine ⟨by omega, by omega, by simp, by omega⟩
  · have h1 := hf.1 _ _ _ h
    have h2 := hs.1 _ _ _ h
    simp only [ret_snd]
    refine ⟨by omega, ?_, ?_, ?_⟩
    · split <;> simp only <;> omega
    rotate_left
    · split <;> simp only <;> omega
    · intro s e
      by_cases hc : (c == ':') = true
      · simp only [hc, if_true, Option.some.injEq] at e
        subst e
        have hc' : c = ':' := by simpa using hc
        subst hc'
        have h3 : ':'.utf8Size = 1 := by decide
        omega
      · simp [hc] at e

theorem slash_slash_authority_opt_snd (i : Str) : (slash_slash_authority_opt i).2 ≤ blen i ∧
    (slash_slash_authority_opt i).2 + blen (Verif.slash_slash_authority_opt i).1 ≤ blen i + 2 ∧
    (∀ a, (Verif.slash_slash_authority_opt i).2 = some a → blen a + 2 ≤ blen i) := by
  have hs : (strip_prefix i ['/', '/']).2 = min 2 (blen i) := by unfold strip_prefix; rw [blen_dslash2]
  unfold slash_slash_authority_opt Verif.slash_slash_authority_opt
  simp only [bind_snd, strip_prefix_fst]
  rcases h : Verif.strip_prefix i ['/', '/'] with _ | s
  · simp only [ret_snd]
    refine ⟨by omega, by omega, by simp⟩
  · have hl := dslash_len h
    have hf := findSplitP_snd1 (fun c => c == '/' || c == '?' || c == '#')
      (fun c hc => delim_size (by simpa [or_assoc] using hc)) s
    have hg := (findSplitP_snd (fun c => c == '/' || c == '?' || c == '#') s).2
    simp only [bind_snd, find_split3_fst]
    unfold find_split3 Verif.find_split3
    rcases h2 : Verif.findSplitP (fun c => c == '/' || c == '?' || c == '#') s with _ | ⟨a, b⟩
    · simp only [ret_snd, blen_nil, Option.some.injEq]
      refine ⟨by omega, by omega, ?_⟩
      rintro a rfl
      omega
    · have h3 := hf.1 _ _ h2
      simp only [ret_snd, Option.some.injEq]
      refine ⟨by omega, by omega, ?_⟩
      rintro a rfl
      omega

theorem until_query_snd (i : Str) : (until_query i).2 ≤ blen i ∧
    (until_query i).2 + blen (Verif.until_query i).1 ≤ blen i + 1 := by
  have hf := findSplitP_snd1 (fun c => c == '?' || c == '#')
    (fun c hc => delim_size (.inr (by simpa using hc))) i
  have hg := (findSplitP_snd (fun c => c == '?' || c == '#') i).2
  unfold until_query Verif.until_query
  simp only [bind_snd, find_split2_fst]
  unfold find_split2 Verif.find_split2
  rcases h : Verif.findSplitP (fun c => c == '?' || c == '#') i with _ | ⟨a, b⟩
  · simp only [ret_snd, blen_nil]
    omega
  · have := hf.1 _ _ h
    simp only [ret_snd]
    omega

theorem slice1_len {c : Char} {r s : Str} (h : sliceFrom (c :: r) 1 = some s) : blen s + 1 = blen (c :: r) := by
  unfold sliceFrom at h
  cases hs : splitAtB (c :: r) 1 with
  | none => rw [hs] at h; cases h
  | some x =>
    rw [hs] at h
    obtain ⟨a, b⟩ := x
    cases h
    obtain ⟨e, ha⟩ := splitAtB_some.1 hs
    rw [e, blen_append]
    show blen b + 1 = blen a + blen b
    omega

theorem decompose_query_and_fragment_snd (i : Str) : (decompose_query_and_fragment i).2 ≤ blen i := by
  unfold decompose_query_and_fragment
  rcases i with _ | ⟨c, r⟩
  · simp
  · have hc := Char.utf8Size_pos c
    simp only [bind_snd]
    rcases h : sliceFrom (c :: r) 1 with _ | s
    · simp only [ret_snd, blen_cons]
      omega
    · have hl := slice1_len h
      have hf := (find_split_hole_snd s '#').2
      have : (queryAndFragment c s).2 ≤ blen s := by
        unfold queryAndFragment
        split
        · simp only [bind_snd, find_split_hole_fst]
          rcases Verif.find_split_hole s '#' with _ | ⟨a, b⟩ <;> simp only [ret_snd] <;> omega
        · simp
      simp only [bind_snd, ret_snd]
      omega

theorem decompose_iri_reference_snd (s : Str) : (decompose_iri_reference s).2 ≤ 2 * blen s + 3 := by
  unfold decompose_iri_reference
  simp only [bind_snd, ret_snd, scheme_colon_opt_fst, slash_slash_authority_opt_fst, until_query_fst]
  have h1 := scheme_colon_opt_snd s
  have h2 := slash_slash_authority_opt_snd (Verif.scheme_colon_opt s).1
  have h3 := until_query_snd (Verif.slash_slash_authority_opt (Verif.scheme_colon_opt s).1).1
  have h4 := decompose_query_and_fragment_snd
    (Verif.until_query (Verif.slash_slash_authority_opt (Verif.scheme_colon_opt s).1).1).1
  omega

theorem decompose_authority_snd (a : Str) : (decompose_authority a).2 ≤ 2 * blen a + 1 := by
  unfold decompose_authority
  have hf := find_split_hole_snd a '@'
  have h1 : (splitUserinfo a).2 ≤ blen a ∧ (splitUserinfo a).2 + blen (splitUserinfo a).1.1 ≤ 2 * blen a := by
    unfold splitUserinfo
    simp only [bind_snd, bind_fst, find_split_hole_fst]
    rcases h : Verif.find_split_hole a '@' with _ | ⟨u, r⟩
    · simp only [ret_snd, ret_fst]; omega
    · have := hf.1 _ _ h
      simp only [ret_snd, ret_fst]; omega
  have h2 : ∀ i, (colonPortLen i).2 ≤ blen i + 1 := by
    intro i
    unfold colonPortLen
    have hr : (rfind_split2 i ':' ']').2 ≤ blen i := by
      unfold rfind_split2
      simp only [bind_snd, ret_snd, Nat.add_zero]
      exact rfindSplitHoleP_snd _ _
    simp only [bind_snd, rfind_split2_fst]
    rcases Verif.rfind_split2 i ':' ']' with _ | ⟨x, y⟩
    · simp only [ret_snd]; omega
    · have : (starts_with y [':']).2 ≤ 1 := by
        unfold starts_with
        have h3 : blen [':'] = 1 := by decide
        simp only [h3]
        omega
      simp only [bind_snd, ret_snd]
      omega
  have := h2 (splitUserinfo a).1.1
  simp only [bind_snd, ret_snd]
  omega

end Work

/-- **C87 (the counter changes nothing).** -/
theorem C87_same (i : Str) :
    (Work.extract_scheme i).1 = extract_scheme i ∧ (Work.extract_scheme_absolute i).1 = extract_scheme_absolute i ∧
    (Work.extract_authority i).1 = extract_authority i ∧ (Work.extract_path i).1 = extract_path i ∧
    (Work.extract_query i).1 = extract_query i ∧ (Work.extract_fragment i).1 = extract_fragment i ∧
    (Work.components_to_major i).1 = components_to_major i ∧
    (Work.authorityFromIri i).1 = AuthorityComponents.from_iri i := by
  refine ⟨?_, ?_, ?_, ?_, ?_, ?_, ?_, ?_⟩
  · simp [Work.extract_scheme, extract_scheme]
  · simp [Work.extract_scheme_absolute, extract_scheme_absolute]
  · simp
  · simp [Work.extract_path, extract_path]
  · simp [Work.extract_query, extract_query]
  · simp [Work.extract_fragment, extract_fragment]
  · simp
  · simp

/-- **C87 (linear).**  Whatever the text, valid or not, of `n` bytes: reading one component, or all of them, looks at
no more than `2 n + 3` bytes; finding and splitting the authority, at no more than `4 n + 1`. -/
theorem C87_linear (i : Str) :
    (Work.extract_scheme i).2 ≤ blen i ∧ (Work.extract_scheme_absolute i).2 ≤ blen i ∧
    (Work.extract_authority i).2 ≤ 2 * blen i ∧ (Work.extract_path i).2 ≤ 2 * blen i + 2 ∧
    (Work.extract_query i).2 ≤ blen i + 1 ∧ (Work.extract_fragment i).2 ≤ blen i ∧
    (Work.components_to_major i).2 ≤ 2 * blen i + 3 ∧ (Work.authorityFromIri i).2 ≤ 4 * blen i + 1 := by
  have h1 := Work.scheme_colon_opt_snd i
  have h2 := Work.slash_slash_authority_opt_snd (scheme_colon_opt i).1
  have h3 := Work.until_query_snd (slash_slash_authority_opt (scheme_colon_opt i).1).1
  have h4 := Work.until_query_snd i
  have h5 := Work.decompose_query_and_fragment_snd (until_query i).1
  have h6 := Work.decompose_iri_reference_snd i
  have h7 := Work.find_split_hole_snd i ':'
  have h8 := Work.find_split_hole_snd i '#'
  refine ⟨?_, ?_, ?_, ?_, ?_, ?_, ?_, ?_⟩
  · unfold Work.extract_scheme; simp; omega
  · unfold Work.extract_scheme_absolute Work.scheme_colon; simp; omega
  · unfold Work.extract_authority; simp; omega
  · unfold Work.extract_path; simp; omega
  · unfold Work.extract_query; simp; omega
  · unfold Work.extract_fragment Work.split_fragment
    simp only [Work.bind_snd, Work.find_split_hole_fst, Work.ret_snd]
    rcases find_split_hole i '#' with _ | ⟨a, b⟩ <;> simp only [Work.ret_snd] <;> omega
  · unfold Work.components_to_major; simp; omega
  · unfold Work.authorityFromIri
    simp only [Work.bind_snd, Work.extract_authority_fst]
    have h9 : (Work.extract_authority i).2 ≤ 2 * blen i := by unfold Work.extract_authority; simp; omega
    rcases h : extract_authority i with _ | a
    · simp only [Work.ret_snd]; omega
    · have h10 := Work.decompose_authority_snd a
      have h11 := h2.2.2 a h
      simp only [Work.bind_snd, Work.ret_snd]
      omega

/-- **C87 (a scheme is found without reading on).**  Reading the scheme looks at the scheme and the colon. -/
theorem C87_scheme (i s : Str) (h : extract_scheme i = some s) : (Work.extract_scheme i).2 = blen s + 1 := by
  have := (Work.scheme_colon_opt_snd i).2.2.1 s h
  unfold Work.extract_scheme
  simp only [Work.bind_snd, Work.ret_snd, Nat.add_zero]
  exact this

/-- 54 bytes: reading all components looks at 52 bytes in all, the authority's parts at 48, the scheme at 5. -/
example : (Work.components_to_major (chars! "http://user:pw@[2001:db8::1]:8080/a/b%20c?q=1&r=2#frag")).2 = 52 ∧
    (Work.authorityFromIri (chars! "http://user:pw@[2001:db8::1]:8080/a/b%20c?q=1&r=2#frag")).2 = 48 ∧
    (Work.extract_scheme (chars! "http://user:pw@[2001:db8::1]:8080/a/b%20c?q=1&r=2#frag")) = (some (chars! "http"), 5) ∧
    blen (chars! "http://user:pw@[2001:db8::1]:8080/a/b%20c?q=1&r=2#frag") = 54 := by
  decide +kernel

end Verif
