import Verif.Model.EditWork
import Verif.Props.AccessWork
import Verif.Spec.Lit

/-!
# C94: editing looks at and moves each byte a bounded number of times
-/

namespace Verif

namespace Work

theorem obind_fst {α β : Type} (x : T (Option α)) (f : α → T (Option β)) :
    (obind x f).1 = x.1.bind fun a => (f a).1 := by
  unfold obind
  rw [bind_fst]
  rcases x.1 with _ | a <;> rfl

theorem obind_none {α β : Type} {x : T (Option α)} {f : α → T (Option β)} (h : x.1 = none) :
    (obind x f).2 = x.2 := by
  unfold obind
  rw [bind_snd, h]
  simp

theorem obind_some {α β : Type} {x : T (Option α)} {f : α → T (Option β)} {a : α} (h : x.1 = some a) :
    (obind x f).2 = x.2 + (f a).2 := by
  unfold obind
  rw [bind_snd, h]

/-! ### The counter changes nothing -/

@[simp] theorem findStr_fst (s pat : Str) : (findStr s pat).1 = Verif.findStr s pat := by
  induction s with
  | nil =>
    unfold findStr Verif.findStr
    simp only [bind_fst, starts_with_fst]
    split <;> rfl
  | cons c r ih =>
    unfold findStr Verif.findStr
    simp only [bind_fst, starts_with_fst]
    split
    · rfl
    · simp [ih]

@[simp] theorem findChar_fst (d : Char) (s : Str) : (findChar d s).1 = Verif.findChar s d := by
  induction s with
  | nil => rfl
  | cons c r ih =>
    unfold findChar Verif.findChar
    split
    · rfl
    · simp [ih]

@[simp] theorem replaceRange_fst (s : Str) (i j : Nat) (new : Str) :
    (replaceRange s i j new).1 = Verif.replaceRange s i j new := by
  unfold replaceRange Verif.replaceRange
  split
  · rw [obind_fst, ret_fst]
    rcases sliceTo s i with _ | a
    · rfl
    · simp only [Option.bind_some, obind_fst, ret_fst, Option.bind_eq_bind]
  · rfl

@[simp] theorem password_range_fst (s : Str) : (password_range_to_hide s).1 = Verif.password_range_to_hide s := by
  unfold password_range_to_hide Verif.password_range_to_hide
  rw [bind_fst, authorityFromIri_fst]
  rcases AuthorityComponents.from_iri s with _ | a
  · rfl
  · simp only [obind_fst, ret_fst, Option.bind_eq_bind]
    rcases a.userinfo with _ | u
    · rfl
    · simp only [Option.bind_some]
      rcases u with _ | u
      · rfl
      · simp only [obind_fst, findStr_fst]
        rcases Verif.findStr s ['/', '/'] with _ | i
        · rfl
        · simp only [Option.bind_some, bind_fst, findChar_fst, ret_fst]
          rcases Verif.findChar u ':' with _ | c <;> rfl

@[simp] theorem write_masked_fst (s : Str) (i j : Nat) (alt : Str) :
    (write_with_masked_password s i j alt).1 = Verif.write_with_masked_password s i j alt := by
  unfold write_with_masked_password Verif.write_with_masked_password
  rw [obind_fst, ret_fst]
  rcases sliceTo s i with _ | a
  · rfl
  · simp only [Option.bind_some, obind_fst, ret_fst, Option.bind_eq_bind]

@[simp] theorem validateKind_fst (S : Spec) (k : IriKind) (s : Str) : (validateKind S k s).1 = k.validate S s := by
  obtain ⟨h1, h2, h3, h4⟩ := C85_same S s
  cases k <;> assumption

@[simp] theorem assertValid_fst (debug : Bool) (S : Spec) (k : IriKind) (s : Str) :
    (assertValid debug S k s).1 = !(debug && k.validate S s != some true) := by
  cases debug
  · rfl
  · simp [assertValid, bne]

@[simp] theorem is_decimal_fst (s : Str) : (is_decimal_repr_of_octet s).1 = Verif.is_decimal_repr_of_octet s := (rfl)

@[simp] theorem is_host_reg_name_fst (s : Str) : (is_host_reg_name s).1 = Verif.is_host_reg_name s := by
  unfold is_host_reg_name Verif.is_host_reg_name
  simp only [bind_fst, starts_with_fst]
  split
  · rfl
  · split
    · rfl
    · simp only [bind_fst, find_split_hole_fst]
      rcases Verif.find_split_hole s '.' with _ | ⟨a, r⟩
      · rfl
      · simp only [bind_fst, find_split_hole_fst]
        rcases Verif.find_split_hole r '.' with _ | ⟨b, r⟩
        · rfl
        · simp only [bind_fst, find_split_hole_fst]
          rcases Verif.find_split_hole r '.' with _ | ⟨c, d⟩
          · rfl
          · simp

@[simp] theorem from_iri_get_offset_fst (s : Str) :
    (from_iri_get_offset s).1 = AuthorityComponents.from_iri_get_offset s := by
  unfold from_iri_get_offset AuthorityComponents.from_iri_get_offset Verif.extract_authority_and_offset
  simp only [bind_fst, scheme_colon_opt_fst, slash_slash_authority_opt_fst]
  rcases (Verif.slash_slash_authority_opt (Verif.scheme_colon_opt s).1).2 with _ | a
  · rfl
  · simp only [bind_fst, decompose_authority_fst, ret_fst, Option.map_some]
    rcases (Verif.scheme_colon_opt s).2 with _ | x <;> rfl

@[simp] theorem replace_domain_fst (S : Spec) (s h : Str) (b : Bool) :
    (replace_domain_impl S s h b).1 = Verif.replace_domain_impl S s h b := by
  unfold replace_domain_impl Verif.replace_domain_impl
  rw [bind_fst, from_iri_get_offset_fst]
  rcases AuthorityComponents.from_iri_get_offset s with _ | ⟨a, o⟩
  · rfl
  · simp only [obind_fst, ret_fst, Option.bind_eq_bind]
    rcases a.host with _ | old
    · rfl
    · simp only [Option.bind_some, bind_fst, validate_host_fst]
      cases Verif.validate_host S h
      · rfl
      · cases b
        · simp only [Bool.not_true, Bool.false_eq_true, if_false, bind_fst, ret_fst, obind_fst, replaceRange_fst,
            Bool.false_and]
        · simp only [Bool.not_true, Bool.false_eq_true, if_false, if_true, bind_fst, is_host_reg_name_fst,
            Bool.true_and]
          cases Verif.is_host_reg_name old
          · rfl
          · simp only [Bool.not_true, Bool.false_eq_true, if_false, obind_fst, ret_fst, replaceRange_fst]

@[simp] theorem remove_fragment_fst (s : Str) : (remove_fragment s).1 = Verif.remove_fragment s := by
  unfold remove_fragment Verif.remove_fragment
  simp only [bind_fst, find_split_fst, ret_fst]
  rcases Verif.find_split s '#' with _ | ⟨a, b⟩ <;> rfl

end Work

/-- **C94 (the counter changes nothing).** -/
theorem C94_same (debug : Bool) (S : Spec) (k : IriKind) (s h : Str) (f : Str → Str) (b : Bool) (fr : Option Str) :
    (Work.mask_password s).1 = mask_password s ∧ (Work.mask_password_dedicated s).1 = mask_password_dedicated s ∧
    (Work.replace_password_with s f).1 = replace_password_with s f ∧
    (Work.remove_password_inline debug S k s).1 = remove_password_inline debug S k s ∧
    (Work.remove_nonempty_password_inline debug S k s).1 = remove_nonempty_password_inline debug S k s ∧
    (Work.try_replace_host_impl debug S k s h b).1 = try_replace_host_impl debug S k s h b ∧
    (Work.set_fragment s fr).1 = set_fragment s fr ∧ (Work.is_host_reg_name h).1 = is_host_reg_name h := by
  refine ⟨?_, ?_, ?_, ?_, ?_, ?_, ?_, by simp⟩
  · unfold Work.mask_password mask_password
    rw [Work.obind_fst, Work.password_range_fst]
    rcases password_range_to_hide s with _ | x
    · rfl
    · rcases x with _ | ⟨i, j⟩
      · rfl
      · simp
  · unfold Work.mask_password_dedicated mask_password_dedicated
    rw [Work.obind_fst, Work.password_range_fst]
    rcases password_range_to_hide s with _ | x
    · rfl
    · rcases x with _ | ⟨i, j⟩
      · rfl
      · simp [Work.obind_fst]
  · unfold Work.replace_password_with replace_password_with
    rw [Work.obind_fst, Work.password_range_fst]
    rcases password_range_to_hide s with _ | x
    · rfl
    · rcases x with _ | ⟨i, j⟩
      · rfl
      · simp [Work.obind_fst]
  · unfold Work.remove_password_inline remove_password_inline
    rw [Work.obind_fst, Work.password_range_fst]
    rcases password_range_to_hide s with _ | x
    · rfl
    · rcases x with _ | ⟨i, j⟩
      · rfl
      · simp only [Option.bind_some, Option.bind_eq_bind, Work.obind_fst, Work.replaceRange_fst]
        rcases replaceRange s (i - 1) j [] with _ | t
        · rfl
        · simp only [Option.bind_some, Work.bind_fst, Work.assertValid_fst, Work.ret_fst]
          cases (debug && k.validate S t != some true) <;> rfl
  · unfold Work.remove_nonempty_password_inline remove_nonempty_password_inline
    rw [Work.obind_fst, Work.password_range_fst]
    rcases password_range_to_hide s with _ | x
    · rfl
    · rcases x with _ | ⟨i, j⟩
      · rfl
      · simp only [Option.bind_some, Option.bind_eq_bind]
        by_cases hij : j ≤ i
        · rw [if_pos hij, if_pos hij, Work.ret_fst]
        · rw [if_neg hij, if_neg hij]
          simp only [Work.obind_fst, Work.ret_fst]
          rcases sliceTo s i with _ | pre
          · rfl
          · simp only [Option.bind_some, Work.bind_fst]
            cases (debug && pre.getLast? != some ':')
            · simp only [Bool.false_eq_true, if_false, Work.obind_fst, Work.replaceRange_fst]
              rcases replaceRange s i j [] with _ | t
              · rfl
              · simp only [Option.bind_some, Work.bind_fst, Work.assertValid_fst, Work.ret_fst]
                cases (debug && k.validate S t != some true) <;> rfl
            · rfl
  · unfold Work.try_replace_host_impl try_replace_host_impl
    rw [Work.obind_fst, Work.replace_domain_fst]
    rcases replace_domain_impl S s h b with _ | ⟨t, r⟩
    · rfl
    · simp only [Option.bind_some, Option.bind_eq_bind, Work.bind_fst, Work.assertValid_fst]
      cases (debug && k.replaceHostAssertion.validate S t != some true)
      · simp only [Bool.not_false, Bool.not_true, Bool.false_eq_true, if_false]
        rcases r with _ | ⟨i, j⟩ <;> rfl
      · rfl
  · unfold Work.set_fragment set_fragment
    rw [Work.bind_fst, Work.remove_fragment_fst]
    rcases fr with _ | f <;> rfl

namespace Work

/-! ### Bounds -/

theorem findStr_snd (s pat : Str) : (findStr s pat).2 ≤ blen pat * blen s := by
  induction s with
  | nil =>
    unfold findStr
    simp only [bind_snd, starts_with_fst]
    have : (starts_with [] pat).2 = 0 := by unfold starts_with; simp
    split <;> simp [this]
  | cons c r ih =>
    have hc := Char.utf8Size_pos c
    have h1 : (starts_with (c :: r) pat).2 ≤ blen pat := by unfold starts_with; simp only; omega
    have h2 : blen pat * 1 ≤ blen pat * c.utf8Size := Nat.mul_le_mul_left _ hc
    unfold findStr
    simp only [bind_snd, starts_with_fst, blen_cons, Nat.mul_add]
    split
    · simp only [ret_snd]
      omega
    · simp only [bind_snd, ret_snd]
      omega

theorem findChar_snd (d : Char) (s : Str) : (findChar d s).2 ≤ blen s := by
  induction s with
  | nil => simp [findChar]
  | cons c r ih =>
    unfold findChar
    simp only [blen_cons]
    split <;> simp only <;> omega

theorem sliceTo_len {s a : Str} {n : Nat} (h : sliceTo s n = some a) : blen a = n ∧ n ≤ blen s := by
  unfold sliceTo at h
  cases hs : splitAtB s n with
  | none => rw [hs] at h; cases h
  | some x =>
    rw [hs] at h
    obtain ⟨a', b⟩ := x
    cases h
    obtain ⟨e, ha⟩ := splitAtB_some.1 hs
    rw [e, blen_append]
    exact ⟨ha, by omega⟩

theorem sliceFrom_len' {s b : Str} {n : Nat} (h : sliceFrom s n = some b) : blen b + n = blen s := by
  unfold sliceFrom at h
  cases hs : splitAtB s n with
  | none => rw [hs] at h; cases h
  | some x =>
    rw [hs] at h
    obtain ⟨a, b'⟩ := x
    cases h
    obtain ⟨e, ha⟩ := splitAtB_some.1 hs
    rw [e, blen_append]
    show blen b' + n = blen a + blen b'
    omega

theorem replaceRange_snd (s : Str) (i j : Nat) (new : Str) :
    (replaceRange s i j new).2 ≤ blen new + (blen s - j) ∧
    ∀ t, Verif.replaceRange s i j new = some t → blen t = i + blen new + (blen s - j) ∧ i ≤ j ∧ j ≤ blen s := by
  unfold replaceRange Verif.replaceRange
  by_cases hij : i ≤ j
  · rw [if_pos hij, if_pos hij]
    rcases h1 : sliceTo s i with _ | a
    · rw [obind_none (by rfl)]
      simp
    · rw [obind_some (a := a) (by rfl)]
      rcases h2 : sliceFrom s j with _ | b
      · rw [obind_none (by rfl)]
        simp
      · rw [obind_some (a := b) (by rfl)]
        have e1 := sliceTo_len h1
        have e2 := sliceFrom_len' h2
        simp only [ret_snd, Option.bind_eq_bind, Option.bind_some, Option.some.injEq]
        refine ⟨by omega, ?_⟩
        rintro t rfl
        simp only [blen_append]
        omega
  · rw [if_neg hij, if_neg hij]
    simp

theorem password_range_snd (s : Str) : (password_range_to_hide s).2 ≤ 7 * blen s + 1 := by
  have h0 := (C87_linear s).2.2.2.2.2.2.2
  have hu : ∀ a u, AuthorityComponents.from_iri s = some a → a.userinfo = some (some u) → blen u ≤ blen s := by
    intro a u ha hau
    unfold AuthorityComponents.from_iri at ha
    rw [Option.map_eq_some_iff] at ha
    obtain ⟨x, hx, rfl⟩ := ha
    have h1 := (slash_slash_authority_opt_snd (Verif.scheme_colon_opt s).1).2.2 x hx
    have h2 := (scheme_colon_opt_snd s).2.2.2
    unfold AuthorityComponents.userinfo at hau
    split at hau
    · cases hau
    · rw [Option.map_eq_some_iff] at hau
      obtain ⟨y, hy, e⟩ := hau
      cases e
      have := sliceTo_len hy
      have e : (Verif.decompose_authority x).authority = x := rfl
      rw [e] at this
      omega
  unfold password_range_to_hide
  rw [bind_snd, authorityFromIri_fst]
  rcases ha : AuthorityComponents.from_iri s with _ | a
  · simp only [ret_snd]; omega
  · simp only
    rcases hau : a.userinfo with _ | u
    · rw [obind_none (by rfl)]
      simp only [ret_snd]; omega
    · rw [obind_some (a := u) (by rfl)]
      rcases u with _ | u
      · simp only [ret_snd]; omega
      · have h1 := findStr_snd s ['/', '/']
        rw [blen_dslash2] at h1
        have h2 := findChar_snd ':' u
        have h3 := hu a u ha hau
        simp only [ret_snd]
        rcases hf : Verif.findStr s ['/', '/'] with _ | i
        · rw [obind_none (by simp [hf])]
          omega
        · rw [obind_some (a := i) (by simp [hf])]
          simp only [bind_snd, ret_snd]
          omega

theorem write_masked_snd (s : Str) (i j : Nat) (alt t : Str)
    (h : Verif.write_with_masked_password s i j alt = some t) :
    (write_with_masked_password s i j alt).2 = blen t := by
  unfold Verif.write_with_masked_password at h
  unfold write_with_masked_password
  revert h
  rcases h1 : sliceTo s i with _ | a
  · simp
  · rcases h2 : sliceFrom s j with _ | b
    · simp
    · rw [obind_some (a := a) (by rfl), obind_some (a := b) (by rfl)]
      simp only [Option.bind_eq_bind, Option.bind_some, Option.some.injEq]
      rintro rfl
      simp

theorem is_host_reg_name_snd (s : Str) : (is_host_reg_name s).2 ≤ 28 := by
  have h0 : (starts_with s ['[']).2 ≤ 1 := by
    unfold starts_with
    have h3 : blen ['['] = 1 := by decide
    simp only [h3]
    omega
  have hd : ∀ i, (is_decimal_repr_of_octet i).2 ≤ 3 := by
    intro i; unfold is_decimal_repr_of_octet; simp only; omega
  unfold is_host_reg_name
  simp only [bind_snd, starts_with_fst]
  split
  · simp only [ret_snd]; omega
  · split
    · simp only [ret_snd]; omega
    · rename_i hl
      have hl' : blen s ≤ 15 := by
        simp only [Bool.not_eq_true', Bool.and_eq_false_iff, decide_eq_false_iff_not, not_or,
          Decidable.not_not] at hl
        exact hl.2
      have f1 := find_split_hole_snd s '.'
      simp only [bind_snd, find_split_hole_fst]
      rcases e1 : Verif.find_split_hole s '.' with _ | ⟨a, r1⟩
      · simp only [ret_snd]; omega
      · have g1 := f1.1 _ _ e1
        have f2 := find_split_hole_snd r1 '.'
        simp only [bind_snd, find_split_hole_fst]
        rcases e2 : Verif.find_split_hole r1 '.' with _ | ⟨b, r2⟩
        · simp only [ret_snd]; omega
        · have g2 := f2.1 _ _ e2
          have f3 := find_split_hole_snd r2 '.'
          simp only [bind_snd, find_split_hole_fst]
          rcases e3 : Verif.find_split_hole r2 '.' with _ | ⟨c, d⟩
          · simp only [ret_snd]; omega
          · have k1 := and_le (is_decimal_repr_of_octet a) (and (is_decimal_repr_of_octet b)
              (and (is_decimal_repr_of_octet c) (is_decimal_repr_of_octet d)))
            have k2 := and_le (is_decimal_repr_of_octet b)
              (and (is_decimal_repr_of_octet c) (is_decimal_repr_of_octet d))
            have k3 := and_le (is_decimal_repr_of_octet c) (is_decimal_repr_of_octet d)
            have := hd a; have := hd b; have := hd c; have := hd d
            simp only [bind_snd, ret_snd]
            omega

theorem assertValid_snd (debug : Bool) (S : Spec) (k : IriKind) (s : Str) :
    (assertValid debug S k s).2 ≤ if debug then 10 * blen s else 0 := by
  cases debug
  · simp [assertValid]
  · obtain ⟨h1, h2, h3, h4⟩ := C85_linear S s
    simp only [assertValid, if_true, bind_snd, ret_snd, Nat.add_zero]
    cases k <;> simp only [validateKind] <;> omega

theorem from_iri_get_offset_snd (s : Str) : (from_iri_get_offset s).2 ≤ 4 * blen s + 1 := by
  have h1 := scheme_colon_opt_snd s
  have h2 := slash_slash_authority_opt_snd (Verif.scheme_colon_opt s).1
  unfold from_iri_get_offset
  simp only [bind_snd, scheme_colon_opt_fst, slash_slash_authority_opt_fst]
  rcases h : (Verif.slash_slash_authority_opt (Verif.scheme_colon_opt s).1).2 with _ | a
  · simp only [ret_snd]; omega
  · have h3 := h2.2.2 a h
    have h4 := decompose_authority_snd a
    simp only [bind_snd, ret_snd]
    omega

theorem replace_domain_snd (S : Spec) (s h : Str) (b : Bool) :
    (replace_domain_impl S s h b).2 ≤ 5 * blen s + 4 * blen h + (if b then 29 else 1) ∧
    ∀ t r, Verif.replace_domain_impl S s h b = some (t, r) → blen t ≤ blen s + blen h := by
  have h1 := from_iri_get_offset_snd s
  have h0 : 1 ≤ (if b = true then 29 else 1) := by cases b <;> decide
  unfold replace_domain_impl Verif.replace_domain_impl
  rw [bind_snd, from_iri_get_offset_fst]
  rcases AuthorityComponents.from_iri_get_offset s with _ | ⟨a, o⟩
  · simp only [ret_snd, Option.some.injEq, Prod.mk.injEq]
    refine ⟨by omega, ?_⟩
    rintro t r ⟨rfl, -⟩
    omega
  · simp only [Option.bind_eq_bind]
    rcases a.host with _ | old
    · rw [obind_none (by rfl)]
      simp only [ret_snd, Option.bind_none]
      exact ⟨by omega, by simp⟩
    · rw [obind_some (a := old) (by rfl)]
      have h2 := validate_host_snd S h
      simp only [bind_snd, ret_snd, validate_host_fst, Option.bind_some]
      cases Verif.validate_host S h
      · simp only [Bool.not_false, if_true, ret_snd, Option.some.injEq, Prod.mk.injEq]
        refine ⟨by omega, ?_⟩
        rintro t r ⟨rfl, -⟩
        omega
      · have h3 := is_host_reg_name_snd old
        have h4 := replaceRange_snd s (o + a.host_start) (o + a.host_start + blen old) h
        have h5 : (if b = true then is_host_reg_name old else ret true).1 =
            !(b && !Verif.is_host_reg_name old) := by
          cases b
          · rfl
          · simp
        have h6 : (if b = true then is_host_reg_name old else ret true).2 ≤ if b then 28 else 0 := by
          cases b
          · simp
          · simpa using h3
        have h7 : (if b = true then 28 else 0) + 1 = if b = true then 29 else 1 := by cases b <;> rfl
        simp only [Bool.not_true, Bool.false_eq_true, if_false, bind_snd, h5]
        cases (b && !Verif.is_host_reg_name old)
        · simp only [Bool.not_false, Bool.not_true, Bool.false_eq_true, if_false]
          rcases hr : Verif.replaceRange s (o + a.host_start) (o + a.host_start + blen old) h with _ | t
          · rw [obind_none (by simp [hr])]
            simp only [Option.bind_none]
            exact ⟨by omega, by simp⟩
          · rw [obind_some (a := t) (by simp [hr])]
            have := h4.2 t hr
            simp only [ret_snd, Option.bind_some, Option.some.injEq, Prod.mk.injEq]
            refine ⟨by omega, ?_⟩
            rintro t' r ⟨rfl, -⟩
            omega
        · simp only [Bool.not_true, Bool.not_false, if_true, ret_snd, Option.some.injEq, Prod.mk.injEq]
          refine ⟨by omega, ?_⟩
          rintro t r ⟨rfl, -⟩
          omega

theorem remove_fragment_snd (s : Str) : (remove_fragment s).2 ≤ blen s := by
  have h1 := (findSplitP_snd (· == '#') s).2
  unfold remove_fragment
  simp only [bind_snd, ret_snd]
  unfold find_split
  omega

end Work

/-- **C94 (showing without the password, linear).**  Whatever the text `s`, if displaying it with the password masked or
replaced writes `t`, it looks at and writes no more than `7 |s| + |t| + 1` bytes. -/
theorem C94_mask (s t : Str) (f : Str → Str) :
    (mask_password s = some t → (Work.mask_password s).2 ≤ 7 * blen s + blen t + 1) ∧
    (mask_password_dedicated s = some t → (Work.mask_password_dedicated s).2 ≤ 7 * blen s + blen t + 1) ∧
    (replace_password_with s f = some t → (Work.replace_password_with s f).2 ≤ 7 * blen s + blen t + 1) := by
  have h0 := Work.password_range_snd s
  refine ⟨?_, ?_, ?_⟩
  · unfold Work.mask_password mask_password
    rcases hp : password_range_to_hide s with _ | x
    · simp
    · rw [Work.obind_some (a := x) (by simp [hp])]
      rcases x with _ | ⟨i, j⟩
      · simp only [Option.bind_eq_bind, Option.bind_some, Option.some.injEq]
        rintro rfl
        omega
      · simp only [Option.bind_eq_bind, Option.bind_some]
        intro h
        have := Work.write_masked_snd _ _ _ _ _ h
        omega
  · unfold Work.mask_password_dedicated mask_password_dedicated
    rcases hp : password_range_to_hide s with _ | x
    · simp
    · rw [Work.obind_some (a := x) (by simp [hp])]
      rcases x with _ | ⟨i, j⟩
      · simp only [Option.bind_eq_bind, Option.bind_some, Option.some.injEq]
        rintro rfl
        omega
      · simp only [Option.bind_eq_bind, Option.bind_some]
        rcases h1 : sliceTo s i with _ | a
        · simp
        · rcases h2 : sliceFrom s j with _ | b
          · simp
          · rw [Work.obind_some (a := a) (by rfl), Work.obind_some (a := b) (by rfl)]
            simp only [Option.bind_some, Option.some.injEq, Work.ret_snd]
            rintro rfl
            rw [blen_append]
            omega
  · unfold Work.replace_password_with replace_password_with
    rcases hp : password_range_to_hide s with _ | x
    · simp
    · rw [Work.obind_some (a := x) (by simp [hp])]
      rcases x with _ | ⟨i, j⟩
      · simp only [Option.bind_eq_bind, Option.bind_some, Option.some.injEq]
        rintro rfl
        omega
      · simp only [Option.bind_eq_bind, Option.bind_some]
        rcases h1 : slice s i j with _ | pw
        · simp
        · rw [Work.obind_some (a := pw) (by rfl)]
          simp only [Option.bind_some, Work.ret_snd]
          intro h
          have := Work.write_masked_snd _ _ _ _ _ h
          omega

/-- **C94 (removing the password, linear).**  Whatever the text `s`, removing its password in place looks at and moves no
more than `8 |s| + 1` bytes; a debug build, which validates the result, `18 |s| + 2`. -/
theorem C94_remove_password (debug : Bool) (S : Spec) (k : IriKind) (s : Str) :
    (Work.remove_password_inline debug S k s).2 ≤ 8 * blen s + 1 + (if debug then 10 * blen s + 1 else 0) ∧
    (Work.remove_nonempty_password_inline debug S k s).2 ≤ 8 * blen s + 1 + (if debug then 10 * blen s + 1 else 0) := by
  have h0 := Work.password_range_snd s
  have hfin : ∀ i j, (Work.obind (Work.replaceRange s i j []) fun buf =>
      Work.bind (Work.assertValid debug S k buf) fun ok => Work.ret (if ok then some buf else none)).2 ≤
        blen s + (if debug then 10 * blen s else 0) := by
    intro i j
    have h4 := Work.replaceRange_snd s i j []
    rw [blen_nil] at h4
    rcases hr : replaceRange s i j [] with _ | t
    · rw [Work.obind_none (by simp [hr])]
      omega
    · rw [Work.obind_some (a := t) (by simp [hr])]
      have h5 := h4.2 t hr
      have h6 := Work.assertValid_snd debug S k t
      simp only [Work.bind_snd, Work.ret_snd]
      cases debug <;> simp at h6 ⊢ <;> omega
  refine ⟨?_, ?_⟩
  · unfold Work.remove_password_inline
    rcases hp : password_range_to_hide s with _ | x
    · rw [Work.obind_none (by simp [hp])]
      omega
    · rw [Work.obind_some (a := x) (by simp [hp])]
      rcases x with _ | ⟨i, j⟩
      · simp only [Work.ret_snd]
        omega
      · have := hfin (i - 1) j
        simp only
        cases debug <;> simp at this ⊢ <;> omega
  · unfold Work.remove_nonempty_password_inline
    rcases hp : password_range_to_hide s with _ | x
    · rw [Work.obind_none (by simp [hp])]
      omega
    · rw [Work.obind_some (a := x) (by simp [hp])]
      rcases x with _ | ⟨i, j⟩
      · simp only [Work.ret_snd]
        omega
      · simp only
        by_cases hij : j ≤ i
        · rw [if_pos hij, Work.ret_snd]
          omega
        · rw [if_neg hij]
          rcases h1 : sliceTo s i with _ | pre
          · rw [Work.obind_none (by rfl), Work.ret_snd]
            omega
          · rw [Work.obind_some (a := pre) (by rfl)]
            have := hfin i j
            simp only [Work.bind_snd, Work.ret_snd]
            by_cases hb : (debug && pre.getLast? != some ':') = true
            · rw [if_pos hb, Work.ret_snd]
              cases debug <;> simp <;> omega
            · rw [if_neg hb]
              cases debug <;> simp only [Bool.false_eq_true, if_true, if_false] at this ⊢ <;> omega

/-- **C94 (replacing the host, linear).**  Whatever the text `s` and the new host `h`: `5 |s| + 4 |h| + 29` bytes at most,
`15 |s| + 14 |h| + 29` in a debug build.  Finding out whether a host is a registered name takes at most 28 bytes, however
long the host. -/
theorem C94_replace_host (debug : Bool) (S : Spec) (k : IriKind) (s h : Str) (b : Bool) :
    (Work.try_replace_host_impl debug S k s h b).2 ≤
      5 * blen s + 4 * blen h + 29 + (if debug then 10 * (blen s + blen h) else 0) ∧
    (Work.is_host_reg_name h).2 ≤ 28 := by
  refine ⟨?_, Work.is_host_reg_name_snd h⟩
  have h1 := Work.replace_domain_snd S s h b
  have h2 : (if b = true then 29 else 1) ≤ 29 := by cases b <;> decide
  unfold Work.try_replace_host_impl
  rcases hr : replace_domain_impl S s h b with _ | ⟨t, r⟩
  · rw [Work.obind_none (by simp [hr])]
    omega
  · rw [Work.obind_some (a := (t, r)) (by simp [hr])]
    have h3 := h1.2 t r hr
    have h4 := Work.assertValid_snd debug S k.replaceHostAssertion t
    simp only [Work.bind_snd]
    by_cases ha : (!(Work.assertValid debug S k.replaceHostAssertion t).1) = true
    · rw [if_pos ha, Work.ret_snd]
      cases debug <;> simp at h4 ⊢ <;> omega
    · rw [if_neg ha]
      rcases r with _ | r <;> simp only [Work.ret_snd] <;> cases debug <;> simp at h4 ⊢ <;> omega

/-- **C94 (the fragment, linear).**  Setting or removing a fragment looks at the text once, and copies the new one. -/
theorem C94_set_fragment (s : Str) (f : Option Str) :
    (Work.set_fragment s f).2 ≤ blen s + (match f with | none => 0 | some f => blen f + 1) := by
  have h1 := Work.remove_fragment_snd s
  unfold Work.set_fragment
  rw [Work.bind_snd]
  rcases f with _ | f
  · simp only [Work.ret_snd]; omega
  · simp only; omega

/-- **C94 (the counter counts).**  What is displayed is counted byte by byte, and the bound on setting a fragment is met by
every text without one. -/
theorem C94_full (s t f : Str) :
    (mask_password s = some t → blen t ≤ (Work.mask_password s).2) ∧
    ('#' ∉ s → (Work.set_fragment s (some f)).2 = blen s + blen f + 1) := by
  refine ⟨?_, ?_⟩
  · unfold Work.mask_password mask_password
    rcases hp : password_range_to_hide s with _ | x
    · simp
    · rw [Work.obind_some (a := x) (by simp [hp])]
      rcases x with _ | ⟨i, j⟩
      · simp only [Option.bind_eq_bind, Option.bind_some, Option.some.injEq]
        rintro rfl
        omega
      · simp only [Option.bind_eq_bind, Option.bind_some]
        intro h
        have := Work.write_masked_snd _ _ _ _ _ h
        omega
  · intro h
    have h1 : findSplitP (· == '#') s = none := by
      induction s with
      | nil => rfl
      | cons c r ih =>
        unfold findSplitP
        rw [List.mem_cons, not_or] at h
        rw [if_neg (by simpa using fun e => h.1 e.symm), ih h.2]
        rfl
    have h2 := (Work.findSplitP_snd1 (· == '#') (fun c hc => Work.delim_size (.inr (.inr (by simpa using hc)))) s).2 h1
    unfold Work.set_fragment Work.remove_fragment Work.find_split
    simp only [Work.bind_snd, Work.ret_snd, h2]
    omega

/-- 54 bytes with a password: showing them without it takes 117 looks and writes, removing it 105, with the validation of
a debug build 241.  Replacing the host of a text of 45 bytes takes 89, with the validation 217. -/
example : (Work.mask_password (chars! "http://user:pw@[2001:db8::1]:8080/a/b%20c?q=1&r=2#frag")).2 = 117 ∧
    (Work.remove_password_inline false .uri .iri (chars! "http://user:pw@[2001:db8::1]:8080/a/b%20c?q=1&r=2#frag")) =
      (some (chars! "http://user@[2001:db8::1]:8080/a/b%20c?q=1&r=2#frag"), 105) ∧
    (Work.remove_password_inline true .uri .iri (chars! "http://user:pw@[2001:db8::1]:8080/a/b%20c?q=1&r=2#frag")).2 =
      241 ∧
    (Work.remove_nonempty_password_inline true .uri .iri
      (chars! "http://user:pw@[2001:db8::1]:8080/a/b%20c?q=1&r=2#frag")).2 = 246 ∧
    (Work.try_replace_host_impl false .uri .iri (chars! "http://user:pw@127.0.0.1:8080/a/b%20c?q=1&r=2")
      (chars! "example.com") false).2 = 89 ∧
    (Work.try_replace_host_impl true .uri .iri (chars! "http://user:pw@127.0.0.1:8080/a/b%20c?q=1&r=2")
      (chars! "example.com") false).2 = 217 ∧
    Work.is_host_reg_name (chars! "255.255.255.255") = (false, 25) := by
  decide +kernel

end Verif
