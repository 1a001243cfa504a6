import Verif.Model.ValidateWork
import Verif.Lemmas.Split
import Verif.Spec.Lit

/-!
# C85: validation looks at each byte a bounded number of times
-/

namespace Verif

namespace Work

/-! ### The counter changes nothing -/

@[simp] theorem bind_fst {α β : Type} (x : T α) (f : α → T β) : (bind x f).1 = (f x.1).1 := (rfl)
@[simp] theorem bind_snd {α β : Type} (x : T α) (f : α → T β) : (bind x f).2 = x.2 + (f x.1).2 := rfl
@[simp] theorem ret_fst {α : Type} (a : α) : (ret a).1 = a := (rfl)
@[simp] theorem ret_snd {α : Type} (a : α) : (ret a).2 = 0 := rfl
@[simp] theorem and_fst (x y : T Bool) : (and x y).1 = (x.1 && y.1) := rfl
@[simp] theorem wrap_fst (x : T Bool) : (wrap x).1 = some x.1 := rfl
@[simp] theorem wrap_snd (x : T Bool) : (wrap x).2 = x.2 := rfl

theorem and_le (x y : T Bool) : (and x y).2 ≤ x.2 + y.2 := by
  unfold and; simp only; split <;> omega

@[simp] theorem all_fst (p : Char → Bool) (s : Str) : (all p s).1 = s.all p := by
  induction s with
  | nil => rfl
  | cons c r ih =>
    unfold all
    by_cases h : p c = true
    · simp [h, ih]
    · simp [h]

theorem all_snd (p : Char → Bool) (s : Str) : (all p s).2 ≤ blen s := by
  induction s with
  | nil => simp [all]
  | cons c r ih =>
    unfold all
    rw [blen_cons]
    split
    · simp only; omega
    · simp only; omega

@[simp] theorem findSplitP_fst (p : Char → Bool) (s : Str) : (findSplitP p s).1 = Verif.findSplitP p s := by
  induction s with
  | nil => rfl
  | cons c r ih =>
    unfold findSplitP Verif.findSplitP
    by_cases h : p c = true
    · simp [h]
    · simp [h, ih]

@[simp] theorem findSplitHoleP_fst (p : Char → Bool) (s : Str) :
    (findSplitHoleP p s).1 = Verif.findSplitHoleP p s := by
  induction s with
  | nil => rfl
  | cons c r ih =>
    unfold findSplitHoleP Verif.findSplitHoleP
    by_cases h : p c = true
    · simp [h]
    · simp [h, ih]

@[simp] theorem rfindSplitHoleP_fst (p : Char → Bool) (s : Str) :
    (rfindSplitHoleP p s).1 = Verif.rfindSplitHoleP p s := by
  induction s with
  | nil => rfl
  | cons c r ih =>
    unfold rfindSplitHoleP Verif.rfindSplitHoleP
    rw [← ih]
    rcases rfindSplitHoleP p r with ⟨_ | x, n⟩ <;> rfl

theorem rfindSplitHoleP_snd (p : Char → Bool) (s : Str) : (rfindSplitHoleP p s).2 ≤ blen s := by
  induction s with
  | nil => simp [rfindSplitHoleP]
  | cons c r ih =>
    unfold rfindSplitHoleP
    rw [blen_cons]
    rcases h : rfindSplitHoleP p r with ⟨_ | x, n⟩ <;> rw [h] at ih <;> simp only at ih ⊢ <;> omega

/-- A search costs what is before the needle and the needle. -/
theorem findSplitP_snd (p : Char → Bool) (s : Str) :
    (∀ a b, Verif.findSplitP p s = some (a, b) → (findSplitP p s).2 + blen b ≤ blen s + 4 ∧
      blen a + blen b = blen s) ∧ (findSplitP p s).2 ≤ blen s := by
  induction s with
  | nil => simp [findSplitP, Verif.findSplitP]
  | cons c r ih =>
    have hc := Char.utf8Size_le_four c
    unfold findSplitP Verif.findSplitP
    rw [blen_cons]
    by_cases h : p c = true
    · simp only [h, if_true]
      refine ⟨?_, by omega⟩
      rintro a b ⟨rfl, rfl⟩
      simp only [blen_nil, blen_cons]
      omega
    · simp only [h, Bool.false_eq_true, if_false]
      refine ⟨?_, by omega⟩
      intro a b hab
      rw [Option.map_eq_some_iff] at hab
      obtain ⟨⟨a', b'⟩, h1, h2⟩ := hab
      cases h2
      have := ih.1 _ _ h1
      simp only [blen_cons]
      omega

theorem findSplitHoleP_snd (p : Char → Bool) (s : Str) :
    (∀ a c b, Verif.findSplitHoleP p s = some (a, c, b) → (findSplitHoleP p s).2 + blen b = blen s ∧
      blen a + c.utf8Size + blen b = blen s) ∧ (findSplitHoleP p s).2 ≤ blen s := by
  induction s with
  | nil => simp [findSplitHoleP, Verif.findSplitHoleP]
  | cons c r ih =>
    unfold findSplitHoleP Verif.findSplitHoleP
    rw [blen_cons]
    by_cases h : p c = true
    · simp only [h, if_true]
      refine ⟨?_, by omega⟩
      rintro a d b ⟨rfl, rfl⟩
      simp
    · simp only [h, Bool.false_eq_true, if_false]
      refine ⟨?_, by omega⟩
      intro a d b hab
      rw [Option.map_eq_some_iff] at hab
      obtain ⟨⟨a', d', b'⟩, h1, h2⟩ := hab
      cases h2
      have := ih.1 _ _ _ h1
      simp only [blen_cons]
      omega

@[simp] theorem find_split_fst (s : Str) (n : Char) : (find_split s n).1 = Verif.find_split s n :=
  findSplitP_fst _ _
@[simp] theorem find_split_hole_fst (s : Str) (n : Char) :
    (find_split_hole s n).1 = Verif.find_split_hole s n := by
  simp [find_split_hole, Verif.find_split_hole]
@[simp] theorem find_split2_hole_fst (s : Str) (n m : Char) :
    (find_split2_hole s n m).1 = Verif.find_split2_hole s n m := findSplitHoleP_fst _ _
@[simp] theorem rfind_split_hole_fst (s : Str) (n : Char) :
    (rfind_split_hole s n).1 = Verif.rfind_split_hole s n := by
  simp [rfind_split_hole, Verif.rfind_split_hole]

theorem find_split_hole_snd (s : Str) (n : Char) :
    (∀ a b, Verif.find_split_hole s n = some (a, b) → (find_split_hole s n).2 + blen b = blen s ∧
      blen a + 1 + blen b ≤ blen s) ∧ (find_split_hole s n).2 ≤ blen s := by
  obtain ⟨h1, h2⟩ := findSplitHoleP_snd (· == n) s
  unfold find_split_hole Verif.find_split_hole
  simp only [bind_snd, ret_snd, Nat.add_zero]
  refine ⟨fun a b h => ?_, h2⟩
  rw [Option.map_eq_some_iff] at h
  obtain ⟨⟨a', c, b'⟩, h3, h4⟩ := h
  cases h4
  have := h1 _ _ _ h3
  have := Char.utf8Size_pos c
  dsimp only
  omega

theorem find_split2_hole_snd (s : Str) (n m : Char) :
    (∀ a c b, Verif.find_split2_hole s n m = some (a, c, b) → (find_split2_hole s n m).2 + blen b = blen s ∧
      blen a + 1 + blen b ≤ blen s) ∧ (find_split2_hole s n m).2 ≤ blen s := by
  obtain ⟨h1, h2⟩ := findSplitHoleP_snd (fun c => c == n || c == m) s
  refine ⟨fun a c b h => ?_, h2⟩
  have := h1 _ _ _ h
  have := Char.utf8Size_pos c
  unfold find_split2_hole
  omega

theorem rfind_split_hole_snd (s : Str) (n : Char) : (rfind_split_hole s n).2 ≤ blen s := by
  unfold rfind_split_hole
  simp only [bind_snd, ret_snd, Nat.add_zero]
  exact rfindSplitHoleP_snd _ _


theorem satisfy_both (pa pn : Char → Bool) : ∀ (n : Nat) (s : Str), s.length ≤ n →
    (satisfy pa pn s).1 = satisfy_chars_with_pct_encoded pa pn s ∧ (satisfy pa pn s).2 ≤ blen s
  | n, [], _ => by simp [satisfy, satisfy_chars_with_pct_encoded]
  | 0, c :: r, h => by simp at h
  | n + 1, c :: r, h => by
    have hr := satisfy_both pa pn n r (by simpa using h)
    unfold satisfy satisfy_chars_with_pct_encoded
    rw [blen_cons]
    by_cases h1 : isAscii c = true
    · by_cases h2 : (c == '%') = true
      · simp only [h1, h2, if_true]
        rcases r with _ | ⟨x, _ | ⟨y, r'⟩⟩
        · simp
        · simp
        · have hr' := satisfy_both pa pn n r' (by simp at h; omega)
          simp only [hr'.1, blen_cons, true_and]
          split <;> (try split) <;> omega
      · simp only [h1, h2, if_true, Bool.false_eq_true, if_false]
        refine ⟨by simp [hr.1], ?_⟩
        have := and_le (pa c, c.utf8Size) (satisfy pa pn r)
        simp only at this
        omega
    · simp only [h1, Bool.false_eq_true, if_false]
      refine ⟨by simp [hr.1], ?_⟩
      have := and_le (pn c, c.utf8Size) (satisfy pa pn r)
      simp only at this
      omega

@[simp] theorem satisfy_fst (pa pn : Char → Bool) (s : Str) :
    (satisfy pa pn s).1 = satisfy_chars_with_pct_encoded pa pn s := (satisfy_both pa pn _ s (Nat.le_refl _)).1

theorem satisfy_snd (pa pn : Char → Bool) (s : Str) : (satisfy pa pn s).2 ≤ blen s :=
  (satisfy_both pa pn _ s (Nat.le_refl _)).2

@[simp] theorem get_wrapped_inner_fst (s : Str) (a b : Char) :
    (get_wrapped_inner s a b).1 = Verif.get_wrapped_inner s a b := (rfl)
@[simp] theorem strip_ascii_char_prefix_fst (s : Str) (a : Char) :
    (strip_ascii_char_prefix s a).1 = Verif.strip_ascii_char_prefix s a := (rfl)
@[simp] theorem strip_prefix_fst (s a : Str) : (strip_prefix s a).1 = Verif.strip_prefix s a := (rfl)
@[simp] theorem starts_with_fst (s a : Str) : (starts_with s a).1 = Verif.starts_with s a := (rfl)
@[simp] theorem is_dec_octet_fst (s : Str) : (is_dec_octet s).1 = Verif.is_dec_octet s := (rfl)

@[simp] theorem validate_scheme_fst (i : Str) : (validate_scheme i).1 = Verif.validate_scheme i := by
  rcases i with _ | ⟨c, r⟩
  · rfl
  · simp [validate_scheme, Verif.validate_scheme]

@[simp] theorem validate_query_fst (S : Spec) (i : Str) : (validate_query S i).1 = Verif.validate_query S i :=
  satisfy_fst _ _ _
@[simp] theorem validate_fragment_fst (S : Spec) (i : Str) :
    (validate_fragment S i).1 = Verif.validate_fragment S i := satisfy_fst _ _ _
@[simp] theorem validate_userinfo_fst (S : Spec) (i : Str) :
    (validate_userinfo S i).1 = Verif.validate_userinfo S i := satisfy_fst _ _ _

@[simp] theorem validate_ipv4address_fst (i : Str) :
    (validate_ipv4address i).1 = Verif.validate_ipv4address i := by
  unfold validate_ipv4address Verif.validate_ipv4address
  simp only [bind_fst, find_split_hole_fst]
  rcases Verif.find_split_hole i '.' with _ | ⟨a, r⟩
  · rfl
  · simp only [and_fst, is_dec_octet_fst, bind_fst, find_split_hole_fst]
    cases Verif.is_dec_octet a
    · rfl
    · rcases Verif.find_split_hole r '.' with _ | ⟨b, r⟩
      · rfl
      · simp only [and_fst, is_dec_octet_fst, bind_fst, find_split_hole_fst]
        cases Verif.is_dec_octet b
        · rfl
        · rcases Verif.find_split_hole r '.' with _ | ⟨b, r⟩ <;> simp

@[simp] theorem split_v6_addr_part_fst (i : Str) :
    (split_v6_addr_part i).1 = Verif.split_v6_addr_part i := by
  unfold split_v6_addr_part Verif.split_v6_addr_part
  simp only [bind_fst, find_split_hole_fst]
  rcases Verif.find_split_hole i ':' with _ | ⟨pre, rest⟩
  · simp only
    by_cases h : 5 ≤ blen i
    · simp only [h, if_true, bind_fst, validate_ipv4address_fst]
      cases Verif.validate_ipv4address i <;> rfl
    · simp only [h, if_false, bind_fst, all_fst]
      cases i.all isHex <;> rfl
  · simp only
    by_cases h : 5 ≤ blen pre
    · simp [h]
    · simp only [h, if_false]
      by_cases h2 : pre.isEmpty = true
      · simp only [h2, if_true, bind_fst, strip_ascii_char_prefix_fst]
        cases Verif.strip_ascii_char_prefix rest ':' <;> rfl
      · simp only [h2, if_false, bind_fst, all_fst, Bool.false_eq_true]
        cases pre.all isHex
        · rfl
        · simp only [bind_fst, strip_ascii_char_prefix_fst]
          cases Verif.strip_ascii_char_prefix rest ':' <;> rfl

@[simp] theorem v6_loop_fst : ∀ (f : Nat) (i : Str) (h : Nat) (o : Bool),
    (v6_loop f i h o).1 = Verif.v6_loop f i h o
  | 0, i, h, o => rfl
  | f + 1, i, h, o => by
    unfold v6_loop Verif.v6_loop
    by_cases hi : i.isEmpty = true
    · simp [hi]
    · simp only [hi, Bool.false_eq_true, if_false, bind_fst, split_v6_addr_part_fst]
      rcases Verif.split_v6_addr_part i with _ | ⟨rest, _ | _ | _ | _ | _⟩
      · rfl
      · simp only
        split
        · rfl
        · split
          · rfl
          · exact v6_loop_fst f _ _ _
      · simp only
        split
        · rfl
        · split
          · rfl
          · exact v6_loop_fst f _ _ _
      · rfl
      · rfl
      · simp only
        split
        · rfl
        · split
          · rfl
          · exact v6_loop_fst f _ _ _

@[simp] theorem validate_ipv6address_fst (i : Str) :
    (validate_ipv6address i).1 = Verif.validate_ipv6address i := v6_loop_fst _ _ _ _

@[simp] theorem validate_host_fst (S : Spec) (i : Str) : (validate_host S i).1 = Verif.validate_host S i := by
  unfold validate_host Verif.validate_host
  simp only [bind_fst, get_wrapped_inner_fst]
  rcases Verif.get_wrapped_inner i '[' ']' with _ | m
  · simp
  · simp only [bind_fst, strip_ascii_char_prefix_fst]
    have e : (Verif.strip_ascii_char_prefix m 'v').or
        (if (Verif.strip_ascii_char_prefix m 'v').isSome = true then ret none
          else strip_ascii_char_prefix m 'V').1
        = (Verif.strip_ascii_char_prefix m 'v').or (Verif.strip_ascii_char_prefix m 'V') := by
      cases Verif.strip_ascii_char_prefix m 'v' <;> rfl
    rw [e]
    rcases (Verif.strip_ascii_char_prefix m 'v').or (Verif.strip_ascii_char_prefix m 'V') with _ | r
    · simp
    · simp only [bind_fst, find_split_hole_fst]
      rcases Verif.find_split_hole r '.' with _ | ⟨v, a⟩
      · rfl
      · simp only
        by_cases h1 : v.isEmpty = true
        · simp [h1]
        · simp only [h1, Bool.false_eq_true, if_false, and_fst, all_fst, Bool.false_or]
          cases v.all isHex
          · rfl
          · by_cases h2 : a.isEmpty = true
            · simp [h2]
            · simp [h2]

theorem hostPort_fst (S : Spec) (i : Str) : (hostPort S i).1 =
    (match Verif.rfind_split_hole i ':' with
    | some (maybe_host, maybe_port) =>
      if maybe_port.all isDigit then Verif.validate_host S maybe_host else Verif.validate_host S i
    | none => Verif.validate_host S i) := by
  unfold hostPort
  simp only [bind_fst, rfind_split_hole_fst]
  rcases Verif.rfind_split_hole i ':' with _ | ⟨a, b⟩
  · simp
  · simp only [bind_fst, all_fst]
    cases b.all isDigit <;> simp

@[simp] theorem validate_authority_fst (S : Spec) (i : Str) :
    (validate_authority S i).1 = Verif.validate_authority S i := by
  unfold validate_authority Verif.validate_authority
  simp only [bind_fst, find_split_hole_fst]
  rcases Verif.find_split_hole i '@' with _ | ⟨a, b⟩
  · exact hostPort_fst S i
  · simp only [and_fst, validate_userinfo_fst]
    rw [hostPort_fst]
    rfl

@[simp] theorem validate_path_abempty_fst (S : Spec) (i : Str) :
    (validate_path_abempty S i).1 = Verif.validate_path_abempty S i := by
  unfold validate_path_abempty Verif.validate_path_abempty
  by_cases h : i.isEmpty = true
  · simp [h]
  · simp only [h, Bool.false_eq_true, if_false, bind_fst, strip_prefix_fst]
    rcases Verif.strip_prefix i ['/'] with _ | r <;> simp

@[simp] theorem validate_path_absolute_authority_absent_fst (S : Spec) (i : Str) :
    (validate_path_absolute_authority_absent S i).1 = Verif.validate_path_absolute_authority_absent S i := by
  unfold validate_path_absolute_authority_absent Verif.validate_path_absolute_authority_absent
  by_cases h : i.isEmpty = true
  · simp [h]
  · simp only [h, Bool.false_eq_true, if_false, bind_fst, starts_with_fst]
    split <;> simp

@[simp] theorem validate_path_relative_authority_absent_fst (S : Spec) (i : Str) :
    (validate_path_relative_authority_absent S i).1 = Verif.validate_path_relative_authority_absent S i := by
  unfold validate_path_relative_authority_absent Verif.validate_path_relative_authority_absent
  simp only [bind_fst, starts_with_fst]
  split
  · rfl
  · simp only [bind_fst, find_split2_hole_fst]
    rcases Verif.find_split2_hole i '/' ':' with _ | ⟨a, c, b⟩
    · simp
    · simp only
      split <;> simp

@[simp] theorem validate_authority_path_abempty_fst (S : Spec) (i : Str) :
    (validate_authority_path_abempty S i).1 = Verif.validate_authority_path_abempty S i := by
  unfold validate_authority_path_abempty Verif.validate_authority_path_abempty
  simp only [bind_fst, and_fst, find_split_fst, validate_authority_fst, validate_path_abempty_fst]

@[simp] theorem validate_after_path_fst (S : Spec) (c : Char) (r : Str) (a : Bool) :
    (validate_after_path S c r a).1 = Verif.validate_after_path S c r a := by
  unfold validate_after_path Verif.validate_after_path splitQuery
  by_cases h : (c == '?') = true
  · simp only [h, if_true, bind_fst, and_fst, find_split_hole_fst, ret_fst, validate_query_fst]
    congr 1
    split <;> simp
  · simp only [h, Bool.false_eq_true, if_false, bind_fst, and_fst, ret_fst, validate_query_fst]
    congr 1
    by_cases h : (!a && !r.isEmpty) = true
    · simp only [h, if_true, ret_fst]
    · simp only [h, Bool.false_eq_true, if_false, validate_fragment_fst]

theorem splitPath_fst (i : Str) : (splitPath i).1 =
    (match Verif.find_split2_hole i '?' '#' with
    | some (p, c, rest) => (p, some (c, rest))
    | none => (i, none)) := by
  unfold splitPath
  simp only [bind_fst, find_split2_hole_fst]
  rcases Verif.find_split2_hole i '?' '#' with _ | ⟨a, c, b⟩ <;> rfl

theorem after_fst (S : Spec) (a : Bool) (o : Option (Char × Str)) : (after S a o).1 =
    (match o with
    | some (first, rest) => Verif.validate_after_path S first rest a
    | none => true) := by
  rcases o with _ | ⟨c, r⟩
  · rfl
  · simp [after]

theorem validate_hier_fst (S : Spec) (pathv : Str → T (Option Bool)) (a : Bool) (i : Str) :
    (validate_hier S pathv a i).1 = Verif.validate_hier S (fun p => (pathv p).1) a i := by
  unfold validate_hier Verif.validate_hier
  simp only [bind_fst, strip_prefix_fst]
  rcases Verif.strip_prefix i ['/', '/'] with _ | j
  · simp only [bind_fst, splitPath_fst]
    rcases Verif.find_split2_hole i '?' '#' with _ | ⟨p, c, b⟩
    · simp only
      rcases (pathv i).1 with _ | b
      · rfl
      · simp [after_fst]
    · simp only
      rcases (pathv p).1 with _ | b
      · rfl
      · simp [after_fst]
  · simp only [bind_fst, wrap_fst, and_fst, splitPath_fst, validate_authority_path_abempty_fst, after_fst]
    rcases Verif.find_split2_hole j '?' '#' with _ | ⟨p, c, b⟩ <;> rfl

theorem common_fst (S : Spec) (i : Str) (rule : UriReferenceRule) :
    (validate_uri_reference_common S i rule).1 = Verif.validate_uri_reference_common S i rule := by
  have e : (validate_relative_ref S i).1 = Verif.validate_relative_ref S i := by
    unfold validate_relative_ref
    rw [validate_hier_fst]
    simp only [validate_path_relative_authority_absent_fst]
    rfl
  unfold validate_uri_reference_common Verif.validate_uri_reference_common
  simp only [bind_fst, find_split_hole_fst]
  rcases Verif.find_split_hole i ':' with _ | ⟨s, r⟩
  · simp only
    split
    · exact e
    · rfl
  · simp only [bind_fst, validate_scheme_fst]
    split
    · split
      · exact e
      · rfl
    · rw [validate_hier_fst]
      simp only [validate_path_absolute_authority_absent_fst]

/-! ### Upper bounds -/

theorem strip_char_len {s r : Str} {p : Char} (h : Verif.strip_ascii_char_prefix s p = some r) :
    blen r + 1 ≤ blen s := by
  rcases s with _ | ⟨c, s⟩
  · simp [Verif.strip_ascii_char_prefix] at h
  · have := Char.utf8Size_pos c
    simp only [Verif.strip_ascii_char_prefix] at h
    split at h
    · cases h; simp only [blen_cons]; omega
    · simp at h

theorem wrapped_len {s m : Str} (h : Verif.get_wrapped_inner s '[' ']' = some m) : blen m + 2 = blen s := by
  have e := (Verif.get_wrapped_some).1 h
  subst e
  simp only [List.cons_append, blen_cons, blen_append, blen_nil]
  have h1 : '['.utf8Size = 1 := by decide
  have h2 : ']'.utf8Size = 1 := by decide
  omega

theorem dslash_len {s m : Str} (h : Verif.strip_prefix s ['/', '/'] = some m) : blen m + 2 = blen s := by
  have e := (Verif.strip_prefix_some).1 h
  subst e
  simp only [List.cons_append, blen_cons, List.nil_append]
  have h1 : '/'.utf8Size = 1 := by decide
  omega

theorem slash_len {s m : Str} (h : Verif.strip_prefix s ['/'] = some m) : blen m + 1 = blen s := by
  have e := (Verif.strip_prefix_some).1 h
  subst e
  simp only [List.cons_append, blen_cons, List.nil_append]
  have h1 : '/'.utf8Size = 1 := by decide
  omega

theorem blen_dslash2 : blen ['/', '/'] = 2 := by decide
theorem blen_slash1 : blen ['/'] = 1 := by decide

theorem validate_scheme_snd (i : Str) : (validate_scheme i).2 ≤ blen i := by
  rcases i with _ | ⟨c, r⟩
  · simp [validate_scheme]
  · unfold validate_scheme
    have h1 := and_le (isAlpha c, c.utf8Size) (all (fun b => isAscii b && is_ascii_scheme_continue b) r)
    have h2 := all_snd (fun b => isAscii b && is_ascii_scheme_continue b) r
    rw [blen_cons]
    simp only at h1 ⊢
    omega

theorem is_dec_octet_snd (i : Str) : (is_dec_octet i).2 ≤ blen i := by
  unfold is_dec_octet; simp only; omega

theorem validate_ipv4address_snd (i : Str) : (validate_ipv4address i).2 ≤ 2 * blen i := by
  have hi := find_split_hole_snd i '.'
  unfold validate_ipv4address
  simp only [bind_snd, find_split_hole_fst]
  rcases h : Verif.find_split_hole i '.' with _ | ⟨a, r⟩
  · simp only [ret_snd]; omega
  · have h1 := hi.1 _ _ h
    have ha := is_dec_octet_snd a
    have hr := find_split_hole_snd r '.'
    simp only
    refine Nat.le_trans (Nat.add_le_add_left (and_le _ _) _) ?_
    simp only [bind_snd, find_split_hole_fst]
    rcases h' : Verif.find_split_hole r '.' with _ | ⟨b, q⟩
    · simp only [ret_snd]; omega
    · have h1' := hr.1 _ _ h'
      have hb := is_dec_octet_snd b
      have hq := find_split_hole_snd q '.'
      simp only
      refine Nat.le_trans (Nat.add_le_add_left (Nat.add_le_add_left (Nat.add_le_add_left (and_le _ _) _) _) _) ?_
      simp only [bind_snd, find_split_hole_fst]
      rcases h'' : Verif.find_split_hole q '.' with _ | ⟨c, d⟩
      · simp only [ret_snd]; omega
      · have h1'' := hq.1 _ _ h''
        have hc := is_dec_octet_snd c
        have hd := is_dec_octet_snd d
        have := and_le (is_dec_octet c) (is_dec_octet d)
        simp only
        omega

/-- Length of what is left of the address. -/
def restLen : Option (Str × V6AddrPart) → Nat
  | some (r, _) => blen r
  | none => 0

theorem split_v6_addr_part_snd (i : Str) :
    (split_v6_addr_part i).2 + 3 * restLen (Verif.split_v6_addr_part i) ≤ 3 * blen i := by
  have hi := find_split_hole_snd i ':'
  rw [← split_v6_addr_part_fst]
  unfold split_v6_addr_part
  simp only [bind_snd, bind_fst, find_split_hole_fst]
  rcases h : Verif.find_split_hole i ':' with _ | ⟨a, r⟩
  · simp only
    split
    · have h4 := validate_ipv4address_snd i
      simp only [bind_snd, bind_fst]
      rcases (validate_ipv4address i).1 <;> simp only [ret_fst, ret_snd, restLen, blen_nil] <;> omega
    · have h4 := all_snd isHex i
      simp only [bind_snd, bind_fst]
      rcases (all isHex i).1 <;> simp only [ret_fst, ret_snd, restLen, blen_nil] <;> omega
  · have h1 := hi.1 _ _ h
    simp only
    split
    · simp only [ret_fst, ret_snd, restLen]; omega
    · split
      · simp only [bind_snd, bind_fst, strip_ascii_char_prefix_fst]
        have hc : (strip_ascii_char_prefix r ':').2 ≤ 1 := by unfold strip_ascii_char_prefix; simp only; omega
        rcases h2 : Verif.strip_ascii_char_prefix r ':' with _ | q
        · simp only [ret_fst, ret_snd, restLen]; omega
        · have := strip_char_len h2
          simp only [ret_fst, ret_snd, restLen]; omega
      · have h4 := all_snd isHex a
        simp only [bind_snd, bind_fst]
        rcases (all isHex a).1
        · simp only [ret_fst, ret_snd, restLen]; omega
        · simp only [bind_snd, bind_fst, strip_ascii_char_prefix_fst]
          have hc : (strip_ascii_char_prefix r ':').2 ≤ 1 := by unfold strip_ascii_char_prefix; simp only; omega
          rcases h2 : Verif.strip_ascii_char_prefix r ':' with _ | q
          · simp only [ret_fst, ret_snd, restLen]; omega
          · have := strip_char_len h2
            simp only [ret_fst, ret_snd, restLen]; omega

theorem v6_loop_snd : ∀ (f : Nat) (i : Str) (h : Nat) (o : Bool), (v6_loop f i h o).2 ≤ 3 * blen i
  | 0, i, h, o => by simp [v6_loop]
  | f + 1, i, h, o => by
    unfold v6_loop
    split
    · simp
    · have hp := split_v6_addr_part_snd i
      simp only [bind_snd, split_v6_addr_part_fst]
      rcases hs : Verif.split_v6_addr_part i with _ | ⟨rest, _ | _ | _ | _ | _⟩ <;> rw [hs] at hp <;>
        simp only [restLen] at hp ⊢
      · simp only [ret_snd]; omega
      · split
        · simp only [ret_snd]; omega
        · split
          · simp only [ret_snd]; omega
          · have := v6_loop_snd f rest (h + 1) true; omega
      · split
        · simp only [ret_snd]; omega
        · split
          · simp only [ret_snd]; omega
          · have := v6_loop_snd f rest (h + 1) o; omega
      · simp only [ret_snd]; omega
      · simp only [ret_snd]; omega
      · split
        · simp only [ret_snd]; omega
        · split
          · simp only [ret_snd]; omega
          · have := v6_loop_snd f rest h true; omega

theorem validate_host_snd (S : Spec) (i : Str) : (validate_host S i).2 ≤ 3 * blen i := by
  unfold validate_host
  simp only [bind_snd, get_wrapped_inner_fst]
  have hg : (get_wrapped_inner i '[' ']').2 = min 2 (blen i) := rfl
  rcases h : Verif.get_wrapped_inner i '[' ']' with _ | m
  · have := satisfy_snd is_ascii_regname (is_nonascii_regname S) i
    simp only; omega
  · have hm := wrapped_len h
    simp only [bind_snd, bind_fst, strip_ascii_char_prefix_fst]
    have hx : (strip_ascii_char_prefix m 'v').2 ≤ 1 := by unfold strip_ascii_char_prefix; simp only; omega
    have hy : (if (Verif.strip_ascii_char_prefix m 'v').isSome = true then ret none
        else strip_ascii_char_prefix m 'V').2 ≤ 1 := by
      split
      · simp
      · unfold strip_ascii_char_prefix; simp only; omega
    have e : (Verif.strip_ascii_char_prefix m 'v').or
        (if (Verif.strip_ascii_char_prefix m 'v').isSome = true then ret none
          else strip_ascii_char_prefix m 'V').1
        = (Verif.strip_ascii_char_prefix m 'v').or (Verif.strip_ascii_char_prefix m 'V') := by
      cases Verif.strip_ascii_char_prefix m 'v' <;> rfl
    rw [e]
    rcases ho : (Verif.strip_ascii_char_prefix m 'v').or (Verif.strip_ascii_char_prefix m 'V') with _ | r
    · have := v6_loop_snd m.length m 0 false
      simp only [validate_ipv6address]
      omega
    · have hr : blen r + 1 ≤ blen m := by
        rw [Option.or_eq_some_iff] at ho
        rcases ho with ho | ⟨_, ho⟩ <;> exact strip_char_len ho
      have hf := find_split_hole_snd r '.'
      simp only [bind_snd, find_split_hole_fst]
      rcases h3 : Verif.find_split_hole r '.' with _ | ⟨v, a⟩
      · simp only [ret_snd]; omega
      · have h4 := hf.1 _ _ h3
        have h5 := all_snd isHex v
        have h6 := all_snd isAscii a
        have h7 := all_snd is_ascii_userinfo_ipvfutureaddr a
        have h8 := and_le (all isAscii a) (all is_ascii_userinfo_ipvfutureaddr a)
        simp only
        by_cases hv : v.isEmpty = true
        · simp only [hv, if_true, ret_snd]; omega
        · simp only [hv, Bool.false_eq_true, if_false]
          by_cases hz : a.isEmpty = true
          · have := and_le (all isHex v) (ret false)
            simp only [hz, if_true, ret_snd] at this ⊢
            omega
          · simp only [hz, Bool.false_eq_true, if_false]
            have := and_le (all isHex v) (and (all isAscii a) (all is_ascii_userinfo_ipvfutureaddr a))
            omega

theorem rfindSplitHoleP_len (p : Char → Bool) (s : Str) : ∀ a c b, Verif.rfindSplitHoleP p s = some (a, c, b) →
    blen a + c.utf8Size + blen b = blen s := by
  induction s with
  | nil => simp [Verif.rfindSplitHoleP]
  | cons d r ih =>
    intro a c b h
    unfold Verif.rfindSplitHoleP at h
    rcases h2 : Verif.rfindSplitHoleP p r with _ | ⟨a', c', b'⟩ <;> rw [h2] at h <;> simp only at h
    · split at h
      · cases h; simp
      · simp at h
    · cases h
      have := ih _ _ _ h2
      simp only [blen_cons]
      omega

theorem rfind_split_hole_len {s a b : Str} {n : Char} (h : Verif.rfind_split_hole s n = some (a, b)) :
    blen a + blen b ≤ blen s := by
  unfold Verif.rfind_split_hole at h
  rw [Option.map_eq_some_iff] at h
  obtain ⟨⟨a', c, b'⟩, h1, h2⟩ := h
  cases h2
  have := rfindSplitHoleP_len _ _ _ _ _ h1
  dsimp only
  omega

theorem hostPort_snd (S : Spec) (i : Str) : (hostPort S i).2 ≤ 5 * blen i := by
  have hr := rfind_split_hole_snd i ':'
  have hh := validate_host_snd S i
  unfold hostPort
  simp only [bind_snd, rfind_split_hole_fst]
  rcases h : Verif.rfind_split_hole i ':' with _ | ⟨a, b⟩
  · simp only; omega
  · have hl := rfind_split_hole_len h
    have hb := all_snd isDigit b
    have ha := validate_host_snd S a
    simp only [bind_snd]
    split <;> omega

theorem validate_authority_snd (S : Spec) (i : Str) : (validate_authority S i).2 ≤ 6 * blen i := by
  have hf := find_split_hole_snd i '@'
  unfold validate_authority
  simp only [bind_snd, find_split_hole_fst]
  rcases h : Verif.find_split_hole i '@' with _ | ⟨a, b⟩
  · have := hostPort_snd S i
    simp only; omega
  · have h1 := hf.1 _ _ h
    have h2 := and_le (validate_userinfo S a) (hostPort S b)
    have h3 : (validate_userinfo S a).2 ≤ blen a := satisfy_snd _ _ _
    have h4 := hostPort_snd S b
    simp only; omega

theorem validate_path_abempty_snd (S : Spec) (i : Str) : (validate_path_abempty S i).2 ≤ blen i := by
  unfold validate_path_abempty
  have hs : (strip_prefix i ['/']).2 = min 1 (blen i) := by unfold strip_prefix; rw [blen_slash1]
  split
  · simp
  · simp only [bind_snd, strip_prefix_fst]
    rcases h : Verif.strip_prefix i ['/'] with _ | r
    · simp only [ret_snd]; omega
    · have := slash_len h
      have := satisfy_snd is_ascii_pchar_slash S.is_nonascii_char_unreserved r
      simp only; omega

theorem validate_authority_path_abempty_snd (S : Spec) (i : Str) :
    (validate_authority_path_abempty S i).2 ≤ 7 * blen i := by
  have hf := findSplitP_snd (· == '/') i
  unfold validate_authority_path_abempty find_split
  simp only [bind_snd, findSplitP_fst]
  rcases h : Verif.findSplitP (· == '/') i with _ | ⟨a, b⟩
  · have h1 := validate_authority_snd S i
    have h2 := validate_path_abempty_snd S []
    have h3 := and_le (validate_authority S i) (validate_path_abempty S [])
    simp only [Option.getD_none, blen_nil] at *
    omega
  · have h0 := (hf.1 _ _ h).2
    have h1 := validate_authority_snd S a
    have h2 := validate_path_abempty_snd S b
    have h3 := and_le (validate_authority S a) (validate_path_abempty S b)
    simp only [Option.getD_some]
    omega

theorem validate_after_path_snd (S : Spec) (c : Char) (r : Str) (a : Bool) :
    (validate_after_path S c r a).2 ≤ 2 * blen r := by
  unfold validate_after_path
  simp only [bind_snd]
  refine Nat.le_trans (Nat.add_le_add_left (and_le _ _) _) ?_
  have hsum : (splitQuery c r).2 + blen (splitQuery c r).1.1 + blen (splitQuery c r).1.2 ≤ 2 * blen r := by
    unfold splitQuery
    split
    · have hf := find_split_hole_snd r '#'
      simp only [bind_snd, bind_fst, find_split_hole_fst, ret_fst, ret_snd]
      rcases h : Verif.find_split_hole r '#' with _ | ⟨q, f⟩
      · simp only [Option.getD_none, blen_nil]; omega
      · have := hf.1 _ _ h
        simp only [Option.getD_some]; omega
    · simp only [ret_fst, ret_snd, blen_nil]; omega
  have h1 : (validate_query S (splitQuery c r).1.1).2 ≤ blen (splitQuery c r).1.1 := satisfy_snd _ _ _
  have h2 : (if (!a && !(splitQuery c r).1.2.isEmpty) = true then ret false
      else validate_fragment S (splitQuery c r).1.2).2 ≤ blen (splitQuery c r).1.2 := by
    split
    · simp
    · exact satisfy_snd _ _ _
  omega

/-- Length of what is after the path. -/
def afterLen : Option (Char × Str) → Nat
  | some (_, r) => blen r
  | none => 0

theorem splitPath_snd (i : Str) :
    (splitPath i).2 + blen (splitPath i).1.1 + 2 * afterLen (splitPath i).1.2 ≤ 2 * blen i := by
  have hf := find_split2_hole_snd i '?' '#'
  unfold splitPath
  simp only [bind_snd, bind_fst, find_split2_hole_fst]
  rcases h : Verif.find_split2_hole i '?' '#' with _ | ⟨p, c, b⟩
  · simp only [ret_fst, ret_snd, afterLen]; omega
  · have := hf.1 _ _ _ h
    simp only [ret_fst, ret_snd, afterLen]; omega

theorem after_snd (S : Spec) (a : Bool) (o : Option (Char × Str)) :
    (after S a o).2 ≤ 2 * afterLen o := by
  rcases o with _ | ⟨c, r⟩
  · simp [after]
  · exact validate_after_path_snd S c r a

theorem splitPath_le (i : Str) : blen (splitPath i).1.1 ≤ blen i := by
  have hf := find_split2_hole_snd i '?' '#'
  unfold splitPath
  simp only [bind_fst, find_split2_hole_fst]
  rcases h : Verif.find_split2_hole i '?' '#' with _ | ⟨p, c, b⟩
  · simp only [ret_fst]; omega
  · have := hf.1 _ _ _ h
    simp only [ret_fst]; omega

theorem validate_hier_snd (S : Spec) (pathv : Str → T (Option Bool)) (a : Bool) (i : Str)
    (hv : ∀ p, (pathv p).2 ≤ 4 * blen p) : (validate_hier S pathv a i).2 ≤ 8 * blen i := by
  unfold validate_hier
  have hs : (strip_prefix i ['/', '/']).2 = min 2 (blen i) := by unfold strip_prefix; rw [blen_dslash2]
  simp only [bind_snd, strip_prefix_fst]
  rcases h : Verif.strip_prefix i ['/', '/'] with _ | j
  · have h1 := splitPath_snd i
    have h2 := splitPath_le i
    have h3 := hv (splitPath i).1.1
    have h4 := after_snd S a (splitPath i).1.2
    simp only [bind_snd]
    rcases (pathv (splitPath i).1.1).1 with _ | b
    · simp only [ret_snd]; omega
    · have h5 := and_le (ret b) (after S a (splitPath i).1.2)
      simp only [wrap_snd, ret_snd] at h5 ⊢
      omega
  · have hl := dslash_len h
    have h1 := splitPath_snd j
    have h2 := splitPath_le j
    have h3 := validate_authority_path_abempty_snd S (splitPath j).1.1
    have h4 := after_snd S a (splitPath j).1.2
    have h5 := and_le (validate_authority_path_abempty S (splitPath j).1.1) (after S a (splitPath j).1.2)
    simp only [bind_snd, wrap_snd]
    omega

theorem path_absolute_snd (S : Spec) (i : Str) :
    (validate_path_absolute_authority_absent S i).2 ≤ 4 * blen i := by
  unfold validate_path_absolute_authority_absent
  have hs : (starts_with i ['/', '/']).2 = min 2 (blen i) := by unfold starts_with; rw [blen_dslash2]
  have := satisfy_snd is_ascii_pchar_slash S.is_nonascii_char_unreserved i
  split
  · simp
  · simp only [bind_snd]
    split
    · simp only [ret_snd]; omega
    · simp only [wrap_snd]; omega

theorem path_relative_snd (S : Spec) (i : Str) :
    (validate_path_relative_authority_absent S i).2 ≤ 4 * blen i := by
  unfold validate_path_relative_authority_absent
  have hs : (starts_with i ['/', '/']).2 = min 2 (blen i) := by unfold starts_with; rw [blen_dslash2]
  have := satisfy_snd is_ascii_pchar_slash S.is_nonascii_char_unreserved i
  have hf := find_split2_hole_snd i '/' ':'
  simp only [bind_snd]
  split
  · simp only [ret_snd]; omega
  · simp only [bind_snd, find_split2_hole_fst]
    rcases Verif.find_split2_hole i '/' ':' with _ | ⟨p, c, b⟩
    · simp only [wrap_snd]; omega
    · simp only
      split
      · simp only [wrap_snd]; omega
      · simp only [ret_snd]; omega

theorem common_snd (S : Spec) (i : Str) (rule : UriReferenceRule) :
    (validate_uri_reference_common S i rule).2 ≤ 10 * blen i := by
  have hrel : (validate_relative_ref S i).2 ≤ 8 * blen i :=
    validate_hier_snd S _ true i (path_relative_snd S)
  have hf := find_split_hole_snd i ':'
  unfold validate_uri_reference_common
  simp only [bind_snd, find_split_hole_fst]
  rcases h : Verif.find_split_hole i ':' with _ | ⟨s, r⟩
  · simp only
    split
    · omega
    · simp only [ret_snd]; omega
  · have h1 := hf.1 _ _ h
    have h2 := validate_scheme_snd s
    have h3 := validate_hier_snd S _ rule.is_fragment_allowed r (path_absolute_snd S)
    simp only [bind_snd]
    split
    · split
      · omega
      · simp only [ret_snd]; omega
    · omega

/-! ### Lower bound: an accepted text has been looked at in full -/

theorem satisfy_full (pa pn : Char → Bool) : ∀ (n : Nat) (s : Str), s.length ≤ n →
    (satisfy pa pn s).1 = true → (satisfy pa pn s).2 = blen s
  | n, [], _, _ => by simp [satisfy]
  | 0, c :: r, h, _ => by simp at h
  | n + 1, c :: r, h, ht => by
    have hr := satisfy_full pa pn n r (by simpa using h)
    unfold satisfy at ht ⊢
    rw [blen_cons]
    by_cases h1 : isAscii c = true
    · by_cases h2 : (c == '%') = true
      · simp only [h1, h2, if_true] at ht ⊢
        rcases r with _ | ⟨x, _ | ⟨y, r'⟩⟩
        · simp at ht
        · simp at ht
        · have hr' := satisfy_full pa pn n r' (by simp at h; omega)
          simp only [Bool.and_eq_true] at ht
          have := hr' ht.2
          simp only [ht.1.1, ht.1.2, if_true, blen_cons]
          omega
      · simp only [h1, h2, if_true, Bool.false_eq_true, if_false, and_fst, Bool.and_eq_true] at ht ⊢
        unfold and
        simp only [ht.1, if_true]
        have := hr ht.2
        omega
    · simp only [h1, Bool.false_eq_true, if_false, and_fst, Bool.and_eq_true] at ht ⊢
      unfold and
      simp only [ht.1, if_true]
      have := hr ht.2
      omega

theorem and_true {x y : T Bool} (h : (and x y).1 = true) : x.1 = true ∧ y.1 = true ∧ (and x y).2 = x.2 + y.2 := by
  rw [and_fst, Bool.and_eq_true] at h
  refine ⟨h.1, h.2, ?_⟩
  unfold and
  simp [h.1]

theorem findSplitHoleP_none (p : Char → Bool) (s : Str) (h : Verif.findSplitHoleP p s = none) :
    (findSplitHoleP p s).2 = blen s := by
  induction s with
  | nil => rfl
  | cons c r ih =>
    unfold Verif.findSplitHoleP at h
    unfold findSplitHoleP
    by_cases hc : p c = true
    · simp [hc] at h
    · simp only [hc, Bool.false_eq_true, if_false, Option.map_eq_none_iff] at h ⊢
      rw [ih h, blen_cons]

theorem validate_after_path_full {S : Spec} {c : Char} {r : Str} {a : Bool}
    (h : (validate_after_path S c r a).1 = true) : blen r ≤ (validate_after_path S c r a).2 := by
  unfold validate_after_path at h ⊢
  simp only [bind_fst, bind_snd] at h ⊢
  obtain ⟨h1, h2, h3⟩ := and_true h
  rw [h3]
  have e1 := satisfy_full _ _ _ _ (Nat.le_refl _) h1
  have e2 : (if (!a && !(splitQuery c r).1.2.isEmpty) = true then ret false
      else validate_fragment S (splitQuery c r).1.2).2 = blen (splitQuery c r).1.2 := by
    split at h2
    · simp at h2
    · next hn => rw [if_neg hn]; exact satisfy_full _ _ _ _ (Nat.le_refl _) h2
  rw [e2]
  have e3 : (validate_query S (splitQuery c r).1.1).2 = blen (splitQuery c r).1.1 := e1
  rw [e3]
  unfold splitQuery
  split
  · have hf := find_split_hole_snd r '#'
    simp only [bind_snd, bind_fst, find_split_hole_fst, ret_fst, ret_snd]
    rcases h : Verif.find_split_hole r '#' with _ | ⟨q, f⟩
    · simp only [Option.getD_none, blen_nil]; omega
    · have := hf.1 _ _ h
      simp only [Option.getD_some]; omega
  · simp only [ret_fst, ret_snd, blen_nil]; omega

theorem splitPath_full {S : Spec} {a : Bool} {i : Str} (h : (after S a (splitPath i).1.2).1 = true) :
    blen i ≤ (splitPath i).2 + (after S a (splitPath i).1.2).2 := by
  have hf := find_split2_hole_snd i '?' '#'
  unfold splitPath at h ⊢
  simp only [bind_snd, bind_fst, find_split2_hole_fst] at h ⊢
  rcases h2 : Verif.find_split2_hole i '?' '#' with _ | ⟨p, c, b⟩
  · have : (find_split2_hole i '?' '#').2 = blen i := findSplitHoleP_none _ _ h2
    omega
  · rw [h2] at h
    have h3 := hf.1 _ _ _ h2
    have := validate_after_path_full h
    simp only [ret_fst, after, ret_snd]
    omega

theorem validate_hier_full {S : Spec} {pathv : Str → T (Option Bool)} {a : Bool} {i : Str}
    (h : (validate_hier S pathv a i).1 = some true) : blen i ≤ (validate_hier S pathv a i).2 := by
  unfold validate_hier at h ⊢
  have hs : (strip_prefix i ['/', '/']).2 = min 2 (blen i) := by unfold strip_prefix; rw [blen_dslash2]
  simp only [bind_snd, bind_fst, strip_prefix_fst] at h ⊢
  rcases h0 : Verif.strip_prefix i ['/', '/'] with _ | j <;> rw [h0] at h
  · simp only [bind_snd, bind_fst] at h ⊢
    rcases hp : (pathv (splitPath i).1.1).1 with _ | b <;> rw [hp] at h
    · simp at h
    · simp only [wrap_fst, Option.some.injEq] at h
      obtain ⟨h1, h2, h3⟩ := and_true h
      have := splitPath_full h2
      simp only [wrap_snd, h3]
      omega
  · have hl := dslash_len h0
    simp only [bind_snd, bind_fst, wrap_fst, Option.some.injEq] at h ⊢
    obtain ⟨h1, h2, h3⟩ := and_true h
    have := splitPath_full h2
    simp only [wrap_snd, h3]
    omega

theorem common_full {S : Spec} {i : Str} {rule : UriReferenceRule}
    (h : Verif.validate_uri_reference_common S i rule = some true) :
    blen i ≤ (validate_uri_reference_common S i rule).2 := by
  rw [← common_fst] at h
  have hf := find_split_hole_snd i ':'
  unfold validate_uri_reference_common at h ⊢
  simp only [bind_fst, bind_snd, find_split_hole_fst] at h ⊢
  rcases h0 : Verif.find_split_hole i ':' with _ | ⟨s, r⟩ <;> rw [h0] at h
  · simp only at h ⊢
    split at h
    · next hr =>
      rw [if_pos hr]
      have := validate_hier_full h
      unfold validate_relative_ref
      omega
    · simp at h
  · have h1 := hf.1 _ _ h0
    simp only [bind_fst, bind_snd] at h ⊢
    split at h
    · next hb =>
      rw [if_pos hb]
      split at h
      · next hr =>
        rw [if_pos hr]
        have := validate_hier_full h
        unfold validate_relative_ref
        omega
      · simp at h
    · next hb =>
      rw [if_neg hb]
      have hsch : (validate_scheme s).1 = true := by simpa using hb
      have := validate_hier_full h
      omega

end Work

/-- **C85 (the counter changes nothing).**  The validators with the counter give the verdicts of the
validators. -/
theorem C85_same (S : Spec) (i : Str) :
    (Work.validate_uri S i).1 = validate_uri S i ∧
    (Work.validate_uri_reference S i).1 = validate_uri_reference S i ∧
    (Work.validate_absolute_uri S i).1 = validate_absolute_uri S i ∧
    (Work.validate_relative_ref S i).1 = validate_relative_ref S i := by
  refine ⟨Work.common_fst S i .Absolute, Work.common_fst S i .Any,
    Work.common_fst S i .AbsoluteWithoutFragment, ?_⟩
  unfold Work.validate_relative_ref
  rw [Work.validate_hier_fst]
  simp only [Work.validate_path_relative_authority_absent_fst]
  rfl

/-- **C85 (linear).**  Whatever the text, accepted or not, validating it looks at no more than ten bytes per
byte of the text. -/
theorem C85_linear (S : Spec) (i : Str) :
    (Work.validate_uri S i).2 ≤ 10 * blen i ∧ (Work.validate_uri_reference S i).2 ≤ 10 * blen i ∧
    (Work.validate_absolute_uri S i).2 ≤ 10 * blen i ∧ (Work.validate_relative_ref S i).2 ≤ 8 * blen i :=
  ⟨Work.common_snd S i .Absolute, Work.common_snd S i .Any, Work.common_snd S i .AbsoluteWithoutFragment,
    Work.validate_hier_snd S _ true i (Work.path_relative_snd S)⟩

/-- **C85 (nothing is accepted unread).**  A text that is accepted has been looked at at least once per byte:
the bound is met up to the factor, and the counter does count. -/
theorem C85_full (S : Spec) (i : Str) :
    (validate_uri S i = some true → blen i ≤ (Work.validate_uri S i).2) ∧
    (validate_uri_reference S i = some true → blen i ≤ (Work.validate_uri_reference S i).2) ∧
    (validate_absolute_uri S i = some true → blen i ≤ (Work.validate_absolute_uri S i).2) :=
  ⟨Work.common_full, Work.common_full, Work.common_full⟩

/-- A text with all components: 54 bytes, 148 looks.  A rejected text: 22 bytes, 81 looks. -/
example : Work.validate_uri .uri (chars! "http://user:pw@[2001:db8::1]:8080/a/b%20c?q=1&r=2#frag") = (some true, 148) ∧
    blen (chars! "http://user:pw@[2001:db8::1]:8080/a/b%20c?q=1&r=2#frag") = 54 ∧
    Work.validate_uri_reference .uri (chars! "//[1:2:3:4:5:6:7.7.7.7") = (some false, 81) ∧
    blen (chars! "//[1:2:3:4:5:6:7.7.7.7") = 22 := by
  decide +kernel

end Verif
