import Verif.Lemmas.Edit
import Verif.Spec.Edit
import Verif.Spec.Lit

/-!
# C25 password masking, C26 password removal, C27 host replacement

`k` ranges over the four string types; `debug` over builds with and without debug assertions.
-/

namespace Verif

open Rfc

section
variable {S : Spec} {p : Parts} {a : AuthParts} {user pw : Str}

theorem withUserinfo_text (u : Str) : withUserinfo p a u =
    preAuth p ++ (u ++ ('@' :: (a.host ++ optSuf [':'] a.port) ++ postAuth p)) := by
  unfold withUserinfo withAuthority
  rw [recompose_setAuth]
  simp [AuthParts.recompose, optPre]

theorem recompose_userinfo {u : Str} (ha : p.authority = some a.recompose) (hu : a.userinfo = some u) :
    p.recompose = preAuth p ++ (u ++ ('@' :: (a.host ++ optSuf [':'] a.port) ++ postAuth p)) := by
  rw [recompose_auth _ ha]
  simp [AuthParts.recompose, optPre, hu]

theorem withUserinfo_valid {k : IriKind} (h : p.Valid S) (hk : k.Fits p)
    (ha : p.authority = some a.recompose) (hv : a.Valid S) {u : Str} (hu : userinfo S u) :
    k.validate S (withUserinfo p a u) = some true :=
  setAuth_kind (a := { a with userinfo := some u }) h hk (by simp [ha])
    ⟨fun x hx => by cases hx; exact hu, hv.host, hv.port⟩

theorem userinfo_split (h : userinfo S (user ++ ':' :: pw)) :
    userinfo S user ∧ userinfo S (user ++ [':']) ∧
      (∀ q, userinfo S q → userinfo S (user ++ ':' :: q)) := by
  simp only [userinfo_iff] at *
  have := (PC_append_cons (by decide) (by decide)).1 h
  exact ⟨this.1, (PC_append_cons (by decide) (by decide)).2 ⟨this.1, this.2.1, .nil⟩,
    fun q hq => (PC_append_cons (by decide) (by decide)).2 ⟨this.1, this.2.1, hq⟩⟩

theorem Rfc.HasPassword.range (hv : p.Valid S) (h : HasPassword S p a user pw) :
    password_range_to_hide p.recompose = some (some (blen (preAuth p ++ (user ++ [':'])),
      blen (preAuth p ++ (user ++ [':'])) + blen pw)) := by
  rw [password_range_some hv h.authority h.valid h.userinfo, findChar_eq h.first]
  have e1 : (':').utf8Size = 1 := by decide
  simp [e1]
  omega

theorem Rfc.HasPassword.text (h : HasPassword S p a user pw) :
    p.recompose = (preAuth p ++ (user ++ [':'])) ++ (pw ++
      ('@' :: (a.host ++ optSuf [':'] a.port) ++ postAuth p)) := by
  rw [recompose_userinfo h.authority h.userinfo]
  simp

/-- The userinfo without a colon. -/
theorem range_no_colon (hv : p.Valid S) (ha : p.authority = some a.recompose) (hav : a.Valid S)
    {u : Str} (hu : a.userinfo = some u) (hc : ':' ∉ u) :
    password_range_to_hide p.recompose = some (some (blen (preAuth p ++ u), blen (preAuth p ++ u))) := by
  rw [password_range_some hv ha hav hu, findChar_none hc]
  simp

theorem no_password_cases (hv : p.Valid S) (h : ∀ a user pw, ¬ HasPassword S p a user pw) :
    password_range_to_hide p.recompose = some none ∨
    ∃ a u, p.authority = some a.recompose ∧ AuthParts.Valid S a ∧ a.userinfo = some u ∧ ':' ∉ u := by
  cases ha : p.authority with
  | none => exact .inl (password_range_none hv (by simp [ha]))
  | some x =>
    obtain ⟨a, hav, rfl⟩ := (authority_auth_parts S x).1 (hv.authority x ha)
    cases hu : a.userinfo with
    | none =>
      left
      refine password_range_none hv fun b hb e => ?_
      rw [ha] at e
      rw [← auth_recompose_inj hav hb (Option.some.inj e), hu]
    | some u =>
      right
      refine ⟨a, u, rfl, hav, hu, fun hm => ?_⟩
      obtain ⟨s, t, e, hs⟩ := List.eq_append_cons_of_mem hm
      exact h a s t ⟨hav, ha, by rw [hu, e], hs⟩

end

/-- **C25**: with a password, `mask_password()` displays the text with exactly the password removed,
`to_dedicated_string()` gives the same text, it is again a valid value of the type, and
`replace_password`/`replace_password_with` display the replacement in the place of the password. -/
theorem C25_mask_password (S : Spec) (k : IriKind) (s : Str) (h : k.validate S s = some true)
    (p : Parts) (hp : p.Valid S ∧ p.recompose = s) (a : AuthParts) (user pw : Str)
    (hw : HasPassword S p a user pw) :
    mask_password s = some (withUserinfo p a (user ++ [':'])) ∧
    mask_password_dedicated s = some (withUserinfo p a (user ++ [':'])) ∧
    k.validate S (withUserinfo p a (user ++ [':'])) = some true ∧
    ∀ f : Str → Str, replace_password_with s f = some (withUserinfo p a (user ++ ':' :: f pw)) := by
  obtain ⟨hv, rfl⟩ := hp
  have hr := hw.range hv
  have ht := hw.text
  have h1 := sliceTo_eq ht rfl
  have h2 := sliceFrom_eq (s := p.recompose) (a := preAuth p ++ (user ++ [':']) ++ pw)
    (b := '@' :: (a.host ++ optSuf [':'] a.port) ++ postAuth p) (by rw [ht]; simp) rfl
  rw [blen_append _ pw] at h2
  refine ⟨?_, ?_, ?_, fun f => ?_⟩
  · unfold mask_password write_with_masked_password
    rw [hr]
    simp only [Option.bind_eq_bind, Option.bind_some, h1, h2, withUserinfo_text]
    simp
  · unfold mask_password_dedicated
    rw [hr]
    simp only [Option.bind_eq_bind, Option.bind_some, h1, h2, withUserinfo_text]
    simp
  · obtain ⟨q, hqv, hqf, hq⟩ := (kind_validate_iff S k _).1 h
    rw [recompose_inj hqv.delim hv.delim hq] at hqf
    exact withUserinfo_valid hv hqf hw.authority hw.valid
      (userinfo_split (hw.valid.userinfo _ hw.userinfo)).2.1
  · unfold replace_password_with write_with_masked_password
    rw [hr]
    simp only [Option.bind_eq_bind, Option.bind_some, h1, h2,
      slice_eq ht rfl rfl, withUserinfo_text]
    simp

/-- **C25**: without a password, `mask_password()` displays the text as it is. -/
theorem C25_mask_no_password (S : Spec) (s : Str) (p : Parts) (hp : p.Valid S ∧ p.recompose = s)
    (hn : ∀ a user pw, ¬ HasPassword S p a user pw) :
    mask_password s = some s ∧ mask_password_dedicated s = some s := by
  obtain ⟨hv, rfl⟩ := hp
  rcases no_password_cases hv hn with hr | ⟨a, u, ha, hav, hu, hc⟩
  · unfold mask_password mask_password_dedicated
    rw [hr]
    exact ⟨rfl, rfl⟩
  · have hr := range_no_colon hv ha hav hu hc
    have ht : p.recompose = preAuth p ++ u ++ ('@' :: (a.host ++ optSuf [':'] a.port) ++ postAuth p) := by
      rw [recompose_userinfo ha hu, List.append_assoc]
    have h1 := sliceTo_eq ht rfl
    have h2 := sliceFrom_eq ht rfl
    unfold mask_password mask_password_dedicated write_with_masked_password
    rw [hr]
    simp only [Option.bind_eq_bind, Option.bind_some, h1, h2]
    rw [ht]
    exact ⟨rfl, rfl⟩

/-- **C25**: the output does not depend on the password: two references that differ in nothing but
their passwords are masked to the same text. -/
theorem C25_mask_hides (S : Spec) (p q : Parts) (hp : p.Valid S) (hq : q.Valid S) (a : AuthParts)
    (user pw pw' : Str) (hw : HasPassword S p a user pw)
    (hw' : HasPassword S q { a with userinfo := some (user ++ ':' :: pw') } user pw')
    (hd : q = { p with authority := q.authority }) :
    mask_password p.recompose = mask_password q.recompose := by
  have h1 := (C25_mask_password S .reference _ (validate_reference_of_parts hp) p ⟨hp, rfl⟩ _ _ _ hw).1
  have h2 := (C25_mask_password S .reference _ (validate_reference_of_parts hq) q ⟨hq, rfl⟩ _ _ _ hw').1
  rw [h1, h2, withUserinfo, withUserinfo, withAuthority, withAuthority, hd]

/-- **C25** (`replace_password_with`, no password), for references whose authority has no user
information.  Missing: user information without a colon, see `C25_replace_refuted`. -/
theorem C25_replace_no_userinfo_partial (S : Spec) (s : Str) (p : Parts)
    (hp : p.Valid S ∧ p.recompose = s)
    (hn : ∀ a : AuthParts, a.Valid S → p.authority = some a.recompose → a.userinfo = none)
    (f : Str → Str) : replace_password_with s f = some s := by
  obtain ⟨hv, rfl⟩ := hp
  unfold replace_password_with
  rw [password_range_none hv hn]
  rfl

/-- What `replace_password_with` does to user information without a colon. -/
theorem C25_replace_no_colon_partial (S : Spec) (s : Str) (p : Parts)
    (hp : p.Valid S ∧ p.recompose = s) (a : AuthParts) (ha : p.authority = some a.recompose)
    (hav : a.Valid S) (u : Str) (hu : a.userinfo = some u) (hc : ':' ∉ u) (f : Str → Str) :
    replace_password_with s f = some (withUserinfo p a (u ++ f [])) := by
  obtain ⟨hv, rfl⟩ := hp
  have hr := range_no_colon hv ha hav hu hc
  have ht : p.recompose = preAuth p ++ u ++
      ([] ++ ('@' :: (a.host ++ optSuf [':'] a.port) ++ postAuth p)) := by
    rw [recompose_userinfo ha hu, List.append_assoc]; rfl
  unfold replace_password_with write_with_masked_password
  rw [hr]
  simp only [Option.bind_eq_bind, Option.bind_some, sliceTo_eq ht rfl, sliceFrom_eq ht rfl,
    slice_eq ht rfl (Nat.add_zero _).symm, withUserinfo_text]
  simp

/-- **C25 is false of the code** for `replace_password` on user information without a password: the
replacement is put behind the user name. -/
theorem C25_replace_refuted :
    validate_uri .uri (chars! "http://user@example.com/") = some true ∧
    replace_password_with (chars! "http://user@example.com/") (fun _ => chars! "***") =
      some (chars! "http://user***@example.com/") := by decide +kernel

/-! ### C26 -/

/-- **C26**: with a password, `remove_password_inline()` removes exactly the password and the
colon before it and keeps the type's invariant.  Missing: references whose user information has no
colon, for which it is false (`C26_refuted`). -/
theorem C26_remove_password_partial (debug : Bool) (S : Spec) (k : IriKind) (s : Str)
    (h : k.validate S s = some true) (p : Parts) (hp : p.Valid S ∧ p.recompose = s) :
    (∀ a user pw, HasPassword S p a user pw →
      remove_password_inline debug S k s = some (withUserinfo p a user) ∧
      k.validate S (withUserinfo p a user) = some true) ∧
    ((∀ a : AuthParts, a.Valid S → p.authority = some a.recompose → a.userinfo = none) →
      remove_password_inline debug S k s = some s) := by
  obtain ⟨hv, rfl⟩ := hp
  refine ⟨fun a user pw hw => ?_, fun hn => ?_⟩
  · obtain ⟨q, hqv, hqf, hq⟩ := (kind_validate_iff S k _).1 h
    rw [recompose_inj hqv.delim hv.delim hq] at hqf
    have hok := withUserinfo_valid hv hqf hw.authority hw.valid
      (userinfo_split (hw.valid.userinfo _ hw.userinfo)).1
    refine ⟨?_, hok⟩
    have ht : p.recompose = (preAuth p ++ user) ++ ((':' :: pw) ++
        ('@' :: (a.host ++ optSuf [':'] a.port) ++ postAuth p)) := by
      rw [hw.text]; simp
    unfold remove_password_inline
    rw [hw.range hv]
    have e1 : (':').utf8Size = 1 := by decide
    have hx := replaceRange_eq (i := blen (preAuth p ++ (user ++ [':'])) - 1)
      (j := blen (preAuth p ++ (user ++ [':'])) + blen pw) [] ht (by simp [e1])
      (by simp [e1]; omega)
    simp only [Option.bind_eq_bind, Option.bind_some, hx]
    have e2 : preAuth p ++ user ++ ([] ++ ('@' :: (a.host ++ optSuf [':'] a.port) ++ postAuth p)) =
        withUserinfo p a user := by
      rw [withUserinfo_text]; simp
    rw [e2, hok]
    simp
  · unfold remove_password_inline
    rw [password_range_none hv hn]
    rfl

/-- **C26**: `remove_nonempty_password_inline()` removes exactly the password if it is there and
not empty, and does nothing otherwise; the result is what `mask_password()` displays. -/
theorem C26_remove_nonempty_password (debug : Bool) (S : Spec) (k : IriKind) (s : Str)
    (h : k.validate S s = some true) (p : Parts) (hp : p.Valid S ∧ p.recompose = s) :
    (∀ a user pw, HasPassword S p a user pw →
      remove_nonempty_password_inline debug S k s = some (withUserinfo p a (user ++ [':'])) ∧
      k.validate S (withUserinfo p a (user ++ [':'])) = some true) ∧
    ((∀ a user pw, ¬ HasPassword S p a user pw) →
      remove_nonempty_password_inline debug S k s = some s) ∧
    remove_nonempty_password_inline debug S k s = mask_password s := by
  obtain ⟨hv, rfl⟩ := hp
  have A : ∀ a user pw, HasPassword S p a user pw →
      remove_nonempty_password_inline debug S k p.recompose =
        some (withUserinfo p a (user ++ [':'])) ∧
      k.validate S (withUserinfo p a (user ++ [':'])) = some true := by
    intro a user pw hw
    have hok := (C25_mask_password S k _ h p ⟨hv, rfl⟩ a user pw hw).2.2.1
    refine ⟨?_, hok⟩
    have ht := hw.text
    unfold remove_nonempty_password_inline
    rw [hw.range hv]
    simp only [Option.bind_eq_bind, Option.bind_some]
    by_cases h0 : pw = []
    · subst h0
      rw [if_pos (by simp), ht, withUserinfo_text]
      simp
    · have : blen pw ≠ 0 := fun e => h0 (blen_eq_zero.1 e)
      rw [if_neg (by omega), sliceTo_eq ht rfl, replaceRange_eq [] ht rfl rfl]
      have e2 : preAuth p ++ (user ++ [':']) ++
          ([] ++ ('@' :: (a.host ++ optSuf [':'] a.port) ++ postAuth p)) =
          withUserinfo p a (user ++ [':']) := by
        rw [withUserinfo_text]; simp
      have e3 : (preAuth p ++ (user ++ [':'])).getLast? = some ':' := by
        rw [← List.append_assoc]; simp
      simp only [Option.bind_some, e2, hok, e3]
      simp
  have B : (∀ a user pw, ¬ HasPassword S p a user pw) →
      remove_nonempty_password_inline debug S k p.recompose = some p.recompose := by
    intro hn
    unfold remove_nonempty_password_inline
    rcases no_password_cases hv hn with hr | ⟨a, u, ha, hav, hu, hc⟩
    · rw [hr]; rfl
    · rw [range_no_colon hv ha hav hu hc]
      simp
  refine ⟨A, B, ?_⟩
  by_cases hn : ∀ a user pw, ¬ HasPassword S p a user pw
  · rw [B hn, (C25_mask_no_password S _ p ⟨hv, rfl⟩ hn).1]
  · simp only [Classical.not_forall, Classical.not_not] at hn
    obtain ⟨a, user, pw, hw⟩ := hn
    rw [(A a user pw hw).1, (C25_mask_password S k _ h p ⟨hv, rfl⟩ a user pw hw).1]

/-- **C26 is false of the code** for user information without a colon: `remove_password_inline()`
deletes a character of the user name; with empty user information it deletes a slash of the `//`;
and it panics if that character is not ASCII. -/
theorem C26_refuted :
    (validate_uri .uri (chars! "http://user@example.com/") = some true ∧
      remove_password_inline false .uri .iri (chars! "http://user@example.com/") =
        some (chars! "http://use@example.com/")) ∧
    (validate_uri .uri (chars! "http://@example.com/") = some true ∧
      remove_password_inline false .uri .iri (chars! "http://@example.com/") =
        some (chars! "http:/@example.com/")) ∧
    (validate_uri .iri (chars! "http://é@example.com/") = some true ∧
      remove_password_inline false .iri .iri (chars! "http://é@example.com/") = none) := by
  decide +kernel

theorem splitAtB_inside {x : Str} {c : Char} {r : Str} {n : Nat} (h1 : blen x < n)
    (h2 : n < blen x + c.utf8Size) : splitAtB (x ++ c :: r) n = none := by
  cases h : splitAtB (x ++ c :: r) n with
  | none => rfl
  | some ab =>
    obtain ⟨a, b⟩ := ab
    obtain ⟨e, rfl⟩ := splitAtB_some.1 h
    exfalso
    rcases List.append_eq_append_iff.1 e with ⟨z, rfl, e2⟩ | ⟨z, rfl, e2⟩
    · cases z with
      | nil => simp at h1
      | cons d z =>
        have := (List.cons.inj e2).1
        subst this
        simp at h2
        omega
    · simp at h1; omega

/-- **C26**, exactly what `remove_password_inline()` does to user information without a colon: it
deletes the character before the first `@` (the last character of the user information, or a slash if
that is empty), and panics if that is not ASCII, or, in a debug build, if the result is invalid. -/
theorem C26_no_colon_exact (S : Spec) (k : IriKind) (s : Str) (p : Parts)
    (hp : p.Valid S ∧ p.recompose = s) (a : AuthParts) (ha : p.authority = some a.recompose)
    (hav : a.Valid S) (u : Str) (hu : a.userinfo = some u) (hc : ':' ∉ u) :
    ∃ x c y, s = x ++ c :: '@' :: y ∧ '@' ∉ x ∧ c ≠ '@' ∧
      remove_password_inline false S k s = (if c.toNat < 128 then some (x ++ '@' :: y) else none) ∧
      remove_password_inline true S k s =
        (if c.toNat < 128 ∧ k.validate S (x ++ '@' :: y) = some true then some (x ++ '@' :: y) else none) := by
  obtain ⟨hv, rfl⟩ := hp
  have hr := range_no_colon hv ha hav hu hc
  have ht : p.recompose = preAuth p ++ u ++ ('@' :: (a.host ++ optSuf [':'] a.port) ++ postAuth p) := by
    rw [recompose_userinfo ha hu, List.append_assoc]
  have hne : preAuth p ++ u ≠ [] := by simp [preAuth]
  obtain ⟨x, c, hxc⟩ : ∃ x c, preAuth p ++ u = x ++ [c] :=
    ⟨_, _, (List.dropLast_concat_getLast hne).symm⟩
  have hat : '@' ∉ preAuth p ++ u := by
    intro hm
    rcases List.mem_append.1 hm with h | h
    · unfold preAuth at h
      rcases List.mem_append.1 h with h | h
      · cases hs : p.scheme with
        | none => rw [hs] at h; cases h
        | some sc =>
          rw [hs] at h
          simp only [optPre, List.mem_append, List.mem_singleton] at h
          rcases h with h | h
          · exact scheme_not_mem (hv.scheme sc hs) (by decide) h
          · exact absurd h (by decide)
      · revert h; decide
    · exact userinfo_no_at (hav.userinfo u hu) h
  rw [hxc] at hat
  have ht' : p.recompose = x ++ ([c] ++ ('@' :: ((a.host ++ optSuf [':'] a.port) ++ postAuth p))) := by
    rw [ht, hxc]; simp
  generalize hy : (a.host ++ optSuf [':'] a.port) ++ postAuth p = y at ht'
  have hsz := c.utf8Size_pos
  have hrep : replaceRange p.recompose (blen (preAuth p ++ u) - 1) (blen (preAuth p ++ u)) [] =
      if c.toNat < 128 then some (x ++ '@' :: y) else none := by
    rw [hxc]
    split
    · next h =>
      have h1 : c.utf8Size = 1 := utf8Size_ascii h
      exact replaceRange_eq [] ht' (by simp [h1]) (by simp [h1])
    · next h =>
      have h1 : 1 < c.utf8Size := by
        rw [utf8Size_eq]
        simp only [utf8]
        rw [if_neg (by omega)]
        split
        · simp
        · split <;> simp
      unfold replaceRange
      rw [if_pos (by omega)]
      have : sliceTo p.recompose (blen (x ++ [c]) - 1) = none := by
        rw [ht']
        unfold sliceTo
        rw [List.singleton_append, splitAtB_inside (by simp; omega) (by simp; omega)]
        rfl
      rw [this]; rfl
  refine ⟨x, c, y, by rw [ht']; simp, fun h => hat (by simp [h]), fun h => hat (by simp [h]), ?_, ?_⟩
  · unfold remove_password_inline
    rw [hr]
    simp only [Option.bind_eq_bind, Option.bind_some, hrep]
    split <;> simp
  · unfold remove_password_inline
    rw [hr]
    simp only [Option.bind_eq_bind, Option.bind_some, hrep]
    by_cases h1 : c.toNat < 128
    · rw [if_pos h1]
      by_cases h2 : k.validate S (x ++ '@' :: y) = some true
      · simp [h1, h2]
      · simp [h1, h2]
    · simp [h1]

/-! ### C27 -/

section
variable {S : Spec} {p : Parts} {a : AuthParts}

theorem replace_domain_eq (hv : p.Valid S) (ha : p.authority = some a.recompose) (hav : a.Valid S)
    (new : Str) (only : Bool) :
    replace_domain_impl S p.recompose new only =
      some (if validate_host S new = true ∧ (only = true → is_host_reg_name a.host = true) then
        (withHost p a new, some (blen (preAuth p ++ optPre a.userinfo ['@']),
          blen (preAuth p ++ optPre a.userinfo ['@']) + blen new))
      else (p.recompose, none)) := by
  unfold replace_domain_impl
  rw [from_iri_get_offset_parts hv, ha, Option.map_some, decompose_authority_eq hav]
  simp only [offsets_host, Option.bind_eq_bind, Option.bind_some]
  cases h1 : validate_host S new with
  | false => simp
  | true =>
    cases h2 : (only && !is_host_reg_name a.host) with
    | true =>
      simp only [Bool.and_eq_true, Bool.not_eq_true'] at h2
      simp [h2]
    | false =>
      have h3 : only = true → is_host_reg_name a.host = true := by
        intro e; simpa [e] using h2
      rw [if_neg (by simp), if_neg (by simp), if_pos ⟨rfl, h3⟩]
      have ht : p.recompose = (preAuth p ++ optPre a.userinfo ['@']) ++ (a.host ++
          (optSuf [':'] a.port ++ postAuth p)) := by
        rw [recompose_auth _ ha]; simp [AuthParts.recompose]
      have he : a.offsets.host_start = blen (optPre a.userinfo ['@']) := rfl
      rw [replaceRange_eq (i := blen (preAuth p) + a.offsets.host_start)
        (j := blen (preAuth p) + a.offsets.host_start + blen a.host) new ht (by simp [he]) (by simp [he])]
      simp only [Option.bind_some, he]
      congr 2
      · unfold withHost withAuthority
        rw [recompose_setAuth]
        simp [AuthParts.recompose]
      · simp

end

/-- **C27**: with an authority and a valid new host, `replace_host` replaces exactly the host, the
result is again a valid value of the type, and the new host is returned.  Missing: in builds with debug
assertions the method of `RiString` panics if there is a fragment that is not empty (`C27_debug_refuted`,
`C27_debug_exact`). -/
theorem C27_replace_host_partial (debug : Bool) (S : Spec) (k : IriKind) (s : Str)
    (h : k.validate S s = some true) (p : Parts) (hp : p.Valid S ∧ p.recompose = s) (a : AuthParts)
    (ha : a.Valid S ∧ p.authority = some a.recompose) (new : Str)
    (hd : debug = true → k = .iri → p.fragment = none ∨ p.fragment = some []) :
    (host S new → replace_host debug S k s new = some (withHost p a new, some new) ∧
      k.validate S (withHost p a new) = some true) ∧
    (¬ host S new → replace_host debug S k s new = some (s, none)) ∧
    (host S new → ¬ IP_literal a.host → ¬ IPv4address a.host →
      replace_host_reg_name debug S k s new = some (withHost p a new, some new)) ∧
    (¬ host S new ∨ IP_literal a.host ∨ IPv4address a.host →
      replace_host_reg_name debug S k s new = some (s, none)) := by
  obtain ⟨hv, rfl⟩ := hp
  obtain ⟨q, hqv, hqf, hq⟩ := (kind_validate_iff S k _).1 h
  rw [recompose_inj hqv.delim hv.delim hq] at hqf
  have hassert : debug = true → k.replaceHostAssertion.Fits p := by
    intro e
    cases k with
    | iri => exact ⟨hqf, hd e rfl⟩
    | _ => exact hqf
  have hreg := is_host_reg_name_host ha.1.host
  have hnew : validate_host S new = true ↔ host S new := C06_host S new
  have key : ∀ only, (host S new ∧ (only = true → ¬ (IP_literal a.host ∨ IPv4address a.host)) →
      try_replace_host_impl debug S k p.recompose new only = some (withHost p a new, some new)) ∧
      (¬ (host S new ∧ (only = true → ¬ (IP_literal a.host ∨ IPv4address a.host))) →
      try_replace_host_impl debug S k p.recompose new only = some (p.recompose, none)) := by
    intro only
    constructor
    · rintro ⟨h1, h2⟩
      have hvn : AuthParts.Valid S { a with host := new } := ⟨ha.1.userinfo, h1, ha.1.port⟩
      unfold try_replace_host_impl
      rw [replace_domain_eq hv ha.2 ha.1, if_pos ⟨hnew.2 h1, fun e => hreg.2 (h2 e)⟩]
      simp only [Option.bind_eq_bind, Option.bind_some]
      have ht : withHost p a new = (preAuth p ++ optPre a.userinfo ['@']) ++ (new ++
          (optSuf [':'] a.port ++ postAuth p)) := by
        unfold withHost withAuthority
        rw [recompose_setAuth]; simp [AuthParts.recompose]
      rw [if_neg, slice_eq ht rfl rfl]
      · rfl
      · intro e
        simp only [Bool.and_eq_true, bne_iff_ne, ne_eq] at e
        exact e.2 (setAuth_kind hv (hassert e.1) (by simp [ha.2]) hvn)
    · intro hn
      unfold try_replace_host_impl
      rw [replace_domain_eq hv ha.2 ha.1, if_neg]
      · simp only [Option.bind_eq_bind, Option.bind_some]
        rw [if_neg]
        intro e
        simp only [Bool.and_eq_true, bne_iff_ne, ne_eq] at e
        exact e.2 ((kind_validate_iff S _ _).2 ⟨p, hv, hassert e.1, rfl⟩)
      · rintro ⟨h1, h2⟩
        exact hn ⟨hnew.1 h1, fun e => hreg.1 (h2 e)⟩
  refine ⟨fun h1 => ⟨(key false).1 ⟨h1, by simp⟩, ?_⟩, fun h1 => (key false).2 fun e => h1 e.1,
    fun h1 h2 h3 => (key true).1 ⟨h1, fun _ e => e.elim h2 h3⟩, fun h1 => (key true).2 ?_⟩
  · have hvn : AuthParts.Valid S { a with host := new } := ⟨ha.1.userinfo, h1, ha.1.port⟩
    exact setAuth_kind hv hqf (by simp [ha.2]) hvn
  · rintro ⟨h2, h3⟩
    rcases h1 with h1 | h1
    · exact h1 h2
    · exact h3 rfl h1

/-- **C27**: without an authority nothing changes (missing: the same case as in
`C27_replace_host_partial`). -/
theorem C27_no_authority_partial (debug : Bool) (S : Spec) (k : IriKind) (s : Str)
    (h : k.validate S s = some true) (hn : RiReferenceStr.authority_str s = none) (new : Str)
    (hd : debug = true → k = .iri →
      RiReferenceStr.fragment_str s = none ∨ RiReferenceStr.fragment_str s = some []) :
    replace_host debug S k s new = some (s, none) ∧
    replace_host_reg_name debug S k s new = some (s, none) := by
  obtain ⟨p, hv, hf, rfl⟩ := (kind_validate_iff S k _).1 h
  simp only [RiReferenceStr.authority_str, RiReferenceStr.fragment_str, hv.delim.extract_authority_eq,
    hv.delim.extract_fragment_eq] at hn hd
  have e : ∀ only, replace_domain_impl S p.recompose new only = some (p.recompose, none) := by
    intro only
    unfold replace_domain_impl
    rw [from_iri_get_offset_parts hv, hn]
    rfl
  have hassert : debug = true → k.replaceHostAssertion.validate S p.recompose = some true := by
    intro e
    refine (kind_validate_iff S _ _).2 ⟨p, hv, ?_, rfl⟩
    cases k with
    | iri => exact ⟨hf, hd e rfl⟩
    | _ => exact hf
  have e2 : ∀ only, try_replace_host_impl debug S k p.recompose new only = some (p.recompose, none) := by
    intro only
    unfold try_replace_host_impl
    rw [e only]
    simp only [Option.bind_eq_bind, Option.bind_some]
    rw [if_neg]
    intro e
    simp only [Bool.and_eq_true, bne_iff_ne, ne_eq] at e
    exact e.2 (hassert e.1)
  exact ⟨e2 false, e2 true⟩

/-- **C27**, exactly what a build with debug assertions does in the case that the other theorems leave out:
`RiString::replace_host` and `replace_host_reg_name` panic on every IRI with a fragment that is not empty,
whatever the new host. -/
theorem C27_debug_exact (S : Spec) (s : Str) (h : validate_uri S s = some true) (c : Char) (r : Str)
    (hf : RiReferenceStr.fragment_str s = some (c :: r)) (new : Str) :
    replace_host true S .iri s new = none ∧ replace_host_reg_name true S .iri s new = none := by
  obtain ⟨p, hv, hs, rfl⟩ := iri_parts' h
  simp only [RiReferenceStr.fragment_str, hv.delim.extract_fragment_eq] at hf
  have bad : ∀ q : Parts, q.Valid S → q.fragment = some (c :: r) →
      IriKind.absolute.validate S q.recompose ≠ some true := by
    intro q hq hqf e
    obtain ⟨q', hq', hfit, e'⟩ := (kind_validate_iff S _ _).1 e
    rw [recompose_inj hq'.delim hq.delim e'] at hfit
    rcases hfit.2 with h1 | h1 <;> rw [hqf] at h1 <;> cases h1
  have key : ∀ only, try_replace_host_impl true S .iri p.recompose new only = none := by
    intro only
    unfold try_replace_host_impl
    have hsame : ∀ x : Option (Nat × Nat), (do
        let (strbuf, result) ← some (p.recompose, x)
        if true && IriKind.iri.replaceHostAssertion.validate S strbuf != some true then none
        else
          match result with
          | none => some (strbuf, none)
          | some (st, e) => (slice strbuf st e).map fun h => (strbuf, some h)) =
          (none : Option (Str × Option Str)) := by
      intro x
      simp only [Option.bind_eq_bind, Option.bind_some, Bool.true_and]
      rw [if_pos]
      simpa [IriKind.replaceHostAssertion] using bad p hv hf
    cases hpa : p.authority with
    | none =>
      have : replace_domain_impl S p.recompose new only = some (p.recompose, none) := by
        unfold replace_domain_impl
        rw [from_iri_get_offset_parts hv, hpa]
        rfl
      rw [this]; exact hsame none
    | some x =>
      obtain ⟨a, hav, rfl⟩ := (authority_auth_parts S x).1 (hv.authority x hpa)
      rw [replace_domain_eq hv hpa hav]
      split
      · rename_i hc
        have hvn : AuthParts.Valid S { a with host := new } :=
          ⟨hav.userinfo, (C06_host S new).1 hc.1, hav.port⟩
        simp only [Option.bind_eq_bind, Option.bind_some, Bool.true_and]
        rw [if_pos]
        have : IriKind.absolute.validate S (withHost p a new) ≠ some true :=
          bad _ (setAuth_valid hv (by simp [hpa]) hvn) hf
        simpa [IriKind.replaceHostAssertion] using this
      · exact hsame none
  exact ⟨key false, key true⟩

/-- In a build with debug assertions, `RiString::replace_host` panics on a valid IRI with a
fragment (the assertion uses the validator of absolute IRIs); in a release build it does what it
should. -/
theorem C27_debug_refuted :
    validate_uri .uri (chars! "http://a/#f") = some true ∧
    replace_host true .uri .iri (chars! "http://a/#f") (chars! "b") = none ∧
    replace_host false .uri .iri (chars! "http://a/#f") (chars! "b") =
      some (chars! "http://b/#f", some (chars! "b")) := by decide +kernel

/-! ### The hypotheses are met: concrete cases -/

/-- `http://user:pass:w@[::1]:80/p?q` -/
def exEdit : Parts := ⟨some (chars! "http"), some (chars! "user:pa:ss@[::1]:80"), chars! "/p",
  some (chars! "q"), none⟩

example : validate_absolute_uri .uri exEdit.recompose = some true ∧
    mask_password exEdit.recompose = some (chars! "http://user:@[::1]:80/p?q") ∧
    remove_password_inline true .uri .absolute exEdit.recompose = some (chars! "http://user@[::1]:80/p?q") ∧
    replace_host true .uri .absolute exEdit.recompose (chars! "h") =
      some (chars! "http://user:pa:ss@h:80/p?q", some (chars! "h")) ∧
    replace_host_reg_name true .uri .absolute exEdit.recompose (chars! "h") =
      some (exEdit.recompose, none) := by decide +kernel
example : ∃ p a, p.Valid .uri ∧ p.recompose = chars! "//u:@h" ∧ HasPassword .uri p a (chars! "u") [] := by
  obtain ⟨p, hv, hp⟩ := reference_parts (S := .uri) (s := chars! "//u:@h") (by decide +kernel)
  have ha : p.authority = some (chars! "u:@h") := by
    rw [← hv.delim.extract_authority_eq, hp]; decide +kernel
  obtain ⟨a, hav, e⟩ := (authority_auth_parts .uri _).1 (hv.authority _ ha)
  refine ⟨p, a, hv, hp, hav, by rw [ha, e], ?_, by decide⟩
  have := offsets_userinfo a
  rw [← decompose_authority_eq hav, e] at this
  exact (Option.some.inj (this.symm.trans (by decide +kernel)))

end Verif
