import Verif.Model.History
import Verif.Props.Convert
import Verif.Props.Edit
import Verif.Props.Format
import Verif.Props.Alloc

/-!
# C52: a value stays valid through every history of edits and conversions
-/

namespace Verif

open Rfc

/-- The type's invariant: the text matches the rule of the type. -/
def Val.Valid (v : Val) : Prop := v.kind.validate v.spec v.text = some true

/-- The arguments are values of the types the method takes: `Option<&RiFragmentStr<S>>`,
`&RiAbsoluteStr<S>`. -/
def Call.ArgsOk (S : Spec) : Call → Prop
  | .set_fragment f => ∀ x, f = some x → validate_fragment S x = true
  | .resolve_against _ base => validate_absolute_uri S base = some true
  | _ => True

/-- The text has user information without a colon. -/
def ColonlessUserinfo (S : Spec) (s : Str) : Prop :=
  ∃ (p : Parts) (a : AuthParts) (u : Str), (p.Valid S ∧ p.recompose = s) ∧ a.Valid S ∧
    p.authority = some a.recompose ∧ a.userinfo = some u ∧ ':' ∉ u

/-- The two calls for which the property fails: `remove_password_inline` on user information without a
colon (`C26_refuted`), and `replace_host` of an IRI with a non-empty fragment in a
debug build (`C27_debug_exact`). -/
def Call.Excluded (debug : Bool) (v : Val) : Call → Prop
  | .remove_password_inline => ColonlessUserinfo v.spec v.text
  | .replace_host _ | .replace_host_reg_name _ =>
    debug = true ∧ v.kind = .iri ∧ ∃ c r, RiReferenceStr.fragment_str v.text = some (c :: r)
  | _ => False

/-- `w` results from `v` by a history of calls. -/
inductive Reach (debug : Bool) (v : Val) : Val → Prop
  | refl : Reach debug v v
  | call (w w' : Val) (c : Call) : Reach debug v w → c.ArgsOk w.spec → ¬ c.Excluded debug w →
      w.step debug c = some w' → Reach debug v w'

theorem Val.asserted_ok {debug : Bool} {v : Val} (h : v.Valid) : ∃ w, v.asserted debug = some w ∧ w.Valid := by
  refine ⟨v, ?_, h⟩
  unfold Val.Valid at h
  simp [Val.asserted, h]

theorem Val.step_ok (debug : Bool) (v : Val) (h : v.Valid) (c : Call) (ha : c.ArgsOk v.spec)
    (hx : ¬ c.Excluded debug v) : ∃ w, v.step debug c = some w ∧ w.Valid := by
  obtain ⟨S, k, s⟩ := v
  obtain ⟨p, hv, hf, hp⟩ := (kind_validate_iff S k s).1 h
  have href : validate_uri_reference S s = some true := by
    rw [← hp]; exact validate_reference_of_parts hv
  have hfrag : RiReferenceStr.fragment_str s = p.fragment := by
    rw [← hp]; exact hv.delim.extract_fragment_eq
  have hauth : RiReferenceStr.authority_str s = p.authority := by
    rw [← hp]; exact hv.delim.extract_authority_eq
  cases c with
  | set_fragment f =>
    unfold Val.step
    obtain ⟨h1, h2, h3, _⟩ := C13_set_fragment S s f ha href
    cases k with
    | absolute => exact ⟨_, rfl, h⟩
    | reference => exact Val.asserted_ok h1
    | iri => exact Val.asserted_ok (h2 h)
    | relative => exact Val.asserted_ok (h3 h)
  | replace_host new =>
    have hd : debug = true → k = .iri → p.fragment = none ∨ p.fragment = some [] := by
      intro e1 e2
      cases hfr : p.fragment with
      | none => exact .inl rfl
      | some x =>
        cases x with
        | nil => exact .inr rfl
        | cons c r => exact absurd ⟨e1, e2, c, r, by rw [hfrag, hfr]⟩ hx
    unfold Val.step
    cases hpa : p.authority with
    | none =>
      have := (C27_no_authority_partial debug S k s h (by rw [hauth, hpa]) new (by rw [hfrag]; exact hd)).1
      simp only [this]
      exact ⟨_, rfl, h⟩
    | some x =>
      obtain ⟨a, hav, rfl⟩ := (authority_auth_parts S x).1 (hv.authority x hpa)
      obtain ⟨h1, h2, _, _⟩ := C27_replace_host_partial debug S k s h p ⟨hv, hp⟩ a ⟨hav, hpa⟩ new hd
      by_cases hh : host S new
      · simp only [(h1 hh).1]
        exact ⟨_, rfl, (h1 hh).2⟩
      · simp only [h2 hh]
        exact ⟨_, rfl, h⟩
  | replace_host_reg_name new =>
    have hd : debug = true → k = .iri → p.fragment = none ∨ p.fragment = some [] := by
      intro e1 e2
      cases hfr : p.fragment with
      | none => exact .inl rfl
      | some x =>
        cases x with
        | nil => exact .inr rfl
        | cons c r => exact absurd ⟨e1, e2, c, r, by rw [hfrag, hfr]⟩ hx
    unfold Val.step
    cases hpa : p.authority with
    | none =>
      have := (C27_no_authority_partial debug S k s h (by rw [hauth, hpa]) new (by rw [hfrag]; exact hd)).2
      simp only [this]
      exact ⟨_, rfl, h⟩
    | some x =>
      obtain ⟨a, hav, rfl⟩ := (authority_auth_parts S x).1 (hv.authority x hpa)
      obtain ⟨h1, _, h3, h4⟩ := C27_replace_host_partial debug S k s h p ⟨hv, hp⟩ a ⟨hav, hpa⟩ new hd
      by_cases hh : host S new ∧ ¬ IP_literal a.host ∧ ¬ IPv4address a.host
      · simp only [h3 hh.1 hh.2.1 hh.2.2]
        exact ⟨_, rfl, (h1 hh.1).2⟩
      · rw [Classical.not_and_iff_not_or_not, Classical.not_and_iff_not_or_not, Classical.not_not,
          Classical.not_not] at hh
        simp only [h4 hh]
        exact ⟨_, rfl, h⟩
  | remove_password_inline =>
    obtain ⟨h1, h2⟩ := C26_remove_password_partial debug S k s h p ⟨hv, hp⟩
    unfold Val.step
    by_cases hw : ∃ a user pw, HasPassword S p a user pw
    · obtain ⟨a, user, pw, hw⟩ := hw
      simp only [(h1 a user pw hw).1]
      exact ⟨_, rfl, (h1 a user pw hw).2⟩
    · have hnone : ∀ a : AuthParts, a.Valid S → p.authority = some a.recompose → a.userinfo = none := by
        intro a hav hpa
        cases hu : a.userinfo with
        | none => rfl
        | some u =>
          exfalso
          by_cases hc : ':' ∈ u
          · obtain ⟨user, pw, rfl, hn⟩ := exists_first hc
            exact hw ⟨a, user, pw, hav, hpa, hu, hn⟩
          · exact hx ⟨p, a, u, ⟨hv, hp⟩, hav, hpa, hu, hc⟩
      simp only [h2 hnone]
      exact ⟨_, rfl, h⟩
  | remove_nonempty_password_inline =>
    obtain ⟨h1, h2, _⟩ := C26_remove_nonempty_password debug S k s h p ⟨hv, hp⟩
    unfold Val.step
    by_cases hw : ∃ a user pw, HasPassword S p a user pw
    · obtain ⟨a, user, pw, hw⟩ := hw
      simp only [(h1 a user pw hw).1]
      exact ⟨_, rfl, (h1 a user pw hw).2⟩
    · simp only [h2 (fun a user pw e => hw ⟨a, user, pw, e⟩)]
      exact ⟨_, rfl, h⟩
  | mask_password =>
    obtain ⟨t, _, h1, h2⟩ := C36_masked_dedicated S k s h
    unfold Val.step
    simp only [h1, Option.bind_some]
    exact Val.asserted_ok h2
  | encode_to_uri_inline =>
    obtain ⟨u, _, h2, h3, _⟩ := C24_encode_to_uri S k s h
    unfold Val.step
    cases S with
    | uri => exact ⟨_, rfl, h⟩
    | iri =>
      have h4 := Heap.uri_is_iri h3
      simp only [reduceCtorEq, if_false, h2, Option.bind_some]
      exact Val.asserted_ok h4
  | encode_into_uri =>
    obtain ⟨u, _, h2, h3, _⟩ := C24_encode_to_uri S k s h
    unfold Val.step
    cases S with
    | uri => exact ⟨_, rfl, h⟩
    | iri =>
      simp only [reduceCtorEq, if_false, h2, Option.bind_some]
      exact Val.asserted_ok h3
  | try_into_uri =>
    unfold Val.step
    rcases C24_as_uri S k s h with ⟨h1, h2⟩ | ⟨h1, _⟩
    · simp only [h1]; exact Val.asserted_ok h2
    · simp only [h1]; exact ⟨_, rfl, h⟩
  | into_iri_spec =>
    cases S with
    | iri => exact ⟨_, rfl, h⟩
    | uri => exact Val.asserted_ok (v := ⟨.iri, k, s⟩) (Heap.uri_is_iri h)
  | into_reference =>
    unfold Val.step
    cases k with
    | reference => exact ⟨_, rfl, h⟩
    | _ => exact Val.asserted_ok (v := ⟨S, .reference, s⟩) href
  | into_iri =>
    unfold Val.step
    cases k with
    | absolute => exact Val.asserted_ok (v := ⟨S, .iri, s⟩) ((C07_upcasts S s).1 h)
    | iri => exact ⟨_, rfl, h⟩
    | relative => exact ⟨_, rfl, h⟩
    | reference =>
      obtain ⟨h1, h2⟩ := C08_to_iri S s href
      by_cases hI : IRI S s
      · simp only [(h1 hI).1]; exact Val.asserted_ok (v := ⟨S, .iri, s⟩) ((C01_iri_validation S s).1.2 hI)
      · simp only [(h2 hI).1]
        exact Val.asserted_ok (v := ⟨S, .relative, s⟩) ((C03_relative_ref_validation S s).1.2 (h2 hI).2.2)
  | into_absolute =>
    unfold Val.step
    cases k with
    | iri =>
      obtain ⟨a, f, _, _, _, h4, _, h6, _⟩ := C13_split_fragment S s h
      simp only [if_true, h4]
      exact Val.asserted_ok (v := ⟨S, .absolute, _⟩) h6
    | absolute => exact ⟨_, rfl, h⟩
    | relative => exact ⟨_, rfl, h⟩
    | reference => exact ⟨_, rfl, h⟩
  | normalize =>
    unfold Val.step
    cases k with
    | iri =>
      obtain ⟨t, h1, h2⟩ := (C17_normalize_valid S s h).1
      simp only [reduceCtorEq, or_false, or_true, false_or, true_or, if_true, h1, Option.bind_some]
      exact Val.asserted_ok (v := ⟨S, .iri, t⟩) h2
    | absolute =>
      obtain ⟨t, h1, h2⟩ := (C17_normalize_absolute S s h).1
      simp only [reduceCtorEq, or_false, or_true, false_or, true_or, if_true, h1, Option.bind_some]
      exact Val.asserted_ok (v := ⟨S, .absolute, t⟩) h2
    | relative => exact ⟨_, rfl, h⟩
    | reference => exact ⟨_, rfl, h⟩
  | normalize_preserve =>
    unfold Val.step
    cases k with
    | iri =>
      obtain ⟨t, h1, h2⟩ := (C17_normalize_valid S s h).2
      simp only [reduceCtorEq, or_false, or_true, false_or, true_or, if_true, h1, Option.bind_some]
      exact Val.asserted_ok (v := ⟨S, .iri, t⟩) h2
    | absolute =>
      obtain ⟨t, h1, h2⟩ := (C17_normalize_absolute S s h).2
      simp only [reduceCtorEq, or_false, or_true, false_or, true_or, if_true, h1, Option.bind_some]
      exact Val.asserted_ok (v := ⟨S, .absolute, t⟩) h2
    | relative => exact ⟨_, rfl, h⟩
    | reference => exact ⟨_, rfl, h⟩
  | resolve_against mode base =>
    obtain ⟨t, h1, h2⟩ := C15_resolve_valid S mode base s ((C07_upcasts S base).1 ha) href
    unfold Val.step
    cases k with
    | iri => exact ⟨_, rfl, h⟩
    | absolute => exact ⟨_, rfl, h⟩
    | relative =>
      simp only [reduceCtorEq, or_false, or_true, false_or, true_or, if_true, h1, Option.bind_some]
      exact Val.asserted_ok (v := ⟨S, .iri, t⟩) h2
    | reference =>
      simp only [reduceCtorEq, or_false, or_true, false_or, true_or, if_true, h1, Option.bind_some]
      exact Val.asserted_ok (v := ⟨S, .iri, t⟩) h2

/-- **C52**: a value that is valid for its type stays valid for its (current) type through every history
of edits and conversions, and no call in the history panics.  Missing: the calls of `Call.Excluded`, for
which it is false (`C52_refuted`, `C27_debug_refuted`). -/
theorem C52_history_partial (debug : Bool) (v w : Val) (h : v.Valid) (hr : Reach debug v w) :
    w.Valid ∧ ∀ c : Call, c.ArgsOk w.spec → ¬ c.Excluded debug w → ∃ w', w.step debug c = some w' ∧ w'.Valid := by
  have hw : w.Valid := by
    induction hr with
    | refl => exact h
    | call w w' c _ ha hx hs ih =>
      obtain ⟨w'', e, hv⟩ := Val.step_ok debug w ih c ha hx
      rw [hs] at e; cases e; exact hv
  exact ⟨hw, fun c ha hx => Val.step_ok debug w hw c ha hx⟩

/-- In a release build two safe calls give a `UriString` whose text is not a URI. -/
theorem C52_refuted :
    (Val.mk .uri .iri (chars! "http://%41@h/")).Valid ∧
    (Val.mk .uri .iri (chars! "http://%41@h/")).step false .remove_password_inline =
      some (Val.mk .uri .iri (chars! "http://%4@h/")) ∧
    ¬ (Val.mk .uri .iri (chars! "http://%4@h/")).Valid := by
  unfold Val.Valid
  decide +kernel

/-- A history through several types. -/
example : Reach true ⟨.iri, .relative, chars! "../%7eé?q"⟩ ⟨.uri, .absolute, chars! "http://u:@[::1]/~%C3%A9?q"⟩ := by
  refine .call ⟨.iri, .absolute, chars! "http://u:@[::1]/~é?q"⟩ _ .encode_into_uri ?_ trivial id (by decide +kernel)
  refine .call ⟨.iri, .iri, chars! "http://u:@[::1]/~é?q"⟩ _ .into_absolute ?_ trivial id (by decide +kernel)
  refine .call ⟨.iri, .iri, chars! "http://u:@h/~é?q"⟩ _ (.replace_host (chars! "[::1]")) ?_ trivial ?_ (by decide +kernel)
  rotate_left
  · rintro ⟨_, _, c, r, h⟩; revert h; rw [show RiReferenceStr.fragment_str _ = none from by decide +kernel]; simp
  refine .call ⟨.iri, .iri, chars! "http://u:p@h/~é?q"⟩ _ .remove_nonempty_password_inline ?_ trivial id
    (by decide +kernel)
  refine .call ⟨.iri, .iri, chars! "http://u:p@h/%7eé?q"⟩ _ .normalize ?_ trivial id (by decide +kernel)
  refine .call ⟨.iri, .relative, chars! "../%7eé?q"⟩ _ (.resolve_against .off (chars! "http://u:p@h/a/b")) .refl ?_ id
    (by decide +kernel)
  show _ = _
  decide +kernel

end Verif
