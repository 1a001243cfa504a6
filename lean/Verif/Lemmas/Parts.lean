import Verif.Lemmas.Auth
import Verif.Lemmas.Path
import Verif.Model.Components

/-! # Components: from the grammar to `Parts` -/

namespace Verif

open Abnf Rfc

/-- Query and fragment with their delimiters. -/
def qfStr (q f : Option Str) : Str := optSuf ['?'] q ++ optSuf ['#'] f

/-- What follows the scheme. -/
def Parts.tail (p : Parts) : Str :=
  optSuf ['/', '/'] p.authority ++ (p.path ++ qfStr p.query p.fragment)

theorem recompose_eq (p : Parts) : p.recompose = optPre p.scheme [':'] ++ p.tail := rfl

/-- Structural conditions sufficient for decomposition. -/
structure Parts.Delim (p : Parts) : Prop where
  scheme : ∀ x, p.scheme = some x → x ≠ [] ∧ ':' ∉ x ∧ '/' ∉ x ∧ '?' ∉ x ∧ '#' ∉ x
  authority : ∀ x, p.authority = some x → '/' ∉ x ∧ '?' ∉ x ∧ '#' ∉ x
  path : '?' ∉ p.path ∧ '#' ∉ p.path
  query : ∀ x, p.query = some x → '#' ∉ x
  withAuthority : p.authority ≠ none → p.path = [] ∨ ∃ r, p.path = '/' :: r
  withoutAuthority : p.authority = none → ∀ r, p.path ≠ '/' :: '/' :: r
  withoutScheme : p.scheme = none → p.authority = none → ¬ ColonInFirstSegment p.path

theorem path_not_mem {S : Spec} {s : Str} (h : path S s) {d : Char} (hd : d = '?' ∨ d = '#') :
    d ∉ s := by
  rw [path_iff] at h
  rcases hd with rfl | rfl <;>
  exact h.not_mem (by decide) (by decide) (by cases S <;> decide)

theorem query_no_hash {S : Spec} {s : Str} (h : query S s) : '#' ∉ s := by
  rw [query_iff] at h
  exact h.not_mem (by decide) (by decide) (by cases S <;> decide)

theorem fragment_no_hash {S : Spec} {s : Str} (h : fragment S s) : '#' ∉ s := by
  rw [fragment_iff] at h
  exact h.not_mem (by decide) (by decide) (by cases S <;> decide)

theorem scheme_ne {s : Str} (h : scheme s) : s ≠ [] := by
  obtain ⟨c, r, rfl, _⟩ := scheme_chars h; simp

theorem Parts.Valid.delim {S : Spec} {p : Parts} (h : p.Valid S) : p.Delim where
  scheme := fun x hx => by
    have := h.scheme x hx
    exact ⟨scheme_ne this, scheme_not_mem this (by decide), scheme_not_mem this (by decide),
      scheme_not_mem this (by decide), scheme_not_mem this (by decide)⟩
  authority := fun x hx => by
    have := h.authority x hx
    exact ⟨authority_not_mem this (by simp), authority_not_mem this (by simp),
      authority_not_mem this (by simp)⟩
  path := ⟨path_not_mem h.path (by simp), path_not_mem h.path (by simp)⟩
  query := fun x hx => query_no_hash (h.query x hx)
  withAuthority := h.withAuthority
  withoutAuthority := h.withoutAuthority
  withoutScheme := h.withoutScheme

theorem noColonSeg_iff (s : Str) : NoColonSeg s ↔ ¬ ColonInFirstSegment s := by
  unfold NoColonSeg ColonInFirstSegment
  constructor
  · rintro h ⟨a, b, he, hn⟩; exact hn (h a b he)
  · intro h a b he
    by_cases hm : '/' ∈ a
    · exact hm
    · exact absurd ⟨a, b, he, hm⟩ h

/-! ### The grammar as `Parts` -/

theorem opt_suf (d : Char) (A : Lang) (s : Str) :
    opt (lit [d] ⬝ A) s ↔ ∃ o : Option Str, s = optSuf [d] o ∧ ∀ x, o = some x → A x := by
  constructor
  · rintro (rfl | ⟨_, a, rfl, rfl, ha⟩)
    · exact ⟨none, rfl, by simp⟩
    · exact ⟨some a, rfl, by simp [ha]⟩
  · rintro ⟨o, rfl, h⟩
    cases o with
    | none => exact .inl rfl
    | some a => exact .inr ⟨[d], a, rfl, rfl, h a rfl⟩

/-- The path conditions after a scheme (`rel = false`) or without one (`rel = true`). -/
def TailOK (S : Spec) (rel : Bool) (p : Parts) : Prop :=
  (∀ x, p.authority = some x → authority S x) ∧ PC (pcharSlashC S) p.path ∧
  (∀ x, p.query = some x → query S x) ∧ (∀ x, p.fragment = some x → fragment S x) ∧
  (p.authority ≠ none → p.path = [] ∨ ∃ r, p.path = '/' :: r) ∧
  (p.authority = none → ∀ r, p.path ≠ '/' :: '/' :: r) ∧
  (rel = true → p.authority = none → NoColonSeg p.path)

theorem abempty_iff {S : Spec} {s : Str} : path_abempty S s ↔
    PC (pcharSlashC S) s ∧ (s = [] ∨ ∃ r, s = '/' :: r) := by
  rw [path_abempty_iff]

theorem hier_grammar (S : Spec) (rel : Bool) (s : Str) :
    ((if rel then relative_part S else hier_part S) ⬝ opt (lit ['?'] ⬝ query S) ⬝
      opt (lit ['#'] ⬝ fragment S)) s ↔ ∃ p : Parts, p.scheme = none ∧ s = p.tail ∧ TailOK S rel p := by
  have key : ∀ h : Str, (if rel then relative_part S else hier_part S) h ↔
      ∃ (a : Option Str) (p : Str), h = optSuf ['/', '/'] a ++ p ∧ (∀ x, a = some x → authority S x) ∧
        PC (pcharSlashC S) p ∧ (a ≠ none → p = [] ∨ ∃ r, p = '/' :: r) ∧
        (a = none → ∀ r, p ≠ '/' :: '/' :: r) ∧ (rel = true → a = none → NoColonSeg p) := by
    intro h
    have e : (if rel then relative_part S else hier_part S) h ↔
        (lit ['/', '/'] ⬝ authority S ⬝ path_abempty S) h ∨
        (PC (pcharSlashC S) h ∧ (∀ r, h ≠ '/' :: '/' :: r) ∧ (rel = true → NoColonSeg h)) := by
      cases rel with
      | true =>
        have := @rel_noauth_iff S h
        simp only [relative_part, if_true]
        simp only [alt] at this ⊢
        rw [this]; simp
      | false =>
        have := @hier_noauth_iff S h
        simp only [hier_part, Bool.false_eq_true, if_false]
        simp only [alt] at this ⊢
        rw [this]; simp
    rw [e]
    constructor
    · rintro (⟨_, _, rfl, rfl, a, p, rfl, ha, hp⟩ | ⟨h1, h2, h3⟩)
      · rw [abempty_iff] at hp
        exact ⟨some a, p, by simp [optSuf], by simp [ha], hp.1, fun _ => hp.2, by simp, by simp⟩
      · exact ⟨none, h, rfl, by simp, h1, by simp, fun _ => h2, fun hr _ => h3 hr⟩
    · rintro ⟨a, p, rfl, ha, hp, h1, h2, h3⟩
      cases a with
      | none => exact .inr ⟨hp, h2 rfl, fun h => h3 h rfl⟩
      | some a =>
        exact .inl ⟨['/', '/'], a ++ p, by simp [optSuf], rfl, a, p, rfl, ha a rfl,
          abempty_iff.2 ⟨hp, h1 (by simp)⟩⟩
  constructor
  · rintro ⟨h, _, rfl, hh, q, f, rfl, hq, hf⟩
    obtain ⟨a, p, rfl, h1, h2, h3, h4, h5⟩ := (key h).1 hh
    obtain ⟨q, rfl, hq'⟩ := (opt_suf _ _ _).1 hq
    obtain ⟨f, rfl, hf'⟩ := (opt_suf _ _ _).1 hf
    exact ⟨⟨none, a, p, q, f⟩, rfl, by simp [Parts.tail, qfStr], h1, h2, hq', hf', h3, h4, h5⟩
  · rintro ⟨⟨_, a, p, q, f⟩, rfl, rfl, h1, h2, hq, hf, h3, h4, h5⟩
    exact ⟨optSuf ['/', '/'] a ++ p, qfStr q f, by simp [Parts.tail],
      (key _).2 ⟨a, p, rfl, h1, h2, h3, h4, h5⟩, optSuf ['?'] q, optSuf ['#'] f, rfl,
      (opt_suf _ _ _).2 ⟨q, rfl, hq⟩, (opt_suf _ _ _).2 ⟨f, rfl, hf⟩⟩

theorem valid_iff (S : Spec) (p : Parts) : p.Valid S ↔
    (∀ x, p.scheme = some x → scheme x) ∧ TailOK S (p.scheme == none) p := by
  unfold TailOK
  constructor
  · intro h
    refine ⟨h.scheme, h.authority, path_iff.1 h.path, h.query, h.fragment, h.withAuthority,
      h.withoutAuthority, fun h1 h2 => (noColonSeg_iff _).2 (h.withoutScheme (by simpa using h1) h2)⟩
  · rintro ⟨h0, h1, h2, h3, h4, h5, h6, h7⟩
    exact ⟨h0, h1, path_iff.2 h2, h3, h4, h5, h6,
      fun a b => (noColonSeg_iff _).1 (h7 (by simp [a]) b)⟩

/-- `IRI` is exactly what valid components with a scheme recompose to. -/
theorem IRI_parts (S : Spec) (s : Str) : IRI S s ↔
    ∃ p : Parts, p.Valid S ∧ p.scheme ≠ none ∧ p.recompose = s := by
  constructor
  · rintro ⟨sc, _, rfl, hsc, _, t, rfl, rfl, ht⟩
    obtain ⟨p, hp, rfl, hok⟩ := (hier_grammar S false t).1 ht
    refine ⟨{ p with scheme := some sc }, (valid_iff _ _).2 ⟨by simp [hsc], ?_⟩, by simp,
      by simp [recompose_eq, optPre, Parts.tail]⟩
    exact hok
  · rintro ⟨p, hv, h0, rfl⟩
    obtain ⟨h1, h2⟩ := (valid_iff _ _).1 hv
    cases hs : p.scheme with
    | none => exact absurd hs h0
    | some sc =>
      rw [hs] at h2
      refine ⟨sc, ':' :: p.tail, by simp [recompose_eq, hs, optPre], h1 sc hs, [':'], p.tail, rfl, rfl,
        ?_⟩
      exact (hier_grammar S false _).2 ⟨{ p with scheme := none }, rfl, rfl, h2⟩

theorem relative_parts (S : Spec) (s : Str) : relative_ref S s ↔
    ∃ p : Parts, p.Valid S ∧ p.scheme = none ∧ p.recompose = s := by
  have := hier_grammar S true s
  simp only [if_true] at this
  unfold relative_ref
  rw [this]
  constructor
  · rintro ⟨p, h0, rfl, h⟩
    refine ⟨p, (valid_iff _ _).2 ⟨by simp [h0], by rw [h0]; exact h⟩, h0, ?_⟩
    simp [recompose_eq, h0, optPre]
  · rintro ⟨p, hv, h0, rfl⟩
    have := ((valid_iff _ _).1 hv).2
    rw [h0] at this
    exact ⟨p, h0, by simp [recompose_eq, h0, optPre], this⟩

theorem IRI_reference_parts (S : Spec) (s : Str) : IRI_reference S s ↔
    ∃ p : Parts, p.Valid S ∧ p.recompose = s := by
  unfold IRI_reference
  simp only [alt]
  rw [IRI_parts, relative_parts]
  constructor
  · rintro (⟨p, h, _, h'⟩ | ⟨p, h, _, h'⟩) <;> exact ⟨p, h, h'⟩
  · rintro ⟨p, h, h'⟩
    by_cases hs : p.scheme = none
    · exact .inr ⟨p, h, hs, h'⟩
    · exact .inl ⟨p, h, hs, h'⟩

theorem absolute_parts (S : Spec) (s : Str) : absolute_IRI S s ↔
    ∃ p : Parts, p.Valid S ∧ p.scheme ≠ none ∧ p.fragment = none ∧ p.recompose = s := by
  constructor
  · rintro ⟨sc, _, rfl, hsc, _, _, rfl, rfl, h, q, rfl, hh, hq⟩
    have ht : (hier_part S ⬝ opt (lit ['?'] ⬝ query S) ⬝ opt (lit ['#'] ⬝ fragment S)) (h ++ (q ++ [])) :=
      ⟨h, _, rfl, hh, q, [], rfl, hq, .inl rfl⟩
    obtain ⟨p, hp, he, hok⟩ := (hier_grammar S false _).1 ht
    simp only [List.append_nil] at he
    have hqn : '#' ∉ q := by
      obtain ⟨q, rfl, hq'⟩ := (opt_suf _ _ _).1 hq
      cases q with
      | none => simp [optSuf]
      | some q => have := query_no_hash (hq' q rfl); simp [optSuf, this]
    have hhn : '#' ∉ h := by
      rcases hh with ⟨_, _, rfl, rfl, a, p, rfl, ha, hp⟩ | hh
      · rw [abempty_iff] at hp
        have h1 := authority_not_mem ha (d := '#') (by simp)
        have h2 := path_not_mem (path_iff.2 hp.1) (d := '#') (by simp)
        simp [h1, h2]
      · exact path_not_mem (path_iff.2 ((hier_noauth_iff).1 hh).1) (by simp)
    have hf : p.fragment = none := by
      cases hf : p.fragment with
      | none => rfl
      | some f =>
        have : '#' ∈ h ++ q := by rw [he]; simp [Parts.tail, qfStr, hf, optSuf]
        simp [hqn, hhn] at this
    refine ⟨{ p with scheme := some sc }, (valid_iff _ _).2 ⟨by simp [hsc], hok⟩, by simp, hf, ?_⟩
    rw [he]; simp [recompose_eq, optPre, Parts.tail]
  · rintro ⟨p, hv, h0, hf, rfl⟩
    obtain ⟨h1, h2⟩ := (valid_iff _ _).1 hv
    cases hs : p.scheme with
    | none => exact absurd hs h0
    | some sc =>
      rw [hs] at h2
      obtain ⟨h, _, he, hh, q, f, rfl, hq, hf'⟩ :=
        (hier_grammar S false _).2 ⟨{ p with scheme := none }, rfl, rfl, h2⟩
      have hfn : f = [] := by
        rcases hf' with rfl | ⟨_, f', rfl, rfl, _⟩
        · rfl
        · exfalso
          have hm : '#' ∈ p.tail := by
            have e : p.tail = _ := he
            rw [e]; simp
          simp only [Parts.tail, qfStr, hf, List.mem_append] at hm
          rcases hm with hm | hm | hm | hm
          · cases ha : p.authority with
            | none => simp [ha, optSuf] at hm
            | some a =>
              have := authority_not_mem (hv.authority a ha) (d := '#') (by simp)
              simp [ha, optSuf, this] at hm
          · exact hv.delim.path.2 hm
          · cases hqq : p.query with
            | none => simp [hqq, optSuf] at hm
            | some q => have := hv.delim.query q hqq; simp [hqq, optSuf, this] at hm
          · simp [optSuf] at hm
      subst hfn
      refine ⟨sc, ':' :: p.tail, by simp [recompose_eq, hs, optPre], h1 sc hs, [':'], p.tail, rfl, rfl,
        h, q, ?_, hh, hq⟩
      have e : p.tail = _ := he
      simpa using e

end Verif
