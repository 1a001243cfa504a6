import Verif.Model.Edit
import Verif.Props.Normalize

/-!
# Offsets of the authority, the userinfo and the host; texts of the four kinds
-/

namespace Verif

open Rfc

/-- What distinguishes the four kinds. -/
def IriKind.Fits (p : Parts) : IriKind → Prop
  | .reference => True
  | .iri => p.scheme ≠ none
  | .absolute => p.scheme ≠ none ∧ (p.fragment = none ∨ p.fragment = some [])
  | .relative => p.scheme = none

theorem kind_validate_iff (S : Spec) (k : IriKind) (s : Str) : k.validate S s = some true ↔
    ∃ p : Parts, p.Valid S ∧ k.Fits p ∧ p.recompose = s := by
  cases k with
  | reference =>
    simp only [IriKind.validate, IriKind.Fits]
    rw [(C02_iri_reference_validation S s).1, IRI_reference_parts]
    simp
  | iri =>
    simp only [IriKind.validate, IriKind.Fits]
    rw [(C01_iri_validation S s).1, IRI_parts]
  | absolute =>
    simp only [IriKind.validate, IriKind.Fits]
    rw [validate_absolute_of_parts]
    simp [and_assoc]
  | relative =>
    simp only [IriKind.validate, IriKind.Fits]
    rw [(C03_relative_ref_validation S s).1, relative_parts]

theorem findStr_slashes {a r : Str} (h : '/' ∉ a) :
    findStr (a ++ '/' :: '/' :: r) ['/', '/'] = some (blen a) := by
  induction a with
  | nil =>
    have : starts_with ([] ++ '/' :: '/' :: r) ['/', '/'] = true := starts_with_iff.2 ⟨r, rfl⟩
    unfold findStr; rw [if_pos this]; rfl
  | cons c t ih =>
    simp at h
    unfold findStr
    rw [if_neg]
    · simp only [List.cons_append]
      rw [ih h.2]
      simp [Nat.add_comm]
    · intro e
      obtain ⟨r, e⟩ := starts_with_iff.1 e
      exact h.1 (List.cons.inj e).1.symm

theorem findChar_none {s : Str} {d : Char} (h : d ∉ s) : findChar s d = none := by
  induction s with
  | nil => rfl
  | cons c r ih =>
    simp at h
    unfold findChar
    rw [if_neg (by simpa using fun e => h.1 e.symm), ih h.2]; rfl

theorem findChar_eq {a r : Str} {d : Char} (h : d ∉ a) :
    findChar (a ++ d :: r) d = some (blen a) := by
  induction a with
  | nil => unfold findChar; simp
  | cons c t ih =>
    simp at h
    unfold findChar
    simp only [List.cons_append]
    rw [if_neg (by simpa using fun e => h.1 e.symm), ih h.2]
    simp [Nat.add_comm]

theorem replaceRange_eq {s a b c : Str} {i j : Nat} (new : Str) (h : s = a ++ (b ++ c))
    (hi : i = blen a) (hj : j = blen a + blen b) : replaceRange s i j new = some (a ++ (new ++ c)) := by
  unfold replaceRange
  rw [if_pos (by omega), sliceTo_eq h hi, sliceFrom_eq (a := a ++ b) (b := c) (by simp [h]) (by simp [hj])]
  rfl

section
variable {S : Spec} {p : Parts} {a : AuthParts}

/-- Everything before the authority. -/
def preAuth (p : Parts) : Str := optPre p.scheme [':'] ++ ['/', '/']
/-- Everything after the authority. -/
def postAuth (p : Parts) : Str := p.path ++ (optSuf ['?'] p.query ++ optSuf ['#'] p.fragment)

theorem recompose_auth (x : Str) (h : p.authority = some x) :
    p.recompose = preAuth p ++ (x ++ postAuth p) := by
  simp [Parts.recompose, preAuth, postAuth, h, optSuf]

theorem recompose_setAuth (x : Str) :
    ({ p with authority := some x } : Parts).recompose = preAuth p ++ (x ++ postAuth p) :=
  recompose_auth (p := { p with authority := some x }) x rfl

theorem setAuth_valid (h : p.Valid S) (ha : p.authority ≠ none) (hv : a.Valid S) :
    ({ p with authority := some a.recompose } : Parts).Valid S where
  scheme := h.scheme
  authority := by
    intro x hx
    cases hx
    exact (authority_auth_parts S _).2 ⟨a, hv, rfl⟩
  path := h.path
  query := h.query
  fragment := h.fragment
  withAuthority := fun _ => h.withAuthority ha
  withoutAuthority := by intro e; cases e
  withoutScheme := by intro _ e; cases e

theorem setAuth_kind {k : IriKind} (h : p.Valid S) (hk : k.Fits p) (ha : p.authority ≠ none)
    (hv : a.Valid S) :
    k.validate S ({ p with authority := some a.recompose } : Parts).recompose = some true :=
  (kind_validate_iff S k _).2 ⟨_, setAuth_valid h ha hv, by cases k <;> exact hk, rfl⟩

theorem scheme_no_slash (h : p.Valid S) : '/' ∉ optPre p.scheme [':'] := by
  cases hs : p.scheme with
  | none => simp [optPre]
  | some x => simp [optPre, (h.delim.scheme x hs).2.2.1]

theorem from_iri_parts (h : p.Valid S) :
    AuthorityComponents.from_iri p.recompose = p.authority.map decompose_authority := by
  unfold AuthorityComponents.from_iri
  rw [h.delim.extract_authority_eq]

theorem from_iri_get_offset_parts (h : p.Valid S) :
    AuthorityComponents.from_iri_get_offset p.recompose =
      p.authority.map fun x => (decompose_authority x, blen (preAuth p)) := by
  unfold AuthorityComponents.from_iri_get_offset extract_authority_and_offset
  rw [h.delim.scheme_colon_opt_eq]
  simp only [h.delim.slash_slash_eq, Option.map_map]
  congr 1
  funext x
  simp only [Function.comp, preAuth]
  cases p.scheme with
  | none => simp [optPre]; decide
  | some y =>
    have e1 : (':').utf8Size = 1 := by decide
    have e2 : ('/').utf8Size = 1 := by decide
    simp [optPre, e1, e2]

/-- The range of the password of the userinfo `u`. -/
theorem password_range_some (h : p.Valid S) (ha : p.authority = some a.recompose) (hv : a.Valid S)
    {u : Str} (hu : a.userinfo = some u) :
    password_range_to_hide p.recompose = some (some
      (blen (preAuth p) + (match findChar u ':' with | none => blen u | some v => v + 1),
        blen (preAuth p) + blen u)) := by
  unfold password_range_to_hide
  rw [from_iri_parts h, ha, Option.map_some, decompose_authority_eq hv]
  simp only [offsets_userinfo, Option.bind_eq_bind, Option.bind_some, hu]
  have e : findStr p.recompose ['/', '/'] = some (blen (optPre p.scheme [':'])) := by
    rw [recompose_auth _ ha, preAuth, List.append_assoc]
    exact findStr_slashes (scheme_no_slash h)
  rw [e]
  have e2 : ('/').utf8Size = 1 := by decide
  have : blen (preAuth p) = 2 + blen (optPre p.scheme [':']) := by
    simp [preAuth, e2]; omega
  simp only [Option.bind_some, this]
  cases findChar u ':' <;> rfl

theorem password_range_none (h : p.Valid S)
    (hn : ∀ a : AuthParts, a.Valid S → p.authority = some a.recompose → a.userinfo = none) :
    password_range_to_hide p.recompose = some none := by
  unfold password_range_to_hide
  rw [from_iri_parts h]
  cases ha : p.authority with
  | none => rfl
  | some x =>
    obtain ⟨a, hv, rfl⟩ := (authority_auth_parts S x).1 (h.authority x ha)
    rw [Option.map_some, decompose_authority_eq hv]
    simp [offsets_userinfo, hn a hv ha]

end

end Verif
