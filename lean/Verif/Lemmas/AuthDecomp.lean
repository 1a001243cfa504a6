import Verif.Lemmas.Decompose
import Verif.Lemmas.Auth

/-! # `decompose_authority` on a recomposed authority -/

namespace Verif

open Abnf Rfc

/-- The offsets that `decompose_authority` should find. -/
def AuthParts.offsets (a : AuthParts) : AuthorityComponents where
  authority := a.recompose
  host_start := blen (optPre a.userinfo ['@'])
  host_end := blen (optPre a.userinfo ['@']) + blen a.host

/-- Length of the `:port` suffix found by `decompose_authority`. -/
def colonPortLen (i : Str) : Nat :=
  match rfind_split2 i ':' ']' with
  | some (_, suffix) => if starts_with suffix [':'] then blen suffix else 0
  | none => 0

theorem decompose_authority_def (s : Str) : decompose_authority s =
    (match find_split_hole s '@' with
      | some (u, r) => ⟨s, blen u + 1, blen s - colonPortLen r⟩
      | none => ⟨s, 0, blen s - colonPortLen s⟩) := by
  unfold decompose_authority colonPortLen
  cases find_split_hole s '@' <;> rfl

theorem rfind_hostport {S : Spec} {h : Str} {p : Option Str} (hh : host S h)
    (hp : ∀ x, p = some x → port x) :
    colonPortLen (h ++ optSuf [':'] p) = blen (optSuf [':'] p) := by
  unfold colonPortLen
  cases p with
  | some p =>
    have hd := (port_iff p).1 (hp p rfl)
    have e : rfind_split2 (h ++ optSuf [':'] (some p)) ':' ']' = some (h, ':' :: p) := by
      unfold rfind_split2
      have : rfindSplitHoleP (fun c => c == ':' || c == ']') (h ++ ':' :: p) = some (h, ':', p) := by
        apply rfindSplitHoleP_eq (by decide)
        intro c hc
        have h1 : ':' ∉ p := digits_not_mem hd (by decide)
        have h2 : ']' ∉ p := digits_not_mem hd (by decide)
        have e1 : c ≠ ':' := fun e => h1 (e ▸ hc)
        have e2 : c ≠ ']' := fun e => h2 (e ▸ hc)
        simp [e1, e2]
      show Option.map _ (rfindSplitHoleP _ (h ++ ':' :: p)) = _
      rw [this]; rfl
    rw [e]
    have : starts_with (':' :: p) [':'] = true := starts_with_iff.2 ⟨p, rfl⟩
    simp [this, optSuf]
  | none =>
    simp only [optSuf, List.append_nil, blen_nil]
    unfold rfind_split2
    cases e : rfindSplitHoleP (fun c => c == ':' || c == ']') h with
    | none => rfl
    | some x =>
      obtain ⟨a, c, b⟩ := x
      obtain ⟨e1, e2, e3⟩ := rfindSplitHoleP_some.1 e
      simp only [Option.map_some]
      rw [if_neg]
      intro hs
      obtain ⟨r, hr⟩ := starts_with_iff.1 hs
      have : c = ':' := by simpa using congrArg List.head? hr
      subst this
      rw [e1] at hh
      have := host_colon hh
      have := e3 _ this
      simp at this

theorem decompose_authority_eq {S : Spec} {a : AuthParts} (h : a.Valid S) :
    decompose_authority a.recompose = a.offsets := by
  obtain ⟨u, hst, p⟩ := a
  obtain ⟨hu, hh, hp⟩ := h
  simp only at hu hh hp
  have e := rfind_hostport hh hp
  have hn := hostport_no_at hh hp
  rw [decompose_authority_def]
  unfold AuthParts.offsets
  cases u with
  | none =>
    have : find_split_hole (AuthParts.recompose ⟨none, hst, p⟩) '@' = none := by
      rw [find_split_hole_none]; simpa [AuthParts.recompose, optPre] using hn
    rw [this]
    simp only [AuthParts.recompose, optPre, List.nil_append, blen_nil]
    simp only [AuthorityComponents.mk.injEq, true_and]
    rw [e, blen_append]; omega
  | some u =>
    have : find_split_hole (AuthParts.recompose ⟨some u, hst, p⟩) '@' =
        some (u, hst ++ optSuf [':'] p) := by
      have := find_split_hole_eq (b := hst ++ optSuf [':'] p) (userinfo_no_at (hu u rfl))
      simpa [AuthParts.recompose, optPre] using this
    rw [this]
    simp only
    rw [e]
    have e1 : ('@').utf8Size = 1 := by decide
    simp only [AuthParts.recompose, optPre, AuthorityComponents.mk.injEq, true_and, blen_append,
      blen_cons, blen_nil, e1]
    omega

theorem offsets_userinfo (a : AuthParts) : a.offsets.userinfo = some a.userinfo := by
  obtain ⟨u, hst, p⟩ := a
  unfold AuthorityComponents.userinfo AuthParts.offsets
  cases u with
  | none => simp [optPre]
  | some u =>
    have e1 : ('@').utf8Size = 1 := by decide
    have : sliceTo (AuthParts.recompose ⟨some u, hst, p⟩) (blen u) = some u :=
      sliceTo_eq (b := '@' :: (hst ++ optSuf [':'] p)) (by simp [AuthParts.recompose, optPre]) rfl
    simp [optPre, e1, this]

theorem offsets_host (a : AuthParts) : a.offsets.host = some a.host := by
  unfold AuthorityComponents.host AuthParts.offsets
  exact slice_eq (a := optPre a.userinfo ['@']) (c := optSuf [':'] a.port) rfl rfl rfl

theorem offsets_port (a : AuthParts) : a.offsets.port = some a.port := by
  obtain ⟨u, hst, p⟩ := a
  unfold AuthorityComponents.port AuthParts.offsets
  cases p with
  | none => simp [AuthParts.recompose, optSuf]
  | some p =>
    have e1 : (':').utf8Size = 1 := by decide
    have : sliceFrom (AuthParts.recompose ⟨u, hst, some p⟩)
        (blen (optPre u ['@']) + blen hst + 1) = some p :=
      sliceFrom_eq (a := optPre u ['@'] ++ hst ++ [':']) (by simp [AuthParts.recompose, optSuf])
        (by simp [e1]; omega)
    simp only [this, Option.map_some]
    rw [if_neg]
    simp [AuthParts.recompose, optSuf, e1]

/-- Recomposition of an authority is injective on valid components. -/
theorem auth_recompose_inj {S : Spec} {a b : AuthParts} (ha : a.Valid S) (hb : b.Valid S)
    (h : a.recompose = b.recompose) : a = b := by
  have e : a.offsets = b.offsets := by
    rw [← decompose_authority_eq ha, ← decompose_authority_eq hb, h]
  have e1 := offsets_userinfo a
  have e2 := offsets_host a
  have e3 := offsets_port a
  rw [e] at e1 e2 e3
  rw [offsets_userinfo] at e1
  rw [offsets_host] at e2
  rw [offsets_port] at e3
  cases a; cases b; simp_all

theorem authority_auth_parts (S : Spec) (s : Str) : authority S s ↔
    ∃ a : AuthParts, a.Valid S ∧ a.recompose = s := by
  rw [authority_grammar]
  constructor
  · rintro ⟨u, h, p, rfl, h1, h2, h3⟩
    exact ⟨⟨u, h, p⟩, ⟨h1, h2, h3⟩, rfl⟩
  · rintro ⟨⟨u, h, p⟩, ⟨h1, h2, h3⟩, rfl⟩
    exact ⟨u, h, p, rfl, h1, h2, h3⟩

end Verif
