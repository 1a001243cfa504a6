import Verif.Spec.EditEquiv
import Verif.Props.HistoryRefine
import Verif.Props.EquivalencePreserve
import Verif.Props.CommuteIff
import Verif.Props.Compose

/-!
# C74: edits and equivalence
-/

namespace Verif

open Rfc

namespace Rfc

/-! ## The normal form, on components -/

/-- The components of the normal form. -/
def Comps.normal (op : NormalizationMode) (a : Comps) : Comps :=
  { a with
    scheme := a.scheme.map (List.map toLower)
    authority := a.authority.map (AuthParts.norm a.spec)
    path := pathn a.spec op a.authority.isSome a.path
    query := a.query.map (pctn a.spec), fragment := a.fragment.map (pctn a.spec) }

theorem Comps.normal_parts {op : NormalizationMode} (ho : op.case_pct = true) {a : Comps} (h : a.Valid) :
    (a.normal op).parts = normParts a.spec op a.parts := by
  unfold normParts Comps.normal Comps.parts
  simp only [ho, if_true, Option.map_map, Parts.mk.injEq, Option.isSome_map]
  refine ⟨trivial, ?_, trivial, ?_, ?_⟩
  · cases ha : a.authority with
    | none => rfl
    | some x => simp only [Option.map_some, Function.comp, authn_eq (h.authority x ha)]
  · congr 1; funext x; simp [wr, ho]
  · congr 1; funext x; simp [wr, ho]

theorem Comps.normal_valid {op : NormalizationMode} (ho : op.case_pct = true) {a : Comps} (h : a.Valid)
    (hk : a.kind = .iri ∨ a.kind = .absolute) : (a.normal op).Valid := by
  have hs := kind_iri_scheme h hk
  refine ⟨?_, ?_, ?_⟩
  · rw [Comps.normal_parts ho h]; exact normParts_valid h.parts hs
  · intro x hx
    simp only [Comps.normal, Option.map_eq_some_iff] at hx
    obtain ⟨y, hy, rfl⟩ := hx
    exact (h.authority y hy).norm
  · have := h.kind
    show TypeFits (a.scheme.map _) (a.fragment.map _) a.kind
    rcases hk with hk | hk <;> rw [hk] at this ⊢
    · simpa [TypeFits] using this
    · refine ⟨by simpa using this.1, ?_⟩
      rcases this.2 with e | e
      · left; simp [e]
      · right; simp [e, pctn_nil]

theorem Comps.normal_eq_iff {op : NormalizationMode} (ho : op.case_pct = true) {a b : Comps} (ha : a.Valid)
    (hb : b.Valid) (hs : a.spec = b.spec) (hk : a.kind = b.kind) :
    a.normal op = b.normal op ↔ normParts a.spec op a.parts = normParts b.spec op b.parts := by
  rw [← Comps.normal_parts ho ha, ← Comps.normal_parts ho hb]
  constructor
  · intro h; rw [h]
  · intro h
    have h1 := congrArg Parts.authority h
    have h2 : (a.normal op).authority = (b.normal op).authority := by
      cases ea : (a.normal op).authority with
      | none =>
        cases eb : (b.normal op).authority with
        | none => rfl
        | some y => simp [Comps.parts, ea, eb] at h1
      | some x =>
        cases eb : (b.normal op).authority with
        | none => simp [Comps.parts, ea, eb] at h1
        | some y =>
          simp only [Comps.parts, ea, eb, Option.map_some, Option.some.injEq] at h1
          simp only [Comps.normal, Option.map_eq_some_iff] at ea eb
          obtain ⟨x', ex, rfl⟩ := ea
          obtain ⟨y', ey, rfl⟩ := eb
          rw [auth_inj2 (ha.authority x' ex).norm (hb.authority y' ey).norm h1]
    have g : ∀ u v : Comps, u.spec = v.spec → u.kind = v.kind → u.authority = v.authority → u.parts = v.parts →
        u = v := by
      rintro ⟨⟩ ⟨⟩ rfl rfl rfl e
      simp only [Comps.parts, Parts.mk.injEq] at e
      obtain ⟨rfl, -, rfl, rfl, rfl⟩ := e
      rfl
    exact g _ _ hs hk h2 h

/-! ## Edits on the normal form -/

theorem pctn_no_colon {S : Spec} {s : Str} (h : WF s) (hs : ':' ∉ s) : ':' ∉ pctn S s := by
  intro hm
  rcases pctn_mem h hm with h | h | h | h
  · exact hs h
  · exact absurd h (by decide)
  · exact absurd h (by decide)
  · rw [show iunreserved S ':' = false by cases S <;> decide] at h; cases h

theorem mapPassword_pctn {S : Spec} {u : Str} (hu : WF u) {f : Str → Str}
    (hf : ∀ user, WF user → pctn S (f user) = f (pctn S user)) :
    pctn S (mapPassword f u) = mapPassword f (pctn S u) := by
  by_cases hc : ':' ∈ u
  · obtain ⟨user, pw, rfl, hn⟩ := exists_first hc
    obtain ⟨w1, -, w2⟩ := (PC_append_cons (p := fun _ => true) (d := ':') (by decide) (by decide)).1 hu
    rw [mapPassword_eq hn, pctn_append_ch S w1 (by decide) w2, mapPassword_eq (pctn_no_colon w1 hn), hf _ w1]
  · rw [mapPassword_none hc, mapPassword_none (pctn_no_colon hu hc)]

/-- What the password methods do to user information does not depend on its percent-encoding. -/
def KeepsPct (f : Str → Str) : Prop := ∀ S user, WF user → pctn S (f user) = f (pctn S user)

theorem keepsPct_id : KeepsPct fun user => user := fun _ _ _ => rfl

theorem keepsPct_mask : KeepsPct fun user => user ++ [':'] := fun S user h => by
  show pctn S (user ++ [':']) = pctn S user ++ [':']
  rw [pctn_append_ch S h (by decide) .nil, pctn_nil]

theorem userinfo_wf {S : Spec} {u : Str} (h : userinfo S u) : WF u := ((userinfo_iff S u).1 h).wf

theorem Comps.normal_mapUserinfo {op : NormalizationMode} {a : Comps} (h : a.Valid) {f : Str → Str} (hf : KeepsPct f) :
    (a.mapUserinfo (mapPassword f)).normal op = (a.normal op).mapUserinfo (mapPassword f) := by
  unfold Comps.normal Comps.mapUserinfo
  simp only [Option.isSome_map, Option.map_map, Comps.mk.injEq, true_and, and_true]
  cases ha : a.authority with
  | none => rfl
  | some x =>
    simp only [Option.map_some, Function.comp, AuthParts.norm, Option.map_map, Option.some.injEq, AuthParts.mk.injEq,
      and_true]
    cases hu : x.userinfo with
    | none => rfl
    | some u =>
      simp only [Option.map_some, Function.comp]
      rw [mapPassword_pctn (userinfo_wf ((h.authority x ha).userinfo u hu)) (hf a.spec)]

theorem Comps.normal_withHost {op : NormalizationMode} {a : Comps} (new : Str) :
    (a.withHost new).normal op = (a.normal op).withHost (hostn a.spec new) := by
  unfold Comps.normal Comps.withHost
  simp only [Option.isSome_map, Option.map_map]
  rfl

theorem Comps.normal_fragment {op : NormalizationMode} {a : Comps} (f : Option Str) :
    ({ a with fragment := f } : Comps).normal op = { a.normal op with fragment := f.map (pctn a.spec) } := rfl

theorem Comps.normal_kind {op : NormalizationMode} {a : Comps} (k : IriKind) :
    ({ a with kind := k } : Comps).normal op = { a.normal op with kind := k } := rfl

theorem Comps.normal_idem {op : NormalizationMode} (ho : op.case_pct = true) (ho' : op ≠ .off) {a : Comps} (h : a.Valid)
    (hk : a.kind = .iri ∨ a.kind = .absolute) : (a.normal op).normal op = a.normal op := by
  rw [Comps.normal_eq_iff ho (Comps.normal_valid ho h hk) h rfl rfl, Comps.normal_parts ho h]
  exact normParts_idem h.parts ho'

/-- The same normal form. -/
structure SameNormal (op : NormalizationMode) (a b : Comps) : Prop where
  spec : a.spec = b.spec
  kind : a.kind = b.kind
  normal : a.normal op = b.normal op

theorem SameNormal.scheme {op : NormalizationMode} {a b : Comps} (h : SameNormal op a b) :
    a.scheme.isSome = b.scheme.isSome := by
  have := congrArg (fun c : Comps => c.scheme.isSome) h.normal
  simpa [Comps.normal] using this

/-- An edit does not look at the spelling. -/
theorem edit_same {op : NormalizationMode} {a a' b b' : Comps} (ha : a.Valid) (ha' : a'.Valid)
    (h : SameNormal op a a') {c : Call} (hc : IsEdit c) (he : Effect c a b) (he' : Effect c a' b') :
    SameNormal op b b' := by
  have pw : ∀ f, KeepsPct f → b = a.mapUserinfo (mapPassword f) → b' = a'.mapUserinfo (mapPassword f) →
      SameNormal op b b' := by
    rintro f hf rfl rfl
    exact ⟨h.spec, h.kind, by rw [Comps.normal_mapUserinfo ha hf, Comps.normal_mapUserinfo ha' hf, h.normal]⟩
  cases c with
  | set_fragment f =>
    simp only [Effect] at he he'
    by_cases hk : a.kind = .absolute
    · rw [if_pos hk] at he
      rw [if_pos (h.kind ▸ hk)] at he'
      rw [he, he']; exact h
    · rw [if_neg hk] at he
      rw [if_neg (h.kind ▸ hk)] at he'
      subst he he'
      refine ⟨h.spec, h.kind, ?_⟩
      rw [Comps.normal_fragment (a := a), Comps.normal_fragment (a := a'), h.normal, h.spec]
  | replace_host new =>
    by_cases hn : host a.spec new
    · obtain rfl := he.1 hn
      obtain rfl := he'.1 (h.spec ▸ hn)
      exact ⟨h.spec, h.kind, by rw [Comps.normal_withHost, Comps.normal_withHost, h.normal, h.spec]⟩
    · obtain rfl := he.2 hn
      obtain rfl := he'.2 (h.spec ▸ hn)
      exact h
  | remove_password_inline => exact pw _ keepsPct_id he he'
  | remove_nonempty_password_inline => exact pw _ keepsPct_mask he he'
  | mask_password => exact pw _ keepsPct_mask he he'
  | into_absolute =>
    simp only [Effect] at he he'
    by_cases hk : a.kind = .iri
    · rw [if_pos hk] at he
      rw [if_pos (h.kind ▸ hk)] at he'
      subst he he'
      refine ⟨h.spec, rfl, ?_⟩
      have e : ∀ x : Comps, ({ x with kind := .absolute, fragment := none } : Comps).normal op =
        { x.normal op with kind := .absolute, fragment := none } := fun x => rfl
      rw [e, e, h.normal]
    · rw [if_neg hk] at he
      rw [if_neg (h.kind ▸ hk)] at he'
      rw [he, he']; exact h
  | _ => exact hc.elim

theorem allowed_normal {debug : Bool} {op : NormalizationMode} {a : Comps} (h : a.Valid) {c : Call} (hc : IsEdit c)
    (ha : Allowed debug c a) : Allowed debug c (a.normal op) := by
  cases c with
  | set_fragment f => exact ha
  | replace_host new =>
    intro hd hk
    rcases ha hd hk with e | e
    · left; simp [Comps.normal, e]
    · right; simp [Comps.normal, e, pctn_nil]
  | remove_password_inline =>
    intro x u hx hu
    simp only [Comps.normal, Option.map_eq_some_iff] at hx
    obtain ⟨y, hy, rfl⟩ := hx
    simp only [AuthParts.norm, Option.map_eq_some_iff] at hu
    obtain ⟨v, hv, rfl⟩ := hu
    obtain ⟨user, pw, rfl, -⟩ := exists_first (ha y v hy hv)
    have hw := userinfo_wf ((h.authority y hy).userinfo _ hv)
    obtain ⟨w1, -, w2⟩ := (PC_append_cons (p := fun _ => true) (d := ':') (by decide) (by decide)).1 hw
    rw [pctn_append_ch _ w1 (by decide) w2]
    simp
  | remove_nonempty_password_inline => trivial
  | mask_password => trivial
  | into_absolute => trivial
  | _ => exact hc.elim

theorem removal_edit {c : Call} (h : IsRemoval c) : IsEdit c := by cases c <;> first | trivial | exact h.elim

/-- A removal does to the normal form the normal form of what it does. -/
theorem removal_normal {op : NormalizationMode} {a b : Comps} (h : a.Valid) {c : Call} (hc : IsRemoval c)
    (he : Effect c a b) : Effect c (a.normal op) (b.normal op) := by
  cases c with
  | set_fragment f =>
    have : f = none := hc
    subst this
    simp only [Effect] at he ⊢
    by_cases hk : a.kind = .absolute
    · rw [if_pos hk] at he
      rw [if_pos (show (a.normal op).kind = _ from hk), he]
    · rw [if_neg hk] at he
      rw [if_neg (show ¬ (a.normal op).kind = _ from hk), he]
      rfl
  | remove_password_inline =>
    have : b = _ := he
    rw [this, Comps.normal_mapUserinfo h keepsPct_id]; rfl
  | remove_nonempty_password_inline =>
    have : b = _ := he
    rw [this, Comps.normal_mapUserinfo h keepsPct_mask]; rfl
  | mask_password =>
    have : b = _ := he
    rw [this, Comps.normal_mapUserinfo h keepsPct_mask]; rfl
  | into_absolute =>
    simp only [Effect] at he ⊢
    by_cases hk : a.kind = .iri
    · rw [if_pos hk] at he
      rw [if_pos (show (a.normal op).kind = _ from hk), he]
      rfl
    · rw [if_neg hk] at he
      rw [if_neg (show ¬ (a.normal op).kind = _ from hk), he]
  | _ => exact hc.elim

/-! ## Running calls -/

theorem run_cons {debug : Bool} {a b : Comps} (h : a.Valid) {c : Call} (hc : Allowed debug c a) (he : Effect c a b)
    (hb : b.Valid) (cs : List Call) : runCalls debug (c :: cs) a.val = runCalls debug cs b.val := by
  obtain ⟨x, -, -, x3, x4⟩ := C66_step debug a h c hc
  obtain rfl := x4 b hb he
  rw [runCalls, x3, Option.bind_some]

/-- The mode of a normalization. -/
def opOf (n : Call) : NormalizationMode := if n = .normalize_preserve then .preserve else .default

theorem opOf_ok {n : Call} : (opOf n).case_pct = true ∧ opOf n ≠ .off := by
  unfold opOf; split <;> decide

theorem effect_normal {n : Call} (hn : IsNormalization n) {a : Comps} (h : a.Valid)
    (hk : a.kind = .iri ∨ a.kind = .absolute) : Effect n a (a.normal (opOf n)) := by
  rcases hn with rfl | rfl
  · simp only [Effect, if_pos hk]
    refine ⟨rfl, rfl, ?_⟩
    rw [Comps.normal_parts rfl h]
    exact normParts_spec (op := .default) h.parts rfl
  · simp only [Effect, if_pos hk]
    refine ⟨rfl, rfl, ?_⟩
    rw [Comps.normal_parts rfl h]
    exact normParts_spec (op := .preserve) h.parts rfl

theorem normalization_allowed {debug : Bool} {n : Call} (hn : IsNormalization n) (a : Comps) : Allowed debug n a := by
  rcases hn with rfl | rfl <;> trivial

theorem run_normal {debug : Bool} {n : Call} (hn : IsNormalization n) {a : Comps} (h : a.Valid)
    (hk : a.kind = .iri ∨ a.kind = .absolute) (cs : List Call) :
    runCalls debug (n :: cs) a.val = runCalls debug cs (a.normal (opOf n)).val :=
  run_cons h (normalization_allowed hn a) (effect_normal hn h hk) (Comps.normal_valid opOf_ok.1 h hk) cs

theorem edit_kind {c : Call} (hc : IsEdit c) {a b : Comps} (he : Effect c a b)
    (hk : a.kind = .iri ∨ a.kind = .absolute) : b.kind = .iri ∨ b.kind = .absolute := by
  cases c with
  | set_fragment f => simp only [Effect] at he; split at he <;> (subst he; exact hk)
  | replace_host new =>
    by_cases hn : host a.spec new
    · obtain rfl := he.1 hn; exact hk
    · obtain rfl := he.2 hn; exact hk
  | remove_password_inline => have : b = _ := he; subst this; exact hk
  | remove_nonempty_password_inline => have : b = _ := he; subst this; exact hk
  | mask_password => have : b = _ := he; subst this; exact hk
  | into_absolute => simp only [Effect] at he; split at he <;> (subst he; simp [hk])
  | _ => exact hc.elim

end Rfc

/-- **C74**: an edit of an IRI and an edit of its normalized spelling give the same after normalization, in either
mode. -/
theorem C74_normalize (debug : Bool) (S : Spec) (k : IriKind) (t : Str) (h : k.validate S t = some true)
    (hk : k = .iri ∨ k = .absolute) (c n : Call) (hc : IsEdit c) (hn : IsNormalization n)
    (ha : AllowedOn debug c ⟨S, k, t⟩) :
    ∃ w, runCalls debug [c, n] ⟨S, k, t⟩ = some w ∧ runCalls debug [n, c, n] ⟨S, k, t⟩ = some w := by
  obtain ⟨a, hv, e, -⟩ := C66_components S k t h
  have hK : a.kind = k := congrArg Val.kind e
  replace ha := ha a hv e
  rw [← e]
  rw [← hK] at hk
  obtain ⟨b, b1, b2, -, -⟩ := C66_step debug a hv c ha
  have hv' := Comps.normal_valid (op := opOf n) opOf_ok.1 hv hk
  obtain ⟨b', b1', b2', -, -⟩ := C66_step debug (a.normal (opOf n)) hv' c (allowed_normal hv hc ha)
  have hs := edit_same hv hv' ⟨rfl, rfl, (Comps.normal_idem opOf_ok.1 opOf_ok.2 hv hk).symm⟩ hc b2 b2'
  have hb := edit_kind hc b2 hk
  refine ⟨(b.normal (opOf n)).val, ?_, ?_⟩
  · rw [run_cons hv ha b2 b1, run_normal hn b1 hb, runCalls]
  · rw [run_normal hn hv hk, run_cons hv' (allowed_normal hv hc ha) b2' b1', run_normal hn b1' (hs.kind ▸ hb), runCalls,
      ← hs.normal]

/-- **C74**: taking away the fragment or the password commutes with normalization. -/
theorem C74_removal (debug : Bool) (S : Spec) (k : IriKind) (t : Str) (h : k.validate S t = some true)
    (hk : k = .iri ∨ k = .absolute) (c n : Call) (hc : IsRemoval c) (hn : IsNormalization n)
    (ha : AllowedOn debug c ⟨S, k, t⟩) :
    ∃ w, runCalls debug [c, n] ⟨S, k, t⟩ = some w ∧ runCalls debug [n, c] ⟨S, k, t⟩ = some w := by
  obtain ⟨a, hv, e, -⟩ := C66_components S k t h
  have hK : a.kind = k := congrArg Val.kind e
  replace ha := ha a hv e
  rw [← e]
  rw [← hK] at hk
  obtain ⟨b, b1, b2, -, -⟩ := C66_step debug a hv c ha
  have hv' := Comps.normal_valid (op := opOf n) opOf_ok.1 hv hk
  have hb := edit_kind (removal_edit hc) b2 hk
  have hvb := Comps.normal_valid (op := opOf n) opOf_ok.1 b1 hb
  refine ⟨(b.normal (opOf n)).val, ?_, ?_⟩
  · rw [run_cons hv ha b2 b1, run_normal hn b1 hb, runCalls]
  · rw [run_normal hn hv hk, run_cons hv' (allowed_normal hv (removal_edit hc) ha) (removal_normal hv hc b2) hvb, runCalls]

/-! ## Equivalent values -/

namespace Rfc

theorem same_iff {a b : Comps} (ha : a.Valid) (hb : b.Valid) (hs : a.spec = b.spec) (hk : a.kind = b.kind) :
    SameNormal .default a b ↔ EquivalentText a.spec a.val.text b.val.text := by
  constructor
  · intro h
    have := (Comps.normal_eq_iff (op := .default) rfl ha hb hs hk).1 h.normal
    rw [← hs] at this
    exact ⟨a.parts, b.parts, ⟨ha.parts, rfl⟩, ⟨hs ▸ hb.parts, rfl⟩, (equivalent_iff ha.parts (hs ▸ hb.parts)).2 this⟩
  · rintro ⟨p, q, ⟨p1, p2⟩, ⟨q1, q2⟩, h⟩
    obtain rfl := recompose_inj p1.delim ha.parts.delim p2
    obtain rfl := recompose_inj q1.delim hb.parts.delim q2
    refine ⟨hs, hk, (Comps.normal_eq_iff (op := .default) rfl ha hb hs hk).2 ?_⟩
    rw [← hs]
    exact (equivalent_iff p1 q1).1 h

theorem normParts_preserve_default {S : Spec} {p : Parts} (h : p.Valid S) (hs : p.scheme ≠ none) :
    normParts S .default (normParts S .preserve p) = normParts S .default p := by
  by_cases ho : OpaquePath p
  · refine normParts_eq_of rfl ?_ ?_ ?_ ?_ ?_
    · simp only [normParts, NormalizationMode.case_pct, if_true, Option.map_map]
      congr 1; funext x; simp [toLower_idem]
    · simp only [normParts, NormalizationMode.case_pct, if_true]
      cases ha : p.authority with
      | none => rfl
      | some x => simp only [Option.map_some]; rw [authn_idem (h.authority x ha)]
    · rw [normParts_isSome]
      show pathn S .default _ (pathn S .preserve p.authority.isSome p.path) = _
      rw [(pathn_preserve S p).1 ho]
      have h1 := h.pathPC.wf
      show escapePath _ (npath S (pctn S p.path)) = escapePath _ (npath S p.path)
      unfold npath
      rw [pctn_rds (pctn_wf h1), pctn_idem h1, pctn_rds h1]
    · simp only [normParts, Option.map_map]
      cases ha : p.query with
      | none => rfl
      | some x =>
        show some (pctn S (pctn S x)) = some (pctn S x)
        rw [pctn_idem (query_wf h ha)]
    · simp only [normParts, Option.map_map]
      cases ha : p.fragment with
      | none => rfl
      | some x =>
        show some (pctn S (pctn S x)) = some (pctn S x)
        rw [pctn_idem (fragment_wf h ha)]
  · have : normParts S .preserve p = normParts S .default p := by
      rw [normParts_preserve_mk, (pathn_preserve S p).2 ho]
      rfl
    rw [this]
    exact normParts_idem h (by decide)

/-- Equivalence as URIs is equivalence as IRIs. -/
theorem same_iri {a b : Comps} (ha : a.Valid) (hb : b.Valid) (h : SameNormal .default a b)
    (hvi : ({ a with spec := .iri } : Comps).Valid) (hvi' : ({ b with spec := .iri } : Comps).Valid) :
    SameNormal .default { a with spec := .iri } { b with spec := .iri } := by
  cases hs : a.spec with
  | iri =>
    have e1 : ({ a with spec := .iri } : Comps) = a := by cases a; simp_all
    have e2 : ({ b with spec := .iri } : Comps) = b := by have := h.spec; cases b; simp_all
    rw [e1, e2]; exact h
  | uri =>
    rw [same_iff hvi hvi' rfl h.kind]
    obtain ⟨p, q, hp, hq, he⟩ := (same_iff ha hb h.spec h.kind).1 h
    rw [hs] at hp hq he
    obtain rfl := recompose_inj hp.1.delim ha.parts.delim hp.2
    obtain rfl := recompose_inj hq.1.delim hb.parts.delim hq.2
    exact ⟨_, _, ⟨hvi.parts, rfl⟩, ⟨hvi'.parts, rfl⟩, equivalent_mono he⟩

theorem same_encoded {a b : Comps} (ha : a.Valid) (hb : b.Valid) (h : SameNormal .default a b) :
    SameNormal .default { a.encoded with spec := .uri } { b.encoded with spec := .uri } := by
  refine ⟨rfl, h.kind, ?_⟩
  rw [Comps.normal_eq_iff (op := .default) rfl ha.encoded_valid hb.encoded_valid rfl h.kind]
  show normParts .uri .default a.encoded.parts = normParts .uri .default b.encoded.parts
  rw [ha.encoded_eq.1, hb.encoded_eq.1, normParts_map ha.parts, normParts_map hb.parts,
    (Comps.normal_eq_iff (op := .default) rfl ha hb h.spec h.kind).1 h.normal]

theorem call_same {a a' b b' : Comps} (ha : a.Valid) (ha' : a'.Valid) (hb : b.Valid) (hb' : b'.Valid)
    (h : SameNormal .default a a') {c : Call} (hc : KeepsEquivalence c) (he : Effect c a b) (he' : Effect c a' b') :
    SameNormal .default b b' := by
  cases c with
  | encode_to_uri_inline =>
    have h1 : b = _ := he
    have h2 : b' = _ := he'
    subst h1 h2
    cases hs : a.spec with
    | uri =>
      rw [ha.encoded_uri hs, ha'.encoded_uri (h.spec ▸ hs)]; exact h
    | iri =>
      have := same_iri ha.encoded_valid ha'.encoded_valid (same_encoded ha ha' h)
        (by have : ({ a.encoded with spec := .iri } : Comps) = a.encoded := by cases a; simp_all [Comps.encoded]
            show ({ a.encoded with spec := .iri } : Comps).Valid
            rw [this]; exact hb)
        (by have : ({ a'.encoded with spec := .iri } : Comps) = a'.encoded := by
              have := h.spec; cases a'; simp_all [Comps.encoded]
            show ({ a'.encoded with spec := .iri } : Comps).Valid
            rw [this]; exact hb')
      have e1 : ({ a.encoded with spec := .iri } : Comps) = a.encoded := by cases a; simp_all [Comps.encoded]
      have e2 : ({ a'.encoded with spec := .iri } : Comps) = a'.encoded := by
        have := h.spec; cases a'; simp_all [Comps.encoded]
      exact e1 ▸ e2 ▸ this
  | encode_into_uri =>
    have h1 : b = _ := he
    have h2 : b' = _ := he'
    subst h1 h2
    exact same_encoded ha ha' h
  | into_iri_spec =>
    have h1 : b = _ := he
    have h2 : b' = _ := he'
    subst h1 h2
    exact same_iri ha ha' h hb hb'
  | into_reference =>
    have h1 : b = _ := he
    have h2 : b' = _ := he'
    subst h1 h2
    exact ⟨h.spec, rfl, by rw [Comps.normal_kind (a := a), Comps.normal_kind (a := a'), h.normal]⟩
  | into_iri =>
    have hk : ∀ k, SameNormal .default { a with kind := k } { a' with kind := k } := fun k =>
      ⟨h.spec, rfl, by rw [Comps.normal_kind (a := a), Comps.normal_kind (a := a'), h.normal]⟩
    simp only [Effect, ← h.kind, ← h.scheme] at he he'
    cases ek : a.kind <;> rw [ek] at he he' <;> subst he he'
    · exact hk _
    · exact h
    · exact hk _
    · exact h
  | normalize =>
    by_cases hk : a.kind = .iri ∨ a.kind = .absolute
    · have e1 := effect_det hb (Comps.normal_valid rfl ha hk) he (effect_normal (.inl rfl) ha hk)
      have e2 := effect_det hb' (Comps.normal_valid rfl ha' (h.kind ▸ hk)) he' (effect_normal (.inl rfl) ha' (h.kind ▸ hk))
      have : b = b' := by rw [e1, e2]; exact h.normal
      rw [this]; exact ⟨rfl, rfl, rfl⟩
    · simp only [Effect, if_neg hk] at he
      simp only [Effect, if_neg (h.kind ▸ hk)] at he'
      rw [he, he']; exact h
  | normalize_preserve =>
    by_cases hk : a.kind = .iri ∨ a.kind = .absolute
    · have e1 := effect_det hb (Comps.normal_valid (op := .preserve) rfl ha hk) he (effect_normal (.inr rfl) ha hk)
      have e2 := effect_det hb' (Comps.normal_valid (op := .preserve) rfl ha' (h.kind ▸ hk)) he'
        (effect_normal (.inr rfl) ha' (h.kind ▸ hk))
      have g : ∀ {x : Comps}, x.Valid → (x.kind = .iri ∨ x.kind = .absolute) →
          (x.normal .preserve).normal .default = x.normal .default := by
        intro x hx hk
        rw [Comps.normal_eq_iff (op := .default) rfl (Comps.normal_valid rfl hx hk) hx rfl rfl,
          Comps.normal_parts rfl hx]
        exact normParts_preserve_default hx.parts (kind_iri_scheme hx hk)
      rw [e1, e2]
      exact ⟨h.spec, h.kind, (g ha hk).trans (h.normal.trans (g ha' (h.kind ▸ hk)).symm)⟩
    · simp only [Effect, if_neg hk] at he
      simp only [Effect, if_neg (h.kind ▸ hk)] at he'
      rw [he, he']; exact h
  | set_fragment f => exact edit_same ha ha' h (c := .set_fragment f) trivial he he'
  | replace_host new => exact edit_same ha ha' h (c := .replace_host new) trivial he he'
  | remove_password_inline => exact edit_same ha ha' h (c := .remove_password_inline) trivial he he'
  | remove_nonempty_password_inline =>
    exact edit_same ha ha' h (c := .remove_nonempty_password_inline) trivial he he'
  | mask_password => exact edit_same ha ha' h (c := .mask_password) trivial he he'
  | into_absolute => exact edit_same ha ha' h (c := .into_absolute) trivial he he'
  | replace_host_reg_name new => exact hc.elim
  | try_into_uri => exact hc.elim
  | resolve_against m b => exact hc.elim

end Rfc

/-- **C74**: equivalent values stay equivalent, under any history of the methods that are blind to the spelling. -/
theorem C74_history (debug : Bool) (S : Spec) (k : IriKind) (t t' : Str) (a a' b b' : Comps) (ha : a.Valid)
    (ha' : a'.Valid) (e : a.val = ⟨S, k, t⟩) (e' : a'.val = ⟨S, k, t'⟩) (h : EquivalentText S t t') (cs : List Call)
    (hc : ∀ c ∈ cs, KeepsEquivalence c) (hr : Runs debug cs a b) (hr' : Runs debug cs a' b') :
    ∃ S' k' u u', runCalls debug cs ⟨S, k, t⟩ = some ⟨S', k', u⟩ ∧ runCalls debug cs ⟨S, k, t'⟩ = some ⟨S', k', u'⟩ ∧
      EquivalentText S' u u' := by
  have hs : a.spec = S := congrArg Val.spec e
  have hs' : a'.spec = S := congrArg Val.spec e'
  have hk : a.kind = k := congrArg Val.kind e
  have hk' : a'.kind = k := congrArg Val.kind e'
  have key : SameNormal .default a a' := by
    rw [same_iff ha ha' (hs.trans hs'.symm) (hk.trans hk'.symm), e, e', hs]
    exact h
  rw [← e, ← e', (C66_history debug cs a b ha hr).1, (C66_history debug cs a' b' ha' hr').1]
  have hb := (C66_history debug cs a b ha hr).2
  have hb' := (C66_history debug cs a' b' ha' hr').2
  clear e e' hs hs' hk hk' h
  have : SameNormal .default b b' := by
    induction hr generalizing a' with
    | nil a => cases hr'; exact key
    | cons c cs a x d hx1 hx2 hx3 hx4 ih =>
      cases hr' with
      | cons _ _ _ y _ hy1 hy2 hy3 hy4 =>
        exact ih (ha := hx3) (ha' := hy3) (hc := fun c hm => hc c (by simp [hm])) (hr' := hy4)
          (key := call_same ha ha' hx3 hy3 key (hc c (by simp)) hx2 hy2) (hb := hb)
  refine ⟨b.spec, b.kind, b.parts.recompose, b'.parts.recompose, rfl, ?_, (same_iff hb hb' this.spec this.kind).1 this⟩
  rw [this.spec, this.kind]; rfl


/-- **C74**: equivalent values stay equivalent under one call of such a method. -/
theorem C74_congruence (debug : Bool) (S : Spec) (k : IriKind) (t t' : Str) (h : k.validate S t = some true)
    (h' : k.validate S t' = some true) (he : EquivalentText S t t') (c : Call) (hc : KeepsEquivalence c)
    (ha : AllowedOn debug c ⟨S, k, t⟩) (ha' : AllowedOn debug c ⟨S, k, t'⟩) :
    ∃ S' k' u u', (⟨S, k, t⟩ : Val).step debug c = some ⟨S', k', u⟩ ∧
      (⟨S, k, t'⟩ : Val).step debug c = some ⟨S', k', u'⟩ ∧ EquivalentText S' u u' := by
  obtain ⟨a, hv, e, -⟩ := C66_components S k t h
  obtain ⟨a', hv', e', -⟩ := C66_components S k t' h'
  obtain ⟨b, b1, b2, b3, -⟩ := C66_step debug a hv c (ha a hv e)
  obtain ⟨b', b1', b2', b3', -⟩ := C66_step debug a' hv' c (ha' a' hv' e')
  have := C74_history debug S k t t' a a' b b' hv hv' e e' he [c] (by simpa using hc)
    (.cons c [] a b b (ha a hv e) b2 b1 (.nil b)) (.cons c [] a' b' b' (ha' a' hv' e') b2' b1' (.nil b'))
  simpa only [runCalls, Option.bind_fun_some] using this

/-! ## Encoding -/

namespace Rfc

theorem encoded_password {f : Str → Str} (hf : ∀ user, mapToUri (f user) = f (mapToUri user)) (u : Str) :
    mapToUri (mapPassword f u) = mapPassword f (mapToUri u) := by
  have hno : ∀ s : Str, ':' ∉ s → ':' ∉ mapToUri s := by
    intro s hs hm
    induction s with
    | nil => simp [mapToUri_nil] at hm
    | cons c r ih =>
      rw [show c :: r = [c] ++ r from rfl, mapToUri_append, List.mem_append] at hm
      rcases hm with hm | hm
      · by_cases hc : c.toNat < 128
        · rw [mapToUri_ascii (by simpa using hc)] at hm
          exact hs (by simpa using Or.inl (List.mem_singleton.1 hm))
        · rw [mapToUri_nonascii (by simpa using hc)] at hm
          obtain ⟨b, hb, hm⟩ := List.mem_flatMap.1 hm
          have : b < 256 := by
            simp only [utf8s, List.flatMap_cons, List.flatMap_nil, List.append_nil] at hb
            exact utf8_lt c b hb
          revert hm
          have : ∀ b : Fin 256, ':' ∉ pctUpper b.val := by decide +kernel
          exact this ⟨b, ‹_›⟩
      · exact ih (fun h => hs (by simp [h])) hm
  by_cases hc : ':' ∈ u
  · obtain ⟨user, pw, rfl, hn⟩ := exists_first hc
    rw [mapPassword_eq hn, hf, mapToUri_append, mapToUri_cons_ascii (by decide), mapPassword_eq (hno _ hn)]
  · rw [mapPassword_none hc, mapPassword_none (hno _ hc)]

theorem encoded_mapUserinfo {f : Str → Str} (hf : ∀ user, mapToUri (f user) = f (mapToUri user)) (a : Comps) :
    (a.mapUserinfo (mapPassword f)).encoded = a.encoded.mapUserinfo (mapPassword f) := by
  unfold Comps.encoded Comps.mapUserinfo
  simp only [Option.map_map, Comps.mk.injEq, true_and, and_true]
  congr 1
  funext x
  simp only [Function.comp, Option.map_map, AuthParts.mk.injEq, and_true]
  congr 1
  funext u
  exact encoded_password hf u

theorem encoded_withHost (a : Comps) (new : Str) :
    (a.withHost new).encoded = a.encoded.withHost (mapToUri new) := by
  unfold Comps.encoded Comps.withHost
  simp only [Option.map_map]
  rfl

theorem digit_ascii {c : Char} (h : isDigit c = true) : c.toNat < 128 := by
  simp only [isDigit, Bool.and_eq_true, decide_eq_true_eq] at h
  have : c.toNat ≤ '9'.toNat := h.2
  exact Nat.lt_of_le_of_lt this (by decide)

/-- The kind of a host can be seen on its encoding. -/
theorem encoded_regname {S : Spec} {h : Str} (hh : host S h) :
    (¬ IP_literal (mapToUri h) ∧ ¬ IPv4address (mapToUri h)) ↔ (¬ IP_literal h ∧ ¬ IPv4address h) := by
  by_cases ha : ∀ c ∈ h, c.toNat < 128
  · rw [mapToUri_ascii ha]
  · have hp : '%' ∈ mapToUri h := by
      have : ∃ c ∈ h, 128 ≤ c.toNat := by
        refine Classical.byContradiction fun hn => ha fun c hc => ?_
        refine Classical.byContradiction fun hl => hn ⟨c, hc, by omega⟩
      obtain ⟨c, hc, hl⟩ := this
      obtain ⟨x, y, rfl⟩ := List.append_of_mem hc
      rw [mapToUri_append, show c :: y = [c] ++ y from rfl, mapToUri_append]
      have : '%' ∈ mapToUri [c] := by
        rw [mapToUri_nonascii (by simpa using hl)]
        have : utf8s [c] ≠ [] := by
          simp only [utf8s, List.flatMap_cons, List.flatMap_nil, List.append_nil]
          exact utf8_ne_nil c
        obtain ⟨b, r, e⟩ := List.exists_cons_of_ne_nil this
        rw [e]
        simp [pctUpper]
      simp [this]
    have n1 : ∀ s, IP_literal s → '%' ∉ s := fun s hs hm => (ip_literal_mem hs hm).2 rfl
    have n2 : ∀ s, IPv4address s → ∀ c ∈ s, c.toNat < 128 ∧ c ≠ '%' := by
      intro s hs c hc
      rcases (ipv4_chars ((ipv4_iff s).1 hs)).1 c hc with h | rfl
      · refine ⟨?_, ?_⟩
        · exact (digit_ascii h)
        · rintro rfl; revert h; decide
      · decide
    constructor
    · intro _
      exact ⟨fun hi => ha fun c hc => (ip_literal_mem hi hc).1, fun hi => ha fun c hc => (n2 _ hi c hc).1⟩
    · intro _
      exact ⟨fun hi => n1 _ hi hp, fun hi => (n2 _ hi _ hp).2 rfl⟩

end Rfc

/-- **C74**: an edit followed by the conversion into a URI is the conversion followed by the edit of the URI, with the
new text encoded. -/
theorem C74_encode (debug : Bool) (S : Spec) (k : IriKind) (t : Str) (h : k.validate S t = some true) (c : Call)
    (hc : IsEdit c ∨ ∃ new, c = .replace_host_reg_name new) (hh : HostArgument S c)
    (ha : AllowedOn debug c ⟨S, k, t⟩) :
    ∃ w, runCalls debug [c, .encode_into_uri] ⟨S, k, t⟩ = some w ∧
      runCalls debug [.encode_into_uri, encodedCall c] ⟨S, k, t⟩ = some w := by
  obtain ⟨a, hv, e, -⟩ := C66_components S k t h
  replace ha := ha a hv e
  have hs : a.spec = S := congrArg Val.spec e
  rw [← e]
  subst hs
  clear e h
  obtain ⟨b, b1, b2, -, -⟩ := C66_step debug a hv c ha
  refine ⟨({ b.encoded with spec := .uri } : Comps).val, ?_, ?_⟩
  · rw [run_cons hv ha b2 b1, run_cons (c := .encode_into_uri) b1 trivial rfl b1.encoded_valid, runCalls]
  · rw [run_cons (c := .encode_into_uri) hv trivial rfl hv.encoded_valid]
    have hfr : a.fragment = none ∨ a.fragment = some [] → a.encoded.fragment = none ∨ a.encoded.fragment = some [] := by
      rintro (e | e) <;> simp [Comps.encoded, e, mapToUri_nil]
    have hal : Allowed debug (encodedCall c) { a.encoded with spec := .uri } := by
      cases c with
      | set_fragment f =>
        rintro x hx
        obtain ⟨y, hy, rfl⟩ := Option.map_eq_some_iff.1 hx
        exact map_fragment (ha y hy)
      | replace_host new => exact fun hd hk => hfr (ha hd hk)
      | replace_host_reg_name new => exact fun hd hk => hfr (ha hd hk)
      | remove_password_inline =>
        intro x u hx hu
        simp only [Comps.encoded, Option.map_eq_some_iff] at hx
        obtain ⟨y, hy, rfl⟩ := hx
        simp only [Option.map_eq_some_iff] at hu
        obtain ⟨v, hv, rfl⟩ := hu
        obtain ⟨user, pw, rfl, -⟩ := exists_first (ha y v hy hv)
        rw [mapToUri_append, mapToUri_cons_ascii (by decide)]
        simp
      | remove_nonempty_password_inline => trivial
      | mask_password => trivial
      | into_absolute => trivial
      | _ => simp [IsEdit] at hc
    have he : Effect (encodedCall c) { a.encoded with spec := .uri } { b.encoded with spec := .uri } := by
      have pw : ∀ f : Str → Str, (∀ user, mapToUri (f user) = f (mapToUri user)) →
          b = a.mapUserinfo (mapPassword f) →
          ({ b.encoded with spec := .uri } : Comps) =
            ({ a.encoded with spec := .uri } : Comps).mapUserinfo (mapPassword f) := by
        rintro f hf rfl
        rw [encoded_mapUserinfo hf]; rfl
      have hid : ∀ user, mapToUri ((fun u => u) user) = (fun u => u) (mapToUri user) := fun _ => rfl
      have hmask : ∀ user, mapToUri ((fun u : Str => u ++ [':']) user) = (fun u => u ++ [':']) (mapToUri user) := by
        intro user
        show mapToUri (user ++ [':']) = mapToUri user ++ [':']
        rw [mapToUri_append, mapToUri_ascii (s := [':']) (by simp)]
      cases c with
      | set_fragment f =>
        simp only [Effect, encodedCall] at b2 ⊢
        by_cases hk : a.kind = .absolute
        · rw [if_pos hk] at b2
          rw [if_pos (show a.encoded.kind = _ from hk), b2]
        · rw [if_neg hk] at b2
          rw [if_neg (show ¬ a.encoded.kind = _ from hk), b2]
          rfl
      | replace_host new =>
        obtain rfl := b2.1 hh
        exact ⟨fun _ => by rw [encoded_withHost]; rfl, fun hn => absurd (map_host hh) hn⟩
      | replace_host_reg_name new =>
        have hreg : ({ a.encoded with spec := .uri } : Comps).HasRegName ↔ a.HasRegName := by
          constructor
          · rintro ⟨x, hx, h1⟩
            simp only [Comps.encoded, Option.map_eq_some_iff] at hx
            obtain ⟨y, hy, rfl⟩ := hx
            exact ⟨y, hy, (encoded_regname (hv.authority y hy).host).1 h1⟩
          · rintro ⟨x, hx, h1⟩
            exact ⟨⟨x.userinfo.map mapToUri, mapToUri x.host, x.port⟩, by simp only [Comps.encoded, hx, Option.map_some],
              (encoded_regname (hv.authority x hx).host).2 h1⟩
        by_cases hr : a.HasRegName
        · obtain rfl := b2.1 ⟨hh, hr⟩
          exact ⟨fun _ => (by rw [encoded_withHost]; rfl), fun hn => absurd ⟨map_host hh, hreg.2 hr⟩ hn⟩
        · obtain rfl := b2.2 fun hn => hr hn.2
          exact ⟨fun hn => absurd (hreg.1 hn.2) hr, fun _ => rfl⟩
      | remove_password_inline => exact pw _ hid b2
      | remove_nonempty_password_inline => exact pw _ hmask b2
      | mask_password => exact pw _ hmask b2
      | into_absolute =>
        simp only [Effect, encodedCall] at b2 ⊢
        by_cases hk : a.kind = .iri
        · rw [if_pos hk] at b2
          rw [if_pos (show a.encoded.kind = _ from hk), b2]
          rfl
        · rw [if_neg hk] at b2
          rw [if_neg (show ¬ a.encoded.kind = _ from hk), b2]
      | _ => simp [IsEdit] at hc
    rw [run_cons hv.encoded_valid hal he b1.encoded_valid, runCalls]

/-- **C74**: `replace_host_reg_name` is not blind to the spelling: the host of one of two equivalent IRIs is a name, of
the other an address, and only the name is replaced. -/
theorem C74_reg_name_spelling : ∃ t t' u u', validate_uri .uri t = some true ∧ validate_uri .uri t' = some true ∧
    EquivalentText .uri t t' ∧
    (⟨.uri, .iri, t⟩ : Val).step false (.replace_host_reg_name (chars! "new")) = some ⟨.uri, .iri, u⟩ ∧
    (⟨.uri, .iri, t'⟩ : Val).step false (.replace_host_reg_name (chars! "new")) = some ⟨.uri, .iri, u'⟩ ∧
    ¬ EquivalentText .uri u u' := by
  refine ⟨chars! "http://%31.2.3.4/", chars! "http://1.2.3.4/", chars! "http://new/", chars! "http://1.2.3.4/",
    by decide +kernel, by decide +kernel, ?_, by decide +kernel, by decide +kernel, ?_⟩
  · rw [← C49_canonical _ _ _ (by decide +kernel) (by decide +kernel)]; decide +kernel
  · rw [← C49_canonical _ _ _ (by decide +kernel) (by decide +kernel)]; decide +kernel

/-- What `AllowedOn` asks, seen on the text: here nothing, the release build and a new host. -/
theorem allowedOn_host (c : Call) (v : Val) (h : (∃ new, c = .replace_host new) ∨ c = .mask_password) :
    AllowedOn false c v := by
  rcases h with ⟨new, rfl⟩ | rfl
  · intro a _ _ hd; cases hd
  · intro a _ _; trivial

/-- A host and a mask, on an IRI and on its normal form. -/
example : runCalls false [.replace_host (chars! "N%45w"), .normalize] ⟨.iri, .iri, chars! "HTTP://%75:p@H:/a/../%7e"⟩ =
      some ⟨.iri, .iri, chars! "http://u:p@new/~"⟩ ∧
    runCalls false [.normalize, .replace_host (chars! "N%45w"), .normalize]
      ⟨.iri, .iri, chars! "HTTP://%75:p@H:/a/../%7e"⟩ = some ⟨.iri, .iri, chars! "http://u:p@new/~"⟩ ∧
    runCalls false [.normalize, .mask_password] ⟨.iri, .iri, chars! "HTTP://%75:p@H:/a/../%7e"⟩ =
      some ⟨.iri, .iri, chars! "http://u:@h/~"⟩ := by decide +kernel

/-- The hypotheses of `C74_normalize`, `C74_removal` and `C74_congruence` hold there. -/
example :
    (∃ w, runCalls false [.replace_host (chars! "N%45w"), .normalize] ⟨.iri, .iri, chars! "HTTP://%75:p@H:/a/../%7e"⟩ =
        some w ∧
      runCalls false [.normalize, .replace_host (chars! "N%45w"), .normalize]
        ⟨.iri, .iri, chars! "HTTP://%75:p@H:/a/../%7e"⟩ = some w) ∧
    (∃ w, runCalls false [.mask_password, .normalize] ⟨.iri, .iri, chars! "HTTP://%75:p@H:/a/../%7e"⟩ = some w ∧
      runCalls false [.normalize, .mask_password] ⟨.iri, .iri, chars! "HTTP://%75:p@H:/a/../%7e"⟩ = some w) ∧
    ∃ S' k' u u', (⟨.iri, .iri, chars! "HTTP://%75:p@H:/a/../%7e"⟩ : Val).step false .mask_password = some ⟨S', k', u⟩ ∧
      (⟨.iri, .iri, chars! "http://u:p@h/~"⟩ : Val).step false .mask_password = some ⟨S', k', u'⟩ ∧
      EquivalentText S' u u' := by
  refine ⟨C74_normalize false .iri .iri _ (by decide +kernel) (.inl rfl) _ _ trivial (.inl rfl)
      (allowedOn_host _ _ (.inl ⟨_, rfl⟩)),
    C74_removal false .iri .iri _ (by decide +kernel) (.inl rfl) _ _ trivial (.inl rfl)
      (allowedOn_host _ _ (.inr rfl)),
    C74_congruence false .iri .iri _ _ (by decide +kernel) (by decide +kernel) ?_ _ trivial
      (allowedOn_host _ _ (.inr rfl)) (allowedOn_host _ _ (.inr rfl))⟩
  rw [← C49_canonical _ _ _ (by decide +kernel) (by decide +kernel)]; decide +kernel

/-- And those of `C74_encode`. -/
example : (∃ w, runCalls false [.replace_host (chars! "é"), .encode_into_uri] ⟨.iri, .reference, chars! "//h/ü"⟩ =
      some w ∧
    runCalls false [.encode_into_uri, .replace_host (chars! "%C3%A9")] ⟨.iri, .reference, chars! "//h/ü"⟩ = some w) ∧
    runCalls false [.encode_into_uri, .replace_host (chars! "%C3%A9")] ⟨.iri, .reference, chars! "//h/ü"⟩ =
      some ⟨.uri, .reference, chars! "//%C3%A9/%C3%BC"⟩ := by
  refine ⟨?_, by decide +kernel⟩
  have := C74_encode false .iri .reference (chars! "//h/ü") (by decide +kernel) (.replace_host (chars! "é"))
    (.inl trivial) ((C06_host _ _).1 (by decide +kernel)) (allowedOn_host _ _ (.inl ⟨_, rfl⟩))
  have e : mapToUri (chars! "é") = chars! "%C3%A9" := by decide +kernel
  simpa only [encodedCall, e] using this

end Verif
