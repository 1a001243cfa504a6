import Verif.Spec.Secret
import Verif.Props.EditEquiv

/-!
# C77: the password influences nothing but itself
-/

namespace Verif

open Rfc

namespace Rfc

/-- User information without the password. -/
def maskU : Str → Str := mapPassword fun user => user ++ [':']

/-- Components without the password. -/
def Comps.masked (a : Comps) : Comps := a.mapUserinfo maskU

def maskA (x : AuthParts) : AuthParts := { x with userinfo := x.userinfo.map maskU }

theorem masked_idem (a : Comps) : a.masked.masked = a.masked := by
  unfold Comps.masked Comps.mapUserinfo
  simp only [Option.map_map, Comps.mk.injEq, true_and, and_true]
  congr 1
  funext x
  simp only [Function.comp, Option.map_map, AuthParts.mk.injEq, and_true]
  congr 1
  funext u
  exact mapPassword_mask u

/-- What equal masks mean, field by field. -/
theorem masked_eq_iff (a b : Comps) : a.masked = b.masked ↔ a.spec = b.spec ∧ a.kind = b.kind ∧ a.scheme = b.scheme ∧
    a.authority.map maskA = b.authority.map maskA ∧ a.path = b.path ∧ a.query = b.query ∧ a.fragment = b.fragment := by
  unfold Comps.masked Comps.mapUserinfo
  rw [Comps.mk.injEq]
  rfl

theorem mask_step (debug : Bool) {a : Comps} (h : a.Valid) : a.masked.Valid ∧
    a.val.step debug .mask_password = some a.masked.val := by
  obtain ⟨b, b1, b2, b3, -⟩ := C66_step debug a h .mask_password trivial
  obtain rfl : b = a.masked := b2
  exact ⟨b1, b3⟩

theorem mask_text {a : Comps} (h : a.Valid) : mask_password a.parts.recompose = some a.masked.parts.recompose := by
  rcases h.password_cases with ⟨x, user, pw, h1, h2⟩ | ⟨h1, h2⟩
  · have := (C25_mask_password a.spec a.kind a.parts.recompose h.val a.parts ⟨h.parts, rfl⟩ x user pw h2).1
    rw [this]
    unfold Comps.masked maskU
    rw [Comps.mapUserinfo_password _ h1 h2]
    rfl
  · rw [(C25_mask_no_password a.spec _ a.parts ⟨h.parts, rfl⟩ h1).1]
    unfold Comps.masked maskU
    rw [h2]

/-- Equal masks, as texts and as components. -/
theorem mask_text_eq {a b : Comps} (ha : a.Valid) (hb : b.Valid) (hs : a.spec = b.spec) (hk : a.kind = b.kind) :
    mask_password a.parts.recompose = mask_password b.parts.recompose ↔ a.masked = b.masked := by
  rw [mask_text ha, mask_text hb, Option.some.injEq]
  constructor
  · intro h
    refine Comps.ext_val (mask_step false ha).1 (mask_step false hb).1 ?_
    unfold Comps.val
    rw [h]
    show Val.mk a.spec a.kind _ = Val.mk b.spec b.kind _
    rw [hs, hk]
  · intro h; rw [h]

theorem differ_iff (a b : Comps) : DifferInPassword a b ↔ a.masked = b.masked := by
  constructor
  · rintro (rfl | ⟨x, user, pw, pw', h1, h2, rfl⟩)
    · rfl
    · rw [masked_eq_iff]
      refine ⟨rfl, rfl, rfl, ?_, rfl, rfl, rfl⟩
      simp only [h2, Option.map_some, maskA, maskU, mapPassword_eq h1]
  · intro h
    obtain ⟨S, k, s, au, p, q, f⟩ := a
    obtain ⟨S', k', s', au', p', q', f'⟩ := b
    rw [masked_eq_iff] at h
    simp only at h
    obtain ⟨rfl, rfl, rfl, h, rfl, rfl, rfl⟩ := h
    cases au with
    | none =>
      cases au' with
      | none => exact .inl rfl
      | some y => simp at h
    | some x =>
      cases au' with
      | none => simp at h
      | some y =>
        simp only [Option.map_some, Option.some.injEq, maskA] at h
        obtain ⟨u, ho, po⟩ := x
        obtain ⟨u', ho', po'⟩ := y
        simp only [AuthParts.mk.injEq] at h
        obtain ⟨h, rfl, rfl⟩ := h
        cases u with
        | none =>
          cases u' with
          | none => exact .inl rfl
          | some v => simp at h
        | some u =>
          cases u' with
          | none => simp at h
          | some v =>
            simp only [Option.map_some, Option.some.injEq, maskU] at h
            by_cases hu : ':' ∈ u
            · obtain ⟨user, pw, rfl, hn⟩ := exists_first hu
              rw [mapPassword_eq hn] at h
              by_cases hv : ':' ∈ v
              · obtain ⟨user', pw', rfl, hn'⟩ := exists_first hv
                rw [mapPassword_eq hn'] at h
                obtain rfl := List.append_cancel_right h
                exact .inr ⟨⟨none, ho, po⟩, user, pw, pw', hn, rfl, rfl⟩
              · rw [mapPassword_none hv] at h
                exact absurd (by rw [← h]; simp) hv
            · rw [mapPassword_none hu] at h
              by_cases hv : ':' ∈ v
              · obtain ⟨user', pw', rfl, hn'⟩ := exists_first hv
                rw [mapPassword_eq hn'] at h
                exact absurd (by rw [h]; simp) hu
              · rw [mapPassword_none hv] at h
                subst h
                exact .inl rfl

/-! ## Resolution -/

/-- The authority that a resolved reference has. -/
def pickAuth {α : Type} (s : Option Str) (x y : Option α) : Option α := if s.isSome ∨ x.isSome then x else y

theorem transform_pick (b r : Parts) : (transform b r).authority = pickAuth r.scheme r.authority b.authority ∧
    (mergeReference b r).authority = pickAuth r.scheme r.authority b.authority := by
  unfold transform mergeReference pickAuth
  cases h1 : r.scheme <;> cases h2 : r.authority <;> cases h3 : r.path <;> simp [h2]

/-- Of the authorities the other components see only whether they are there. -/
theorem transform_blind (b r : Parts) (x y : Option Str) (hx : x.isSome = b.authority.isSome)
    (hy : y.isSome = r.authority.isSome) :
    transform { b with authority := x } { r with authority := y } =
      { transform b r with authority := pickAuth r.scheme y x } ∧
    mergeReference { b with authority := x } { r with authority := y } =
      { mergeReference b r with authority := pickAuth r.scheme y x } := by
  obtain ⟨bs, ba, bp, bq, bf⟩ := b
  obtain ⟨rs, ra, rp, rq, rf⟩ := r
  simp only at hx hy
  unfold transform mergeReference pickAuth mergePaths
  simp only [hx, hy]
  cases rs <;> cases hra : ra <;> cases rp <;> simp_all

theorem auth_opt_inj {S : Spec} {x y : Option AuthParts} (hx : ∀ a, x = some a → a.Valid S)
    (hy : ∀ a, y = some a → a.Valid S) (h : x.map AuthParts.recompose = y.map AuthParts.recompose) : x = y := by
  cases x with
  | none => cases y <;> simp_all
  | some a =>
    cases y with
    | none => simp at h
    | some b =>
      simp only [Option.map_some, Option.some.injEq] at h
      rw [auth_recompose_inj (hx a rfl) (hy b rfl) h]

theorem pick_map {α β : Type} (f : α → β) (s : Option Str) (x y : Option α) :
    (pickAuth s x y).map f = pickAuth s (x.map f) (y.map f) := by
  unfold pickAuth; simp only [Option.isSome_map]; split <;> rfl

theorem pick_valid {S : Spec} {s : Option Str} {x y : Option AuthParts} (hx : ∀ a, x = some a → a.Valid S)
    (hy : ∀ a, y = some a → a.Valid S) : ∀ a, pickAuth s x y = some a → a.Valid S := by
  unfold pickAuth; split <;> assumption

/-- Parts of components with equal masks. -/
theorem masked_parts {a a' : Comps} (h : a.masked = a'.masked) :
    a'.parts = { a.parts with authority := a'.authority.map AuthParts.recompose } ∧
    (a'.authority.map AuthParts.recompose).isSome = a.parts.authority.isSome := by
  obtain ⟨-, -, h3, h4, h5, h6, h7⟩ := (masked_eq_iff a a').1 h
  refine ⟨by simp [Comps.parts, h3, h5, h6, h7], ?_⟩
  have := congrArg Option.isSome h4
  simpa [Comps.parts] using this.symm

/-- The result of a resolution as components, if it is known as parts. -/
theorem resolved_masked {a a' p p' b b' : Comps} (ha : a.Valid) (ha' : a'.Valid) (hp : p.Valid) (hp' : p'.Valid)
    (hb : b.Valid) (hb' : b'.Valid) (hm : a.masked = a'.masked) (hmp : p.masked = p'.masked)
    (hs : p.spec = a.spec) (e1 : b.spec = a.spec) (e1' : b'.spec = a'.spec) (e2 : b.kind = b'.kind)
    (m m' : Parts) (e3 : b.parts = m) (e3' : b'.parts = m')
    (e4 : m.authority = pickAuth a.scheme a.parts.authority p.parts.authority)
    (e4' : m' = { m with authority := pickAuth a.scheme a'.parts.authority p'.parts.authority }) :
    b.masked = b'.masked := by
  obtain ⟨m1, m2, m3, m4, m5, m6, m7⟩ := (masked_eq_iff a a').1 hm
  obtain ⟨n1, n2, n3, n4, n5, n6, n7⟩ := (masked_eq_iff p p').1 hmp
  rw [masked_eq_iff]
  subst e3
  have k1 : b.authority = pickAuth a.scheme a.authority p.authority := by
    refine auth_opt_inj (S := a.spec) (by rw [← e1]; exact hb.authority)
      (pick_valid ha.authority (by rw [← hs]; exact hp.authority)) ?_
    rw [pick_map]; exact e4
  have k2 : b'.authority = pickAuth a.scheme a'.authority p'.authority := by
    refine auth_opt_inj (S := a.spec) (by rw [m1, ← e1']; exact hb'.authority)
      (pick_valid (by rw [m1]; exact ha'.authority) (by rw [← hs, n1]; exact hp'.authority)) ?_
    rw [pick_map]
    have := congrArg Parts.authority (e3'.trans e4')
    exact this
  have e5 := e3'.trans e4'
  refine ⟨by rw [e1, e1', m1], e2, (congrArg Parts.scheme e5).symm, ?_, (congrArg Parts.path e5).symm,
    (congrArg Parts.query e5).symm, (congrArg Parts.fragment e5).symm⟩
  rw [k1, k2, pick_map, pick_map, m4, n4]

theorem merge_comps {a p : Comps} (ha : a.Valid) (hp : p.Valid) (hs : p.spec = a.spec)
    (hk : p.scheme ≠ none) : ∃ c : Comps, c.Valid ∧ c.spec = a.spec ∧ c.kind = .iri ∧
      c.parts = mergeReference p.parts a.parts := by
  have hpv := hp.parts
  rw [hs] at hpv
  obtain ⟨h1, h2⟩ := merge_valid hpv hk ha.parts
  obtain ⟨c, c1, c2, c3, c4⟩ := Comps.of_parts (k := .iri) h1 h2
  exact ⟨c, c1, c3, c4, c2⟩

theorem normal_of {op : NormalizationMode} {f : Bool} (ho : op.case_pct = true) (hf : f = decide (op = .preserve))
    {b c : Comps} (hb : b.Valid) (hc : c.Valid) (h1 : b.spec = c.spec) (h2 : b.kind = .iri) (h3 : c.kind = .iri)
    (h : Normal c.spec f c.parts b.parts) : b = c.normal op := by
  refine Comps.ext_parts hb (Comps.normal_valid ho hc (.inl h3)) h1 (h2.trans h3.symm) ?_
  rw [Comps.normal_parts ho hc]
  refine C17_spec_unique _ _ _ _ _ h ?_
  have := normParts_spec (op := op) hc.parts ho
  subst hf
  exact this

theorem normal_masked {op : NormalizationMode} {a : Comps} (h : a.Valid) :
    a.masked.normal op = (a.normal op).masked := Comps.normal_mapUserinfo h keepsPct_mask

/-- The result of a resolution, see `Effect`. -/
def Resolved (mode : NormalizationMode) (p a b : Comps) : Prop :=
  match mode with
  | .off => b.parts = { transform p.parts a.parts with
      path := escapePath (transform p.parts a.parts).authority.isSome (transform p.parts a.parts).path }
  | .default => Normal a.spec false (mergeReference p.parts a.parts) b.parts
  | .preserve => Normal a.spec true (mergeReference p.parts a.parts) b.parts

theorem resolve_masked {mode : NormalizationMode} {a a' p p' b b' : Comps} (ha : a.Valid) (ha' : a'.Valid)
    (hp : p.Valid) (hp' : p'.Valid) (hb : b.Valid) (hb' : b'.Valid) (hm : a.masked = a'.masked)
    (hmp : p.masked = p'.masked) (hs : p.spec = a.spec) (hk : p.scheme ≠ none)
    (e1 : b.spec = a.spec) (e1' : b'.spec = a'.spec) (e2 : b.kind = .iri) (e2' : b'.kind = .iri)
    (h : Resolved mode p a b) (h' : Resolved mode p' a' b') :
    b.masked = b'.masked := by
  obtain ⟨g1, g2⟩ := masked_parts hm
  obtain ⟨g3, g4⟩ := masked_parts hmp
  obtain ⟨t1, t2⟩ := transform_blind p.parts a.parts _ _ g4 g2
  rw [← g1, ← g3] at t1 t2
  obtain ⟨m1, m2, m3, m4, m5, m6, m7⟩ := (masked_eq_iff a a').1 hm
  obtain ⟨n1, n2, n3, n4, n5, n6, n7⟩ := (masked_eq_iff p p').1 hmp
  cases mode with
  | off =>
    simp only [Resolved] at h h'
    have hsome : (transform p'.parts a'.parts).authority.isSome = (transform p.parts a.parts).authority.isSome := by
      rw [t1, (transform_pick _ _).1]
      simp only [pickAuth, g4, g2]
      split
      · exact g2
      · exact g4
    refine resolved_masked ha ha' hp hp' hb hb' hm hmp hs e1 e1' (e2.trans e2'.symm) _ _ h h'
      (transform_pick _ _).1 ?_
    rw [hsome, t1]
    rfl
  | default =>
    obtain ⟨c, c1, c2, c3, c4⟩ := merge_comps ha hp hs hk
    obtain ⟨c', c1', c2', c3', c4'⟩ := merge_comps ha' hp' (by rw [← n1, hs, m1]) (by rw [← n3]; exact hk)
    simp only [Resolved] at h h'
    rw [← c4, ← c2] at h
    rw [← c4', ← c2'] at h'
    rw [normal_of (op := .default) rfl rfl hb c1 (e1.trans c2.symm) e2 c3 h,
      normal_of (op := .default) rfl rfl hb' c1' (e1'.trans c2'.symm) e2' c3' h', ← normal_masked c1, ← normal_masked c1',
      resolved_masked ha ha' hp hp' c1 c1' hm hmp hs c2 c2' (c3.trans c3'.symm) _ _ c4 c4' (transform_pick _ _).2 t2]
  | preserve =>
    obtain ⟨c, c1, c2, c3, c4⟩ := merge_comps ha hp hs hk
    obtain ⟨c', c1', c2', c3', c4'⟩ := merge_comps ha' hp' (by rw [← n1, hs, m1]) (by rw [← n3]; exact hk)
    simp only [Resolved] at h h'
    rw [← c4, ← c2] at h
    rw [← c4', ← c2'] at h'
    rw [normal_of (op := .preserve) rfl rfl hb c1 (e1.trans c2.symm) e2 c3 h,
      normal_of (op := .preserve) rfl rfl hb' c1' (e1'.trans c2'.symm) e2' c3' h', ← normal_masked c1, ← normal_masked c1',
      resolved_masked ha ha' hp hp' c1 c1' hm hmp hs c2 c2' (c3.trans c3'.symm) _ _ c4 c4' (transform_pick _ _).2 t2]

/-! ## One call -/

theorem mask_encoded {a : Comps} : a.masked.encoded = a.encoded.masked :=
  encoded_mapUserinfo (f := fun user => user ++ [':'])
    (fun user => by rw [mapToUri_append, mapToUri_ascii (s := [':']) (by decide)]) a

theorem regName_masked {a a' : Comps} (h : a.masked = a'.masked) : a.HasRegName ↔ a'.HasRegName := by
  have key : ∀ {a a' : Comps}, a.masked = a'.masked → a.HasRegName → a'.HasRegName := by
    intro a a' h
    rintro ⟨x, h1, h2⟩
    obtain ⟨-, -, -, h3, -⟩ := (masked_eq_iff a a').1 h
    rw [h1] at h3
    obtain ⟨y, hy, e⟩ := Option.map_eq_some_iff.1 h3.symm
    have : y.host = x.host := by have := congrArg AuthParts.host e; exact this
    exact ⟨y, hy, by rw [this]; exact h2⟩
  exact ⟨key h, key h.symm⟩

theorem withHost_masked (new : Str) (a : Comps) : (a.withHost new).masked = a.masked.withHost new := by
  unfold Comps.withHost Comps.masked Comps.mapUserinfo
  simp only [Option.map_map]
  rfl

theorem removed_masked (a : Comps) : a.mapUserinfo (mapPassword fun user => user) =
    a.masked.mapUserinfo (mapPassword fun user => user) := by
  unfold Comps.masked Comps.mapUserinfo
  simp only [Option.map_map, Comps.mk.injEq, true_and, and_true]
  congr 1
  funext x
  simp only [Function.comp, Option.map_map, AuthParts.mk.injEq, and_true]
  congr 1
  funext u
  simp only [Function.comp, maskU]
  by_cases h : ':' ∈ u
  · obtain ⟨user, pw, rfl, hn⟩ := exists_first h
    rw [mapPassword_eq hn, mapPassword_eq hn, mapPassword_eq (pw := []) hn]
  · rw [mapPassword_none h, mapPassword_none h, mapPassword_none h]

theorem base_comps {S : Spec} {base : Str} (h : absolute_IRI S base ∨ ∃ t, base = t ++ ['#'] ∧ absolute_IRI S t) :
    ∃ p : Comps, p.Valid ∧ p.spec = S ∧ p.kind = .absolute ∧ p.parts.recompose = base := by
  have hb : validate_absolute_uri S base = some true := (C04_absolute_validation_partial _ _).1.2 h
  obtain ⟨a, h1, h2, -⟩ := C66_components S .absolute base hb
  exact ⟨a, h1, congrArg Val.spec h2, congrArg Val.kind h2, congrArg Val.text h2⟩

/-- One call on two values that are the same but for the password. -/
theorem effect_masked {debug : Bool} {c c' : Call} (hcc : SameCall c c') (ht : c ≠ .try_into_uri) {a a' b b' : Comps}
    (ha : a.Valid) (ha' : a'.Valid) (hb : b.Valid) (hb' : b'.Valid) (hm : a.masked = a'.masked)
    (hc : Allowed debug c a) (hc' : Allowed debug c' a') (he : Effect c a b) (he' : Effect c' a' b') :
    b.masked = b'.masked := by
  have hm0 := hm
  obtain ⟨m1, m2, m3, m4, m5, m6, m7⟩ := (masked_eq_iff a a').1 hm
  have resolve : ∀ {mode : NormalizationMode} {base base' : Str}, mask_password base = mask_password base' →
      Allowed debug (.resolve_against mode base) a → Allowed debug (.resolve_against mode base') a' →
      Effect (.resolve_against mode base) a b → Effect (.resolve_against mode base') a' b' → b.masked = b'.masked := by
    intro mode base base' hbase hc hc' he he'
    obtain ⟨p, p1, p2, p3, rfl⟩ := base_comps hc
    obtain ⟨p', p1', p2', p3', rfl⟩ := base_comps hc'
    have hmp : p.masked = p'.masked :=
      (mask_text_eq p1 p1' (by rw [p2, p2', m1]) (p3.trans p3'.symm)).1 hbase
    simp only [Effect] at he he'
    rw [← m2] at he'
    by_cases hk : a.kind = .reference ∨ a.kind = .relative
    · rw [if_pos hk] at he he'
      obtain ⟨s1, k1, q, q1, q2, q3⟩ := he
      obtain ⟨s1', k1', q', q1', q2', q3'⟩ := he'
      obtain rfl := recompose_inj q1.delim p1.parts.delim q2
      obtain rfl := recompose_inj q1'.delim p1'.parts.delim q2'
      exact resolve_masked (mode := mode) ha ha' p1 p1' hb hb' hm0 hmp p2 (kind_iri_scheme p1 (.inr p3)) s1 s1' k1 k1'
        (by cases mode <;> exact q3) (by cases mode <;> exact q3')
    · rw [if_neg hk] at he he'
      rw [he, he', hm0]
  cases hcc with
  | base mode base base' hbase => exact resolve hbase hc hc' he he'
  | same c =>
    cases c with
    | set_fragment f =>
      simp only [Effect] at he he'
      rw [he, he', ← m2]
      split
      · exact hm0
      · rw [masked_eq_iff]; exact ⟨m1, rfl, m3, m4, m5, m6, rfl⟩
    | replace_host new =>
      simp only [Effect] at he he'
      rw [← m1] at he'
      by_cases hn : host a.spec new
      · rw [he.1 hn, he'.1 hn, withHost_masked, withHost_masked, hm0]
      · rw [he.2 hn, he'.2 hn, hm0]
    | replace_host_reg_name new =>
      simp only [Effect] at he he'
      rw [← m1, ← regName_masked hm0] at he'
      by_cases hn : host a.spec new ∧ a.HasRegName
      · rw [he.1 hn, he'.1 hn, withHost_masked, withHost_masked, hm0]
      · rw [he.2 hn, he'.2 hn, hm0]
    | remove_password_inline =>
      simp only [Effect] at he he'
      rw [he, he', removed_masked, removed_masked a', hm0]
    | remove_nonempty_password_inline =>
      have e1 : b = a.masked := he
      have e2 : b' = a'.masked := he'
      rw [e1, e2, hm0]
    | mask_password =>
      have e1 : b = a.masked := he
      have e2 : b' = a'.masked := he'
      rw [e1, e2, hm0]
    | encode_to_uri_inline =>
      simp only [Effect] at he he'
      rw [he, he', ← mask_encoded, ← mask_encoded, hm0]
    | encode_into_uri =>
      simp only [Effect] at he he'
      have : a.encoded.masked = a'.encoded.masked := by rw [← mask_encoded, ← mask_encoded, hm0]
      obtain ⟨-, n2, n3, n4, n5, n6, n7⟩ := (masked_eq_iff _ _).1 this
      rw [he, he', masked_eq_iff]
      exact ⟨rfl, n2, n3, n4, n5, n6, n7⟩
    | try_into_uri => exact absurd rfl ht
    | into_iri_spec =>
      simp only [Effect] at he he'
      rw [he, he', masked_eq_iff]; exact ⟨rfl, m2, m3, m4, m5, m6, m7⟩
    | into_reference =>
      simp only [Effect] at he he'
      rw [he, he', masked_eq_iff]; exact ⟨m1, rfl, m3, m4, m5, m6, m7⟩
    | into_iri =>
      simp only [Effect] at he he'
      rw [← m2, ← m3] at he'
      rw [he, he']
      cases hk : a.kind
      · rw [masked_eq_iff]; exact ⟨m1, rfl, rfl, m4, m5, m6, m7⟩
      · exact hm0
      · rw [masked_eq_iff]; exact ⟨m1, rfl, rfl, m4, m5, m6, m7⟩
      · exact hm0
    | into_absolute =>
      simp only [Effect] at he he'
      rw [he, he', ← m2]
      split
      · rw [masked_eq_iff]; exact ⟨m1, rfl, m3, m4, m5, m6, rfl⟩
      · exact hm0
    | normalize =>
      by_cases hk : a.kind = .iri ∨ a.kind = .absolute
      · rw [effect_det hb (Comps.normal_valid (op := opOf .normalize) opOf_ok.1 ha hk) he (effect_normal (.inl rfl) ha hk),
          effect_det hb' (Comps.normal_valid (op := opOf .normalize) opOf_ok.1 ha' (m2 ▸ hk)) he'
            (effect_normal (.inl rfl) ha' (m2 ▸ hk)), ← normal_masked ha, ← normal_masked ha', hm0]
      · simp only [Effect] at he he'
        rw [if_neg hk] at he
        rw [if_neg (m2 ▸ hk)] at he'
        rw [he, he', hm0]
    | normalize_preserve =>
      by_cases hk : a.kind = .iri ∨ a.kind = .absolute
      · rw [effect_det hb (Comps.normal_valid (op := opOf .normalize_preserve) opOf_ok.1 ha hk) he (effect_normal (.inr rfl) ha hk),
          effect_det hb' (Comps.normal_valid (op := opOf .normalize_preserve) opOf_ok.1 ha' (m2 ▸ hk)) he'
            (effect_normal (.inr rfl) ha' (m2 ▸ hk)), ← normal_masked ha, ← normal_masked ha', hm0]
      · simp only [Effect] at he he'
        rw [if_neg hk] at he
        rw [if_neg (m2 ▸ hk)] at he'
        rw [he, he', hm0]
    | resolve_against mode base => exact resolve rfl hc hc' he he'

/-- Whether a call is allowed does not depend on the password. -/
theorem allowed_masked {debug : Bool} {c : Call} {a a' : Comps} (hm : a.masked = a'.masked) (hc : Allowed debug c a) :
    Allowed debug c a' := by
  obtain ⟨m1, m2, m3, m4, m5, m6, m7⟩ := (masked_eq_iff a a').1 hm
  cases c with
  | set_fragment f => intro x hx; rw [← m1]; exact hc x hx
  | resolve_against mode base => simp only [Allowed] at hc ⊢; rw [← m1]; exact hc
  | replace_host new => intro h hk; rw [← m7]; exact hc h (m2.trans hk)
  | replace_host_reg_name new => intro h hk; rw [← m7]; exact hc h (m2.trans hk)
  | remove_password_inline =>
    intro y u hy hu
    rw [hy] at m4
    obtain ⟨x, hx, e⟩ := Option.map_eq_some_iff.1 m4
    have e1 := congrArg AuthParts.userinfo e
    simp only [maskA, hu, Option.map_some] at e1
    obtain ⟨v, hv, e2⟩ := Option.map_eq_some_iff.1 e1
    have hcv := hc x v hx hv
    apply Classical.byContradiction
    intro hn
    obtain ⟨user, pw, rfl, hn'⟩ := exists_first hcv
    rw [maskU, mapPassword_none hn, mapPassword_eq hn'] at e2
    exact hn (by rw [← e2]; simp)
  | _ => trivial

end Rfc

/-- **C77**: masked texts are equal exactly if nothing but the passwords differs. -/
theorem C77_mask_iff (a b : Comps) (ha : a.Valid) (hb : b.Valid) (hs : a.spec = b.spec) (hk : a.kind = b.kind) :
    mask_password a.val.text = mask_password b.val.text ↔ DifferInPassword a b := by
  rw [differ_iff]; exact mask_text_eq ha hb hs hk

/-- **C77**: two values of the same type that `mask_password()` does not tell apart, after two histories of calls
that differ at most in the passwords of the bases, and that are allowed (C66) and do not ask whether the text is
US-ASCII, have the same type, and `mask_password()` does not tell them apart. -/
theorem C77_history (debug : Bool) (S : Spec) (k : IriKind) (t t' : Str) (a a' b b' : Comps) (ha : a.Valid) (ha' : a'.Valid)
    (e : a.val = ⟨S, k, t⟩) (e' : a'.val = ⟨S, k, t'⟩) (h : mask_password t = mask_password t')
    (cs cs' : List Call) (hcs : SameCalls cs cs') (ht : Call.try_into_uri ∉ cs)
    (hr : Runs debug cs a b) (hr' : Runs debug cs' a' b') :
    ∃ S' k' u u', runCalls debug cs ⟨S, k, t⟩ = some ⟨S', k', u⟩ ∧ runCalls debug cs' ⟨S, k, t'⟩ = some ⟨S', k', u'⟩ ∧
      mask_password u = mask_password u' := by
  rw [← e, ← e', (C66_history debug cs a b ha hr).1, (C66_history debug cs' a' b' ha' hr').1]
  have hb := (C66_history debug cs a b ha hr).2
  have hb' := (C66_history debug cs' a' b' ha' hr').2
  have hm : a.masked = a'.masked := by
    refine (mask_text_eq ha ha' ?_ ?_).1 ?_
    · exact (congrArg Val.spec e).trans (congrArg Val.spec e').symm
    · exact (congrArg Val.kind e).trans (congrArg Val.kind e').symm
    · rw [show a.parts.recompose = t from congrArg Val.text e, show a'.parts.recompose = t' from congrArg Val.text e', h]
  clear e e' h
  have key : b.masked = b'.masked := by
    clear hb hb'
    induction hr generalizing a' cs' with
    | nil a => cases hcs; cases hr'; exact hm
    | cons c cs a b d hc he hb _ ih =>
      cases hcs with
      | cons h1 h2 =>
        cases hr' with
        | cons c' cs' a' b1 d' hc' he' hb1 hr1 =>
          exact ih b1 hb hb1 _ h2 (fun h => ht (List.mem_cons_of_mem _ h)) hr1
            (effect_masked h1 (fun h => ht (by rw [h]; exact List.mem_cons_self)) ha ha' hb hb1 hm hc hc' he he')
  obtain ⟨k1, k2, -⟩ := (masked_eq_iff _ _).1 key
  refine ⟨b.spec, b.kind, b.parts.recompose, b'.parts.recompose, rfl, ?_, ?_⟩
  · rw [k1, k2]; rfl
  · exact (mask_text_eq hb hb' k1 k2).2 key

theorem SameCalls.refl : ∀ cs, SameCalls cs cs
  | [] => .nil
  | c :: cs => .cons (.same c) (SameCalls.refl cs)

/-- The same calls on the other value. -/
theorem runs_masked {debug : Bool} {cs : List Call} {a a' b : Comps} (ha : a.Valid) (ha' : a'.Valid)
    (hm : a.masked = a'.masked) (ht : Call.try_into_uri ∉ cs) (hr : Runs debug cs a b) :
    ∃ b', b'.Valid ∧ Runs debug cs a' b' ∧ b.masked = b'.masked := by
  induction hr generalizing a' with
  | nil a => exact ⟨a', ha', .nil a', hm⟩
  | cons c cs a b d hc he hb _ ih =>
    have hc' := allowed_masked hm hc
    obtain ⟨b1, b1v, b1e, -, -⟩ := C66_step debug a' ha' c hc'
    have hm1 := effect_masked (.same c) (fun h => ht (by rw [h]; exact List.mem_cons_self)) ha ha' hb b1v hm hc hc' he b1e
    obtain ⟨d', d1, d2, d3⟩ := ih hb b1v hm1 (fun h => ht (List.mem_cons_of_mem _ h))
    exact ⟨d', d1, .cons c cs a' b1 d' hc' b1e b1v d2, d3⟩

/-- **C77**: with the same calls it is enough that they are allowed on one of the values, and the results differ in
nothing but the password: the accessors for everything else return the same. -/
theorem C77_same_calls (debug : Bool) (S : Spec) (k : IriKind) (t t' : Str) (h0 : k.validate S t' = some true) (a b : Comps)
    (ha : a.Valid) (e : a.val = ⟨S, k, t⟩) (h : mask_password t = mask_password t')
    (cs : List Call) (ht : Call.try_into_uri ∉ cs) (hr : Runs debug cs a b) :
    ∃ S' k' u u', runCalls debug cs ⟨S, k, t⟩ = some ⟨S', k', u⟩ ∧ runCalls debug cs ⟨S, k, t'⟩ = some ⟨S', k', u'⟩ ∧
      mask_password u = mask_password u' ∧
      RiReferenceStr.scheme_str u = RiReferenceStr.scheme_str u' ∧ RiReferenceStr.path_str u = RiReferenceStr.path_str u' ∧
      RiReferenceStr.query_str u = RiReferenceStr.query_str u' ∧
      RiReferenceStr.fragment_str u = RiReferenceStr.fragment_str u' ∧
      (RiReferenceStr.authority_components u).map (fun x => (x.host, x.port)) =
        (RiReferenceStr.authority_components u').map (fun x => (x.host, x.port)) := by
  obtain ⟨a', ha', e', -⟩ := C66_components S k t' h0
  have hm : a.masked = a'.masked := by
    refine (mask_text_eq ha ha' ?_ ?_).1 ?_
    · exact (congrArg Val.spec e).trans (congrArg Val.spec e').symm
    · exact (congrArg Val.kind e).trans (congrArg Val.kind e').symm
    · rw [show a.parts.recompose = t from congrArg Val.text e, show a'.parts.recompose = t' from congrArg Val.text e', h]
  obtain ⟨b', hb', hr', hmb⟩ := runs_masked ha ha' hm ht hr
  have hb := (C66_history debug cs a b ha hr).2
  rw [← e, ← e', (C66_history debug cs a b ha hr).1, (C66_history debug cs a' b' ha' hr').1]
  obtain ⟨k1, k2, k3, k4, k5, k6, k7⟩ := (masked_eq_iff _ _).1 hmb
  refine ⟨b.spec, b.kind, b.parts.recompose, b'.parts.recompose, rfl, ?_, (mask_text_eq hb hb' k1 k2).2 hmb, ?_⟩
  · rw [k1, k2]; rfl
  have hd := hb.parts.delim
  have hd' := hb'.parts.delim
  simp only [RiReferenceStr.path_str, hd.extract_path_eq, RiReferenceStr.query_str, hd.extract_query_eq,
    RiReferenceStr.fragment_str, hd.extract_fragment_eq, RiReferenceStr.scheme_str, hd.extract_scheme_eq,
    RiReferenceStr.authority_components, AuthorityComponents.from_iri, hd.extract_authority_eq,
    hd'.extract_path_eq, hd'.extract_query_eq, hd'.extract_fragment_eq, hd'.extract_scheme_eq, hd'.extract_authority_eq]
  refine ⟨k3, k5, congrArg some k6, k7, ?_⟩
  cases hx : b.authority with
  | none =>
    rw [hx] at k4
    have : b'.authority = none := by
      cases hy : b'.authority with
      | none => rfl
      | some y => rw [hy] at k4; simp at k4
    simp [Comps.parts, hx, this]
  | some x =>
    rw [hx] at k4
    obtain ⟨y, hy, ey⟩ := Option.map_eq_some_iff.1 k4.symm
    simp only [Comps.parts, hx, hy, Option.map_some]
    rw [decompose_authority_eq (hb.authority x hx), decompose_authority_eq (hb'.authority y hy), offsets_host,
      offsets_port, offsets_host, offsets_port]
    have e1 : y.host = x.host := by have := congrArg AuthParts.host ey; exact this
    have e2 : y.port = x.port := by have := congrArg AuthParts.port ey; exact this
    rw [e1, e2]

/-- Histories one after the other. -/
theorem run_append (debug : Bool) : ∀ (cs ds : List Call) (v : Val),
    runCalls debug (cs ++ ds) v = (runCalls debug cs v).bind (runCalls debug ds)
  | [], ds, v => rfl
  | c :: cs, ds, v => by
    simp only [List.cons_append, runCalls]
    cases v.step debug c with
    | none => rfl
    | some w => simp only [Option.bind_some]; exact run_append debug cs ds w

/-- **C77**: once one of the three methods has removed the password, nothing that is done later depends on it: the
two histories have the same result, value or panic. -/
theorem C77_forgotten (debug : Bool) (S : Spec) (k : IriKind) (t t' : Str) (h0 : k.validate S t' = some true) (a b : Comps)
    (ha : a.Valid) (e : a.val = ⟨S, k, t⟩) (h : mask_password t = mask_password t')
    (cs ds : List Call) (ht : Call.try_into_uri ∉ cs) (c : Call)
    (hc : c = .mask_password ∨ c = .remove_password_inline ∨ c = .remove_nonempty_password_inline)
    (hr : Runs debug (cs ++ [c]) a b) :
    runCalls debug (cs ++ c :: ds) ⟨S, k, t⟩ = runCalls debug (cs ++ c :: ds) ⟨S, k, t'⟩ := by
  obtain ⟨a', ha', e', -⟩ := C66_components S k t' h0
  have hm : a.masked = a'.masked := by
    refine (mask_text_eq ha ha' ?_ ?_).1 ?_
    · exact (congrArg Val.spec e).trans (congrArg Val.spec e').symm
    · exact (congrArg Val.kind e).trans (congrArg Val.kind e').symm
    · rw [show a.parts.recompose = t from congrArg Val.text e, show a'.parts.recompose = t' from congrArg Val.text e', h]
  have split : ∀ (cs : List Call) {a b : Comps}, Runs debug (cs ++ [c]) a b →
      ∃ m, Runs debug cs a m ∧ Allowed debug c m ∧ Effect c m b ∧ b.Valid := by
    intro cs
    induction cs with
    | nil =>
      intro a b hr
      cases hr with
      | cons _ _ _ b1 _ h1 h2 h3 h4 => cases h4; exact ⟨a, .nil a, h1, h2, h3⟩
    | cons d cs ih =>
      intro a b hr
      cases hr with
      | cons _ _ _ b1 _ h1 h2 h3 h4 =>
        obtain ⟨m, m1, m2⟩ := ih h4
        exact ⟨m, .cons d cs a b1 m h1 h2 h3 m1, m2⟩
  obtain ⟨m, m1, m2, m3, hb⟩ := split cs hr
  obtain ⟨m', m1', m2', m3'⟩ := runs_masked ha ha' hm ht m1
  have hmv := (C66_history debug cs a m ha m1).2
  have hc' := allowed_masked m3' m2
  have he' : Effect c m' b := by
    rcases hc with rfl | rfl | rfl
    · have : b = m.masked := m3
      rw [this, m3']; rfl
    · have : b = m.mapUserinfo (mapPassword fun user => user) := m3
      rw [this, removed_masked, m3', ← removed_masked]; rfl
    · have : b = m.masked := m3
      rw [this, m3']; rfl
  rw [run_append, run_append, ← e, ← e', (C66_history debug cs a m ha m1).1, (C66_history debug cs a' m' ha' m2').1,
    Option.bind_some, Option.bind_some, run_cons hmv m2 m3 hb, run_cons m1' hc' he' hb]

/-- Why `try_into_uri` is excluded: it asks whether the whole text is US-ASCII. -/
theorem C77_ascii_question : ∃ t t' u, validate_uri .iri t = some true ∧ validate_uri .iri t' = some true ∧
    mask_password t = mask_password t' ∧
    (⟨.iri, .iri, t⟩ : Val).step false .try_into_uri = some ⟨.uri, .iri, u⟩ ∧
    (⟨.iri, .iri, t'⟩ : Val).step false .try_into_uri = some ⟨.iri, .iri, t'⟩ :=
  ⟨chars! "http://u:e@h/", chars! "http://u:é@h/", chars! "http://u:e@h/", by decide +kernel, by decide +kernel,
    by decide +kernel, by decide +kernel, by decide +kernel⟩

/-- A concrete case: a value with a secret is resolved, normalized, its host replaced, it becomes a URI. -/
example : mask_password (chars! "//u:s%65cret:é@H/../x") = mask_password (chars! "//u:@H/../x") ∧
    runCalls false [.resolve_against .default (chars! "http://q:p@z/"), .set_fragment (some ['f']), .replace_host (chars! "new"),
      .encode_into_uri] ⟨.iri, .reference, chars! "//u:s%65cret:é@H/../x"⟩ =
      some ⟨.uri, .iri, chars! "http://u:secret:%C3%A9@new/x#f"⟩ ∧
    runCalls false [.resolve_against .default (chars! "http://q:another@z/"), .set_fragment (some ['f']), .replace_host (chars! "new"),
      .encode_into_uri] ⟨.iri, .reference, chars! "//u:@H/../x"⟩ =
      some ⟨.uri, .iri, chars! "http://u:@new/x#f"⟩ ∧
    mask_password (chars! "http://u:secret:%C3%A9@new/x#f") = mask_password (chars! "http://u:@new/x#f") ∧
    SameCalls [.resolve_against .default (chars! "http://q:p@z/"), .set_fragment (some ['f'])]
      [.resolve_against .default (chars! "http://q:another@z/"), .set_fragment (some ['f'])] := by
  refine ⟨by decide +kernel, by decide +kernel, by decide +kernel, by decide +kernel,
    .cons (.base _ _ _ (by decide +kernel)) (.cons (.same _) .nil)⟩

end Verif
