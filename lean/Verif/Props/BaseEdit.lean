import Verif.Spec.BaseEdit
import Verif.Spec.EditEquiv
import Verif.Props.EditEquiv
import Verif.Props.ResolveEquiv

/-!
# C78: an edit of the authority of the base is an edit of the resolved reference
-/

namespace Verif

open Rfc

namespace Rfc

/-- What an edit of the authority does, seen on any value with the same authority. -/
theorem authEdit_effect {c : Call} (hc : IsAuthorityEdit c) {a b : Comps} (he : Effect c a b) :
    b = { a with authority := b.authority } ∧ b.authority.isSome = a.authority.isSome ∧
      ∀ a' : Comps, a'.spec = a.spec → a'.authority = a.authority →
        Effect c a' { a' with authority := b.authority } := by
  cases c with
  | replace_host new =>
    by_cases hn : host a.spec new
    · obtain rfl := he.1 hn
      refine ⟨rfl, by simp [Comps.withHost], fun a' h1 h2 => ⟨fun _ => by simp [Comps.withHost, h2], fun h => ?_⟩⟩
      rw [h1] at h; exact absurd hn h
    · obtain rfl := he.2 hn
      refine ⟨rfl, rfl, fun a' h1 h2 => ⟨fun h => ?_, fun _ => by rw [← h2]⟩⟩
      rw [h1] at h; exact absurd h hn
  | replace_host_reg_name new =>
    have hreg : ∀ a' : Comps, a'.authority = a.authority → (a'.HasRegName ↔ a.HasRegName) := by
      intro a' h; unfold Comps.HasRegName; rw [h]
    by_cases hn : host a.spec new ∧ a.HasRegName
    · obtain rfl := he.1 hn
      refine ⟨rfl, by simp [Comps.withHost], fun a' h1 h2 => ⟨fun _ => by simp [Comps.withHost, h2], fun h => ?_⟩⟩
      rw [h1, hreg a' h2] at h; exact absurd hn h
    · obtain rfl := he.2 hn
      refine ⟨rfl, rfl, fun a' h1 h2 => ⟨fun h => ?_, fun _ => by rw [← h2]⟩⟩
      rw [h1, hreg a' h2] at h; exact absurd h hn
  | remove_password_inline =>
    have : b = _ := he
    subst this
    exact ⟨rfl, by simp [Comps.mapUserinfo], fun a' h1 h2 => by simp [Effect, Comps.mapUserinfo, h2]⟩
  | remove_nonempty_password_inline =>
    have : b = _ := he
    subst this
    exact ⟨rfl, by simp [Comps.mapUserinfo], fun a' h1 h2 => by simp [Effect, Comps.mapUserinfo, h2]⟩
  | mask_password =>
    have : b = _ := he
    subst this
    exact ⟨rfl, by simp [Comps.mapUserinfo], fun a' h1 h2 => by simp [Effect, Comps.mapUserinfo, h2]⟩
  | _ => exact hc.elim

/-- The resolved reference, by its components. -/
def target (a : Comps) (r : Parts) : Comps :=
  { a with
    kind := .iri
    path := escapePath (transform a.parts r).authority.isSome (transform a.parts r).path
    query := (transform a.parts r).query
    fragment := (transform a.parts r).fragment }

theorem transform_inner {b r : Parts} (h1 : r.scheme = none) (h2 : r.authority = none) :
    (transform b r).scheme = b.scheme ∧ (transform b r).authority = b.authority ∧
      (transform b r).fragment = r.fragment := by
  unfold transform
  simp only [h1, h2, Option.isSome_none, Bool.false_eq_true, if_false]
  split <;> simp

theorem target_parts {a : Comps} {r : Parts} (h1 : r.scheme = none) (h2 : r.authority = none) :
    (target a r).parts = { transform a.parts r with
      path := escapePath (transform a.parts r).authority.isSome (transform a.parts r).path } := by
  obtain ⟨e1, e2, e3⟩ := transform_inner (b := a.parts) h1 h2
  show (⟨_, _, _, _, _⟩ : Parts) = _
  rw [Parts.mk.injEq]
  exact ⟨e1.symm, e2.symm, rfl, rfl, rfl⟩

theorem target_valid {a : Comps} (h : a.Valid) (hk : a.kind = .iri ∨ a.kind = .absolute) {r : Parts}
    (hr : r.Valid a.spec) (h1 : r.scheme = none) (h2 : r.authority = none) : (target a r).Valid := by
  have hs := kind_iri_scheme h hk
  refine ⟨?_, h.authority, hs⟩
  rw [target_parts h1 h2]
  exact transform_valid h.parts hs hr

theorem target_resolve {a : Comps} (h : a.Valid) (hk : a.kind = .iri ∨ a.kind = .absolute) {r : Parts}
    (hr : r.Valid a.spec) (h1 : r.scheme = none) (h2 : r.authority = none) :
    resolve a.spec .off a.parts.recompose r.recompose = some (target a r).parts.recompose := by
  rw [resolve_off_eq h.parts (kind_iri_scheme h hk) hr, target_parts h1 h2]

/-- Only whether there is an authority matters to the other components of the result. -/
theorem target_authority {a : Comps} {r : Parts} (h1 : r.scheme = none) (h2 : r.authority = none)
    {au : Option AuthParts} (hau : au.isSome = a.authority.isSome) :
    target { a with authority := au } r = { target a r with authority := au } := by
  have hm : ∀ x, mergePaths ({ a with authority := au } : Comps).parts x = mergePaths a.parts x := by
    intro x; simp [mergePaths, Comps.parts, hau]
  have e : (transform ({ a with authority := au } : Comps).parts r).authority.isSome =
      (transform a.parts r).authority.isSome := by
    rw [(transform_inner h1 h2).2.1, (transform_inner h1 h2).2.1]
    simp [Comps.parts, hau]
  have e2 : (transform ({ a with authority := au } : Comps).parts r).path = (transform a.parts r).path ∧
      (transform ({ a with authority := au } : Comps).parts r).query = (transform a.parts r).query ∧
      (transform ({ a with authority := au } : Comps).parts r).fragment = (transform a.parts r).fragment := by
    unfold transform
    simp only [h1, h2, Option.isSome_none, Bool.false_eq_true, if_false, hm]
    split <;> simp [Comps.parts]
  simp only [target, e, e2]

theorem authEdit_allowed {debug : Bool} {c : Call} (hc : IsAuthorityEdit c) {a a' : Comps}
    (h : Allowed debug c a) (hau : a'.authority = a.authority)
    (hf : debug = true → a'.fragment = none ∨ a'.fragment = some []) : Allowed debug c a' := by
  cases c with
  | replace_host new => exact fun h1 _ => hf h1
  | replace_host_reg_name new => exact fun h1 _ => hf h1
  | remove_password_inline => intro x u hx; exact h x u (hau ▸ hx)
  | remove_nonempty_password_inline => trivial
  | mask_password => trivial
  | _ => exact hc.elim

/-- A history of edits of the authority, on the base and on the target. -/
theorem authEdits_run {debug : Bool} {cs : List Call} {a b : Comps} (h : a.Valid)
    (hk : a.kind = .iri ∨ a.kind = .absolute) {r : Parts} (hr : r.Valid a.spec) (h1 : r.scheme = none)
    (h2 : r.authority = none) (hf : debug = true → r.fragment = none ∨ r.fragment = some [])
    (hc : ∀ c ∈ cs, IsAuthorityEdit c) (hrun : Runs debug cs a b) :
    b.spec = a.spec ∧ b.kind = a.kind ∧ b.authority.isSome = a.authority.isSome ∧
      Runs debug cs (target a r) (target b r) := by
  induction hrun with
  | nil a => exact ⟨rfl, rfl, rfl, .nil _⟩
  | cons c cs a b d x1 x2 x3 _ ih =>
    obtain ⟨e1, e2, e3⟩ := authEdit_effect (hc c (by simp)) x2
    have hs : b.spec = a.spec := by rw [e1]
    have hkb : b.kind = a.kind := by rw [e1]
    obtain ⟨y1, y2, y3, y4⟩ := ih x3 (hkb ▸ hk) (hs ▸ hr) (fun c hm => hc c (by simp [hm]))
    refine ⟨y1.trans hs, y2.trans hkb, y3.trans e2, ?_⟩
    refine .cons c cs _ (target b r) _ (authEdit_allowed (hc c (by simp)) x1 rfl ?_) ?_
      (target_valid x3 (hkb ▸ hk) (hs ▸ hr) h1 h2) y4
    · show debug = true → (transform a.parts r).fragment = none ∨ (transform a.parts r).fragment = some []
      rw [(transform_inner h1 h2).2.2]
      exact hf
    · rw [e1, target_authority h1 h2 e2]
      exact e3 (target a r) rfl rfl

end Rfc

/-- **C78**: let the reference have neither scheme nor authority.  A history of edits of the authority of the base,
and then resolving the reference, is the same as resolving the reference, and then the same history of edits of the
result.  (In a debug build the reference must not have a non-empty fragment, because of the panic of C27.) -/
theorem C78_history (debug : Bool) (S : Spec) (k : IriKind) (base ref : Str) (cs : List Call) (a b : Comps)
    (ha : a.Valid) (e : a.val = ⟨S, k, base⟩) (hk : k = .iri ∨ k = .absolute)
    (hr : validate_uri_reference S ref = some true) (h1 : RiReferenceStr.scheme_str ref = none)
    (h2 : RiReferenceStr.authority_str ref = none)
    (hf : debug = true → RiReferenceStr.fragment_str ref = none ∨ RiReferenceStr.fragment_str ref = some [])
    (hc : ∀ c ∈ cs, IsAuthorityEdit c) (hrun : Runs debug cs a b) :
    ∃ base' t t', runCalls debug cs ⟨S, k, base⟩ = some ⟨S, k, base'⟩ ∧ resolve S .off base ref = some t ∧
      runCalls debug cs ⟨S, .iri, t⟩ = some ⟨S, .iri, t'⟩ ∧ resolve S .off base' ref = some t' := by
  obtain ⟨r, hrv, rfl⟩ := reference_parts hr
  simp only [RiReferenceStr.scheme_str, hrv.delim.extract_scheme_eq, RiReferenceStr.authority_str,
    hrv.delim.extract_authority_eq, RiReferenceStr.fragment_str, hrv.delim.extract_fragment_eq] at h1 h2 hf
  obtain rfl : a.spec = S := congrArg Val.spec e
  obtain rfl : a.kind = k := congrArg Val.kind e
  obtain rfl : a.parts.recompose = base := congrArg Val.text e
  obtain ⟨y1, y2, y3, y4⟩ := authEdits_run ha hk hrv h1 h2 hf hc hrun
  obtain ⟨z1, z2⟩ := C66_history debug cs a b ha hrun
  obtain ⟨w1, w2⟩ := C66_history debug cs _ _ (target_valid ha hk hrv h1 h2) y4
  refine ⟨b.parts.recompose, (target a r).parts.recompose, (target b r).parts.recompose, ?_,
    target_resolve ha hk hrv h1 h2, ?_, ?_⟩
  · rw [← e, z1, Comps.val, y1, y2]
  · show runCalls debug cs (target a r).val = _
    rw [w1]
    show some (⟨b.spec, .iri, _⟩ : Val) = _
    rw [y1]
  · rw [← y1]
    exact target_resolve z2 (y2 ▸ hk) (y1 ▸ hrv) h1 h2

/-- **C78** for one edit. -/
theorem C78_edit (debug : Bool) (S : Spec) (k : IriKind) (base ref : Str) (hb : k.validate S base = some true)
    (hk : k = .iri ∨ k = .absolute) (hr : validate_uri_reference S ref = some true)
    (h1 : RiReferenceStr.scheme_str ref = none) (h2 : RiReferenceStr.authority_str ref = none)
    (hf : debug = true → RiReferenceStr.fragment_str ref = none ∨ RiReferenceStr.fragment_str ref = some [])
    (c : Call) (hc : IsAuthorityEdit c) (ho : AllowedOn debug c ⟨S, k, base⟩) :
    ∃ base' t t', (⟨S, k, base⟩ : Val).step debug c = some ⟨S, k, base'⟩ ∧ resolve S .off base ref = some t ∧
      (⟨S, .iri, t⟩ : Val).step debug c = some ⟨S, .iri, t'⟩ ∧ resolve S .off base' ref = some t' := by
  obtain ⟨a, hv, e, -⟩ := C66_components S k base hb
  obtain ⟨b, b1, b2, b3, -⟩ := C66_step debug a hv c (ho a hv e)
  have := C78_history debug S k base ref [c] a b hv e hk hr h1 h2 hf (by simpa using hc)
    (.cons c [] a b b (ho a hv e) b2 b1 (.nil b))
  simpa only [runCalls, Option.bind_fun_some] using this

theorem mergeReference_authority {b r : Parts} (h1 : r.scheme = none) (h2 : r.authority = none) :
    (mergeReference b r).authority = b.authority := by
  unfold mergeReference
  simp only [h1, h2, Option.isSome_none, Bool.false_eq_true, if_false]
  split <;> simp

/-- With an authority the two normalizing modes do the same. -/
theorem normParts_mode {S : Spec} {p : Parts} (h : p.authority ≠ none) {op : NormalizationMode}
    (ho : op.case_pct = true) : normParts S op p = normParts S .default p := by
  have h' : p.authority.isSome = true := by
    cases e : p.authority with
    | none => exact absurd e h
    | some x => rfl
  unfold normParts pathn wr
  simp [h', ho, show NormalizationMode.default.case_pct = true from rfl]

theorem append_runs {debug : Bool} {cs ds : List Call} {v : Val} :
    runCalls debug (cs ++ ds) v = (runCalls debug cs v).bind (runCalls debug ds) := by
  induction cs generalizing v with
  | nil => rfl
  | cons c cs ih =>
    simp only [List.cons_append, runCalls]
    cases v.step debug c with
    | none => rfl
    | some w => simp [ih]

/-- **C78** in the normalizing modes, for a base with an authority: editing the base and resolving is the same as
resolving, editing the result, and normalizing it. -/
theorem C78_normalized (debug : Bool) (S : Spec) (k : IriKind) (base ref : Str) (cs : List Call) (a b : Comps)
    (ha : a.Valid) (e : a.val = ⟨S, k, base⟩) (hk : k = .iri ∨ k = .absolute)
    (hr : validate_uri_reference S ref = some true) (h1 : RiReferenceStr.scheme_str ref = none)
    (h2 : RiReferenceStr.authority_str ref = none)
    (hf : debug = true → RiReferenceStr.fragment_str ref = none ∨ RiReferenceStr.fragment_str ref = some [])
    (hau : RiReferenceStr.authority_str base ≠ none)
    (hc : ∀ c ∈ cs, IsAuthorityEdit c) (hrun : Runs debug cs a b)
    (n : Call) (mode : NormalizationMode) (hn : SameMode mode n) :
    ∃ base' t t', runCalls debug cs ⟨S, k, base⟩ = some ⟨S, k, base'⟩ ∧ resolve S .off base ref = some t ∧
      runCalls debug (cs ++ [n]) ⟨S, .iri, t⟩ = some ⟨S, .iri, t'⟩ ∧ resolve S mode base' ref = some t' := by
  obtain ⟨r, hrv, rfl⟩ := reference_parts hr
  simp only [RiReferenceStr.scheme_str, hrv.delim.extract_scheme_eq, RiReferenceStr.authority_str,
    hrv.delim.extract_authority_eq, RiReferenceStr.fragment_str, hrv.delim.extract_fragment_eq] at h1 h2 hf hau
  obtain rfl : a.spec = S := congrArg Val.spec e
  obtain rfl : a.kind = k := congrArg Val.kind e
  obtain rfl : a.parts.recompose = base := congrArg Val.text e
  rw [ha.parts.delim.extract_authority_eq] at hau
  obtain ⟨y1, y2, y3, y4⟩ := authEdits_run ha hk hrv h1 h2 hf hc hrun
  obtain ⟨z1, z2⟩ := C66_history debug cs a b ha hrun
  have hkb : b.kind = .iri ∨ b.kind = .absolute := y2 ▸ hk
  have hrb : r.Valid b.spec := y1 ▸ hrv
  have hbs := kind_iri_scheme z2 hkb
  have hbau : b.parts.authority ≠ none := by
    intro h
    apply hau
    simp only [Comps.parts, Option.map_eq_none_iff] at h ⊢
    rw [h] at y3
    cases h' : a.authority with
    | none => rfl
    | some x => rw [h'] at y3; cases y3
  obtain ⟨w1, w2⟩ := C66_history debug cs _ _ (target_valid ha hk hrv h1 h2) y4
  have hmode : mode = opOf n ∧ IsNormalization n := by
    rcases hn with ⟨rfl, rfl⟩ | ⟨rfl, rfl⟩
    · exact ⟨rfl, .inl rfl⟩
    · exact ⟨rfl, .inr rfl⟩
  obtain ⟨rfl, hnn⟩ := hmode
  have key : ((target b r).normal (opOf n)).parts = normParts b.spec (opOf n) (mergeReference b.parts r) := by
    have hm := merge_valid z2.parts hbs hrb
    have hta : (target b r).parts.authority ≠ none := hbau
    have htv := target_valid z2 hkb hrb h1 h2
    rw [Comps.normal_parts opOf_ok.1 htv, normParts_mode hta opOf_ok.1,
      normParts_mode (by rw [mergeReference_authority h1 h2]; exact hbau) opOf_ok.1]
    obtain ⟨t, t1, t2⟩ := C63_normalize_resolved b.spec b.parts.recompose r.recompose
      (validate_uri_of_parts z2.parts hbs) (validate_reference_of_parts hrb)
    rw [target_resolve z2 hkb hrb h1 h2, Option.some.injEq] at t1
    subst t1
    rw [resolve_norm_eq z2.parts hbs hrb rfl, normalize_eq (S := b.spec) htv.parts hbs, Option.some.injEq] at t2
    exact recompose_inj (normParts_valid htv.parts hbs).delim (normParts_valid hm.1 hm.2).delim t2
  refine ⟨b.parts.recompose, (target a r).parts.recompose, ((target b r).normal (opOf n)).parts.recompose, ?_,
    target_resolve ha hk hrv h1 h2, ?_, ?_⟩
  · rw [← e, z1, Comps.val, y1, y2]
  · show runCalls debug (cs ++ [n]) (target a r).val = _
    rw [append_runs, w1, Option.bind_some, run_normal hnn w2 (.inl rfl), runCalls]
    show some (⟨b.spec, .iri, _⟩ : Val) = _
    rw [y1]
  · rw [← y1, resolve_norm_eq z2.parts hbs hrb opOf_ok.1, key]

/-- **C78**: a reference with a scheme or an authority of its own does not notice an edit of the authority of the
base, in any mode. -/
theorem C78_foreign (debug : Bool) (S : Spec) (k : IriKind) (base base' ref : Str)
    (hb : k.validate S base = some true) (hk : k = .iri ∨ k = .absolute)
    (hr : validate_uri_reference S ref = some true)
    (h : RiReferenceStr.scheme_str ref ≠ none ∨ RiReferenceStr.authority_str ref ≠ none)
    (c : Call) (hc : IsAuthorityEdit c) (ho : AllowedOn debug c ⟨S, k, base⟩)
    (hs : (⟨S, k, base⟩ : Val).step debug c = some ⟨S, k, base'⟩) (mode : NormalizationMode) :
    resolve S mode base' ref = resolve S mode base ref := by
  obtain ⟨r, hrv, rfl⟩ := reference_parts hr
  simp only [RiReferenceStr.scheme_str, hrv.delim.extract_scheme_eq, RiReferenceStr.authority_str,
    hrv.delim.extract_authority_eq] at h
  obtain ⟨a, hv, e, -⟩ := C66_components S k base hb
  obtain ⟨b, b1, b2, b3, -⟩ := C66_step debug a hv c (ho a hv e)
  rw [e, hs, Option.some.injEq] at b3
  obtain rfl : a.spec = S := congrArg Val.spec e
  obtain rfl : a.kind = k := congrArg Val.kind e
  obtain rfl : a.parts.recompose = base := congrArg Val.text e
  obtain rfl : base' = b.parts.recompose := congrArg Val.text b3
  obtain ⟨e1, -, -⟩ := authEdit_effect hc b2
  have hsp : b.spec = a.spec := by rw [e1]
  have hkb : b.kind = a.kind := by rw [e1]
  have hsc : b.parts.scheme = a.parts.scheme := by rw [e1]; rfl
  have has := kind_iri_scheme hv hk
  have hbs : b.parts.scheme ≠ none := hsc ▸ has
  have hbv : b.parts.Valid a.spec := hsp ▸ b1.parts
  have hm : mergeReference b.parts r = mergeReference a.parts r := by
    unfold mergeReference
    cases x1 : r.scheme with
    | some x => simp
    | none =>
      cases x2 : r.authority with
      | some x => simp [hsc]
      | none => rw [x1, x2] at h; simp at h
  have ht : transform b.parts r = transform a.parts r := by
    rw [transform_eq, transform_eq, hm]
  cases mode with
  | off => rw [resolve_off_eq hbv hbs hrv, resolve_off_eq hv.parts has hrv, ht]
  | default => rw [resolve_norm_eq hbv hbs hrv rfl, resolve_norm_eq hv.parts has hrv rfl, hm]
  | preserve => rw [resolve_norm_eq hbv hbs hrv rfl, resolve_norm_eq hv.parts has hrv rfl, hm]

/-- The password is masked in the base and in the result. -/
example : ∃ base', (⟨.uri, .iri, chars! "http://u:pw@h/a/b?q"⟩ : Val).step true .mask_password =
      some ⟨.uri, .iri, base'⟩ ∧ resolve .uri .off base' (chars! "../c#") = some (chars! "http://u:@h/c#") ∧
    resolve .uri .off (chars! "http://u:pw@h/a/b?q") (chars! "../c#") = some (chars! "http://u:pw@h/c#") ∧
    (⟨.uri, .iri, chars! "http://u:pw@h/c#"⟩ : Val).step true .mask_password =
      some ⟨.uri, .iri, chars! "http://u:@h/c#"⟩ :=
  ⟨chars! "http://u:@h/a/b?q", by decide +kernel, by decide +kernel, by decide +kernel, by decide +kernel⟩

/-- The hypotheses of `C78_history` can be met by a history of two edits. -/
example : ∃ a b : Comps, a.Valid ∧ a.val = ⟨.uri, .iri, chars! "http://u:pw@h/a/b?q"⟩ ∧
    Runs true [.mask_password, .replace_host (chars! "x.y")] a b := by
  obtain ⟨a, hv, e, -⟩ := C66_components .uri .iri (chars! "http://u:pw@h/a/b?q") (by decide +kernel)
  obtain ⟨b, b1, b2, b3, -⟩ := C66_step true a hv .mask_password trivial
  have e1 : b.val = ⟨.uri, .iri, chars! "http://u:@h/a/b?q"⟩ := by
    rw [e] at b3
    have : (⟨.uri, .iri, chars! "http://u:pw@h/a/b?q"⟩ : Val).step true .mask_password =
      some ⟨.uri, .iri, chars! "http://u:@h/a/b?q"⟩ := by decide +kernel
    rw [this, Option.some.injEq] at b3
    exact b3.symm
  have hfr : b.fragment = none := by
    have : RiReferenceStr.fragment_str b.parts.recompose = b.fragment := b1.parts.delim.extract_fragment_eq
    rw [← this, show b.parts.recompose = _ from congrArg Val.text e1]
    decide +kernel
  have ho : Allowed true (.replace_host (chars! "x.y")) b := fun _ _ => .inl hfr
  obtain ⟨d, d1, d2, -, -⟩ := C66_step true b b1 (.replace_host (chars! "x.y")) ho
  exact ⟨a, d, hv, e, .cons _ _ _ b _ trivial b2 b1 (.cons _ _ _ d _ ho d2 d1 (.nil d))⟩

/-- The condition on the base's authority in `C78_normalized` is needed: without an authority there is nothing to
edit, and resolving while preserving the path is not normalizing the resolved path. -/
theorem C78_condition_needed : ∃ base ref t n, validate_uri .uri base = some true ∧
    validate_uri_reference .uri ref = some true ∧ resolve .uri .off base ref = some t ∧
    normalize_but_preserve_authorityless_relative_path .uri t = some n ∧
    resolve .uri .preserve base ref ≠ some n :=
  ⟨chars! "a:b/c", chars! "../d", chars! "a:/d", chars! "a:/d", by decide +kernel, by decide +kernel, by decide +kernel,
    by decide +kernel, by decide +kernel⟩

end Verif
