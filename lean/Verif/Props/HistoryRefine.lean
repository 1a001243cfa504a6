import Verif.Spec.History
import Verif.Props.History
import Verif.Lemmas.Commute
import Verif.Props.Normalize

/-!
# C66: a history of calls does to the text what it does to the components
-/

namespace Verif

open Rfc

/-! ## The normal form is unique -/

theorem OptRel.det {R : Str → Str → Prop} (hR : ∀ a b c, R a b → R a c → b = c) {x y z : Option Str}
    (h : OptRel R x y) (h' : OptRel R x z) : y = z := by
  cases x <;> cases y <;> cases z <;> simp_all [OptRel]
  exact hR _ _ _ h h'

theorem Rfc.PctNormText.det {S : Spec} {s t t' : Str} (h : PctNormText S s t) (h' : PctNormText S s t') : t = t' := by
  obtain ⟨a, h1, rfl⟩ := h
  obtain ⟨b, h2, rfl⟩ := h'
  rw [h1.det h2]

theorem Rfc.HostNorm.det {S : Spec} {s t t' : Str} (h : HostNorm S s t) (h' : HostNorm S s t') : t = t' := by
  obtain ⟨a, h1, rfl⟩ := h
  obtain ⟨b, h2, rfl⟩ := h'
  rw [h1.det h2]

theorem Rfc.AuthTextNorm.det {S : Spec} {s t t' : Str} (h : AuthTextNorm S s t) (h' : AuthTextNorm S s t') : t = t' := by
  obtain ⟨a, b, h1, h2, h3, rfl⟩ := h
  obtain ⟨a', b', h1', h2', h3', rfl⟩ := h'
  obtain rfl := auth_recompose_inj h1 h1' (h2.trans h2'.symm)
  have e1 := OptRel.det (R := PctNormText S) (fun _ _ _ h h' => h.det h') h3.userinfo h3'.userinfo
  have e2 := h3.host.det h3'.host
  have e3 := h3.port.trans h3'.port.symm
  cases b; cases b'; simp_all

theorem Rfc.PathNorm.det {S : Spec} {h : Bool} {s t t' : Str} (h1 : PathNorm S h s t) (h2 : PathNorm S h s t') : t = t' := by
  obtain ⟨a, h1, rfl⟩ := h1
  obtain ⟨b, h2, rfl⟩ := h2
  rw [PctNormText.det h1 h2]

/-- **C17**: the relation that specifies normalization leaves no choice: a reference has at most one normal
form. -/
theorem C17_spec_unique (S : Spec) (preserve : Bool) (p q q' : Parts) (h : Normal S preserve p q)
    (h' : Normal S preserve p q') : q = q' := by
  have e1 := h.scheme.trans h'.scheme.symm
  have e2 := OptRel.det (R := AuthTextNorm S) (fun _ _ _ h h' => h.det h') h.authority h'.authority
  have e3 : q.path = q'.path := by
    by_cases hp : preserve = true ∧ OpaquePath p
    · exact (h.opaquePath hp.1 hp.2).det (h'.opaquePath hp.1 hp.2)
    · exact (h.path hp).det (h'.path hp)
  have e4 := OptRel.det (R := PctNormText S) (fun _ _ _ h h' => h.det h') h.query h'.query
  have e5 := OptRel.det (R := PctNormText S) (fun _ _ _ h h' => h.det h') h.fragment h'.fragment
  cases q; cases q'; simp_all

/-! ## Components and text -/

theorem auth_inj2 {S S' : Spec} {a b : AuthParts} (ha : a.Valid S) (hb : b.Valid S')
    (h : a.recompose = b.recompose) : a = b := by
  have e : a.offsets = b.offsets := by
    rw [← decompose_authority_eq ha, ← decompose_authority_eq hb, h]
  have e1 := offsets_userinfo a
  have e2 := offsets_host a
  have e3 := offsets_port a
  rw [e] at e1 e2 e3
  rw [offsets_userinfo] at e1
  rw [offsets_host] at e2
  rw [offsets_port] at e3
  cases a; cases b; simp_all

namespace Rfc

theorem Comps.Valid.fits {a : Comps} (h : a.Valid) : a.kind.Fits a.parts := by
  have := h.kind
  cases hk : a.kind <;> rw [hk] at this <;> exact this

theorem Comps.kind_of_fits {k : IriKind} {a : Comps} (h : k.Fits a.parts) : TypeFits a.scheme a.fragment k := by
  cases k <;> exact h

theorem Comps.Valid.val {a : Comps} (h : a.Valid) : a.val.Valid :=
  (kind_validate_iff _ _ _).2 ⟨a.parts, h.parts, h.fits, rfl⟩

theorem Comps.Valid.asserted {a : Comps} (h : a.Valid) (debug : Bool) : a.val.asserted debug = some a.val := by
  have := h.val
  unfold Val.Valid at this
  simp [Val.asserted, this]

/-- The same components under another type. -/
theorem Comps.Valid.retype {a : Comps} (h : a.Valid) {S : Spec} {k : IriKind}
    (hv : k.validate S a.parts.recompose = some true) : ({ a with spec := S, kind := k } : Comps).Valid := by
  obtain ⟨q, q1, q2, q3⟩ := (kind_validate_iff _ _ _).1 hv
  obtain rfl := recompose_inj q1.delim h.parts.delim q3
  refine ⟨q1, fun x hx => ?_, Comps.kind_of_fits (a := { a with spec := S, kind := k }) q2⟩
  obtain ⟨y, y1, y2⟩ := (authority_auth_parts S _).1 (q1.authority x.recompose (by
    simp only at hx
    simp [Comps.parts, hx]))
  exact auth_inj2 (h.authority x hx) y1 y2.symm ▸ y1

/-- Valid parts are the parts of valid components. -/
theorem Comps.of_parts {S : Spec} {k : IriKind} {p : Parts} (h : p.Valid S) (hk : k.Fits p) :
    ∃ a : Comps, a.Valid ∧ a.parts = p ∧ a.spec = S ∧ a.kind = k := by
  cases hp : p.authority with
  | none =>
    refine ⟨⟨S, k, p.scheme, none, p.path, p.query, p.fragment⟩, ?_, ?_, rfl, rfl⟩
    · have e : Comps.parts ⟨S, k, p.scheme, none, p.path, p.query, p.fragment⟩ = p := by
        cases p; simp_all [Comps.parts]
      exact ⟨by rw [e]; exact h, by simp, Comps.kind_of_fits (by rw [e]; exact hk)⟩
    · cases p; simp_all [Comps.parts]
  | some x =>
    obtain ⟨y, y1, rfl⟩ := (authority_auth_parts S _).1 (h.authority x hp)
    refine ⟨⟨S, k, p.scheme, some y, p.path, p.query, p.fragment⟩, ?_, ?_, rfl, rfl⟩
    · have e : Comps.parts ⟨S, k, p.scheme, some y, p.path, p.query, p.fragment⟩ = p := by
        cases p; simp_all [Comps.parts]
      refine ⟨by rw [e]; exact h, ?_, Comps.kind_of_fits (by rw [e]; exact hk)⟩
      rintro _ ⟨⟩; exact y1
    · cases p; simp_all [Comps.parts]

theorem Comps.ext_parts {a b : Comps} (ha : a.Valid) (hb : b.Valid) (h1 : a.spec = b.spec) (h2 : a.kind = b.kind)
    (h : a.parts = b.parts) : a = b := by
  obtain ⟨S, k, s, au, p, q, f⟩ := a
  obtain ⟨S', k', s', au', p', q', f'⟩ := b
  simp only at h1 h2
  subst h1 h2
  simp only [Comps.parts, Parts.mk.injEq] at h
  obtain ⟨rfl, h, rfl, rfl, rfl⟩ := h
  have : au = au' := by
    cases au with
    | none => cases au' <;> simp_all
    | some x =>
      cases au' with
      | none => simp at h
      | some y =>
        simp only [Option.map_some, Option.some.injEq] at h
        rw [auth_recompose_inj (ha.authority x rfl) (hb.authority y rfl) h]
  subst this
  rfl

theorem Comps.ext_val {a b : Comps} (ha : a.Valid) (hb : b.Valid) (h : a.val = b.val) : a = b := by
  have h1 := congrArg Val.spec h
  have h2 := congrArg Val.kind h
  have h3 := congrArg Val.text h
  exact Comps.ext_parts ha hb h1 h2 (recompose_inj ha.parts.delim hb.parts.delim h3)

/-- Another authority in the place of the old one. -/
theorem Comps.Valid.setAuth {a : Comps} (h : a.Valid) {x y : AuthParts} (hx : a.authority = some x)
    (hy : y.Valid a.spec) : ({ a with authority := some y } : Comps).Valid := by
  have hp := h.parts
  refine ⟨⟨hp.scheme, ?_, hp.path, hp.query, hp.fragment, fun _ => ?_, fun e => by simp [Comps.parts] at e,
    fun _ e => by simp [Comps.parts] at e⟩, ?_, h.kind⟩
  · intro z hz
    simp only [Comps.parts, Option.map_some, Option.some.injEq] at hz
    subst hz
    exact (authority_auth_parts _ _).2 ⟨y, hy, rfl⟩
  · exact hp.withAuthority (by simp [Comps.parts, hx])
  · rintro _ ⟨⟩; exact hy

theorem takeWhile_first {user pw : Str} (h : ':' ∉ user) : (user ++ ':' :: pw).takeWhile (· != ':') = user := by
  induction user with
  | nil => simp
  | cons c u ih =>
    have h1 : c ≠ ':' := fun e => h (by simp [e])
    have h2 : ':' ∉ u := fun e => h (by simp [e])
    simp [h1, ih h2]

theorem mapPassword_eq {user pw : Str} (h : ':' ∉ user) (f : Str → Str) : mapPassword f (user ++ ':' :: pw) = f user := by
  unfold mapPassword
  rw [if_pos (by simp), takeWhile_first h]

theorem mapPassword_none {u : Str} (h : ':' ∉ u) (f : Str → Str) : mapPassword f u = u := by
  unfold mapPassword
  rw [if_neg h]

/-- Either there is a password, or nothing to do. -/
theorem Comps.Valid.password_cases {a : Comps} (h : a.Valid) :
    (∃ x user pw, a.authority = some x ∧ HasPassword a.spec a.parts x user pw) ∨
    ((∀ x user pw, ¬ HasPassword a.spec a.parts x user pw) ∧ ∀ f, a.mapUserinfo (mapPassword f) = a) := by
  cases ha : a.authority with
  | none =>
    right
    refine ⟨fun x user pw hw => ?_, fun f => ?_⟩
    · have := hw.authority
      simp [Comps.parts, ha] at this
    · cases a; simp_all [Comps.mapUserinfo]
  | some x =>
    cases hu : x.userinfo with
    | none =>
      right
      refine ⟨fun y user pw hw => ?_, fun f => ?_⟩
      · have := hw.authority
        simp only [Comps.parts, ha, Option.map_some, Option.some.injEq] at this
        obtain rfl := auth_recompose_inj (h.authority x ha) hw.valid this
        rw [hw.userinfo] at hu; cases hu
      · obtain ⟨_, _, _, au, _, _, _⟩ := a
        obtain ⟨u, ho, po⟩ := x
        simp only at ha hu
        subst ha hu
        rfl
    | some u =>
      by_cases hc : ':' ∈ u
      · left
        obtain ⟨user, pw, rfl, hn⟩ := exists_first hc
        exact ⟨x, user, pw, rfl, h.authority x ha, by simp [Comps.parts, ha], hu, hn⟩
      · right
        refine ⟨fun y user pw hw => ?_, fun f => ?_⟩
        · have := hw.authority
          simp only [Comps.parts, ha, Option.map_some, Option.some.injEq] at this
          obtain rfl := auth_recompose_inj (h.authority x ha) hw.valid this
          rw [hw.userinfo] at hu
          cases hu
          exact hc (by simp)
        · obtain ⟨_, _, _, au, _, _, _⟩ := a
          obtain ⟨u', ho, po⟩ := x
          simp only at ha hu
          subst ha hu
          simp [Comps.mapUserinfo, mapPassword_none hc]

theorem Comps.mapUserinfo_password {a : Comps} {x : AuthParts} {user pw : Str} (f : Str → Str)
    (ha : a.authority = some x) (hw : HasPassword a.spec a.parts x user pw) :
    a.mapUserinfo (mapPassword f) = { a with authority := some { x with userinfo := some (f user) } } := by
  unfold Comps.mapUserinfo
  rw [ha]
  simp [hw.userinfo, mapPassword_eq hw.first]

/-- Encoding a value of URI type changes nothing. -/
theorem Comps.Valid.encoded_eq {a : Comps} (h : a.Valid) :
    a.encoded.parts = mapParts a.parts ∧ (∀ x, a.encoded.authority = some x → x.Valid .uri) := by
  refine ⟨?_, ?_⟩
  · unfold Comps.encoded Comps.parts mapParts
    simp only [Option.map_map, Parts.mk.injEq, true_and, and_true]
    cases ha : a.authority with
    | none => rfl
    | some x => simp only [Option.map_some, Function.comp]; rw [← mapAuth_recompose (h.authority x ha)]; rfl
  · intro x hx
    simp only [Comps.encoded, Option.map_eq_some_iff] at hx
    obtain ⟨y, hy, rfl⟩ := hx
    exact mapAuth_valid (h.authority y hy)

theorem Comps.Valid.encoded_valid {a : Comps} (h : a.Valid) : ({ a.encoded with spec := .uri } : Comps).Valid := by
  obtain ⟨e1, e2⟩ := h.encoded_eq
  have e1' : ({ a.encoded with spec := .uri } : Comps).parts = mapParts a.parts := e1
  refine ⟨by rw [e1']; exact mapParts_valid h.parts, e2, ?_⟩
  have := h.kind
  show TypeFits a.scheme a.encoded.fragment a.kind
  cases hk : a.kind <;> rw [hk] at this
  · trivial
  · exact this
  · refine ⟨this.1, ?_⟩
    rcases this.2 with e | e
    · left; simp [Comps.encoded, e]
    · right; simp [Comps.encoded, e, mapToUri_nil]
  · exact this

theorem Comps.Valid.encoded_uri {a : Comps} (h : a.Valid) (hs : a.spec = .uri) : a.encoded = a := by
  have hv := h.encoded_valid
  have e : ({ a.encoded with spec := .uri } : Comps) = a.encoded := by
    cases a; simp_all [Comps.encoded]
  rw [e] at hv
  refine Comps.ext_val hv h ?_
  have hu := h.val
  unfold Val.Valid Comps.val at hu
  simp only [hs] at hu
  obtain ⟨u, k1, _, k3, _⟩ := C24_encode_to_uri .uri a.kind a.parts.recompose hu
  rcases C24_as_uri .uri a.kind a.parts.recompose hu with ⟨m1, _⟩ | ⟨_, m2⟩
  · have := ((C24_ascii a.parts.recompose).2.2 _).1 m1
    have h4 := ((C24_ascii a.parts.recompose).1 this.2).1
    rw [(C24_variants_agree _).1] at h4
    simp only [Option.some.injEq] at h4
    unfold Comps.val
    rw [h.encoded_eq.1, mapParts_recompose h.parts, h4]
    rfl
  · exact absurd hu m2

/-! ## One call -/

theorem password_step {a : Comps} (h : a.Valid) {f : Str → Str} {x : AuthParts} {user pw : Str}
    (ha : a.authority = some x) (hw : HasPassword a.spec a.parts x user pw) (hf : userinfo a.spec (f user)) :
    (a.mapUserinfo (mapPassword f)).Valid ∧
    (a.mapUserinfo (mapPassword f)).val = { a.val with text := withUserinfo a.parts x (f user) } := by
  rw [Comps.mapUserinfo_password f ha hw]
  refine ⟨h.setAuth ha ⟨fun y hy => ?_, hw.valid.host, hw.valid.port⟩, rfl⟩
  cases hy; exact hf

theorem host_step {a : Comps} (h : a.Valid) {new : Str} (hn : host a.spec new) {x : AuthParts}
    (ha : a.authority = some x) : (a.withHost new).Valid ∧
    (a.withHost new).val = { a.val with text := Rfc.withHost a.parts x new } := by
  have e : a.withHost new = { a with authority := some { x with host := new } } := by
    unfold Comps.withHost; rw [ha]; rfl
  rw [e]
  exact ⟨h.setAuth ha ⟨(h.authority x ha).userinfo, hn, (h.authority x ha).port⟩, rfl⟩

theorem withHost_none {a : Comps} {new : Str} (ha : a.authority = none) : a.withHost new = a := by
  cases a; simp_all [Comps.withHost]

theorem kind_iri_scheme {a : Comps} (h : a.Valid) (hk : a.kind = .iri ∨ a.kind = .absolute) : a.parts.scheme ≠ none := by
  have := h.kind
  rcases hk with hk | hk <;> rw [hk] at this
  · exact this
  · exact this.1

/-- The result of RFC 3986 section 5.2.2 with the crate's protection of a leading `//` is valid. -/
theorem transform_valid {S : Spec} {b r : Parts} (hb : b.Valid S) (hs : b.scheme ≠ none) (hr : r.Valid S) :
    Parts.Valid S { transform b r with
      path := escapePath (transform b r).authority.isSome (transform b r).path } := by
  obtain ⟨hm, hms⟩ := merge_valid hb hs hr
  rw [transform_eq]
  cases h : samePath r with
  | true =>
    simp only [if_true]
    have : escapePath (mergeReference b r).authority.isSome (mergeReference b r).path =
        (mergeReference b r).path := by
      unfold escapePath
      rw [if_neg]
      intro e
      simp only [Bool.and_eq_true, Bool.not_eq_true', Option.isSome_eq_false_iff,
        Option.isNone_iff_eq_none] at e
      obtain ⟨t, e2⟩ := take2_slash.1 e.2
      exact hm.withoutAuthority e.1 t e2
    rw [this]
    exact hm
  | false =>
    have := normParts_valid (op := .off) hm hms
    rw [normParts_off] at this
    exact this

theorem transform_delim {S : Spec} {b r : Parts} (hb : b.Valid S) (hs : b.scheme ≠ none) (hr : r.Valid S) :
    Parts.Delim { transform b r with
      path := escapePath (transform b r).authority.isSome (transform b r).path } :=
  (transform_valid hb hs hr).delim

theorem step_effect (debug : Bool) {a : Comps} (h : a.Valid) (c : Call) (hc : Allowed debug c a) :
    ∃ b, Effect c a b ∧ b.Valid ∧ a.val.step debug c = some b.val := by
  have hval : a.kind.validate a.spec a.parts.recompose = some true := h.val
  have hd := h.parts.delim
  have hfrag : RiReferenceStr.fragment_str a.parts.recompose = a.fragment := hd.extract_fragment_eq
  have hauth : RiReferenceStr.authority_str a.parts.recompose = a.parts.authority := hd.extract_authority_eq
  have href : validate_uri_reference a.spec a.parts.recompose = some true := validate_reference_of_parts h.parts
  cases c with
  | set_fragment f =>
    by_cases hk : a.kind = .absolute
    · exact ⟨a, by simp [Effect, hk], h, by simp [Val.step, Comps.val, hk]⟩
    · have hv : ({ a with fragment := f } : Comps).Valid := by
        refine ⟨h.parts.setFragment hc, h.authority, ?_⟩
        have := h.kind
        show TypeFits a.scheme f a.kind
        cases hk' : a.kind <;> rw [hk'] at this
        · trivial
        · exact this
        · exact absurd hk' hk
        · exact this
      refine ⟨_, by simp only [Effect, if_neg hk], hv, ?_⟩
      rw [← hv.asserted debug]
      simp only [Val.step, Comps.val, hk, if_false]
      rw [RiString.set_fragment, set_fragment_parts hd]
      rfl
  | replace_host new =>
    have hfr : debug = true → a.kind = .iri → a.parts.fragment = none ∨ a.parts.fragment = some [] := hc
    cases ha : a.authority with
    | none =>
      refine ⟨a, ⟨fun _ => (withHost_none ha).symm, fun _ => rfl⟩, h, ?_⟩
      have := (C27_no_authority_partial debug a.spec a.kind _ hval (by rw [hauth]; simp [Comps.parts, ha]) new
        (by rw [hfrag]; exact hfr)).1
      simp only [Val.step, Comps.val, this]; rfl
    | some x =>
      obtain ⟨h1, h2, _, _⟩ := C27_replace_host_partial debug a.spec a.kind _ hval a.parts ⟨h.parts, rfl⟩ x
        ⟨h.authority x ha, by simp [Comps.parts, ha]⟩ new hfr
      by_cases hh : host a.spec new
      · obtain ⟨k1, k2⟩ := host_step h hh ha
        refine ⟨_, ⟨fun _ => rfl, fun hn => absurd hh hn⟩, k1, ?_⟩
        rw [k2]
        simp only [Val.step, Comps.val, (h1 hh).1]; rfl
      · refine ⟨a, ⟨fun hn => absurd hn hh, fun _ => rfl⟩, h, ?_⟩
        simp only [Val.step, Comps.val, h2 hh]; rfl
  | replace_host_reg_name new =>
    have hfr : debug = true → a.kind = .iri → a.parts.fragment = none ∨ a.parts.fragment = some [] := hc
    cases ha : a.authority with
    | none =>
      refine ⟨a, ⟨fun _ => (withHost_none ha).symm, fun _ => rfl⟩, h, ?_⟩
      have := (C27_no_authority_partial debug a.spec a.kind _ hval (by rw [hauth]; simp [Comps.parts, ha]) new
        (by rw [hfrag]; exact hfr)).2
      simp only [Val.step, Comps.val, this]; rfl
    | some x =>
      obtain ⟨_, _, h3, h4⟩ := C27_replace_host_partial debug a.spec a.kind _ hval a.parts ⟨h.parts, rfl⟩ x
        ⟨h.authority x ha, by simp [Comps.parts, ha]⟩ new hfr
      by_cases hh : host a.spec new ∧ a.HasRegName
      · obtain ⟨k1, k2⟩ := host_step h hh.1 ha
        refine ⟨_, ⟨fun _ => rfl, fun hn => absurd hh hn⟩, k1, ?_⟩
        obtain ⟨y, e, y1, y2⟩ := hh.2
        obtain rfl : x = y := by rw [ha] at e; exact Option.some.inj e
        rw [k2]
        simp only [Val.step, Comps.val, h3 hh.1 y1 y2]; rfl
      · refine ⟨a, ⟨fun hn => absurd hn hh, fun _ => rfl⟩, h, ?_⟩
        have : ¬ host a.spec new ∨ IP_literal x.host ∨ IPv4address x.host := by
          by_cases k1 : host a.spec new
          · by_cases k2 : IP_literal x.host
            · exact .inr (.inl k2)
            · by_cases k3 : IPv4address x.host
              · exact .inr (.inr k3)
              · exact absurd ⟨k1, x, ha, k2, k3⟩ hh
          · exact .inl k1
        simp only [Val.step, Comps.val, h4 this]; rfl
  | remove_password_inline =>
    obtain ⟨h1, h2⟩ := C26_remove_password_partial debug a.spec a.kind _ hval a.parts ⟨h.parts, rfl⟩
    refine ⟨_, rfl, ?_⟩
    rcases h.password_cases with ⟨x, user, pw, ha, hw⟩ | ⟨hn, he⟩
    · have hu := (userinfo_split (hw.valid.userinfo _ hw.userinfo)).1
      obtain ⟨k1, k2⟩ := password_step (f := fun user => user) h ha hw hu
      refine ⟨k1, ?_⟩
      rw [k2]
      simp only [Val.step, Comps.val, (h1 x user pw hw).1]; rfl
    · rw [he]
      refine ⟨h, ?_⟩
      have := h2 fun x hx1 hx2 => by
        cases hu : x.userinfo with
        | none => rfl
        | some u =>
          exfalso
          have hx : a.authority = some x := by
            simp only [Comps.parts, Option.map_eq_some_iff] at hx2
            obtain ⟨y, y1, y2⟩ := hx2
            rw [auth_recompose_inj hx1 (h.authority y y1) y2.symm]; exact y1
          obtain ⟨user, pw, rfl, hf⟩ := exists_first (hc x u hx hu)
          exact hn x user pw ⟨hx1, hx2, hu, hf⟩
      simp only [Val.step, Comps.val, this]; rfl
  | remove_nonempty_password_inline =>
    obtain ⟨h1, h2, _⟩ := C26_remove_nonempty_password debug a.spec a.kind _ hval a.parts ⟨h.parts, rfl⟩
    refine ⟨_, rfl, ?_⟩
    rcases h.password_cases with ⟨x, user, pw, ha, hw⟩ | ⟨hn, he⟩
    · have hu := (userinfo_split (hw.valid.userinfo _ hw.userinfo)).2.1
      obtain ⟨k1, k2⟩ := password_step (f := fun user => user ++ [':']) h ha hw hu
      refine ⟨k1, ?_⟩
      rw [k2]
      simp only [Val.step, Comps.val, (h1 x user pw hw).1]; rfl
    · rw [he]
      refine ⟨h, ?_⟩
      simp only [Val.step, Comps.val, h2 hn]; rfl
  | mask_password =>
    refine ⟨_, rfl, ?_⟩
    rcases h.password_cases with ⟨x, user, pw, ha, hw⟩ | ⟨hn, he⟩
    · have hu := (userinfo_split (hw.valid.userinfo _ hw.userinfo)).2.1
      obtain ⟨k1, k2⟩ := password_step (f := fun user => user ++ [':']) h ha hw hu
      refine ⟨k1, ?_⟩
      rw [← k1.asserted debug, k2]
      have := (C25_mask_password a.spec a.kind _ hval a.parts ⟨h.parts, rfl⟩ x user pw hw).2.1
      simp only [Val.step, Comps.val, this]; rfl
    · rw [he]
      refine ⟨h, ?_⟩
      have := (C25_mask_no_password a.spec _ a.parts ⟨h.parts, rfl⟩ hn).2
      rw [← h.asserted debug]
      simp only [Val.step, Comps.val, this]; rfl
  | encode_to_uri_inline =>
    refine ⟨_, rfl, ?_⟩
    cases hs : a.spec with
    | uri =>
      rw [h.encoded_uri hs]
      exact ⟨h, by simp [Val.step, Comps.val, hs]⟩
    | iri =>
      have hv := h.encoded_valid
      have hv' := hv.retype (S := .iri) (k := a.kind) (Heap.uri_is_iri hv.val)
      have e : ({ ({ a.encoded with spec := .uri } : Comps) with spec := .iri, kind := a.kind } : Comps) = a.encoded := by
        cases a; simp_all [Comps.encoded]
      rw [e] at hv'
      refine ⟨hv', ?_⟩
      rw [← hv'.asserted debug]
      have := (C24_variants_agree a.parts.recompose).2
      simp only [Val.step, Comps.val, hs, this, reduceCtorEq, if_false, Option.bind_some]
      rw [h.encoded_eq.1, mapParts_recompose h.parts]
      simp [Comps.encoded, hs]
  | encode_into_uri =>
    refine ⟨_, rfl, h.encoded_valid, ?_⟩
    cases hs : a.spec with
    | uri =>
      rw [h.encoded_uri hs]
      simp [Val.step, Comps.val, hs, Comps.parts]
    | iri =>
      rw [← h.encoded_valid.asserted debug]
      have := (C24_variants_agree a.parts.recompose).2
      simp only [Val.step, Comps.val, hs, this, reduceCtorEq, if_false, Option.bind_some]
      show _ = Val.asserted debug ⟨.uri, a.kind, a.encoded.parts.recompose⟩
      rw [h.encoded_eq.1, mapParts_recompose h.parts]
  | try_into_uri =>
    refine ⟨_, rfl, ?_⟩
    rcases C24_as_uri a.spec a.kind _ hval with ⟨h1, h2⟩ | ⟨h1, h2⟩
    · have hall := ((C24_ascii a.parts.recompose).2.2 _).1 h1
      have : (a.parts.recompose.all fun c => decide (c.toNat < 128)) = true := by
        simpa using hall.2
      rw [this]
      simp only [if_true]
      have hv := h.retype h2
      refine ⟨hv, ?_⟩
      rw [← hv.asserted debug]
      simp only [Val.step, Comps.val]
      rw [h1]
      rfl
    · have : (a.parts.recompose.all fun c => decide (c.toNat < 128)) = false := by
        cases hb : a.parts.recompose.all fun c => decide (c.toNat < 128) with
        | false => rfl
        | true =>
          have := ((C24_ascii a.parts.recompose).2.2 a.parts.recompose).2 ⟨rfl, by simpa using hb⟩
          rw [this] at h1; cases h1
      rw [this]
      refine ⟨h, ?_⟩
      simp only [Val.step, Comps.val]
      rw [h1]
      rfl
  | into_iri_spec =>
    refine ⟨_, rfl, ?_⟩
    cases hs : a.spec with
    | iri =>
      have e : ({ a with spec := .iri } : Comps) = a := by cases a; simp_all
      rw [e]
      exact ⟨h, by simp [Val.step, Comps.val, hs]⟩
    | uri =>
      have hv := h.retype (S := .iri) (k := a.kind) (by
        have := hval
        rw [hs] at this
        exact Heap.uri_is_iri this)
      refine ⟨hv, ?_⟩
      rw [← Comps.Valid.asserted hv debug]
      simp only [Val.step, Comps.val, hs, reduceCtorEq, if_false]
      rfl
  | into_reference =>
    have hv := h.retype (S := a.spec) (k := .reference) href
    refine ⟨_, rfl, hv, ?_⟩
    by_cases hk : a.kind = .reference
    · simp only [Val.step, Comps.val, hk, if_true]; rfl
    · rw [← Comps.Valid.asserted hv debug]
      simp only [Val.step, Comps.val, hk, if_false]
      rfl
  | into_iri =>
    refine ⟨_, rfl, ?_⟩
    cases hk : a.kind with
    | iri => exact ⟨h, by simp [Val.step, Comps.val, hk]⟩
    | relative => exact ⟨h, by simp [Val.step, Comps.val, hk]⟩
    | absolute =>
      have hv := h.retype (S := a.spec) (k := .iri) (by
        have := hval
        rw [hk] at this
        exact (C07_upcasts _ _).1 this)
      refine ⟨hv, ?_⟩
      rw [← Comps.Valid.asserted hv debug]
      simp only [Val.step, Comps.val, hk]
      rfl
    | reference =>
      obtain ⟨h1, h2⟩ := C08_to_iri a.spec _ href
      have hI : IRI a.spec a.parts.recompose ↔ a.scheme ≠ none := by
        constructor
        · intro hI
          obtain ⟨q, q1, q2, q3⟩ := (IRI_parts _ _).1 hI
          obtain rfl := recompose_inj q1.delim hd q3
          exact q2
        · intro hs; exact (IRI_parts _ _).2 ⟨a.parts, h.parts, hs, rfl⟩
      cases hs : a.scheme with
      | some x =>
        have hI := hI.2 (by simp [hs])
        have hv := h.retype (S := a.spec) (k := .iri) ((C01_iri_validation _ _).1.2 hI)
        have e : a.val.step debug .into_iri = some ({ a with kind := .iri } : Comps).val := by
          rw [← Comps.Valid.asserted hv debug]
          simp only [Val.step, Comps.val, hk, (h1 hI).1]
          rfl
        rw [hs] at hv e
        exact ⟨hv, e⟩
      | none =>
        have hI : ¬ IRI a.spec a.parts.recompose := fun e => hI.1 e hs
        have hv := h.retype (S := a.spec) (k := .relative) ((C03_relative_ref_validation _ _).1.2 (h2 hI).2.2)
        have e : a.val.step debug .into_iri = some ({ a with kind := .relative } : Comps).val := by
          rw [← Comps.Valid.asserted hv debug]
          simp only [Val.step, Comps.val, hk, (h2 hI).1]
          rfl
        rw [hs] at hv e
        exact ⟨hv, e⟩
  | into_absolute =>
    refine ⟨_, rfl, ?_⟩
    by_cases hk : a.kind = .iri
    · simp only [hk, if_true]
      have hv : ({ a with kind := .absolute, fragment := none } : Comps).Valid :=
        ⟨h.parts.setFragment (by simp), h.authority, kind_iri_scheme h (.inl hk), .inl rfl⟩
      refine ⟨hv, ?_⟩
      rw [← hv.asserted debug]
      have hu : validate_uri a.spec a.parts.recompose = some true := by
        have := hval; rw [hk] at this; exact this
      obtain ⟨t, f, _, _, _, h4, h5, _, h7, _, h9⟩ := C13_split_fragment _ _ hu
      have ht : t = ({ a.parts with fragment := none } : Parts).recompose := by
        have e1 := with_fragment_recompose a.parts a.fragment
        have e2 : f = a.fragment := by rw [h7]; exact hfrag
        subst e2
        have e3 : ({ a.parts with fragment := a.fragment } : Parts).recompose = a.parts.recompose := rfl
        rw [← e3, e1] at h9
        exact List.append_cancel_right h9
      simp only [Val.step, Comps.val, hk, if_true, h4, ht]
      rfl
    · simp only [hk, if_false]
      exact ⟨h, by simp [Val.step, Comps.val, hk]⟩
  | normalize =>
    by_cases hk : a.kind = .iri ∨ a.kind = .absolute
    · have hs := kind_iri_scheme h hk
      have hf : a.kind.Fits (normParts a.spec .default a.parts) := by
        have := h.fits
        rcases hk with hk | hk <;> rw [hk] at this ⊢
        · exact normParts_scheme hs
        · refine ⟨normParts_scheme hs, ?_⟩
          rcases this.2 with e | e
          · left; simp [normParts, e]
          · right; simp [normParts, e, wr_nil]
      obtain ⟨b, b1, b2, b3, b4⟩ := Comps.of_parts (normParts_valid (op := .default) h.parts hs) hf
      refine ⟨b, ?_, b1, ?_⟩
      · simp only [Effect, if_pos hk]
        refine ⟨b3, b4, ?_⟩
        rw [b2]
        exact normParts_spec (op := .default) h.parts rfl
      · rw [← b1.asserted debug]
        simp only [Val.step]
        rw [if_pos (show a.val.kind = .iri ∨ a.val.kind = .absolute from hk), show a.val.text = a.parts.recompose from rfl,
          show a.val.spec = a.spec from rfl, normalize_eq h.parts hs]
        simp only [Comps.val, b2, b3, b4, Option.bind_some]
    · refine ⟨a, by simp only [Effect, if_neg hk], h, ?_⟩
      simp only [Val.step]
      exact if_neg hk
  | normalize_preserve =>
    by_cases hk : a.kind = .iri ∨ a.kind = .absolute
    · have hs := kind_iri_scheme h hk
      have hf : a.kind.Fits (normParts a.spec .preserve a.parts) := by
        have := h.fits
        rcases hk with hk | hk <;> rw [hk] at this ⊢
        · exact normParts_scheme hs
        · refine ⟨normParts_scheme hs, ?_⟩
          rcases this.2 with e | e
          · left; simp [normParts, e]
          · right; simp [normParts, e, wr_nil]
      obtain ⟨b, b1, b2, b3, b4⟩ := Comps.of_parts (normParts_valid (op := .preserve) h.parts hs) hf
      refine ⟨b, ?_, b1, ?_⟩
      · simp only [Effect, if_pos hk]
        refine ⟨b3, b4, ?_⟩
        rw [b2]
        exact normParts_spec (op := .preserve) h.parts rfl
      · rw [← b1.asserted debug]
        simp only [Val.step]
        rw [if_pos (show a.val.kind = .iri ∨ a.val.kind = .absolute from hk), show a.val.text = a.parts.recompose from rfl,
          show a.val.spec = a.spec from rfl, normalize_preserve_eq h.parts hs]
        simp only [Comps.val, b2, b3, b4, Option.bind_some]
    · refine ⟨a, by simp only [Effect, if_neg hk], h, ?_⟩
      simp only [Val.step]
      exact if_neg hk
  | resolve_against mode base =>
    by_cases hk : a.kind = .reference ∨ a.kind = .relative
    · have hb : validate_absolute_uri a.spec base = some true := (C04_absolute_validation_partial _ _).1.2 hc
      obtain ⟨p, p1, p2, rfl⟩ := iri_parts' ((C07_upcasts _ _).1 hb)
      obtain ⟨q, q1, q2, q3, -⟩ := resolve_parts p1 p2 h.parts mode
      obtain ⟨b, b1, b2, b3, b4⟩ := Comps.of_parts (k := .iri) q1 q2
      refine ⟨b, ?_, b1, ?_⟩
      · simp only [Effect, if_pos hk]
        refine ⟨b3, b4, p, p1, rfl, ?_⟩
        obtain ⟨hm, hms⟩ := merge_valid p1 p2 h.parts
        cases mode with
        | off =>
          rw [b2]
          exact recompose_inj q1.delim (transform_delim p1 p2 h.parts) (by
            have e := resolve_off_eq p1 p2 h.parts
            rw [q3] at e
            exact Option.some.inj e)
        | default =>
          have e := resolve_norm_eq p1 p2 h.parts (op := .default) rfl
          rw [q3] at e
          obtain rfl := recompose_inj q1.delim (normParts_valid (op := .default) hm hms).delim (Option.some.inj e)
          simp only [b2]
          exact normParts_spec (op := .default) hm rfl
        | preserve =>
          have e := resolve_norm_eq p1 p2 h.parts (op := .preserve) rfl
          rw [q3] at e
          obtain rfl := recompose_inj q1.delim (normParts_valid (op := .preserve) hm hms).delim (Option.some.inj e)
          simp only [b2]
          exact normParts_spec (op := .preserve) hm rfl
      · rw [← b1.asserted debug]
        simp only [Val.step]
        rw [if_pos (show a.val.kind = .reference ∨ a.val.kind = .relative from hk), show a.val.text = a.parts.recompose from rfl, show a.val.spec = a.spec from rfl, q3]
        simp only [Comps.val, b2, b3, b4, Option.bind_some]
    · refine ⟨a, by simp only [Effect, if_neg hk], h, ?_⟩
      simp only [Val.step]
      exact if_neg hk

/-- The specification leaves no choice. -/
theorem effect_det {c : Call} {a b b' : Comps} (hb : b.Valid) (hb' : b'.Valid) (h : Effect c a b) (h' : Effect c a b') :
    b = b' := by
  have norm : ∀ {f : Bool}, a.NormalizesTo f b → a.NormalizesTo f b' → b = b' := by
    intro f e e'
    exact Comps.ext_parts hb hb' (e.1.trans e'.1.symm) (e.2.1.trans e'.2.1.symm)
      (C17_spec_unique _ _ _ _ _ e.2.2 e'.2.2)
  cases c with
  | replace_host new =>
    by_cases hn : host a.spec new
    · rw [h.1 hn, h'.1 hn]
    · rw [h.2 hn, h'.2 hn]
  | replace_host_reg_name new =>
    by_cases hn : host a.spec new ∧ a.HasRegName
    · rw [h.1 hn, h'.1 hn]
    · rw [h.2 hn, h'.2 hn]
  | normalize =>
    simp only [Effect] at h h'
    split at h
    · next hk => rw [if_pos hk] at h'; exact norm h h'
    · next hk => rw [if_neg hk] at h'; rw [h, h']
  | normalize_preserve =>
    simp only [Effect] at h h'
    split at h
    · next hk => rw [if_pos hk] at h'; exact norm h h'
    · next hk => rw [if_neg hk] at h'; rw [h, h']
  | resolve_against mode base =>
    simp only [Effect] at h h'
    split at h
    · next hk =>
      rw [if_pos hk] at h'
      obtain ⟨s1, k1, p, p1, p2, p3⟩ := h
      obtain ⟨s2, k2, q, q1, q2, q3⟩ := h'
      obtain rfl := recompose_inj p1.delim q1.delim (p2.trans q2.symm)
      refine Comps.ext_parts hb hb' (s1.trans s2.symm) (k1.trans k2.symm) ?_
      cases mode with
      | off => exact p3.trans q3.symm
      | default => exact C17_spec_unique _ _ _ _ _ p3 q3
      | preserve => exact C17_spec_unique _ _ _ _ _ p3 q3
    · next hk => rw [if_neg hk] at h'; rw [h, h']
  | _ => exact Eq.trans h h'.symm

end Rfc

/-- **C66**: every value of the eight types is one list of components, and only one. -/
theorem C66_components (S : Spec) (k : IriKind) (t : Str) (h : k.validate S t = some true) :
    ∃ a : Comps, a.Valid ∧ a.val = ⟨S, k, t⟩ ∧ ∀ b : Comps, b.Valid → b.val = ⟨S, k, t⟩ → b = a := by
  obtain ⟨p, p1, p2, rfl⟩ := (kind_validate_iff _ _ _).1 h
  obtain ⟨a, a1, a2, a3, a4⟩ := Comps.of_parts p1 p2
  refine ⟨a, a1, by rw [Comps.val, a2, a3, a4], fun b hb e => ?_⟩
  exact Comps.ext_val hb a1 (e.trans (by rw [Comps.val, a2, a3, a4]))

/-- **C66**: one call does to the text what the specification says that it does to the components; it does not
panic, and the specification allows one result only. -/
theorem C66_step (debug : Bool) (a : Comps) (h : a.Valid) (c : Call) (hc : Allowed debug c a) :
    ∃ b, b.Valid ∧ Effect c a b ∧ a.val.step debug c = some b.val ∧
      ∀ b', b'.Valid → Effect c a b' → b' = b := by
  obtain ⟨b, b1, b2, b3⟩ := step_effect debug h c hc
  exact ⟨b, b2, b1, b3, fun b' h' e' => effect_det h' b2 e' b1⟩

/-- **C66**: a history of calls of any length does to the text what it does to the components. -/
theorem C66_history (debug : Bool) (cs : List Call) (a b : Comps) (h : a.Valid) (hr : Runs debug cs a b) :
    runCalls debug cs a.val = some b.val ∧ b.Valid := by
  induction hr with
  | nil a => exact ⟨rfl, h⟩
  | cons c cs a b d hc he hb _ ih =>
    obtain ⟨b', b1, b2, b3, b4⟩ := C66_step debug a h c hc
    obtain rfl := b4 b hb he
    obtain ⟨i1, i2⟩ := ih hb
    exact ⟨by rw [runCalls, b3, Option.bind_some, i1], i2⟩

/-- **C66**: a history goes on as long as the calls are allowed: either it runs to its end, or it reaches
components from which the next call is one of the excluded ones. -/
theorem C66_progress (debug : Bool) (cs : List Call) (a : Comps) (h : a.Valid) :
    (∃ b, Runs debug cs a b) ∨
    ∃ cs1 c cs2 b, cs = cs1 ++ c :: cs2 ∧ Runs debug cs1 a b ∧ ¬ Allowed debug c b := by
  induction cs generalizing a with
  | nil => exact .inl ⟨a, .nil a⟩
  | cons c cs ih =>
    by_cases hc : Allowed debug c a
    · obtain ⟨b, b1, b2, -⟩ := C66_step debug a h c hc
      rcases ih b b1 with ⟨d, hd⟩ | ⟨cs1, c', cs2, d, rfl, hd, hn⟩
      · exact .inl ⟨d, .cons c cs a b d hc b2 b1 hd⟩
      · exact .inr ⟨c :: cs1, c', cs2, d, rfl, .cons c cs1 a b d hc b2 b1 hd, hn⟩
    · exact .inr ⟨[], c, cs, a, rfl, .nil a, hc⟩

/-- Two calls, from what they do to the components. -/
theorem two_calls {debug : Bool} {a b d : Comps} (h : a.Valid) {c c' : Call} (hc : Allowed debug c a)
    (he : ∀ b', Effect c a b' → b' = b) (hc' : Allowed debug c' b) (he' : ∀ d', Effect c' b d' → d' = d) :
    runCalls debug [c, c'] a.val = some d.val := by
  obtain ⟨x, x1, x2, x3, -⟩ := C66_step debug a h c hc
  obtain rfl := he x x2
  obtain ⟨y, y1, y2, y3, -⟩ := C66_step debug x x1 c' hc'
  obtain rfl := he' y y2
  simp only [runCalls, x3, y3, Option.bind_some]

theorem effect_host {a : Comps} {new : Str} (hn : host a.spec new) (b : Comps) (h : Effect (.replace_host new) a b) :
    b = a.withHost new := h.1 hn

theorem effect_fragment {a : Comps} {f : Option Str} (hk : a.kind ≠ .absolute) (b : Comps)
    (h : Effect (.set_fragment f) a b) : b = { a with fragment := f } := by
  have := h; simp only [Effect, if_neg hk] at this; exact this

theorem effect_mask {a b : Comps} (h : Effect .mask_password a b) :
    b = a.mapUserinfo (mapPassword fun user => user ++ [':']) := h

theorem mapPassword_mask (u : Str) : mapPassword (fun user => user ++ [':']) (mapPassword (fun user => user ++ [':']) u) =
    mapPassword (fun user => user ++ [':']) u := by
  by_cases h : ':' ∈ u
  · have h2 : mapPassword (fun user => user ++ [':']) u = u.takeWhile (· != ':') ++ [':'] := by
      simp [mapPassword, h]
    rw [h2]
    refine mapPassword_eq (pw := []) ?_ _
    intro hm
    have := List.all_eq_true.1 (List.all_takeWhile (p := (· != ':')) (l := u)) _ hm
    simp at this
  · rw [mapPassword_none h, mapPassword_none h]

/-- **C66**: of two writes to the same component the last wins, and masking twice is masking once. -/
theorem C66_last_write_wins (S : Spec) (k : IriKind) (t : Str) (h : k.validate S t = some true)
    (f g : Option Str) (hf : ∀ x, f = some x → fragment S x) (hg : ∀ x, g = some x → fragment S x)
    (x y : Str) (hx : host S x) (hy : host S y) :
    runCalls false [.set_fragment f, .set_fragment g] ⟨S, k, t⟩ = runCalls false [.set_fragment g] ⟨S, k, t⟩ ∧
    runCalls false [.replace_host x, .replace_host y] ⟨S, k, t⟩ = runCalls false [.replace_host y] ⟨S, k, t⟩ ∧
    runCalls false [.mask_password, .mask_password] ⟨S, k, t⟩ = runCalls false [.mask_password] ⟨S, k, t⟩ := by
  obtain ⟨a, ha, e, -⟩ := C66_components S k t h
  rw [← e]
  have hS : a.spec = S := congrArg Val.spec e
  have hK : a.kind = k := congrArg Val.kind e
  have one : ∀ {c : Call} {b : Comps}, Allowed false c a → (∀ b', Effect c a b' → b' = b) →
      runCalls false [c] a.val = some b.val := by
    intro c b hc he
    obtain ⟨x, x1, x2, x3, -⟩ := C66_step false a ha c hc
    obtain rfl := he x x2
    simp only [runCalls, x3, Option.bind_some]
  subst hS
  refine ⟨?_, ?_, ?_⟩
  · by_cases hk : a.kind = .absolute
    · rw [two_calls ha (b := a) (d := a) (c := .set_fragment f) (c' := .set_fragment g) hf
        (by intro b hb; simpa [Effect, hk] using hb) hg (by intro b hb; simpa [Effect, hk] using hb),
        one (c := .set_fragment g) (b := a) hg (by intro b hb; simpa [Effect, hk] using hb)]
    · rw [two_calls ha (c := .set_fragment f) (c' := .set_fragment g) hf (effect_fragment hk) hg
        (effect_fragment (a := { a with fragment := f }) hk), one (c := .set_fragment g) hg (effect_fragment hk)]
  · rw [two_calls ha (c := .replace_host x) (c' := .replace_host y) (by intro e; cases e) (effect_host hx)
      (by intro e; cases e) (effect_host (a := a.withHost x) hy),
      one (c := .replace_host y) (by intro e; cases e) (effect_host hy)]
    congr 2
    simp only [Comps.withHost, Option.map_map]
    rfl
  · rw [two_calls ha (c := .mask_password) (c' := .mask_password) trivial (fun _ => effect_mask) trivial
      (fun _ => effect_mask), one (c := .mask_password) trivial (fun _ => effect_mask)]
    congr 2
    simp only [Comps.mapUserinfo, Option.map_map]
    congr 2
    funext x
    simp only [Function.comp, Option.map_map]
    congr 2
    funext u
    exact mapPassword_mask u

/-- **C66**: writes to different components commute. -/
theorem C66_commute (S : Spec) (k : IriKind) (t : Str) (h : k.validate S t = some true)
    (f : Option Str) (hf : ∀ x, f = some x → fragment S x) (x : Str) (hx : host S x) :
    runCalls false [.set_fragment f, .replace_host x] ⟨S, k, t⟩ =
      runCalls false [.replace_host x, .set_fragment f] ⟨S, k, t⟩ ∧
    runCalls false [.set_fragment f, .mask_password] ⟨S, k, t⟩ =
      runCalls false [.mask_password, .set_fragment f] ⟨S, k, t⟩ ∧
    runCalls false [.replace_host x, .mask_password] ⟨S, k, t⟩ =
      runCalls false [.mask_password, .replace_host x] ⟨S, k, t⟩ := by
  obtain ⟨a, ha, e, -⟩ := C66_components S k t h
  rw [← e]
  have hS : a.spec = S := congrArg Val.spec e
  subst hS
  refine ⟨?_, ?_, ?_⟩
  · by_cases hk : a.kind = .absolute
    · rw [two_calls ha (b := a) (d := a.withHost x) (c := .set_fragment f) (c' := .replace_host x) hf
        (by intro b hb; simpa [Effect, hk] using hb) (by intro e; cases e) (effect_host hx),
        two_calls ha (c := .replace_host x) (c' := .set_fragment f) (by intro e; cases e) (effect_host hx) hf
        (by intro b hb; simp only [Effect] at hb; rw [if_pos (show (a.withHost x).kind = _ from hk)] at hb; exact hb)]
    · rw [two_calls ha (c := .set_fragment f) (c' := .replace_host x) hf (effect_fragment hk) (by intro e; cases e)
        (effect_host (a := { a with fragment := f }) hx),
        two_calls ha (c := .replace_host x) (c' := .set_fragment f) (by intro e; cases e) (effect_host hx) hf
        (effect_fragment (a := a.withHost x) hk)]
      rfl
  · by_cases hk : a.kind = .absolute
    · rw [two_calls ha (b := a) (c := .set_fragment f) (c' := .mask_password) hf
        (by intro b hb; simpa [Effect, hk] using hb) trivial (fun _ => effect_mask),
        two_calls ha (c := .mask_password) (c' := .set_fragment f) trivial (fun _ => effect_mask) hf
        (by intro b hb; simp only [Effect] at hb; rw [if_pos (show (a.mapUserinfo _).kind = _ from hk)] at hb; exact hb)]
    · rw [two_calls ha (c := .set_fragment f) (c' := .mask_password) hf (effect_fragment hk) trivial
        (fun _ => effect_mask),
        two_calls ha (c := .mask_password) (c' := .set_fragment f) trivial (fun _ => effect_mask) hf
        (effect_fragment (a := a.mapUserinfo _) hk)]
      rfl
  · rw [two_calls ha (c := .replace_host x) (c' := .mask_password) (by intro e; cases e) (effect_host hx) trivial
      (fun _ => effect_mask),
      two_calls ha (c := .mask_password) (c' := .replace_host x) trivial (fun _ => effect_mask) (by intro e; cases e)
      (effect_host (a := a.mapUserinfo _) hx)]
    congr 2
    simp only [Comps.mapUserinfo, Comps.withHost, Option.map_map]
    rfl

/-- A history through several types, on the components and on the text. -/
example : ∃ a b : Comps, a.Valid ∧ a.val = ⟨.iri, .iri, chars! "HTTP://u:pw@é/a/../%7e?q"⟩ ∧
    Runs true [.mask_password, .normalize, .set_fragment (some (chars! "é")), .encode_into_uri, .into_absolute] a b ∧
    b.val = ⟨.uri, .absolute, chars! "http://u:@%C3%A9/~?q"⟩ := by
  obtain ⟨a, a1, a2, -⟩ := C66_components .iri .iri (chars! "HTTP://u:pw@é/a/../%7e?q") (by decide +kernel)
  have hf : fragment .iri (chars! "é") := (C05_fragment _ _).1 (by decide +kernel)
  have next : ∀ {a : Comps} {v w : Val} (c : Call), a.Valid → a.val = v → Allowed true c a → v.step true c = some w →
      ∃ b, b.Valid ∧ b.val = w ∧ Effect c a b := by
    rintro a v w c h rfl hc e
    obtain ⟨b, b1, b2, b3, -⟩ := C66_step true a h c hc
    exact ⟨b, b1, Option.some.inj (b3.symm.trans e), b2⟩
  obtain ⟨b, b1, b2, b3⟩ := next (w := ⟨.iri, .iri, chars! "HTTP://u:@é/a/../%7e?q"⟩) .mask_password a1 a2 trivial
    (by decide +kernel)
  obtain ⟨c, c1, c2, c3⟩ := next (w := ⟨.iri, .iri, chars! "http://u:@é/~?q"⟩) .normalize b1 b2 trivial
    (by decide +kernel)
  have hc : Allowed true (.set_fragment (some (chars! "é"))) c := by
    have : c.spec = .iri := congrArg Val.spec c2
    rintro x ⟨⟩
    rw [this]; exact hf
  obtain ⟨d, d1, d2, d3⟩ := next (w := ⟨.iri, .iri, chars! "http://u:@é/~?q#é"⟩) _ c1 c2 hc (by decide +kernel)
  obtain ⟨e, e1, e2, e3⟩ := next (w := ⟨.uri, .iri, chars! "http://u:@%C3%A9/~?q#%C3%A9"⟩) .encode_into_uri d1 d2 trivial
    (by decide +kernel)
  obtain ⟨f, f1, f2, f3⟩ := next (w := ⟨.uri, .absolute, chars! "http://u:@%C3%A9/~?q"⟩) .into_absolute e1 e2 trivial
    (by decide +kernel)
  exact ⟨a, f, a1, a2, .cons _ _ _ _ _ trivial b3 b1 (.cons _ _ _ _ _ trivial c3 c1 (.cons _ _ _ _ _ hc d3 d1
    (.cons _ _ _ _ _ trivial e3 e1 (.cons _ _ _ _ _ trivial f3 f1 (.nil _))))), f2⟩

end Verif
