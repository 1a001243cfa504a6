import Verif.Props.Equivalence

/-!
# C48, the converse: the URI of an IRI determines its equivalence class

For IRIs without private-use characters (which can occur in queries only) having equivalent URIs is
the same as being equivalent.
-/

namespace Verif

open Rfc

/-- US-ASCII, or unreserved in IRIs. -/
def Plainish (c : Char) : Prop := c.toNat < 128 ∨ iunreserved .iri c = true

theorem tokens_step_map (pre : List Tok) {s : Str} (h : WF s) (hk : ∀ c ∈ s, Plainish c) :
    Closure (DecodeStep .iri) (pre ++ tokens s) (pre ++ mapToks (tokens s)) := by
  induction h generalizing pre with
  | nil => exact .refl _
  | @chr c r h1 _ _ ih =>
    have ih := fun pre => ih pre fun x hx => hk x (by simp [hx])
    rw [tokens_ch h1, mapToks_cons]
    by_cases hc : c.toNat < 128
    · have := ih (pre ++ [.ch c])
      simpa [mapTok, hc] using this
    · have hu : iunreserved .iri c = true := (hk c (by simp)).resolve_left hc
      have h2 := ih (pre ++ [.ch c])
      refine .trans (b := pre ++ .ch c :: mapToks (tokens r)) (by simpa using h2) ?_
      refine .symm (.step ?_)
      simp only [mapTok, hc, if_false, ← List.append_assoc]
      exact .mk pre _ c hu
  | @pct a b r h1 h2 _ ih =>
    have := ih (pre ++ [.pct (hexVal a * 16 + hexVal b)]) fun x hx => hk x (by simp [hx])
    rw [tokens_pct h1 h2, mapToks_cons]
    simpa [mapTok] using this

theorem pctEquiv_map {s : Str} (h : WF s) (hk : ∀ c ∈ s, Plainish c) : PctEquiv .iri s (mapToUri s) := by
  unfold PctEquiv
  rw [tokens_mapToUri h]
  exact tokens_step_map [] h hk

theorem hostEquiv_map {s : Str} (h : WF s) (hk : ∀ c ∈ s, Plainish c) : HostEquiv .iri s (mapToUri s) :=
  closure_host (pctEquiv_map h hk)

theorem plainish_sub {c : Char} (h : sub_delims c = true) : Plainish c := by
  left
  simp only [sub_delims, Bool.or_eq_true, beq_iff_eq] at h
  rcases h with (((((((((h | h) | h) | h) | h) | h) | h) | h) | h) | h) | h <;> subst h <;> decide

theorem plainish_PC {p : Char → Bool} {s : Str} (h : PC p s) (hp : ∀ c ∈ s, p c = true → Plainish c) :
    ∀ c ∈ s, Plainish c := by
  intro c hc
  rcases h.mem hc with rfl | hx | hx
  · left; decide
  · left; exact isHex_lt hx
  · exact hp c hc hx

theorem plainish_pchar {c : Char} (h : pcharC .iri c = true) : Plainish c := by
  simp only [pcharC, Bool.or_eq_true, beq_iff_eq] at h
  rcases h with ((h | h) | rfl) | rfl
  · exact .inr h
  · exact plainish_sub h
  · left; decide
  · left; decide

theorem plainish_host {s : Str} (h : host .iri s) : ∀ c ∈ s, Plainish c := by
  rw [host, Abnf.alt, Abnf.alt] at h
  have reg : reg_name .iri s → ∀ c ∈ s, Plainish c := by
    intro h
    rw [reg_name_iff] at h
    refine plainish_PC h fun c _ hc => ?_
    simp only [regnameC, Bool.or_eq_true] at hc
    rcases hc with hc | hc
    · exact .inr hc
    · exact plainish_sub hc
  rcases h with h | h | h
  · intro c hc; left; exact ip_literal_all_ascii h c hc
  · exact reg (ipv4_regname h)
  · exact reg h

theorem plainish_userinfo {s : Str} (h : userinfo .iri s) : ∀ c ∈ s, Plainish c := by
  rw [userinfo_iff] at h
  refine plainish_PC h fun c _ hc => ?_
  simp only [userinfoC, Bool.or_eq_true, beq_iff_eq] at hc
  rcases hc with (hc | hc) | rfl
  · exact .inr hc
  · exact plainish_sub hc
  · left; decide

theorem plainish_path {s : Str} (h : PC (pcharSlashC .iri) s) : ∀ c ∈ s, Plainish c := by
  refine plainish_PC h fun c _ hc => ?_
  simp only [pcharSlashC, Bool.or_eq_true, beq_iff_eq] at hc
  rcases hc with hc | rfl
  · exact plainish_pchar hc
  · left; decide

theorem plainish_fragment {s : Str} (h : fragment .iri s) : ∀ c ∈ s, Plainish c := by
  rw [fragment_iff] at h
  refine plainish_PC h fun c _ hc => ?_
  simp only [fragC, Bool.or_eq_true, beq_iff_eq] at hc
  rcases hc with (hc | rfl) | rfl
  · exact plainish_pchar hc
  · left; decide
  · left; decide

theorem plainish_query {s : Str} (h : query .iri s) (hp : ∀ c ∈ s, iprivate c = false) :
    ∀ c ∈ s, Plainish c := by
  rw [query_iff] at h
  refine plainish_PC h fun c hm hc => ?_
  simp only [queryC, Bool.or_eq_true, beq_iff_eq] at hc
  rcases hc with ((hc | rfl) | rfl) | hc
  · exact plainish_pchar hc
  · left; decide
  · left; decide
  · rw [show queryPrivate .iri c = iprivate c from rfl, hp c hm] at hc; cases hc

theorem authEquiv_map {x : Str} (h : authority .iri x) : AuthTextEquiv .iri x (mapToUri x) := by
  obtain ⟨a, ha, rfl⟩ := (authority_auth_parts .iri x).1 h
  have hv := mapAuth_valid ha
  refine ⟨a, mapAuth a, ⟨ha, rfl⟩, ⟨⟨fun x hx => userinfo_mono (hv.userinfo x hx), host_mono hv.host, hv.port⟩,
    mapAuth_recompose ha⟩, ?_, ?_, rfl⟩
  · cases hu : a.userinfo with
    | none => simp [mapAuth, hu, OptRel]
    | some u =>
      have := ha.userinfo u hu
      simpa [mapAuth, hu, OptRel] using pctEquiv_map ((userinfo_iff _ _).1 this).wf (plainish_userinfo this)
  · exact hostEquiv_map (host_wf ha.host) (plainish_host ha.host)

/-- An IRI without private-use characters is equivalent to its URI. -/
theorem equivalent_map {p : Parts} (h : p.Valid .iri) (hp : ∀ q, p.query = some q → ∀ c ∈ q, iprivate c = false) :
    Equivalent .iri p (mapParts p) := by
  refine ⟨rfl, ?_, ?_, ?_, ?_⟩
  · cases ha : p.authority with
    | none => simp [mapParts, ha, OptRel]
    | some a => simpa [mapParts, ha, OptRel] using authEquiv_map (h.authority a ha)
  · show PctEquiv .iri _ (remove_dot_segments (undot (mapToUri p.path)))
    rw [rds_map h.pathPC.wf]
    have hr := rds_PC (by decide) h.pathPC
    exact pctEquiv_map hr.wf (plainish_path hr)
  · cases hq : p.query with
    | none => simp [mapParts, hq, OptRel]
    | some q =>
      simpa [mapParts, hq, OptRel] using pctEquiv_map (query_wf h hq) (plainish_query (h.query q hq) (hp q hq))
  · cases hf : p.fragment with
    | none => simp [mapParts, hf, OptRel]
    | some f =>
      simpa [mapParts, hf, OptRel] using pctEquiv_map (fragment_wf h hf) (plainish_fragment (h.fragment f hf))

theorem decodeStep_mono {a b : List Tok} (h : DecodeStep .uri a b) : DecodeStep .iri a b := by
  obtain ⟨x, y, c, hc⟩ := h
  exact .mk x y c (iunreserved_mono hc)

theorem pctEquiv_mono {s t : Str} (h : PctEquiv .uri s t) : PctEquiv .iri s t :=
  Closure.map (f := id) (fun _ _ => decodeStep_mono) h

theorem hostEquiv_mono {s t : Str} (h : HostEquiv .uri s t) : HostEquiv .iri s t := by
  refine Closure.map (f := id) (fun a b hs => ?_) h
  cases hs with
  | decode hd => exact .decode (decodeStep_mono hd)
  | case x y c hc => exact .case x y c hc

theorem optRel_mono {R Q : Str → Str → Prop} (h : ∀ a b, R a b → Q a b) {o o' : Option Str}
    (hr : OptRel R o o') : OptRel Q o o' := by
  cases o <;> cases o' <;> simp [OptRel] at hr ⊢
  exact h _ _ hr

theorem authValid_mono {a : AuthParts} (h : a.Valid .uri) : a.Valid .iri :=
  ⟨fun x hx => userinfo_mono (h.userinfo x hx), host_mono h.host, h.port⟩

theorem equivalent_mono {p q : Parts} (h : Equivalent .uri p q) : Equivalent .iri p q := by
  refine ⟨h.scheme, optRel_mono (fun x y => ?_) h.authority, pctEquiv_mono h.path,
    optRel_mono (fun _ _ => pctEquiv_mono) h.query, optRel_mono (fun _ _ => pctEquiv_mono) h.fragment⟩
  rintro ⟨a, b, ⟨h1, h2⟩, ⟨h3, h4⟩, h5⟩
  exact ⟨a, b, ⟨authValid_mono h1, h2⟩, ⟨authValid_mono h3, h4⟩,
    optRel_mono (fun _ _ => pctEquiv_mono) h5.userinfo, hostEquiv_mono h5.host, h5.port⟩

/-- **C48**, both directions: two IRIs without private-use characters have the same normal form if and
only if their URIs have the same normal form. -/
theorem C48_equivalence_iff (s s' : Str) (h : validate_uri .iri s = some true)
    (h' : validate_uri .iri s' = some true) (hp : ∀ c ∈ s, iprivate c = false)
    (hp' : ∀ c ∈ s', iprivate c = false) :
    ∃ u u', encode_to_uri s = some u ∧ encode_to_uri s' = some u' ∧
      (normalize .iri s = normalize .iri s' ↔ normalize .uri u = normalize .uri u') := by
  obtain ⟨u, u', h1, h2, h3⟩ : ∃ u u', encode_to_uri s = some u ∧ encode_to_uri s' = some u' ∧
      (normalize .iri s = normalize .iri s' → normalize .uri u = normalize .uri u') := by
    obtain ⟨u, t, e1, _, e2, e3⟩ := C48_normalize_commutes .iri s h
    obtain ⟨u', t', e1', _, e2', e3'⟩ := C48_normalize_commutes .iri s' h'
    refine ⟨u, u', e1, e1', fun he => ?_⟩
    rw [e2, e2'] at he
    cases he
    rw [e3, e3']
  refine ⟨u, u', h1, h2, h3, fun he => ?_⟩
  obtain ⟨p, hv, hs, rfl⟩ := iri_parts' h
  obtain ⟨q, hv', hs', rfl⟩ := iri_parts' h'
  rw [(C24_variants_agree _).1, ← mapParts_recompose hv] at h1
  rw [(C24_variants_agree _).1, ← mapParts_recompose hv'] at h2
  cases h1; cases h2
  have mv := mapParts_valid hv
  have mv' := mapParts_valid hv'
  rw [normalize_eq mv hs, normalize_eq mv' hs', Option.some.injEq] at he
  have he := recompose_inj (normParts_valid (op := .default) mv hs).delim
    (normParts_valid (op := .default) mv' hs').delim he
  have e := equivalent_mono ((equivalent_iff mv mv').2 he)
  have pq : ∀ p : Parts, (∀ c ∈ p.recompose, iprivate c = false) →
      ∀ q, p.query = some q → ∀ c ∈ q, iprivate c = false := by
    intro p hp q hq c hc
    exact hp c (by simp [Parts.recompose, hq, optSuf, hc])
  rw [normalize_eq hv hs, normalize_eq hv' hs', (equivalent_iff hv mv.mono).1 (equivalent_map hv (pq p hp)),
    (equivalent_iff hv' mv'.mono).1 (equivalent_map hv' (pq q hp')), (equivalent_iff mv.mono mv'.mono).1 e]

/-- Private-use characters must be excluded: they are not unreserved, so normalization does not decode
them, but encoding to a URI identifies them with their triplets. -/
theorem C48_private_use : ∃ s s' u, validate_uri .iri s = some true ∧ validate_uri .iri s' = some true ∧
    encode_to_uri s = some u ∧ encode_to_uri s' = some u ∧ normalize .iri s ≠ normalize .iri s' :=
  ⟨chars! "a:?\uE000", chars! "a:?%EE%80%80", chars! "a:?%EE%80%80", by decide +kernel, by decide +kernel,
    by decide +kernel, by decide +kernel, by decide +kernel⟩

/-- The hypotheses are met, on both sides of the equivalence. -/
example : validate_uri .iri (chars! "http://é.example/é") = some true ∧
    (∀ c ∈ chars! "http://é.example/é", iprivate c = false) ∧
    normalize .iri (chars! "http://é.example/é") = normalize .iri (chars! "http://%c3%a9.example/./%C3%A9") ∧
    encode_to_uri (chars! "http://é.example/é") = some (chars! "http://%C3%A9.example/%C3%A9") := by
  decide +kernel

end Verif
