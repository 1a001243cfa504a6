import Verif.Spec.Program
import Verif.Props.History
import Verif.Props.PasswordExact
import Verif.Props.TypedAccess
import Verif.Props.Construct
import Verif.Props.Build
import Verif.Props.Template
import Verif.Props.Convert

/-!
# C71: safe programs
-/

namespace Verif.Prog

open Rfc

/-! ### The validators decide membership -/

theorem iri_member {S : Spec} {k : IriKind} {s : Str} :
    Member S (.iriLike k) s ↔ k.validate S s = some true := by
  cases k with
  | reference => exact (C02_iri_reference_validation S s).1.symm
  | iri => exact (C01_iri_validation S s).1.symm
  | relative => exact (C03_relative_ref_validation S s).1.symm
  | absolute => exact (C04_absolute_validation_partial S s).1.symm

theorem iri_validate_some (S : Spec) (k : IriKind) (s : Str) : ∃ b, k.validate S s = some b := by
  cases k with
  | reference =>
    by_cases h : IRI_reference S s
    · exact ⟨true, (C02_iri_reference_validation S s).1.2 h⟩
    · exact ⟨false, (C02_iri_reference_validation S s).2.2 h⟩
  | iri =>
    by_cases h : IRI S s
    · exact ⟨true, (C01_iri_validation S s).1.2 h⟩
    · exact ⟨false, (C01_iri_validation S s).2.2 h⟩
  | relative =>
    by_cases h : relative_ref S s
    · exact ⟨true, (C03_relative_ref_validation S s).1.2 h⟩
    · exact ⟨false, (C03_relative_ref_validation S s).2.2 h⟩
  | absolute =>
    by_cases h : absolute_IRI S s ∨ ∃ t, s = t ++ ['#'] ∧ absolute_IRI S t
    · exact ⟨true, (C04_absolute_validation_partial S s).1.2 h⟩
    · exact ⟨false, (C04_absolute_validation_partial S s).2.2 h⟩

theorem member_iff {S : Spec} {k : TypeKind} {s : Str} : Member S k s ↔ k.validate S s = some (.ok ()) := by
  cases k with
  | iriLike k =>
    rw [iri_member]
    simp only [TypeKind.validate]
    obtain ⟨b, h⟩ := iri_validate_some S k s
    rw [h]
    cases b <;> simp
  | query =>
    show query S s ↔ _
    rw [← C05_query]
    simp only [TypeKind.validate]
    cases validate_query S s <;> simp
  | fragment =>
    show fragment S s ↔ _
    rw [← C05_fragment]
    simp only [TypeKind.validate]
    cases validate_fragment S s <;> simp
  | template =>
    show Rfc6570.acceptedTemplate s ↔ _
    rw [← C31_accepts]
    simp only [TypeKind.validate]
    cases h : Tpl.validate_template_str s with
    | ok x => simp [template_result]
    | err e n => simp [template_result]
    | panic => simp [template_result]

theorem validate_panic (S : Spec) (k : TypeKind) (s : Str) :
    k.validate S s = none ↔ k = .template ∧ TemplatePanics s := by
  cases k with
  | iriLike k =>
    obtain ⟨b, h⟩ := iri_validate_some S k s
    simp [TypeKind.validate, h]
  | query => simp [TypeKind.validate]
  | fragment => simp [TypeKind.validate]
  | template =>
    rw [show TemplatePanics s ↔ _ from (C31_panics s).symm]
    simp only [TypeKind.validate]
    cases h : Tpl.validate_template_str s with
    | ok x => simp [template_result]
    | err e n => simp [template_result]
    | panic => simp [template_result]

/-- The result of a call is sound. -/
def OkOut (o : Option (List TVal)) : Prop := ∃ vs, o = some vs ∧ Sound vs

theorem okOut_nil : OkOut (some []) := ⟨[], rfl, by intro v hv; cases hv⟩

theorem okOut_one {S : Spec} {k : TypeKind} {s : Str} : OkOut (some [⟨S, k, s⟩]) ↔ Member S k s := by
  constructor
  · rintro ⟨vs, e, h⟩; cases e; exact h ⟨S, k, s⟩ (by simp)
  · intro h
    refine ⟨_, rfl, fun v hv => ?_⟩
    rw [List.mem_singleton] at hv; subst hv; exact h

theorem not_okOut_none : ¬ OkOut none := by rintro ⟨vs, e, _⟩; cases e

theorem justified_eq {debug : Bool} {S : Spec} {k : TypeKind} {s : Str} (h : Member S k s) :
    justified debug S k s = some [⟨S, k, s⟩] := by
  unfold justified; rw [member_iff.1 h]; simp

theorem justified_ok {debug : Bool} {S : Spec} {k : TypeKind} {s : Str} (h : Member S k s) :
    OkOut (justified debug S k s) := by
  rw [justified_eq h]; exact okOut_one.2 h

theorem sound_append {a b : Store} (ha : Sound a) (hb : Sound b) : Sound (a ++ b) := by
  intro v hv
  rcases List.mem_append.1 hv with h | h
  · exact ha v h
  · exact hb v h

theorem accepted_ok {S : Spec} {k : TypeKind} {o : Option Str} (h : ∀ x, o = some x → Member S k x) :
    Sound (accepted S k o) := by
  cases o with
  | none => intro v hv; cases hv
  | some x => intro v hv; rw [accepted, List.mem_singleton] at hv; subst hv; exact h x rfl

theorem getIri_member {st : Store} {i : Nat} {v : Val} (hs : Sound st) (h : getIri st i = some v) :
    Member v.spec (.iriLike v.kind) v.text := by
  unfold getIri at h
  split at h
  · rename_i S k s e
    cases h
    exact hs ⟨S, .iriLike k, s⟩ (List.mem_of_getElem? e)
  · cases h

theorem getPiece_member {st : Store} {i : Nat} {v : TVal} (hs : Sound st) (h : getPiece st i = some v) :
    Member v.spec v.kind v.text ∧ (v.kind = .query ∨ v.kind = .fragment) := by
  unfold getPiece at h
  split at h
  · rename_i S s e; cases h; exact ⟨hs ⟨S, .query, s⟩ (List.mem_of_getElem? e), .inl rfl⟩
  · rename_i S s e; cases h; exact ⟨hs ⟨S, .fragment, s⟩ (List.mem_of_getElem? e), .inr rfl⟩
  · cases h

theorem getText_member {st : Store} {S : Spec} {k : TypeKind} {i : Nat} {s : Str} (hs : Sound st)
    (h : getText st S k i = some s) : Member S k s := by
  unfold getText at h
  split at h
  · rename_i v e
    split at h
    · rename_i hv
      cases h
      have := hs v (List.mem_of_getElem? e)
      rw [hv.1, hv.2] at this
      exact this
    · cases h
  · cases h

/-! ### Methods -/

/-- A call on a valid value returns a valid value exactly if it is not one of the bad ones. -/
theorem step_iff (debug : Bool) (v : Val) (h : v.Valid) (c : Call) (ha : c.ArgsOk v.spec) :
    (∃ w, v.step debug c = some w ∧ w.Valid) ↔ ¬ BadCall debug v c := by
  obtain ⟨S, k, s⟩ := v
  obtain ⟨p, hv, hf, hp⟩ := (kind_validate_iff S k s).1 h
  have hfrag : RiReferenceStr.fragment_str s = p.fragment := by
    rw [← hp]; exact hv.delim.extract_fragment_eq
  by_cases hx : c.Excluded debug ⟨S, k, s⟩
  · have host : ∀ new, debug = true → k = .iri → (∃ c r, RiReferenceStr.fragment_str s = some (c :: r)) →
        Verif.replace_host debug S k s new = none ∧ Verif.replace_host_reg_name debug S k s new = none := by
      rintro new rfl rfl ⟨c, r, e⟩
      exact C27_debug_exact S s h c r e new
    cases c with
    | replace_host new =>
      obtain ⟨e1, e2, e3⟩ := hx
      refine ⟨?_, fun hb => absurd ⟨e1, e2, p, ⟨hv, hp⟩, by rw [← hfrag]; exact e3⟩ hb⟩
      rintro ⟨w, hw, _⟩
      simp only [Val.step, (host new e1 e2 e3).1] at hw
      cases hw
    | replace_host_reg_name new =>
      obtain ⟨e1, e2, e3⟩ := hx
      refine ⟨?_, fun hb => absurd ⟨e1, e2, p, ⟨hv, hp⟩, by rw [← hfrag]; exact e3⟩ hb⟩
      rintro ⟨w, hw, _⟩
      simp only [Val.step, (host new e1 e2 e3).2] at hw
      cases hw
    | remove_password_inline =>
      obtain ⟨p, a, u, hp, hav, hpa, hu, hc⟩ := hx
      have key := C26_no_colon_valid debug S k s h p hp a hpa hav u hu hc
      have e1 : (∃ w, (⟨S, k, s⟩ : Val).step debug .remove_password_inline = some w ∧ w.Valid) ↔
          ∃ t, Verif.remove_password_inline debug S k s = some t ∧ k.validate S t = some true := by
        simp only [Val.step, Option.map_eq_some_iff]
        constructor
        · rintro ⟨w, ⟨t, e, rfl⟩, hw⟩; exact ⟨t, e, hw⟩
        · rintro ⟨t, e, hw⟩; exact ⟨_, ⟨t, e, rfl⟩, hw⟩
      rw [e1, key]
      refine not_congr ⟨fun hb => ⟨p, a, u, hp, hav, hpa, hu, hc, hb⟩, ?_⟩
      rintro ⟨p', a', u', hp', hav', hpa', hu', _, hb⟩
      have ep := recompose_inj hp'.1.delim hp.1.delim (hp'.2.trans hp.2.symm)
      rw [ep, hpa] at hpa'
      have ea := auth_recompose_inj hav' hav (Option.some.inj hpa').symm
      rw [ea] at hb hu'
      rw [hu] at hu'
      cases hu'
      exact hb
    | _ => exact absurd hx id
  · refine ⟨fun _ => ?_, fun _ => Val.step_ok debug _ h c ha hx⟩
    intro hb
    apply hx
    cases c with
    | replace_host new =>
      obtain ⟨e1, e2, q, hq, c, r, e3⟩ := hb
      refine ⟨e1, e2, c, r, ?_⟩
      show RiReferenceStr.fragment_str s = _
      rw [← e3, ← show q.recompose = s from hq.2]; exact hq.1.delim.extract_fragment_eq
    | replace_host_reg_name new =>
      obtain ⟨e1, e2, q, hq, c, r, e3⟩ := hb
      refine ⟨e1, e2, c, r, ?_⟩
      show RiReferenceStr.fragment_str s = _
      rw [← e3, ← show q.recompose = s from hq.2]; exact hq.1.delim.extract_fragment_eq
    | remove_password_inline =>
      obtain ⟨p, a, u, hp, hav, hpa, hu, hc, _⟩ := hb
      exact ⟨p, a, u, hp, hav, hpa, hu, hc⟩
    | _ => exact hb

theorem callOn_iff (debug : Bool) (v : Val) (h : Member v.spec (.iriLike v.kind) v.text) (c : Call)
    (ha : c.ArgsOk v.spec) : OkOut (callOn debug v.spec v.kind v.text c) ↔ ¬ BadCall debug v c := by
  rw [← step_iff debug v (iri_member.1 h) c ha]
  unfold callOn
  constructor
  · rintro ⟨vs, e, hs⟩
    rw [Option.map_eq_some_iff] at e
    obtain ⟨w, hw, rfl⟩ := e
    exact ⟨w, hw, iri_member.1 (hs ⟨w.spec, .iriLike w.kind, w.text⟩ (by simp))⟩
  · rintro ⟨w, hw, hs⟩
    refine ⟨_, by rw [hw]; rfl, ?_⟩
    intro x hx
    rw [List.mem_singleton] at hx; subst hx
    exact iri_member.2 hs

/-! ### Constructors -/

theorem new_iff (S : Spec) (k : TypeKind) (s : Str) :
    OkOut ((try_from_str S k s).map (constructed S k)) ↔ ¬ (k = .template ∧ TemplatePanics s) := by
  rw [← validate_panic S]
  unfold try_from_str
  cases h : k.validate S s with
  | none => simpa using not_okOut_none
  | some r =>
    simp only [Option.map_some, reduceCtorEq, not_false_eq_true, iff_true]
    cases r with
    | ok x => cases x; exact okOut_one.2 (member_iff.2 h)
    | err e => exact okOut_nil

theorem newBytes_iff (S : Spec) (k : TypeKind) (bytes : List Nat) :
    OkOut ((try_from_bytes S k bytes).map (constructed S k)) ↔
      ¬ (k = .template ∧ ∃ s, bytes = utf8s s ∧ TemplatePanics s) := by
  unfold try_from_bytes
  cases hu : from_utf8 bytes with
  | none =>
    have hn : ∀ s, bytes ≠ utf8s s := fun s h => by rw [(from_utf8_iff _ _).2 h.symm] at hu; cases hu
    refine ⟨fun _ => ?_, fun _ => okOut_nil⟩
    rintro ⟨_, s, e, _⟩
    exact hn s e
  | some s =>
    have := new_iff S k s
    unfold try_from_str at this
    simp only
    rw [this]
    refine not_congr ⟨?_, ?_⟩
    · rintro ⟨e, h⟩; exact ⟨e, s, ((from_utf8_iff _ _).1 hu).symm, h⟩
    · rintro ⟨e, s', e', h⟩
      rw [(from_utf8_iff _ _).2 e'.symm] at hu
      cases hu
      exact ⟨e, h⟩

/-! ### Builders -/

theorem build_ok (debug : Bool) (S : Spec) (k : IriKind) (b : Builder) (hb : ¬ BadBuilder S b) :
    OkOut ((b.build S k).bind fun r =>
      match r with
      | none => some []
      | some built => (built.display S).bind (justified debug S (.iriLike k))) := by
  have hp : path S b.path := Classical.byContradiction fun h => hb (.inl h)
  have fin : ∀ {B : Built} {s : Str}, b.build S k = some (some B) → B.display S = some s →
      BuildSpec.grammar S k s → OkOut ((b.build S k).bind fun r =>
      match r with
      | none => some []
      | some built => (built.display S).bind (justified debug S (.iriLike k))) := by
    intro B s h1 h2 h3
    rw [h1]
    simp only [Option.bind_some, h2]
    apply justified_ok
    cases k with
    | absolute => exact .inl h3
    | _ => exact h3
  have err : b.build S k = some none → OkOut ((b.build S k).bind fun r =>
      match r with
      | none => some []
      | some built => (built.display S).bind (justified debug S (.iriLike k))) := by
    intro h; rw [h]; exact okOut_nil
  cases hn : b.normalize with
  | false =>
    obtain ⟨h1, h2⟩ := C28_build_raw S k b hn
    by_cases ha : BuildSpec.Acceptable S k b
    · obtain ⟨B, h3, _⟩ := h1 ha
      obtain ⟨s, h4, h5, _⟩ := C28_output_valid_partial S k b hn hp B h3
      exact fin h3 h4 h5
    · exact err (h2 ha)
  | true =>
    by_cases hr : RootPathCase b
    · obtain ⟨h1, h2⟩ := C30_root_exact S k b hn hp hr
      by_cases ha : BuildSpec.Acceptable S k b
      · obtain ⟨B, q, h3, h4, _, _, _, _, _, h5, _⟩ := h1 ha
        refine fin h3 h4 (h5 fun r e => hb (.inr ⟨hn, hr.1, hr.2.1, ⟨r, e⟩, hr.2.2.2.1⟩)).2
      · exact err (h2 ha)
    · obtain ⟨h1, h2⟩ := C30_build_normalized_partial S k b hn hp hr
      by_cases ha : BuildSpec.Acceptable S k b
      · obtain ⟨B, q, h3, h4, _, h5, _⟩ := h1 ha
        exact fin h3 h4 h5
      · exact err (h2 ha)

theorem startBuilder_some (st : Store) (hs : Sound st) (t : Option Nat) : ∃ b, startBuilder st t = some b := by
  cases t with
  | none => exact ⟨_, rfl⟩
  | some i =>
    simp only [startBuilder]
    split
    · rename_i v hv
      obtain ⟨p, hp, _, e⟩ := (kind_validate_iff _ _ _).1 (iri_member.1 (getIri_member hs hv))
      obtain ⟨b, h, _⟩ := builder_from_iri hp
      rw [e] at h
      exact ⟨b, h⟩
    · exact ⟨_, rfl⟩

/-! ### Typed accessors -/

theorem reference_of {S : Spec} {k : IriKind} {s : Str} (h : Member S (.iriLike k) s) :
    validate_uri_reference S s = some true := by
  obtain ⟨p, hp, _, rfl⟩ := (kind_validate_iff _ _ _).1 (iri_member.1 h)
  exact validate_reference_of_parts hp

theorem query_ok (debug : Bool) {S : Spec} {k : IriKind} {s : Str} (h : Member S (.iriLike k) s) :
    OkOut ((RiReferenceStr.query debug S s).map (accepted S .query)) ∧
    OkOut ((RiReferenceStr.fragment debug S s).map (accepted S .fragment)) := by
  obtain ⟨q, f, h1, h2, _, _, h3, h4⟩ := C53_typed_accessors debug S s (reference_of h)
  rw [h1, h2]
  exact ⟨⟨_, rfl, accepted_ok fun x e => (C05_query S x).1 (h3 x e)⟩,
    ⟨_, rfl, accepted_ok fun x e => (C05_fragment S x).1 (h4 x e)⟩⟩

theorem mem_query {S : Spec} {t : Str} (h : absolute_IRI S t) (q : Option Str)
    (hq : RiReferenceStr.query_str (t ++ ['#']) = some q) : '?' ∈ t ↔ q ≠ none := by
  obtain ⟨p, hv, hs, hf, rfl⟩ := (absolute_parts S t).1 h
  have e : p.recompose ++ ['#'] = Parts.recompose { p with fragment := some [] } := by
    obtain ⟨a, b, c, d, f⟩ := p
    simp only at hf
    subst hf
    simp [Parts.recompose, optSuf]
  have hv' : ({ p with fragment := some [] } : Parts).Valid S :=
    hv.setFragment (by intro x hx; cases hx; exact (C05_fragment S []).1 (by cases S <;> decide))
  rw [e, show RiReferenceStr.query_str _ = _ from hv'.delim.extract_query_eq] at hq
  simp only [Option.some.injEq] at hq
  subst hq
  constructor
  · intro hm hn
    have d := hv.delim
    simp only [Parts.recompose, List.mem_append, hn, hf, optSuf, List.not_mem_nil, or_false] at hm
    rcases hm with hm | hm | hm
    · cases hsc : p.scheme with
      | none => rw [hsc] at hm; cases hm
      | some x =>
        rw [hsc] at hm
        simp only [optPre, List.mem_append, List.mem_singleton] at hm
        rcases hm with hm | hm
        · exact (d.scheme x hsc).2.2.2.1 hm
        · exact absurd hm (by decide)
    · cases hau : p.authority with
      | none => rw [hau] at hm; cases hm
      | some x =>
        rw [hau] at hm
        simp only [List.mem_append, List.mem_cons, List.not_mem_nil, or_false] at hm
        rcases hm with (hm | hm) | hm
        · exact absurd hm (by decide)
        · exact absurd hm (by decide)
        · exact (d.authority x hau).2.1 hm
    · exact d.path.1 hm
  · intro hn
    cases hq : p.query with
    | none => exact absurd hq hn
    | some x => simp [Parts.recompose, hq, optSuf]

theorem absolute_query_iff (debug : Bool) {S : Spec} {s : Str} (h : Member S (.iriLike .absolute) s) :
    OkOut ((RiAbsoluteStr.query debug S s).map (accepted S .query)) ↔
      ¬ ∃ t, s = t ++ ['#'] ∧ (debug = true ∨ '?' ∈ t) := by
  rcases h with h | ⟨t, rfl, h⟩
  · have hh := absolute_IRI_no_hash h
    obtain ⟨q, h1, _, h3⟩ := C53_absolute_partial debug S s ((C04_absolute_validation_partial S s).1.2 (.inl h)) hh
    rw [h1]
    refine ⟨fun _ => ?_, fun _ => ⟨_, rfl, accepted_ok fun x e => (C05_query S x).1 (h3 x e)⟩⟩
    rintro ⟨t, rfl, _⟩
    simp at hh
  · obtain ⟨q, h1, h2, h3, h4⟩ := C53_absolute_exact S t h
    have hm := mem_query h q h1
    have e : (∃ t', t ++ ['#'] = t' ++ ['#'] ∧ (debug = true ∨ '?' ∈ t')) ↔ (debug = true ∨ '?' ∈ t) := by
      constructor
      · rintro ⟨t', e, h⟩
        rw [List.append_cancel_right_eq] at e
        rw [e]; exact h
      · intro h; exact ⟨t, rfl, h⟩
    rw [e, hm]
    cases debug with
    | true =>
      rw [h2]
      simpa using not_okOut_none
    | false =>
      cases q with
      | none =>
        rw [h3 rfl]
        simp only [Bool.false_eq_true, ne_eq, not_true_eq_false, or_self, not_false_eq_true, iff_true]
        exact okOut_one.2 ((C05_query S []).1 (by cases S <;> decide))
      | some x =>
        rw [(h4 x rfl).1]
        simp only [Bool.false_eq_true, ne_eq, reduceCtorEq, not_false_eq_true, or_true, not_true_eq_false, iff_false]
        intro hk
        have := okOut_one.1 hk
        have := (C05_query S _).2 this
        rw [(h4 x rfl).2] at this
        cases this

/-! ### The theorem -/

/-- A call on a sound state, other than a build, gives a sound state exactly if it is not bad. -/
theorem outputs_iff (debug : Bool) (st : Store) (hs : Sound st) (op : Op)
    (hb : ∀ S k t setters, op ≠ .build S k t setters) : OkOut (outputs debug st op) ↔ ¬ Bad debug st op := by
  have yes : ∀ {P : Prop} {o : Option (List TVal)}, OkOut o → ¬ P → (OkOut o ↔ ¬ P) :=
    fun h1 h2 => ⟨fun _ => h2, fun _ => h1⟩
  cases op with
  | new S k s =>
    simp only [outputs]
    rw [new_iff]
    cases k <;> simp [Bad]
  | newBytes S k bytes =>
    simp only [outputs]
    rw [newBytes_iff]
    cases k <;> simp [Bad]
  | queryFromPrefixed S s =>
    exact yes ⟨_, rfl, accepted_ok fun x e => ((C13_from_prefixed S s x).1.1 e).2⟩ id
  | fragmentFromPrefixed S s =>
    exact yes ⟨_, rfl, accepted_ok fun x e => ((C13_from_prefixed S s x).2.1 e).2⟩ id
  | call i c =>
    simp only [outputs, Bad]
    cases hv : getIri st i with
    | none => exact yes okOut_nil (by rintro ⟨v, e, _⟩; cases e)
    | some v =>
      simp only
      by_cases hc : hasOperand c = true
      · rw [if_pos hc]
        refine yes okOut_nil ?_
        rintro ⟨w, _, hw⟩
        cases c <;> first | exact hw | cases hc
      · rw [if_neg hc, callOn_iff debug v (getIri_member hs hv) c (by cases c <;> first | trivial | exact absurd rfl hc)]
        simp
  | setFragment i f =>
    refine yes ?_ id
    cases f with
    | none =>
      simp only [outputs]
      cases hv : getIri st i with
      | none => exact okOut_nil
      | some v => exact (callOn_iff debug v (getIri_member hs hv) _ (by intro x hx; cases hx)).2 id
    | some j =>
      simp only [outputs]
      cases hv : getIri st i with
      | none => exact okOut_nil
      | some v =>
        simp only
        cases hj : getText st v.spec .fragment j with
        | none => exact okOut_nil
        | some f =>
          refine (callOn_iff debug v (getIri_member hs hv) _ ?_).2 id
          intro x hx
          cases hx
          exact (C05_fragment _ _).2 (getText_member hs hj)
  | resolve mode i j =>
    refine yes ?_ id
    simp only [outputs]
    cases hv : getIri st i with
    | none => exact okOut_nil
    | some v =>
      simp only
      cases hj : getText st v.spec (.iriLike .absolute) j with
      | none => exact okOut_nil
      | some f =>
        exact (callOn_iff debug v (getIri_member hs hv) (.resolve_against mode f)
          (iri_member.1 (getText_member hs hj))).2 id
  | downcast i k =>
    refine yes ?_ id
    simp only [outputs]
    cases hv : getIri st i with
    | none => exact okOut_nil
    | some v => exact (new_iff v.spec (.iriLike k) v.text).2 (by simp)
  | splitFragment i =>
    refine yes ?_ id
    simp only [outputs]
    split
    · rename_i S s hv
      have hm := getIri_member hs hv
      obtain ⟨a, f, h1, _, _, _, h5, _, _, h8, _⟩ := C13_split_fragment S s (iri_member.1 hm)
      rw [h1]
      simp only
      rw [justified_eq (show Member S (.iriLike .absolute) a from .inl h5)]
      simp only [Option.bind_some]
      have ha : Sound [⟨S, .iriLike .absolute, a⟩] := by
        intro v hv; rw [List.mem_singleton] at hv; subst hv; exact .inl h5
      cases f with
      | none => exact ⟨_, rfl, by simpa [justifiedOpt] using ha⟩
      | some x =>
        have hx : Member S .fragment x := (C05_fragment S x).1 (h8 x rfl)
        simp only [justifiedOpt]
        rw [justified_eq hx]
        refine ⟨_, rfl, sound_append ha ?_⟩
        intro v hv; rw [List.mem_singleton] at hv; subst hv; exact hx
    · exact okOut_nil
  | toAbsolute i =>
    refine yes ?_ id
    simp only [outputs]
    split
    · rename_i S s hv
      have hm := getIri_member hs hv
      obtain ⟨a, f, _, _, h3, _, h5, _⟩ := C13_split_fragment S s (iri_member.1 hm)
      rw [h3]
      exact justified_ok (.inl h5)
    · exact okOut_nil
  | query i =>
    simp only [outputs, Bad]
    split
    · rename_i S s hv
      rw [absolute_query_iff debug (getIri_member hs hv), hv]
      refine not_congr ⟨?_, ?_⟩
      · rintro ⟨t, e, h⟩; exact ⟨_, t, rfl, rfl, e, h⟩
      · rintro ⟨v, t, e, _, e2, h⟩
        cases e
        exact ⟨t, e2, h⟩
    · rename_i v hk hv
      refine yes (query_ok debug (getIri_member hs hv)).1 ?_
      rintro ⟨w, t, e, e2, _⟩
      rw [hv] at e
      cases e
      obtain ⟨S, k, s⟩ := v
      simp only at e2
      subst e2
      exact hk S s rfl
    · rename_i hv
      refine yes okOut_nil ?_
      rintro ⟨w, t, e, _⟩
      rw [hv] at e
      cases e
  | fragment i =>
    refine yes ?_ id
    simp only [outputs]
    split
    · exact okOut_nil
    · rename_i v _ hv
      exact (query_ok debug (getIri_member hs hv)).2
    · exact okOut_nil
  | resolverBase i =>
    refine yes ?_ id
    simp only [outputs]
    split
    · rename_i S s hv
      have hm := getIri_member hs hv
      obtain ⟨r, h1, h2, _⟩ := C53_resolver debug S s (iri_member.1 hm)
      rw [h1]
      simp only [Option.bind_some, h2, Option.map_some]
      exact okOut_one.2 hm
    · exact okOut_nil
  | resolverQuery i =>
    refine yes ?_ id
    simp only [outputs]
    split
    · rename_i S s hv
      have hm := getIri_member hs hv
      obtain ⟨r, h1, _, p, hp, _, _, _, _, _, _, h2⟩ := C53_resolver debug S s (iri_member.1 hm)
      rw [h1]
      simp only [Option.bind_some, h2, Option.map_some]
      exact ⟨_, rfl, accepted_ok fun x e => hp.1.query x e⟩
    · exact okOut_nil
  | encodeToUri i =>
    refine yes ?_ id
    simp only [outputs]
    cases hv : getPiece st i with
    | none => exact okOut_nil
    | some v =>
      obtain ⟨S, k, s⟩ := v
      obtain ⟨hm, hk⟩ := getPiece_member hs hv
      rcases hk with hk | hk <;> simp only at hk <;> subst hk
      · obtain ⟨u, h1, _, h2, _⟩ := (C24_query_fragment S s).1 hm
        simp only [h1, Option.bind_some]
        exact justified_ok h2
      · obtain ⟨u, h1, _, h2, _⟩ := (C24_query_fragment S s).2 hm
        simp only [h1, Option.bind_some]
        exact justified_ok h2
  | tryIntoUri i =>
    refine yes ?_ id
    simp only [outputs]
    cases hv : getPiece st i with
    | none => exact okOut_nil
    | some v =>
      obtain ⟨S, k, s⟩ := v
      obtain ⟨hm, hk⟩ := getPiece_member hs hv
      simp only
      cases ha : as_uri s with
      | none => exact okOut_nil
      | some t =>
        obtain ⟨e1, e2⟩ := ((C24_ascii s).2.2 t).1 ha
        subst e1
        have e3 := ((C24_ascii t).1 e2).1
        rcases hk with hk | hk <;> simp only at hk <;> subst hk
        · obtain ⟨u, h1, _, h2, _⟩ := (C24_query_fragment S t).1 hm
          rw [e3] at h1
          cases h1
          exact justified_ok (k := .query) h2
        · obtain ⟨u, h1, _, h2, _⟩ := (C24_query_fragment S t).2 hm
          rw [e3] at h1
          cases h1
          exact justified_ok (k := .fragment) h2
  | intoIri i =>
    refine yes ?_ id
    simp only [outputs]
    cases hv : getPiece st i with
    | none => exact okOut_nil
    | some v =>
      obtain ⟨S, k, s⟩ := v
      obtain ⟨hm, hk⟩ := getPiece_member hs hv
      obtain ⟨_, _, _, _, h5, h6⟩ := C07_uri_is_iri s
      rcases hk with hk | hk <;> simp only at hk <;> subst hk
      · refine justified_ok (k := .query) ?_
        cases S with
        | iri => exact hm
        | uri => exact (C05_query .iri s).1 (h5 ((C05_query .uri s).2 hm))
      · refine justified_ok (k := .fragment) ?_
        cases S with
        | iri => exact hm
        | uri => exact (C05_fragment .iri s).1 (h6 ((C05_fragment .uri s).2 hm))
  | append i j =>
    refine yes ?_ id
    simp only [outputs]
    split
    · rename_i a b ha hb
      refine justified_ok (k := .template) ?_
      exact (C31_accepts _).1 (C31_append a b ((C31_accepts a).2 (getText_member hs ha))
        ((C31_accepts b).2 (getText_member hs hb)))
    · exact okOut_nil
  | build S k t setters => exact absurd rfl (hb S k t setters)

theorem outputs_ok (debug : Bool) (st : Store) (hs : Sound st) (op : Op) (h : ¬ Bad debug st op) :
    OkOut (outputs debug st op) := by
  cases op with
  | build S k t setters =>
    obtain ⟨b, hb⟩ := startBuilder_some st hs t
    simp only [outputs, hb, Option.bind_some]
    exact build_ok debug S k _ fun hbad => h ⟨b, hb, hbad⟩
  | _ => exact (outputs_iff debug st hs _ (by intros; simp)).2 h

/-- **C71**: in every program of safe calls — any number of values of the crate's types, made from any
texts, copied, converted, split, modified and combined in any order — no call panics, and every value ever
made belongs to the language of its type; in release and debug builds.  Missing: the calls of
`Bad`, which are defects (`C71_exact_partial`, `C71_refuted`). -/
theorem _root_.Verif.C71_programs_partial (debug : Bool) (ops : List Op) (st : Store) (hs : Sound st) (hg : Good debug ops st) :
    ∃ st', run debug ops st = some st' ∧ Sound st' := by
  induction ops generalizing st with
  | nil => exact ⟨st, rfl, hs⟩
  | cons op ops ih =>
    cases hg with
    | cons _ _ _ hb hn =>
      obtain ⟨vs, e, hv⟩ := outputs_ok debug st hs op hb
      have e2 : step debug st op = some (st ++ vs) := by unfold step; rw [e]; rfl
      obtain ⟨st', e3, h3⟩ := ih (st ++ vs) (sound_append hs hv) (hn _ e2)
      exact ⟨st', by unfold run; rw [e2]; exact e3, h3⟩

/-- **C71**, exactly which calls are bad: on a sound state, a call (other than a build) returns without
panic and leaves the state sound if and only if it is not one of the listed ones; so the list is complete
and nothing in it could be dropped. -/
theorem _root_.Verif.C71_exact_partial (debug : Bool) (st : Store) (hs : Sound st) (op : Op)
    (hb : ∀ S k t setters, op ≠ .build S k t setters) :
    (∃ st', step debug st op = some st' ∧ Sound st') ↔ ¬ Bad debug st op := by
  rw [← outputs_iff debug st hs op hb]
  unfold step
  constructor
  · rintro ⟨st', e, h⟩
    rw [Option.map_eq_some_iff] at e
    obtain ⟨vs, e, rfl⟩ := e
    exact ⟨vs, e, fun v hv => h v (by simp [hv])⟩
  · rintro ⟨vs, e, h⟩
    exact ⟨_, by rw [e]; rfl, sound_append hs h⟩

/-- The unrestricted claim is false: three programs of safe calls that end, in a release build, with an
invalid value. -/
theorem _root_.Verif.C71_refuted :
    run false [.new .uri (.iriLike .iri) (chars! "http://%41@h/"), .call 0 .remove_password_inline] [] =
      some [⟨.uri, .iriLike .iri, chars! "http://%41@h/"⟩, ⟨.uri, .iriLike .iri, chars! "http://%4@h/"⟩] ∧
    run false [.new .uri (.iriLike .absolute) (chars! "s:?q#"), .query 0] [] =
      some [⟨.uri, .iriLike .absolute, chars! "s:?q#"⟩, ⟨.uri, .query, chars! "q#"⟩] ∧
    run false [.build .uri .iri none [.scheme ['s'], .path (chars! "a b")]] [] =
      some [⟨.uri, .iriLike .iri, chars! "s:a b"⟩] ∧
    ¬ Member .uri (.iriLike .iri) (chars! "http://%4@h/") ∧ ¬ Member .uri .query (chars! "q#") ∧
    ¬ Member .uri (.iriLike .iri) (chars! "s:a b") := by
  refine ⟨by decide +kernel, by decide +kernel, by decide +kernel, ?_, ?_, ?_⟩ <;>
  · rw [member_iff]; decide +kernel

/-- A program that uses most of the calls. -/
def exampleProgram : List Op :=
  [.new .iri (.iriLike .reference) (chars! "../é?q#%7e"), .query 0, .fragment 0,
   .new .iri (.iriLike .absolute) (chars! "http://u:p@h/a/b"), .resolve .default 0 3, .call 4 .encode_into_uri,
   .toAbsolute 5, .intoIri 2, .setFragment 4 (some 2), .splitFragment 4, .resolverBase 3,
   .encodeToUri 1, .build .iri .absolute (some 6) [.unset_port, .path (chars! "/x/../y"), .normalize],
   .new .uri .template (chars! "{+a}"), .append 14 14, .call 13 .mask_password, .downcast 0 .iri]

example : (run true exampleProgram []).map (fun st => st.map fun v => (v.kind, String.ofList v.text)) = some [
    (.iriLike .reference, "../é?q#%7e"), (.query, "q"), (.fragment, "%7e"),
    (.iriLike .absolute, "http://u:p@h/a/b"), (.iriLike .iri, "http://u:p@h/é?q#~"),
    (.iriLike .iri, "http://u:p@h/%C3%A9?q#~"), (.iriLike .absolute, "http://u:p@h/%C3%A9?q"), (.fragment, "%7e"),
    (.iriLike .iri, "http://u:p@h/é?q#%7e"), (.iriLike .absolute, "http://u:p@h/é?q"), (.fragment, "~"),
    (.iriLike .absolute, "http://u:p@h/a/b"), (.query, "q"), (.iriLike .absolute, "http://u:p@h/y?q"),
    (.template, "{+a}"), (.template, "{+a}{+a}"), (.iriLike .absolute, "http://u:@h/y?q")] := by
  decide +kernel

theorem Good.step {debug : Bool} {op : Op} {ops : List Op} {st st' : Store} (hb : ¬ Bad debug st op)
    (e : Prog.step debug st op = some st') (h : Good debug ops st') : Good debug (op :: ops) st :=
  .cons _ _ _ hb fun st'' e' => by rw [e] at e'; cases e'; exact h

/-- The hypothesis of C71 is met by a program with a dangerous method, `remove_password_inline`. -/
example : Good true [.new .iri (.iriLike .absolute) (chars! "http://u:p@h/a/b?x"), .query 0,
    .call 0 .remove_password_inline, .resolve .off 0 2,
    .build .iri .iri (some 2) [.scheme ['s'], .path (chars! "/%41")]] [] := by
  refine Good.step id (st' := [⟨.iri, .iriLike .absolute, chars! "http://u:p@h/a/b?x"⟩]) (by decide +kernel) ?_
  refine Good.step ?_ (st' := [⟨.iri, .iriLike .absolute, chars! "http://u:p@h/a/b?x"⟩, ⟨.iri, .query, ['x']⟩])
    (by decide +kernel) ?_
  · rintro ⟨v, t, e, _, e2, _⟩
    have : some (Val.mk .iri .absolute (chars! "http://u:p@h/a/b?x")) = some v := by rw [← e]; rfl
    cases this
    have := congrArg List.getLast? e2
    simp at this
  refine Good.step ?_ (st' := [⟨.iri, .iriLike .absolute, chars! "http://u:p@h/a/b?x"⟩, ⟨.iri, .query, ['x']⟩,
    ⟨.iri, .iriLike .absolute, chars! "http://u@h/a/b?x"⟩]) (by decide +kernel) ?_
  · rintro ⟨v, e, hb⟩
    have e' : some (Val.mk .iri .absolute (chars! "http://u:p@h/a/b?x")) = some v := by rw [← e]; rfl
    cases e'
    refine (step_iff true ⟨.iri, .absolute, chars! "http://u:p@h/a/b?x"⟩ ?_ .remove_password_inline trivial).1 ?_ hb
    · show _ = _; decide +kernel
    · exact ⟨⟨.iri, .absolute, chars! "http://u@h/a/b?x"⟩, by decide +kernel, by show _ = _; decide +kernel⟩
  refine Good.step id (st' := [⟨.iri, .iriLike .absolute, chars! "http://u:p@h/a/b?x"⟩, ⟨.iri, .query, ['x']⟩,
    ⟨.iri, .iriLike .absolute, chars! "http://u@h/a/b?x"⟩, ⟨.iri, .iriLike .absolute, chars! "http://u:p@h/a/b?x"⟩])
    (by decide +kernel) ?_
  refine .cons _ _ _ ?_ fun _ _ => .nil _
  rintro ⟨b, e, hb⟩
  have hp : (b.run [.scheme ['s'], .path (chars! "/%41")]).path = chars! "/%41" := rfl
  have hn : (b.run [.scheme ['s'], .path (chars! "/%41")]).scheme = some ['s'] := rfl
  rcases hb with h | h
  · exact h ((C05_path .iri _).1 (by rw [hp]; decide +kernel))
  · rw [hn] at h
    cases h.2.1

end Verif.Prog
