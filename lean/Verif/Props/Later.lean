import Verif.Spec.Later
import Verif.Props.EditEquiv
import Verif.Props.Commute

/-!
# C79: working with IRIs and converting at the end is converting first and working with URIs
-/

namespace Verif

open Rfc

namespace Rfc

/-- The value as a URI. -/
def Comps.uri (a : Comps) : Comps := { a.encoded with spec := .uri }

theorem Comps.Valid.uri {a : Comps} (h : a.Valid) : a.uri.Valid := h.encoded_valid

theorem Comps.uri_val {a : Comps} (h : a.Valid) : a.uri.val = ⟨.uri, a.kind, mapToUri a.parts.recompose⟩ := by
  show (⟨.uri, a.kind, a.encoded.parts.recompose⟩ : Val) = _
  rw [h.encoded_eq.1, mapParts_recompose h.parts]

theorem Comps.uri_parts {a : Comps} (h : a.Valid) : a.uri.parts = mapParts a.parts := h.encoded_eq.1

theorem enc_run {debug : Bool} {a : Comps} (h : a.Valid) (cs : List Call) :
    runCalls debug (.encode_into_uri :: cs) a.val = runCalls debug cs a.uri.val :=
  run_cons (c := .encode_into_uri) h trivial rfl h.encoded_valid cs

theorem step_of_effect {debug : Bool} {a b : Comps} (h : a.Valid) {c : Call} (hc : Allowed debug c a)
    (he : Effect c a b) (hb : b.Valid) : a.val.step debug c = some b.val := by
  obtain ⟨x, -, -, x3, x4⟩ := C66_step debug a h c hc
  obtain rfl := x4 b hb he
  exact x3

/-- One call. -/
theorem uri_step (debug : Bool) {a b : Comps} (h : a.Valid) {c : Call} (ha : Allowed debug c a)
    (he : Effect c a b) (hb : b.Valid) (hc : KeepsSpec c) (hh : HostArgument a.spec c) :
    b.spec = a.spec ∧ a.uri.val.step debug (uriCall c) = some b.uri.val := by
  have edit : (IsEdit c ∨ ∃ new, c = .replace_host_reg_name new) → b.spec = a.spec → uriCall c = encodedCall c →
      b.spec = a.spec ∧ a.uri.val.step debug (uriCall c) = some b.uri.val := by
    intro hi hs hu
    refine ⟨hs, ?_⟩
    obtain ⟨w, w1, w2⟩ := C74_encode debug a.spec a.kind a.parts.recompose h.val c hi hh fun a' h' e' => by
      have := Comps.ext_val h' h e'
      subst this; exact ha
    change runCalls debug _ a.val = _ at w1 w2
    rw [run_cons h ha he hb, enc_run hb, runCalls] at w1
    rw [enc_run h, runCalls] at w2
    simp only [runCalls, Option.bind_fun_some] at w2
    rw [hu, w2, w1]
  cases c with
  | set_fragment f =>
    refine edit (.inl trivial) ?_ rfl
    simp only [Effect] at he; rw [he]; split <;> rfl
  | replace_host new =>
    refine edit (.inl trivial) ?_ rfl
    rw [he.1 hh]; rfl
  | replace_host_reg_name new =>
    refine edit (.inr ⟨_, rfl⟩) ?_ rfl
    by_cases hr : host a.spec new ∧ a.HasRegName
    · rw [he.1 hr]; rfl
    · rw [he.2 hr]
  | remove_password_inline => exact edit (.inl trivial) (by rw [show b = _ from he]; rfl) rfl
  | remove_nonempty_password_inline => exact edit (.inl trivial) (by rw [show b = _ from he]; rfl) rfl
  | mask_password => exact edit (.inl trivial) (by rw [show b = _ from he]; rfl) rfl
  | into_absolute =>
    refine edit (.inl trivial) ?_ rfl
    simp only [Effect] at he; rw [he]; split <;> rfl
  | encode_to_uri_inline =>
    have : b = _ := he
    subst this
    refine ⟨rfl, ?_⟩
    have e : a.encoded.uri = a.uri := by
      have := h.uri.encoded_uri rfl
      show ({ a.encoded.encoded with spec := .uri } : Comps) = _
      exact this
    rw [e]
    exact step_of_effect (c := .encode_to_uri_inline) h.uri trivial (h.uri.encoded_uri rfl).symm h.uri
  | into_reference =>
    have : b = _ := he
    subst this
    exact ⟨rfl, step_of_effect (c := .into_reference) h.uri trivial rfl hb.uri⟩
  | into_iri =>
    have : b = _ := he
    have e : Effect .into_iri a.uri b.uri := by
      rw [this]
      show _ = _
      have hk : a.uri.kind = a.kind := rfl
      have hs : a.uri.scheme = a.scheme := rfl
      rw [hk, hs]
      cases a.kind <;> rfl
    refine ⟨?_, step_of_effect (c := .into_iri) h.uri trivial e hb.uri⟩
    rw [this]; cases a.kind <;> rfl
  | normalize =>
    by_cases hk : a.kind = .iri ∨ a.kind = .absolute
    · have he' : a.NormalizesTo false b := by simpa only [Effect, if_pos hk] using he
      have e : b.parts = normParts a.spec .default a.parts :=
        C17_spec_unique _ _ _ _ _ he'.2.2 (normParts_spec (op := .default) h.parts rfl)
      refine ⟨he'.1, step_of_effect (c := .normalize) h.uri trivial ?_ hb.uri⟩
      simp only [Effect, if_pos (show a.uri.kind = .iri ∨ a.uri.kind = .absolute from hk)]
      refine ⟨rfl, he'.2.1, ?_⟩
      rw [Comps.uri_parts h, Comps.uri_parts hb, e, ← normParts_map h.parts]
      exact normParts_spec (op := .default) (mapParts_valid h.parts) rfl
    · have he' : b = a := by simpa only [Effect, if_neg hk] using he
      subst he'
      refine ⟨rfl, step_of_effect (c := .normalize) h.uri trivial ?_ hb.uri⟩
      simp only [Effect, if_neg (show ¬ (b.uri.kind = .iri ∨ b.uri.kind = .absolute) from hk)]
  | normalize_preserve =>
    by_cases hk : a.kind = .iri ∨ a.kind = .absolute
    · have he' : a.NormalizesTo true b := by simpa only [Effect, if_pos hk] using he
      have e : b.parts = normParts a.spec .preserve a.parts :=
        C17_spec_unique _ _ _ _ _ he'.2.2 (normParts_spec (op := .preserve) h.parts rfl)
      refine ⟨he'.1, step_of_effect (c := .normalize_preserve) h.uri trivial ?_ hb.uri⟩
      simp only [Effect, if_pos (show a.uri.kind = .iri ∨ a.uri.kind = .absolute from hk)]
      refine ⟨rfl, he'.2.1, ?_⟩
      rw [Comps.uri_parts h, Comps.uri_parts hb, e, ← normParts_map h.parts]
      exact normParts_spec (op := .preserve) (mapParts_valid h.parts) rfl
    · have he' : b = a := by simpa only [Effect, if_neg hk] using he
      subst he'
      refine ⟨rfl, step_of_effect (c := .normalize_preserve) h.uri trivial ?_ hb.uri⟩
      simp only [Effect, if_neg (show ¬ (b.uri.kind = .iri ∨ b.uri.kind = .absolute) from hk)]
  | resolve_against mode base =>
    by_cases hk : a.kind = .reference ∨ a.kind = .relative
    · have hs : b.spec = a.spec := by
        simp only [Effect, if_pos hk] at he; exact he.1
      have hkb : b.kind = .iri := by
        simp only [Effect, if_pos hk] at he; exact he.2.1
      refine ⟨hs, ?_⟩
      have hbase : validate_uri a.spec base = some true :=
        (C07_upcasts _ _).1 ((C04_absolute_validation_partial _ _).1.2 ha)
      obtain ⟨base', ref', t, t1, t2, -, -, t3, t4⟩ :=
        C47_resolve_commutes a.spec mode base _ hbase (validate_reference_of_parts h.parts)
      rw [(C24_variants_agree _).1, Option.some.injEq] at t1 t2
      subst t1 t2
      rw [(C24_variants_agree _).1] at t4
      have hst := step_of_effect h ha he hb
      have et : b.parts.recompose = t := by
        simp only [Val.step] at hst
        rw [if_pos (show a.val.kind = .reference ∨ a.val.kind = .relative from hk),
          show a.val.text = a.parts.recompose from rfl, show a.val.spec = a.spec from rfl, t3, Option.bind_some] at hst
        unfold Val.asserted at hst
        split at hst
        · cases hst
        · exact (congrArg Val.text (Option.some.inj hst)).symm
      rw [← hb.uri.asserted debug, Comps.uri_val hb, Comps.uri_val h, et, hkb]
      simp only [Val.step, uriCall]
      rw [if_pos hk, t4, Option.bind_some]
    · have he' : b = a := by simpa only [Effect, if_neg hk] using he
      subst he'
      refine ⟨rfl, ?_⟩
      simp only [Val.step, uriCall]
      exact if_neg hk
  | _ => exact hc.elim

end Rfc

/-- **C79**: any history of calls on an IRI, then the conversion into a URI, is the conversion first, and then the
same history on the URI, with the texts given to the methods encoded. -/
theorem C79_convert_last (debug : Bool) (S : Spec) (k : IriKind) (t : Str) (a b : Comps) (ha : a.Valid)
    (e : a.val = ⟨S, k, t⟩) (cs : List Call) (hc : ∀ c ∈ cs, KeepsSpec c) (hh : ∀ c ∈ cs, HostArgument S c)
    (hr : Runs debug cs a b) :
    ∃ w, runCalls debug (cs ++ [.encode_into_uri]) ⟨S, k, t⟩ = some w ∧
      runCalls debug (.encode_into_uri :: cs.map uriCall) ⟨S, k, t⟩ = some w := by
  have hs : a.spec = S := congrArg Val.spec e
  rw [← e]
  clear e
  induction hr with
  | nil a =>
    refine ⟨a.uri.val, ?_, ?_⟩
    · rw [List.nil_append, enc_run ha, runCalls]
    · rw [enc_run ha, List.map_nil, runCalls]
  | cons c cs a x d x1 x2 x3 _ ih =>
    obtain ⟨e1, e2⟩ := uri_step debug ha x1 x2 x3 (hc c (by simp)) (hs ▸ hh c (by simp))
    obtain ⟨w, w1, w2⟩ := ih x3 (fun c hm => hc c (by simp [hm])) (fun c hm => hh c (by simp [hm])) (e1.trans hs)
    refine ⟨w, ?_, ?_⟩
    · rw [List.cons_append, run_cons ha x1 x2 x3]; exact w1
    · rw [enc_run x3] at w2
      rw [enc_run ha, List.map_cons, runCalls, e2, Option.bind_some]; exact w2

/-- **C79** for one call. -/
theorem C79_step (debug : Bool) (S : Spec) (k : IriKind) (t : Str) (h : k.validate S t = some true) (c : Call)
    (hc : KeepsSpec c) (hh : HostArgument S c) (ha : AllowedOn debug c ⟨S, k, t⟩) :
    ∃ w, runCalls debug [c, .encode_into_uri] ⟨S, k, t⟩ = some w ∧
      runCalls debug [.encode_into_uri, uriCall c] ⟨S, k, t⟩ = some w := by
  obtain ⟨a, hv, e, -⟩ := C66_components S k t h
  obtain ⟨b, b1, b2, -, -⟩ := C66_step debug a hv c (ha a hv e)
  exact C79_convert_last debug S k t a b hv e [c] (by simpa using hc) (by simpa using hh)
    (.cons c [] a b b (ha a hv e) b2 b1 (.nil b))

theorem uriCall_ascii {c : Call} (h : AsciiTexts c) : uriCall c = c := by
  cases c with
  | set_fragment f =>
    cases f with
    | none => rfl
    | some f => simp [uriCall, encodedCall, mapToUri_ascii (h f (by simp [callTexts]))]
  | replace_host new => simp [uriCall, encodedCall, mapToUri_ascii (h new (by simp [callTexts]))]
  | replace_host_reg_name new => simp [uriCall, encodedCall, mapToUri_ascii (h new (by simp [callTexts]))]
  | resolve_against mode base => simp [uriCall, mapToUri_ascii (h base (by simp [callTexts]))]
  | _ => rfl

/-- **C79**: a URI that is used as an IRI.  Whatever history of calls with US-ASCII arguments it has, what comes out is,
after the conversion into a URI, what comes out of the same history of the URI. -/
theorem C79_uri_as_iri (debug : Bool) (k : IriKind) (t : Str) (h : k.validate .uri t = some true) (a b : Comps)
    (ha : a.Valid) (e : a.val = ⟨.iri, k, t⟩) (cs : List Call) (hc : ∀ c ∈ cs, KeepsSpec c)
    (hh : ∀ c ∈ cs, HostArgument .iri c) (hu : ∀ c ∈ cs, AsciiTexts c) (hr : Runs debug cs a b) :
    ∃ w, runCalls debug (cs ++ [.encode_into_uri]) ⟨.iri, k, t⟩ = some w ∧
      runCalls debug cs ⟨.uri, k, t⟩ = some w := by
  obtain ⟨w, w1, w2⟩ := C79_convert_last debug .iri k t a b ha e cs hc hh hr
  refine ⟨w, w1, ?_⟩
  rw [← e, enc_run ha, Comps.uri_val ha, List.map_congr_left (f := uriCall) (g := id) (fun c hm => uriCall_ascii (hu c hm)), List.map_id] at w2
  rw [show a.parts.recompose = t from congrArg Val.text e, show a.kind = k from congrArg Val.kind e] at w2
  obtain ⟨x, hx, hxe, -⟩ := C66_components .uri k t h
  have : mapToUri t = t := by
    have e1 := Comps.uri_val hx
    have hs : x.spec = .uri := congrArg Val.spec hxe
    have e2 : x.uri = x := by
      unfold Comps.uri
      rw [hx.encoded_uri hs, ← hs]
    rw [e2] at e1
    have := congrArg Val.text e1
    rw [show x.val.text = t from congrArg Val.text hxe] at this
    rw [show x.parts.recompose = t from congrArg Val.text hxe] at this
    exact this.symm
  rw [this] at w2
  exact w2

/-- A history with non-ASCII texts. -/
example : ∃ w, runCalls true [.resolve_against .default (chars! "http://h/é/x"), .replace_host (chars! "ä.b"),
      .set_fragment (some (chars! "ü")), .encode_into_uri] ⟨.iri, .reference, chars! "../%c3%a9?ö"⟩ = some w ∧
    runCalls true [.encode_into_uri, .resolve_against .default (chars! "http://h/%C3%A9/x"),
      .replace_host (chars! "%C3%A4.b"), .set_fragment (some (chars! "%C3%BC"))] ⟨.iri, .reference, chars! "../%c3%a9?ö"⟩ =
      some w ∧ w.text = chars! "http://%C3%A4.b/%C3%A9?%C3%B6#%C3%BC" :=
  ⟨⟨.uri, .iri, chars! "http://%C3%A4.b/%C3%A9?%C3%B6#%C3%BC"⟩, by decide +kernel, by decide +kernel, rfl⟩

/-- The hypotheses of `C79_convert_last` can be met. -/
example : ∃ a b : Comps, a.Valid ∧ a.val = ⟨.iri, .reference, chars! "../%c3%a9?ö"⟩ ∧
    Runs true [.resolve_against .default (chars! "http://h/é/x"), .normalize] a b ∧
    (∀ c ∈ [Call.resolve_against .default (chars! "http://h/é/x"), .normalize], KeepsSpec c ∧ HostArgument .iri c) := by
  obtain ⟨a, hv, e, -⟩ := C66_components .iri .reference (chars! "../%c3%a9?ö") (by decide +kernel)
  have hs : a.spec = .iri := congrArg Val.spec e
  have ho : Allowed true (.resolve_against .default (chars! "http://h/é/x")) a := by
    show absolute_IRI a.spec _ ∨ _
    rw [hs]
    exact (C04_absolute_validation_partial .iri (chars! "http://h/é/x")).1.1 (by decide +kernel)
  obtain ⟨b, b1, b2, -, -⟩ := C66_step true a hv _ ho
  obtain ⟨d, d1, d2, -, -⟩ := C66_step true b b1 .normalize trivial
  refine ⟨a, d, hv, e, .cons _ _ _ b _ ho b2 b1 (.cons _ _ _ d _ trivial d2 d1 (.nil d)), ?_⟩
  intro c hc
  simp only [List.mem_cons, List.not_mem_nil, or_false] at hc
  rcases hc with rfl | rfl <;> exact ⟨trivial, trivial⟩

/-- **C79**: the condition that a new host is a host is needed: a text that is no host is refused, but its encoding
may be a host. -/
theorem C79_host_needed : ∃ t new u u', validate_uri .iri t = some true ∧
    runCalls false [.replace_host new, .encode_into_uri] ⟨.iri, .iri, t⟩ = some u ∧
    runCalls false [.encode_into_uri, uriCall (.replace_host new)] ⟨.iri, .iri, t⟩ = some u' ∧ u ≠ u' :=
  ⟨chars! "a://h", [Char.ofNat 0xE000], ⟨.uri, .iri, chars! "a://h"⟩, ⟨.uri, .iri, chars! "a://%EE%80%80"⟩,
    by decide +kernel, by decide +kernel, by decide +kernel, by decide +kernel⟩

end Verif
