import Verif.Spec.Alloc
import Verif.Props.Convert
import Verif.Props.Edit
import Verif.Props.Format

/-!
# C51: fallible operations, for every allocator
-/

namespace Verif

open Rfc

namespace Heap

theorem try_reserve_cases (alloc : Alloc) (b : Buf) (n : Nat) :
    (Granted alloc b (blen b.text + n) ∧ ∃ b', try_reserve alloc b n = .ok b' () ∧ b'.text = b.text ∧
      blen b.text + n ≤ b'.cap) ∨
    (¬ Granted alloc b (blen b.text + n) ∧ try_reserve alloc b n = .err { b with calls := b.calls + 1 }) := by
  unfold try_reserve grow Granted
  by_cases h : blen b.text + n ≤ b.cap
  · exact .inl ⟨.inl h, b, by simp [h], rfl, h⟩
  · cases ha : alloc b.calls (blen b.text + n) with
    | none => exact .inr ⟨by simp [h], by simp [h]⟩
    | some c =>
      refine .inl ⟨.inr rfl, { b with cap := max c (blen b.text + n), calls := b.calls + 1 }, ?_, rfl, ?_⟩
      · simp [h]
      · exact Nat.le_max_right _ _

theorem reserve_ok {alloc : Alloc} {b : Buf} {n : Nat} (h : n ≤ b.cap) : reserve alloc b n = .ok b () := by
  unfold reserve grow
  simp [h]

theorem count_zero {s : Str} (h : count_nonascii s = 0) : mapToUri s = s := by
  have h1 := encode_inline_spec s
  unfold encode_to_uri_inline at h1
  simp only [h, beq_self_eq_true, if_true, Option.some.injEq] at h1
  exact h1.symm

theorem encB_length (l : List Nat) : (encB l).length = l.length + 2 * cntB l := by
  induction l with
  | nil => rfl
  | cons b r ih =>
    unfold encB cntB at *
    rw [List.flatMap_cons, List.length_append, ih, List.filter_cons]
    by_cases hb : b < 128
    · simp [hb]; omega
    · simp [hb, pctB]; omega

theorem blen_mapToUri (s : Str) : blen (mapToUri s) = blen s + count_nonascii s * 2 := by
  rw [← utf8s_length, utf8s_mapToUri, encB_length, utf8s_length]
  unfold count_nonascii cntB
  omega

theorem uri_is_iri {k : IriKind} {s : Str} (h : k.validate .uri s = some true) :
    k.validate .iri s = some true := by
  obtain ⟨h1, h2, h3, h4, _⟩ := C07_uri_is_iri s
  cases k with
  | reference => exact h2 h
  | iri => exact h1 h
  | absolute => exact h4 h
  | relative => exact h3 h

theorem percent_encode_inline (alloc : Alloc) (b : Buf) (hc : blen b.text ≤ b.cap) :
    Fallible alloc b (mapToUri b.text) () (try_percent_encode_iri_inline alloc b) := by
  unfold try_percent_encode_iri_inline
  by_cases h0 : count_nonascii b.text = 0
  · simp only [h0, beq_self_eq_true, if_true]
    have := count_zero h0
    exact .ok b (.inl (by rw [this]; exact hc)) this.symm (by rw [this]; exact hc)
  · have h1 := encode_inline_spec b.text
    have hl := blen_mapToUri b.text
    unfold encode_to_uri_inline at h1
    simp only [beq_iff_eq, h0, if_false] at h1 ⊢
    rcases try_reserve_cases alloc b (count_nonascii b.text * 2) with ⟨hg, b', e, ht, hcap⟩ | ⟨hg, e⟩
    · rw [← hl] at hg
      simp only [e, Run.bind, ht]
      rw [reserve_ok hcap]
      simp only [ht]
      simp only [Option.bind_eq_bind] at h1
      obtain ⟨buf, hb, hu⟩ := Option.bind_eq_some_iff.1 h1
      simp only [hb, hu]
      exact .ok _ hg rfl (by rw [hl]; exact hcap)
    · rw [← hl] at hg
      simp only [e, Run.bind]
      exact .err _ hg rfl rfl

/-- **C51** (`try_encode_to_uri_inline`, `try_encode_into_uri`): for every allocator and every valid
value of an IRI type. -/
theorem _root_.Verif.C51_encode_to_uri (debug : Bool) (alloc : Alloc) (k : IriKind) (b : Buf)
    (hc : blen b.text ≤ b.cap) (h : k.validate .iri b.text = some true) :
    ∃ u, encode_to_uri b.text = some u ∧
      Fallible alloc b u () (try_encode_to_uri_inline debug alloc k b) ∧
      Fallible alloc b u u (try_encode_into_uri debug alloc k b) := by
  obtain ⟨u, h1, _, h3, _, _⟩ := C24_encode_to_uri .iri k b.text h
  have h4 : k.validate .iri u = some true := uri_is_iri h3
  have h5 := percent_encode_inline alloc b hc
  have hu : mapToUri b.text = u := by
    rw [(C24_variants_agree b.text).1] at h1; exact Option.some.inj h1
  rw [hu] at h5
  refine ⟨u, h1, ?_, ?_⟩
  · unfold try_encode_to_uri_inline
    generalize try_percent_encode_iri_inline alloc b = r at h5
    cases h5 with
    | ok b' hg ht hcap => simp only [Run.bind, ht, h4, bne_self_eq_false, Bool.and_false]; exact .ok b' hg ht hcap
    | err b' hg ht hcap => exact .err b' hg ht hcap
  · unfold try_encode_into_uri try_encode_to_uri_inline
    generalize try_percent_encode_iri_inline alloc b = r at h5
    cases h5 with
    | ok b' hg ht hcap =>
      simp only [Run.bind, ht, h4, bne_self_eq_false, Bool.and_false, Bool.false_eq_true, if_false]
      simp only [h3, ht, bne_self_eq_false, Bool.and_false, Bool.false_eq_true, if_false]
      exact .ok b' hg ht hcap
    | err b' hg ht hcap => exact .err b' hg ht hcap

/-- With an authority. -/
theorem replace_domain_fallible {S : Spec} {p : Parts} {a : AuthParts} (alloc : Alloc) (hv : p.Valid S)
    (ha : p.authority = some a.recompose) (hav : a.Valid S) (b : Buf) (hb : b.text = p.recompose)
    (hc : blen b.text ≤ b.cap) (new : Str) (only : Bool) :
    (validate_host S new = true ∧ (only = true → is_host_reg_name a.host = true) →
      Fallible alloc b (withHost p a new) (some (blen (preAuth p ++ optPre a.userinfo ['@']),
          blen (preAuth p ++ optPre a.userinfo ['@']) + blen new)) (replace_domain_impl alloc S b new only)) ∧
    (¬ (validate_host S new = true ∧ (only = true → is_host_reg_name a.host = true)) →
      replace_domain_impl alloc S b new only = .ok b none) := by
  unfold replace_domain_impl
  rw [hb, from_iri_get_offset_parts hv, ha, Option.map_some, decompose_authority_eq hav]
  simp only [offsets_host]
  cases h1 : validate_host S new with
  | false => simp
  | true =>
    cases h2 : (only && !is_host_reg_name a.host) with
    | true =>
      simp only [Bool.and_eq_true, Bool.not_eq_true'] at h2
      simp [h2]
    | false =>
      have h3 : only = true → is_host_reg_name a.host = true := by
        intro e; simpa [e] using h2
      refine ⟨fun _ => ?_, fun h => absurd ⟨rfl, h3⟩ h⟩
      rw [if_neg (by simp), if_neg (by simp)]
      have ht : p.recompose = (preAuth p ++ optPre a.userinfo ['@']) ++ (a.host ++
          (optSuf [':'] a.port ++ postAuth p)) := by
        rw [recompose_auth _ ha]; simp [AuthParts.recompose]
      have he : a.offsets.host_start = blen (optPre a.userinfo ['@']) := rfl
      have hw : withHost p a new = (preAuth p ++ optPre a.userinfo ['@']) ++ (new ++
          (optSuf [':'] a.port ++ postAuth p)) := by
        unfold withHost withAuthority
        rw [recompose_setAuth]; simp [AuthParts.recompose]
      have hr := replaceRange_eq (i := blen (preAuth p) + a.offsets.host_start)
        (j := blen (preAuth p) + a.offsets.host_start + blen a.host) new ht (by simp [he]) (by simp [he])
      rw [← hw] at hr
      have hlen : blen (withHost p a new) + blen a.host = blen p.recompose + blen new := by
        rw [hw, ht]; simp only [blen_append]; omega
      -- after the reservation
      have fin : ∀ b' : Buf, b'.text = p.recompose → blen (withHost p a new) ≤ b'.cap →
          Granted alloc b (blen (withHost p a new)) →
          Fallible alloc b (withHost p a new) (some (blen (preAuth p ++ optPre a.userinfo ['@']),
              blen (preAuth p ++ optPre a.userinfo ['@']) + blen new))
            ((replace_range alloc b' (blen (preAuth p) + a.offsets.host_start)
              (blen (preAuth p) + a.offsets.host_start + blen a.host) new).bind fun iri_ref _ =>
              .ok iri_ref (some (blen (preAuth p) + a.offsets.host_start,
                blen (preAuth p) + a.offsets.host_start + blen new))) := by
        intro b' hb' hc' hg
        unfold replace_range
        rw [hb', hr]
        simp only [reserve_ok hc', Run.bind, he, ← blen_append]
        exact .ok _ hg rfl hc'
      rw [hb] at hc
      by_cases hle : blen a.host ≤ blen new
      · rw [if_pos hle]
        have e1 : blen b.text + (blen new - blen a.host) = blen (withHost p a new) := by rw [hb]; omega
        rcases try_reserve_cases alloc b (blen new - blen a.host) with ⟨hg, b', e, ht', hcap⟩ | ⟨hg, e⟩
        · rw [e1] at hg hcap
          rw [e]
          exact fin b' (by rw [ht', hb]) hcap hg
        · rw [e1] at hg
          rw [e]
          exact .err _ hg rfl rfl
      · rw [if_neg hle]
        have : blen (withHost p a new) ≤ b.cap := by omega
        exact fin b hb this (.inl this)

/-- **C51** (`try_replace_host`, `try_replace_host_reg_name`): for every allocator.  (`hd`: in builds
with debug assertions the method of `RiString` panics exactly if there is a non-empty fragment, `C27_debug_exact`.) -/
theorem _root_.Verif.C51_replace_host (debug : Bool) (alloc : Alloc) (S : Spec) (k : IriKind) (b : Buf)
    (hc : blen b.text ≤ b.cap) (h : k.validate S b.text = some true) (p : Parts)
    (hp : p.Valid S ∧ p.recompose = b.text) (a : AuthParts)
    (ha : a.Valid S ∧ p.authority = some a.recompose) (new : Str)
    (hd : debug = true → k = .iri → p.fragment = none ∨ p.fragment = some []) :
    (host S new →
      Fallible alloc b (withHost p a new) (some new) (try_replace_host_impl debug alloc S k b new false)) ∧
    (¬ host S new → try_replace_host_impl debug alloc S k b new false = .ok b none) ∧
    (host S new → ¬ IP_literal a.host → ¬ IPv4address a.host →
      Fallible alloc b (withHost p a new) (some new) (try_replace_host_impl debug alloc S k b new true)) ∧
    (¬ host S new ∨ IP_literal a.host ∨ IPv4address a.host →
      try_replace_host_impl debug alloc S k b new true = .ok b none) := by
  obtain ⟨hv, hpt⟩ := hp
  rw [← hpt] at h
  obtain ⟨q, hqv, hqf, hq⟩ := (kind_validate_iff S k _).1 h
  rw [recompose_inj hqv.delim hv.delim hq] at hqf
  have hassert : debug = true → k.replaceHostAssertion.Fits p := by
    intro e
    cases k with
    | iri => exact ⟨hqf, hd e rfl⟩
    | _ => exact hqf
  have hreg := is_host_reg_name_host ha.1.host
  have hnew : validate_host S new = true ↔ host S new := C06_host S new
  have hold : (debug && k.replaceHostAssertion.validate S b.text != some true) = false := by
    cases debug with
    | false => rfl
    | true =>
      rw [← hpt, (kind_validate_iff S _ _).2 ⟨p, hv, hassert rfl, rfl⟩]; rfl
  have key : ∀ only, (host S new ∧ (only = true → ¬ (IP_literal a.host ∨ IPv4address a.host)) →
      Fallible alloc b (withHost p a new) (some new) (try_replace_host_impl debug alloc S k b new only)) ∧
      (¬ (host S new ∧ (only = true → ¬ (IP_literal a.host ∨ IPv4address a.host))) →
      try_replace_host_impl debug alloc S k b new only = .ok b none) := by
    intro only
    obtain ⟨h1, h2⟩ := replace_domain_fallible alloc hv ha.2 ha.1 b hpt.symm hc new only
    constructor
    · rintro ⟨h3, h4⟩
      have h5 := h1 ⟨hnew.2 h3, fun e => hreg.2 (h4 e)⟩
      have hvn : AuthParts.Valid S { a with host := new } := ⟨ha.1.userinfo, h3, ha.1.port⟩
      have ht : withHost p a new = (preAuth p ++ optPre a.userinfo ['@']) ++ (new ++
          (optSuf [':'] a.port ++ postAuth p)) := by
        unfold withHost withAuthority
        rw [recompose_setAuth]; simp [AuthParts.recompose]
      have hnewd : (debug && k.replaceHostAssertion.validate S (withHost p a new) != some true) = false := by
        cases debug with
        | false => rfl
        | true =>
          rw [show k.replaceHostAssertion.validate S (withHost p a new) = some true from
            setAuth_kind hv (hassert rfl) (by simp [ha.2]) hvn]
          rfl
      unfold try_replace_host_impl
      generalize replace_domain_impl alloc S b new only = r at h5
      cases h5 with
      | ok b' hg htx hcap =>
        simp only [htx, hnewd, Bool.false_eq_true, if_false]
        rw [slice_eq ht rfl rfl]
        exact .ok b' hg htx hcap
      | err b' hg htx hcap =>
        simp only [htx, hold, Bool.false_eq_true, if_false]
        exact .err b' hg htx hcap
    · intro hn
      unfold try_replace_host_impl
      rw [h2 (fun hx => hn ⟨hnew.1 hx.1, fun e => hreg.1 (hx.2 e)⟩)]
      simp only [hold, Bool.false_eq_true, if_false]
  refine ⟨fun h1 => (key false).1 ⟨h1, by simp⟩, fun h1 => (key false).2 fun e => h1 e.1,
    fun h1 h2 h3 => (key true).1 ⟨h1, fun _ e => e.elim h2 h3⟩, fun h1 => (key true).2 ?_⟩
  rintro ⟨h2, h3⟩
  rcases h1 with h1 | h1
  · exact h1 h2
  · exact h3 rfl h1

/-- **C51** (`try_replace_host`, no authority): nothing happens, the allocator is not even asked. -/
theorem _root_.Verif.C51_replace_host_no_authority (debug : Bool) (alloc : Alloc) (S : Spec) (k : IriKind)
    (b : Buf) (h : k.validate S b.text = some true) (hn : RiReferenceStr.authority_str b.text = none)
    (new : Str) (only : Bool)
    (hd : debug = true → k = .iri → RiReferenceStr.fragment_str b.text = none) :
    try_replace_host_impl debug alloc S k b new only = .ok b none := by
  obtain ⟨p, hv, hf, hpt⟩ := (kind_validate_iff S k _).1 h
  simp only [← hpt, RiReferenceStr.authority_str, RiReferenceStr.fragment_str, hv.delim.extract_authority_eq,
    hv.delim.extract_fragment_eq] at hn hd
  have e : replace_domain_impl alloc S b new only = .ok b none := by
    unfold replace_domain_impl
    rw [← hpt, from_iri_get_offset_parts hv, hn]
    rfl
  have hold : (debug && k.replaceHostAssertion.validate S b.text != some true) = false := by
    cases debug with
    | false => rfl
    | true =>
      have : k.replaceHostAssertion.validate S p.recompose = some true := by
        refine (kind_validate_iff S _ _).2 ⟨p, hv, ?_, rfl⟩
        cases k with
        | iri => exact ⟨hf, .inl (hd rfl rfl)⟩
        | _ => exact hf
      rw [← hpt, this]; rfl
  unfold try_replace_host_impl
  rw [e]
  simp only [hold, Bool.false_eq_true, if_false]

/-! ### `mask_password().try_to_dedicated_string()` -/

theorem push_str_ok {alloc : Alloc} {b : Buf} {s : Str} (h : blen b.text + blen s ≤ b.cap) :
    push_str alloc b s = .ok { b with text := b.text ++ s } () := by
  unfold push_str
  rw [reserve_ok h]; rfl

theorem masked_some {alloc : Alloc} {calls : Nat} {s a pw c : Str} (hs : s = a ++ (pw ++ c))
    (hr : password_range_to_hide s = some (some (blen a, blen a + blen pw))) :
    Fallible alloc ⟨[], 0, calls⟩ (a ++ c) () (masked_try_to_dedicated_string alloc calls s) := by
  unfold masked_try_to_dedicated_string
  have hx := sliceTo_eq hs rfl
  have hy := sliceFrom_eq (s := s) (a := a ++ pw) (b := c) (by rw [hs]; simp) rfl
  rw [blen_append _ pw] at hy
  rw [hr]
  simp only [hx, hy]
  have hl : blen s - (blen a + blen pw - blen a) = blen (a ++ c) := by
    rw [hs]; simp only [blen_append]; omega
  rw [hl]
  have e0 : blen (⟨[], 0, calls⟩ : Buf).text + blen (a ++ c) = blen (a ++ c) := by simp [blen]
  rcases try_reserve_cases alloc ⟨[], 0, calls⟩ (blen (a ++ c)) with ⟨hg, b', e, ht, hcap⟩ | ⟨hg, e⟩
  · rw [e0] at hg hcap
    rw [e]
    simp only [Run.bind]
    have ht' : b'.text = [] := ht
    rw [blen_append] at hcap
    rw [push_str_ok (by rw [ht']; simp only [blen_nil]; omega)]
    simp only [ht', List.nil_append]
    rw [push_str_ok (by simpa using hcap)]
    exact .ok _ hg rfl (by rw [blen_append]; exact hcap)
  · rw [e0] at hg
    rw [e]
    exact .err _ hg rfl rfl

/-- **C51** (`PasswordMasked::try_to_dedicated_string`), for every reference with user information:
the new string is the masked text.  Missing: references without user information, for which it is
false (`C51_mask_refuted`). -/
theorem _root_.Verif.C51_mask_partial (alloc : Alloc) (calls : Nat) (S : Spec) (s : Str) (p : Parts)
    (hp : p.Valid S ∧ p.recompose = s) (a : AuthParts) (ha : a.Valid S ∧ p.authority = some a.recompose)
    (u : Str) (hu : a.userinfo = some u) :
    ∃ t, mask_password s = some t ∧
      Fallible alloc ⟨[], 0, calls⟩ t () (masked_try_to_dedicated_string alloc calls s) := by
  obtain ⟨hv, rfl⟩ := hp
  by_cases hc : ':' ∈ u
  · obtain ⟨user, pw, rfl, hn⟩ := exists_first hc
    have hw : HasPassword S p a user pw := ⟨ha.1, ha.2, hu, hn⟩
    refine ⟨_, (C25_mask_password S .reference _ (validate_reference_of_parts hv) p ⟨hv, rfl⟩ a user pw hw).1, ?_⟩
    have := masked_some (alloc := alloc) (calls := calls) hw.text (hw.range hv)
    rw [withUserinfo_text]
    simpa using this
  · have hr := range_no_colon hv ha.2 ha.1 hu hc
    have ht : p.recompose = preAuth p ++ u ++ ([] ++ ('@' :: (a.host ++ optSuf [':'] a.port) ++ postAuth p)) := by
      rw [recompose_userinfo ha.2 hu, List.append_assoc]; rfl
    refine ⟨p.recompose, ?_, ?_⟩
    · refine (C25_mask_no_password S _ p ⟨hv, rfl⟩ ?_).1
      intro a' user pw hw
      have := auth_recompose_inj hw.valid ha.1 (Option.some.inj (hw.authority.symm.trans ha.2))
      subst this
      rw [hw.userinfo] at hu
      cases hu
      exact hc (by simp)
    · have := masked_some (alloc := alloc) (calls := calls) ht (by simpa using hr)
      rw [List.nil_append] at ht
      rw [← ht] at this
      exact this

/-- What it does without user information: it aborts when the allocator refuses. -/
theorem _root_.Verif.C51_mask_no_userinfo_partial (alloc : Alloc) (calls : Nat) (S : Spec) (s : Str) (p : Parts)
    (hp : p.Valid S ∧ p.recompose = s)
    (hn : ∀ a : AuthParts, a.Valid S → p.authority = some a.recompose → a.userinfo = none) :
    mask_password s = some s ∧
    (Granted alloc ⟨[], 0, calls⟩ (blen s) →
      ∃ b', masked_try_to_dedicated_string alloc calls s = .ok b' () ∧ b'.text = s ∧ blen s ≤ b'.cap) ∧
    (¬ Granted alloc ⟨[], 0, calls⟩ (blen s) → masked_try_to_dedicated_string alloc calls s = .abort) := by
  obtain ⟨hv, rfl⟩ := hp
  have hr := password_range_none hv hn
  refine ⟨?_, ?_⟩
  · refine (C25_mask_no_password S _ p ⟨hv, rfl⟩ ?_).1
    intro a user pw hw
    have := hn a hw.valid hw.authority
    rw [hw.userinfo] at this; cases this
  · unfold masked_try_to_dedicated_string
    rw [hr]
    simp only [to_owned, push_str, reserve, grow, blen_nil, Nat.zero_add, Granted]
    by_cases h0 : blen p.recompose ≤ 0
    · simp [h0, Run.bind]
    · cases ha : alloc calls (blen p.recompose) with
      | none => simp [h0, Run.bind]
      | some c => simp [h0, Run.bind]; omega

/-- `mask_password().try_to_dedicated_string()` of a reference without user information copies it with
`to_owned`, which aborts the process where `Err(TryReserveError)` is promised. -/
theorem _root_.Verif.C51_mask_refuted :
    validate_uri .uri (chars! "http://example.com/") = some true ∧
    masked_try_to_dedicated_string (fun _ _ => none) 0 (chars! "http://example.com/") = .abort ∧
    masked_try_to_dedicated_string (fun _ _ => none) 0 (chars! "http://user:pw@example.com/") =
      .err ⟨[], 0, 1⟩ := by decide +kernel

/-! ### `try_append_to_string` -/

theorem sw_write (alloc : Alloc) (w : StringWriter) (s : Str) (ha : w.aborted = false) (he : w.error = false) :
    (Granted alloc w.buffer (blen w.buffer.text + blen s) ∧ ∃ b', w.write alloc s = ({ w with buffer := b' }, true) ∧
      b'.text = w.buffer.text ++ s ∧ blen b'.text ≤ b'.cap) ∨
    (¬ Granted alloc w.buffer (blen w.buffer.text + blen s) ∧ ∃ b', b'.text = w.buffer.text ∧
      w.write alloc s = ({ w with buffer := b', error := true }, false)) := by
  unfold StringWriter.write
  rw [if_neg (by simp [ha]), if_neg (by simp [he])]
  rcases try_reserve_cases alloc w.buffer (blen s) with ⟨hg, b', e, ht, hcap⟩ | ⟨hg, e⟩
  · left
    refine ⟨hg, { b' with text := b'.text ++ s }, ?_, by simp [ht], by simpa [ht] using hcap⟩
    rw [e]
    simp only
    rw [push_str_ok (by rw [ht]; exact hcap)]
  · right
    refine ⟨hg, { w.buffer with calls := w.buffer.calls + 1 }, rfl, ?_⟩
    rw [e]

theorem run_sw (alloc : Alloc) (d : Display) : ∀ w : StringWriter, w.aborted = false →
    (d.run (StringWriter.write alloc) w).1.aborted = false ∧
    (w.error = true → (d.run (StringWriter.write alloc) w).1 = w) ∧
    (w.error = false →
      ((d.run (StringWriter.write alloc) w).1.error = false →
        (d.run (StringWriter.write alloc) w).2 = d.text.2 ∧
        (d.run (StringWriter.write alloc) w).1.buffer.text = w.buffer.text ++ d.text.1) ∧
      ((d.run (StringWriter.write alloc) w).1.error = true →
        (∃ n m, alloc n m = none) ∧ ∃ p q, d.text.1 = p ++ q ∧
        (d.run (StringWriter.write alloc) w).1.buffer.text = w.buffer.text ++ p)) := by
  induction d with
  | done ok =>
    intro w ha
    refine ⟨ha, fun _ => rfl, fun h => ⟨fun _ => ⟨rfl, by simp [Display.run, Display.text]⟩, fun h2 => ?_⟩⟩
    rw [show (Display.run (StringWriter.write alloc) (.done ok) w).1 = w from rfl, h] at h2
    cases h2
  | write s next ih =>
    intro w ha
    unfold Display.run
    by_cases he : w.error = true
    · rw [show w.write alloc s = (w, false) by
        unfold StringWriter.write; rw [if_neg (by simp [ha]), if_pos he]]
      exact ⟨(ih false w ha).1, fun _ => (ih false w ha).2.1 he, fun h => by rw [he] at h; cases h⟩
    · have he' : w.error = false := by simpa using he
      rcases sw_write alloc w s ha he' with ⟨_, b', hw, ht, _⟩ | ⟨hg, b', ht, hw⟩
      · rw [hw]
        obtain ⟨i1, _, i3⟩ := ih true { w with buffer := b' } ha
        refine ⟨i1, fun h => absurd h he, fun h => ?_⟩
        obtain ⟨h1, h2⟩ := i3 h
        refine ⟨fun h3 => ⟨(h1 h3).1, ?_⟩, fun h3 => ?_⟩
        · rw [(h1 h3).2]; simp [Display.text, ht]
        · obtain ⟨hn, p, q, h4, h5⟩ := h2 h3
          refine ⟨hn, s ++ p, q, by simp [Display.text, h4], ?_⟩
          rw [h5]; simp [ht]
      · rw [hw]
        obtain ⟨i1, i2, _⟩ := ih false { w with buffer := b', error := true } ha
        have i2' := i2 rfl
        refine ⟨i1, fun h => absurd h he, fun h => ⟨fun h2 => ?_, fun _ => ⟨?_, [], _, rfl, ?_⟩⟩⟩
        · simp only [i2'] at h2; cases h2
        · unfold Granted at hg
          refine ⟨w.buffer.calls, blen w.buffer.text + blen s, ?_⟩
          cases hx : alloc w.buffer.calls (blen w.buffer.text + blen s) with
          | none => rfl
          | some c => exact absurd (.inr (by rw [hx]; rfl)) hg
        · simp [i2', ht]

theorem run_sw_honest {alloc : Alloc} {d : Display} (hd : d.Honest) : ∀ w : StringWriter,
    w.aborted = false → w.error = false → (d.run (StringWriter.write alloc) w).1.error = true →
    (d.run (StringWriter.write alloc) w).2 = false := by
  induction hd with
  | done ok =>
    intro w _ h h2
    rw [show (Display.run (StringWriter.write alloc) (.done ok) w).1 = w from rfl, h] at h2; cases h2
  | write s next _ hf ih =>
    intro w ha h
    unfold Display.run
    rcases sw_write alloc w s ha h with ⟨_, b', hw, ht, _⟩ | ⟨hg, b', ht, hw⟩
    · rw [hw]; exact ih _ ha h
    · rw [hw]; intro _; exact hf.run _

/-- **C51** (`try_append_to_string`, and with it every `try_to_string` and `try_to_dedicated_string`
that uses it): it never aborts, for every allocator.  `Ok`: the displayed text has been appended.
`Err`: the allocator has refused, and what has been appended is a prefix of the text.  Only a `Display`
that itself reports an error makes it panic. -/
theorem _root_.Verif.C51_try_append_to_string (alloc : Alloc) (dest : Buf) (d : Display) (h : d.Honest) :
    try_append_to_string alloc dest d ≠ .abort ∧
    (∀ dest', try_append_to_string alloc dest d = .ok dest' () →
      d.text.2 = true ∧ dest'.text = dest.text ++ d.text.1) ∧
    (∀ dest', try_append_to_string alloc dest d = .err dest' →
      (∃ n m, alloc n m = none) ∧ ∃ p q, d.text.1 = p ++ q ∧ dest'.text = dest.text ++ p) ∧
    (try_append_to_string alloc dest d = .panic → d.text.2 = false) := by
  obtain ⟨h1, _, h3⟩ := run_sw alloc d ⟨dest, false, false⟩ rfl
  have hh := run_sw_honest (alloc := alloc) h ⟨dest, false, false⟩ rfl rfl
  obtain ⟨h4, h5⟩ := h3 rfl
  unfold try_append_to_string
  generalize d.run (StringWriter.write alloc) ⟨dest, false, false⟩ = r at *
  obtain ⟨w, ok⟩ := r
  dsimp only at *
  rw [h1]
  cases he : w.error with
  | false =>
    obtain ⟨h6, h7⟩ := h4 he
    subst h6
    cases ht : d.text.2 with
    | true =>
      refine ⟨by simp, ?_, by simp, by simp⟩
      intro dest' e
      simp only [Bool.false_eq_true, Bool.true_eq_false, if_false, Run.ok.injEq, and_true] at e
      subst e
      exact ⟨rfl, h7⟩
    | false => simp
  | true =>
    obtain ⟨h6, h7⟩ := h5 he
    have := hh he
    subst this
    refine ⟨by simp, by simp, ?_, by simp⟩
    intro dest' e
    simp only [Bool.false_eq_true, if_false, if_true, Run.err.injEq] at e
    subst e
    exact ⟨h6, h7⟩

/-! ### The hypotheses are met: concrete cases -/

/-- An allocator that grants exactly what is asked, up to 24 bytes. -/
def alloc24 : Alloc := fun _ n => if n ≤ 24 then some n else none

example : validate_uri .iri (chars! "http://あ/") = some true ∧
    try_encode_to_uri_inline true alloc24 .iri ⟨chars! "http://あ/", 11, 0⟩ =
      .ok ⟨chars! "http://%E3%81%82/", 17, 1⟩ () ∧
    try_encode_to_uri_inline true alloc24 .iri ⟨chars! "http://あああ/", 17, 0⟩ =
      .err ⟨chars! "http://あああ/", 17, 1⟩ ∧
    try_replace_host_impl true alloc24 .uri .iri ⟨chars! "http://u:p@a/", 13, 0⟩ (chars! "example.com") false =
      .ok ⟨chars! "http://u:p@example.com/", 23, 1⟩ (some (chars! "example.com")) ∧
    try_replace_host_impl true alloc24 .uri .iri ⟨chars! "http://u:p@a/", 13, 0⟩ (chars! "www.example.com") false =
      .err ⟨chars! "http://u:p@a/", 13, 1⟩ ∧
    masked_try_to_dedicated_string alloc24 0 (chars! "http://u:p@a/") = .ok ⟨chars! "http://u:@a/", 12, 1⟩ () ∧
    try_append_to_string alloc24 ⟨chars! "x", 1, 0⟩ (.chunks [chars! "0123456789", chars! "0123456789ab", chars! "c"]) =
      .ok ⟨chars! "x01234567890123456789abc", 24, 3⟩ () ∧
    try_append_to_string alloc24 ⟨chars! "x", 1, 0⟩ (.chunks [chars! "0123456789", chars! "0123456789abcd"]) =
      .err ⟨chars! "x0123456789", 11, 2⟩ := by decide +kernel

end Heap
end Verif
