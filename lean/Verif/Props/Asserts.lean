import Verif.Model.Asserts
import Verif.Props.History
import Verif.Props.TypedAccess

/-!
# C61: debug builds behave as release builds
-/

namespace Verif

open Rfc

namespace Dbg

theorem strip_ascii_eq (dbg : Bool) (s : Str) {p : Char} (h : isAscii p = true) :
    strip_ascii_char_prefix dbg s p = some (Verif.strip_ascii_char_prefix s p) := by
  simp [strip_ascii_char_prefix, h]

theorem blen_pos {s : Str} (h : s.isEmpty = false) : 1 ≤ blen s := by
  cases s with
  | nil => simp at h
  | cons c r => have := c.utf8Size_pos; simp; omega

theorem split_v6_eq (dbg : Bool) {i : Str} (h : i.isEmpty = false) :
    split_v6_addr_part dbg i = some (Verif.split_v6_addr_part i) := by
  unfold split_v6_addr_part Verif.split_v6_addr_part
  simp only [h, Bool.and_false, Bool.false_eq_true, if_false]
  cases find_split_hole i ':' with
  | none => dsimp only; split <;> split <;> rfl
  | some x =>
    obtain ⟨pre, rest⟩ := x
    dsimp only
    split
    · rfl
    rename_i h5
    rw [strip_ascii_eq dbg rest (by decide)]
    cases hp : pre.isEmpty with
    | true =>
      simp only [if_true]
      cases Verif.strip_ascii_char_prefix rest ':' <;> rfl
    | false =>
      have h1 := blen_pos hp
      have hc : (dbg && !(decide (1 ≤ blen pre) && decide (blen pre ≤ 4))) = false := by
        rw [decide_eq_true h1, decide_eq_true (by omega)]; cases dbg <;> rfl
      simp only [hc, Bool.false_eq_true, if_false]
      split
      · rfl
      · cases Verif.strip_ascii_char_prefix rest ':' <;> rfl

theorem v4_rest {i rest : Str} (h : Verif.split_v6_addr_part i = some (rest, .V4)) : rest = [] := by
  unfold Verif.split_v6_addr_part at h
  split at h
  · split at h
    · simp at h
    · split at h
      · split at h <;> simp at h
      · split at h
        · simp at h
        · split at h <;> simp at h
  · split at h
    · split at h
      · simp only [Option.some.injEq, Prod.mk.injEq] at h; exact h.1.symm
      · simp at h
    · split at h <;> simp at h

theorem v6_loop_eq (dbg : Bool) : ∀ (fuel : Nat) (i : Str) (n : Nat) (o : Bool),
    v6_loop dbg fuel i n o = some (Verif.v6_loop fuel i n o)
  | 0, _, _, _ => rfl
  | fuel + 1, i, n, o => by
    unfold v6_loop Verif.v6_loop
    cases hi : i.isEmpty with
    | true => simp
    | false =>
      simp only [Bool.false_eq_true, if_false, split_v6_eq dbg hi]
      cases hs : Verif.split_v6_addr_part i with
      | none => rfl
      | some x =>
        obtain ⟨rest, part⟩ := x
        cases part with
        | H16Omit =>
          dsimp only
          rw [v6_loop_eq dbg fuel]
          split
          · rfl
          · split <;> rfl
        | H16Cont =>
          dsimp only
          rw [v6_loop_eq dbg fuel]
          split
          · rfl
          · split <;> rfl
        | H16End => rfl
        | V4 =>
          have := v4_rest hs
          subst this
          simp
        | Omit =>
          dsimp only
          rw [v6_loop_eq dbg fuel]
          split
          · rfl
          · split <;> rfl

theorem host_eq (dbg : Bool) (S : Spec) (i : Str) : validate_host dbg S i = some (Verif.validate_host S i) := by
  unfold validate_host Verif.validate_host
  cases get_wrapped_inner i '[' ']' with
  | none => rfl
  | some m =>
    dsimp only
    rw [strip_ascii_eq dbg m (by decide), strip_ascii_eq dbg m (by decide)]
    simp only [Option.bind_eq_bind, Option.bind_some]
    cases hv : Verif.strip_ascii_char_prefix m 'v' with
    | some r =>
      simp only [Option.some_or]
      cases find_split_hole r '.' with
      | none => rfl
      | some x => dsimp only; split <;> rfl
    | none =>
      simp only [Option.none_or]
      cases Verif.strip_ascii_char_prefix m 'V' with
      | none => exact v6_loop_eq dbg _ _ _ _
      | some r =>
        dsimp only
        cases find_split_hole r '.' with
        | none => rfl
        | some x => dsimp only; split <;> rfl

theorem authority_eq (dbg : Bool) (S : Spec) (i : Str) :
    validate_authority dbg S i = some (Verif.validate_authority S i) := by
  have key : ∀ i : Str, (match rfind_split_hole i ':' with
      | some (maybe_host, maybe_port) =>
        if maybe_port.all isDigit then validate_host dbg S maybe_host else validate_host dbg S i
      | none => validate_host dbg S i) = some (match rfind_split_hole i ':' with
      | some (maybe_host, maybe_port) =>
        if maybe_port.all isDigit then Verif.validate_host S maybe_host else Verif.validate_host S i
      | none => Verif.validate_host S i) := by
    intro i
    cases rfind_split_hole i ':' with
    | none => exact host_eq dbg S i
    | some x =>
      dsimp only
      rw [host_eq, host_eq]
      split <;> rfl
  unfold validate_authority Verif.validate_authority
  cases find_split_hole i '@' with
  | none => exact key i
  | some x =>
    dsimp only
    cases validate_userinfo S x.1 with
    | false => rfl
    | true => exact key x.2

theorem ends_bracket (m : Str) : ('[' :: (m ++ [']'])).getLast? = some ']' := by
  rw [← List.cons_append, List.getLast?_append]; rfl

theorem is_host_reg_name_eq {dbg : Bool} {S : Spec} {h : Str} (hh : host S h) :
    is_host_reg_name dbg h = some (Verif.is_host_reg_name h) := by
  unfold is_host_reg_name
  rcases (host_iff' h).1 hh with ⟨m, rfl, _⟩ | hr
  · rw [ends_bracket]; simp
  · have : starts_with h ['['] = false := by
      rw [Bool.eq_false_iff]
      intro hs
      obtain ⟨r, rfl⟩ := starts_with_iff.1 hs
      exact hr.not_mem (d := '[') (by decide) (by decide) (regnameC_bracket S) (by simp)
    simp [this]

theorem reg_name_valid_eq (dbg : Bool) (S : Spec) (i : Str) :
    validate_reg_name dbg S i = some (Verif.validate_reg_name S i) := by
  unfold validate_reg_name Verif.validate_reg_name
  cases h : satisfy_chars_with_pct_encoded is_ascii_regname (is_nonascii_regname S) i with
  | false => rfl
  | true =>
    simp only [if_true, Bool.true_and]
    unfold is_host_reg_name
    cases i with
    | nil => rfl
    | cons c r =>
      by_cases hc : c = '['
      · subst hc
        have : satisfy_chars_with_pct_encoded is_ascii_regname (is_nonascii_regname S) ('[' :: r) = false := by
          rw [satisfy_chars_with_pct_encoded.eq_def]
          simp only [show isAscii '[' = true from rfl, show ('[' == '%') = false from rfl,
            show is_ascii_regname '[' = false from rfl, if_true, Bool.false_eq_true, if_false, Bool.false_and]
        rw [this] at h; cases h
      · have : starts_with (c :: r) ['['] = false := by
          rw [Bool.eq_false_iff]
          intro hs
          obtain ⟨r', e⟩ := starts_with_iff.1 hs
          simp at e; exact hc e.1
        simp [this]

theorem path_relative_eq (dbg : Bool) (S : Spec) (i : Str) :
    validate_path_relative_authority_absent dbg S i = Verif.validate_path_relative_authority_absent S i := by
  unfold validate_path_relative_authority_absent Verif.validate_path_relative_authority_absent
  split
  · rfl
  · cases h : find_split2_hole i '/' ':' with
    | none => rfl
    | some x =>
      obtain ⟨a, c, b⟩ := x
      have hc := (findSplitHoleP_some.1 h).2.1
      dsimp only
      split
      · rfl
      · rename_i h1
        have h2 : (c == ':') = true := by simpa [h1] using hc
        have : (c != ':') = false := by simp [bne, h2]
        simp [this]

theorem abempty_eq (dbg : Bool) (S : Spec) (i : Str) :
    validate_authority_path_abempty dbg S i = some (Verif.validate_authority_path_abempty S i) := by
  unfold validate_authority_path_abempty Verif.validate_authority_path_abempty
  simp only [authority_eq, Option.bind_eq_bind, Option.bind_some]
  cases Verif.validate_authority S ((find_split i '/').getD (i, [])).1 <;> rfl

theorem after_path_eq (dbg : Bool) (S : Spec) {c : Char} (h : (c == '?' || c == '#') = true) (r : Str)
    (a : Bool) : validate_after_path dbg S c r a = some (Verif.validate_after_path S c r a) := by
  unfold validate_after_path
  have : (c != '?' && (dbg && c != '#')) = false := by
    rcases Bool.or_eq_true_iff.1 h with h | h <;> simp [bne, h]
  simp [this]

theorem hier_eq (dbg : Bool) (S : Spec) {pv pv' : Str → Option Bool} (hp : ∀ i, pv i = pv' i) (a : Bool)
    (i : Str) : validate_hier dbg S pv a i = Verif.validate_hier S pv' a i := by
  unfold validate_hier Verif.validate_hier
  cases strip_prefix i ['/', '/'] with
  | some r =>
    dsimp only
    cases h : find_split2_hole r '?' '#' with
    | none => dsimp only; rw [abempty_eq]; simp
    | some x =>
      obtain ⟨p, c, rest⟩ := x
      dsimp only
      rw [abempty_eq, after_path_eq dbg S (findSplitHoleP_some.1 h).2.1]
      simp only [Option.bind_eq_bind, Option.bind_some]
      cases Verif.validate_authority_path_abempty S p <;> rfl
  | none =>
    dsimp only
    cases h : find_split2_hole i '?' '#' with
    | none => dsimp only; rw [hp]; cases pv' i <;> simp
    | some x =>
      obtain ⟨p, c, rest⟩ := x
      dsimp only
      rw [hp, after_path_eq dbg S (findSplitHoleP_some.1 h).2.1]
      cases pv' p with
      | none => rfl
      | some b => cases b <;> rfl

theorem relative_eq (dbg : Bool) (S : Spec) (i : Str) :
    validate_relative_ref dbg S i = Verif.validate_relative_ref S i :=
  hier_eq dbg S (path_relative_eq dbg S) true i

theorem common_eq (dbg : Bool) (S : Spec) (i : Str) (r : UriReferenceRule) :
    validate_uri_reference_common dbg S i r = Verif.validate_uri_reference_common S i r := by
  unfold validate_uri_reference_common Verif.validate_uri_reference_common
  rw [relative_eq]
  cases find_split_hole i ':' with
  | none => rfl
  | some x => dsimp only; rw [hier_eq dbg S (fun _ => rfl)]

theorem validate_eq (dbg : Bool) (S : Spec) (k : IriKind) (i : Str) : validate dbg S k i = k.validate S i := by
  cases k
  · exact common_eq dbg S i .Any
  · exact common_eq dbg S i .Absolute
  · exact common_eq dbg S i .AbsoluteWithoutFragment
  · exact relative_eq dbg S i

theorem until_query_head (i : Str) :
    (until_query i).1 = [] ∨ ∃ c r, (until_query i).1 = c :: r ∧ (c == '?' || c == '#') = true := by
  unfold until_query
  cases h : find_split2 i '?' '#' with
  | none => exact .inl rfl
  | some x =>
    obtain ⟨a, b⟩ := x
    obtain ⟨c, r, rfl, _, hc, _⟩ := (findSplitP_some.1 h)
    exact .inr ⟨c, r, rfl, hc⟩

theorem decompose_qf_eq (dbg : Bool) (i : Str) :
    decompose_query_and_fragment dbg (until_query i).1 = Verif.decompose_query_and_fragment (until_query i).1 := by
  rcases until_query_head i with h | ⟨c, r, h, hc⟩
  · rw [h]; rfl
  · rw [h]
    unfold decompose_query_and_fragment
    have : (c != '?' && (dbg && c != '#')) = false := by
      rcases Bool.or_eq_true_iff.1 hc with h | h <;> simp [bne, h]
    simp [this]

theorem decompose_eq' (dbg : Bool) (s : Str) : decompose_iri_reference dbg s = Verif.decompose_iri_reference s := by
  unfold decompose_iri_reference Verif.decompose_iri_reference
  simp only [decompose_qf_eq]
  cases Verif.decompose_query_and_fragment
    (until_query (slash_slash_authority_opt (scheme_colon_opt s).1).1).1 with
  | none => rfl
  | some qf =>
    obtain ⟨q, f⟩ := qf
    cases q <;> cases f <;> rfl

theorem extract_query_eq' (dbg : Bool) (s : Str) : extract_query dbg s = Verif.extract_query s := by
  unfold extract_query Verif.extract_query
  rw [decompose_qf_eq]

theorem byte_at {a b : Str} {c : Char} (h : c.toNat < 128) : (utf8s (a ++ c :: b))[blen a]? = some c.toNat := by
  rw [utf8s_append, utf8s_cons, utf8_ascii h, ← utf8s_length]
  simp

theorem userinfo_eq (dbg : Bool) (s : Str) :
    userinfo dbg (decompose_authority s) = (decompose_authority s).userinfo := by
  unfold userinfo AuthorityComponents.userinfo
  rw [decompose_authority_def]
  cases h : find_split_hole s '@' with
  | none => rfl
  | some x =>
    obtain ⟨u, r⟩ := x
    obtain ⟨rfl, _⟩ := find_split_hole_some.1 h
    have := byte_at (a := u) (b := r) (c := '@') (by decide)
    have h2 : ('@' : Char).toNat = 0x40 := by decide
    simp [this, h2]

/-- `colonPortLen` is zero, or the length of a suffix that starts with a colon. -/
theorem colonPortLen_cases (i : Str) :
    colonPortLen i = 0 ∨ ∃ a r, i = a ++ ':' :: r ∧ colonPortLen i = blen (':' :: r) := by
  unfold colonPortLen
  cases h : rfind_split2 i ':' ']' with
  | none => exact .inl rfl
  | some x =>
    obtain ⟨a, b⟩ := x
    unfold rfind_split2 at h
    rw [Option.map_eq_some_iff] at h
    obtain ⟨⟨a', c, r⟩, h1, h2⟩ := h
    simp only [Prod.mk.injEq] at h2
    obtain ⟨rfl, rfl⟩ := h2
    dsimp only
    split
    · rename_i hs
      obtain ⟨r', e⟩ := starts_with_iff.1 hs
      simp only [List.cons_append, List.nil_append, List.cons.injEq] at e
      obtain ⟨rfl, rfl⟩ := e
      exact .inr ⟨a', r, (rfindSplitHoleP_some.1 h1).1, rfl⟩
    · exact .inl rfl

theorem port_at {s p i : Str} (h : s = p ++ i) (he : blen s - colonPortLen i ≠ blen s) :
    (utf8s s)[blen s - colonPortLen i]? = some 0x3A := by
  rcases colonPortLen_cases i with h0 | ⟨a, r, rfl, h1⟩
  · rw [h0] at he; exact absurd rfl he
  · have e : s = (p ++ a) ++ ':' :: r := by rw [h]; simp
    have hl : blen s - colonPortLen (a ++ ':' :: r) = blen (p ++ a) := by
      rw [h1, e, blen_append (p ++ a)]; omega
    rw [hl, e]
    exact byte_at (c := ':') (by decide)

theorem port_eq (dbg : Bool) (s : Str) :
    port dbg (decompose_authority s) = (decompose_authority s).port := by
  unfold port AuthorityComponents.port
  rw [decompose_authority_def]
  cases h : find_split_hole s '@' with
  | none =>
    dsimp only
    split
    · rfl
    · rename_i hne
      rw [port_at (s := s) (p := []) rfl hne]; simp
  | some x =>
    obtain ⟨u, r⟩ := x
    obtain ⟨e, _⟩ := find_split_hole_some.1 h
    dsimp only
    split
    · rfl
    · rename_i hne
      rw [port_at (p := u ++ ['@']) (by rw [e]; simp) hne]; simp

theorem reg_name_eq {dbg : Bool} {S : Spec} {s : Str} (h : authority S s) :
    reg_name dbg (decompose_authority s) = (decompose_authority s).reg_name := by
  obtain ⟨a, hv, rfl⟩ := (authority_auth_parts S s).1 h
  unfold reg_name AuthorityComponents.reg_name
  rw [decompose_authority_eq hv, offsets_host]
  simp [is_host_reg_name_eq hv.host]

theorem justified_ok {dbg : Bool} {S : Spec} {k : IriKind} {s : Str} (h : k.validate S s = some true) :
    justified dbg S k s = some s := by
  simp [justified, validate_eq, h]

theorem replace_domain_eq {dbg : Bool} {S : Spec} {s : Str} (h : validate_uri_reference S s = some true)
    (new : Str) (only : Bool) : replace_domain_impl dbg S s new only = Verif.replace_domain_impl S s new only := by
  unfold replace_domain_impl Verif.replace_domain_impl
  cases ha : AuthorityComponents.from_iri_get_offset s with
  | none => rfl
  | some x =>
    obtain ⟨ac, off⟩ := x
    obtain ⟨p, hv, rfl⟩ := reference_parts h
    have d := hv.delim
    have : ∃ y, p.authority = some y ∧ ac = decompose_authority y := by
      unfold AuthorityComponents.from_iri_get_offset extract_authority_and_offset at ha
      simp only [d.scheme_colon_opt_eq, d.slash_slash_eq] at ha
      cases hp : p.authority with
      | none => simp [hp] at ha
      | some y => simp [hp] at ha; exact ⟨y, rfl, ha.1.symm⟩
    obtain ⟨y, hy, rfl⟩ := this
    obtain ⟨a, hav, rfl⟩ := (authority_auth_parts S y).1 (hv.authority y hy)
    dsimp only
    rw [decompose_authority_eq hav, offsets_host]
    simp only [Option.bind_eq_bind, Option.bind_some, host_eq, is_host_reg_name_eq hav.host]
    cases Verif.validate_host S new with
    | false => rfl
    | true =>
      cases only with
      | false => simp
      | true => cases hb : Verif.is_host_reg_name a.host <;> simp

end Dbg

/-- **C61** (validation): for every text, every validator gives in a debug build what it gives in a release
build; no assertion fires. -/
theorem C61_validation (dbg : Bool) (S : Spec) (s : Str) :
    (∀ k : IriKind, Dbg.validate dbg S k s = k.validate S s) ∧
    Dbg.validate_authority dbg S s = some (validate_authority S s) ∧
    Dbg.validate_host dbg S s = some (validate_host S s) ∧
    Dbg.validate_reg_name dbg S s = some (validate_reg_name S s) :=
  ⟨fun k => Dbg.validate_eq dbg S k s, Dbg.authority_eq dbg S s, Dbg.host_eq dbg S s,
    Dbg.reg_name_valid_eq dbg S s⟩

/-- **C61** (components): for every valid reference, the accessors give in a debug build what they give in
a release build. -/
theorem C61_components (dbg : Bool) (S : Spec) (s : Str) (h : validate_uri_reference S s = some true) :
    Dbg.decompose_iri_reference dbg s = decompose_iri_reference s ∧
    Dbg.extract_query dbg s = RiReferenceStr.query_str s ∧
    (∀ a, RiReferenceStr.authority_components s = some a →
      Dbg.userinfo dbg a = a.userinfo ∧ Dbg.port dbg a = a.port ∧ Dbg.reg_name dbg a = a.reg_name) := by
  refine ⟨Dbg.decompose_eq' dbg s, Dbg.extract_query_eq' dbg s, fun a ha => ?_⟩
  obtain ⟨p, hv, rfl⟩ := reference_parts h
  have d := hv.delim
  simp only [RiReferenceStr.authority_components, AuthorityComponents.from_iri, d.extract_authority_eq] at ha
  cases hp : p.authority with
  | none => simp [hp] at ha
  | some y =>
    simp only [hp, Option.map_some, Option.some.injEq] at ha
    subst ha
    exact ⟨Dbg.userinfo_eq dbg y, Dbg.port_eq dbg y, Dbg.reg_name_eq (hv.authority y hp)⟩

/-- **C61** (conversions of an IRI): the conversions of a valid IRI that drop or split off the fragment do
not fail in a debug build, and give what they give in a release build. -/
theorem C61_iri_conversions (dbg : Bool) (S : Spec) (s : Str) (h : validate_uri S s = some true) :
    Dbg.to_absolute_and_fragment dbg S s = some (RiStr.to_absolute_and_fragment s) ∧
    (∃ a, RiStr.to_absolute s = some a ∧ Dbg.to_absolute dbg S s = some a) ∧
    (∃ x, RiString.into_absolute_and_fragment s = some x ∧ Dbg.into_absolute_and_fragment dbg S s = some x) ∧
    Dbg.into_absolute dbg S s = some (RiString.into_absolute s) := by
  obtain ⟨a, f, h1, h2, h3, h4, _, h6, _, h8, _⟩ := C13_split_fragment S s h
  have hs : split_fragment s = (a, f) := h1
  have hj : Dbg.justified dbg S .absolute a = some a := Dbg.justified_ok h6
  have hf : justifiedOpt dbg (validate_fragment S) f = some f := justifiedOpt_ok h8
  refine ⟨?_, ⟨a, h3, ?_⟩, ⟨(a, f), h2, ?_⟩, ?_⟩
  · rw [h1]
    simp [Dbg.to_absolute_and_fragment, hs, hj, hf]
  · unfold Dbg.to_absolute
    rw [show sliceTo s (blen (split_fragment s).1) = some a from h3]
    exact hj
  · unfold Dbg.into_absolute_and_fragment
    rw [show split_fragment_owned s = some (a, f) from h2]
    simp [hj, hf]
  · unfold Dbg.into_absolute
    rw [show remove_fragment s = a from h4, h4]
    exact hj

/-- **C61** (conversions of a reference). -/
theorem C61_to_iri (dbg : Bool) (S : Spec) (s : Str) (h : validate_uri_reference S s = some true) :
    Dbg.to_iri dbg S s = some (RiReferenceStr.to_iri s) := by
  obtain ⟨h1, h2⟩ := C08_to_iri S s h
  unfold Dbg.to_iri
  by_cases hI : IRI S s
  · rw [(h1 hI).1]
    have := (h1 hI).1
    unfold RiReferenceStr.to_iri at this
    split at this
    · rename_i hc
      rw [if_pos hc, Dbg.justified_ok (k := .iri) ((C01_iri_validation S s).1.2 hI)]; rfl
    · cases this
  · rw [(h2 hI).1]
    have := (h2 hI).1
    unfold RiReferenceStr.to_iri at this
    split at this
    · cases this
    · rename_i hc
      rw [if_neg hc, Dbg.justified_ok (k := .relative) ((C03_relative_ref_validation S s).1.2 (h2 hI).2.2)]; rfl

/-- **C61** (`set_fragment`), for the types that have it. -/
theorem C61_set_fragment (dbg : Bool) (S : Spec) (k : IriKind) (s : Str) (h : k.validate S s = some true)
    (hk : k ≠ .absolute) (f : Option Str) (hf : ∀ x, f = some x → validate_fragment S x = true) :
    Dbg.set_fragment dbg S k s f = some (RiString.set_fragment s f) := by
  have href : validate_uri_reference S s = some true := by
    obtain ⟨p, hv, _, rfl⟩ := (kind_validate_iff S k s).1 h
    exact validate_reference_of_parts hv
  obtain ⟨h1, h2, h3, _⟩ := C13_set_fragment S s f hf href
  refine Dbg.justified_ok ?_
  cases k with
  | absolute => exact absurd rfl hk
  | reference => exact h1
  | iri => exact h2 h
  | relative => exact h3 h

/-- **C61** (conversions between IRIs and URIs). -/
theorem C61_uri_conversions (dbg : Bool) (k : IriKind) (s : Str) :
    (k.validate .iri s = some true → Dbg.as_uri dbg k s = some (as_uri s)) ∧
    (k.validate .uri s = some true → Dbg.as_iri dbg k s = some s) := by
  constructor
  · intro h
    unfold Dbg.as_uri
    rcases C24_as_uri .iri k s h with ⟨h1, h2⟩ | ⟨h1, _⟩
    · rw [h1, Dbg.justified_ok h2]
      unfold as_uri at h1
      split at h1
      · cases h1
      · rename_i hc; rw [if_neg hc]; rfl
    · rw [h1]
      unfold as_uri at h1
      split at h1
      · rename_i hc; rw [if_pos hc]
      · cases h1
  · exact fun h => Dbg.justified_ok (Heap.uri_is_iri h)

/-- **C61** (resolution, host replacement): the assertions inside the merge of paths and inside the
replacement of a host do not fire. -/
theorem C61_paths_and_hosts (dbg : Bool) (S : Spec) (s : Str) (h : validate_uri_reference S s = some true) :
    (∀ base ref : Str, Dbg.from_paths_to_be_resolved dbg base ref =
      some (PathToNormalize.from_paths_to_be_resolved base ref)) ∧
    (∀ new only, Dbg.replace_domain_impl dbg S s new only = replace_domain_impl S s new only) := by
  refine ⟨fun base ref => ?_, Dbg.replace_domain_eq h⟩
  unfold Dbg.from_paths_to_be_resolved PathToNormalize.from_paths_to_be_resolved
  split
  · rfl
  · cases rfind_split_hole base '/' with
    | none => rfl
    | some x => simp

/-- **C61** (`RiAbsoluteStr::query_str` and `query`), for absolute IRIs without `#`.  Missing: the absolute IRIs
ending in `#` that the validator wrongly accepts (`C61_refuted`). -/
theorem C61_absolute_query_partial (S : Spec) (s : Str) (h : validate_absolute_uri S s = some true)
    (hh : '#' ∉ s) :
    RiAbsoluteStr.query_str true s = RiAbsoluteStr.query_str false s ∧
    RiAbsoluteStr.query true S s = RiAbsoluteStr.query false S s := by
  obtain ⟨q, h1, h2, _⟩ := C53_absolute_partial true S s h hh
  obtain ⟨q', h3, h4, _⟩ := C53_absolute_partial false S s h hh
  have a1 := (C11_absolute_accessors_partial true S s h hh).2.2.2.1
  have a2 := (C11_absolute_accessors_partial false S s h hh).2.2.2.1
  have e : q = q' := by
    rw [a1] at h2; rw [a2, h2] at h4
    exact Option.some.inj h4
  subst e
  exact ⟨by rw [h2, h4], by rw [h1, h3]⟩

/-- **C61 is false of the code** in these places: a valid value for which a debug build panics and a release
build does not.  `RiAbsoluteStr::query_str` (with a `#` at the end), `RiString::replace_host` (with a
fragment), `remove_password_inline` (user information without a colon). -/
theorem C61_refuted :
    (validate_absolute_uri .uri (chars! "s:#") = some true ∧
      RiAbsoluteStr.query_str true (chars! "s:#") = none ∧
      RiAbsoluteStr.query_str false (chars! "s:#") = some (some [])) ∧
    (validate_uri .uri (chars! "http://h/#f") = some true ∧
      replace_host true .uri .iri (chars! "http://h/#f") (chars! "g") = none ∧
      replace_host false .uri .iri (chars! "http://h/#f") (chars! "g") =
        some (chars! "http://g/#f", some (chars! "g"))) ∧
    (validate_uri .uri (chars! "http://%41@h/") = some true ∧
      remove_password_inline true .uri .iri (chars! "http://%41@h/") = none ∧
      remove_password_inline false .uri .iri (chars! "http://%41@h/") = some (chars! "http://%4@h/")) := by
  decide +kernel

/-! ### Concrete cases -/

example : Dbg.validate true .uri .iri (chars! "http://u@[1::2:1.2.3.4]:80/a:b?q#f") = some true ∧
    Dbg.validate true .uri .relative (chars! "a/b:c?q") = some true ∧
    Dbg.validate true .uri .relative (chars! "a:b") = some false ∧
    Dbg.validate_reg_name true .uri (chars! "[::1]") = some false := by decide +kernel

example : validate_uri_reference .uri (chars! "//u:p@[::1]:8/#f") = some true ∧
    (RiReferenceStr.authority_components (chars! "//u:p@[::1]:8/#f")).bind (Dbg.userinfo true) =
      some (some (chars! "u:p")) ∧
    (RiReferenceStr.authority_components (chars! "//u:p@[::1]:8/#f")).bind (Dbg.port true) =
      some (some (chars! "8")) ∧
    (RiReferenceStr.authority_components (chars! "//u:p@[::1]:8/#f")).bind (Dbg.reg_name true) = some none ∧
    (RiReferenceStr.authority_components (chars! "//h.x/")).bind (Dbg.reg_name true) =
      some (some (chars! "h.x")) := by decide +kernel

/-- The assertions are there: with a wrong argument they fire. -/
example : Dbg.is_host_reg_name true (chars! "[a") = none ∧ Dbg.is_host_reg_name false (chars! "[a") = some false ∧
    Dbg.validate_after_path true .uri 'x' [] true = none ∧
    Dbg.split_v6_addr_part true [] = none ∧ Dbg.split_v6_addr_part false [] = some (some ([], .H16End)) ∧
    Dbg.userinfo true ⟨chars! "u:h", 2, 3⟩ = none ∧ Dbg.port true ⟨chars! "h@8", 0, 1⟩ = none ∧
    Dbg.justified true .uri .absolute (chars! "/a") = none ∧
    Dbg.decompose_query_and_fragment true (chars! "a") = none := by decide +kernel

end Verif
