import Verif.Lemmas.Size
import Verif.Props.Normalize
import Verif.Props.ResolveEquiv
import Verif.Props.Encode
import Verif.Props.Decode
import Verif.Props.Convert
import Verif.Props.Format

/-!
# C69: how long the results are

Lengths are in bytes of UTF-8 (`blen`, `str::len`).
-/

namespace Verif

open Rfc PathToNormalize

theorem wr_blen {S : Spec} {op : NormalizationMode} {s : Str} (h : WF s) : blen (wr S op s) ≤ blen s := by
  unfold wr
  split
  · exact pctn_blen S h
  · exact Nat.le_refl _

theorem escape_wr_blen {S : Spec} {op : NormalizationMode} (auth : Bool) {s : Str} (h : WF s) :
    blen (escapePath auth (wr S op s)) ≤ blen (escapePath auth s) := by
  have hb := wr_blen (S := S) (op := op) h
  unfold escapePath
  split
  · rename_i hc
    rw [Bool.and_eq_true] at hc
    have : (s.take 2 == ['/', '/']) = true := by
      obtain ⟨r, hr⟩ := take2_slash.1 hc.2
      unfold wr at hr
      split at hr
      · obtain ⟨t, ht⟩ := pctn_head h hr
        rw [ht] at h hr
        have h2 := (wf_slash_split (d := []) h).2
        rw [pctn_ch S (by decide) h2, List.cons.injEq] at hr
        obtain ⟨u, hu⟩ := pctn_head h2 hr.2
        rw [ht, hu]; rfl
      · rw [hr]; rfl
    rw [if_pos (by rw [hc.1, this]; rfl)]
    simp only [blen_cons]
    omega
  · split
    · simp only [blen_cons]; omega
    · exact hb

theorem pathn_blen {S : Spec} {op : NormalizationMode} {p : Parts} (h : p.Valid S) :
    blen (pathn S op p.authority.isSome p.path) ≤ blen p.path := by
  unfold pathn
  split
  · exact pctn_blen S h.pathPC.wf
  · refine Nat.le_trans (escape_wr_blen _ (rds_PC rfl h.pathPC.wf)) (rds_blen _ _ ?_)
    intro ha r
    exact h.withoutAuthority (by cases hx : p.authority <;> simp_all) r

/-- Normalization never makes a text longer. -/
theorem normParts_blen {S : Spec} {op : NormalizationMode} {p : Parts} (h : p.Valid S) :
    blen (normParts S op p).recompose ≤ blen p.recompose := by
  have h1 : blen (optPre (normParts S op p).scheme [':']) ≤ blen (optPre p.scheme [':']) := by
    unfold normParts
    simp only
    split
    · cases p.scheme with
      | none => exact Nat.le_refl _
      | some x => simp [optPre, blen_lower]
    · exact Nat.le_refl _
  have h2 : blen (optSuf ['/', '/'] (normParts S op p).authority) ≤ blen (optSuf ['/', '/'] p.authority) := by
    unfold normParts
    simp only
    split
    · cases ha : p.authority with
      | none => exact Nat.le_refl _
      | some x =>
        have := authn_blen (h.authority x ha)
        simp only [Option.map_some, blen_dslash]
        omega
    · exact Nat.le_refl _
  have h3 := pathn_blen (op := op) h
  have h4 : blen (optSuf ['?'] (normParts S op p).query) ≤ blen (optSuf ['?'] p.query) := by
    unfold normParts
    simp only
    cases ha : p.query with
    | none => exact Nat.le_refl _
    | some x =>
      have := wr_blen (S := S) (op := op) (query_wf h ha)
      simp only [Option.map_some, blen_quest]
      omega
  have h5 : blen (optSuf ['#'] (normParts S op p).fragment) ≤ blen (optSuf ['#'] p.fragment) := by
    unfold normParts
    simp only
    cases ha : p.fragment with
    | none => exact Nat.le_refl _
    | some x =>
      have := wr_blen (S := S) (op := op) (fragment_wf h ha)
      simp only [Option.map_some, blen_hash]
      omega
  unfold Parts.recompose
  simp only [blen_append]
  have h3' : blen (normParts S op p).path ≤ blen p.path := h3
  omega

/-- **C69**: the result of either normalization is never longer than the input. -/
theorem C69_normalize (S : Spec) (s : Str) (h : validate_uri S s = some true) :
    ∃ t t', normalize S s = some t ∧ normalize_but_preserve_authorityless_relative_path S s = some t' ∧
      blen t ≤ blen s ∧ blen t' ≤ blen s := by
  obtain ⟨p, hv, hs, rfl⟩ := iri_parts' h
  exact ⟨_, _, normalize_eq hv hs, normalize_preserve_eq hv hs, normParts_blen hv, normParts_blen hv⟩

/-- **C69**: so a buffer as long as the input is always large enough for the normalized text, however
it is cut into pieces when it is written. -/
theorem C69_normalize_buffer (S : Spec) (s t : Str) (h : validate_uri S s = some true)
    (ht : normalize S s = some t) (l : List Str) (hl : l.flatten = t) (buf : List Nat)
    (hb : blen s ≤ buf.length) :
    Fmt.write_to_slice buf (.chunks l) = some (some t, utf8s t ++ buf.drop (blen t)) := by
  obtain ⟨t', _, h1, _, h2, _⟩ := C69_normalize S s h
  rw [ht] at h1
  cases h1
  exact (C36_write_to_slice buf (.chunks l) (.chunks l)).1 t (by rw [Display.text_chunks, hl]) (by omega)

theorem merge_blen {b r : Parts} :
    blen (mergeReference b r).recompose ≤ blen b.recompose + blen r.recompose +
      (if b.authority.isSome && b.path.isEmpty then 1 else 0) := by
  have e : ∀ p : Parts, blen p.recompose = blen (optPre p.scheme [':']) + blen (optSuf ['/', '/'] p.authority) +
      blen p.path + blen (optSuf ['?'] p.query) + blen (optSuf ['#'] p.fragment) := by
    intro p; unfold Parts.recompose; simp only [blen_append]; omega
  have hz : ∀ d, blen (optSuf d none) = 0 := fun d => rfl
  have hd : blen (mergeDir b) ≤ blen b.path + (if b.authority.isSome && b.path.isEmpty then 1 else 0) := by
    unfold mergeDir
    split
    · rw [blen_cons, utf8Size_slash, blen_nil]; omega
    · have := congrArg blen (dir_last b.path)
      rw [blen_append] at this
      omega
  rw [e, e b, e r]
  unfold mergeReference
  split
  · omega
  · split
    · simp only; omega
    · split
      · simp only
        split <;> omega
      · simp only
        split
        · omega
        · rw [mergePaths_eq, blen_append]; omega

/-- **C69**: resolution, plain or normalizing, writes at most one byte more than base and reference
together, and that byte (the slash after the authority) only if the base has an authority and an empty
path. -/
theorem C69_resolve (S : Spec) (mode : NormalizationMode) (base ref : Str)
    (hb : validate_uri S base = some true) (hr : validate_uri_reference S ref = some true) :
    ∃ t, resolve S mode base ref = some t ∧ blen t ≤ blen base + blen ref + 1 ∧
      (RiReferenceStr.authority_str base = none ∨ RiReferenceStr.path_str base ≠ [] →
        blen t ≤ blen base + blen ref) := by
  obtain ⟨b, hbv, hbs, rfl⟩ := iri_parts' hb
  obtain ⟨r, hrv, rfl⟩ := reference_parts hr
  obtain ⟨hm, hms⟩ := merge_valid hbv hbs hrv
  have key := merge_blen (b := b) (r := r)
  have hfin : ∀ x, x ≤ blen (mergeReference b r).recompose → x ≤ blen b.recompose + blen r.recompose + 1 ∧
      (RiReferenceStr.authority_str b.recompose = none ∨ RiReferenceStr.path_str b.recompose ≠ [] →
        x ≤ blen b.recompose + blen r.recompose) := by
    intro x hx
    simp only [RiReferenceStr.authority_str, hbv.delim.extract_authority_eq, RiReferenceStr.path_str,
      hbv.delim.extract_path_eq]
    refine ⟨?_, ?_⟩
    · split at key <;> omega
    · intro hc
      have : (b.authority.isSome && b.path.isEmpty) = false := by
        rcases hc with hc | hc
        · rw [hc]; rfl
        · have : b.path.isEmpty = false := by simpa using hc
          rw [this, Bool.and_false]
      rw [this] at key
      simp at key
      omega
  by_cases ho : mode.case_pct = true
  · exact ⟨_, resolve_norm_eq hbv hbs hrv ho, hfin _ (normParts_blen hm)⟩
  · obtain rfl : mode = .off := by cases mode <;> simp [NormalizationMode.case_pct] at ho ⊢
    rw [resolve_off_eq hbv hbs hrv, transform_eq]
    cases h : samePath r with
    | true =>
      simp only [if_true]
      rw [escape_valid hm]
      exact ⟨_, rfl, hfin _ (Nat.le_refl _)⟩
    | false =>
      simp only [Bool.false_eq_true, if_false]
      have := normParts_blen (op := .off) hm
      rw [normParts_off] at this
      exact ⟨_, rfl, hfin _ this⟩

/-- The bounds are attained. -/
example : (resolve .uri .off (chars! "s://h") (chars! "x")).map blen =
      some (blen (chars! "s://h") + blen (chars! "x") + 1) ∧
    (resolve .uri .off (chars! "s:/d/") (chars! "x")).map blen =
      some (blen (chars! "s:/d/") + blen (chars! "x")) ∧
    (normalize .uri (chars! "s:.///x")).map blen = some (blen (chars! "s:.///x")) := by decide +kernel

/-! ### Encoding and decoding -/

theorem blen_pct_bytes {bs : List Nat} (h : ∀ b ∈ bs, b < 256) : blen (bs.flatMap pctUpper) = 3 * bs.length := by
  have e : bs.flatMap pctUpper = render (bs.map .pct) := by
    induction bs with
    | nil => rfl
    | cons b r ih => rw [List.flatMap_cons, List.map_cons, render_cons, ih fun x hx => h x (by simp [hx])]; rfl
  rw [e, blen_pcts h]

/-- **C69**: encoding an IRI as a URI adds two bytes for each byte of a non-ASCII character. -/
theorem C69_encode_to_uri (s : Str) :
    ∃ u, encode_to_uri s = some u ∧ encode_to_uri_inline s = some u ∧
      blen u = blen s + 2 * ((utf8s s).filter fun b => 128 ≤ b).length ∧ blen u ≤ 3 * blen s := by
  obtain ⟨h1, h2⟩ := C24_variants_agree s
  refine ⟨_, h1, h2, ?_⟩
  have key : blen (mapToUri s) = blen s + 2 * ((utf8s s).filter fun b => 128 ≤ b).length ∧
      ((utf8s s).filter fun b => 128 ≤ b).length ≤ blen s := by
    refine ⟨?_, ?_⟩
    · induction s with
      | nil => rfl
      | cons c r ih =>
        have ih := ih (C24_variants_agree r).1 (C24_variants_agree r).2
        have e : mapToUri (c :: r) = (if c.toNat < 128 then [c] else (utf8 c).flatMap pctUpper) ++ mapToUri r := rfl
        have e' : utf8s (c :: r) = utf8 c ++ utf8s r := rfl
        rw [e, e', blen_append, ih, List.filter_append, List.length_append, blen_cons]
        split
        · rename_i hc
          have : utf8 c = [c.toNat] := by rw [← ofNat_toNat c, utf8_ofNat_ascii hc, ofNat_toNat]
          rw [this]
          have h3 : ¬ 128 ≤ c.toNat := by omega
          simp [h3]
          omega
        · rename_i hc
          have : (utf8 c).filter (fun b => decide (128 ≤ b)) = utf8 c := by
            rw [List.filter_eq_self]
            intro b hb
            simpa using (utf8_nonascii (by omega) b hb).1
          rw [this, blen_pct_bytes (utf8_lt c), utf8_length_size]
          omega
    · rw [← utf8s_length]; exact List.length_filter_le _ _
  exact ⟨key.1, by omega⟩

/-- **C69**: percent-encoding makes a text at most three times as long, and never shorter. -/
theorem C69_percent_encode (S : Spec) (ctx : Context) (chunks : List Str) :
    blen chunks.flatten ≤ blen (percent_encode S ctx chunks) ∧
      blen (percent_encode S ctx chunks) ≤ 3 * blen chunks.flatten := by
  rw [(C22_encode S ctx chunks).2.2]
  generalize chunks.flatten = s
  induction s with
  | nil => exact ⟨Nat.le_refl _, Nat.zero_le _⟩
  | cons c r ih =>
    by_cases h : encodingRule S ctx [c]
    · rw [(C22_minimal S ctx c r).1 h, blen_cons, blen_cons]; omega
    · rw [(C22_minimal S ctx c r).2 h, blen_append, blen_cons, blen_pct_bytes (utf8_lt c), utf8_length_size]
      omega

theorem decToks_length (bs : List Nat) : (decToks bs).length ≤ bs.length := by
  induction bs using decToks.induct with
  | case1 => simp [decToks]
  | case2 h l r hx ih => rw [decToks, if_pos hx]; simp; omega
  | case3 h l r hx ih => rw [decToks, if_neg hx]; simp at ih ⊢; omega
  | case4 b r hne ih =>
    rw [decToks]
    · simp; omega
    · exact hne

theorem withoutStray_length (ts : List DecTok) : (ts.flatMap withoutStray).length ≤ ts.length := by
  induction ts with
  | nil => exact Nat.le_refl _
  | cons t r ih =>
    have : (withoutStray t).length ≤ 1 := by cases t <;> simp [withoutStray, DecTok.bytes]
    rw [List.flatMap_cons, List.length_append, List.length_cons]
    omega

/-- **C69**: percent-decoding never makes a text longer. -/
theorem C69_percent_decode (bs : List Nat) :
    ∃ out, into_bytes bs = some out ∧ out.length ≤ bs.length := by
  by_cases h : ∃ b, DecTok.triplet b ∈ decToks bs
  · obtain ⟨pre, seg, h, l, rest, h1, _, _, _, _, _, _, h2⟩ := (C23_into_bytes_exact bs).2 h
    refine ⟨_, h2, ?_⟩
    have h3 := decToks_length rest
    have h4 := withoutStray_length (decToks rest)
    rw [List.length_append, List.length_cons, List.length_take, h1, List.length_append, List.length_append,
      List.length_cons, List.length_cons, List.length_cons]
    omega
  · exact ⟨_, (C23_into_bytes_exact bs).1 (fun b hb => h ⟨b, hb⟩), Nat.le_refl _⟩

example : (encode_to_uri (chars! "a?α")).map blen = some (2 + 6) ∧ blen (chars! "a?α") = 2 + 2 ∧
    into_bytes (utf8s (chars! "%41b")) = some [0x41, 0x62] ∧
    percent_encode .uri .regName [chars! "α:"] = chars! "%CE%B1%3A" := by decide +kernel

end Verif
