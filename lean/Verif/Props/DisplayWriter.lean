import Verif.Lemmas.DisplayWriterAll
import Verif.Props.Resolve
import Verif.Props.Normalize
import Verif.Props.Build
import Verif.Props.Edit
import Verif.Props.Encode
import Verif.Props.Convert

/-!
# C60: formatting the values of the API into writers that may fail

`F` is any way in which the standard library can split triplets, integers and addresses into calls,
`dbg` is `cfg(debug_assertions)`.  That there is no panic includes that no `debug_assert!` of the
formatting code fails.
-/

namespace Verif

open Verif.Abnf Verif.Rfc Verif.Out Verif.Tpl PathToNormalize

/-- **C60** for resolution in every mode. -/
theorem C60_resolve (F : StdPieces) (hF : F.Ok) (dbg : Bool) (S : Spec) (mode : NormalizationMode)
    (base ref : Str) (hb : validate_uri S base = some true) (hr : validate_uri_reference S ref = some true) :
    ∃ t, resolve S mode base ref = some t ∧ Displays (resolveW F dbg S mode base ref) t := by
  obtain ⟨t, ht, _⟩ := C15_resolve_valid S mode base ref hb hr
  refine ⟨t, ht, ?_⟩
  obtain ⟨b, hbv, hbs, rfl⟩ := iri_parts' hb
  obtain ⟨r, hrv, rfl⟩ := reference_parts hr
  have h := resolveW_writes hF dbg S mode hbv hbs hrv
  rw [ht] at h
  exact h.displays

/-- **C60** for both normalizations. -/
theorem C60_normalize (F : StdPieces) (hF : F.Ok) (dbg : Bool) (S : Spec) (s : Str)
    (h : validate_uri S s = some true) :
    (∃ t, normalize S s = some t ∧ Displays (normalizeW F dbg S .default s) t) ∧
    (∃ t, normalize_but_preserve_authorityless_relative_path S s = some t ∧
      Displays (normalizeW F dbg S .preserve s) t) := by
  obtain ⟨⟨t, ht, _⟩, ⟨u, hu, _⟩⟩ := C17_normalize_valid S s h
  refine ⟨⟨t, ht, ?_⟩, ⟨u, hu, ?_⟩⟩
  · have h := normalizeW_writes hF dbg S .default s
    rw [show (NormalizationInput.from_iri s).bind (fun i => (i.withMode .default).display S) = some t from ht] at h
    exact h.displays
  · have h := normalizeW_writes hF dbg S .preserve s
    rw [show (NormalizationInput.from_iri s).bind (fun i => (i.withMode .preserve).display S) = some u from hu] at h
    exact h.displays

/-- **C60** for built values: whenever the text can be made at all (C28, C30). -/
theorem C60_built (F : StdPieces) (hF : F.Ok) (dbg : Bool) (S : Spec) (b : Built) (t : Str)
    (h : b.display S = some t) : Displays (builtW F dbg S b) t := by
  have hw := builtW_writes hF dbg S b
  rw [h] at hw
  exact hw.displays

/-- **C60** for built values without normalization: the text can always be made. -/
theorem C60_built_raw (F : StdPieces) (hF : F.Ok) (dbg : Bool) (S : Spec) (k : IriKind) (b : Builder)
    (hn : b.normalize = false) (B : Built) (hB : b.build S k = some (some B)) :
    ∃ t, B.display S = some t ∧ Displays (builtW F dbg S B) t := by
  obtain ⟨h1, h2⟩ := C28_build_raw S k b hn
  by_cases ha : BuildSpec.Acceptable S k b
  · obtain ⟨B', h3, h4⟩ := h1 ha
    rw [hB] at h3
    cases h3
    exact ⟨_, h4, C60_built F hF dbg S B _ h4⟩
  · rw [h2 ha] at hB
    cases hB

/-- **C60** for `encode_to_uri()`, of any text. -/
theorem C60_encode_to_uri (dbg : Bool) (s : Str) :
    ∃ t, encode_to_uri s = some t ∧ Displays (encodeToUriW dbg s) t := by
  obtain ⟨h, _⟩ := C24_variants_agree s
  refine ⟨_, h, ?_⟩
  have hw := writePercentEncodedW_writes dbg (s.length + 1) s
  rw [show writePercentEncodedGo (s.length + 1) s = _ from h] at hw
  exact hw.displays

/-- **C60** for the percent-encoding wrappers, of a value that writes any pieces. -/
theorem C60_percent_encoded (F : StdPieces) (hF : F.Ok) (S : Spec) (ctx : Context) (raw : List Str) :
    Displays (percentEncodedW F S ctx raw) (percent_encode S ctx raw) :=
  (percentEncodedW_writes hF S ctx raw).displays

theorem password_texts {S : Spec} {s : Str} (h : validate_uri_reference S s = some true) (f : Str → Str) :
    (∃ t, mask_password s = some t) ∧ ∃ t, replace_password_with s f = some t := by
  obtain ⟨p, hv, rfl⟩ := reference_parts h
  by_cases hw : ∃ a user pw, HasPassword S p a user pw
  · obtain ⟨a, user, pw, hw⟩ := hw
    obtain ⟨h1, _, _, h2⟩ := C25_mask_password S .reference p.recompose h p ⟨hv, rfl⟩ a user pw hw
    exact ⟨⟨_, h1⟩, ⟨_, h2 f⟩⟩
  · have hn : ∀ a user pw, ¬ HasPassword S p a user pw := fun a user pw h => hw ⟨a, user, pw, h⟩
    refine ⟨⟨_, (C25_mask_no_password S _ p ⟨hv, rfl⟩ hn).1⟩, ?_⟩
    rcases no_password_cases hv hn with hr | ⟨a, u, ha, hav, hu, hc⟩
    · exact ⟨p.recompose, by unfold replace_password_with; rw [hr]; rfl⟩
    · have hr := range_no_colon hv ha hav hu hc
      have ht : p.recompose = preAuth p ++ u ++ ('@' :: (a.host ++ optSuf [':'] a.port) ++ postAuth p) := by
        rw [recompose_userinfo ha hu, List.append_assoc]
      have ht' : p.recompose = preAuth p ++ u ++ ([] ++ ('@' :: (a.host ++ optSuf [':'] a.port) ++ postAuth p)) := by
        rw [ht]; rfl
      unfold replace_password_with write_with_masked_password
      rw [hr]
      have h3 := slice_eq (s := p.recompose) (a := preAuth p ++ u) (b := [])
        (c := '@' :: (a.host ++ optSuf [':'] a.port) ++ postAuth p) (by rw [ht]; simp) rfl rfl
      simp only [Nat.add_zero, blen_nil] at h3
      simp only [Option.bind_eq_bind, Option.bind_some, h3, sliceTo_eq ht rfl, sliceFrom_eq ht rfl]
      exact ⟨_, rfl⟩

/-- **C60** for `mask_password()`. -/
theorem C60_mask_password (dbg : Bool) (S : Spec) (s : Str) (h : validate_uri_reference S s = some true) :
    ∃ t, mask_password s = some t ∧ Displays (maskPasswordW dbg s) t := by
  obtain ⟨t, ht⟩ := (password_texts h id).1
  exact ⟨t, ht, (maskPasswordW_writes dbg ht).displays⟩

/-- **C60** for `replace_password`/`replace_password_with`, with a replacement that writes any pieces. -/
theorem C60_replace_password (dbg : Bool) (S : Spec) (s : Str) (f : Str → List Str)
    (h : validate_uri_reference S s = some true) :
    ∃ t, replace_password_with s (fun p => (f p).flatten) = some t ∧ Displays (replacePasswordW dbg s f) t := by
  obtain ⟨t, ht⟩ := (password_texts h fun p => (f p).flatten).2
  exact ⟨t, ht, (replacePasswordW_writes dbg f ht).displays⟩

/-- `Displays` in the terms of a user: with a writer that accepts everything (a `String`) the whole text is
written; with any other writer, a beginning of it, and an error is reported exactly if a call failed. -/
theorem C60_displays_text (run : Writer (List Str) → WM (List Str) Unit) (text : Str) (h : Displays run text) :
    (∃ calls, run (sink fun _ => true) [] = some (calls, some ()) ∧ calls.flatten = text) ∧
    ∀ ok : List Str → Bool, ∃ calls res, run (sink ok) [] = some (calls, res) ∧ calls.flatten <+: text ∧
      (res = some () → AllAccepted ok calls ∧ calls.flatten = text) ∧ (res = none → LastFailed ok calls) := by
  obtain ⟨ps, h1, h2⟩ := h
  constructor
  · rcases h2 fun _ => true with ⟨_, h⟩ | ⟨calls, _, h, _⟩
    · exact ⟨ps, h, h1⟩
    · exact absurd h.2.2 (by simp)
  · intro ok
    rcases h2 ok with ⟨ha, h⟩ | ⟨calls, hp, hl, h⟩
    · exact ⟨ps, _, h, by rw [h1]; exact List.prefix_rfl, fun _ => ⟨ha, h1⟩, by simp⟩
    · refine ⟨calls, _, h, ?_, by simp, fun _ => hl⟩
      obtain ⟨r, rfl⟩ := hp
      rw [← h1, List.flatten_append]
      exact ⟨_, rfl⟩

/-! ### The writers inside the library that stop early

The text-level model formats to the end where the code stops early; the results are the same. -/

/-- `ensure_rfc3986_normalizable` of an IRI: the writer that keeps three bytes. -/
theorem C60_ensure_rfc3986 (F : StdPieces) (hF : F.Ok) (dbg : Bool) (path : Str) :
    ∃ b, (from_single_path path).ensure_rfc3986_normalizable_with_authority_absent = some b ∧
      ensureRfc3986W F dbg (from_single_path path) = some b := by
  have hi := from_single_path_inv path
  obtain ⟨b, h1, _⟩ := ensure_path _ hi.1
  exact ⟨b, h1, ensureRfc3986W_eq hF dbg hi.1 h1⟩

/-- The path check of a normalizing builder: the writer that looks at the beginning of the path. -/
theorem C60_path_characteristic (F : StdPieces) (hF : F.Ok) (dbg : Bool) (S : Spec) (path : Str) (auth : Bool)
    (c : PathCharacteristic)
    (h : PathCharacteristic.from_path_to_display S (from_single_path path) auth = some c) :
    fromPathToDisplayW F dbg S (from_single_path path) auth = some c :=
  fromPathToDisplayW_eq hF dbg S (from_single_path_inv path).1 auth h

/-- The comparison with a normalized text: the writer that stops at the first difference. -/
theorem C60_is_pct_case_normalized (F : StdPieces) (hF : F.Ok) (dbg : Bool) (S : Spec) (s : Str) (b : Bool)
    (h : is_pct_case_normalized S s = some b) : eqStrDisplayW s (fun w => pctCaseW F dbg S w s) = some b := by
  unfold is_pct_case_normalized eq_str_display at h
  rw [Option.map_eq_some_iff] at h
  obtain ⟨t, ht, rfl⟩ := h
  have hw := pctCaseW_writes hF dbg S s
  rw [ht] at hw
  exact eqStrDisplayW_eq hw s

/-! ### Concrete cases -/

/-- A standard library that writes every character in a call of its own. -/
def oneByOne : StdPieces where
  hex b := (writePct b).map fun c => [c]
  colonInt n := (':' :: Verif.decimal n.toNat).map fun c => [c]
  colonStr s := (':' :: s).map fun c => [c]
  v4 a b c d := (ipv4Display a.toNat b.toNat c.toNat d.toNat).map fun c => [c]
  v6 a := ('[' :: (a.display ++ [']'])).map fun c => [c]

theorem oneByOne_ok : oneByOne.Ok := by
  constructor <;> intros <;>
    exact (flatten_map_single (fun c => c) _).trans (by simp)

example : resolveW oneByOne true .uri .default (chars! "HTTP://u@h:/a/b") (chars! "../%7e%2f?q") (sink fun _ => true) [] =
    some ([['h'], ['t'], ['t'], ['p'], [':'], ['/', '/'], ['u'], ['@'], ['h'], ['/'], [], ['~'], [],
      ['%'], ['2'], ['F'], ['?'], ['q']], some ()) := by decide +kernel

example : resolveW oneByOne true .uri .default (chars! "HTTP://u@h:/a/b") (chars! "../%7e%2f?q")
    (sink fun calls => calls.length < 5) [] =
    some ([['h'], ['t'], ['t'], ['p'], [':']], none) := by decide +kernel

example : builtW oneByOne true .uri ⟨{ scheme := some ['a'], authority := some {
    userinfo := .userPass ['u'] (some ['p']), host := .ipv4 127 0 0 1, port := .integer 80 } }, false⟩
    (sink fun calls => calls.flatten.length < 9) [] =
    some ([['a'], [':'], ['/', '/'], ['u'], [':'], ['p'], ['@'], ['1']], none) := by decide +kernel

example : maskPasswordW true (chars! "ftp://u:secret@h/") (sink fun calls => calls.length < 2) [] =
    some ([chars! "ftp://u:", []], none) := by decide +kernel

example : encodeToUriW true (chars! "http://α/b") (sink fun calls => calls.length < 2) [] =
    some ([chars! "http://", chars! "%CE%B1"], none) := by decide +kernel

end Verif
