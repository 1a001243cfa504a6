import Verif.Props.Reach
import Verif.Props.Contain

/-!
# C93: without dot segments, resolving is cutting and pasting
-/

namespace Verif

open Rfc PathToNormalize

/-- The text of an IRI up to its query and fragment. -/
def core (s : Str) : Str := s.takeWhile fun c => c != '?' && c != '#'

/-! ### Lemmas -/

theorem splitSlash_join (a b : Str) : splitSlash (a ++ '/' :: b) = splitSlash a ++ splitSlash b := by
  induction a with
  | nil => rw [List.nil_append, splitSlash_slash]; rfl
  | cons c r ih =>
    by_cases hc : c = '/'
    · subst hc
      rw [List.cons_append, splitSlash_slash, splitSlash_slash, ih]; rfl
    · obtain ⟨s, ss, h1, h2⟩ := splitSlash_cons hc r
      obtain ⟨s', ss', h3, h4⟩ := splitSlash_cons hc (r ++ '/' :: b)
      rw [List.cons_append, h4, h2]
      rw [ih, h1] at h3
      simp only [List.cons_append, List.cons.injEq] at h3
      obtain ⟨rfl, rfl⟩ := h3
      rfl

theorem dotFree_join {a b : Str} (ha : DotFree a) (hb : DotFree b) : DotFree (a ++ '/' :: b) := by
  intro n hn
  rw [splitSlash_join, List.mem_append] at hn
  exact hn.elim (ha n) (hb n)

theorem dotFree_left {a b : Str} (h : DotFree (a ++ '/' :: b)) : DotFree a := by
  intro n hn
  exact h n (by rw [splitSlash_join, List.mem_append]; exact .inl hn)

theorem last_slash_inj {a b c d : Str} (hb : '/' ∉ b) (hd : '/' ∉ d) (h : a ++ '/' :: b = c ++ '/' :: d) :
    a = c ∧ b = d := by
  have h1 := rfind_split_hole_eq (a := a) hb
  have h2 := rfind_split_hole_eq (a := c) hd
  rw [h, h2] at h1
  cases h1
  exact ⟨rfl, rfl⟩

section
variable {S : Spec} {b r : Parts}

/-- The text before the path. -/
def Parts.front (p : Parts) : Str := optPre p.scheme [':'] ++ optSuf ['/', '/'] p.authority

theorem core_parts (h : b.Valid S) : core b.recompose = b.front ++ b.path := by
  unfold core
  rw [cut_query h.delim]
  simp [Parts.recompose, Parts.front, optSuf]

theorem relative_text (hs : r.scheme = none) (ha : r.authority = none) :
    r.recompose = r.path ++ (optSuf ['?'] r.query ++ optSuf ['#'] r.fragment) := by
  unfold Parts.recompose
  rw [hs, ha]
  simp [optPre, optSuf]

/-- Resolving when the merged path has no dot segments. -/
theorem resolve_plain (hb : b.Valid S) (hbs : b.scheme ≠ none) (hr : r.Valid S) (hs : r.scheme = none)
    (ha : r.authority = none) (hp : r.path ≠ []) {m : Str}
    (hm : (if (r.path.take 1 == ['/']) = true then r.path else mergePaths b r.path) = m) (hd : DotFree m) :
    resolve S .off b.recompose r.recompose =
      some (b.front ++ m ++ (optSuf ['?'] r.query ++ optSuf ['#'] r.fragment)) := by
  obtain ⟨hv, _⟩ := merge_valid hb hbs hr
  have he := escape_valid hv
  rw [resolve_off_eq hb hbs hr]
  have hpe : r.path.isEmpty = false := by simpa using hp
  simp only [mergeReference, hs, ha, Option.isSome_none, Bool.false_eq_true, if_false, hpe, hm] at he
  simp only [transform, hs, ha, Option.isSome_none, Bool.false_eq_true, if_false, hpe, hm,
    C16_no_dots_unchanged _ hd, he]
  simp [Parts.recompose, Parts.front]

end

/-! ### The theorems -/

/-- **C93**: a relative path without dot segments takes the place of everything after the last slash of the base's
path. -/
theorem C93_relative (S : Spec) (base ref pre n : Str) (hb : validate_uri S base = some true)
    (hr : validate_uri_reference S ref = some true) (hrel : RelativePath ref)
    (hne : RiReferenceStr.path_str base ≠ []) (hc : core base = pre ++ '/' :: n) (hn : '/' ∉ n)
    (hd1 : DotFree (RiReferenceStr.path_str (pre ++ ['/']))) (hd2 : DotFree (RiReferenceStr.path_str ref)) :
    resolve S .off base ref = some (pre ++ '/' :: ref) := by
  obtain ⟨b, hbv, hbs, rfl⟩ := iri_parts' hb
  obtain ⟨r, hrv, rfl⟩ := reference_parts hr
  obtain ⟨h1, h2, h3, h4, h5⟩ := relativePath_parts hrv hrel
  rw [h5] at hd2
  rw [(parts_accessors hbv).2.2.1] at hne
  rw [core_parts hbv] at hc
  obtain ⟨x, hx⟩ := Option.ne_none_iff_exists'.1 hbs
  have hxd := hbv.delim.scheme x hx
  rcases mergePaths_cases b r.path with ⟨_, h, _⟩ | ⟨_, _, h⟩ | ⟨a, c, e1, e2, e3⟩
  · exact absurd h hne
  · exfalso
    rw [rfind_split_hole_none] at h
    have ha : b.authority = none := by
      cases ha : b.authority with
      | none => rfl
      | some y =>
        rcases hbv.withAuthority (by simp [ha]) with e | ⟨z, e⟩
        · exact absurd e hne
        · rw [e] at h; simp at h
    have : '/' ∈ b.front ++ b.path := by rw [hc]; simp
    unfold Parts.front at this
    rw [hx, ha] at this
    simp only [optPre, optSuf, List.mem_append, List.mem_singleton] at this
    rcases this with ((h | h) | h) | h
    · exact hxd.2.2.1 h
    · cases h
    · cases h
    · exact absurd h (by assumption)
  · have hcn : '/' ∉ c := (rfind_split_hole_some.1 e3).2
    rw [e1, ← List.append_assoc] at hc
    obtain ⟨e4, e5⟩ := last_slash_inj hcn hn hc
    have hdir : RiReferenceStr.path_str (pre ++ ['/']) = a ++ ['/'] := by
      have hpv : Parts.Valid S ⟨b.scheme, b.authority, a ++ ['/'], none, none⟩ := by
        refine ⟨hbv.scheme, hbv.authority, ?_, by simp, by simp, ?_, ?_, fun h => absurd h hbs⟩
        · have := path_iff.1 hbv.path
          rw [e1] at this
          have h := (PC_append_cons (by decide) (by decide)).1 this
          exact path_iff.2 ((PC_append_cons (by decide) (by decide)).2 ⟨h.1, h.2.1, .nil⟩)
        · intro ha
          right
          rcases hbv.withAuthority ha with e | ⟨z, e⟩
          · exact absurd e hne
          · rw [e1] at e
            cases a with
            | nil => exact ⟨[], rfl⟩
            | cons y a =>
              simp only [List.cons_append, List.cons.injEq] at e
              obtain ⟨rfl, _⟩ := e
              exact ⟨_, rfl⟩
        · intro ha z e
          have hz := hbv.withoutAuthority ha
          rw [e1] at hz
          cases a with
          | nil => cases e
          | cons y a =>
            simp only [List.cons_append, List.cons.injEq] at e
            obtain ⟨rfl, e⟩ := e
            cases a with
            | nil => exact hz c rfl
            | cons y a =>
              simp only [List.cons_append, List.cons.injEq] at e
              obtain ⟨rfl, e⟩ := e
              exact hz (a ++ '/' :: c) rfl
      have := (parts_accessors hpv).2.2.1
      have et : Parts.recompose ⟨b.scheme, b.authority, a ++ ['/'], none, none⟩ = pre ++ ['/'] := by
        rw [← e4]; simp [Parts.recompose, Parts.front, optSuf]
      rw [et] at this
      exact this
    rw [hdir] at hd1
    rw [resolve_plain hbv hbs hrv h1 h2 h3 (m := a ++ '/' :: r.path) (by rw [h4, if_neg (by simp), e2])
      (dotFree_join (dotFree_left hd1) hd2), relative_text h1 h2, ← e4]
    simp

/-- **C93**: after an authority without a path, a slash is put between them. -/
theorem C93_empty_path (S : Spec) (base ref : Str) (hb : validate_uri S base = some true)
    (hr : validate_uri_reference S ref = some true) (hrel : RelativePath ref)
    (hne : RiReferenceStr.path_str base = []) (ha : RiReferenceStr.authority_str base ≠ none)
    (hd : DotFree (RiReferenceStr.path_str ref)) :
    resolve S .off base ref = some (core base ++ '/' :: ref) := by
  obtain ⟨b, hbv, hbs, rfl⟩ := iri_parts' hb
  obtain ⟨r, hrv, rfl⟩ := reference_parts hr
  obtain ⟨h1, h2, h3, h4, h5⟩ := relativePath_parts hrv hrel
  rw [h5] at hd
  obtain ⟨_, k2, k3, _⟩ := parts_accessors hbv
  rw [k3] at hne
  rw [k2] at ha
  have hm : mergePaths b r.path = '/' :: r.path := by
    unfold mergePaths
    rw [if_pos]
    rw [hne]
    cases h : b.authority with
    | none => exact absurd h ha
    | some _ => rfl
  rw [resolve_plain hbv hbs hrv h1 h2 h3 (m := [] ++ '/' :: r.path) (by rw [h4, if_neg (by simp), hm]; rfl)
    (dotFree_join (by intro n hn; simp [splitSlash] at hn; subst hn; exact notDot_nil) hd),
    relative_text h1 h2, core_parts hbv, hne]
  simp

/-- **C93**: a path without any slash (and without an authority) is replaced. -/
theorem C93_no_directory (S : Spec) (base ref h : Str) (hb : validate_uri S base = some true)
    (hr : validate_uri_reference S ref = some true) (hrel : RelativePath ref)
    (hn : '/' ∉ RiReferenceStr.path_str base) (ha : RiReferenceStr.authority_str base = none)
    (hc : core base = h ++ RiReferenceStr.path_str base) (hd : DotFree (RiReferenceStr.path_str ref)) :
    resolve S .off base ref = some (h ++ ref) := by
  obtain ⟨b, hbv, hbs, rfl⟩ := iri_parts' hb
  obtain ⟨r, hrv, rfl⟩ := reference_parts hr
  obtain ⟨h1, h2, h3, h4, h5⟩ := relativePath_parts hrv hrel
  rw [h5] at hd
  obtain ⟨_, k2, k3, _⟩ := parts_accessors hbv
  rw [k3] at hn hc
  rw [k2] at ha
  rw [core_parts hbv] at hc
  have hf := List.append_cancel_right hc
  have hm : mergePaths b r.path = r.path := by
    rcases mergePaths_cases b r.path with ⟨_, _, h⟩ | ⟨h, _, _⟩ | ⟨a, c, e, _, _⟩
    · rw [ha] at h; cases h
    · exact h
    · rw [e] at hn; simp at hn
  rw [resolve_plain hbv hbs hrv h1 h2 h3 (m := r.path) (by rw [h4, if_neg (by simp), hm]) hd,
    relative_text h1 h2, hf]
  simp

/-- **C93**: an absolute path without dot segments takes the place of everything after the authority. -/
theorem C93_absolute_path (S : Spec) (base ref h : Str) (hb : validate_uri S base = some true)
    (hr : validate_uri_reference S ref = some true) (hrs : RiReferenceStr.scheme_str ref = none)
    (hra : RiReferenceStr.authority_str ref = none) (hrp : ∃ x, RiReferenceStr.path_str ref = '/' :: x)
    (hc : core base = h ++ RiReferenceStr.path_str base) (hd : DotFree (RiReferenceStr.path_str ref)) :
    resolve S .off base ref = some (h ++ ref) := by
  obtain ⟨b, hbv, hbs, rfl⟩ := iri_parts' hb
  obtain ⟨r, hrv, rfl⟩ := reference_parts hr
  obtain ⟨a1, a2, a3, _⟩ := parts_accessors hrv
  rw [a1] at hrs
  rw [a2] at hra
  rw [a3] at hrp hd
  obtain ⟨x, hx⟩ := hrp
  rw [(parts_accessors hbv).2.2.1, core_parts hbv] at hc
  have hf := List.append_cancel_right hc
  rw [resolve_plain hbv hbs hrv hrs hra (by rw [hx]; simp) (m := r.path) (by rw [hx]; simp) hd,
    relative_text hrs hra, hf]
  simp

/-! Concrete cases; the first goes through the theorem. -/

example : resolve .uri .off (chars! "http://h/a/b?q/r#f") (chars! "c/d?k") = some (chars! "http://h/a/c/d?k") :=
  C93_relative .uri _ _ (chars! "http://h/a") (chars! "b") (by decide +kernel) (by decide +kernel)
    ⟨by decide +kernel, by decide +kernel, by decide +kernel, by
      intro r h
      rw [show RiReferenceStr.path_str (chars! "c/d?k") = chars! "c/d" by decide +kernel] at h
      cases h⟩
    (by decide +kernel) (by decide +kernel) (by decide) (by unfold DotFree NotDot; decide +kernel)
    (by unfold DotFree NotDot; decide +kernel)

example : resolve .uri .off (chars! "http://h/a/b?q/r#f") (chars! "c/d?k") = some (chars! "http://h/a/" ++ chars! "c/d?k") ∧
    core (chars! "http://h/a/b?q/r#f") = chars! "http://h/a" ++ '/' :: chars! "b" := by decide +kernel
example : resolve .uri .off (chars! "http://h?q") (chars! "c/e") = some (chars! "http://h/c/e") := by decide +kernel
example : resolve .uri .off (chars! "a:b?q") (chars! "c/e") = some (chars! "a:c/e") := by decide +kernel
example : resolve .uri .off (chars! "http://h/a/../b") (chars! "/c//d") = some (chars! "http://h/c//d") := by decide +kernel

end Verif
