import Verif.Props.Build
import Verif.Props.Decode

/-!
# C61: builds with overflow checks

The arithmetic on `u8` in the decoding of percent triplets can overflow.  `overflowChecks` is opaque, so every
theorem about normalization, resolution, building, percent-decoding and template expansion says already that
there is no panic in builds with overflow checks, and that the result is the same without them.  Here: the
two facts behind it, and the place where the builds differ.
-/

namespace Verif

open PathToNormalize
theorem take_zz : take_xdigits2 (chars! "zz") = if overflowChecks then none else some (0x43, []) := by
  have h1 : utf8s (chars! "zz") = [0x7a, 0x7a] := by decide +kernel
  have h2 : sliceFrom (chars! "zz") 2 = some [] := by decide +kernel
  have h3 : hexdigits_to_byte 0x7a 0x7a = if overflowChecks then none else some 0x43 := by
    cases h : overflowChecks <;> simp [hexdigits_to_byte, u8add, h]
  unfold take_xdigits2
  rw [h1]
  dsimp only
  rw [h3, h2]
  cases overflowChecks <;> rfl

theorem pct_zz : pct_case_normalized .uri (chars! "%zz") = if overflowChecks then none else some (chars! "C") := by
  have e : find_split_hole (chars! "%zz") '%' = some ([], chars! "zz") := by decide +kernel
  have e2 : is_ascii_unreserved (Char.ofNat 0x43) = true := by decide +kernel
  unfold pct_case_normalized
  rw [pct_case_go, e]
  dsimp only
  rw [take_zz]
  cases overflowChecks
  · simp [e2, pct_case_go, find_split_hole, findSplitHoleP]
  · rfl

theorem fmt_zz : (from_single_path (chars! "/%zz")).fmt_write_normalize .uri .default true =
    if overflowChecks then none else some (chars! "/C") := by
  have h0 : (from_single_path (chars! "/%zz")).is_empty = false := by decide +kernel
  have h1 : (from_single_path (chars! "/%zz")).remove_ignorable_prefix = some (from_single_path (chars! "/%zz")) := by decide +kernel
  have hl : (from_single_path (chars! "/%zz")).len + 1 = 5 := by decide +kernel
  have h2 : segments (from_single_path (chars! "/%zz")) = some [⟨true, 1, 4⟩] := by decide +kernel
  have h3 : skippedLen (from_single_path (chars! "/%zz")) [⟨true, 1, 4⟩] 0 = some 0 := by decide +kernel
  have h4 : (from_single_path (chars! "/%zz")).remove_start 0 = some (from_single_path (chars! "/%zz")) := by decide +kernel
  have h5 : scan (from_single_path (chars! "/%zz")) [⟨true, 1, 4⟩] ⟨List.replicate QUEUE_SIZE none, false, 0, 0, true⟩ =
    some ⟨some (chars! "%zz") :: List.replicate 7 none, true, 4, 1, false⟩ := by decide +kernel
  have h6 : (from_single_path (chars! "/%zz")).remove_start 4 = some ⟨[], none⟩ := by decide +kernel
  have h7 : emitQueue .uri true true .default (some (chars! "%zz") :: List.replicate 7 none) none =
      if overflowChecks then none else some (chars! "/C", some false) := by
    rw [emitQueue]
    unfold emit_segment writeText
    rw [show NormalizationMode.case_pct .default = true from rfl, if_pos rfl, pct_zz]
    cases overflowChecks
    · decide +kernel
    · rfl
  unfold fmt_write_normalize
  simp only [h0, h1, Option.bind_eq_bind, Option.bind_some, hl]
  rw [whileLoop]
  unfold resolve_and_write_path_prefixes
  simp only [h0, h2, h3, h4, h5, h6, h7, Option.bind_eq_bind, Option.bind_some]
  cases overflowChecks
  · decide +kernel
  · decide +kernel



/-- **C61** (overflow): the arithmetic does not overflow on hexadecimal digits, whichever build. -/
theorem C61_no_overflow (h l : Char) (hh : Rfc.HEXDIG h) (hl : Rfc.HEXDIG l) (r : Str) :
    take_xdigits2 (h :: l :: r) = some (hexVal h * 16 + hexVal l, r) :=
  take_xdigits2_eq (by rwa [HEXDIG_eq] at hh) (by rwa [HEXDIG_eq] at hl) r

/-- A builder whose path is not a path: the `%` does not start a triplet. -/
def zz : Builder where
  scheme := some (chars! "s")
  authority := some { host := .string (chars! "h") }
  path := chars! "/%zz"
  normalize := true

/-- **C61 is false of the code** for such a builder: with overflow checks `build` panics, and without them
`%zz` becomes the letter `C`. -/
theorem C61_overflow_refuted : (overflowChecks = true → zz.build .uri .iri = none) ∧
    (overflowChecks = false → ∃ B, zz.build .uri .iri = some (some B) ∧ B.display .uri = some (chars! "s://h/C")) := by
  have h1 : AuthorityBuilder.write .uri true { host := .string (chars! "h") } = some (chars! "h") := by decide +kernel
  have hc : ∀ k, zz.pathCheck .uri = k → zz.build .uri .iri = k.map fun x => if !x.1 then none else some ⟨zz, x.2⟩ := by
    rintro k rfl
    have h2 : optOk (AuthorityBuilder.ok .uri) zz.authority = true := by decide +kernel
    have h3 : optOk validate_scheme zz.scheme = true := by decide +kernel
    unfold Builder.build Builder.validate
    rw [h2, h3, show zz.kindOk .iri = true from rfl]
    cases zz.pathCheck .uri with
    | none => rfl
    | some x => obtain ⟨_ | _, y⟩ := x <;> rfl
  have hp : zz.pathCheck .uri = if overflowChecks then none else some (true, true) := by
    unfold Builder.pathCheck PathCharacteristic.from_path_to_display
    rw [show zz.path = chars! "/%zz" from rfl, show zz.authority.isSome = true from rfl, fmt_zz]
    cases overflowChecks <;> decide +kernel
  rw [hc _ hp]
  constructor
  · intro h; rw [h]; rfl
  · intro h
    rw [h]
    refine ⟨⟨zz, true⟩, rfl, ?_⟩
    unfold Built.display Builder.write Builder.writePath
    simp [zz, fmt_zz, h1, h]
    decide +kernel
end Verif
