import Verif.Lemmas.Format
import Verif.Lemmas.Decode
import Verif.Props.Normalize
import Verif.Props.Convert
import Verif.Props.Edit
import Verif.Props.Build

/-!
# C36: displayable-to-string helpers are faithful

`Display` (see `Spec/Format.lean`) is an arbitrary `Display` implementation: any sequence of writes
in any chunks, chosen by looking at the results of the writes so far.  `Display.text` is what it
displays on a writer that accepts everything.
-/

namespace Verif

open Rfc BuildSpec

/-- **C36** (`eq_str_display`): for every value that passes write errors on, and whatever its
chunks are, the comparison is exactly equality with the displayed text. -/
theorem C36_eq_str_display (s : Str) (d : Display) (h : d.Honest) :
    Fmt.eq_str_display s d = true ↔ d.text = (s, true) := by
  unfold Fmt.eq_str_display
  simp only [Bool.and_eq_true, List.isEmpty_iff]
  exact Fmt.run_cmp h s

/-- **C36**: so it does not depend on how the text is cut into chunks. -/
theorem C36_eq_str_display_chunks (s : Str) (l : List Str) :
    Fmt.eq_str_display s (.chunks l) = (s == l.flatten) := by
  have h := C36_eq_str_display s (.chunks l) (.chunks l)
  rw [Display.text_chunks] at h
  cases h2 : Fmt.eq_str_display s (.chunks l) with
  | true =>
    have := h.1 h2
    simp only [Prod.mk.injEq, and_true] at this
    simp [this]
  | false =>
    symm
    rw [beq_eq_false_iff_ne]
    rintro rfl
    rw [h.2 rfl] at h2; cases h2

/-- Without the contract of `Display` (errors are passed on) the comparison can be fooled: this
implementation displays `x` but compares equal to the empty string. -/
theorem C36_eq_needs_honest :
    Fmt.eq_str_display [] (.write ['x'] fun _ => .done true) = true ∧
    (Display.write ['x'] fun _ => .done true).text = (['x'], true) := by decide +kernel

/-- **C36** (`write_to_slice`): never panics, for every `Display` and every buffer.  If the displayed
text fits, it is returned, and the buffer holds its bytes followed by the old contents; otherwise
the result is the capacity error.  The length of the buffer never changes. -/
theorem C36_write_to_slice (buf : List Nat) (d : Display) (h : d.Honest) :
    (∀ t, d.text = (t, true) → blen t ≤ buf.length →
      Fmt.write_to_slice buf d = some (some t, utf8s t ++ buf.drop (blen t))) ∧
    ((∀ t, d.text = (t, true) → buf.length < blen t) →
      ∃ buf', Fmt.write_to_slice buf d = some (none, buf') ∧ buf'.length = buf.length) := by
  have h0 : Fmt.BufInv buf ⟨[], buf, 0⟩ [] := ⟨rfl, rfl, Nat.zero_le _, by simp [blen]⟩
  have hr := Fmt.run_buf h _ _ h0
  simp only [List.nil_append] at hr
  constructor
  · intro t ht hl
    rw [ht] at hr
    obtain ⟨h1, h2⟩ := hr.1 rfl hl
    obtain ⟨h3, h4, h5, h6⟩ := Fmt.buf_after h2
    unfold Fmt.write_to_slice
    dsimp only
    rw [h1, if_neg (by simp), if_pos (by rw [h4]; exact h5), h6, (from_utf8_iff _ _).2 rfl, h3]
  · intro hl
    have h1 := hr.2 (by
      rintro ⟨h1, h2⟩
      have := hl d.text.1 (by rw [← h1])
      omega)
    obtain ⟨t', h2⟩ := Fmt.run_buf_any d _ _ h0
    obtain ⟨h3, h4, h5, h6⟩ := Fmt.buf_after h2
    refine ⟨_, ?_, h4⟩
    unfold Fmt.write_to_slice
    simp only [h1, if_true]

/-- **C36**: also for an implementation that ignores write errors `write_to_slice` does not panic,
and the text it returns is what the buffer now begins with. -/
theorem C36_write_to_slice_total (buf : List Nat) (d : Display) :
    ∃ r buf', Fmt.write_to_slice buf d = some (r, buf') ∧ buf'.length = buf.length ∧
      ∀ t, r = some t → buf' = utf8s t ++ buf.drop (blen t) := by
  have h0 : Fmt.BufInv buf ⟨[], buf, 0⟩ [] := ⟨rfl, rfl, Nat.zero_le _, by simp [blen]⟩
  obtain ⟨t', h2⟩ := Fmt.run_buf_any d _ _ h0
  obtain ⟨h3, h4, h5, h6⟩ := Fmt.buf_after h2
  unfold Fmt.write_to_slice
  simp only [h4, h5, h6, if_true, (from_utf8_iff _ _).2 rfl]
  split
  · exact ⟨_, _, rfl, h4, fun t e => by cases e⟩
  · refine ⟨_, _, rfl, h4, fun t e => ?_⟩
    cases e; exact h3

/-- **C36** (`try_append_to_string`), for every behaviour of the allocator.  `Ok`: the displayed text
has been appended.  `Err`: the allocator did refuse, and what has been appended is a prefix of the
text.  Panic: only if the value itself failed to format. -/
theorem C36_try_append_to_string (alloc : Nat → Bool) (dest : Str) (d : Display) (h : d.Honest) :
    (∀ dest', Fmt.try_append_to_string alloc dest d = some (true, dest') →
      d.text.2 = true ∧ dest' = dest ++ d.text.1) ∧
    (∀ dest', Fmt.try_append_to_string alloc dest d = some (false, dest') →
      (∃ n, alloc n = false) ∧ ∃ p q, d.text.1 = p ++ q ∧ dest' = dest ++ p) ∧
    (Fmt.try_append_to_string alloc dest d = none → d.text.2 = false) := by
  have hr := (Fmt.run_str alloc d ⟨dest, false, 0⟩).2 rfl
  have hh := Fmt.run_str_honest (alloc := alloc) h ⟨dest, false, 0⟩ rfl
  unfold Fmt.try_append_to_string
  generalize hx : d.run (Fmt.StringWriter.write alloc) ⟨dest, false, 0⟩ = r at *
  obtain ⟨w, ok⟩ := r
  dsimp only at hr hh ⊢
  cases he : w.error with
  | false =>
    obtain ⟨h1, h2⟩ := hr.1 he
    cases ok with
    | true => simp only [Bool.true_eq_false, if_false, Option.some.injEq, Prod.mk.injEq, true_and]; exact ⟨fun _ e => by rw [← e]; exact ⟨h1.symm, h2⟩, by simp, by simp⟩
    | false => simp [← h1]
  | true =>
    have := hh he
    subst this
    obtain ⟨h1, p, q, h2, h3⟩ := hr.2 he
    simp only [if_true, Option.some.injEq, Prod.mk.injEq, Bool.false_eq_true, false_and, true_and]
    refine ⟨by simp, fun _ e => ⟨h1, p, q, h2, ?_⟩, by simp⟩
    rw [← e]; exact h3

/-- **C36** (`try_append_to_string`, `try_to_string`) when the allocator grants everything: the text is
appended, and it panics exactly if the value itself fails to format. -/
theorem C36_append_ok (alloc : Nat → Bool) (ha : ∀ n, alloc n = true) (dest : Str) (d : Display) :
    Fmt.try_append_to_string alloc dest d =
      (if d.text.2 then some (true, dest ++ d.text.1) else none) ∧
    Fmt.try_to_string alloc d = (if d.text.2 then some (some d.text.1) else none) := by
  have key : ∀ dest, Fmt.try_append_to_string alloc dest d =
      (if d.text.2 then some (true, dest ++ d.text.1) else none) := by
    intro dest
    have he := Fmt.run_str_ok ha d ⟨dest, false, 0⟩ rfl
    obtain ⟨h1, h2⟩ := ((Fmt.run_str alloc d ⟨dest, false, 0⟩).2 rfl).1 he
    unfold Fmt.try_append_to_string
    simp only [he, h1, h2]
    cases d.text.2 <;> simp
  refine ⟨key dest, ?_⟩
  unfold Fmt.try_to_string
  rw [key []]
  cases d.text.2 <;> simp

/-- **C36** (`try_to_string`), for every behaviour of the allocator: a result is the displayed text,
and an error means that the allocator refused. -/
theorem C36_try_to_string (alloc : Nat → Bool) (d : Display) (h : d.Honest) :
    (∀ s, Fmt.try_to_string alloc d = some (some s) → d.text = (s, true)) ∧
    (Fmt.try_to_string alloc d = some none → ∃ n, alloc n = false) ∧
    (Fmt.try_to_string alloc d = none → d.text.2 = false) := by
  obtain ⟨h1, h2, h3⟩ := C36_try_append_to_string alloc [] d h
  unfold Fmt.try_to_string
  cases hx : Fmt.try_append_to_string alloc [] d with
  | none => exact ⟨by simp, by simp, fun _ => h3 hx⟩
  | some r =>
    obtain ⟨ok, s⟩ := r
    cases ok with
    | true =>
      refine ⟨fun t e => ?_, by simp, by simp⟩
      simp only [Option.some.injEq] at e
      subst e
      obtain ⟨h4, h5⟩ := h1 _ hx
      simp only [List.nil_append] at h5
      rw [h5, ← h4]
    | false => exact ⟨by simp, fun _ => (h2 _ hx).1, by simp⟩

/-- What a dedicated-string conversion of a value with displayed text `t` has to do: produce exactly
`t`, which is valid for the target type, or report an allocation failure; and never panic, in
release and in debug builds. -/
def DedicatedOk (validate : Str → Option Bool) (t : Str) : Prop :=
  validate t = some true ∧
  ∀ (debug : Bool) (d : Display), d.Honest → d.text = (t, true) → ∀ alloc,
    (Fmt.try_to_dedicated_string debug validate alloc d = some (some t) ∨
      (Fmt.try_to_dedicated_string debug validate alloc d = some none ∧ ∃ n, alloc n = false)) ∧
    ((∀ n, alloc n = true) → Fmt.try_to_dedicated_string debug validate alloc d = some (some t))

theorem dedicatedOk {validate : Str → Option Bool} {t : Str} (hv : validate t = some true) :
    DedicatedOk validate t := by
  refine ⟨hv, fun debug d hd ht alloc => ?_⟩
  obtain ⟨h1, h2, h3⟩ := C36_try_to_string alloc d hd
  unfold Fmt.try_to_dedicated_string
  constructor
  · cases hx : Fmt.try_to_string alloc d with
    | none => have := h3 hx; rw [ht] at this; cases this
    | some r =>
      cases r with
      | none => exact .inr ⟨rfl, h2 hx⟩
      | some s =>
        have := h1 _ hx
        rw [ht] at this
        cases this
        left
        simp [hv]
  · intro ha
    rw [(C36_append_ok alloc ha [] d).2, ht]
    simp [hv]

/-- **C36** (`to_dedicated_string` equals `Display`) for `Normalized<RiStr>` and
`Normalized<RiAbsoluteStr>`. -/
theorem C36_normalized_dedicated (S : Spec) (s : Str) :
    (validate_uri S s = some true → ∃ t, normalize S s = some t ∧ DedicatedOk (validate_uri S) t) ∧
    (validate_absolute_uri S s = some true →
      ∃ t, normalize S s = some t ∧ DedicatedOk (validate_absolute_uri S) t) := by
  constructor
  · intro h
    obtain ⟨⟨t, h1, h2⟩, _⟩ := C17_normalize_valid S s h
    exact ⟨t, h1, dedicatedOk h2⟩
  · intro h
    obtain ⟨⟨t, h1, h2⟩, _⟩ := C17_normalize_absolute S s h
    exact ⟨t, h1, dedicatedOk h2⟩

/-- **C36** (`to_dedicated_string` equals `Display`) for `MappedToUri`. -/
theorem C36_mapped_dedicated (S : Spec) (k : IriKind) (s : Str) (h : k.validate S s = some true) :
    ∃ t, encode_to_uri s = some t ∧ DedicatedOk (k.validate .uri) t := by
  obtain ⟨u, h1, _, h3, _⟩ := C24_encode_to_uri S k s h
  exact ⟨u, h1, dedicatedOk h3⟩

theorem validate_of_grammar {S : Spec} {k : IriKind} {s : Str} (h : grammar S k s) :
    k.validate S s = some true := by
  cases k with
  | reference => exact (C02_iri_reference_validation S s).1.2 h
  | iri => exact (C01_iri_validation S s).1.2 h
  | absolute => exact (C04_absolute_validation_partial S s).1.2 (.inl h)
  | relative => exact (C03_relative_ref_validation S s).1.2 h

/-- **C36** (`to_dedicated_string` equals `Display`) for `Built`, in the situations in which the
built text is valid (C28): the path is generated by the grammar, and with normalization it is not
the case excluded in C30. -/
theorem C36_built_dedicated (S : Spec) (k : IriKind) (b : Builder) (hp : Rfc.path S b.path)
    (hr : b.normalize = true → ¬ RootPathCase b) (B : Built) (hB : b.build S k = some (some B)) :
    ∃ t, B.display S = some t ∧ DedicatedOk (k.validate S) t := by
  cases hn : b.normalize with
  | false =>
    obtain ⟨s, h1, h2, _⟩ := C28_output_valid_partial S k b hn hp B hB
    exact ⟨s, h1, dedicatedOk (validate_of_grammar h2)⟩
  | true =>
    obtain ⟨h1, h2⟩ := C30_build_normalized_partial S k b hn hp (hr hn)
    by_cases ha : Acceptable S k b
    · obtain ⟨B', q, h3, h4, _, h5, _⟩ := h1 ha
      rw [hB] at h3
      cases h3
      exact ⟨_, h4, dedicatedOk (validate_of_grammar h5)⟩
    · rw [h2 ha] at hB; cases hB

/-- **C36** (`to_dedicated_string` equals `Display`) for `PasswordMasked`, which copies the two sides
of the password itself. -/
theorem C36_masked_dedicated (S : Spec) (k : IriKind) (s : Str) (h : k.validate S s = some true) :
    ∃ t, mask_password s = some t ∧ mask_password_dedicated s = some t ∧
      k.validate S t = some true := by
  obtain ⟨p, hp, _, rfl⟩ := (kind_validate_iff S k s).1 h
  by_cases hw : ∃ a user pw, HasPassword S p a user pw
  · obtain ⟨a, user, pw, hw⟩ := hw
    obtain ⟨h1, h2, h3, _⟩ := C25_mask_password S k _ h p ⟨hp, rfl⟩ a user pw hw
    exact ⟨_, h1, h2, h3⟩
  · obtain ⟨h1, h2⟩ := C25_mask_no_password S _ p ⟨hp, rfl⟩ fun a u w hx => hw ⟨a, u, w, hx⟩
    exact ⟨_, h1, h2, h⟩

example : Fmt.eq_str_display (chars! "あbc") (.chunks [chars! "あ", [], chars! "bc"]) = true := by
  decide +kernel

example : Fmt.write_to_slice [0, 0, 0, 0, 7] (.chunks [chars! "あ", chars! "b"]) =
    some (some (chars! "あb"), [0xE3, 0x81, 0x82, 0x62, 7]) := by decide +kernel

example : Fmt.write_to_slice [0, 0, 0, 7] (.chunks [chars! "あ", chars! "bc"]) =
    some (none, [0xE3, 0x81, 0x82, 7]) := by decide +kernel

example : Fmt.try_append_to_string (· != 1) (chars! "x") (.chunks [chars! "a", chars! "b"]) =
    some (false, chars! "xa") := by decide +kernel

end Verif
