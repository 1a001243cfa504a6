import Verif.Lemmas.Encode
import Verif.Spec.Lit

/-!
# C22: percent-encoding for a component
-/

namespace Verif

open Abnf Rfc

/-- What the result of each `PercentEncoded` constructor has to be. -/
def encodingRule (S : Spec) : Context → Lang
  | .regName => reg_name S
  | .userOrPassword => userOrPassword S
  | .pathSegment => segment S
  | .path => path S
  | .query => query S
  | .fragment => fragment S
  | .unreserve => unreservedText S
  | .character => anyText S

theorem unreservedText_iff (S : Spec) (s : Str) : unreservedText S s ↔ PC (iunreserved S) s := by
  apply star_unit_iff
  intro s
  simp only [alt, chr, unit]
  constructor
  · rintro (⟨c, rfl, h⟩ | h)
    · refine .inl ⟨c, rfl, ?_, h⟩
      rintro rfl; rw [iunreserved_pct] at h; cases h
    · exact .inr h
  · rintro (⟨c, rfl, _, h⟩ | h)
    · exact .inl ⟨c, rfl, h⟩
    · exact .inr h

theorem anyText_iff (S : Spec) (s : Str) : anyText S s ↔ PC (ctxC S .character) s := by
  apply star_unit_iff
  intro s
  have hp := ctxC_pct S .character
  simp only [alt, chr, unit, ctxC] at *
  constructor
  · intro h
    have key : (∃ c, s = [c] ∧ (iunreserved S c || queryPrivate S c || gen_delims c || sub_delims c) = true)
        ∨ pct_encoded s := by
      rcases h with ⟨c, e, h⟩ | ⟨c, e, h⟩ | ⟨c, e, h⟩ | ⟨c, e, h⟩ | h
      · exact .inl ⟨c, e, by simp [h]⟩
      · exact .inl ⟨c, e, by simp [h]⟩
      · exact .inl ⟨c, e, by simp [h]⟩
      · exact .inl ⟨c, e, by simp [h]⟩
      · exact .inr h
    rcases key with ⟨c, e, h⟩ | h
    · refine .inl ⟨c, e, ?_, h⟩
      rintro rfl; rw [hp] at h; cases h
    · exact .inr h
  · rintro (⟨c, e, _, h⟩ | h)
    · simp only [Bool.or_eq_true] at h
      rcases h with ((h | h) | h) | h
      · exact .inl ⟨c, e, h⟩
      · exact .inr (.inl ⟨c, e, h⟩)
      · exact .inr (.inr (.inl ⟨c, e, h⟩))
      · exact .inr (.inr (.inr (.inl ⟨c, e, h⟩)))
    · exact .inr (.inr (.inr (.inr h)))

theorem encodingRule_iff (S : Spec) (ctx : Context) (s : Str) :
    encodingRule S ctx s ↔ PC (ctxC S ctx) s := by
  cases ctx with
  | regName => exact reg_name_iff S s
  | userOrPassword =>
    show userinfo S s ∧ ':' ∉ s ↔ _
    rw [userinfo_iff]
    constructor
    · rintro ⟨h, hc⟩
      refine h.mono_mem fun c hm hp => ?_
      have : c ≠ ':' := by rintro rfl; exact hc hm
      simp [ctxC, this, hp]
    · intro h
      refine ⟨h.mono fun c hc => ?_, h.not_mem (by decide) (by decide) (by cases S <;> decide)⟩
      simp [ctxC] at hc; exact hc.2
  | pathSegment => exact segment_iff S s
  | path => exact path_iff
  | query => exact query_iff S s
  | fragment => exact fragment_iff S s
  | unreserve => exact unreservedText_iff S s
  | character => exact anyText_iff S s

/-- **C22.**  For every text (written in any pieces), every context and both specs: the encoded text
matches the rule of the context, percent-decodes to the UTF-8 bytes of the text, and does not depend
on the pieces. -/
theorem C22_encode (S : Spec) (ctx : Context) (chunks : List Str) :
    encodingRule S ctx (percent_encode S ctx chunks) ∧
    pctDecode (percent_encode S ctx chunks) = utf8s chunks.flatten ∧
    percent_encode S ctx chunks = percent_encode S ctx [chunks.flatten] := by
  refine ⟨?_, ?_, ?_⟩
  · rw [encodingRule_iff, percent_encode_flatten]; exact encode_pc S ctx _
  · rw [percent_encode_flatten]; exact encode_decode S ctx _
  · rw [percent_encode_flatten, percent_encode_flatten]; simp

/-- **C22.**  The named constructors, with the rule each has to produce. -/
theorem C22_constructors (S : Spec) (raw : Str) :
    reg_name S (from_reg_name S [raw]) ∧
    (userinfo S (from_user S [raw]) ∧ ':' ∉ from_user S [raw]) ∧
    (userinfo S (from_password S [raw]) ∧ ':' ∉ from_password S [raw]) ∧
    segment S (from_path_segment S [raw]) ∧
    path S (from_path S [raw]) ∧
    query S (from_query S [raw]) ∧
    fragment S (from_fragment S [raw]) ∧
    unreservedText S (unreserve S [raw]) ∧
    anyText S (characters S [raw]) :=
  ⟨(C22_encode S .regName [raw]).1, (C22_encode S .userOrPassword [raw]).1,
    (C22_encode S .userOrPassword [raw]).1, (C22_encode S .pathSegment [raw]).1,
    (C22_encode S .path [raw]).1, (C22_encode S .query [raw]).1, (C22_encode S .fragment [raw]).1,
    (C22_encode S .unreserve [raw]).1, (C22_encode S .character [raw]).1⟩

/-- **C22.**  Nothing is encoded needlessly: a character is left as it is exactly if it may stand by
itself in the context, and otherwise becomes the triplets of its UTF-8 bytes; so encoding is done
character by character. -/
theorem C22_minimal (S : Spec) (ctx : Context) (c : Char) (raw : Str) :
    (encodingRule S ctx [c] → percent_encode S ctx [c :: raw] = c :: percent_encode S ctx [raw]) ∧
    (¬ encodingRule S ctx [c] →
      percent_encode S ctx [c :: raw] = (utf8 c).flatMap pctUpper ++ percent_encode S ctx [raw]) := by
  rw [encodingRule_iff, PC_single (ctxC_pct S ctx)]
  simp only [percent_encode_flatten, List.flatten_cons, List.flatten_nil, List.append_nil,
    List.flatMap_cons, encWriteChar, isValidChar_eq]
  constructor
  · intro h; rw [if_pos h]; rfl
  · intro h; rw [if_neg h]; rfl

/-- **C22.**  Encoding is injective: different texts have different encodings. -/
theorem C22_injective (S : Spec) (ctx : Context) (a b : Str)
    (h : percent_encode S ctx [a] = percent_encode S ctx [b]) : a = b := by
  have ha := (C22_encode S ctx [a]).2.1
  have hb := (C22_encode S ctx [b]).2.1
  rw [h, hb] at ha
  simpa using (utf8s_inj ha).symm

/-- Concrete cases, one per context. -/
example : from_path_segment .uri [chars! "alpha/α?#"] = chars! "alpha%2F%CE%B1%3F%23" := by decide +kernel
example : from_path_segment .iri [chars! "al", chars! "pha/α?#"] = chars! "alpha%2Fα%3F%23" := by
  decide +kernel
example : from_user .uri [chars! "user:α"] = chars! "user%3A%CE%B1" := by decide +kernel
example : from_query .uri [chars! "alpha/α?#%"] = chars! "alpha/%CE%B1?%23%25" := by decide +kernel
example : unreserve .uri [chars! "%a[]"] = chars! "%25a%5B%5D" := by decide +kernel
example : characters .uri [chars! "%a[ ]"] = chars! "%25a[%20]" := by decide +kernel

end Verif
