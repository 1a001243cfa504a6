import Verif.Model.TemplateError
import Verif.Lemmas.TemplateError
import Verif.Lemmas.Decode

/-!
# C45: what template validation reports
-/

namespace Verif

open Verif.Abnf Verif.Rfc Verif.Rfc6570 Verif.Tpl

theorem kindOf_reason (f : Fault) : (kindOf f).as_str = f.reason := by cases f <;> decide

/-- **C45**: `UriTemplateStr::new` fails (unless it panics, `C31_panics`) with the reason and at the
position of the first fault: what precedes is an acceptable template, and what follows starts with
the fault. -/
theorem C45_first_fault (s : Str) (hp : validate_template_str s ≠ .panic) (f : Fault) (l : Nat) :
    (∃ k, validate_template_str s = .err k l ∧ k.as_str = f.reason) ↔
      ∃ good bad d, s = good ++ bad ∧ acceptedTemplate good ∧ BadStart bad f d ∧
        l = byteCount good + d := by
  constructor
  · rintro ⟨k, he, hk⟩
    obtain ⟨t, bad, f', d, ht, e, hb, hk', hl⟩ := V_err _ s (Nat.le_refl _) _ _ he
    have : f' = f := by
      rw [hk', kindOf_reason] at hk
      revert hk; cases f <;> cases f' <;> first | (intro; rfl) | (intro h; exact absurd h (by decide))
    subst this
    exact ⟨text t, bad, d, e, (templateOf_iff _ _ _ _).2 ⟨t, ht, rfl⟩, hb, by rw [byteCount_eq]; exact hl⟩
  · rintro ⟨good, bad, d, rfl, hg, hb, rfl⟩
    obtain ⟨t, ht, rfl⟩ := (templateOf_iff _ _ _ _).1 hg
    rw [V_render ht] at hp ⊢
    have hp' : validate_template_str bad ≠ .panic := by
      intro h; rw [h] at hp; exact hp rfl
    rw [V_of_bad hb hp']
    exact ⟨kindOf f, by rw [byteCount_eq, Nat.add_comm]; rfl, kindOf_reason f⟩

/-- **C45**: every rejected text has a fault, and only one is reported. -/
theorem C45_exactly_one (s : Str) (hp : validate_template_str s ≠ .panic)
    (hn : ¬ acceptedTemplate s) :
    ∃ f l, ∀ f' l', (∃ good bad d, s = good ++ bad ∧ acceptedTemplate good ∧ BadStart bad f' d ∧
        l' = byteCount good + d) ↔ f' = f ∧ l' = l := by
  cases he : validate_template_str s with
  | panic => exact absurd he hp
  | ok =>
    exfalso; apply hn
    obtain ⟨t, ht, e⟩ := (ok_iff s).1 he
    exact (templateOf_iff _ _ _ _).2 ⟨t, ht, e⟩
  | err k l =>
    obtain ⟨t, bad, f, d, ht, e, hb, hk, hl⟩ := V_err _ s (Nat.le_refl _) _ _ he
    refine ⟨f, l, fun f' l' => ?_⟩
    rw [← C45_first_fault s hp, he]
    constructor
    · rintro ⟨k', h1, h2⟩
      simp at h1
      obtain ⟨rfl, rfl⟩ := h1
      rw [hk, kindOf_reason] at h2
      refine ⟨?_, rfl⟩
      revert h2; cases f <;> cases f' <;> first | (intro; rfl) | (intro h; exact absurd h (by decide))
    · rintro ⟨rfl, rfl⟩
      exact ⟨k, rfl, by rw [hk, kindOf_reason]⟩

theorem badVarspec_le {v : Str} {d : Nat} (h : BadVarspec v d) : d ≤ byteCount v + 1 := by
  have hc : (':' : Char).utf8Size = 1 := by decide
  have hs : ('*' : Char).utf8Size = 1 := by decide
  cases h with
  | name => omega
  | length => simp only [byteCount_eq, blen_append, blen_cons, hc]; omega
  | digit => simp only [byteCount_eq, blen_append, blen_cons, hc]; omega
  | explode => simp only [byteCount_eq, blen_append, blen_cons, hs]; omega

theorem badStart_le {s : Str} {f : Fault} {d : Nat} (h : BadStart s f d) : d ≤ byteCount s := by
  have h1 : ('{' : Char).utf8Size = 1 := by decide
  have h2 : ('}' : Char).utf8Size = 1 := by decide
  have h3 : ('%' : Char).utf8Size = 1 := by decide
  cases h with
  | character => omega
  | short => omega
  | first => simp only [byteCount_eq, blen_cons, h3]; omega
  | @second x y r => have := Char.utf8Size_pos x; simp only [byteCount_eq, blen_cons, h3]; omega
  | notClosed => omega
  | operator => simp only [byteCount_eq, blen_cons, h1]; omega
  | @expression op goods v tail r e _ _ _ hv =>
    have := badVarspec_le hv
    have ho : op.toList.length ≤ blen op.toList := by
      cases op with
      | none => simp
      | some c => have := Char.utf8Size_pos c; simp; omega
    generalize goods.flatMap (· ++ [',']) = w
    simp only [byteCount_eq, blen_append, blen_cons, h1, h2] at this ⊢; omega

/-- **C45**: the reported position is within the text or at its end. -/
theorem C45_position_bound (s : Str) (k : ErrorKind) (l : Nat)
    (h : validate_template_str s = .err k l) : l ≤ byteCount s := by
  obtain ⟨t, bad, f, d, ht, rfl, hb, hk, rfl⟩ := V_err _ s (Nat.le_refl _) _ _ h
  have := badStart_le hb
  simp only [byteCount_eq, blen_append] at this ⊢; omega

/-- The position may be the end of the text (past the last byte), and inside of a character: the
position reported for a bad prefix length is one byte too late. -/
theorem C45_points_at_fault_refuted :
    validate_template_str (chars! "{v:}") = .err .invalidExpression 4 ∧
    validate_template_str (chars! "{v:é}") = .err .invalidExpression 4 ∧
    validate_template_str (chars! "{v:x}") = .err .invalidExpression 4 := by decide +kernel

/-- **C45**: the message consists of the reason and the position, and tells both. -/
theorem C45_message (s : Str) (k : ErrorKind) (l : Nat) (h : validate_template_str s = .err k l) :
    ∃ f : Fault, k.as_str = f.reason ∧ errorMessage k l = chars! "invalid URI template: " ++ f.reason ++ chars! " (at " ++
      Nat.toDigits 10 l ++ chars! "-th byte)" := by
  obtain ⟨t, bad, f, d, _, _, _, rfl, _⟩ := V_err _ s (Nat.le_refl _) _ _ h
  exact ⟨f, kindOf_reason f, by rw [errorMessage, kindOf_reason]; rfl⟩

/-- **C45**: the owned constructor gives the source text back with the same error. -/
theorem C45_source (s : Str) (k : ErrorKind) (l : Nat) (h : validate_template_str s = .err k l) :
    template_try_from_string s = some (.error (s, k, l)) := by
  rw [template_try_from_string, h]

theorem valid_up_to_spec : ∀ (fuel : Nat) (bs : List Nat), bs.length ≤ fuel →
    ∃ p r, bs = utf8s p ++ r ∧ (∀ c x, r ≠ utf8 c ++ x) ∧ valid_up_to fuel bs = (utf8s p).length := by
  intro fuel
  induction fuel with
  | zero =>
    intro bs h
    have : bs = [] := List.length_eq_zero_iff.1 (by omega)
    subst this
    refine ⟨[], [], rfl, fun c x e => ?_, rfl⟩
    obtain ⟨b, t, e', _⟩ := utf8_shape c
    rw [e'] at e; cases e
  | succ fuel ih =>
    intro bs h
    rw [valid_up_to]
    cases hd : decodeOne bs with
    | none =>
      refine ⟨[], bs, rfl, fun c x e => ?_, rfl⟩
      rw [e, decodeOne_utf8] at hd; cases hd
    | some y =>
      obtain ⟨c, r⟩ := y
      have e := decodeOne_some hd
      have hc : 0 < (utf8 c).length := by
        obtain ⟨b, t, e', _⟩ := utf8_shape c; rw [e']; simp
      have hl : bs.length = (utf8 c).length + r.length := by rw [e]; simp
      obtain ⟨p, q, e2, hm, hv⟩ := ih r (by omega)
      refine ⟨c :: p, q, ?_, hm, ?_⟩
      · rw [e, e2, utf8s_cons, List.append_assoc]
      · simp only; rw [hv, utf8s_cons, List.length_append]; omega

/-- **C45** (bytes): bytes that are not UTF-8 are rejected at the end of their longest well-formed
prefix; the bytes of a text are treated as the text is. -/
theorem C45_bytes (bs : List Nat) :
    (∃ s, bs = utf8s s ∧ template_try_from_bytes bs = (validate_template_str s).bind fun _ => .ok s) ∨
    ((∀ s, bs ≠ utf8s s) ∧ ∃ p r, bs = utf8s p ++ r ∧ (∀ c x, r ≠ utf8 c ++ x) ∧
      template_try_from_bytes bs = .err .invalidUtf8 (utf8s p).length) := by
  unfold template_try_from_bytes
  cases h : from_utf8 bs with
  | some s => exact .inl ⟨s, ((from_utf8_iff _ _).1 h).symm, rfl⟩
  | none =>
    refine .inr ⟨fun s e => ?_, ?_⟩
    · rw [(from_utf8_iff bs s).2 e.symm] at h; cases h
    · obtain ⟨p, r, e, hm, hv⟩ := valid_up_to_spec bs.length bs (Nat.le_refl _)
      exact ⟨p, r, e, hm, by rw [hv]⟩

/-! Concrete cases. -/

example : validate_template_str (chars! "あ{x}") = .err .invalidCharacter 0 ∧
    validate_template_str (chars! "/a{?x,y*z}") = .err .invalidExpression 8 ∧
    validate_template_str (chars! "{x}{!y}") = .err .unsupportedOperator 4 ∧
    validate_template_str (chars! "{x}%4") = .err .invalidPercentEncoding 3 ∧
    validate_template_str (chars! "{x}%4gz") = .err .invalidPercentEncoding 5 ∧
    validate_template_str (chars! "ab{c") = .err .expressionNotClosed 2 := by decide +kernel

/-- The hypotheses of `C45_first_fault` are met: `/a{?x,y*z}` is rejected in its second variable. -/
example : BadStart (chars! "{?x,y*z}") .expression 6 := by
  have hv : ∀ c : Char, varcharPlain c = true → varnameX [c] := fun c hc =>
    ⟨[c], [], by simp, .inl ⟨c, rfl, hc⟩, star_nil _⟩
  have := BadStart.expression (op := some '?') (goods := [['x']]) (v := ['y', '*', 'z']) (tail := [])
    (r := []) (d := 2) (by decide) (by simp)
    (by simp only [List.mem_singleton, forall_eq]
        exact ⟨['x'], [], rfl, hv 'x' (by decide), .inl rfl⟩)
    (BadVarspec.explode (n := ['y']) (x := ['z']) (hv 'y' (by decide)) (by simp))
    (by decide) (by decide) (.inl rfl) (by decide)
  exact this

example : errorMessage .invalidExpression 8 =
    chars! "invalid URI template: invalid expression (at 8-th byte)" := by decide +kernel

example : template_try_from_bytes [0x2F, 0xC3] = .err .invalidUtf8 1 := by decide +kernel

end Verif
