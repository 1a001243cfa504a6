import Verif.Model.TemplateError
import Verif.Lemmas.IpAddr

/-! # C45: error messages of templates are distinct -/

namespace Verif

open Verif.Tpl

theorem as_str_no_paren (k : ErrorKind) : '(' ∉ k.as_str := by cases k <;> decide +kernel

theorem digits_no_dash (n : Nat) : '-' ∉ Nat.toDigits 10 n := by
  intro h
  have := Nat.isDigit_of_mem_toDigits (by omega) (by omega) h
  revert this; decide

theorem split_at {c : Char} {a a' b b' : Str} (h : c ∉ a) (h' : c ∉ a') (e : a ++ c :: b = a' ++ c :: b') :
    a = a' ∧ b = b' := by
  induction a generalizing a' with
  | nil =>
    cases a' with
    | nil => simpa using e
    | cons x a' => simp at e h'; exact absurd e.1 (h'.1)
  | cons y a ih =>
    cases a' with
    | nil => simp at e h; exact absurd e.1.symm h.1
    | cons x a' =>
      simp at e h h'
      obtain ⟨rfl, e⟩ := e
      obtain ⟨rfl, rfl⟩ := ih h.2 h'.2 e
      exact ⟨rfl, rfl⟩

/-- **C45**: different errors have different messages: the message tells the reason and the position. -/
theorem C45_message_distinct (k k' : ErrorKind) (l l' : Nat) (h : errorMessage k l = errorMessage k' l') :
    k = k' ∧ l = l' := by
  have h1 : (k.as_str ++ [' ']) ++ '(' :: (chars! "at " ++ (Nat.toDigits 10 l ++ '-' :: chars! "th byte)")) =
      (k'.as_str ++ [' ']) ++ '(' :: (chars! "at " ++ (Nat.toDigits 10 l' ++ '-' :: chars! "th byte)")) := by
    have e : ∀ k l, errorMessage k l = chars! "invalid URI template: " ++ ((k.as_str ++ [' ']) ++ '(' ::
        (chars! "at " ++ (Nat.toDigits 10 l ++ '-' :: chars! "th byte)"))) := by
      intro k l; simp [errorMessage, displayNat]
    rw [e, e] at h
    exact List.append_cancel_left h
  obtain ⟨h2, h3⟩ := split_at (by simp [as_str_no_paren]) (by simp [as_str_no_paren]) h1
  obtain ⟨h4, _⟩ := split_at (digits_no_dash _) (digits_no_dash _) (List.append_cancel_left h3)
  constructor
  · have := List.append_cancel_right h2
    revert this
    cases k <;> cases k' <;> decide +kernel
  · have := congrArg (IpSpec.number 10) h4
    rwa [number_toDigits (by omega) (by omega), number_toDigits (by omega) (by omega)] at this

/-- Two errors that differ in the position only. -/
example : errorMessage .invalidCharacter 12 = chars! "invalid URI template: invalid character (at 12-th byte)" := by
  decide +kernel

end Verif
