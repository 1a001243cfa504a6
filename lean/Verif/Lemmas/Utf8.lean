import Verif.Spec.Utf8
import Verif.Lemmas.Split
import Verif.Lemmas.Chars

/-! # Structure of UTF-8 -/

namespace Verif

theorem char_lt (c : Char) : c.toNat < 0x110000 := by
  have := c.valid
  simp only [UInt32.isValidChar, Nat.isValidChar] at this
  have e : c.toNat = c.val.toNat := rfl
  omega

theorem char_not_surrogate (c : Char) : c.toNat < 0xD800 ∨ 0xE000 ≤ c.toNat := by
  have := c.valid
  simp only [UInt32.isValidChar, Nat.isValidChar] at this
  have e : c.toNat = c.val.toNat := rfl
  omega

theorem utf8Size_eq (c : Char) : c.utf8Size = (utf8 c).length := by
  have h1 : ∀ n : Nat, n < UInt32.size → (c.val ≤ UInt32.ofNat n ↔ c.toNat ≤ n) := by
    intro n hn
    rw [UInt32.le_iff_toNat_le, UInt32.toNat_ofNat_of_lt' hn]
    exact Iff.rfl
  have a1 := h1 0x7F (by decide)
  have a2 := h1 0x7FF (by decide)
  have a3 := h1 0xFFFF (by decide)
  unfold Char.utf8Size utf8
  simp only
  repeat' split
  all_goals simp_all
  all_goals omega

theorem utf8_ascii {c : Char} (h : c.toNat < 128) : utf8 c = [c.toNat] := by
  simp [utf8, h]

theorem utf8_nonascii {c : Char} (h : 128 ≤ c.toNat) : ∀ b ∈ utf8 c, 128 ≤ b ∧ b < 256 := by
  have := char_lt c
  unfold utf8
  simp only
  intro b hb
  repeat' split at hb
  all_goals simp at hb
  all_goals omega

theorem utf8_lt (c : Char) : ∀ b ∈ utf8 c, b < 256 := by
  intro b hb
  by_cases h : c.toNat < 128
  · rw [utf8_ascii h] at hb; simp at hb; omega
  · exact (utf8_nonascii (by omega) b hb).2

theorem utf8_ne_nil (c : Char) : utf8 c ≠ [] := by
  unfold utf8; simp only; repeat' split
  all_goals simp

theorem utf8s_nil : utf8s [] = [] := rfl
theorem utf8s_cons (c : Char) (r : Str) : utf8s (c :: r) = utf8 c ++ utf8s r := rfl
theorem utf8s_append (a b : Str) : utf8s (a ++ b) = utf8s a ++ utf8s b := by
  simp [utf8s]

theorem utf8s_length (s : Str) : (utf8s s).length = blen s := by
  induction s with
  | nil => rfl
  | cons c r ih => rw [utf8s_cons, List.length_append, ih, blen_cons, utf8Size_eq]

/-- Continuation byte. -/
def isCont (b : Nat) : Prop := 0x80 ≤ b ∧ b < 0xC0

/-- Shape of an encoded character: a lead byte that tells the length, then continuation bytes. -/
theorem utf8_shape (c : Char) : ∃ b rest, utf8 c = b :: rest ∧ (∀ x ∈ rest, isCont x) ∧
    ((b < 0x80 ∧ rest.length = 0 ∧ b = c.toNat) ∨
     (0xC2 ≤ b ∧ b ≤ 0xDF ∧ rest.length = 1) ∨
     (0xE0 ≤ b ∧ b ≤ 0xEF ∧ rest.length = 2) ∨
     (0xF0 ≤ b ∧ b ≤ 0xF4 ∧ rest.length = 3)) := by
  have := char_lt c
  unfold utf8 isCont
  simp only
  repeat' split
  all_goals refine ⟨_, _, rfl, ?_, ?_⟩
  all_goals simp
  all_goals omega

/-- The code point that an encoded character carries. -/
def codePoint : List Nat → Nat
  | [a] => a
  | [a, b] => (a % 32) * 64 + b % 64
  | [a, b, c] => (a % 16) * 4096 + (b % 64) * 64 + c % 64
  | [a, b, c, d] => (a % 8) * 262144 + (b % 64) * 4096 + (c % 64) * 64 + d % 64
  | _ => 0

theorem codePoint_utf8 (c : Char) : codePoint (utf8 c) = c.toNat := by
  have := char_lt c
  unfold utf8
  simp only
  repeat' split
  all_goals simp only [codePoint]
  all_goals omega

theorem utf8_inj {c d : Char} (h : utf8 c = utf8 d) : c = d := by
  have := congrArg codePoint h
  rw [codePoint_utf8, codePoint_utf8] at this
  exact (char_eq_iff c d).2 this

/-- No encoded character is a proper prefix of another byte sequence starting with an encoded
character. -/
theorem utf8_prefix {c d : Char} {r t : List Nat} (h : utf8 c ++ r = utf8 d ++ t) : c = d ∧ r = t := by
  obtain ⟨b, x, hc, hcx, hcl⟩ := utf8_shape c
  obtain ⟨b', x', hd, hdx, hdl⟩ := utf8_shape d
  have hl : (utf8 c).length = (utf8 d).length := by
    rw [hc, hd] at h
    simp at h
    rw [hc, hd]; simp
    omega
  have := List.append_inj h hl
  exact ⟨utf8_inj this.1, this.2⟩

theorem utf8s_inj : ∀ {a b : Str}, utf8s a = utf8s b → a = b
  | [], [], _ => rfl
  | [], c :: r, h => by
    rw [utf8s_nil, utf8s_cons] at h
    have := utf8_ne_nil c
    simp at h; exact absurd h.1 this
  | c :: r, [], h => by
    rw [utf8s_nil, utf8s_cons] at h
    have := utf8_ne_nil c
    simp at h; exact absurd h.1 this
  | c :: r, d :: t, h => by
    rw [utf8s_cons, utf8s_cons] at h
    obtain ⟨rfl, h'⟩ := utf8_prefix h
    rw [utf8s_inj h']

/-- Which byte sequences are the encoding of a character with code point `v`. -/
theorem utf8_ofNat {v : Nat} (hv : v.isValidChar) : (Char.ofNat v).toNat = v := by
  unfold Char.ofNat; rw [dif_pos hv]; rfl

/-- Agreement with Lean core's own UTF-8 encoder. -/
theorem utf8_core (c : Char) : (String.utf8EncodeChar c).map UInt8.toNat = utf8 c := by
  have := char_lt c
  have e : c.val.toNat = c.toNat := rfl
  unfold String.utf8EncodeChar utf8
  simp only [e]
  repeat' split
  all_goals simp
  all_goals omega

end Verif
