import Verif.Props.Utf8
import Verif.Model.Build

/-! # C37: `prior_byte2` -/

namespace Verif

/-- **C37**: the first of two ASCII bytes to occur in the UTF-8 encoding of a text is the first of
the two characters to occur in the text. -/
theorem C37_prior_byte2 (s : Str) (a b : Char) (ha : a.toNat < 128) (hb : b.toNat < 128) :
    Bytes.prior_byte2 s a.toNat b.toNat = (prior_byte2 s a b).map Char.toNat := by
  unfold Bytes.prior_byte2 prior_byte2
  induction s with
  | nil => rfl
  | cons c r ih =>
    rw [utf8s_cons, List.find?_append, ih, List.find?_cons]
    by_cases hc : c.toNat < 128
    · rw [utf8_ascii hc, List.find?_singleton]
      have e : (c.toNat == a.toNat || c.toNat == b.toNat) = (c == a || c == b) := by
        rw [Bool.eq_iff_iff]
        simp only [Bool.or_eq_true, beq_iff_eq, char_eq_iff]
      rw [e]
      cases (c == a || c == b) <;> simp
    · have hn : (utf8 c).find? (fun x => x == a.toNat || x == b.toNat) = none := by
        rw [List.find?_eq_none]
        intro x hx
        have := utf8_nonascii (by omega) x hx
        simp; omega
      have hn2 : (c == a || c == b) = false := by
        rw [Bool.or_eq_false_iff, beq_eq_false_iff_ne, beq_eq_false_iff_ne]
        constructor <;> rintro rfl <;> omega
      rw [hn, hn2]; simp

example : Bytes.prior_byte2 (chars! "é:/") 0x2F 0x3A = some 0x3A := by decide +kernel

end Verif
