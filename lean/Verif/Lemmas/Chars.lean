import Verif.Model.Chars
import Verif.Spec.Grammar

/-! # Character-class lemmas: the lookup table is the RFC classes -/

namespace Verif

open Verif.Rfc

theorem ofNat_toNat (c : Char) : Char.ofNat c.toNat = c := by
  simp

/-- Case split over the 128 ASCII characters. -/
theorem ascii_forall {P : Char → Prop} (h : ∀ n : Fin 128, P (Char.ofNat n.val)) :
    ∀ c : Char, c.toNat < 128 → P c := by
  intro c hc
  have := h ⟨c.toNat, hc⟩
  simpa using this

theorem char_le_iff (a b : Char) : a ≤ b ↔ a.toNat ≤ b.toNat := by
  rw [Char.le_def, UInt32.le_iff_toNat_le]; rfl

theorem char_eq_iff (a b : Char) : a = b ↔ a.toNat = b.toNat := by
  constructor
  · intro h; rw [h]
  · intro h; rw [← ofNat_toNat a, ← ofNat_toNat b, h]

/-- Class of characters usable in `ipchar` besides triplets. -/
def pcharC (S : Spec) (c : Char) : Bool :=
  iunreserved S c || sub_delims c || c == ':' || c == '@'
def pcharSlashC (S : Spec) (c : Char) : Bool := pcharC S c || c == '/'
def fragC (S : Spec) (c : Char) : Bool := pcharC S c || c == '/' || c == '?'
def queryC (S : Spec) (c : Char) : Bool := pcharC S c || c == '/' || c == '?' || queryPrivate S c
def userinfoC (S : Spec) (c : Char) : Bool := iunreserved S c || sub_delims c || c == ':'
def regnameC (S : Spec) (c : Char) : Bool := iunreserved S c || sub_delims c

/-- The class used by `satisfy_chars_with_pct_encoded`. -/
def cls (a n : Char → Bool) (c : Char) : Bool := if isAscii c then a c else n c

theorem ALPHA_eq : ALPHA = isAlpha := by
  funext c; simp [ALPHA, isAlpha, char_le_iff]
theorem DIGIT_eq : DIGIT = isDigit := by
  funext c; simp [DIGIT, isDigit, char_le_iff]
theorem HEXDIG_eq : HEXDIG = isHex := by
  funext c; simp [HEXDIG, DIGIT, isHex, char_le_iff]

theorem unreserved_ascii {c : Char} (h : unreserved c = true) : c.toNat < 128 := by
  simp [unreserved, ALPHA, DIGIT, char_le_iff, char_eq_iff] at h
  omega

theorem sub_delims_ascii {c : Char} (h : sub_delims c = true) : c.toNat < 128 := by
  simp [sub_delims, char_eq_iff] at h
  omega

theorem ucschar_nonascii {c : Char} (h : ucschar c = true) : 160 ≤ c.toNat := by
  simp [ucschar, range] at h
  omega

theorem iprivate_nonascii {c : Char} (h : iprivate c = true) : 160 ≤ c.toNat := by
  simp [iprivate, range] at h
  omega

theorem is_ucschar_eq : is_ucschar = ucschar := by
  funext c; simp [is_ucschar, ucschar, inRange, range]

theorem unreserved_false {c : Char} (h : 128 ≤ c.toNat) : unreserved c = false := by
  cases hh : unreserved c
  · rfl
  · have := unreserved_ascii hh; omega

theorem sub_delims_false {c : Char} (h : 128 ≤ c.toNat) : sub_delims c = false := by
  cases hh : sub_delims c
  · rfl
  · have := sub_delims_ascii hh; omega

theorem beq_false_of_nonascii {c d : Char} (h : 128 ≤ c.toNat) (hd : d.toNat < 128) :
    (c == d) = false := by
  simp; intro e; subst e; omega

theorem cls_of_table (a n s : Char → Bool)
    (ha : ∀ k : Fin 128, a (Char.ofNat k.val) = s (Char.ofNat k.val))
    (hn : ∀ c : Char, 128 ≤ c.toNat → n c = s c) : cls a n = s := by
  funext c
  unfold cls isAscii
  by_cases h : c.toNat < 128
  · simp [h]; exact ascii_forall (P := fun c => a c = s c) ha c h
  · simp [h]; exact hn c (by omega)

theorem cls_pchar (S : Spec) : cls is_ascii_pchar S.is_nonascii_char_unreserved = pcharC S := by
  apply cls_of_table
  · cases S <;> decide
  · intro c h
    cases S <;>
      simp [pcharC, iunreserved, unreserved_false h, sub_delims_false h, beq_false_of_nonascii h,
        Spec.is_nonascii_char_unreserved, is_ucschar_eq]

theorem cls_pchar_slash (S : Spec) :
    cls is_ascii_pchar_slash S.is_nonascii_char_unreserved = pcharSlashC S := by
  apply cls_of_table
  · cases S <;> decide
  · intro c h
    cases S <;>
      simp [pcharSlashC, pcharC, iunreserved, unreserved_false h, sub_delims_false h,
        beq_false_of_nonascii h, Spec.is_nonascii_char_unreserved, is_ucschar_eq]

theorem cls_frag (S : Spec) : cls is_ascii_frag_query (is_nonascii_fragment S) = fragC S := by
  apply cls_of_table
  · cases S <;> decide
  · intro c h
    cases S <;>
      simp [fragC, pcharC, iunreserved, unreserved_false h, sub_delims_false h,
        beq_false_of_nonascii h, Spec.is_nonascii_char_unreserved, is_ucschar_eq,
        is_nonascii_fragment]

theorem cls_query (S : Spec) : cls is_ascii_frag_query (is_nonascii_query S) = queryC S := by
  apply cls_of_table
  · cases S <;> decide
  · intro c h
    cases S <;>
      simp [queryC, pcharC, iunreserved, unreserved_false h, sub_delims_false h,
        beq_false_of_nonascii h, Spec.is_nonascii_char_unreserved, is_ucschar_eq,
        is_nonascii_query, Spec.is_nonascii_char_private, queryPrivate, iprivate, inRange, range]

theorem cls_userinfo (S : Spec) :
    cls is_ascii_userinfo_ipvfutureaddr (is_nonascii_userinfo S) = userinfoC S := by
  apply cls_of_table
  · cases S <;> decide
  · intro c h
    cases S <;>
      simp [userinfoC, iunreserved, unreserved_false h, sub_delims_false h,
        beq_false_of_nonascii h, Spec.is_nonascii_char_unreserved, is_ucschar_eq,
        is_nonascii_userinfo]

theorem cls_regname (S : Spec) : cls is_ascii_regname (is_nonascii_regname S) = regnameC S := by
  apply cls_of_table
  · cases S <;> decide
  · intro c h
    cases S <;>
      simp [regnameC, iunreserved, unreserved_false h, sub_delims_false h,
        Spec.is_nonascii_char_unreserved, is_ucschar_eq, is_nonascii_regname]

theorem is_unreserved_eq (S : Spec) : is_unreserved S = iunreserved S := by
  have : is_unreserved S = cls is_ascii_unreserved S.is_nonascii_char_unreserved := rfl
  rw [this]
  apply cls_of_table
  · cases S <;> decide
  · intro c h
    cases S <;>
      simp [iunreserved, unreserved_false h, Spec.is_nonascii_char_unreserved, is_ucschar_eq]

theorem scheme_continue_eq (c : Char) :
    (isAscii c && is_ascii_scheme_continue c) =
      (ALPHA c || DIGIT c || c == '+' || c == '-' || c == '.') := by
  have := congrFun (cls_of_table is_ascii_scheme_continue (fun _ => false)
    (fun c => ALPHA c || DIGIT c || c == '+' || c == '-' || c == '.') (by decide) (by
      intro c h
      simp [ALPHA, DIGIT, char_le_iff, char_eq_iff]
      omega)) c
  simp only [cls] at this
  rw [← this]
  cases isAscii c <;> simp

theorem ipvfuture_eq (c : Char) :
    (isAscii c && is_ascii_userinfo_ipvfutureaddr c) =
      (unreserved c || sub_delims c || c == ':') := by
  have := congrFun (cls_of_table is_ascii_userinfo_ipvfutureaddr (fun _ => false)
    (fun c => unreserved c || sub_delims c || c == ':') (by decide) (by
      intro c h
      simp [unreserved_false h, sub_delims_false h, beq_false_of_nonascii h])) c
  simp only [cls] at this
  rw [← this]
  cases isAscii c <;> simp

end Verif
