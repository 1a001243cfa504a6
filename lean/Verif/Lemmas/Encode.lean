import Verif.Model.Encode
import Verif.Spec.Encode
import Verif.Lemmas.Pct
import Verif.Lemmas.Path

/-!
# Percent-encoding of characters
-/

namespace Verif

open Rfc

theorem utf8_bytes_pcts_render (c : Char) : (utf8 c).flatMap writePct = render ((utf8 c).map .pct) :=
  (render_pcts _).symm

theorem write_pct_wf (c : Char) : WF (write_pct_encoded_char c) := by
  unfold write_pct_encoded_char
  rw [utf8_bytes_pcts_render]
  apply render_wf
  intro t ht
  obtain ⟨b, hb, rfl⟩ := List.mem_map.1 ht
  exact utf8_lt c b hb

theorem PC_pctUpper {p : Char → Bool} {b : Nat} (h : b < 256) {r : Str} (hr : PC p r) :
    PC p (pctUpper b ++ r) := by
  have h1 := hexUpper_isHex (n := b / 16) (by omega)
  have h2 := hexUpper_isHex (n := b % 16) (by omega)
  exact PC.pct h1.1 h2.1 hr

theorem PC_pctUppers {p : Char → Bool} {bs : List Nat} (h : ∀ b ∈ bs, b < 256) :
    PC p (bs.flatMap pctUpper) := by
  induction bs with
  | nil => exact .nil
  | cons b r ih =>
    rw [List.flatMap_cons]
    exact PC_pctUpper (h b (by simp)) (ih fun x hx => h x (by simp [hx]))

theorem PC_write_pct (p : Char → Bool) (c : Char) : PC p (write_pct_encoded_char c) :=
  PC_pctUppers (utf8_lt c)

theorem pctDecode_append {a b : Str} (h : WF a) : pctDecode (a ++ b) = pctDecode a ++ pctDecode b := by
  unfold pctDecode
  rw [tokens_append_ch h, List.flatMap_append]

theorem pctDecode_pcts {bs : List Nat} (h : ∀ b ∈ bs, b < 256) :
    pctDecode (bs.flatMap pctUpper) = bs := by
  unfold pctDecode
  have e : bs.flatMap pctUpper = render (bs.map .pct) := (render_pcts bs).symm
  rw [e, tokens_render, bytes_pcts]
  intro t ht
  obtain ⟨b, hb, rfl⟩ := List.mem_map.1 ht
  exact h b hb

theorem pctDecode_ch {c : Char} (h : c ≠ '%') : pctDecode [c] = utf8 c := by
  unfold pctDecode
  rw [tokens_ch h, tokens_nil]
  simp [Tok.bytes]

theorem percent_encode_flatten (S : Spec) (ctx : Context) (chunks : List Str) :
    percent_encode S ctx chunks = chunks.flatten.flatMap (encWriteChar S ctx) := by
  unfold percent_encode encWriteStr
  induction chunks with
  | nil => rfl
  | cons a r ih => rw [List.flatMap_cons, ih, List.flatten_cons, List.flatMap_append]

/-- The class of characters that are kept. -/
def ctxC (S : Spec) : Context → Char → Bool
  | .regName => regnameC S
  | .userOrPassword => fun c => c != ':' && userinfoC S c
  | .pathSegment => pcharC S
  | .path => pcharSlashC S
  | .query => queryC S
  | .fragment => fragC S
  | .unreserve => iunreserved S
  | .character => fun c => iunreserved S c || queryPrivate S c || gen_delims c || sub_delims c

theorem gen_delims_ascii {c : Char} (h : gen_delims c = true) : c.toNat < 128 := by
  simp [gen_delims, char_eq_iff] at h
  omega

theorem gen_delims_false {c : Char} (h : 128 ≤ c.toNat) : gen_delims c = false := by
  cases hh : gen_delims c
  · rfl
  · have := gen_delims_ascii hh; omega

theorem cls_character (S : Spec) : cls is_ascii_unreserved_or_reserved
    (fun c => S.is_nonascii_char_unreserved c || S.is_nonascii_char_private c) = ctxC S .character := by
  apply cls_of_table
  · cases S <;> decide
  · intro c h
    cases S <;>
      simp [ctxC, iunreserved, unreserved_false h, sub_delims_false h, gen_delims_false h,
        Spec.is_nonascii_char_unreserved, is_ucschar_eq, queryPrivate, Spec.is_nonascii_char_private,
        iprivate, inRange, range]

theorem isValidChar_eq (S : Spec) (ctx : Context) : ctx.isValidChar S = ctxC S ctx := by
  funext c
  cases ctx with
  | regName =>
    have := congrFun (cls_regname S) c
    unfold cls at this; unfold Context.isValidChar
    show _ = regnameC S c
    rw [← this]; cases isAscii c <;> rfl
  | userOrPassword =>
    have := congrFun (cls_userinfo S) c
    unfold cls at this; unfold Context.isValidChar
    show _ = (c != ':' && userinfoC S c)
    rw [← this]
    cases h : isAscii c
    · simp only [Bool.false_eq_true, ↓reduceIte]
      have : c ≠ ':' := by rintro rfl; exact absurd h (by decide)
      simp [this]
    · rfl
  | pathSegment =>
    have := congrFun (cls_pchar S) c
    unfold cls at this; unfold Context.isValidChar
    show _ = pcharC S c
    rw [← this]; cases isAscii c <;> rfl
  | path =>
    have := congrFun (cls_pchar S) c
    unfold cls at this; unfold Context.isValidChar
    show _ = (pcharC S c || c == '/')
    rw [← this]
    cases h : isAscii c
    · have : c ≠ '/' := by rintro rfl; exact absurd h (by decide)
      simp [this]
    · simp [Bool.or_comm]
  | query =>
    have := congrFun (cls_query S) c
    unfold cls at this; unfold Context.isValidChar
    show _ = queryC S c
    rw [← this]
    cases h : isAscii c
    · rfl
    · by_cases e : c = '/'
      · subst e; cases S <;> decide
      · simp [e]
  | fragment =>
    have := congrFun (cls_frag S) c
    unfold cls at this; unfold Context.isValidChar
    show _ = fragC S c
    rw [← this]
    cases h : isAscii c
    · rfl
    · by_cases e : c = '/'
      · subst e; cases S <;> decide
      · simp [e]
  | unreserve =>
    have := congrFun (is_unreserved_eq S) c
    unfold is_unreserved at this; unfold Context.isValidChar
    show _ = iunreserved S c
    rw [← this]; cases isAscii c <;> rfl
  | character =>
    have := congrFun (cls_character S) c
    unfold cls at this; unfold Context.isValidChar
    rw [← this]; cases isAscii c <;> rfl

theorem ctxC_pct (S : Spec) (ctx : Context) : ctxC S ctx '%' = false := by
  cases S <;> cases ctx <;> decide

theorem encode_pc (S : Spec) (ctx : Context) (s : Str) :
    PC (ctxC S ctx) (s.flatMap (encWriteChar S ctx)) := by
  induction s with
  | nil => exact .nil
  | cons c r ih =>
    rw [List.flatMap_cons]
    refine PC.append ?_ ih
    unfold encWriteChar
    split
    · rename_i h
      rw [isValidChar_eq] at h
      refine .chr ?_ h .nil
      rintro rfl
      rw [ctxC_pct] at h; cases h
    · exact PC_write_pct _ c

theorem encode_decode (S : Spec) (ctx : Context) (s : Str) :
    pctDecode (s.flatMap (encWriteChar S ctx)) = utf8s s := by
  induction s with
  | nil => rfl
  | cons c r ih =>
    rw [List.flatMap_cons, utf8s_cons]
    have h1 : WF (encWriteChar S ctx c) ∧ pctDecode (encWriteChar S ctx c) = utf8 c := by
      unfold encWriteChar
      split
      · rename_i h
        rw [isValidChar_eq] at h
        have hc : c ≠ '%' := by
          rintro rfl
          rw [ctxC_pct] at h; cases h
        exact ⟨.chr hc rfl .nil, pctDecode_ch hc⟩
      · exact ⟨write_pct_wf c, pctDecode_pcts (utf8_lt c)⟩
    rw [pctDecode_append h1.1, h1.2, ih]

theorem PC_single {p : Char → Bool} {c : Char} (h : p '%' = false) : PC p [c] ↔ p c = true := by
  by_cases e : c = '%'
  · subst e
    rw [h]
    constructor
    · intro h; cases h with | chr h _ _ => exact absurd rfl h
    · intro h; cases h
  · rw [PC_cons e]; simp [PC.nil]

end Verif
