import Verif.Lemmas.Utf8
import Verif.Model.Bytes
import Verif.Spec.Lit

/-!
# C37: searching for ASCII bytes in UTF-8 never cuts a character

Every helper of `src/parser/str.rs`, executed on bytes as the Rust text has it, never panics and
returns what the character-level model returns.  So the character-level model used everywhere else
loses nothing.
-/

namespace Verif

open Bytes

/-- `p` accepts only ASCII bytes. -/
def AsciiPred (p : Nat → Bool) : Prop := ∀ b, p b = true → b < 128

theorem position_append_none {p : Nat → Bool} {a b : List Nat} (h : ∀ x ∈ a, p x = false) :
    position p (a ++ b) = (position p b).map (· + a.length) := by
  induction a with
  | nil => simp
  | cons x a ih =>
    rw [List.cons_append, position, if_neg (by simp [h x (by simp)]),
      ih fun y hy => h y (by simp [hy])]
    cases position p b with
    | none => rfl
    | some v => simp; omega

theorem rposition_append_none {p : Nat → Bool} {a b : List Nat} (h : ∀ x ∈ a, p x = false) :
    rposition p (a ++ b) = (rposition p b).map (· + a.length) := by
  induction a with
  | nil => simp
  | cons x a ih =>
    rw [List.cons_append, rposition, ih fun y hy => h y (by simp [hy])]
    cases rposition p b with
    | none => simp [h x (by simp)]
    | some v => simp; omega

theorem utf8_pred_false {p : Nat → Bool} (hp : AsciiPred p) {c : Char} (h : p c.toNat = false) :
    ∀ x ∈ utf8 c, p x = false := by
  intro x hx
  by_cases hc : c.toNat < 128
  · rw [utf8_ascii hc] at hx; simp at hx; rw [hx]; exact h
  · have := (utf8_nonascii (by omega) x hx).1
    cases e : p x with
    | false => rfl
    | true => have := hp x e; omega

/-- The byte position found is the byte offset of the character found. -/
theorem position_utf8s {p : Nat → Bool} (hp : AsciiPred p) (s : Str) :
    position p (utf8s s) = (findSplitHoleP (fun c => p c.toNat) s).map fun x => blen x.1 := by
  induction s with
  | nil => rfl
  | cons c r ih =>
    rw [utf8s_cons, findSplitHoleP]
    by_cases h : p c.toNat = true
    · have ha := hp _ h
      rw [utf8_ascii ha, if_pos h]
      simp [position, h]
    · have hf : p c.toNat = false := by simpa using h
      rw [if_neg h, position_append_none (utf8_pred_false hp hf), ih, ← utf8Size_eq]
      cases findSplitHoleP (fun c => p c.toNat) r with
      | none => rfl
      | some x => simp; omega

theorem rposition_utf8s {p : Nat → Bool} (hp : AsciiPred p) (s : Str) :
    rposition p (utf8s s) = (rfindSplitHoleP (fun c => p c.toNat) s).map fun x => blen x.1 := by
  induction s with
  | nil => rfl
  | cons c r ih =>
    rw [utf8s_cons, rfindSplitHoleP]
    by_cases h : p c.toNat = true
    · have ha := hp _ h
      rw [utf8_ascii ha]
      simp only [List.cons_append, List.nil_append, rposition, ih]
      cases rfindSplitHoleP (fun c => p c.toNat) r with
      | none => simp [h]
      | some x => simp [utf8Size_eq, utf8_ascii ha]; omega
    · have hf : p c.toNat = false := by simpa using h
      rw [rposition_append_none (utf8_pred_false hp hf), ih, ← utf8Size_eq]
      cases rfindSplitHoleP (fun c => p c.toNat) r with
      | none => simp [hf]
      | some x => simp; omega

theorem holeAtPos_eq {s a b : Str} {c : Char} (hc : c.toNat < 128) (h : s = a ++ c :: b) :
    holeAtPos s (some (blen a)) = some (some (a, c.toNat, b)) := by
  have h1 : sliceTo s (blen a) = some a := sliceTo_eq h rfl
  have h2 : sliceFrom s (blen a + 1) = some b :=
    sliceFrom_eq (a := a ++ [c]) (by simp [h]) (by simp [utf8Size_eq, utf8_ascii hc])
  have h3 : (utf8s s)[blen a]? = some c.toNat := by
    rw [h, utf8s_append, ← utf8s_length, List.getElem?_append_right (Nat.le_refl _), Nat.sub_self,
      utf8s_cons, utf8_ascii hc]
    rfl
  simp [holeAtPos, h1, h2, h3]

theorem splitAtPos_eq {s a b : Str} (h : s = a ++ b) :
    splitAtPos s (some (blen a)) = some (some (a, b)) := by
  simp [splitAtPos, h, splitAtB_append]

/-- General form for forward searches. -/
theorem position_hole {p : Nat → Bool} (hp : AsciiPred p) (s : Str) :
    holeAtPos s (position p (utf8s s)) =
      some ((findSplitHoleP (fun c => p c.toNat) s).map fun x => (x.1, x.2.1.toNat, x.2.2)) := by
  rw [position_utf8s hp]
  cases e : findSplitHoleP (fun c => p c.toNat) s with
  | none => rfl
  | some x =>
    obtain ⟨a, c, b⟩ := x
    obtain ⟨h1, h2, _⟩ := findSplitHoleP_some.1 e
    exact holeAtPos_eq (hp _ h2) h1

theorem position_split {p : Nat → Bool} (hp : AsciiPred p) (s : Str) :
    splitAtPos s (position p (utf8s s)) = some (findSplitP (fun c => p c.toNat) s) := by
  rw [position_utf8s hp, findSplitP_eq_hole]
  cases e : findSplitHoleP (fun c => p c.toNat) s with
  | none => rfl
  | some x =>
    obtain ⟨a, c, b⟩ := x
    obtain ⟨h1, h2, _⟩ := findSplitHoleP_some.1 e
    exact splitAtPos_eq h1

theorem rposition_hole {p : Nat → Bool} (hp : AsciiPred p) (s : Str) :
    holeAtPos s (rposition p (utf8s s)) =
      some ((rfindSplitHoleP (fun c => p c.toNat) s).map fun x => (x.1, x.2.1.toNat, x.2.2)) := by
  rw [rposition_utf8s hp]
  cases e : rfindSplitHoleP (fun c => p c.toNat) s with
  | none => rfl
  | some x =>
    obtain ⟨a, c, b⟩ := x
    obtain ⟨h1, h2, _⟩ := rfindSplitHoleP_some.1 e
    exact holeAtPos_eq (hp _ h2) h1

theorem rposition_split {p : Nat → Bool} (hp : AsciiPred p) (s : Str) :
    splitAtPos s (rposition p (utf8s s)) =
      some ((rfindSplitHoleP (fun c => p c.toNat) s).map fun x => (x.1, x.2.1 :: x.2.2)) := by
  rw [rposition_utf8s hp]
  cases e : rfindSplitHoleP (fun c => p c.toNat) s with
  | none => rfl
  | some x =>
    obtain ⟨a, c, b⟩ := x
    obtain ⟨h1, h2, _⟩ := rfindSplitHoleP_some.1 e
    exact splitAtPos_eq h1

theorem beq_toNat (c d : Char) : (c.toNat == d.toNat) = (c == d) := by
  by_cases h : c = d
  · simp [h]
  · have : c.toNat ≠ d.toNat := fun e => h ((char_eq_iff c d).2 e)
    rw [beq_eq_false_iff_ne.2 this, beq_eq_false_iff_ne.2 h]

/-- **C37** (forward searches): with ASCII needles, the byte-level helper does not panic and
equals the character-level one. -/
theorem C37_find (s : Str) (a b c d : Char) (ha : a.toNat < 128) (hb : b.toNat < 128)
    (hc : c.toNat < 128) (hd : d.toNat < 128) :
    Bytes.find_split s a.toNat = some (Verif.find_split s a) ∧
    Bytes.find_split2 s a.toNat b.toNat = some (Verif.find_split2 s a b) ∧
    Bytes.find_split3 s a.toNat b.toNat c.toNat = some (Verif.find_split3 s a b c) ∧
    Bytes.find_split_hole s a.toNat = some (Verif.find_split_hole s a) ∧
    Bytes.find_split2_hole s a.toNat b.toNat =
      some ((Verif.find_split2_hole s a b).map fun x => (x.1, x.2.1.toNat, x.2.2)) ∧
    Bytes.find_split4_hole s a.toNat b.toNat c.toNat d.toNat =
      some ((Verif.find_split4_hole s a b c d).map fun x => (x.1, x.2.1.toNat, x.2.2)) := by
  refine ⟨?_, ?_, ?_, ?_, ?_, ?_⟩
  · unfold Bytes.find_split Verif.find_split
    rw [position_split (fun x hx => by simp at hx; omega)]; simp only [beq_toNat]
  · unfold Bytes.find_split2 Verif.find_split2
    rw [position_split (fun x hx => by simp at hx; omega)]; simp only [beq_toNat]
  · unfold Bytes.find_split3 Verif.find_split3
    rw [position_split (fun x hx => by simp at hx; omega)]; simp only [beq_toNat]
  · unfold Bytes.find_split_hole Verif.find_split_hole
    rw [position_hole (fun x hx => by simp at hx; omega)]; simp only [beq_toNat]
    cases findSplitHoleP (fun x => x == a) s <;> rfl
  · unfold Bytes.find_split2_hole Verif.find_split2_hole
    rw [position_hole (fun x hx => by simp at hx; omega)]; simp only [beq_toNat]
  · unfold Bytes.find_split4_hole Verif.find_split4_hole
    rw [position_hole (fun x hx => by simp at hx; omega)]; simp only [beq_toNat]

/-- **C37** (backward searches). -/
theorem C37_rfind (s : Str) (a b : Char) (ha : a.toNat < 128) (hb : b.toNat < 128) :
    Bytes.rfind_split_hole s a.toNat = some (Verif.rfind_split_hole s a) ∧
    Bytes.rfind_split2 s a.toNat b.toNat = some (Verif.rfind_split2 s a b) ∧
    Bytes.rfind s a.toNat = (Verif.rfind_split_hole s a).map (fun x => blen x.1) := by
  refine ⟨?_, ?_, ?_⟩
  · unfold Bytes.rfind_split_hole Verif.rfind_split_hole
    rw [rposition_hole (fun x hx => by simp at hx; omega)]; simp only [beq_toNat]
    cases rfindSplitHoleP (fun x => x == a) s <;> rfl
  · unfold Bytes.rfind_split2 Verif.rfind_split2
    rw [rposition_split (fun x hx => by simp at hx; omega)]; simp only [beq_toNat]
  · unfold Bytes.rfind Verif.rfind_split_hole
    rw [rposition_utf8s (fun x hx => by simp at hx; omega)]; simp only [beq_toNat]
    cases rfindSplitHoleP (fun x => x == a) s <;> rfl

theorem position_none {p : Nat → Bool} {l : List Nat} : position p l = none ↔ ∀ x ∈ l, p x = false := by
  induction l with
  | nil => simp [position]
  | cons b r ih =>
    rw [position]
    by_cases h : p b = true
    · simp [h]
    · simp [h, ih]

theorem position_some {p : Nat → Bool} {l : List Nat} {n : Nat} :
    position p l = some n ↔ ∃ a b r, l = a ++ b :: r ∧ a.length = n ∧ p b = true ∧ ∀ x ∈ a, p x = false := by
  constructor
  · intro h
    induction l generalizing n with
    | nil => simp [position] at h
    | cons b r ih =>
      rw [position] at h
      by_cases hb : p b = true
      · rw [if_pos hb] at h; cases h; exact ⟨[], b, r, rfl, rfl, hb, by simp⟩
      · rw [if_neg hb] at h
        cases e : position p r with
        | none => rw [e] at h; cases h
        | some m =>
          rw [e] at h; cases h
          obtain ⟨a, c, t, rfl, h1, h2, h3⟩ := ih e
          exact ⟨b :: a, c, t, rfl, by simp [h1], h2, by simpa [hb] using h3⟩
  · rintro ⟨a, b, r, rfl, rfl, h2, h3⟩
    rw [position_append_none h3]
    simp [position, h2]

/-- The two-step search of the `memchr` build finds the same position as the plain search. -/
theorem position_or (p q : Nat → Bool) (l : List Nat) :
    (match position p l with
      | some n => (position q (l.take n)).or (some n)
      | none => position q l) = position (fun b => p b || q b) l := by
  cases h : position p l with
  | none =>
    have h' := position_none.1 h
    simp only
    induction l with
    | nil => rfl
    | cons b r ih =>
      rw [position, position]
      have hb := h' b (by simp)
      simp only [hb, Bool.false_or]
      rw [ih (position_none.2 fun x hx => h' x (by simp [hx])) fun x hx => h' x (by simp [hx])]
  | some n =>
    obtain ⟨a, b, r, rfl, rfl, hb, ha⟩ := position_some.1 h
    simp only [List.take_left]
    cases e : position q a with
    | none =>
      symm
      simp only [Option.none_or]
      exact position_some.2 ⟨a, b, r, rfl, rfl, by simp [hb], fun x hx => by
        simp [ha x hx, position_none.1 e x hx]⟩
    | some m =>
      obtain ⟨a', b', r', rfl, rfl, hb', ha'⟩ := position_some.1 e
      symm
      simp only [Option.some_or]
      exact position_some.2 ⟨a', b', r' ++ b :: r, by simp, rfl, by simp [hb'], fun x hx => by
        simp [ha x (by simp [hx]), ha' x hx]⟩

/-- **C37** (`memchr` feature): `find_split4_hole` gives the same result with and without it. -/
theorem C37_memchr (s : Str) (a b c d : Nat) :
    find_split4_hole_memchr s a b c d = Bytes.find_split4_hole s a b c d := by
  unfold find_split4_hole_memchr Bytes.find_split4_hole
  simp only
  rw [← position_or (fun x => x == a || x == b || x == c) (fun x => x == d) (utf8s s)]
  congr 1

theorem utf8s_getLast (s : Str) (h : s ≠ []) (d : Char) (hd : d.toNat < 128) :
    (utf8s s).getLast? = some d.toNat ↔ s.getLast? = some d := by
  obtain ⟨m, c, rfl⟩ : ∃ m c, s = m ++ [c] := ⟨s.dropLast, s.getLast h, (List.dropLast_concat_getLast h).symm⟩
  rw [utf8s_append, utf8s_cons, utf8s_nil, List.append_nil, List.getLast?_append]
  have hne := utf8_ne_nil c
  rw [List.getLast?_eq_some_getLast hne]
  simp only [Option.some_or, Option.some.injEq, List.getLast?_append, List.getLast?_singleton]
  by_cases hc : c.toNat < 128
  · have : (utf8 c).getLast hne = c.toNat := by simp [utf8_ascii hc]
    rw [this, char_eq_iff]
  · have := (utf8_nonascii (c := c) (by omega) _ (List.getLast_mem hne)).1
    constructor
    · intro e; omega
    · intro e; subst e; omega

theorem utf8s_head (c : Char) (r : Str) (d : Char) (hd : d.toNat < 128) :
    (utf8s (c :: r)).head? = some d.toNat ↔ c = d := by
  rw [utf8s_cons]
  by_cases hc : c.toNat < 128
  · rw [utf8_ascii hc]; simp [char_eq_iff]
  · obtain ⟨b, x, e, _⟩ := utf8_shape c
    have := (utf8_nonascii (c := c) (by omega) b (by rw [e]; simp)).1
    rw [e]; simp
    constructor
    · intro h; omega
    · intro h; subst h; omega

/-- **C37** (`get_wrapped_inner`, `strip_ascii_char_prefix`). -/
theorem C37_wrapped (s : Str) (op cl : Char) (ho : op.toNat < 128) (hc : cl.toNat < 128) :
    Bytes.get_wrapped_inner s op.toNat cl.toNat = some (Verif.get_wrapped_inner s op cl) ∧
    Bytes.strip_ascii_char_prefix s op.toNat = some (Verif.strip_ascii_char_prefix s op) := by
  constructor
  · cases hg : Verif.get_wrapped_inner s op cl with
    | some m =>
      have := get_wrapped_some.1 hg
      subst this
      have hs : slice (op :: (m ++ [cl])) 1 (blen (op :: (m ++ [cl])) - 1) = some m := by
        apply slice_eq (a := [op]) (c := [cl]) (by simp)
        · simp [utf8Size_eq, utf8_ascii ho]
        · simp [utf8Size_eq, utf8_ascii ho, utf8_ascii hc]; omega
      have hu : utf8s (op :: (m ++ [cl])) = op.toNat :: utf8s (m ++ [cl]) := by
        rw [utf8s_cons, utf8_ascii ho]; rfl
      have hl := (utf8s_getLast (m ++ [cl]) (by simp) cl hc).2 (by simp)
      rw [List.cons_append]
      unfold Bytes.get_wrapped_inner
      rw [hu]
      cases hx : utf8s (m ++ [cl]) with
      | nil => rw [hx] at hl; simp at hl
      | cons x r =>
        rw [hx] at hl
        simp only [hl, BEq.rfl, Bool.and_self, if_true, hs, Option.map_some]
    | none =>
      have hn := get_wrapped_none.1 hg
      unfold Bytes.get_wrapped_inner
      split
      · rfl
      · rfl
      · next p x r hx =>
        rw [if_neg]
        intro hh
        simp only [Bool.and_eq_true, beq_iff_eq] at hh
        obtain ⟨rfl, hl⟩ := hh
        cases s with
        | nil => simp [utf8s] at hx
        | cons c t =>
          have hc' : c = op := (utf8s_head c t op ho).1 (by rw [hx]; rfl)
          subst hc'
          have ht : utf8s t = x :: r := by
            rw [utf8s_cons, utf8_ascii ho] at hx; simpa using hx
          have htn : t ≠ [] := by rintro rfl; simp [utf8s] at ht
          have := (utf8s_getLast t htn cl hc).1 (by rw [ht]; exact hl)
          obtain ⟨m, hm⟩ : ∃ m, t = m ++ [cl] := by
            rw [List.getLast?_eq_some_getLast htn] at this
            cases this
            exact ⟨t.dropLast, (List.dropLast_concat_getLast htn).symm⟩
          exact hn m (by rw [hm]; rfl)
  · unfold Bytes.strip_ascii_char_prefix Verif.strip_ascii_char_prefix
    cases s with
    | nil => rfl
    | cons c r =>
      by_cases h : c = op
      · subst h
        have := (utf8s_head c r c ho).2 rfl
        have hs : sliceFrom (c :: r) 1 = some r :=
          sliceFrom_eq (a := [c]) rfl (by simp [utf8Size_eq, utf8_ascii ho])
        simp [this, hs]
      · have : ¬ (utf8s (c :: r)).head? = some op.toNat := fun e => h ((utf8s_head c r op ho).1 e)
        simp [this, h]

/-- **C37** (hex digits): testing the first two *bytes* for hexadecimal digits is testing the first
two characters. -/
theorem C37_hexdigits (s : Str) :
    Bytes.starts_with_double_hexdigits (utf8s s) = Verif.starts_with_double_hexdigits s := by
  have key : ∀ (c : Char) (l : List Nat), (128 ≤ c.toNat) →
      ∃ b t, utf8 c ++ l = b :: t ∧ isHex (Char.ofNat b) = false := by
    intro c l hc
    obtain ⟨b, x, e, _⟩ := utf8_shape c
    have hb := utf8_nonascii hc b (by rw [e]; simp)
    refine ⟨b, x ++ l, by rw [e]; rfl, ?_⟩
    have : (Char.ofNat b).toNat = b := utf8_ofNat (by simp [Nat.isValidChar]; omega)
    simp [isHex, this]; omega
  have hhex : ∀ c : Char, 128 ≤ c.toNat → isHex c = false := by
    intro c hc; simp [isHex]; omega
  match s with
  | [] => rfl
  | [c] =>
    rw [utf8s_cons, utf8s_nil, List.append_nil]
    by_cases hc : c.toNat < 128
    · rw [utf8_ascii hc]; rfl
    · obtain ⟨b, t, e, h⟩ := key c [] (by omega)
      rw [List.append_nil] at e
      rw [e]
      cases t <;> simp [Bytes.starts_with_double_hexdigits, Verif.starts_with_double_hexdigits, h]
  | c :: d :: r =>
    rw [utf8s_cons]
    by_cases hc : c.toNat < 128
    · rw [utf8_ascii hc, utf8s_cons]
      by_cases hd : d.toNat < 128
      · rw [utf8_ascii hd]
        simp [Bytes.starts_with_double_hexdigits, Verif.starts_with_double_hexdigits]
      · obtain ⟨b, t, e, h⟩ := key d (utf8s r) (by omega)
        rw [e]
        simp [Bytes.starts_with_double_hexdigits, Verif.starts_with_double_hexdigits, h,
          hhex d (by omega)]
    · obtain ⟨b, t, e, h⟩ := key c (utf8s (d :: r)) (by omega)
      rw [e]
      cases t <;> simp [Bytes.starts_with_double_hexdigits, Verif.starts_with_double_hexdigits, h,
          hhex c (by omega)]

/-- **C37**, link to Lean's own UTF-8: the byte list searched is Lean core's encoding of the text. -/
theorem C37_core_utf8 (s : Str) : utf8s s = (s.flatMap String.utf8EncodeChar).map UInt8.toNat := by
  induction s with
  | nil => rfl
  | cons c r ih => rw [utf8s_cons, ih, List.flatMap_cons, List.map_append, utf8_core]

example : Bytes.find_split (chars! "é/ü") 47 = some (some (chars! "é", chars! "/ü")) := by decide +kernel

end Verif
