import Verif.Model.Str

/-! # Lemmas on the splitting helpers and on byte slicing -/

namespace Verif

theorem findSplitHoleP_none {p : Char → Bool} {s : Str} :
    findSplitHoleP p s = none ↔ ∀ c ∈ s, p c = false := by
  induction s with
  | nil => simp [findSplitHoleP]
  | cons c r ih =>
    unfold findSplitHoleP
    by_cases h : p c <;> simp [h, ih]

theorem findSplitHoleP_some {p : Char → Bool} {s a b : Str} {c : Char} :
    findSplitHoleP p s = some (a, c, b) ↔ s = a ++ c :: b ∧ p c = true ∧ ∀ x ∈ a, p x = false := by
  induction s generalizing a with
  | nil => simp [findSplitHoleP]
  | cons d r ih =>
    unfold findSplitHoleP
    by_cases h : p d
    · simp only [h, if_true, Option.some.injEq, Prod.mk.injEq]
      constructor
      · rintro ⟨rfl, rfl, rfl⟩; simp [h]
      · rintro ⟨h1, h2, h3⟩
        cases a with
        | nil => simp at h1; simp [h1]
        | cons x a =>
          simp at h1; obtain ⟨rfl, _⟩ := h1
          simp [h] at h3
    · simp only [h, Bool.false_eq_true, if_false]
      constructor
      · intro hh
        simp at hh
        obtain ⟨a', h1, rfl⟩ := hh
        obtain ⟨h2, h3, h4⟩ := ih.1 h1
        subst h2
        simp [h3, h]; exact h4
      · rintro ⟨h1, h2, h3⟩
        cases a with
        | nil => simp at h1; obtain ⟨rfl, _⟩ := h1; exact absurd h2 h
        | cons x a =>
          simp at h1; obtain ⟨rfl, rfl⟩ := h1
          have : findSplitHoleP p (a ++ c :: b) = some (a, c, b) :=
            ih.2 ⟨rfl, h2, fun x hx => h3 x (by simp [hx])⟩
          simp [this]

theorem findSplitHoleP_eq {p : Char → Bool} {a b : Str} {c : Char} (hc : p c = true)
    (ha : ∀ x ∈ a, p x = false) : findSplitHoleP p (a ++ c :: b) = some (a, c, b) :=
  findSplitHoleP_some.2 ⟨rfl, hc, ha⟩

theorem findSplitP_eq_hole (p : Char → Bool) (s : Str) :
    findSplitP p s = (findSplitHoleP p s).map fun x => (x.1, x.2.1 :: x.2.2) := by
  induction s with
  | nil => rfl
  | cons c r ih =>
    unfold findSplitP findSplitHoleP
    by_cases h : p c <;> simp [h, ih]
    cases findSplitHoleP p r <;> simp

theorem findSplitP_none {p : Char → Bool} {s : Str} :
    findSplitP p s = none ↔ ∀ c ∈ s, p c = false := by
  rw [findSplitP_eq_hole, Option.map_eq_none_iff, findSplitHoleP_none]

theorem findSplitP_some {p : Char → Bool} {s a b : Str} :
    findSplitP p s = some (a, b) ↔
      ∃ c r, b = c :: r ∧ s = a ++ c :: r ∧ p c = true ∧ ∀ x ∈ a, p x = false := by
  rw [findSplitP_eq_hole, Option.map_eq_some_iff]
  constructor
  · rintro ⟨⟨a', c, r⟩, h1, h2⟩
    simp at h2; obtain ⟨rfl, rfl⟩ := h2
    exact ⟨c, r, rfl, findSplitHoleP_some.1 h1⟩
  · rintro ⟨c, r, rfl, h⟩
    exact ⟨(a, c, r), findSplitHoleP_some.2 h, rfl⟩

theorem findSplitP_eq {p : Char → Bool} {a b : Str} {c : Char} (hc : p c = true)
    (ha : ∀ x ∈ a, p x = false) : findSplitP p (a ++ c :: b) = some (a, c :: b) :=
  findSplitP_some.2 ⟨c, b, rfl, rfl, hc, ha⟩

theorem rfindSplitHoleP_none {p : Char → Bool} {s : Str} :
    rfindSplitHoleP p s = none ↔ ∀ c ∈ s, p c = false := by
  induction s with
  | nil => simp [rfindSplitHoleP]
  | cons c r ih =>
    unfold rfindSplitHoleP
    cases hr : rfindSplitHoleP p r with
    | some x =>
      rw [hr] at ih
      simp at ih ⊢
      intro _; obtain ⟨d, hd, hp⟩ := ih; exact ⟨d, hd, hp⟩
    | none =>
      have := ih.1 hr
      by_cases h : p c <;> simp [h]
      exact this

theorem rfindSplitHoleP_some {p : Char → Bool} {s a b : Str} {c : Char} :
    rfindSplitHoleP p s = some (a, c, b) ↔
      s = a ++ c :: b ∧ p c = true ∧ ∀ x ∈ b, p x = false := by
  induction s generalizing a with
  | nil => simp [rfindSplitHoleP]
  | cons d r ih =>
    unfold rfindSplitHoleP
    cases hr : rfindSplitHoleP p r with
    | some x =>
      obtain ⟨a', c', b'⟩ := x
      simp only [Option.some.injEq, Prod.mk.injEq]
      constructor
      · rintro ⟨rfl, rfl, rfl⟩
        obtain ⟨h1, h2, h3⟩ := ih.1 hr
        subst h1; simp [h2]; exact h3
      · rintro ⟨h1, h2, h3⟩
        cases a with
        | nil =>
          simp at h1; obtain ⟨rfl, rfl⟩ := h1
          have := rfindSplitHoleP_none.2 h3
          rw [hr] at this; cases this
        | cons x a =>
          simp at h1; obtain ⟨rfl, rfl⟩ := h1
          have := ih.2 ⟨rfl, h2, h3⟩
          rw [hr] at this; simp at this; simp [this]
    | none =>
      have hn := rfindSplitHoleP_none.1 hr
      constructor
      · intro h
        by_cases hd : p d
        · simp [hd] at h; obtain ⟨rfl, rfl, rfl⟩ := h; simp [hd]; exact hn
        · simp [hd] at h
      · rintro ⟨h1, h2, h3⟩
        cases a with
        | nil => simp at h1; obtain ⟨rfl, rfl⟩ := h1; simp [h2]
        | cons x a =>
          simp at h1; obtain ⟨rfl, rfl⟩ := h1
          have := hn c (by simp); simp [h2] at this

theorem rfindSplitHoleP_eq {p : Char → Bool} {a b : Str} {c : Char} (hc : p c = true)
    (hb : ∀ x ∈ b, p x = false) : rfindSplitHoleP p (a ++ c :: b) = some (a, c, b) :=
  rfindSplitHoleP_some.2 ⟨rfl, hc, hb⟩

/-! ### Single-needle versions -/

theorem find_split_hole_none {s : Str} {n : Char} : find_split_hole s n = none ↔ n ∉ s := by
  simp only [find_split_hole, Option.map_eq_none_iff, findSplitHoleP_none]
  constructor
  · intro h hn; simpa using h n hn
  · intro h c hc; simp; rintro rfl; exact h hc

theorem find_split_hole_some {s a b : Str} {n : Char} :
    find_split_hole s n = some (a, b) ↔ s = a ++ n :: b ∧ n ∉ a := by
  simp only [find_split_hole, Option.map_eq_some_iff]
  constructor
  · rintro ⟨⟨a', c, b'⟩, h1, h2⟩
    simp at h2; obtain ⟨rfl, rfl⟩ := h2
    obtain ⟨g1, g2, g3⟩ := findSplitHoleP_some.1 h1
    simp at g2; subst g2
    refine ⟨g1, fun h => ?_⟩
    simpa using g3 _ h
  · rintro ⟨rfl, h⟩
    refine ⟨(a, n, b), findSplitHoleP_eq (by simp) ?_, rfl⟩
    intro x hx; simp; rintro rfl; exact h hx

theorem find_split_hole_eq {a b : Str} {n : Char} (h : n ∉ a) :
    find_split_hole (a ++ n :: b) n = some (a, b) := find_split_hole_some.2 ⟨rfl, h⟩

theorem find_split_none {s : Str} {n : Char} : find_split s n = none ↔ n ∉ s := by
  simp only [find_split, findSplitP_none]
  constructor
  · intro h hn; simpa using h n hn
  · intro h c hc; simp; rintro rfl; exact h hc

theorem find_split_some {s a b : Str} {n : Char} :
    find_split s n = some (a, b) ↔ ∃ r, b = n :: r ∧ s = a ++ n :: r ∧ n ∉ a := by
  simp only [find_split, findSplitP_some]
  constructor
  · rintro ⟨c, r, rfl, rfl, h2, h3⟩
    simp at h2; subst h2
    exact ⟨r, rfl, rfl, fun h => by simpa using h3 _ h⟩
  · rintro ⟨r, rfl, rfl, h⟩
    refine ⟨n, r, rfl, rfl, by simp, ?_⟩
    intro x hx; simp; rintro rfl; exact h hx

theorem find_split_eq {a b : Str} {n : Char} (h : n ∉ a) :
    find_split (a ++ n :: b) n = some (a, n :: b) := find_split_some.2 ⟨b, rfl, rfl, h⟩

theorem rfind_split_hole_none {s : Str} {n : Char} : rfind_split_hole s n = none ↔ n ∉ s := by
  simp only [rfind_split_hole, Option.map_eq_none_iff, rfindSplitHoleP_none]
  constructor
  · intro h hn; simpa using h n hn
  · intro h c hc; simp; rintro rfl; exact h hc

theorem rfind_split_hole_some {s a b : Str} {n : Char} :
    rfind_split_hole s n = some (a, b) ↔ s = a ++ n :: b ∧ n ∉ b := by
  simp only [rfind_split_hole, Option.map_eq_some_iff]
  constructor
  · rintro ⟨⟨a', c, b'⟩, h1, h2⟩
    simp at h2; obtain ⟨rfl, rfl⟩ := h2
    obtain ⟨g1, g2, g3⟩ := rfindSplitHoleP_some.1 h1
    simp at g2; subst g2
    refine ⟨g1, fun h => ?_⟩
    simpa using g3 _ h
  · rintro ⟨rfl, h⟩
    refine ⟨(a, n, b), rfindSplitHoleP_eq (by simp) ?_, rfl⟩
    intro x hx; simp; rintro rfl; exact h hx

theorem rfind_split_hole_eq {a b : Str} {n : Char} (h : n ∉ b) :
    rfind_split_hole (a ++ n :: b) n = some (a, b) := rfind_split_hole_some.2 ⟨rfl, h⟩

/-! ### Prefix stripping -/

theorem strip_prefix_some {s p r : Str} : strip_prefix s p = some r ↔ s = p ++ r := by
  induction p generalizing s with
  | nil => simp [strip_prefix]
  | cons c p ih =>
    cases s with
    | nil => simp [strip_prefix]
    | cons d s =>
      simp only [strip_prefix]
      by_cases h : d = c
      · subst h; simp [ih]
      · simp [h]

theorem strip_prefix_none {s p : Str} : strip_prefix s p = none ↔ ∀ r, s ≠ p ++ r := by
  constructor
  · intro h r hr; rw [strip_prefix_some.2 hr] at h; cases h
  · intro h
    cases hh : strip_prefix s p with
    | none => rfl
    | some r => exact absurd (strip_prefix_some.1 hh) (h r)

theorem starts_with_iff {s p : Str} : starts_with s p = true ↔ ∃ r, s = p ++ r := by
  simp only [starts_with, Option.isSome_iff_exists, strip_prefix_some]

theorem strip_ascii_some {s r : Str} {c : Char} :
    strip_ascii_char_prefix s c = some r ↔ s = c :: r := by
  cases s with
  | nil => simp [strip_ascii_char_prefix]
  | cons d s =>
    simp only [strip_ascii_char_prefix]
    by_cases h : d = c
    · subst h; simp
    · simp [h]

theorem strip_ascii_none {s : Str} {c : Char} :
    strip_ascii_char_prefix s c = none ↔ ∀ r, s ≠ c :: r := by
  constructor
  · intro h r hr; rw [strip_ascii_some.2 hr] at h; cases h
  · intro h
    cases hh : strip_ascii_char_prefix s c with
    | none => rfl
    | some r => exact absurd (strip_ascii_some.1 hh) (h r)

theorem get_wrapped_some {s m : Str} {o c : Char} :
    get_wrapped_inner s o c = some m ↔ s = o :: m ++ [c] := by
  cases s with
  | nil => simp [get_wrapped_inner]
  | cons d r =>
    simp only [get_wrapped_inner]
    cases hr : r.reverse with
    | nil =>
      simp at hr; subst hr; simp
    | cons e t =>
      have hr' : r = t.reverse ++ [e] := by
        have := congrArg List.reverse hr; simpa using this
      subst hr'
      by_cases h : d = o ∧ e = c
      · obtain ⟨rfl, rfl⟩ := h; simp
      · simp only [Bool.and_eq_true, beq_iff_eq, h, if_false]
        constructor
        · intro hh; cases hh
        · intro hh
          simp at hh
          exact absurd ⟨hh.1, hh.2.2⟩ h

theorem get_wrapped_none {s : Str} {o c : Char} :
    get_wrapped_inner s o c = none ↔ ∀ m, s ≠ o :: m ++ [c] := by
  constructor
  · intro h m hm; rw [get_wrapped_some.2 hm] at h; cases h
  · intro h
    cases hh : get_wrapped_inner s o c with
    | none => rfl
    | some m => exact absurd (get_wrapped_some.1 hh) (h m)

/-! ### Byte lengths and slices -/

@[simp] theorem blen_nil : blen [] = 0 := rfl
@[simp] theorem blen_cons (c : Char) (r : Str) : blen (c :: r) = c.utf8Size + blen r := rfl

@[simp] theorem blen_append (a b : Str) : blen (a ++ b) = blen a + blen b := by
  induction a with
  | nil => simp
  | cons c r ih => simp [ih, Nat.add_assoc]

theorem splitAtB_append (a b : Str) : splitAtB (a ++ b) (blen a) = some (a, b) := by
  induction a with
  | nil => cases b <;> simp [splitAtB]
  | cons c r ih =>
    have hp : 0 < c.utf8Size := c.utf8Size_pos
    obtain ⟨n, hn⟩ : ∃ n, c.utf8Size + blen r = n + 1 := ⟨c.utf8Size + blen r - 1, by omega⟩
    rw [List.cons_append, blen_cons, hn, splitAtB, if_pos (by omega), ← hn, Nat.add_sub_cancel_left,
      ih]
    rfl

theorem splitAtB_some {s a b : Str} {n : Nat} :
    splitAtB s n = some (a, b) ↔ s = a ++ b ∧ blen a = n := by
  constructor
  · intro h
    induction s generalizing n a with
    | nil =>
      cases n <;> simp [splitAtB] at h
      simp [h]
    | cons c r ih =>
      cases n with
      | zero => simp [splitAtB] at h; simp [h]
      | succ n =>
        rw [splitAtB] at h
        split at h
        · rename_i hc
          rw [Option.map_eq_some_iff] at h
          obtain ⟨⟨a', b'⟩, h1, h2⟩ := h
          simp at h2; obtain ⟨rfl, rfl⟩ := h2
          obtain ⟨rfl, h3⟩ := ih h1
          simp [h3]; omega
        · cases h
  · rintro ⟨rfl, rfl⟩; exact splitAtB_append a b

theorem sliceFrom_append (a b : Str) : sliceFrom (a ++ b) (blen a) = some b := by
  simp [sliceFrom, splitAtB_append]

theorem sliceTo_append (a b : Str) : sliceTo (a ++ b) (blen a) = some a := by
  simp [sliceTo, splitAtB_append]

theorem slice_append (a b c : Str) {i j : Nat} (hi : i = blen a) (hj : j = blen a + blen b) :
    slice (a ++ (b ++ c)) i j = some b := by
  subst hi hj
  rw [slice, if_pos (by omega), ← blen_append, ← List.append_assoc, sliceTo_append]
  exact sliceFrom_append a b

theorem sliceFrom_eq {s a b : Str} {n : Nat} (h : s = a ++ b) (hn : n = blen a) :
    sliceFrom s n = some b := by subst h hn; exact sliceFrom_append a b
theorem sliceTo_eq {s a b : Str} {n : Nat} (h : s = a ++ b) (hn : n = blen a) :
    sliceTo s n = some a := by subst h hn; exact sliceTo_append a b
theorem slice_eq {s a b c : Str} {i j : Nat} (h : s = a ++ (b ++ c)) (hi : i = blen a)
    (hj : j = blen a + blen b) : slice s i j = some b := by subst h; exact slice_append a b c hi hj

theorem blen_eq_zero {s : Str} : blen s = 0 ↔ s = [] := by
  cases s with
  | nil => simp
  | cons c r => simp [blen]; intro h; have := c.utf8Size_pos; omega

end Verif
