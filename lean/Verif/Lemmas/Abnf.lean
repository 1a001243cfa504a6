import Verif.Lemmas.Chars
import Verif.Model.Str

/-! # Lemmas on ABNF combinators and percent-encoded character sequences -/

namespace Verif

open Verif.Abnf Verif.Rfc

theorem star_nil (A : Lang) : star A [] := ⟨0, rfl⟩

theorem star_cons {A : Lang} {a b : Str} (ha : A a) (hb : star A b) : star A (a ++ b) := by
  obtain ⟨n, hn⟩ := hb
  exact ⟨n + 1, a, b, rfl, ha, hn⟩

theorem star_ind {A : Lang} {P : Str → Prop} (h0 : P [])
    (h1 : ∀ a b, A a → star A b → P b → P (a ++ b)) : ∀ s, star A s → P s := by
  rintro s ⟨n, hn⟩
  induction n generalizing s with
  | zero => simp only [rep] at hn; subst hn; exact h0
  | succ n ih =>
    obtain ⟨a, b, rfl, ha, hb⟩ := hn
    exact h1 a b ha ⟨n, hb⟩ (ih b hb)

theorem star_append {A : Lang} {a b : Str} (ha : star A a) (hb : star A b) : star A (a ++ b) := by
  refine star_ind (P := fun a => star A (a ++ b)) hb ?_ a ha
  intro x y hx _ ih
  rw [List.append_assoc]
  exact star_cons hx ih

theorem star_chr (p : Char → Bool) (s : Str) : star (chr p) s ↔ s.all p = true := by
  constructor
  · refine star_ind (P := fun s => s.all p = true) rfl ?_ s
    rintro a b ⟨c, rfl, hc⟩ _ ih
    simp [hc]; simpa using ih
  · intro h
    induction s with
    | nil => exact star_nil _
    | cons c r ih =>
      simp at h
      exact star_cons (a := [c]) ⟨c, rfl, h.1⟩ (ih (by simpa using h.2))

theorem plus_chr (p : Char → Bool) (s : Str) :
    plus (chr p) s ↔ s ≠ [] ∧ s.all p = true := by
  constructor
  · rintro ⟨a, b, rfl, ⟨c, rfl, hc⟩, hb⟩
    rw [star_chr] at hb
    simp [hc]; simpa using hb
  · rintro ⟨h0, h⟩
    cases s with
    | nil => exact absurd rfl h0
    | cons c r =>
      simp at h
      exact ⟨[c], r, rfl, ⟨c, rfl, h.1⟩, (star_chr p r).2 (by simpa using h.2)⟩

/-! ### Sequences of class characters and percent-encoded triplets -/

/-- `s` is a sequence of characters of class `p` (never a raw `%`) and triplets. -/
inductive PC (p : Char → Bool) : Str → Prop
  | nil : PC p []
  | chr {c r} : c ≠ '%' → p c = true → PC p r → PC p (c :: r)
  | pct {h l r} : isHex h = true → isHex l = true → PC p r → PC p ('%' :: h :: l :: r)

theorem isHex_ne_pct {c : Char} (h : isHex c = true) : c ≠ '%' := by
  rintro rfl; exact absurd h (by decide)

theorem PC.append {p a b} (ha : PC p a) (hb : PC p b) : PC p (a ++ b) := by
  induction ha with
  | nil => exact hb
  | chr h1 h2 _ ih => exact PC.chr h1 h2 ih
  | pct h1 h2 _ ih => exact PC.pct h1 h2 ih

theorem PC.mono_mem {p q : Char → Bool} {s} (h : PC p s) (hpq : ∀ c ∈ s, p c = true → q c = true) :
    PC q s := by
  induction h with
  | nil => exact PC.nil
  | chr h1 h2 _ ih =>
    exact PC.chr h1 (hpq _ (by simp) h2) (ih fun c hc => hpq c (by simp [hc]))
  | pct h1 h2 _ ih => exact PC.pct h1 h2 (ih fun c hc => hpq c (by simp [hc]))

theorem PC.mono {p q : Char → Bool} {s} (h : PC p s) (hpq : ∀ c, p c = true → q c = true) :
    PC q s := h.mono_mem fun c _ => hpq c

theorem PC.mem {p s} (h : PC p s) {c} (hc : c ∈ s) : c = '%' ∨ isHex c = true ∨ p c = true := by
  induction h with
  | nil => simp at hc
  | chr h1 h2 _ ih => rcases List.mem_cons.1 hc with rfl | hc; exact .inr (.inr h2); exact ih hc
  | pct h1 h2 _ ih =>
    simp only [List.mem_cons] at hc
    rcases hc with rfl | rfl | rfl | hc
    · exact .inl rfl
    · exact .inr (.inl h1)
    · exact .inr (.inl h2)
    · exact ih hc

theorem PC.not_mem {p s} (h : PC p s) {d : Char} (h1 : d ≠ '%') (h2 : isHex d = false)
    (h3 : p d = false) : d ∉ s := by
  intro hd; rcases h.mem hd with h | h | h <;> simp_all

theorem PC_cons {p : Char → Bool} {c : Char} {r : Str} (hc : c ≠ '%') :
    PC p (c :: r) ↔ p c = true ∧ PC p r := by
  constructor
  · intro h
    cases h with
    | chr _ h2 h3 => exact ⟨h2, h3⟩
    | pct => exact absurd rfl hc
  · rintro ⟨h1, h2⟩; exact PC.chr hc h1 h2

theorem PC_pct {p : Char → Bool} {h l : Char} {r : Str} :
    PC p ('%' :: h :: l :: r) ↔ isHex h = true ∧ isHex l = true ∧ PC p r := by
  constructor
  · intro hh
    cases hh with
    | chr h1 => exact absurd rfl h1
    | pct h1 h2 h3 => exact ⟨h1, h2, h3⟩
  · rintro ⟨h1, h2, h3⟩; exact PC.pct h1 h2 h3

theorem PC_append_cons {p : Char → Bool} {d : Char} (hd : d ≠ '%') (hx : isHex d = false)
    {a b : Str} : PC p (a ++ d :: b) ↔ PC p a ∧ p d = true ∧ PC p b := by
  constructor
  · intro h
    generalize hs : a ++ d :: b = s at h
    induction h generalizing a with
    | nil => simp at hs
    | @chr c r h1 h2 h3 ih =>
      cases a with
      | nil =>
        simp at hs; obtain ⟨rfl, rfl⟩ := hs
        exact ⟨PC.nil, h2, h3⟩
      | cons x a =>
        simp at hs; obtain ⟨rfl, hs⟩ := hs
        obtain ⟨i1, i2, i3⟩ := ih hs
        exact ⟨PC.chr h1 h2 i1, i2, i3⟩
    | @pct h l r h1 h2 h3 ih =>
      match a, hs with
      | [], hs' => simp at hs'; exact absurd hs'.1 hd
      | [x], hs' => simp at hs'; rw [← hs'.2.1, hx] at h1; exact absurd h1 (by decide)
      | [x, y], hs' => simp at hs'; rw [← hs'.2.2.1, hx] at h2; exact absurd h2 (by decide)
      | x :: y :: z :: a', hs' =>
        simp at hs'; obtain ⟨rfl, rfl, rfl, hs''⟩ := hs'
        obtain ⟨i1, i2, i3⟩ := ih hs''
        exact ⟨PC.pct h1 h2 i1, i2, i3⟩
  · rintro ⟨h1, h2, h3⟩
    exact h1.append (PC.chr hd h2 h3)

theorem satisfy_iff (a n : Char → Bool) (s : Str) :
    satisfy_chars_with_pct_encoded a n s = true ↔ PC (cls a n) s := by
  induction s using satisfy_chars_with_pct_encoded.induct with
  | case1 => simp [satisfy_chars_with_pct_encoded, PC.nil]
  | case2 c h1 h2 h l r' ih =>
    simp at h2; subst h2
    rw [satisfy_chars_with_pct_encoded, PC_pct]
    simp [isAscii] at h1 ⊢
    simp [ih, and_assoc]
  | case3 c r h1 h2 hne =>
    simp at h2; subst h2
    rw [satisfy_chars_with_pct_encoded.eq_def]
    have : ¬ PC (cls a n) ('%' :: r) := by
      intro h
      cases h with
      | chr h1 => exact absurd rfl h1
      | pct h1 h2 h3 => exact hne _ _ _ rfl
    simp [h1, this]
  | case4 c r h1 h2 ih =>
    simp at h2
    rw [satisfy_chars_with_pct_encoded.eq_def, PC_cons h2]
    simp [h1, h2, ih, cls]
  | case5 c r h1 ih =>
    have h2 : c ≠ '%' := by rintro rfl; exact h1 (by decide)
    rw [satisfy_chars_with_pct_encoded.eq_def, PC_cons h2]
    simp [h1, ih, cls]

/-- One unit: a class character or a triplet. -/
def unit (p : Char → Bool) : Lang := fun s => (∃ c, s = [c] ∧ c ≠ '%' ∧ p c = true) ∨ pct_encoded s

theorem pct_encoded_iff (s : Str) :
    pct_encoded s ↔ ∃ h l, s = ['%', h, l] ∧ isHex h = true ∧ isHex l = true := by
  rw [pct_encoded, ← HEXDIG_eq]
  constructor
  · rintro ⟨_, _, rfl, rfl, _, _, rfl, ⟨h, rfl, hh⟩, ⟨l, rfl, hl⟩⟩
    exact ⟨h, l, rfl, hh, hl⟩
  · rintro ⟨h, l, rfl, hh, hl⟩
    exact ⟨['%'], [h, l], rfl, rfl, [h], [l], rfl, ⟨h, rfl, hh⟩, ⟨l, rfl, hl⟩⟩

theorem PC_of_unit {p s} (h : unit p s) : PC p s := by
  rcases h with ⟨c, rfl, h1, h2⟩ | h
  · exact PC.chr h1 h2 PC.nil
  · obtain ⟨h, l, rfl, h1, h2⟩ := (pct_encoded_iff _).1 h
    exact PC.pct h1 h2 PC.nil

theorem star_unit_iff {A : Lang} {p : Char → Bool} (hA : ∀ s, A s ↔ unit p s) (s : Str) :
    star A s ↔ PC p s := by
  constructor
  · refine star_ind (P := PC p) PC.nil ?_ s
    intro a b ha _ hb
    exact (PC_of_unit ((hA a).1 ha)).append hb
  · intro h
    induction h with
    | nil => exact star_nil _
    | @chr c r h1 h2 _ ih => exact star_cons (a := [c]) ((hA _).2 (.inl ⟨c, rfl, h1, h2⟩)) ih
    | @pct h l r h1 h2 _ ih =>
      exact star_cons (a := ['%', h, l])
        ((hA _).2 (.inr ((pct_encoded_iff _).2 ⟨h, l, rfl, h1, h2⟩))) ih

theorem plus_unit_iff {A : Lang} {p : Char → Bool} (hA : ∀ s, A s ↔ unit p s) (s : Str) :
    plus A s ↔ s ≠ [] ∧ PC p s := by
  constructor
  · rintro ⟨a, b, rfl, ha, hb⟩
    rw [star_unit_iff hA] at hb
    have ha := (hA a).1 ha
    refine ⟨?_, (PC_of_unit ha).append hb⟩
    rcases ha with ⟨c, rfl, _⟩ | h
    · simp
    · obtain ⟨h, l, rfl, _⟩ := (pct_encoded_iff _).1 h; simp
  · rintro ⟨h0, h⟩
    cases h with
    | nil => exact absurd rfl h0
    | @chr c r h1 h2 h3 =>
      exact ⟨[c], r, rfl, (hA _).2 (.inl ⟨c, rfl, h1, h2⟩), (star_unit_iff hA r).2 h3⟩
    | @pct h l r h1 h2 h3 =>
      exact ⟨['%', h, l], r, rfl, (hA _).2 (.inr ((pct_encoded_iff _).2 ⟨h, l, rfl, h1, h2⟩)),
        (star_unit_iff hA r).2 h3⟩

theorem iunreserved_pct (S : Spec) : iunreserved S '%' = false := by cases S <;> decide

/-- unit characterizations of the grammar's alternatives -/
theorem pchar_unit (S : Spec) (s : Str) : pchar S s ↔ unit (pcharC S) s := by
  simp only [pchar, alt, chr, lit, unit, pcharC]
  constructor
  · rintro (⟨c, rfl, h⟩ | h | ⟨c, rfl, h⟩ | rfl | rfl)
    · refine .inl ⟨c, rfl, ?_, by simp [h]⟩
      rintro rfl; simp [iunreserved_pct] at h
    · exact .inr h
    · refine .inl ⟨c, rfl, ?_, by simp [h]⟩
      rintro rfl; exact absurd h (by decide)
    · exact .inl ⟨':', rfl, by decide, by simp⟩
    · exact .inl ⟨'@', rfl, by decide, by simp⟩
  · rintro (⟨c, rfl, _, h⟩ | h)
    · simp at h
      rcases h with ((h | h) | rfl) | rfl <;> simp_all
    · exact .inr (.inl h)

theorem userinfo_unit (S : Spec) (s : Str) :
    (chr (iunreserved S) ∕ pct_encoded ∕ chr sub_delims ∕ lit [':']) s ↔ unit (userinfoC S) s := by
  simp only [alt, chr, lit, unit, userinfoC]
  constructor
  · rintro (⟨c, rfl, h⟩ | h | ⟨c, rfl, h⟩ | rfl)
    · refine .inl ⟨c, rfl, ?_, by simp [h]⟩
      rintro rfl; simp [iunreserved_pct] at h
    · exact .inr h
    · refine .inl ⟨c, rfl, ?_, by simp [h]⟩
      rintro rfl; exact absurd h (by decide)
    · exact .inl ⟨':', rfl, by decide, by simp⟩
  · rintro (⟨c, rfl, _, h⟩ | h)
    · simp at h
      rcases h with (h | h) | rfl <;> simp_all
    · exact .inr (.inl h)

theorem regname_unit (S : Spec) (s : Str) :
    (chr (iunreserved S) ∕ pct_encoded ∕ chr sub_delims) s ↔ unit (regnameC S) s := by
  simp only [alt, chr, unit, regnameC]
  constructor
  · rintro (⟨c, rfl, h⟩ | h | ⟨c, rfl, h⟩)
    · refine .inl ⟨c, rfl, ?_, by simp [h]⟩
      rintro rfl; simp [iunreserved_pct] at h
    · exact .inr h
    · refine .inl ⟨c, rfl, ?_, by simp [h]⟩
      rintro rfl; exact absurd h (by decide)
  · rintro (⟨c, rfl, _, h⟩ | h)
    · simp at h
      rcases h with h | h <;> simp_all
    · exact .inr (.inl h)

/-- Class for `isegment-nz-nc`. -/
def ncC (S : Spec) (c : Char) : Bool := iunreserved S c || sub_delims c || c == '@'

theorem nc_unit (S : Spec) (s : Str) :
    (chr (iunreserved S) ∕ pct_encoded ∕ chr sub_delims ∕ lit ['@']) s ↔ unit (ncC S) s := by
  simp only [alt, chr, lit, unit, ncC]
  constructor
  · rintro (⟨c, rfl, h⟩ | h | ⟨c, rfl, h⟩ | rfl)
    · refine .inl ⟨c, rfl, ?_, by simp [h]⟩
      rintro rfl; simp [iunreserved_pct] at h
    · exact .inr h
    · refine .inl ⟨c, rfl, ?_, by simp [h]⟩
      rintro rfl; exact absurd h (by decide)
    · exact .inl ⟨'@', rfl, by decide, by simp⟩
  · rintro (⟨c, rfl, _, h⟩ | h)
    · simp at h
      rcases h with (h | h) | rfl <;> simp_all
    · exact .inr (.inl h)

theorem fragment_unit (S : Spec) (s : Str) :
    (pchar S ∕ lit ['/'] ∕ lit ['?']) s ↔ unit (fragC S) s := by
  simp only [alt, lit, pchar_unit]
  simp only [unit, fragC]
  constructor
  · rintro ((⟨c, rfl, h1, h⟩ | h) | rfl | rfl)
    · exact .inl ⟨c, rfl, h1, by simp [h]⟩
    · exact .inr h
    · exact .inl ⟨'/', rfl, by decide, by simp⟩
    · exact .inl ⟨'?', rfl, by decide, by simp⟩
  · rintro (⟨c, rfl, h1, h⟩ | h)
    · simp at h
      rcases h with (h | rfl) | rfl <;> simp_all
    · exact .inl (.inr h)

theorem queryPrivate_pct (S : Spec) : queryPrivate S '%' = false := by cases S <;> decide

theorem query_unit (S : Spec) (s : Str) :
    (pchar S ∕ chr (queryPrivate S) ∕ lit ['/'] ∕ lit ['?']) s ↔ unit (queryC S) s := by
  simp only [alt, lit, chr, pchar_unit]
  simp only [unit, queryC]
  constructor
  · rintro ((⟨c, rfl, h1, h⟩ | h) | ⟨c, rfl, h⟩ | rfl | rfl)
    · exact .inl ⟨c, rfl, h1, by simp [h]⟩
    · exact .inr h
    · refine .inl ⟨c, rfl, ?_, by simp [h]⟩
      rintro rfl; simp [queryPrivate_pct] at h
    · exact .inl ⟨'/', rfl, by decide, by simp⟩
    · exact .inl ⟨'?', rfl, by decide, by simp⟩
  · rintro (⟨c, rfl, h1, h⟩ | h)
    · simp at h
      rcases h with ((h | rfl) | rfl) | h <;> simp_all
    · exact .inl (.inr h)

theorem query_iff (S : Spec) (s : Str) : query S s ↔ PC (queryC S) s :=
  star_unit_iff (query_unit S) s
theorem fragment_iff (S : Spec) (s : Str) : fragment S s ↔ PC (fragC S) s :=
  star_unit_iff (fragment_unit S) s
theorem userinfo_iff (S : Spec) (s : Str) : userinfo S s ↔ PC (userinfoC S) s :=
  star_unit_iff (userinfo_unit S) s
theorem reg_name_iff (S : Spec) (s : Str) : reg_name S s ↔ PC (regnameC S) s :=
  star_unit_iff (regname_unit S) s
theorem segment_iff (S : Spec) (s : Str) : segment S s ↔ PC (pcharC S) s :=
  star_unit_iff (pchar_unit S) s
theorem segment_nz_iff (S : Spec) (s : Str) : segment_nz S s ↔ s ≠ [] ∧ PC (pcharC S) s :=
  plus_unit_iff (pchar_unit S) s
theorem segment_nz_nc_iff (S : Spec) (s : Str) : segment_nz_nc S s ↔ s ≠ [] ∧ PC (ncC S) s :=
  plus_unit_iff (nc_unit S) s

end Verif
