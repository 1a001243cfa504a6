import Verif.Lemmas.Abnf
import Verif.Lemmas.Split
import Verif.Model.Validate

/-! # IPv4 and IPv6 literals: the validators are the grammar -/

namespace Verif

open Verif.Abnf Verif.Rfc

/-! ### IPv4 -/

theorem btw_eq (lo hi c : Char) : btw lo hi c = (decide (lo ≤ c) && decide (c ≤ hi)) := by
  simp [btw, char_le_iff]

theorem dec_octet_iff (s : Str) : dec_octet s ↔ is_dec_octet s = true := by
  constructor
  · rintro (⟨c, rfl, h⟩ | ⟨_, _, rfl, ⟨a, rfl, ha⟩, ⟨b, rfl, hb⟩⟩ |
      ⟨_, _, rfl, rfl, ⟨_, _, rfl, ⟨b, rfl, hb⟩, ⟨_, _, rfl, ⟨c, rfl, hc⟩, rfl⟩⟩⟩ |
      ⟨_, _, rfl, rfl, ⟨_, _, rfl, ⟨b, rfl, hb⟩, ⟨c, rfl, hc⟩⟩⟩ |
      ⟨_, _, rfl, rfl, ⟨c, rfl, hc⟩⟩)
    · simpa [is_dec_octet, btw_eq, DIGIT] using h
    · simp [DIGIT] at ha hb; simp [is_dec_octet, btw_eq, ha, hb]
    · simp [DIGIT] at hb hc; simp [is_dec_octet, btw_eq, hb, hc]
    · simp [DIGIT] at hb hc; simp [is_dec_octet, btw_eq, hb, hc]
    · simp at hc; simp [is_dec_octet, btw_eq, hc]
  · intro h
    match s, h with
    | [a], h => exact .inl ⟨a, rfl, by simpa [is_dec_octet, btw_eq, DIGIT] using h⟩
    | [a, b], h =>
      simp only [is_dec_octet, btw_eq, Bool.and_eq_true] at h
      exact .inr (.inl ⟨[a], [b], rfl, ⟨a, rfl, by simpa using h.1⟩, ⟨b, rfl, by simpa [DIGIT] using h.2⟩⟩)
    | [a, b, c], h =>
      simp only [is_dec_octet, btw_eq, Bool.or_eq_true, Bool.and_eq_true, beq_iff_eq] at h
      rcases h with (⟨⟨rfl, h1⟩, h2⟩ | ⟨⟨rfl, h1⟩, h2⟩) | ⟨⟨rfl, rfl⟩, h1⟩
      · exact .inr (.inr (.inl ⟨['1'], [b, c], rfl, rfl, [b], [c], rfl,
          ⟨b, rfl, by simpa [DIGIT] using h1⟩, [c], [], rfl, ⟨c, rfl, by simpa [DIGIT] using h2⟩, rfl⟩))
      · exact .inr (.inr (.inr (.inl ⟨['2'], [b, c], rfl, rfl, [b], [c], rfl,
          ⟨b, rfl, by simpa using h1⟩, ⟨c, rfl, by simpa [DIGIT] using h2⟩⟩)))
      · exact .inr (.inr (.inr (.inr ⟨['2', '5'], [c], rfl, rfl, ⟨c, rfl, by simpa using h1⟩⟩)))

theorem dec_octet_digits {s : Str} (h : is_dec_octet s = true) :
    s.all isDigit = true ∧ 1 ≤ s.length ∧ s.length ≤ 3 := by
  match s, h with
  | [a], h => simp [is_dec_octet, btw] at h; simp [isDigit, h]
  | [a, b], h => simp [is_dec_octet, btw] at h; simp [isDigit]; omega
  | [a, b, c], h =>
    simp only [is_dec_octet, btw, Bool.or_eq_true, Bool.and_eq_true, beq_iff_eq,
      decide_eq_true_eq] at h
    rcases h with (⟨⟨rfl, h1⟩, h2⟩ | ⟨⟨rfl, h1⟩, h2⟩) | ⟨⟨rfl, rfl⟩, h1⟩ <;>
      simp at * <;> simp [isDigit] <;> omega

theorem isDigit_isHex {c : Char} (h : isDigit c = true) : isHex c = true := by
  simp [isDigit] at h; simp [isHex]; omega

theorem not_mem_of_all {p : Char → Bool} {s : Str} {d : Char} (h : s.all p = true)
    (hd : p d = false) : d ∉ s := by
  intro hm; have := List.all_eq_true.1 h d hm; simp [hd] at this

theorem dec_octet_no_dot {s : Str} (h : is_dec_octet s = true) : '.' ∉ s :=
  not_mem_of_all (dec_octet_digits h).1 (by decide)

theorem ipv4_validate_iff (s : Str) : validate_ipv4address s = true ↔
    ∃ a b c d, s = a ++ '.' :: (b ++ '.' :: (c ++ '.' :: d)) ∧ is_dec_octet a = true ∧
      is_dec_octet b = true ∧ is_dec_octet c = true ∧ is_dec_octet d = true := by
  constructor
  · intro h
    unfold validate_ipv4address at h
    cases h1 : find_split_hole s '.' with
    | none => simp [h1] at h
    | some x =>
      obtain ⟨a, r1⟩ := x
      simp only [h1] at h
      cases ha : is_dec_octet a <;> simp [ha] at h
      cases h2 : find_split_hole r1 '.' with
      | none => simp [h2] at h
      | some x =>
        obtain ⟨b, r2⟩ := x
        simp only [h2] at h
        cases hb : is_dec_octet b <;> simp [hb] at h
        cases h3 : find_split_hole r2 '.' with
        | none => simp [h3] at h
        | some x =>
          obtain ⟨c, d⟩ := x
          simp only [h3] at h
          simp at h
          obtain ⟨rfl, _⟩ := find_split_hole_some.1 h1
          obtain ⟨rfl, _⟩ := find_split_hole_some.1 h2
          obtain ⟨rfl, _⟩ := find_split_hole_some.1 h3
          exact ⟨a, b, c, d, rfl, ha, hb, h.1, h.2⟩
  · rintro ⟨a, b, c, d, rfl, ha, hb, hc, hd⟩
    unfold validate_ipv4address
    rw [find_split_hole_eq (dec_octet_no_dot ha)]
    simp only [ha]
    rw [find_split_hole_eq (dec_octet_no_dot hb)]
    simp only [hb]
    rw [find_split_hole_eq (dec_octet_no_dot hc)]
    simp [hc, hd]

theorem ipv4_iff (s : Str) : IPv4address s ↔ validate_ipv4address s = true := by
  rw [ipv4_validate_iff]
  simp only [← dec_octet_iff]
  constructor
  · rintro ⟨a, _, rfl, ha, _, _, rfl, rfl, b, _, rfl, hb, _, _, rfl, rfl, c, _, rfl, hc, _, d, rfl,
      rfl, hd⟩
    exact ⟨a, b, c, d, by simp, ha, hb, hc, hd⟩
  · rintro ⟨a, b, c, d, rfl, ha, hb, hc, hd⟩
    exact ⟨a, _, rfl, ha, ['.'], _, rfl, rfl, b, _, rfl, hb, ['.'], _, rfl, rfl, c, _, rfl, hc,
      ['.'], d, rfl, rfl, hd⟩

theorem ipv4_chars {s : Str} (h : validate_ipv4address s = true) :
    (∀ c ∈ s, isDigit c = true ∨ c = '.') ∧ '.' ∈ s ∧ 7 ≤ s.length ∧ s.length ≤ 15 := by
  obtain ⟨a, b, c, d, rfl, ha, hb, hc, hd⟩ := (ipv4_validate_iff s).1 h
  have ha := dec_octet_digits ha
  have hb := dec_octet_digits hb
  have hc := dec_octet_digits hc
  have hd := dec_octet_digits hd
  simp only [List.all_eq_true] at ha hb hc hd
  refine ⟨?_, by simp, ?_, ?_⟩
  · intro x hx
    simp only [List.mem_append, List.mem_cons] at hx
    rcases hx with h | h | h | h | h | h | h
    · exact .inl (ha.1 _ h)
    · exact .inr h
    · exact .inl (hb.1 _ h)
    · exact .inr h
    · exact .inl (hc.1 _ h)
    · exact .inr h
    · exact .inl (hd.1 _ h)
  · simp; omega
  · simp; omega

theorem utf8Size_ascii {c : Char} (h : c.toNat < 128) : c.utf8Size = 1 := by
  unfold Char.utf8Size
  have : c.val ≤ 127 := by
    rw [UInt32.le_iff_toNat_le]; change c.toNat ≤ 127; omega
  simp [this]

theorem blen_ascii {s : Str} (h : ∀ c ∈ s, c.toNat < 128) : blen s = s.length := by
  induction s with
  | nil => rfl
  | cons c r ih =>
    rw [blen_cons, utf8Size_ascii (h c (by simp)), ih fun c hc => h c (by simp [hc])]
    simp; omega

theorem length_le_blen (s : Str) : s.length ≤ blen s := by
  induction s with
  | nil => simp
  | cons c r ih => have := c.utf8Size_pos; simp; omega

/-! ### IPv6 -/

theorem rep_chr (p : Char → Bool) (k : Nat) (s : Str) :
    rep k (chr p) s ↔ s.length = k ∧ s.all p = true := by
  induction k generalizing s with
  | zero =>
    simp only [rep]
    constructor
    · rintro rfl; simp
    · rintro ⟨h, _⟩; exact List.length_eq_zero_iff.1 h
  | succ k ih =>
    simp only [rep, seq]
    constructor
    · rintro ⟨_, b, rfl, ⟨c, rfl, hc⟩, hb⟩
      obtain ⟨h1, h2⟩ := (ih b).1 hb
      simp [h1, hc]; simpa using h2
    · rintro ⟨h1, h2⟩
      cases s with
      | nil => simp at h1
      | cons c r =>
        simp at h1 h2
        exact ⟨[c], r, rfl, ⟨c, rfl, h2.1⟩, (ih r).2 ⟨h1, by simpa using h2.2⟩⟩

theorem h16_iff (s : Str) : h16 s ↔ 1 ≤ s.length ∧ s.length ≤ 4 ∧ s.all isHex = true := by
  simp only [h16, between, rep_chr, HEXDIG_eq]
  constructor
  · rintro ⟨k, h1, h2, rfl, h3⟩; exact ⟨h1, h2, h3⟩
  · rintro ⟨h1, h2, h3⟩; exact ⟨_, h1, h2, rfl, h3⟩

theorem isHex_ascii {c : Char} (h : isHex c = true) : c.toNat < 128 := by
  simp [isHex] at h; omega

theorem hex_blen {s : Str} (h : s.all isHex = true) : blen s = s.length :=
  blen_ascii fun _ hc => isHex_ascii (List.all_eq_true.1 h _ hc)

theorem h16_no_colon {s : Str} (h : h16 s) : ':' ∉ s :=
  not_mem_of_all ((h16_iff s).1 h).2.2 (by decide)

theorem h16_ne {s : Str} (h : h16 s) : s ≠ [] := by
  rintro rfl; have := ((h16_iff []).1 h).1; simp at this

theorem ipv4_no_colon {s : Str} (h : IPv4address s) : ':' ∉ s := by
  intro hm
  rcases (ipv4_chars ((ipv4_iff s).1 h)).1 _ hm with h | h
  · exact absurd h (by decide)
  · exact absurd h (by decide)

theorem ipv4_ne {s : Str} (h : IPv4address s) : s ≠ [] := by
  rintro rfl; have := (ipv4_chars ((ipv4_iff _).1 h)).2.2.1; simp at this

/-- Groups joined by `:`, the last of which may be an IPv4 address counting for two. -/
inductive G : Nat → Str → Prop
  | h16 {s} : h16 s → G 1 s
  | v4 {s} : IPv4address s → G 2 s
  | cons {k a b} : Rfc.h16 a → G k b → G (k + 1) (a ++ ':' :: b)

/-- The part to the left of `::`: `k` groups. -/
inductive Left : Nat → Str → Prop
  | zero : Left 0 []
  | one {a} : h16 a → Left 1 a
  | cons {k a b} : h16 a → Left (k + 1) b → Left (k + 2) (a ++ ':' :: b)

/-- The part to the right of `::`. -/
def Right (j : Nat) (s : Str) : Prop := (j = 0 ∧ s = []) ∨ G j s

theorem G_pos {k s} (h : G k s) : 1 ≤ k ∧ s ≠ [] := by
  induction h with
  | h16 h => exact ⟨by omega, h16_ne h⟩
  | v4 h => exact ⟨by omega, ipv4_ne h⟩
  | cons h _ _ => exact ⟨by omega, by simp⟩

theorem G_one {s} : G 1 s ↔ h16 s := by
  constructor
  · intro h
    generalize hk : 1 = k at h
    cases h with
    | h16 h => exact h
    | v4 => omega
    | cons _ h => have := (G_pos h).1; omega
  · exact G.h16

theorem G_grammar (k : Nat) (s : Str) : (rep k h16c ⬝ ls32) s ↔ G (k + 2) s := by
  induction k generalizing s with
  | zero =>
    constructor
    · rintro ⟨_, b, rfl, rfl, hb⟩
      rcases hb with ⟨x, _, rfl, hx, _, y, rfl, rfl, hy⟩ | hb
      · exact G.cons (k := 1) hx (G.h16 hy)
      · exact G.v4 hb
    · intro h
      refine ⟨[], s, rfl, rfl, ?_⟩
      generalize hk : 0 + 2 = k at h
      cases h with
      | h16 h => omega
      | v4 h => exact .inr h
      | @cons k a b ha hb =>
        have : k = 1 := by omega
        subst this
        exact .inl ⟨a, ':' :: b, rfl, ha, [':'], b, rfl, rfl, G_one.1 hb⟩
  | succ k ih =>
    constructor
    · rintro ⟨_, b, rfl, ⟨_, y, rfl, ⟨a, _, rfl, ha, rfl⟩, hy⟩, hb⟩
      have := (ih (y ++ b)).1 ⟨y, b, rfl, hy, hb⟩
      simpa using G.cons ha this
    · intro h
      generalize hk : k + 1 + 2 = m at h
      cases h with
      | h16 h => omega
      | v4 h => omega
      | @cons m a b ha hb =>
        have : m = k + 2 := by omega
        subst this
        obtain ⟨y, z, rfl, hy, hz⟩ := (ih b).2 hb
        exact ⟨a ++ ':' :: y, z, by simp, ⟨a ++ [':'], y, by simp, ⟨a, [':'], rfl, ha, rfl⟩, hy⟩, hz⟩

theorem Left_grammar (k : Nat) (s : Str) : (rep k h16c ⬝ h16) s ↔ Left (k + 1) s := by
  induction k generalizing s with
  | zero =>
    constructor
    · rintro ⟨_, b, rfl, rfl, hb⟩; exact Left.one hb
    · intro h
      generalize hk : 0 + 1 = k at h
      cases h with
      | zero => omega
      | one h => exact ⟨[], _, rfl, rfl, h⟩
      | cons => omega
  | succ k ih =>
    constructor
    · rintro ⟨_, b, rfl, ⟨_, y, rfl, ⟨a, _, rfl, ha, rfl⟩, hy⟩, hb⟩
      have := (ih (y ++ b)).1 ⟨y, b, rfl, hy, hb⟩
      simpa using Left.cons ha this
    · intro h
      generalize hk : k + 1 + 1 = m at h
      cases h with
      | zero => omega
      | one h => omega
      | @cons m a b ha hb =>
        have : m = k := by omega
        subst this
        obtain ⟨y, z, rfl, hy, hz⟩ := (ih b).2 hb
        exact ⟨a ++ ':' :: y, z, by simp, ⟨a ++ [':'], y, by simp, ⟨a, [':'], rfl, ha, rfl⟩, hy⟩, hz⟩

theorem opt_left (m : Nat) (s : Str) :
    opt (upTo m h16c ⬝ h16) s ↔ ∃ k, k ≤ m + 1 ∧ Left k s := by
  constructor
  · rintro (rfl | ⟨a, b, rfl, ⟨k, hk, ha⟩, hb⟩)
    · exact ⟨0, by omega, Left.zero⟩
    · exact ⟨k + 1, by omega, (Left_grammar k _).1 ⟨a, b, rfl, ha, hb⟩⟩
  · rintro ⟨k, hk, h⟩
    cases k with
    | zero =>
      generalize hk' : 0 = z at h
      cases h with
      | zero => exact .inl rfl
      | one => omega
      | cons => omega
    | succ k =>
      obtain ⟨a, b, rfl, ha, hb⟩ := (Left_grammar k _).2 h
      exact .inr ⟨a, b, rfl, ⟨k, by omega, ha⟩, hb⟩

theorem opt_left0 (s : Str) : opt h16 s ↔ ∃ k, k ≤ 1 ∧ Left k s := by
  constructor
  · rintro (rfl | h)
    · exact ⟨0, by omega, Left.zero⟩
    · exact ⟨1, by omega, Left.one h⟩
  · rintro ⟨k, hk, h⟩
    cases h with
    | zero => exact .inl rfl
    | one h => exact .inr h
    | cons => omega

theorem rep_one (A : Lang) (s : Str) : rep 1 A s ↔ A s := by
  simp only [rep, seq]
  constructor
  · rintro ⟨a, b, rfl, ha, rfl⟩; simpa using ha
  · intro h; exact ⟨s, [], by simp, h, rfl⟩

/-- The nine alternatives, uniformly. -/
theorem ipv6_grammar (s : Str) : IPv6address s ↔
    G 8 s ∨ ∃ a b i j, s = a ++ ':' :: ':' :: b ∧ Left i a ∧ Right j b ∧ i + j ≤ 7 := by
  have key : ∀ (A : Lang) (R : Lang) (m j : Nat) (_hA : ∀ s, A s ↔ ∃ k, k ≤ m ∧ Left k s)
      (_hR : ∀ s, R s ↔ Right j s), ∀ s, (A ⬝ lit [':', ':'] ⬝ R) s ↔
        ∃ a b i, s = a ++ ':' :: ':' :: b ∧ Left i a ∧ Right j b ∧ i ≤ m := by
    intro A R m j hA hR s
    constructor
    · rintro ⟨a, _, rfl, ha, _, b, rfl, rfl, hb⟩
      obtain ⟨i, hi, ha⟩ := (hA a).1 ha
      exact ⟨a, b, i, rfl, ha, (hR b).1 hb, hi⟩
    · rintro ⟨a, b, i, rfl, ha, hb, hi⟩
      exact ⟨a, _, rfl, (hA a).2 ⟨i, hi, ha⟩, [':', ':'], b, rfl, rfl, (hR b).2 hb⟩
  have hG : ∀ k, ∀ s, (rep k h16c ⬝ ls32) s ↔ Right (k + 2) s := by
    intro k s; rw [G_grammar]; simp [Right]
  have hG1 : ∀ s, (h16c ⬝ ls32) s ↔ Right 3 s := by
    intro s; rw [← hG 1]; simp only [seq, rep_one]
  have hG0 : ∀ s, ls32 s ↔ Right 2 s := by
    intro s; rw [← hG 0]; simp only [seq, rep]
    constructor
    · intro h; exact ⟨[], s, rfl, rfl, h⟩
    · rintro ⟨_, b, rfl, rfl, h⟩; exact h
  have hH : ∀ s, h16 s ↔ Right 1 s := by intro s; simp [Right, G_one]
  have e2 : (lit [':', ':'] ⬝ rep 5 h16c ⬝ ls32) s ↔
      ∃ a b i, s = a ++ ':' :: ':' :: b ∧ Left i a ∧ Right 7 b ∧ i ≤ 0 := by
    constructor
    · rintro ⟨_, b, rfl, rfl, hb⟩
      exact ⟨[], b, 0, rfl, Left.zero, (hG 5 b).1 hb, by omega⟩
    · rintro ⟨a, b, i, rfl, ha, hb, hi⟩
      cases ha with
      | zero => exact ⟨[':', ':'], b, rfl, rfl, (hG 5 b).2 hb⟩
      | one => omega
      | cons => omega
  have e3 := key _ _ 1 6 opt_left0 (hG 4) s
  have e4 := key _ _ 2 5 (opt_left 1) (hG 3) s
  have e5 := key _ _ 3 4 (opt_left 2) (hG 2) s
  have e6 := key _ _ 4 3 (opt_left 3) hG1 s
  have e7 := key _ _ 5 2 (opt_left 4) hG0 s
  have e8 := key _ _ 6 1 (opt_left 5) hH s
  have e9 : (opt (upTo 6 h16c ⬝ h16) ⬝ lit [':', ':']) s ↔
      ∃ a b i, s = a ++ ':' :: ':' :: b ∧ Left i a ∧ Right 0 b ∧ i ≤ 7 := by
    constructor
    · rintro ⟨a, _, rfl, ha, rfl⟩
      obtain ⟨i, hi, ha⟩ := (opt_left 6 a).1 ha
      exact ⟨a, [], i, rfl, ha, .inl ⟨rfl, rfl⟩, hi⟩
    · rintro ⟨a, b, i, rfl, ha, hb, hi⟩
      rcases hb with ⟨_, rfl⟩ | hb
      · exact ⟨a, _, rfl, (opt_left 6 a).2 ⟨i, hi, ha⟩, rfl⟩
      · have := (G_pos hb).1; omega
  unfold IPv6address
  simp only [alt]
  rw [e2, e3, e4, e5, e6, e7, e8, e9, G_grammar]
  constructor
  · rintro (h | ⟨a, b, i, h1, h2, h3, h4⟩ | ⟨a, b, i, h1, h2, h3, h4⟩ | ⟨a, b, i, h1, h2, h3, h4⟩ |
      ⟨a, b, i, h1, h2, h3, h4⟩ | ⟨a, b, i, h1, h2, h3, h4⟩ | ⟨a, b, i, h1, h2, h3, h4⟩ |
      ⟨a, b, i, h1, h2, h3, h4⟩ | ⟨a, b, i, h1, h2, h3, h4⟩)
    · exact .inl h
    all_goals exact .inr ⟨a, b, i, _, h1, h2, h3, by omega⟩
  · rintro (h | ⟨a, b, i, j, h1, h2, h3, h4⟩)
    · exact .inl h
    · right
      match j, h3, h4 with
      | 7, h3, h4 => exact .inl ⟨a, b, i, h1, h2, h3, by omega⟩
      | 6, h3, h4 => exact .inr (.inl ⟨a, b, i, h1, h2, h3, by omega⟩)
      | 5, h3, h4 => exact .inr (.inr (.inl ⟨a, b, i, h1, h2, h3, by omega⟩))
      | 4, h3, h4 => exact .inr (.inr (.inr (.inl ⟨a, b, i, h1, h2, h3, by omega⟩)))
      | 3, h3, h4 => exact .inr (.inr (.inr (.inr (.inl ⟨a, b, i, h1, h2, h3, by omega⟩))))
      | 2, h3, h4 => exact .inr (.inr (.inr (.inr (.inr (.inl ⟨a, b, i, h1, h2, h3, by omega⟩)))))
      | 1, h3, h4 =>
        exact .inr (.inr (.inr (.inr (.inr (.inr (.inl ⟨a, b, i, h1, h2, h3, by omega⟩))))))
      | 0, h3, h4 =>
        exact .inr (.inr (.inr (.inr (.inr (.inr (.inr ⟨a, b, i, h1, h2, h3, by omega⟩))))))
      | (j + 8), h3, h4 => omega

/-! #### The splitting step -/

theorem split_h16_ok {pre : Str} (h0 : pre ≠ []) : ((¬ 5 ≤ blen pre) ∧ pre.all isHex = true) ↔ h16 pre := by
  rw [h16_iff]
  constructor
  · rintro ⟨h1, h2⟩
    rw [hex_blen h2] at h1
    have : pre.length ≠ 0 := by simpa using h0
    exact ⟨by omega, by omega, h2⟩
  · rintro ⟨h1, h2, h3⟩
    rw [hex_blen h3]; exact ⟨by omega, h3⟩

/-- One step of the IPv6 scanner when no colon is left. -/
theorem split_v6_last {i : Str} (hc : ':' ∉ i) (hi : i ≠ []) (o : Option (Str × V6AddrPart)) :
    split_v6_addr_part i = o ↔
      (IPv4address i ∧ o = some ([], .V4)) ∨ (h16 i ∧ o = some ([], .H16End)) ∨
      (¬ IPv4address i ∧ ¬ h16 i ∧ o = none) := by
  have hf : find_split_hole i ':' = none := find_split_hole_none.2 hc
  have hx : h16 i → ¬ IPv4address i := by
    intro h h'
    have h1 := (ipv4_chars ((ipv4_iff i).1 h')).2.2.1
    have h2 := ((h16_iff i).1 h).2.1
    omega
  unfold split_v6_addr_part
  rw [hf]
  simp only
  by_cases h5 : 5 ≤ blen i
  · have hn : ¬ h16 i := fun h => ((split_h16_ok hi).2 h).1 h5
    rw [if_pos h5]
    cases hv : validate_ipv4address i with
    | true => have := (ipv4_iff i).2 hv; simp [this, hn, eq_comm]
    | false =>
      have : ¬ IPv4address i := by rw [ipv4_iff, hv]; simp
      simp [this, hn, eq_comm]
  · have h4 : ¬ IPv4address i := by
      intro h'
      have h1 := (ipv4_chars ((ipv4_iff i).1 h')).2.2.1
      have := length_le_blen i
      omega
    rw [if_neg h5]
    cases hh : i.all isHex with
    | true => have := (split_h16_ok hi).1 ⟨h5, hh⟩; simp [this, h4, eq_comm]
    | false =>
      have : ¬ h16 i := fun h => by
        have := ((split_h16_ok hi).2 h).2; rw [hh] at this; cases this
      simp [this, h4, eq_comm]

theorem split_v6_omit (r : Str) : split_v6_addr_part (':' :: ':' :: r) = some (r, .Omit) := by
  have : find_split_hole (':' :: ':' :: r) ':' = some ([], ':' :: r) :=
    find_split_hole_eq (a := []) (by simp)
  unfold split_v6_addr_part; rw [this]; simp [blen, strip_ascii_char_prefix]

theorem split_v6_lead {r : Str} (hr : ∀ r', r ≠ ':' :: r') : split_v6_addr_part (':' :: r) = none := by
  have : find_split_hole (':' :: r) ':' = some ([], r) :=
    find_split_hole_eq (a := []) (by simp)
  unfold split_v6_addr_part; rw [this]
  have h2 : strip_ascii_char_prefix r ':' = none := strip_ascii_none.2 hr
  simp [blen, h2]

theorem split_v6_h16omit {pre r : Str} (h : h16 pre) :
    split_v6_addr_part (pre ++ ':' :: ':' :: r) = some (r, .H16Omit) := by
  have hf : find_split_hole (pre ++ ':' :: ':' :: r) ':' = some (pre, ':' :: r) :=
    find_split_hole_eq (h16_no_colon h)
  have h0 := h16_ne h
  obtain ⟨h5, hx⟩ := (split_h16_ok h0).2 h
  unfold split_v6_addr_part; rw [hf]
  simp only
  rw [if_neg h5, hx]
  simp [h0, strip_ascii_char_prefix]

theorem split_v6_h16cont {pre r : Str} (h : h16 pre) (hr : ∀ r', r ≠ ':' :: r') :
    split_v6_addr_part (pre ++ ':' :: r) = some (r, .H16Cont) := by
  have hf : find_split_hole (pre ++ ':' :: r) ':' = some (pre, r) :=
    find_split_hole_eq (h16_no_colon h)
  have h0 := h16_ne h
  obtain ⟨h5, hx⟩ := (split_h16_ok h0).2 h
  unfold split_v6_addr_part; rw [hf]
  have h2 : strip_ascii_char_prefix r ':' = none := strip_ascii_none.2 hr
  simp only
  rw [if_neg h5, hx]
  simp [h0, h2]

theorem split_v6_bad {pre r : Str} (hc : ':' ∉ pre) (h0 : pre ≠ []) (h : ¬ h16 pre) :
    split_v6_addr_part (pre ++ ':' :: r) = none := by
  have hf : find_split_hole (pre ++ ':' :: r) ':' = some (pre, r) := find_split_hole_eq hc
  unfold split_v6_addr_part; rw [hf]
  simp only
  by_cases h5 : 5 ≤ blen pre
  · rw [if_pos h5]
  · rw [if_neg h5]
    cases hx : pre.all isHex with
    | true => exact absurd ((split_h16_ok h0).1 ⟨h5, hx⟩) h
    | false => simp [h0]

/-! #### The loop -/

theorem cut_unique {a b a' b' : Str} {d : Char} (ha : d ∉ a) (ha' : d ∉ a')
    (h : a ++ d :: b = a' ++ d :: b') : a = a' ∧ b = b' := by
  have h1 : find_split_hole (a ++ d :: b) d = some (a, b) := find_split_hole_eq ha
  have h2 : find_split_hole (a' ++ d :: b') d = some (a', b') := find_split_hole_eq ha'
  rw [h, h2] at h1
  simp at h1
  exact ⟨h1.1.symm, h1.2.symm⟩

/-- Groups of a text with a colon in it. -/
theorem G_colon {pre r : Str} (hc : ':' ∉ pre) (j : Nat) :
    G j (pre ++ ':' :: r) ↔ ∃ k, j = k + 1 ∧ h16 pre ∧ G k r := by
  constructor
  · intro h
    generalize hs : pre ++ ':' :: r = s at h
    cases h with
    | h16 h => exact absurd (by rw [← hs]; simp) (h16_no_colon h)
    | v4 h => exact absurd (by rw [← hs]; simp) (ipv4_no_colon h)
    | cons h g =>
      obtain ⟨rfl, rfl⟩ := cut_unique hc (h16_no_colon h) hs
      exact ⟨_, rfl, h, g⟩
  · rintro ⟨k, rfl, h, g⟩; exact G.cons h g

theorem G_last {s : Str} (hc : ':' ∉ s) (j : Nat) :
    G j s ↔ (j = 1 ∧ h16 s) ∨ (j = 2 ∧ IPv4address s) := by
  constructor
  · intro h
    cases h with
    | h16 h => exact .inl ⟨rfl, h⟩
    | v4 h => exact .inr ⟨rfl, h⟩
    | cons h g => simp at hc
  · rintro (⟨rfl, h⟩ | ⟨rfl, h⟩)
    · exact G.h16 h
    · exact G.v4 h

theorem Left_ne_colon {k : Nat} {a : Str} (h : Left k a) : ∀ r, a ≠ ':' :: r := by
  have key : ∀ {x : Str}, h16 x → ∀ t r, x ++ t ≠ ':' :: r := by
    intro x hx t r he
    cases x with
    | nil => exact h16_ne hx rfl
    | cons c x =>
      simp at he
      exact h16_no_colon hx (by simp [he.1])
  cases h with
  | zero => intro r; simp
  | one h => intro r; simpa using key h [] r
  | cons h _ => exact key h _

theorem Left_pos {k : Nat} {a : Str} (h : Left (k + 1) a) : a ≠ [] := by
  cases h with
  | one h => exact h16_ne h
  | cons h _ => simp

/-- The omitted form `a "::" b` of a text whose first colon is known. -/
theorem omit_colon {pre r : Str} (hc : ':' ∉ pre) (Q : Nat → Str → Prop) :
    (∃ a b i, pre ++ ':' :: r = a ++ ':' :: ':' :: b ∧ Left i a ∧ Q i b) ↔
      (pre = [] ∧ ∃ r', r = ':' :: r' ∧ Q 0 r') ∨
      (h16 pre ∧ ∃ r', r = ':' :: r' ∧ Q 1 r') ∨
      (h16 pre ∧ ∃ a b i, r = a ++ ':' :: ':' :: b ∧ Left (i + 1) a ∧ Q (i + 2) b) := by
  constructor
  · rintro ⟨a, b, i, he, hl, hq⟩
    cases hl with
    | zero =>
      obtain ⟨rfl, rfl⟩ := cut_unique hc (a' := []) (by simp) he
      exact .inl ⟨rfl, b, rfl, hq⟩
    | one h =>
      obtain ⟨rfl, rfl⟩ := cut_unique hc (h16_no_colon h) he
      exact .inr (.inl ⟨h, b, rfl, hq⟩)
    | cons h hl =>
      rename_i k x y
      rw [List.append_assoc, List.cons_append] at he
      obtain ⟨rfl, rfl⟩ := cut_unique hc (h16_no_colon h) he
      exact .inr (.inr ⟨h, y, b, k, rfl, hl, hq⟩)
  · rintro (⟨rfl, r', rfl, hq⟩ | ⟨h, r', rfl, hq⟩ | ⟨h, a, b, i, rfl, hl, hq⟩)
    · exact ⟨[], r', 0, rfl, Left.zero, hq⟩
    · exact ⟨pre, r', 1, rfl, Left.one h, hq⟩
    · exact ⟨pre ++ ':' :: a, b, i + 2, by simp, Left.cons h hl, hq⟩

theorem omit_none {s : Str} (hc : ':' ∉ s) (Q : Nat → Str → Prop) :
    ¬ ∃ a b i, s = a ++ ':' :: ':' :: b ∧ Left i a ∧ Q i b := by
  rintro ⟨a, b, i, rfl, _⟩; simp at hc

theorem omit_pre {i : Str} (hi : ∀ r, i ≠ ':' :: r) (Q : Nat → Str → Prop) :
    (∃ a b k, i = a ++ ':' :: ':' :: b ∧ Left k a ∧ Q k b) →
    ∃ a b k, i = a ++ ':' :: ':' :: b ∧ Left (k + 1) a ∧ Q (k + 1) b := by
  rintro ⟨a, b, k, rfl, hl, hq⟩
  cases k with
  | zero => cases hl; exact absurd rfl (hi _)
  | succ k => exact ⟨a, b, k, rfl, hl, hq⟩

/-- What the loop decides, with `n` groups read so far. -/
def V6Rest (n : Nat) (om : Bool) (i : Str) : Prop :=
  if om then ∃ j, Right j i ∧ n + j ≤ 7
  else (∃ j, Right j i ∧ n + j = 8) ∨
    ∃ a b k, i = a ++ ':' :: ':' :: b ∧ Left k a ∧ ∃ j, Right j b ∧ n + k + j ≤ 7

theorem v6_final_iff (n : Nat) (om : Bool) :
    v6_final n om = true ↔ if om then n ≤ 7 else n = 8 := by
  cases om <;> simp [v6_final]; omega

theorem Right_pos {j : Nat} {i : Str} (hi : i ≠ []) : Right j i ↔ G j i := by
  simp [Right, hi]

theorem V6Rest_nil (n : Nat) (om : Bool) : V6Rest n om [] ↔ v6_final n om = true := by
  rw [v6_final_iff]
  have hG : ∀ j, ¬ G j [] := fun j h => (G_pos h).2 rfl
  cases om with
  | true => simp [V6Rest, Right, hG]
  | false => simp [V6Rest, Right, hG]

theorem V6Rest_true_colon {pre r : Str} (hc : ':' ∉ pre) (n : Nat) :
    V6Rest n true (pre ++ ':' :: r) ↔ h16 pre ∧ ∃ k, G k r ∧ n + k + 1 ≤ 7 := by
  have hi : pre ++ ':' :: r ≠ [] := by simp
  simp only [V6Rest, if_true, Right_pos hi, G_colon hc]
  constructor
  · rintro ⟨_, ⟨k, rfl, hp, hk⟩, h⟩; exact ⟨hp, k, hk, by omega⟩
  · rintro ⟨hp, k, hk, h⟩; exact ⟨_, ⟨k, rfl, hp, hk⟩, by omega⟩

theorem V6Rest_false_colon {pre r : Str} (hc : ':' ∉ pre) (n : Nat) :
    V6Rest n false (pre ++ ':' :: r) ↔
      (h16 pre ∧ ∃ k, G k r ∧ n + k + 1 = 8) ∨
      (pre = [] ∧ ∃ r', r = ':' :: r' ∧ ∃ j, Right j r' ∧ n + j ≤ 7) ∨
      (h16 pre ∧ ∃ r', r = ':' :: r' ∧ ∃ j, Right j r' ∧ n + 1 + j ≤ 7) ∨
      (h16 pre ∧ ∃ a b k, r = a ++ ':' :: ':' :: b ∧ Left (k + 1) a ∧
        ∃ j, Right j b ∧ n + (k + 2) + j ≤ 7) := by
  have hi : pre ++ ':' :: r ≠ [] := by simp
  have hq := omit_colon (pre := pre) (r := r) hc (fun k b => ∃ j, Right j b ∧ n + k + j ≤ 7)
  unfold V6Rest
  simp only [Bool.false_eq_true, if_false]
  rw [hq]
  simp only [Right_pos hi, G_colon hc]
  constructor
  · rintro (⟨_, ⟨k, rfl, hp, hk⟩, h⟩ | h)
    · exact .inl ⟨hp, k, hk, by omega⟩
    · exact .inr h
  · rintro (⟨hp, k, hk, h⟩ | h)
    · exact .inl ⟨_, ⟨k, rfl, hp, hk⟩, by omega⟩
    · exact .inr h

theorem G_not_colon {k : Nat} {r : Str} : ¬ G k (':' :: r) := by
  intro h
  obtain ⟨_, _, h, _⟩ := (G_colon (pre := []) (by simp) k).1 h
  exact h16_ne h rfl

theorem V6Rest_true_le {n : Nat} {i : Str} (h : V6Rest n true i) : n ≤ 7 := by
  simp only [V6Rest, if_true] at h
  obtain ⟨j, _, h⟩ := h; omega

theorem V6Rest_le {n : Nat} {om : Bool} {i : Str} (h : V6Rest n om i) : n ≤ 8 := by
  cases om with
  | true => have := V6Rest_true_le h; omega
  | false =>
    simp only [V6Rest, Bool.false_eq_true, if_false] at h
    obtain ⟨j, _, h⟩ | ⟨a, b, i, _, _, j, _, h⟩ := h <;> omega

theorem v6_loop_iff (fuel : Nat) : ∀ (i : Str) (n : Nat) (om : Bool), i.length ≤ fuel →
    (v6_loop fuel i n om = true ↔ V6Rest n om i) := by
  induction fuel with
  | zero =>
    intro i n om h
    have : i = [] := by simpa using h
    subst this
    rw [V6Rest_nil]; simp [v6_loop]
  | succ fuel ih =>
    intro i n om hl
    by_cases hi : i = []
    · subst hi; rw [V6Rest_nil]; simp [v6_loop]
    have hi' : i.isEmpty = false := by simpa using hi
    unfold v6_loop
    rw [hi']
    simp only [Bool.false_eq_true, if_false]
    by_cases hc : ':' ∈ i
    · obtain ⟨pre, r, hpre, rfl⟩ : ∃ a b, ':' ∉ a ∧ i = a ++ ':' :: b := by
        cases hf : find_split_hole i ':' with
        | none => exact absurd hc (find_split_hole_none.1 hf)
        | some x => obtain ⟨a, b⟩ := x; have := find_split_hole_some.1 hf; exact ⟨a, b, this.2, this.1⟩
      have hlen : r.length ≤ fuel := by simp at hl; omega
      have hT := V6Rest_true_colon (r := r) hpre n
      have hF := V6Rest_false_colon (r := r) hpre n
      have h0 : ¬ h16 [] := fun h => h16_ne h rfl
      by_cases hr : ∃ r', r = ':' :: r'
      · obtain ⟨r', rfl⟩ := hr
        have hlen' : r'.length ≤ fuel := by simp at hlen; omega
        have hno : ¬ ∃ a b k, ':' :: r' = a ++ ':' :: ':' :: b ∧ Left (k + 1) a ∧
            ∃ j, Right j b ∧ n + (k + 2) + j ≤ 7 := by
          rintro ⟨a, b, i, he, hl, _⟩
          cases a with
          | nil => exact Left_pos hl rfl
          | cons c a =>
            simp at he
            exact Left_ne_colon hl a (by rw [he.1])
        rw [iff_of_false hno (fun h : False => h)] at hF
        simp only [G_not_colon, false_and, exists_false, and_false, false_or, or_false,
          List.cons.injEq, true_and, exists_eq_left'] at hF hT
        by_cases hp : pre = []
        · subst hp
          rw [List.nil_append, split_v6_omit]
          rw [List.nil_append] at hT hF
          cases om with
          | true => simp only [hT]; simp
          | false =>
            have e : V6Rest n false (':' :: ':' :: r') ↔ V6Rest n true r' := by
              rw [hF]; simp [V6Rest, h0]
            rw [e]
            by_cases h8 : 8 < n
            · simp only [h8]; simp; intro h; have := V6Rest_true_le h; omega
            · simp only [h8]; simpa using ih _ _ _ hlen'
        · by_cases hh : h16 pre
          · rw [split_v6_h16omit hh]
            cases om with
            | true => simp only [hT]; simp
            | false =>
              have e : V6Rest n false (pre ++ ':' :: ':' :: r') ↔ V6Rest (n + 1) true r' := by
                rw [hF]; simp [V6Rest, hp, hh]
              rw [e]
              by_cases h8 : 8 < n + 1
              · simp only [h8]; simp; intro h; have := V6Rest_true_le h; omega
              · simp only [h8]; simpa using ih _ _ _ hlen'
          · rw [split_v6_bad hpre hp hh]
            cases om with
            | true => simp only [hT]; simp
            | false => rw [hF]; simp [hp, hh]
      · have hr' : ∀ r', r ≠ ':' :: r' := fun r' h => hr ⟨r', h⟩
        simp only [hr', false_and, exists_false, and_false, false_or] at hF
        by_cases hp : pre = []
        · subst hp
          rw [List.nil_append, split_v6_lead hr']
          rw [List.nil_append] at hT hF
          cases om with
          | true => rw [hT]; simp [h0]
          | false => rw [hF]; simp [h0]
        · by_cases hh : h16 pre
          · rw [split_v6_h16cont hh hr']
            simp only
            by_cases hr0 : r = []
            · subst hr0
              have hG : ∀ j, ¬ G j [] := fun j h => (G_pos h).2 rfl
              cases om with
              | true => rw [hT]; simp [hG]
              | false =>
                rw [hF]; simp [hG]
            · have : r.isEmpty = false := by simpa using hr0
              rw [this]
              simp only [Bool.false_eq_true, if_false]
              have key : V6Rest n om (pre ++ ':' :: r) ↔ V6Rest (n + 1) om r := by
                cases om with
                | true =>
                  rw [hT]
                  simp only [V6Rest, if_true, Right_pos hr0, hh, true_and]
                  constructor
                  · rintro ⟨k, hk, h⟩; exact ⟨k, hk, by omega⟩
                  · rintro ⟨k, hk, h⟩; exact ⟨k, hk, by omega⟩
                | false =>
                  rw [hF]
                  simp only [V6Rest, Bool.false_eq_true, if_false, Right_pos hr0, hh,
                    true_and]
                  constructor
                  · rintro (⟨k, hk, h⟩ | ⟨a, b, i, he, hl, j, hj, h⟩)
                    · exact .inl ⟨k, hk, by omega⟩
                    · exact .inr ⟨a, b, i + 1, he, hl, j, hj, by omega⟩
                  · rintro (⟨k, hk, h⟩ | h)
                    · exact .inl ⟨k, hk, by omega⟩
                    · obtain ⟨a, b, i, he, hl, j, hj, h⟩ :=
                        omit_pre hr' (fun k b => ∃ j, Right j b ∧ n + 1 + k + j ≤ 7) h
                      exact .inr ⟨a, b, i, he, hl, j, hj, by omega⟩
              rw [key]
              by_cases h8 : 8 < n + 1
              · rw [if_pos h8]
                simp only [Bool.false_eq_true, false_iff]
                intro h; have := V6Rest_le h; omega
              · rw [if_neg h8]; exact ih _ _ _ hlen
          · rw [split_v6_bad hpre hp hh]
            cases om with
            | true => rw [hT]; simp [hh]
            | false => rw [hF]; simp [hh]
    · have hno := omit_none hc (fun k b => ∃ j, Right j b ∧ n + k + j ≤ 7)
      have hrest : V6Rest n om i ↔ ∃ j, ((j = 1 ∧ h16 i) ∨ (j = 2 ∧ IPv4address i)) ∧
          (if om then n + j ≤ 7 else n + j = 8) := by
        cases om with
        | true => simp only [V6Rest, if_true, Right_pos hi, G_last hc]
        | false =>
          simp only [V6Rest, Bool.false_eq_true, if_false, Right_pos hi, G_last hc]
          constructor
          · rintro (h | h)
            · exact h
            · exact absurd h hno
          · exact .inl
      rw [hrest]
      rcases (split_v6_last hc hi _).1 rfl with ⟨h4, he⟩ | ⟨h1, he⟩ | ⟨h4, h1, he⟩
      · have h1 : ¬ h16 i := by
          intro h
          have h1 := (ipv4_chars ((ipv4_iff i).1 h4)).2.2.1
          have h2 := ((h16_iff i).1 h).2.1
          omega
        rw [he]; simp only [v6_final_iff]; simp [h1, h4]
      · have h4 : ¬ IPv4address i := by
          intro h4
          have h1' := (ipv4_chars ((ipv4_iff i).1 h4)).2.2.1
          have h2 := ((h16_iff i).1 h1).2.1
          omega
        rw [he]; simp only [v6_final_iff]; simp [h1, h4]
      · rw [he]; simp [h1, h4]

theorem ipv6_iff (s : Str) : IPv6address s ↔ validate_ipv6address s = true := by
  unfold validate_ipv6address
  rw [v6_loop_iff _ _ _ _ (Nat.le_refl _), ipv6_grammar]
  simp only [V6Rest, Bool.false_eq_true, if_false]
  constructor
  · rintro (h | ⟨a, b, i, j, h1, h2, h3, h4⟩)
    · exact .inl ⟨8, .inr h, by omega⟩
    · exact .inr ⟨a, b, i, h1, h2, j, h3, by omega⟩
  · rintro (⟨j, h, he⟩ | ⟨a, b, i, h1, h2, j, h3, h4⟩)
    · have : j = 8 := by omega
      subst this
      rcases h with ⟨h, _⟩ | h
      · omega
      · exact .inl h
    · exact .inr ⟨a, b, i, j, h1, h2, h3, by omega⟩

end Verif
