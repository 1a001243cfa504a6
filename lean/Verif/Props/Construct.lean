import Verif.Model.Construct
import Verif.Lemmas.Decode
import Verif.Props.Validation
import Verif.Props.Template

/-!
# C38: construction from bytes and owned strings is consistent
-/

namespace Verif

open Rfc

/-- The language of each type: its RFC rule, where the validator deviates (see C04 and C31) with the
deviation spelled out. -/
def language (S : Spec) : TypeKind → Str → Prop
  | .iriLike .reference, s => IRI_reference S s
  | .iriLike .iri, s => IRI S s
  | .iriLike .relative, s => relative_ref S s
  | .iriLike .absolute, s => absolute_IRI S s ∨ ∃ t, s = t ++ ['#'] ∧ absolute_IRI S t
  | .query, s => query S s
  | .fragment, s => fragment S s
  | .template, s => Rfc6570.acceptedTemplate s

/-- Where the template validator panics (C31). -/
def Panics (k : TypeKind) (s : Str) : Prop := k = .template ∧ Tpl.validate_template_str s = .panic

theorem validate_cases (S : Spec) (k : TypeKind) (s : Str) :
    (language S k s ∧ ¬ Panics k s ∧ k.validate S s = some (.ok ())) ∨
    (¬ language S k s ∧ ¬ Panics k s ∧ k.validate S s = some (.err .invalid)) ∨
    (¬ language S k s ∧ Panics k s ∧ k.validate S s = none) := by
  have key : ∀ {P : Prop} {v : Option Bool}, (v = some true ↔ P) ∧ (v = some false ↔ ¬ P) →
      (P ∧ v.map (fun b => if b then RResult.ok () else RResult.err ValidationError.invalid) = some (.ok ())) ∨
      (¬ P ∧ v.map (fun b => if b then RResult.ok () else RResult.err ValidationError.invalid) =
        some (.err .invalid)) := by
    intro P v h
    by_cases hp : P
    · left; rw [h.1.2 hp]; exact ⟨hp, rfl⟩
    · right; rw [h.2.2 hp]; exact ⟨hp, rfl⟩
  have hno : ∀ {k : TypeKind}, k ≠ .template → ¬ Panics k s := fun hk h => hk h.1
  have wrap : ∀ {k : TypeKind}, k ≠ .template →
      ((language S k s ∧ k.validate S s = some (.ok ())) ∨
        (¬ language S k s ∧ k.validate S s = some (.err .invalid))) →
      (language S k s ∧ ¬ Panics k s ∧ k.validate S s = some (.ok ())) ∨
      (¬ language S k s ∧ ¬ Panics k s ∧ k.validate S s = some (.err .invalid)) ∨
      (¬ language S k s ∧ Panics k s ∧ k.validate S s = none) := by
    intro k hk h
    rcases h with ⟨a, b⟩ | ⟨a, b⟩
    · exact .inl ⟨a, hno hk, b⟩
    · exact .inr (.inl ⟨a, hno hk, b⟩)
  cases k with
  | iriLike k =>
    refine wrap (by simp) ?_
    cases k with
    | reference => exact key (C02_iri_reference_validation S s)
    | iri => exact key (C01_iri_validation S s)
    | absolute => exact key (C04_absolute_validation_partial S s)
    | relative => exact key (C03_relative_ref_validation S s)
  | query =>
    refine wrap (by simp) ?_
    have := C05_query S s
    by_cases hq : validate_query S s = true
    · left; refine ⟨this.1 hq, ?_⟩; show some (if validate_query S s then _ else _) = _; rw [if_pos hq]
    · right; refine ⟨fun h => hq (this.2 h), ?_⟩; show some (if validate_query S s then _ else _) = _; rw [if_neg hq]
  | fragment =>
    refine wrap (by simp) ?_
    have := C05_fragment S s
    by_cases hq : validate_fragment S s = true
    · left; refine ⟨this.1 hq, ?_⟩; show some (if validate_fragment S s then _ else _) = _; rw [if_pos hq]
    · right; refine ⟨fun h => hq (this.2 h), ?_⟩; show some (if validate_fragment S s then _ else _) = _; rw [if_neg hq]
  | template =>
    have := C31_accepts s
    show (Rfc6570.acceptedTemplate s ∧ _ ∧ template_result (Tpl.validate_template_str s) = _) ∨
      (¬ Rfc6570.acceptedTemplate s ∧ _ ∧ template_result (Tpl.validate_template_str s) = _) ∨
      (¬ Rfc6570.acceptedTemplate s ∧ _ ∧ template_result (Tpl.validate_template_str s) = _)
    unfold Panics
    rw [← this]
    cases hv : Tpl.validate_template_str s with
    | ok _ => left; exact ⟨rfl, by simp, rfl⟩
    | err e o => right; left; exact ⟨by simp, by simp, rfl⟩
    | panic => right; right; exact ⟨by simp, by simp, rfl⟩

/-- **C38** (from text): `TryFrom<&str>`, its owned twin, `FromStr`, and `TryFrom<String>` accept
exactly the language of the type, return the text unchanged, and on failure the last hands back the
original string with the same error as the others. -/
theorem C38_from_text (S : Spec) (k : TypeKind) (s : Str) (hp : ¬ Panics k s) :
    (language S k s →
      try_from_str S k s = some (.ok s) ∧ owned_try_from_str S k s = some (.ok s) ∧
      from_str S k s = some (.ok s) ∧ owned_try_from_string S k s = some (.ok s)) ∧
    (¬ language S k s →
      ∃ e, try_from_str S k s = some (.err e) ∧ owned_try_from_str S k s = some (.err e) ∧
      from_str S k s = some (.err e) ∧
      ∃ c : CreationError, owned_try_from_string S k s = some (.err c) ∧ c.into_source = s ∧
        c.validation_error = e) := by
  unfold from_str owned_try_from_str owned_try_from_string try_from_str
  rcases validate_cases S k s with ⟨h1, _, h3⟩ | ⟨h1, _, h3⟩ | ⟨_, h2, _⟩
  · rw [h3]
    exact ⟨fun _ => ⟨rfl, rfl, rfl, rfl⟩, fun h => absurd h1 h⟩
  · rw [h3]
    exact ⟨fun h => absurd h h1, fun _ => ⟨.invalid, rfl, rfl, rfl, ⟨s, .invalid⟩, rfl, rfl, rfl⟩⟩
  · exact absurd h2 hp

/-- **C38** (from bytes): a byte string is accepted exactly if it is the UTF-8 encoding of a text of
the language of the type, and that text is the result; the error says whether UTF-8 was at fault.
Borrowed and owned agree. -/
theorem C38_from_bytes (S : Spec) (k : TypeKind) (bytes : List Nat)
    (hp : ∀ s, utf8s s = bytes → ¬ Panics k s) :
    (∀ s, try_from_bytes S k bytes = some (.ok s) ↔ utf8s s = bytes ∧ language S k s) ∧
    (try_from_bytes S k bytes = some (.err .invalidUtf8) ↔ ¬ ∃ s, utf8s s = bytes) ∧
    (try_from_bytes S k bytes = some (.err .invalid) ↔ ∃ s, utf8s s = bytes ∧ ¬ language S k s) ∧
    owned_try_from_bytes S k bytes = try_from_bytes S k bytes := by
  unfold owned_try_from_bytes try_from_bytes try_from_str
  cases hu : from_utf8 bytes with
  | none =>
    have hn : ∀ s, utf8s s ≠ bytes := fun s h => by rw [(from_utf8_iff _ _).2 h] at hu; cases hu
    refine ⟨fun s => by simp [hn], by simp [hn], by simp [hn], rfl⟩
  | some t =>
    have ht := (from_utf8_iff _ _).1 hu
    have hi : ∀ s, utf8s s = bytes ↔ s = t := fun s => ⟨fun h => utf8s_inj (h.trans ht.symm), fun h => h ▸ ht⟩
    simp only [hi]
    rcases validate_cases S k t with ⟨h1, _, h3⟩ | ⟨h1, _, h3⟩ | ⟨_, h2, _⟩
    · rw [h3]
      refine ⟨fun s => ?_, by simp [checked], ?_, rfl⟩
      · simp only [Option.map_some, checked, Option.some.injEq, RResult.ok.injEq]
        exact ⟨fun e => ⟨e.symm, e ▸ h1⟩, fun e => e.1.symm⟩
      · simp [checked, h1]
    · rw [h3]
      refine ⟨fun s => ?_, by simp [checked], ?_, rfl⟩
      · simp only [Option.map_some, checked, Option.some.injEq, reduceCtorEq, false_iff, not_and]
        rintro rfl; exact h1
      · simp [checked, h1]
    · exact absurd h2 (hp t ht)

/-- **C38**: bytes and text agree: the conversions from the bytes of a text give what the conversions
from the text give (also where the template validator panics). -/
theorem C38_bytes_of_text (S : Spec) (k : TypeKind) (s : Str) :
    try_from_bytes S k (utf8s s) = try_from_str S k s ∧
    owned_try_from_bytes S k (utf8s s) = owned_try_from_str S k s := by
  unfold try_from_bytes owned_try_from_bytes try_from_str owned_try_from_str try_from_str
  rw [(from_utf8_iff _ _).2 rfl]
  exact ⟨rfl, rfl⟩

/-- **C38**: the only constructor that can panic is the one of templates. -/
theorem C38_no_panic (k : TypeKind) (hk : k ≠ .template) (s : Str) : ¬ Panics k s :=
  fun h => hk h.1

/-- **C38** (conversions between the IRI types): a downcast succeeds exactly for the texts of the
narrower type, and a failed owned downcast hands the value back; an upcast (absolute to IRI, IRI to
reference, relative to reference) never panics, not even in a debug build, and keeps the text. -/
theorem C38_casts (S : Spec) (s : Str) (k : IriKind) :
    (language S (.iriLike k) s → downcast S k s = some (.ok s) ∧ downcast_owned S k s = some (.ok s)) ∧
    (¬ language S (.iriLike k) s → ∃ c : CreationError, downcast_owned S k s = some (.err c) ∧
      c.into_source = s ∧ downcast S k s = some (.err c.validation_error)) ∧
    (∀ debug, ∀ fr to : IriKind, ((fr, to) = (.absolute, .iri) ∨ (fr, to) = (.iri, .reference) ∨
      (fr, to) = (.absolute, .reference) ∨ (fr, to) = (.relative, .reference)) →
      language S (.iriLike fr) s → language S (.iriLike to) s ∧ upcast debug S to s = some s) := by
  obtain ⟨h1, h2⟩ := C38_from_text S (.iriLike k) s (C38_no_panic _ (by simp) s)
  refine ⟨fun h => ⟨(h1 h).1, (h1 h).2.2.2⟩, fun h => ?_, ?_⟩
  · obtain ⟨e, h3, _, _, c, h4, h5, h6⟩ := h2 h
    exact ⟨c, h4, h5, by rw [h6]; exact h3⟩
  · intro debug fr to hft h
    have hu := C07_upcasts S s
    have hv : ∀ {k : IriKind}, language S (.iriLike k) s ↔ k.validate S s = some true := by
      intro k
      cases k with
      | reference => exact (C02_iri_reference_validation S s).1.symm
      | iri => exact (C01_iri_validation S s).1.symm
      | absolute => exact (C04_absolute_validation_partial S s).1.symm
      | relative => exact (C03_relative_ref_validation S s).1.symm
    have hl : language S (.iriLike to) s := by
      rw [hv] at h ⊢
      rcases hft with e | e | e | e <;> cases e
      · exact hu.1 h
      · exact hu.2.1 h
      · exact hu.2.1 (hu.1 h)
      · exact hu.2.2 h
    refine ⟨hl, ?_⟩
    have : (TypeKind.iriLike to).validate S s = some (.ok ()) := by
      show (to.validate S s).map _ = _
      rw [hv.1 hl]; rfl
    unfold upcast
    rw [this]
    simp

theorem lexCmp_refl : ∀ a : List Nat, lexCmp a a = .eq
  | [] => rfl
  | a :: r => by unfold lexCmp; rw [if_neg (Nat.lt_irrefl a), if_neg (Nat.lt_irrefl a), lexCmp_refl r]

theorem lexCmp_append : ∀ (p a b : List Nat), lexCmp (p ++ a) (p ++ b) = lexCmp a b
  | [], _, _ => rfl
  | x :: p, a, b => by
    show lexCmp (x :: (p ++ a)) (x :: (p ++ b)) = _
    rw [lexCmp, if_neg (Nat.lt_irrefl x), if_neg (Nat.lt_irrefl x), lexCmp_append p a b]

theorem lexCmp_cons_lt {a b : Nat} (h : a < b) (r t : List Nat) : lexCmp (a :: r) (b :: t) = .lt := by
  unfold lexCmp; rw [if_pos h]

theorem lexCmp_cons_eq {a b : Nat} (h : a = b) (r t : List Nat) :
    lexCmp (a :: r) (b :: t) = lexCmp r t := by
  subst h; exact lexCmp_append [a] r t

theorem lexCmp_swap : ∀ a b : List Nat, lexCmp a b = (lexCmp b a).swap
  | [], [] => rfl
  | [], _ :: _ => rfl
  | _ :: _, [] => rfl
  | a :: r, b :: t => by
    unfold lexCmp
    rcases Nat.lt_trichotomy a b with h | h | h
    · rw [if_pos h, if_neg (by omega), if_pos h]; rfl
    · subst h
      rw [if_neg (Nat.lt_irrefl a), if_neg (Nat.lt_irrefl a), if_neg (Nat.lt_irrefl a),
        if_neg (Nat.lt_irrefl a), lexCmp_swap r t]
    · rw [if_neg (by omega), if_pos h, if_pos h]; rfl

theorem lexCmp_eq : ∀ {a b : List Nat}, lexCmp a b = .eq ↔ a = b
  | [], [] => by simp [lexCmp]
  | [], _ :: _ => by simp [lexCmp]
  | _ :: _, [] => by simp [lexCmp]
  | a :: r, b :: t => by
    rcases Nat.lt_trichotomy a b with h | h | h
    · rw [lexCmp_cons_lt h]; simp; omega
    · rw [lexCmp_cons_eq h, lexCmp_eq, h]; simp
    · rw [lexCmp_swap, lexCmp_cons_lt h]; simp [Ordering.swap]; omega

theorem lexCmp_trans : ∀ {a b c : List Nat}, lexCmp a b = .lt → lexCmp b c = .lt → lexCmp a c = .lt
  | [], [], c, h1, _ => by simp [lexCmp] at h1
  | [], _ :: _, [], _, h2 => by simp [lexCmp] at h2
  | [], _ :: _, _ :: _, _, _ => rfl
  | _ :: _, [], _, h1, _ => by simp [lexCmp] at h1
  | _ :: _, _ :: _, [], _, h2 => by simp [lexCmp] at h2
  | a :: r, b :: t, c :: u, h1, h2 => by
    have hgt : ∀ {x y : Nat} {p q : List Nat}, y < x → lexCmp (x :: p) (y :: q) = .gt := by
      intro x y p q h
      rw [lexCmp_swap, lexCmp_cons_lt h]; rfl
    rcases Nat.lt_trichotomy a b with h | h | h
    · rcases Nat.lt_trichotomy b c with h' | h' | h'
      · exact lexCmp_cons_lt (by omega) _ _
      · exact lexCmp_cons_lt (by omega) _ _
      · rw [hgt h'] at h2; cases h2
    · rcases Nat.lt_trichotomy b c with h' | h' | h'
      · exact lexCmp_cons_lt (by omega) _ _
      · rw [lexCmp_cons_eq h] at h1
        rw [lexCmp_cons_eq h'] at h2
        rw [lexCmp_cons_eq (h.trans h')]
        exact lexCmp_trans h1 h2
      · rw [hgt h'] at h2; cases h2
    · rw [hgt h] at h1; cases h1

/-- The first differing character decides in the bytes as well. -/
theorem utf8_lt_lex {c d : Char} (h : c.toNat < d.toNat) (x y : List Nat) :
    lexCmp (utf8 c ++ x) (utf8 d ++ y) = .lt := by
  have hd := char_lt d
  have step : ∀ {a b : Nat} {r t : List Nat}, a < b ∨ (a = b ∧ lexCmp r t = .lt) →
      lexCmp (a :: r) (b :: t) = .lt := by
    intro a b r t h
    rcases h with h | ⟨h, h'⟩
    · exact lexCmp_cons_lt h _ _
    · rw [lexCmp_cons_eq h]; exact h'
  unfold utf8
  dsimp only
  generalize c.toNat = m at *
  generalize d.toNat = n at *
  repeat' split
  all_goals simp only [List.cons_append, List.nil_append]
  all_goals try omega
  · exact step (.inl (by omega))
  · exact step (.inl (by omega))
  · exact step (.inl (by omega))
  · exact step (.inl (by omega))
  · by_cases e : m / 64 = n / 64
    · exact step (.inr ⟨by omega, step (.inl (by omega))⟩)
    · exact step (.inl (by omega))
  · exact step (.inl (by omega))
  · exact step (.inl (by omega))
  · by_cases e : m / 4096 = n / 4096
    · refine step (.inr ⟨by omega, ?_⟩)
      by_cases e2 : m / 64 = n / 64
      · exact step (.inr ⟨by omega, step (.inl (by omega))⟩)
      · exact step (.inl (by omega))
    · exact step (.inl (by omega))
  · exact step (.inl (by omega))
  · by_cases e : m / 262144 = n / 262144
    · refine step (.inr ⟨by omega, ?_⟩)
      by_cases e1 : m / 4096 = n / 4096
      · refine step (.inr ⟨by omega, ?_⟩)
        by_cases e2 : m / 64 = n / 64
        · exact step (.inr ⟨by omega, step (.inl (by omega))⟩)
        · exact step (.inl (by omega))
      · exact step (.inl (by omega))
    · exact step (.inl (by omega))

/-- **C38** (ordering): comparing values compares their texts character by character, by code point. -/
theorem C38_cmp (a b : Str) : str_cmp a b = codePointCmp a b := by
  unfold str_cmp codePointCmp
  induction a generalizing b with
  | nil =>
    cases b with
    | nil => rfl
    | cons d t =>
      rw [utf8s_nil, utf8s_cons]
      obtain ⟨x, r, hx⟩ := List.exists_cons_of_ne_nil (utf8_ne_nil d)
      rw [hx]; rfl
  | cons c r ih =>
    cases b with
    | nil =>
      rw [utf8s_nil, utf8s_cons]
      obtain ⟨x, r', hx⟩ := List.exists_cons_of_ne_nil (utf8_ne_nil c)
      rw [hx]; rfl
    | cons d t =>
      rw [utf8s_cons, utf8s_cons, List.map_cons, List.map_cons]
      rcases Nat.lt_trichotomy c.toNat d.toNat with h | h | h
      · rw [utf8_lt_lex h, lexCmp_cons_lt h]
      · have := (char_eq_iff c d).2 h
        subst this
        rw [lexCmp_append, lexCmp_cons_eq rfl, ih]
      · rw [lexCmp_swap, utf8_lt_lex h, lexCmp_swap (c.toNat :: _), lexCmp_cons_lt h]

/-- **C38** (equality and ordering): equality of values is equality of the texts; the order is a
total order for which equality is equality of the texts. -/
theorem C38_order (a b c : Str) :
    (str_eq a b = true ↔ a = b) ∧ (str_cmp a b = .eq ↔ a = b) ∧
    str_cmp a b = (str_cmp b a).swap ∧
    (str_cmp a b = .lt → str_cmp b c = .lt → str_cmp a c = .lt) := by
  refine ⟨?_, ?_, lexCmp_swap _ _, lexCmp_trans⟩
  · unfold str_eq
    rw [beq_iff_eq]
    exact ⟨utf8s_inj, fun h => h ▸ rfl⟩
  · unfold str_cmp
    rw [lexCmp_eq]
    exact ⟨utf8s_inj, fun h => h ▸ rfl⟩

example : try_from_bytes .iri (.iriLike .iri) [0x61, 0x3A, 0xE3, 0x81, 0x82] =
    some (.ok (chars! "a:あ")) := by decide +kernel

example : try_from_bytes .iri (.iriLike .iri) [0x61, 0x3A, 0xE3, 0x81] =
    some (.err .invalidUtf8) := by decide +kernel

example : owned_try_from_string .uri (.iriLike .iri) (chars! "a b") =
    some (.err ⟨chars! "a b", .invalid⟩) := by decide +kernel

example : upcast true .uri .iri (chars! "a:#") = some (chars! "a:#") := by decide +kernel

example : str_cmp (chars! "a:\uFFFD") (chars! "a:😀") = .lt := by decide +kernel

end Verif
