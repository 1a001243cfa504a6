import Verif.Lemmas.Ip
import Verif.Spec.Parts

/-! # Scheme, host and authority -/

namespace Verif

open Abnf Rfc

theorem scheme_iff (s : Str) : scheme s ↔ validate_scheme s = true := by
  constructor
  · rintro ⟨_, r, rfl, ⟨c, rfl, hc⟩, hr⟩
    rw [star_chr] at hr
    rw [ALPHA_eq] at hc
    simp only [List.cons_append, List.nil_append, validate_scheme, hc, Bool.true_and]
    rw [List.all_eq_true] at hr ⊢
    intro x hx; rw [scheme_continue_eq]; exact hr x hx
  · intro h
    cases s with
    | nil => simp [validate_scheme] at h
    | cons c r =>
      simp only [validate_scheme, Bool.and_eq_true] at h
      refine ⟨[c], r, rfl, ⟨c, rfl, by rw [ALPHA_eq]; exact h.1⟩, ?_⟩
      rw [star_chr]
      have := h.2
      rw [List.all_eq_true] at this ⊢
      intro x hx; rw [← scheme_continue_eq]; simpa using this x hx

/-- Characters of a scheme. -/
def schemeC (c : Char) : Bool := isAlpha c || isDigit c || c == '+' || c == '-' || c == '.'

theorem scheme_chars {s : Str} (h : scheme s) :
    ∃ c r, s = c :: r ∧ isAlpha c = true ∧ r.all schemeC = true ∧ s.all schemeC = true := by
  obtain ⟨_, r, rfl, ⟨c, rfl, hc⟩, hr⟩ := h
  rw [star_chr] at hr
  rw [ALPHA_eq] at hc
  rw [ALPHA_eq, DIGIT_eq] at hr
  refine ⟨c, r, rfl, hc, hr, ?_⟩
  simp only [List.cons_append, List.nil_append, List.all_cons, Bool.and_eq_true]
  exact ⟨by simp [schemeC, hc], hr⟩

theorem scheme_of_chars {c : Char} {r : Str} (hc : isAlpha c = true) (hr : r.all schemeC = true) :
    scheme (c :: r) := by
  refine ⟨[c], r, rfl, ⟨c, rfl, by rw [ALPHA_eq]; exact hc⟩, ?_⟩
  rw [star_chr, ALPHA_eq, DIGIT_eq]; exact hr

theorem scheme_not_mem {s : Str} (h : scheme s) {d : Char} (hd : schemeC d = false) : d ∉ s := by
  obtain ⟨_, _, _, _, _, h⟩ := scheme_chars h
  exact not_mem_of_all h hd

/-! ### IPv6 characters -/

/-- Characters of an IPv6 address. -/
def v6C (c : Char) : Bool := isHex c || c == ':' || c == '.'

theorem ipv4_v6C {s : Str} (h : IPv4address s) : s.all v6C = true := by
  have h1 := (ipv4_chars ((ipv4_iff s).1 h)).1
  rw [List.all_eq_true]
  intro c hc
  rcases h1 c hc with h | h
  · simp [v6C, isDigit_isHex h]
  · simp [v6C, h]

theorem h16_v6C {s : Str} (h : h16 s) : s.all v6C = true := by
  have h1 := ((h16_iff s).1 h).2.2
  rw [List.all_eq_true] at h1 ⊢
  intro c hc; simp [v6C, h1 c hc]

theorem G_v6C {k : Nat} {s : Str} (h : G k s) : s.all v6C = true := by
  induction h with
  | h16 h => exact h16_v6C h
  | v4 h => exact ipv4_v6C h
  | cons h _ ih => rw [List.all_append, List.all_cons, h16_v6C h, ih]; decide

theorem Left_v6C {k : Nat} {s : Str} (h : Left k s) : s.all v6C = true := by
  induction h with
  | zero => rfl
  | one h => exact h16_v6C h
  | cons h _ ih => rw [List.all_append, List.all_cons, h16_v6C h, ih]; decide

theorem ipv6_v6C {s : Str} (h : IPv6address s) : s.all v6C = true := by
  rcases (ipv6_grammar s).1 h with h | ⟨a, b, i, j, rfl, ha, hb, _⟩
  · exact G_v6C h
  · have hb' : b.all v6C = true := by
      rcases hb with ⟨_, rfl⟩ | hb
      · rfl
      · exact G_v6C hb
    rw [List.all_append, List.all_cons, List.all_cons, Left_v6C ha, hb']; decide

/-! ### Host -/

/-- Characters of an IPvFuture address part. -/
def vfutC (c : Char) : Bool := unreserved c || sub_delims c || c == ':'

theorem ipvfuture_iff (s : Str) : IPvFuture s ↔
    ∃ v ver addr, s = v :: (ver ++ '.' :: addr) ∧ (v = 'v' ∨ v = 'V') ∧ ver ≠ [] ∧
      ver.all isHex = true ∧ addr ≠ [] ∧ addr.all vfutC = true := by
  unfold IPvFuture
  constructor
  · rintro ⟨v, _, rfl, hv, ver, _, rfl, hver, _, addr, rfl, rfl, haddr⟩
    rw [plus_chr, HEXDIG_eq] at hver
    rw [plus_chr] at haddr
    rcases hv with hv | hv <;> cases hv
    · exact ⟨'v', ver, addr, by simp, .inl rfl, hver.1, hver.2, haddr.1, haddr.2⟩
    · exact ⟨'V', ver, addr, by simp, .inr rfl, hver.1, hver.2, haddr.1, haddr.2⟩
  · rintro ⟨v, ver, addr, rfl, hv, h1, h2, h3, h4⟩
    refine ⟨[v], _, rfl, ?_, ver, _, rfl, ?_, ['.'], addr, rfl, rfl, ?_⟩
    · rcases hv with rfl | rfl
      · exact .inl rfl
      · exact .inr rfl
    · rw [plus_chr, HEXDIG_eq]; exact ⟨h1, h2⟩
    · rw [plus_chr]; exact ⟨h3, h4⟩

theorem hex_no_dot {s : Str} (h : s.all isHex = true) : '.' ∉ s := not_mem_of_all h (by decide)

theorem vfut_all (s : Str) : (s.all isAscii && s.all is_ascii_userinfo_ipvfutureaddr) = s.all vfutC := by
  induction s with
  | nil => rfl
  | cons c r ih =>
    have := ipvfuture_eq c
    have h2 : vfutC c = (unreserved c || sub_delims c || c == ':') := rfl
    simp only [List.all_cons]
    rw [← ih, h2, ← this]
    cases isAscii c <;> cases is_ascii_userinfo_ipvfutureaddr c <;> cases r.all isAscii <;>
      cases r.all is_ascii_userinfo_ipvfutureaddr <;> rfl

/-- The inside of `[` `]`. -/
def ipInner (m : Str) : Bool :=
    (match (strip_ascii_char_prefix m 'v').or (strip_ascii_char_prefix m 'V') with
    | some maybe_addr_rest =>
      match find_split_hole maybe_addr_rest '.' with
      | none => false
      | some (maybe_ver, maybe_addr) =>
        if maybe_ver.isEmpty || !maybe_ver.all isHex then false
        else !maybe_addr.isEmpty && maybe_addr.all isAscii &&
          maybe_addr.all is_ascii_userinfo_ipvfutureaddr
    | none => validate_ipv6address m)

theorem ip_inner_iff (m : Str) : ipInner m = true ↔ (IPv6address ∕ IPvFuture) m := by
  unfold ipInner
  simp only [alt]
  by_cases hv : ∃ v r, m = v :: r ∧ (v = 'v' ∨ v = 'V')
  · obtain ⟨v, r, rfl, hv⟩ := hv
    have h6 : ¬ IPv6address (v :: r) := by
      intro h
      have := ipv6_v6C h
      simp only [List.all_cons, Bool.and_eq_true] at this
      rcases hv with rfl | rfl <;> exact absurd this.1 (by decide)
    have e : (strip_ascii_char_prefix (v :: r) 'v').or (strip_ascii_char_prefix (v :: r) 'V') = some r := by
      rcases hv with rfl | rfl <;> simp [strip_ascii_char_prefix]
    rw [e]
    simp only [h6, false_or]
    rw [ipvfuture_iff]
    cases hf : find_split_hole r '.' with
    | none =>
      have := find_split_hole_none.1 hf
      simp only [Bool.false_eq_true, false_iff]
      rintro ⟨_, ver, addr, he, _⟩
      simp at he; rw [he.2] at this; simp at this
    | some x =>
      obtain ⟨ver, addr⟩ := x
      obtain ⟨rfl, hn⟩ := find_split_hole_some.1 hf
      simp only
      by_cases h1 : ver = []
      · subst h1
        simp only [List.isEmpty_nil, Bool.true_or, if_true, Bool.false_eq_true, false_iff]
        rintro ⟨_, ver', addr', he, _, h0, hx, _⟩
        simp only [List.nil_append, List.cons.injEq] at he
        have := cut_unique (a := []) (by simp) (hex_no_dot hx) he.2
        exact h0 this.1.symm
      · have h1' : ver.isEmpty = false := by simpa using h1
        by_cases h2 : ver.all isHex = true
        · rw [h1', h2]
          simp only [Bool.not_true, Bool.or_self, Bool.false_eq_true, if_false]
          rw [Bool.and_assoc, vfut_all, Bool.and_eq_true]
          constructor
          · rintro ⟨h3, h4⟩
            exact ⟨v, ver, addr, rfl, hv, h1, h2, by simpa using h3, h4⟩
          · rintro ⟨_, ver', addr', he, _, h0, hx, h3, h4⟩
            simp only [List.cons.injEq] at he
            obtain ⟨rfl, rfl⟩ := cut_unique hn (hex_no_dot hx) he.2
            exact ⟨by simpa using h3, h4⟩
        · have h2' : ver.all isHex = false := by simpa using h2
          rw [h1', h2']
          simp only [Bool.not_false, Bool.false_or, if_true, Bool.false_eq_true, false_iff]
          rintro ⟨_, ver', addr', he, _, h0, hx, h3, h4⟩
          simp only [List.cons.injEq] at he
          obtain ⟨rfl, rfl⟩ := cut_unique hn (hex_no_dot hx) he.2
          exact h2 hx
  · have e : (strip_ascii_char_prefix m 'v').or (strip_ascii_char_prefix m 'V') = none := by
      have h1 : strip_ascii_char_prefix m 'v' = none :=
        strip_ascii_none.2 fun r h => hv ⟨_, r, h, .inl rfl⟩
      have h2 : strip_ascii_char_prefix m 'V' = none :=
        strip_ascii_none.2 fun r h => hv ⟨_, r, h, .inr rfl⟩
      rw [h1, h2]; rfl
    rw [e]
    simp only
    rw [← ipv6_iff]
    constructor
    · exact .inl
    · rintro (h | h)
      · exact h
      · obtain ⟨v, ver, addr, rfl, h, _⟩ := (ipvfuture_iff m).1 h
        exact absurd ⟨v, _, rfl, h⟩ hv

theorem ip_literal_iff (s : Str) : IP_literal s ↔
    ∃ m, s = '[' :: (m ++ [']']) ∧ (IPv6address ∕ IPvFuture) m := by
  constructor
  · rintro ⟨_, _, rfl, rfl, m, _, rfl, hm, rfl⟩; exact ⟨m, rfl, hm⟩
  · rintro ⟨m, rfl, hm⟩; exact ⟨['['], m ++ [']'], rfl, rfl, m, [']'], rfl, hm, rfl⟩

theorem regnameC_bracket (S : Spec) : regnameC S '[' = false := by cases S <;> decide
theorem regnameC_rbracket (S : Spec) : regnameC S ']' = false := by cases S <;> decide
theorem regnameC_colon (S : Spec) : regnameC S ':' = false := by cases S <;> decide
theorem regnameC_at (S : Spec) : regnameC S '@' = false := by cases S <;> decide

theorem digit_iunreserved (S : Spec) {c : Char} (h : isDigit c = true) : iunreserved S c = true := by
  rw [← DIGIT_eq] at h
  cases S <;> simp [iunreserved, unreserved, h]

theorem ipv4_regname {S : Spec} {s : Str} (h : IPv4address s) : reg_name S s := by
  rw [reg_name_iff]
  have h1 := (ipv4_chars ((ipv4_iff s).1 h)).1
  clear h
  induction s with
  | nil => exact PC.nil
  | cons c r ih =>
    have hc := h1 c (by simp)
    refine PC.chr ?_ ?_ (ih fun x hx => h1 x (by simp [hx]))
    · rintro rfl; rcases hc with h | h <;> revert h <;> decide
    · rcases hc with h | rfl
      · simp [regnameC, digit_iunreserved S h]
      · cases S <;> decide

theorem host_iff' {S : Spec} (s : Str) : host S s ↔
    (∃ m, s = '[' :: (m ++ [']']) ∧ (IPv6address ∕ IPvFuture) m) ∨ PC (regnameC S) s := by
  unfold host
  simp only [alt]
  rw [ip_literal_iff, reg_name_iff]
  constructor
  · rintro (h | h | h)
    · exact .inl h
    · exact .inr ((reg_name_iff S s).1 (ipv4_regname h))
    · exact .inr h
  · rintro (h | h)
    · exact .inl h
    · exact .inr (.inr h)

theorem host_iff (S : Spec) (s : Str) : host S s ↔ validate_host S s = true := by
  rw [host_iff']
  unfold validate_host
  cases hw : get_wrapped_inner s '[' ']' with
  | some m =>
    change _ ↔ ipInner m = true
    rw [ip_inner_iff]
    have hs := get_wrapped_some.1 hw
    constructor
    · rintro (⟨m', h, h'⟩ | h)
      · rw [h] at hs; simp at hs; rw [← hs]; exact h'
      · exact absurd (by rw [hs]; simp)
          (h.not_mem (d := '[') (by decide) (by decide) (regnameC_bracket S))
    · intro h; exact .inl ⟨m, hs, h⟩
  | none =>
    simp only
    rw [satisfy_iff, cls_regname]
    constructor
    · rintro (⟨m, h, _⟩ | h)
      · exact absurd h (get_wrapped_none.1 hw m)
      · exact h
    · exact .inr

/-- A host never contains these delimiters. -/
theorem host_not_mem {S : Spec} {s : Str} (h : host S s) {d : Char} (hd : d ≠ '%')
    (hx : isHex d = false) (hr : regnameC S d = false) (hv : v6C d = false) (hf : vfutC d = false)
    (h1 : d ≠ '[') (h2 : d ≠ ']') (h3 : d ≠ 'v') (h4 : d ≠ 'V') : d ∉ s := by
  rcases (host_iff' s).1 h with ⟨m, rfl, h | h⟩ | h
  · have := not_mem_of_all (ipv6_v6C h) hv
    simp [h1, h2, this]
  · obtain ⟨v, ver, addr, rfl, hv', _, hver, _, haddr⟩ := (ipvfuture_iff m).1 h
    have e1 := not_mem_of_all hver hx
    have e2 := not_mem_of_all haddr hf
    have e3 : d ≠ '.' := by rintro rfl; exact absurd hv (by decide)
    have e4 : d ≠ v := by rcases hv' with rfl | rfl <;> assumption
    simp [h1, h2, e1, e2, e3, e4]
  · exact h.not_mem hd hx hr

/-- The colon of a host is always followed by the closing bracket. -/
theorem host_colon {S : Spec} {a b : Str} (h : host S (a ++ ':' :: b)) : ']' ∈ b := by
  rcases (host_iff' _).1 h with ⟨m, he, _⟩ | h
  · have : (a ++ ':' :: b).getLast? = some ']' := by
      rw [he, show ('[' :: (m ++ [']'])) = ('[' :: m) ++ [']'] from rfl, List.getLast?_append]; rfl
    rw [List.getLast?_append] at this
    cases hb : b.getLast? with
    | none =>
      have : b = [] := by simpa using hb
      subst this; simp at *
    | some x =>
      have hx : (':' :: b).getLast? = some x := by
        cases b with
        | nil => simp at hb
        | cons y b => simpa [List.getLast?_cons_cons] using hb
      rw [hx] at this
      simp at this; subst this
      exact List.mem_of_getLast? hb
  · exact absurd (by simp) (h.not_mem (d := ':') (by decide) (by decide) (regnameC_colon S))

/-! ### Authority -/

theorem port_iff (s : Str) : port s ↔ s.all isDigit = true := by
  unfold port; rw [star_chr, DIGIT_eq]

theorem authority_grammar (S : Spec) (s : Str) : authority S s ↔
    ∃ (u : Option Str) (h : Str) (p : Option Str), s = optPre u ['@'] ++ (h ++ optSuf [':'] p) ∧
      (∀ x, u = some x → userinfo S x) ∧ host S h ∧ (∀ x, p = some x → port x) := by
  constructor
  · rintro ⟨a, _, rfl, ha, h, b, rfl, hh, hb⟩
    have h1 : ∃ u : Option Str, a = optPre u ['@'] ∧ (∀ x, u = some x → userinfo S x) := by
      rcases ha with rfl | ⟨u, _, rfl, hu, rfl⟩
      · exact ⟨none, rfl, by simp⟩
      · exact ⟨some u, rfl, by simp [hu]⟩
    have h2 : ∃ p : Option Str, b = optSuf [':'] p ∧ (∀ x, p = some x → port x) := by
      rcases hb with rfl | ⟨_, p, rfl, rfl, hp⟩
      · exact ⟨none, rfl, by simp⟩
      · exact ⟨some p, rfl, by simp [hp]⟩
    obtain ⟨u, rfl, hu⟩ := h1
    obtain ⟨p, rfl, hp⟩ := h2
    exact ⟨u, h, p, rfl, hu, hh, hp⟩
  · rintro ⟨u, h, p, rfl, hu, hh, hp⟩
    refine ⟨_, _, rfl, ?_, h, _, rfl, hh, ?_⟩
    · cases u with
      | none => exact .inl rfl
      | some u => exact .inr ⟨u, ['@'], rfl, hu u rfl, rfl⟩
    · cases p with
      | none => exact .inl rfl
      | some p => exact .inr ⟨[':'], p, rfl, rfl, hp p rfl⟩

theorem userinfoC_at (S : Spec) : userinfoC S '@' = false := by cases S <;> decide

theorem userinfo_no_at {S : Spec} {u : Str} (h : userinfo S u) : '@' ∉ u :=
  ((userinfo_iff S u).1 h).not_mem (by decide) (by decide) (userinfoC_at S)

theorem host_no_at {S : Spec} {h : Str} (hh : host S h) : '@' ∉ h :=
  host_not_mem hh (by decide) (by decide) (by cases S <;> decide) (by decide) (by decide)
    (by decide) (by decide) (by decide) (by decide)

theorem digits_not_mem {p : Str} (h : p.all isDigit = true) {d : Char} (hd : isDigit d = false) :
    d ∉ p := not_mem_of_all h hd

/-- Validation of `host [ ":" port ]`. -/
def hostport (S : Spec) (i : Str) : Bool :=
  match rfind_split_hole i ':' with
  | some (maybe_host, maybe_port) =>
    if maybe_port.all isDigit then validate_host S maybe_host else validate_host S i
  | none => validate_host S i

theorem hostport_iff (S : Spec) (i : Str) : hostport S i = true ↔
    ∃ (h : Str) (p : Option Str), i = h ++ optSuf [':'] p ∧ host S h ∧ (∀ x, p = some x → port x) := by
  unfold hostport
  cases hr : rfind_split_hole i ':' with
  | none =>
    have hn := rfind_split_hole_none.1 hr
    simp only
    rw [← host_iff]
    constructor
    · intro h; exact ⟨i, none, by simp [optSuf], h, by simp⟩
    · rintro ⟨h, p, rfl, hh, hp⟩
      cases p with
      | none => simpa [optSuf] using hh
      | some p => simp [optSuf] at hn
  | some x =>
    obtain ⟨a, b⟩ := x
    obtain ⟨rfl, hn⟩ := rfind_split_hole_some.1 hr
    simp only
    by_cases hb : b.all isDigit = true
    · rw [if_pos hb, ← host_iff]
      constructor
      · intro h; exact ⟨a, some b, rfl, h, by intro x hx; cases hx; exact (port_iff _).2 hb⟩
      · rintro ⟨h, p, he, hh, hp⟩
        cases p with
        | none =>
          simp only [optSuf, List.append_nil] at he
          rw [← he] at hh
          exact absurd (host_colon hh) (digits_not_mem hb (by decide))
        | some p =>
          have hp' := (port_iff _).1 (hp p rfl)
          have e1 : rfind_split_hole (h ++ ':' :: p) ':' = some (h, p) :=
            rfind_split_hole_eq (digits_not_mem hp' (by decide))
          have he' : a ++ ':' :: b = h ++ ':' :: p := he
          rw [he', e1] at hr
          simp at hr
          rw [← hr.1]; exact hh
    · rw [if_neg hb, ← host_iff]
      constructor
      · intro h; exact ⟨_, none, by simp [optSuf], h, by simp⟩
      · rintro ⟨h, p, he, hh, hp⟩
        cases p with
        | none =>
          simp only [optSuf, List.append_nil] at he
          rw [he]; exact hh
        | some p =>
          have hp' := (port_iff _).1 (hp p rfl)
          have e1 : rfind_split_hole (h ++ ':' :: p) ':' = some (h, p) :=
            rfind_split_hole_eq (digits_not_mem hp' (by decide))
          have he' : a ++ ':' :: b = h ++ ':' :: p := he
          rw [he', e1] at hr
          simp at hr
          rw [← hr.2] at hb; exact absurd hp' hb

theorem hostport_no_at {S : Spec} {h : Str} {p : Option Str} (hh : host S h)
    (hp : ∀ x, p = some x → port x) : '@' ∉ h ++ optSuf [':'] p := by
  have := host_no_at hh
  cases p with
  | none => simpa [optSuf] using this
  | some p =>
    have h2 := digits_not_mem ((port_iff p).1 (hp p rfl)) (d := '@') (by decide)
    simp [optSuf, this, h2]

theorem validate_authority_eq (S : Spec) (i : Str) : validate_authority S i =
    (match find_split_hole i '@' with
    | some (u, i) => validate_userinfo S u && hostport S i
    | none => hostport S i) := rfl

theorem validate_userinfo_iff (S : Spec) (s : Str) : userinfo S s ↔ validate_userinfo S s = true := by
  unfold validate_userinfo
  rw [satisfy_iff, cls_userinfo, userinfo_iff]

theorem authority_iff (S : Spec) (s : Str) : authority S s ↔ validate_authority S s = true := by
  rw [authority_grammar, validate_authority_eq]
  cases hf : find_split_hole s '@' with
  | none =>
    have hn := find_split_hole_none.1 hf
    simp only
    rw [hostport_iff]
    constructor
    · rintro ⟨u, h, p, rfl, hu, hh, hp⟩
      cases u with
      | none => exact ⟨h, p, rfl, hh, hp⟩
      | some u => simp [optPre] at hn
    · rintro ⟨h, p, rfl, hh, hp⟩; exact ⟨none, h, p, rfl, by simp, hh, hp⟩
  | some x =>
    obtain ⟨a, b⟩ := x
    obtain ⟨rfl, hn⟩ := find_split_hole_some.1 hf
    simp only
    rw [Bool.and_eq_true, ← validate_userinfo_iff, hostport_iff]
    constructor
    · rintro ⟨u, h, p, he, hu, hh, hp⟩
      cases u with
      | none =>
        have := hostport_no_at hh hp
        simp only [optPre, List.nil_append] at he
        rw [← he] at this; simp at this
      | some u =>
        have e : a ++ '@' :: b = u ++ '@' :: (h ++ optSuf [':'] p) := by
          simpa [optPre] using he
        obtain ⟨rfl, rfl⟩ := cut_unique hn (userinfo_no_at (hu u rfl)) e
        exact ⟨hu _ rfl, h, p, rfl, hh, hp⟩
    · rintro ⟨hu, h, p, rfl, hh, hp⟩
      exact ⟨some a, h, p, by simp [optPre], by simp [hu], hh, hp⟩

/-- Delimiters that cannot occur in an authority. -/
theorem authority_not_mem {S : Spec} {s : Str} (_ : authority S s) {d : Char}
    (hd : d = '/' ∨ d = '?' ∨ d = '#') : d ∉ s := by
  obtain ⟨u, h, p, rfl, hu, hh, hp⟩ := (authority_grammar S s).1 ‹_›
  have e2 : d ∉ h := by
    rcases hd with rfl | rfl | rfl <;>
    exact host_not_mem hh (by decide) (by decide) (by cases S <;> decide) (by decide) (by decide)
      (by decide) (by decide) (by decide) (by decide)
  have e1 : d ∉ optPre u ['@'] := by
    cases u with
    | none => simp [optPre]
    | some u =>
      have : d ∉ u := by
        rcases hd with rfl | rfl | rfl <;>
        exact ((userinfo_iff S u).1 (hu u rfl)).not_mem (by decide) (by decide)
          (by cases S <;> decide)
      have hne : d ≠ '@' := by rcases hd with rfl | rfl | rfl <;> decide
      simp [optPre, this, hne]
  have e3 : d ∉ optSuf [':'] p := by
    cases p with
    | none => simp [optSuf]
    | some p =>
      have : d ∉ p := by
        rcases hd with rfl | rfl | rfl <;>
        exact digits_not_mem ((port_iff p).1 (hp p rfl)) (by decide)
      have hne : d ≠ ':' := by rcases hd with rfl | rfl | rfl <;> decide
      simp [optSuf, this, hne]
  simp [e1, e2, e3]

end Verif
