import Verif.Spec.Build
import Verif.Lemmas.Edit

/-!
# The builder
-/

namespace Verif

open Rfc PathToNormalize BuildSpec

/-! ### IP addresses of the standard library -/

theorem decimal_octet {n : Nat} (h : n < 256) : dec_octet (decimal n) := by
  rw [dec_octet_iff]
  have : ∀ n : Fin 256, is_dec_octet (decimal n.1) = true := by decide +kernel
  exact this ⟨n, h⟩

theorem ipv4Display_ok {a b c d : Nat} (ha : a < 256) (hb : b < 256) (hc : c < 256) (hd : d < 256) :
    IPv4address (ipv4Display a b c d) := by
  refine ⟨_, _, rfl, decimal_octet ha, ['.'], _, rfl, rfl, _, _, rfl, decimal_octet hb, ['.'], _, rfl, rfl,
    _, _, rfl, decimal_octet hc, ['.'], _, rfl, rfl, decimal_octet hd⟩

theorem digitChar_hex {n : Nat} (h : n < 16) : isHex n.digitChar = true := by
  have : ∀ n : Fin 16, isHex n.1.digitChar = true := by decide +kernel
  exact this ⟨n, h⟩

theorem digitChar_lower {n : Nat} (h : n < 16) : toLower n.digitChar = n.digitChar := by
  have : ∀ n : Fin 16, toLower n.1.digitChar = n.1.digitChar := by decide +kernel
  exact this ⟨n, h⟩

theorem toDigits16 {P : Char → Prop} (h : ∀ n, n < 16 → P n.digitChar) (n : Nat) :
    ∀ c ∈ Nat.toDigits 16 n, P c := by
  induction n using Nat.strongRecOn with
  | _ n ih =>
    rw [Nat.toDigits_eq_if (by omega)]
    split
    · rename_i hn
      intro c hc
      simp at hc
      subst hc
      exact h n hn
    · intro c hc
      rcases List.mem_append.1 hc with hc | hc
      · exact ih _ (by omega) c hc
      · simp at hc
        subst hc
        exact h _ (by omega)

theorem lowerHex_h16 {n : Nat} (h : n < 65536) : h16 (lowerHex n) := by
  rw [h16_iff]
  refine ⟨Nat.length_toDigits_pos, (Nat.length_toDigits_le_iff (by omega) (by omega)).2 (by omega), ?_⟩
  rw [List.all_eq_true]
  exact toDigits16 (fun n hn => digitChar_hex hn) n

theorem v6Subslice_left (L : List UInt16) : Left L.length (v6Subslice L) := by
  match L with
  | [] => exact .zero
  | [g] => exact .one (lowerHex_h16 g.toNat_lt)
  | g :: h :: r => exact .cons (lowerHex_h16 g.toNat_lt) (v6Subslice_left (h :: r))

theorem v6Subslice_G (L : List UInt16) (h : L ≠ []) : G L.length (v6Subslice L) := by
  match L with
  | [g] => exact .h16 (lowerHex_h16 g.toNat_lt)
  | g :: h :: r => exact .cons (lowerHex_h16 g.toNat_lt) (v6Subslice_G (h :: r) (by simp))

theorem v6Zeroes_le (L : List UInt16) (i : Nat) (cur lon : Nat × Nat) (h1 : cur.2 = 0 ∨ cur.1 + cur.2 = i)
    (h2 : lon.1 + lon.2 ≤ i) :
    (v6Zeroes L i cur lon).1 + (v6Zeroes L i cur lon).2 ≤ i + L.length := by
  induction L generalizing i cur lon with
  | nil => simpa [v6Zeroes] using h2
  | cons g r ih =>
    unfold v6Zeroes
    split
    · simp only [List.length_cons]
      have := ih (i + 1) ((if cur.2 = 0 then i else cur.1), cur.2 + 1)
        (if lon.2 < cur.2 + 1 then ((if cur.2 = 0 then i else cur.1), cur.2 + 1) else lon)
        (by right; simp only; split <;> omega)
        (by split
            · simp only; split <;> omega
            · omega)
      omega
    · have := ih (i + 1) (0, 0) lon (.inl rfl) (by omega)
      simp only [List.length_cons]
      omega

theorem v6Subslice_right (L : List UInt16) : Right L.length (v6Subslice L) := by
  by_cases h : L = []
  · subst h; exact .inl ⟨rfl, rfl⟩
  · exact .inr (v6Subslice_G L h)

theorem ipv6Display_ok (a : Ipv6Addr) : IPv6address a.display := by
  obtain ⟨segs, hl⟩ := a
  rw [ipv6_grammar]
  unfold Ipv6Addr.display
  simp only
  split
  · rename_i g h
    right
    refine ⟨[], _, 0, 3, rfl, .zero, .inr (.cons (a := ['f', 'f', 'f', 'f']) ?_ (.v4 ?_)), by omega⟩
    · rw [h16_iff]; decide
    · have h1 := g.toNat_lt
      have h2 := h.toNat_lt
      exact ipv4Display_ok (by omega) (by omega) (by omega) (by omega)
  · have hz := v6Zeroes_le segs 0 (0, 0) (0, 0) (.inl rfl) (by omega)
    generalize v6Zeroes segs 0 (0, 0) (0, 0) = z at hz
    split
    · right
      refine ⟨_, _, _, _, rfl, v6Subslice_left _, v6Subslice_right _, ?_⟩
      simp
      omega
    · left
      have := v6Subslice_G segs (by rintro rfl; simp at hl)
      rwa [hl] at this

theorem hostText_ok (S : Spec) {h : HostRepr} : h.ok S = true ↔ host S (hostText h) := by
  cases h with
  | string s => exact (host_iff S s).symm
  | ipv4 a b c d =>
    refine ⟨fun _ => .inr (.inl ?_), fun _ => rfl⟩
    exact ipv4Display_ok a.toNat_lt b.toNat_lt c.toNat_lt d.toNat_lt
  | ipv6 a =>
    refine ⟨fun _ => .inl ?_, fun _ => rfl⟩
    exact ⟨['['], _, rfl, rfl, _, _, rfl, .inl (ipv6Display_ok a), rfl⟩

/-! ### Lower case -/

def LowerText (s : Str) : Prop := ∀ c ∈ s, toLower c = c

theorem LowerText.append {a b : Str} (ha : LowerText a) (hb : LowerText b) : LowerText (a ++ b) := by
  intro c hc
  rcases List.mem_append.1 hc with h | h
  · exact ha c h
  · exact hb c h

theorem LowerText.cons {b : Str} {c : Char} (ha : toLower c = c) (hb : LowerText b) : LowerText (c :: b) := by
  intro d hd
  rcases List.mem_cons.1 hd with rfl | h
  · exact ha
  · exact hb d h

theorem LowerText.nil : LowerText [] := by intro c hc; cases hc

theorem LowerText.map {s : Str} (h : LowerText s) : s.map toLower = s := by
  rw [List.map_congr_left h]; simp

theorem lowerHex_lower (n : Nat) : LowerText (lowerHex n) := toDigits16 (fun _ hn => digitChar_lower hn) n

theorem decimal_digits (n : Nat) : ∀ c ∈ decimal n, isDigit c = true := by
  intro c hc
  have := Nat.isDigit_of_mem_toDigits (by omega) (by omega) hc
  simp [Char.isDigit] at this
  simp only [isDigit, Bool.and_eq_true, decide_eq_true_eq]
  exact ⟨this.1, this.2⟩

theorem decimal_lower (n : Nat) : LowerText (decimal n) := by
  have := digits_lower (decimal_digits n)
  intro c hc
  have h := decimal_digits n c hc
  simp [isDigit] at h
  simp [toLower, isUpper]
  omega

theorem v6Subslice_lower (L : List UInt16) : LowerText (v6Subslice L) := by
  match L with
  | [] => exact .nil
  | [g] => exact lowerHex_lower _
  | g :: h :: r => exact (lowerHex_lower _).append (.cons rfl (v6Subslice_lower (h :: r)))

theorem ipv4Display_lower (a b c d : Nat) : LowerText (ipv4Display a b c d) :=
  (decimal_lower a).append (.cons rfl ((decimal_lower b).append (.cons rfl
    ((decimal_lower c).append (.cons rfl (decimal_lower d))))))

theorem ipv6Display_lower (a : Ipv6Addr) : LowerText a.display := by
  unfold Ipv6Addr.display
  split
  · refine LowerText.append ?_ (ipv4Display_lower _ _ _ _)
    unfold LowerText
    decide
  · simp only
    split
    · exact (v6Subslice_lower _).append (.cons rfl (.cons rfl (v6Subslice_lower _)))
    · exact v6Subslice_lower _

theorem hostn_plain {S : Spec} {s : Str} (h : ∀ c ∈ s, c.toNat < 128 ∧ c ≠ '%') :
    hostn S s = s.map toLower := by
  have hn : '%' ∉ s := fun hm => (h _ hm).2 rfl
  have h3 : (tokens s).all tokAscii = true := by
    rw [tokens_no_pct hn, List.all_eq_true]
    intro t ht
    obtain ⟨c, hc, rfl⟩ := List.mem_map.1 ht
    simp [tokAscii, (h c hc).1]
  unfold hostn
  rw [if_pos h3, tokens_no_pct hn, map_ch_lower]

/-! ### Authority -/

theorem host_write {S : Spec} {h : HostRepr} (hv : host S (hostText h)) (n : Bool) :
    h.write S n = some (if n then hostn S (hostText h) else hostText h) := by
  cases h with
  | string s =>
    cases n with
    | false => rfl
    | true =>
      have := normalize_host_port_eq (p := none) hv (by simp)
      simpa [optSuf, portn, HostRepr.write, hostText] using this
  | ipv4 a b c d =>
    have h4 := ipv4Display_ok a.toNat_lt b.toNat_lt c.toNat_lt d.toNat_lt
    cases n with
    | false => rfl
    | true =>
      simp only [HostRepr.write, hostText, if_true]
      rw [hostn_plain, (ipv4Display_lower _ _ _ _).map]
      intro x hx
      rcases (ipv4_chars ((ipv4_iff _).1 h4)).1 x hx with hd | rfl
      · refine ⟨?_, ?_⟩
        · simp [isDigit] at hd; omega
        · rintro rfl; exact absurd hd (by decide)
      · decide
  | ipv6 a =>
    have h6 : IP_literal ('[' :: (a.display ++ [']'])) :=
      ⟨['['], _, rfl, rfl, _, _, rfl, .inl (ipv6Display_ok a), rfl⟩
    cases n with
    | false => rfl
    | true =>
      simp only [HostRepr.write, hostText, if_true]
      rw [hostn_ip_literal h6, LowerText.map]
      exact .cons rfl ((ipv6Display_lower a).append (.cons rfl .nil))

theorem pctIf_eq {S : Spec} {n : Bool} {s : Str} (h : WF s) :
    pctIf S n s = some (if n then pctn S s else s) := by
  cases n with
  | false => rfl
  | true => exact pctn_some S h

theorem PC_append_inv {p : Char → Bool} {a b : Str} {d : Char} (hd : d ≠ '%') (hx : isHex d = false)
    (h : PC p (a ++ d :: b)) : PC p a ∧ PC p b := by
  generalize hs : a ++ d :: b = s at h
  induction h generalizing a with
  | nil => cases a <;> cases hs
  | @chr c r hc hpc hr ih =>
    cases a with
    | nil =>
      simp at hs
      rw [← hs.2] at hr
      exact ⟨.nil, hr⟩
    | cons x a =>
      simp at hs
      obtain ⟨rfl, hs⟩ := hs
      have := ih hs
      exact ⟨.chr hc hpc this.1, this.2⟩
  | @pct x y r h1 h2 hr ih =>
    match a, hs with
    | [], hs => simp at hs; exact absurd hs.1 hd
    | [_], hs => simp at hs; rw [← hs.2.1, hx] at h1; cases h1
    | [_, _], hs => simp at hs; rw [← hs.2.2.1, hx] at h2; cases h2
    | _ :: _ :: _ :: a', hs =>
      simp at hs
      obtain ⟨rfl, rfl, rfl, hs'⟩ := hs
      have := ih hs'
      exact ⟨.pct h1 h2 this.1, this.2⟩

theorem userinfo_cut {S : Spec} {u p : Str} :
    userinfo S (u ++ ':' :: p) ↔ userinfo S u ∧ userinfo S p := by
  rw [userinfo_iff, userinfo_iff, userinfo_iff]
  constructor
  · exact PC_append_inv (by decide) (by decide)
  · rintro ⟨h1, h2⟩
    exact PC.append h1 (.chr (by decide) (by cases S <;> decide) h2)

theorem userinfo_ok {S : Spec} {u : UserinfoRepr} :
    u.ok S = true ↔ (∀ x, userinfoText u = some x → userinfo S x) ∧ UserOk u := by
  cases u with
  | absent => simp [UserinfoRepr.ok, userinfoText, UserOk]
  | direct s => simp [UserinfoRepr.ok, userinfoText, UserOk, validate_userinfo_iff]
  | userPass u p =>
    cases p with
    | none => simp [UserinfoRepr.ok, userinfoText, UserOk, validate_userinfo_iff, and_comm]
    | some p =>
      simp [UserinfoRepr.ok, userinfoText, UserOk, ← validate_userinfo_iff, userinfo_cut]
      constructor
      · rintro ⟨⟨h1, h2⟩, h3⟩; exact ⟨⟨h2, h3⟩, h1⟩
      · rintro ⟨⟨h2, h3⟩, h1⟩; exact ⟨⟨h1, h2⟩, h3⟩

theorem userinfo_write {S : Spec} {u : UserinfoRepr} (hv : ∀ x, userinfoText u = some x → userinfo S x)
    (n : Bool) :
    u.write S n = some (optPre ((userinfoText u).map fun x => if n then pctn S x else x) ['@']) := by
  have hwf : ∀ {x}, userinfo S x → WF x := fun h => ((userinfo_iff S _).1 h).wf
  cases u with
  | absent => rfl
  | direct s =>
    simp only [UserinfoRepr.write, pctIf_eq (hwf (hv s rfl)), userinfoText]
    rfl
  | userPass u p =>
    cases p with
    | none =>
      simp only [UserinfoRepr.write, pctIf_eq (hwf (hv u rfl)), userinfoText]
      rfl
    | some p =>
      have h := userinfo_cut.1 (hv _ rfl)
      simp only [UserinfoRepr.write, pctIf_eq (hwf h.1), pctIf_eq (hwf h.2), userinfoText]
      cases n with
      | false => simp [optPre]
      | true =>
        simp only [if_true, Option.map_some, Option.bind_some, optPre]
        rw [pctn_append_ch S (hwf h.1) (by decide) (hwf h.2)]
        simp

theorem port_ok {p : PortRepr} : p.ok = true ↔ ∀ x, portText p = some x → port x := by
  have hp : ∀ x : Str, port x ↔ x.all isDigit = true := fun x => by
    unfold Rfc.port; rw [star_chr, DIGIT_eq]
  cases p with
  | empty => simp [PortRepr.ok, portText]
  | integer n =>
    simp only [PortRepr.ok, portText, Option.some.injEq, true_iff]
    rintro x rfl
    rw [hp, List.all_eq_true]
    exact decimal_digits _
  | string s => simp [PortRepr.ok, portText, hp]

theorem port_write (p : PortRepr) (n : Bool) :
    p.write n = optSuf [':'] (if n then portn (portText p) else portText p) := by
  cases p with
  | empty => cases n <;> rfl
  | integer k =>
    have : decimal k.toNat ≠ [] := Nat.toDigits_ne_nil
    cases n <;> simp [PortRepr.write, portText, portn, optSuf, this]
  | string s =>
    cases n with
    | false => simp [PortRepr.write, portText, optSuf]
    | true => cases s <;> simp [PortRepr.write, portText, portn, optSuf]

theorem authority_ok {S : Spec} {a : AuthorityBuilder} :
    a.ok S = true ↔ (authParts a).Valid S ∧ UserOk a.userinfo := by
  unfold AuthorityBuilder.ok
  rw [Bool.and_eq_true, Bool.and_eq_true, userinfo_ok, hostText_ok, port_ok]
  constructor
  · rintro ⟨⟨⟨h1, h2⟩, h3⟩, h4⟩; exact ⟨⟨h1, h3, h4⟩, h2⟩
  · rintro ⟨⟨h1, h3, h4⟩, h2⟩; exact ⟨⟨⟨h1, h2⟩, h3⟩, h4⟩

theorem authority_write {S : Spec} {a : AuthorityBuilder} (h : (authParts a).Valid S) (n : Bool) :
    a.write S n = some (if n then ((authParts a).norm S).recompose else (authParts a).recompose) := by
  unfold AuthorityBuilder.write
  rw [userinfo_write h.userinfo, host_write h.host, port_write]
  simp only [Option.bind_some, Option.map_some]
  cases n with
  | false => simp [AuthParts.recompose, authParts]
  | true => simp [AuthParts.recompose, AuthParts.norm, authParts]

/-! ### Characteristic of a path -/

/-- The characteristic of what follows a leading slash. -/
def absChar : Str → Option PathCharacteristic
  | [] => none
  | c :: _ => some (if c = '/' then .startsWithDoubleSlash else .commonAbsolute)

/-- The characteristic of a text. -/
def charOf : Str → PathCharacteristic
  | [] => .commonRelative
  | c :: t =>
    if c = '/' then (absChar t).getD .commonRelative
    else if prior_byte2 (c :: t) '/' ':' = some ':' then .relativeFirstSegmentHasColon
    else .commonRelative

theorem prior_append (a b : Str) (n1 n2 : Char) :
    prior_byte2 (a ++ b) n1 n2 = (prior_byte2 a n1 n2).or (prior_byte2 b n1 n2) := by
  simp [prior_byte2, List.find?_append]

theorem prior_none {s : Str} : prior_byte2 s '/' ':' = none ↔ '/' ∉ s ∧ ':' ∉ s := by
  simp only [prior_byte2, List.find?_eq_none, Bool.or_eq_true, beq_iff_eq, not_or]
  constructor
  · intro h
    exact ⟨fun hm => (h _ hm).1 rfl, fun hm => (h _ hm).2 rfl⟩
  · rintro ⟨h1, h2⟩ c hc
    exact ⟨fun e => h1 (e ▸ hc), fun e => h2 (e ▸ hc)⟩

theorem exists_first {s : Str} {d : Char} (h : d ∈ s) : ∃ a b, s = a ++ d :: b ∧ d ∉ a := by
  induction s with
  | nil => cases h
  | cons c r ih =>
    by_cases hc : c = d
    · exact ⟨[], r, by simp [hc], by simp⟩
    · have : d ∈ r := by
        rcases List.mem_cons.1 h with e | e
        · exact absurd e.symm hc
        · exact e
      obtain ⟨a, b, rfl, h1⟩ := ih this
      exact ⟨c :: a, b, rfl, by simp [h1, Ne.symm hc]⟩

theorem prior_some (s : Str) : prior_byte2 s '/' ':' = some ':' ↔ ColonInFirstSegment s := by
  unfold prior_byte2 ColonInFirstSegment
  rw [List.find?_eq_some_iff_append]
  simp only [beq_self_eq_true, Bool.or_true, true_and, Bool.not_eq_true', Bool.or_eq_false_iff, beq_eq_false_iff_ne]
  constructor
  · rintro ⟨a, b, rfl, h⟩; exact ⟨a, b, rfl, fun hm => (h _ hm).1 rfl⟩
  · rintro ⟨a, b, rfl, h⟩
    -- the first colon
    by_cases hc : ':' ∈ a
    · obtain ⟨a1, a2, rfl, h1⟩ := exists_first hc
      refine ⟨a1, a2 ++ ':' :: b, by simp, ?_⟩
      intro c hc
      refine ⟨?_, ?_⟩
      · rintro rfl; exact h (by simp [hc])
      · rintro rfl; exact h1 hc
    · refine ⟨a, b, rfl, fun c hc' => ⟨?_, ?_⟩⟩
      · rintro rfl; exact h hc'
      · rintro rfl; exact hc hc'


theorem decide_rel (s : Str) : CharWriter.decide false s =
    (prior_byte2 s '/' ':').map fun c =>
      if c = ':' then .relativeFirstSegmentHasColon else .commonRelative := by
  unfold CharWriter.decide
  simp only [Bool.false_eq_true, if_false]
  cases hf : find_split_hole s '/' with
  | some x =>
    obtain ⟨a, b⟩ := x
    obtain ⟨rfl, hn⟩ := find_split_hole_some.1 hf
    simp only
    rw [prior_append]
    cases hp : prior_byte2 a '/' ':' with
    | none =>
      have := prior_none.1 hp
      simp [this.2, prior_byte2]
    | some c =>
      have hc : c = ':' := by
        have h1 := List.mem_of_find?_eq_some hp
        have h2 := List.find?_some hp
        simp at h2
        rcases h2 with rfl | rfl
        · exact absurd h1 hn
        · rfl
      subst hc
      have : ':' ∈ a := List.mem_of_find?_eq_some hp
      simp [this]
  | none =>
    have hn := find_split_hole_none.1 hf
    simp only
    cases hp : prior_byte2 s '/' ':' with
    | none => simp [(prior_none.1 hp).2]
    | some c =>
      have h1 := List.mem_of_find?_eq_some hp
      have h2 := List.find?_some hp
      simp at h2
      rcases h2 with rfl | rfl
      · exact absurd h1 hn
      · simp [h1]

theorem starts_slash1 (c : Char) (s : Str) : starts_with (c :: s) ['/'] = decide (c = '/') := by
  rw [Bool.eq_iff_iff, starts_with_iff]
  simp

theorem decide_abs (c : Char) (s : Str) : CharWriter.decide true (c :: s) = absChar (c :: s) := by
  simp [CharWriter.decide, starts_slash1, absChar]

theorem chunks_abs (cs : List Str) :
    CharWriter.writeChunks ⟨none, some true⟩ cs =
      match absChar cs.flatten with
      | none => (⟨none, some true⟩, true)
      | some r => (⟨some r, some true⟩, false) := by
  induction cs with
  | nil => rfl
  | cons s r ih =>
    cases s with
    | nil => simpa [CharWriter.writeChunks, CharWriter.write_str] using ih
    | cons c s =>
      simp only [CharWriter.writeChunks, CharWriter.write_str, List.flatten_cons, List.cons_append]
      simp [decide_abs, absChar]

theorem chunks_rel (cs : List Str) :
    CharWriter.writeChunks ⟨none, some false⟩ cs =
      match prior_byte2 cs.flatten '/' ':' with
      | none => (⟨none, some false⟩, true)
      | some c => (⟨some (if c = ':' then .relativeFirstSegmentHasColon else .commonRelative),
          some false⟩, false) := by
  induction cs with
  | nil => rfl
  | cons s r ih =>
    cases s with
    | nil => simpa [CharWriter.writeChunks, CharWriter.write_str] using ih
    | cons c s =>
      simp only [CharWriter.writeChunks, CharWriter.write_str, List.flatten_cons]
      rw [prior_append]
      simp only [Option.isSome_none, Bool.false_eq_true, if_false, List.isEmpty_cons, decide_rel]
      cases hp : prior_byte2 (c :: s) '/' ':' with
      | none => simpa using ih
      | some d => simp

theorem first_rel {c : Char} (hc : c ≠ '/') (s : Str) :
    CharWriter.write_str {} (c :: s) = CharWriter.write_str ⟨none, some false⟩ (c :: s) := by
  unfold CharWriter.write_str
  simp only
  split
  · rename_i h; cases h
  · split
    · rename_i h; cases h
    · split
      · rename_i h; exact absurd (List.cons.inj h).1 hc
      · rfl

/-- What is found does not depend on how the text is cut into chunks. -/
theorem ofChunks_eq (cs : List Str) : PathCharacteristic.ofChunks cs = some (charOf cs.flatten) := by
  induction cs with
  | nil => rfl
  | cons s r ih =>
    cases s with
    | nil =>
      unfold PathCharacteristic.ofChunks at ih ⊢
      simpa [CharWriter.writeChunks, CharWriter.write_str] using ih
    | cons c s =>
      unfold PathCharacteristic.ofChunks
      simp only [List.flatten_cons, List.cons_append]
      unfold charOf
      simp only
      by_cases hc : c = '/'
      · subst hc
        rw [if_pos rfl]
        cases s with
        | nil =>
          have : CharWriter.writeChunks {} (['/'] :: r) = CharWriter.writeChunks ⟨none, some true⟩ r := rfl
          rw [this, chunks_abs]
          simp only [List.nil_append]
          cases absChar r.flatten <;> rfl
        | cons d s =>
          simp only [CharWriter.writeChunks, CharWriter.write_str]
          simp [decide_abs, absChar]
      · rw [if_neg hc]
        have h3 : CharWriter.writeChunks {} ((c :: s) :: r) =
            CharWriter.writeChunks ⟨none, some false⟩ ((c :: s) :: r) := by
          simp only [CharWriter.writeChunks, first_rel hc]
        rw [h3, chunks_rel]
        simp only [List.flatten_cons, List.cons_append]
        cases prior_byte2 (c :: (s ++ r.flatten)) '/' ':' with
        | none => rfl
        | some d => by_cases hd : d = ':' <;> simp [hd]


/-! ### Validation -/

theorem fmt_write_default_some {S : Spec} {auth : Bool} {s : Str} (h : WF s) :
    ∃ t, fmt_write_normalize S .default auth (from_single_path s) = some t ∧
      (AuthPath auth s → t = pathn S .default auth s) := by
  have hi := from_single_path_inv s
  have hT : TextOK .default (from_single_path s).text := by rw [hi.2]; exact fun _ => h
  by_cases ha : AuthPath auth s
  · exact ⟨_, pathn_write hi.1 hT (by rw [hi.2]; exact ha), fun _ => by rw [hi.2]⟩
  · obtain ⟨hok, ht⟩ := pathSegs_spec (from_single_path s).text
    have hokS := stripRel_ok hok
    suffices hs : ∃ t, fmt_write_normalize S .default auth (from_single_path s) = some t ∧ True from
      hs.imp fun t ht => ⟨ht.1, fun e => absurd e ha⟩
    unfold fmt_write_normalize
    split
    · exact ⟨_, rfl, trivial⟩
    · rw [if_neg (by simp)]
      obtain ⟨p', h1, h2, h3⟩ := remove_ignorable_prefix_eq hi.1 ht.symm hok
      simp only [h1, Option.bind_eq_bind, Option.bind_some]
      split
      · exact ⟨_, rfl, trivial⟩
      · have hn' : TextOK .default p'.text := by
          rw [h3]
          rw [← ht] at hT
          exact textOK_of_names (stripRel_names (P := fun s => TextOK .default s) (names_ok hok hT))
        obtain ⟨out, r, h4, h5⟩ := main_part (S := S) (op := .default) (auth := auth) h2 h3 hokS hn'
        rw [h4]
        exact ⟨_, h5, trivial⟩

theorem starts_dslash {s : Str} : starts_with s ['/', '/'] = true ↔ ∃ r, s = '/' :: '/' :: r :=
  starts_with_iff

theorem starts_oneslash {s : Str} : starts_with s ['/'] = true ↔ ∃ r, s = '/' :: r :=
  starts_with_iff

/-- The path constraints of `Acceptable`. -/
def PathOk (b : Builder) : Prop :=
  (b.authority ≠ none → b.path = [] ∨ ∃ r, b.path = '/' :: r) ∧
  (b.authority = none → b.normalize = false → ∀ r, b.path ≠ '/' :: '/' :: r) ∧
  (b.scheme = none → b.authority = none → ¬ ColonInFirstSegment b.path)

theorem colon_slash (r : Str) : ¬ ColonInFirstSegment ('/' :: r) := by
  rintro ⟨a, b, e, h⟩
  cases a with
  | nil => cases (List.cons.inj e).1
  | cons c a =>
    simp at e
    exact h (by rw [← e.1]; simp)

/-- The path that is written. -/
def outPath (S : Spec) (b : Builder) : Str :=
  if b.normalize = false then b.path
  else if b.scheme ≠ none ∨ b.authority ≠ none ∨
      (b.path.take 1 = ['/'] ∧ pathn S .default false b.path ≠ ['/']) then
    pathn S .default b.authority.isSome b.path
  else pctn S b.path

theorem isSome_ne {α : Type} {o : Option α} : o.isSome = true ↔ o ≠ none := by cases o <;> simp

theorem pathCheck_norm {S : Spec} {b : Builder} (hn : b.normalize = true) (hw : WF b.path) :
    ∃ acc abs, b.pathCheck S = some (acc, abs) ∧ (acc = true ↔ PathOk b) ∧
      (acc = true → b.writePath S abs = some (outPath S b)) := by
  unfold Builder.pathCheck Builder.writePath outPath PathOk
  simp only [hn, if_true, Bool.not_true, Bool.false_eq_true, if_false, Bool.true_eq_false]
  by_cases hc : (b.scheme.isSome || b.authority.isSome || starts_with b.path ['/']) = true
  · rw [if_pos hc]
    obtain ⟨t, ht, hta⟩ := fmt_write_default_some (S := S) (auth := b.authority.isSome) hw
    have hslash : ∀ r, b.path = '/' :: r →
        charOf (pathn S .default false b.path) = .commonAbsolute ∨
        charOf (pathn S .default false b.path) = .commonRelative := by
      intro r hr
      have hT : TextOK .default ('/' :: r) := fun _ => hr ▸ hw
      obtain ⟨q, hq⟩ := pathn_slash (S := S) (op := .default) (auth := false) hT
      have hd := pathn_no_dslash (S := S) hT
      rw [hr, hq]
      rw [hq] at hd
      cases q with
      | nil => exact .inr rfl
      | cons c q =>
        left
        have : c ≠ '/' := by rintro rfl; exact hd q rfl
        simp [charOf, absChar, this]
    unfold PathCharacteristic.from_path_to_display
    simp only [ht, Option.bind_some, ofChunks_eq, Option.map_some]
    refine ⟨_, _, rfl, ?_, ?_⟩
    · cases ha : b.authority with
      | some a =>
        simp only [Option.isSome_some, if_true, Bool.or_true, Bool.and_eq_true, Bool.or_eq_true,
          List.isEmpty_iff, starts_oneslash]
        simp
        intro _; cases charOf t <;> rfl
      | none =>
        cases hs : b.scheme with
        | some x => simp; cases charOf t <;> rfl
        | none =>
          simp only [hs, ha] at hc hta
          obtain ⟨r, hr⟩ := starts_oneslash.1 (by simpa using hc)
          have h1 := hta (by intro e; cases e)
          have h2 := hslash r hr
          rw [Option.isSome_none] at h1
          rw [← h1] at h2
          simp [hr, colon_slash]
          rcases h2 with h2 | h2 <;> rw [h2]
    · intro hacc
      cases ha : b.authority with
      | some a =>
        simp only [ha] at hacc hta ht
        simp at hacc
        simp [ht]
        rw [hta]
        · rfl
        · intro _
          rcases hacc with h | h
          · exact .inl h
          · exact .inr (starts_oneslash.1 h)
      | none =>
        simp only [ha] at hacc hta ht
        have hta := hta (by intro e; cases e)
        cases hs : b.scheme with
        | some x => simp at ht hta; simp [ht, hta]
        | none =>
          simp only [hs, ha] at hc
          obtain ⟨r, hr⟩ := starts_oneslash.1 (by simpa using hc)
          obtain ⟨q, hq⟩ := pathn_slash (S := S) (op := .default) (auth := false) (s := r) (fun _ => hr ▸ hw)
          rw [← hr] at hq
          have h2 := hslash r hr
          simp at ht hta
          rw [hta] at ht ⊢
          simp only [List.flatten_cons, List.flatten_nil, List.append_nil, ne_eq, not_true_eq_false, false_or, Option.isSome_none, Bool.false_or, take1_slash]
          by_cases hone : pathn S .default false b.path = ['/']
          · rw [if_neg (by simp [hone, charOf, absChar, PathCharacteristic.is_absolute]), if_neg (by simp [hone])]
            exact pctn_some S hw
          · have : charOf (pathn S .default false b.path) = .commonAbsolute := by
              rcases h2 with h2 | h2
              · exact h2
              · exfalso
                rw [hq] at h2 hone
                cases q with
                | nil => exact hone rfl
                | cons c q => simp [charOf, absChar] at h2; split at h2 <;> cases h2
            rw [this, if_pos (by rfl), if_pos (.inr (.inr ⟨by rw [hr]; rfl, hone⟩))]
  · rw [if_neg hc]
    simp only [Bool.or_eq_true, not_or, isSome_ne, Decidable.not_not, starts_oneslash] at hc
    obtain ⟨⟨h1, h2⟩, h3⟩ := hc
    refine ⟨_, _, rfl, ?_, ?_⟩
    · simp only [bne_iff_ne, Ne, prior_some, h1, h2]
      simp
    · intro _
      simp only [h1, h2]
      rw [if_neg (by simp), if_neg (by simp [take1_slash, h3])]
      exact pctn_some S hw

theorem pathCheck_raw {S : Spec} {b : Builder} (hn : b.normalize = false) :
    ∃ acc abs, b.pathCheck S = some (acc, abs) ∧ (acc = true ↔ PathOk b) ∧
      (acc = true → b.writePath S abs = some (outPath S b)) := by
  unfold Builder.pathCheck Builder.writePath outPath PathOk
  simp only [hn, Bool.not_false, Bool.false_eq_true, if_false, if_true]
  refine ⟨_, _, rfl, ?_, fun _ => trivial⟩
  cases ha : b.authority with
  | some a =>
    simp [starts_oneslash]
    exact or_comm
  | none =>
    simp only [Option.isSome_none, Bool.false_eq_true, if_false]
    by_cases hc : (b.scheme.isSome || starts_with b.path ['/']) = true
    · rw [if_pos hc]
      have h2 : (!starts_with b.path ['/', '/']) = true ↔ ∀ r, b.path ≠ '/' :: '/' :: r := by
        rw [Bool.not_eq_true', Bool.eq_false_iff, Ne, starts_dslash]; simp
      rw [h2]
      simp
      intro _ hs
      rw [hs] at hc
      obtain ⟨r, hr⟩ := starts_oneslash.1 (by simpa using hc)
      rw [hr]
      exact colon_slash r
    · rw [if_neg hc]
      simp only [Bool.or_eq_true, not_or, isSome_ne, Decidable.not_not, starts_oneslash] at hc
      simp only [bne_iff_ne, Ne, prior_some]
      simp [hc.1]
      intro _ r hr
      exact hc.2 ⟨_, hr⟩

/-! ### `build` and `Display` -/

/-- Components of what is displayed. -/
def outParts (S : Spec) (b : Builder) : Parts :=
  if b.normalize = false then parts b
  else { normParts S .default (parts b) with path := outPath S b }

theorem validate_iff {S : Spec} {k : IriKind} {b : Builder} {acc abs : Bool}
    (hp : b.pathCheck S = some (acc, abs)) (hacc : acc = true ↔ PathOk b) :
    (Acceptable S k b → b.build S k = some (some ⟨b, abs⟩) ∧ acc = true) ∧
    (¬ Acceptable S k b → b.build S k = some none) := by
  unfold Builder.build Builder.validate
  rw [hp]
  have hk : b.kindOk k = true ↔ KindOk b k := by
    cases k <;> simp only [Builder.kindOk, KindOk, Bool.and_eq_true, Bool.not_eq_true', isSome_ne] <;>
      simp [Option.isSome_eq_false_iff]
  have hs : optOk validate_scheme b.scheme = true ↔
      ∀ x, b.scheme = some x → Rfc.scheme x := by
    cases b.scheme with
    | none => simp [optOk]
    | some s => simp [optOk, scheme_iff]
  have ha : optOk (AuthorityBuilder.ok S) b.authority = true ↔
      ∀ a, b.authority = some a → (authParts a).Valid S ∧ UserOk a.userinfo := by
    cases b.authority with
    | none => simp [optOk]
    | some s => simp [optOk, authority_ok]
  have hq : optOk (validate_query S) b.query = true ↔
      ∀ x, b.query = some x → Rfc.query S x := by
    cases b.query with
    | none => simp [optOk]
    | some s => simp [optOk, validate_query_iff]
  have hf : optOk (validate_fragment S) b.fragment = true ↔
      ∀ x, b.fragment = some x → Rfc.fragment S x := by
    cases b.fragment with
    | none => simp [optOk]
    | some s => simp [optOk, validate_fragment_iff]
  constructor
  · intro h
    have h1 := hk.2 h.kind
    have h2 := hs.2 h.scheme
    have h3 := ha.2 h.authority
    have h4 := hacc.2 ⟨h.withAuthority, h.withoutAuthority, h.withoutScheme⟩
    have h5 := hq.2 h.query
    have h6 := hf.2 h.fragment
    simp only [h1, h2, h3, h4, h5, h6]
    simp
  · intro h
    by_cases h1 : b.kindOk k = true
    · by_cases h2 : optOk validate_scheme b.scheme = true
      · by_cases h3 : optOk (AuthorityBuilder.ok S) b.authority = true
        · by_cases h4 : acc = true
          · by_cases h5 : optOk (validate_query S) b.query = true
            · by_cases h6 : optOk (validate_fragment S) b.fragment = true
              · exfalso
                obtain ⟨w1, w2, w3⟩ := hacc.1 h4
                exact h ⟨hk.1 h1, hs.1 h2, ha.1 h3, w1, w2, w3, hq.1 h5, hf.1 h6⟩
              · simp only [h1, h2, h3, h4, h5, h6]; simp
            · simp only [h1, h2, h3, h4, h5]; simp
          · simp only [h1, h2, h3, h4]; simp
        · simp only [h1, h2, h3]; simp
      · simp only [h1, h2]; simp
    · simp only [h1]; simp

theorem write_eq {S : Spec} {k : IriKind} {b : Builder} (h : Acceptable S k b) {abs : Bool}
    (hp : b.writePath S abs = some (outPath S b)) :
    b.write S abs = some (outParts S b).recompose := by
  unfold Builder.write
  simp only
  rw [hp]
  cases hn : b.normalize with
  | false =>
    have e1 : outPath S b = b.path := by unfold outPath; simp [hn]
    have e2 : outParts S b = parts b := by unfold outParts; simp [hn]
    rw [writeOpt_eq (o := b.query) (g := id) (by intros; rfl),
      writeOpt_eq (o := b.fragment) (g := id) (by intros; rfl), e1, e2]
    simp only [Bool.false_eq_true, if_false]
    unfold parts Parts.recompose
    simp only [Option.map_id_fun, id_eq]
    cases hs : b.scheme with
    | none =>
      cases ha : b.authority with
      | none => simp [optPre, optSuf]
      | some a =>
        simp [authority_write (h.authority a ha).1, optPre, optSuf]
    | some s =>
      cases ha : b.authority with
      | none => simp [optPre, optSuf]
      | some a =>
        simp [authority_write (h.authority a ha).1, optPre, optSuf]
  | true =>
    rw [writeOpt_eq (o := b.query) (g := wr S .default)
      (by intro a ha
          simp only [if_true]
          exact pctn_some S ((query_iff S _).1 (h.query a ha)).wf)]
    rw [writeOpt_eq (o := b.fragment) (g := wr S .default)
      (by intro a ha
          simp only [if_true]
          exact pctn_some S ((fragment_iff S _).1 (h.fragment a ha)).wf)]
    unfold outParts
    simp only [hn, Bool.true_eq_false, if_false, if_true]
    unfold normParts parts Parts.recompose
    simp only [NormalizationMode.case_pct, if_true]
    cases hs : b.scheme with
    | none =>
      cases ha : b.authority with
      | none => simp [optPre, optSuf]
      | some a =>
        simp [authority_write (h.authority a ha).1, optPre, optSuf, authn_eq (h.authority a ha).1]
    | some s =>
      cases ha : b.authority with
      | none => simp [optPre, optSuf, normalize_scheme]
      | some a =>
        simp [authority_write (h.authority a ha).1, optPre, optSuf, normalize_scheme, authn_eq (h.authority a ha).1]

theorem build_eq {S : Spec} {b : Builder} (hw : b.normalize = true → WF b.path) (k : IriKind) :
    (Acceptable S k b → ∃ B, b.build S k = some (some B) ∧ B.builder = b ∧
      B.display S = some (outParts S b).recompose) ∧
    (¬ Acceptable S k b → b.build S k = some none) := by
  have hp : ∃ acc abs, b.pathCheck S = some (acc, abs) ∧ (acc = true ↔ PathOk b) ∧
      (acc = true → b.writePath S abs = some (outPath S b)) := by
    cases hn : b.normalize with
    | false => exact pathCheck_raw hn
    | true => exact pathCheck_norm hn (hw hn)
  obtain ⟨acc, abs, h1, h2, h3⟩ := hp
  obtain ⟨h4, h5⟩ := validate_iff (k := k) h1 h2
  refine ⟨fun h => ?_, h5⟩
  obtain ⟨h6, h7⟩ := h4 h
  exact ⟨_, h6, rfl, write_eq h (h3 h7)⟩

theorem parts_valid {S : Spec} {k : IriKind} {b : Builder} (h : Acceptable S k b)
    (hp : Rfc.path S b.path) (hd : b.authority = none → ∀ r, b.path ≠ '/' :: '/' :: r) :
    (parts b).Valid S where
  scheme := h.scheme
  authority := by
    intro x hx
    cases ha : b.authority with
    | none => simp [parts, ha] at hx
    | some a =>
      simp only [parts, ha, Option.map_some, Option.some.injEq] at hx
      exact (authority_auth_parts S x).2 ⟨_, (h.authority a ha).1, hx⟩
  path := hp
  query := h.query
  fragment := h.fragment
  withAuthority := fun hne => h.withAuthority (by intro e; exact hne (by simp [parts, e]))
  withoutAuthority := fun e => hd (by simpa [parts] using e)
  withoutScheme := fun e1 e2 => h.withoutScheme e1 (by simpa [parts] using e2)

/-- What the grammar of the type asks of the components. -/
def PartsKind (p : Parts) : IriKind → Prop
  | .reference => True
  | .iri => p.scheme ≠ none
  | .absolute => p.scheme ≠ none ∧ p.fragment = none
  | .relative => p.scheme = none

/-- A valid reference that fits the type is generated by the type's grammar. -/
theorem grammar_of_parts {S : Spec} {k : IriKind} {p : Parts} (h : p.Valid S)
    (hk : PartsKind p k) : grammar S k p.recompose := by
  cases k with
  | reference => exact (IRI_reference_parts S _).2 ⟨p, h, rfl⟩
  | iri => exact (IRI_parts S _).2 ⟨p, h, hk, rfl⟩
  | absolute => exact (absolute_parts S _).2 ⟨p, h, hk.1, hk.2, rfl⟩
  | relative => exact (relative_parts S _).2 ⟨p, h, hk, rfl⟩

end Verif
