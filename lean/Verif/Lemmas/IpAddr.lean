import Verif.Spec.IpAddr
import Verif.Lemmas.Build

namespace Verif

open Verif.Abnf Verif.Rfc Verif.IpSpec Verif.BuildSpec

theorem hexVal_digitChar {n : Nat} (h : n < 16) : hexVal n.digitChar = n := by
  have : ∀ n : Fin 16, hexVal n.1.digitChar = n.1 := by decide +kernel
  exact this ⟨n, h⟩

theorem number_toDigits {b : Nat} (hb : 1 < b) (hb' : b ≤ 16) (n : Nat) : number b (Nat.toDigits b n) = n := by
  induction n using Nat.strongRecOn with
  | _ n ih =>
    rw [Nat.toDigits_eq_if hb]
    split
    · rename_i h
      simp [number, hexVal_digitChar (show n < 16 by omega)]
    · rename_i h
      have e := ih (n / b) (Nat.div_lt_self (by omega) hb)
      unfold number at e ⊢
      rw [List.foldl_append, e]
      have hm : n % b < b := Nat.mod_lt _ (by omega)
      simp only [List.foldl_cons, List.foldl_nil, hexVal_digitChar (show n % b < 16 by omega)]
      rw [Nat.mul_comm]; exact Nat.div_add_mod n b

theorem pieces_none {d : Char} {s : Str} (h : d ∉ s) : pieces d s = [s] := by
  induction s with
  | nil => rfl
  | cons c r ih =>
    simp only [List.mem_cons, not_or] at h
    rw [pieces, if_neg (fun e => h.1 e.symm), ih h.2]

theorem pieces_cons {d : Char} {s r : Str} (h : d ∉ s) : pieces d (s ++ d :: r) = s :: pieces d r := by
  induction s with
  | nil => simp [pieces]
  | cons c s ih =>
    simp only [List.mem_cons, not_or] at h
    rw [List.cons_append, pieces, if_neg (fun e => h.1 e.symm), ih h.2]

theorem lowerHex_no {n : Nat} {d : Char} (hd : isHex d = false) : d ∉ lowerHex n := by
  intro h
  have := toDigits16 (P := fun c => isHex c = true) (fun n hn => digitChar_hex hn) n d h
  rw [hd] at this
  cases this

theorem decimal_no {n : Nat} {d : Char} (hd : isDigit d = false) : d ∉ decimal n := by
  intro h
  rw [decimal_digits n d h] at hd
  cases hd

theorem v4_display (a b c d : Nat) : v4 (ipv4Display a b c d) = [a, b, c, d] := by
  unfold v4 ipv4Display
  rw [pieces_cons (decimal_no (by decide)), pieces_cons (decimal_no (by decide)),
    pieces_cons (decimal_no (by decide)), pieces_none (decimal_no (by decide))]
  simp only [List.map_cons, List.map_nil]
  unfold decimal
  simp [number_toDigits (b := 10) (by omega) (by omega)]

theorem lowerHex_ne (n : Nat) : lowerHex n ≠ [] := by
  have : 0 < (lowerHex n).length := Nat.length_toDigits_pos
  intro e; rw [e] at this; cases this

theorem group_hex (n : Nat) : group (lowerHex n) = [n] := by
  unfold group
  rw [if_neg (lowerHex_no (by decide))]
  unfold lowerHex
  rw [number_toDigits (by omega) (by omega)]

theorem subslice_ne {L : List UInt16} (h : L ≠ []) : v6Subslice L ≠ [] := by
  match L with
  | [g] => exact lowerHex_ne _
  | g :: h :: r => unfold v6Subslice; simp

theorem groups_subslice (L : List UInt16) : groups (v6Subslice L) = L.map UInt16.toNat := by
  match L with
  | [] => rfl
  | [g] =>
    unfold groups
    rw [if_neg (subslice_ne (by simp))]
    simp only [v6Subslice]
    rw [pieces_none (lowerHex_no (by decide))]
    simp [group_hex]
  | g :: h :: r =>
    have ih := groups_subslice (h :: r)
    unfold groups at ih ⊢
    rw [if_neg (subslice_ne (by simp))] at ih ⊢
    rw [show v6Subslice (g :: h :: r) = lowerHex g.toNat ++ ':' :: v6Subslice (h :: r) by rw [v6Subslice]; simp]
    rw [pieces_cons (lowerHex_no (by decide)), List.flatMap_cons, ih, group_hex]
    simp

theorem cut_plain {s r : Str} (h : ':' ∉ s) : cut (s ++ r) = (cut r).map fun (a, b) => (s ++ a, b) := by
  induction s with
  | nil => simp
  | cons c s ih =>
    simp only [List.mem_cons, not_or] at h
    rw [List.cons_append, cut, if_neg (fun e => h.1 e.1.symm), ih h.2]
    cases cut r <;> rfl

theorem subslice_head (L : List UInt16) : ∀ r, v6Subslice L ≠ ':' :: r := by
  have : ∀ (n : Nat) (x r : Str), lowerHex n ++ x ≠ ':' :: r := by
    intro n x r e
    have hn := lowerHex_ne n
    cases hl : lowerHex n with
    | nil => exact hn hl
    | cons c l =>
      rw [hl] at e
      have := (List.cons.inj e).1
      subst this
      exact lowerHex_no (n := n) (d := ':') (by decide) (by rw [hl]; simp)
  match L with
  | [] => intro r e; cases e
  | [g] => intro r e; exact this g.toNat [] r (by simpa [v6Subslice] using e)
  | g :: h :: r => intro q e; rw [v6Subslice] at e; exact this _ _ _ e; simp

theorem cut_colon {s : Str} (h : ∀ r, s ≠ ':' :: r) :
    cut (':' :: s) = (cut s).map fun (a, b) => (':' :: a, b) := by
  rw [cut, if_neg]
  rintro ⟨_, h2⟩
  cases s with
  | nil => cases h2
  | cons c r =>
    have : c = ':' := by simpa using h2
    subst this
    exact h r rfl

theorem cut_subslice (L : List UInt16) (r : Str) (hr : r = [] ∨ ∃ x, r = ':' :: ':' :: x) :
    cut (v6Subslice L ++ r) = (cut r).map fun (a, b) => (v6Subslice L ++ a, b) := by
  match L with
  | [] => simp [v6Subslice]
  | [g] => exact cut_plain (lowerHex_no (by decide))
  | g :: h :: t =>
    rw [show v6Subslice (g :: h :: t) = lowerHex g.toNat ++ ':' :: v6Subslice (h :: t) by rw [v6Subslice]; simp]
    rw [List.append_assoc, cut_plain (lowerHex_no (by decide)), List.cons_append, cut_colon, cut_subslice (h :: t) r hr]
    · cases cut r <;> simp
    · intro q e
      cases hs : v6Subslice (h :: t) with
      | nil => exact subslice_ne (by simp) hs
      | cons c l =>
        rw [hs] at e
        have := (List.cons.inj e).1
        subst this
        exact subslice_head (h :: t) l hs

/-- The run found by the standard library consists of zeros. -/
theorem v6Zeroes_zero (L pre : List UInt16) (cur lon : Nat × Nat)
    (h1 : cur.2 = 0 ∨ ∃ x, pre = x ++ List.replicate cur.2 0 ∧ x.length = cur.1)
    (h2 : ∃ x y, pre = x ++ List.replicate lon.2 0 ++ y ∧ x.length = lon.1) :
    ∃ x y, pre ++ L = x ++ List.replicate (v6Zeroes L pre.length cur lon).2 0 ++ y ∧
      x.length = (v6Zeroes L pre.length cur lon).1 := by
  induction L generalizing pre cur lon with
  | nil => simpa [v6Zeroes] using h2
  | cons g r ih =>
    unfold v6Zeroes
    have e : pre ++ g :: r = (pre ++ [g]) ++ r := by simp
    have el : pre.length + 1 = (pre ++ [g]).length := by simp
    have h2' : ∃ x y, pre ++ [g] = x ++ List.replicate lon.2 0 ++ y ∧ x.length = lon.1 := by
      obtain ⟨x, y, h3, h4⟩ := h2
      exact ⟨x, y ++ [g], by rw [h3]; simp, h4⟩
    split
    · next hg =>
      have hg' : g = 0 := by simpa using hg
      subst hg'
      simp only
      rw [e, el]
      have h1' : ∃ x, pre ++ [0] = x ++ List.replicate (cur.2 + 1) (0 : UInt16) ∧
          x.length = if cur.2 = 0 then pre.length else cur.1 := by
        rcases h1 with h | ⟨x, h3, h4⟩
        · exact ⟨pre, by rw [h]; rfl, by rw [if_pos h]⟩
        · by_cases h0 : cur.2 = 0
          · exact ⟨pre, by rw [h0]; rfl, by rw [if_pos h0]⟩
          · exact ⟨x, by rw [h3, List.replicate_succ']; simp, by rw [if_neg h0]; exact h4⟩
      apply ih
      · exact .inr h1'
      · split
        · obtain ⟨x, h3, h4⟩ := h1'
          exact ⟨x, [], by simpa using h3, h4⟩
        · exact h2'
    · rw [e, el]
      exact ih _ _ _ (.inl rfl) h2'

/-- **The text of an IPv6 address denotes the address.** -/
theorem v6_display (a : Ipv6Addr) : v6 a.display = a.segments.map UInt16.toNat := by
  obtain ⟨segs, hl⟩ := a
  unfold Ipv6Addr.display
  simp only
  split
  · rename_i g h
    unfold v6
    have e : cut ([':', ':', 'f', 'f', 'f', 'f', ':'] ++
        ipv4Display (g.toNat / 256) (g.toNat % 256) (h.toNat / 256) (h.toNat % 256)) =
        some ([], ['f', 'f', 'f', 'f'] ++ ':' ::
        ipv4Display (g.toNat / 256) (g.toNat % 256) (h.toNat / 256) (h.toNat % 256)) := by
      simp [cut]
    rw [e]
    simp only
    have hd : ':' ∉ ipv4Display (g.toNat / 256) (g.toNat % 256) (h.toNat / 256) (h.toNat % 256) := by
      unfold ipv4Display
      have := @decimal_no
      simp only [List.mem_append, List.mem_cons, not_or]
      exact ⟨decimal_no (by decide), by decide, decimal_no (by decide), by decide, decimal_no (by decide),
        by decide, decimal_no (by decide)⟩
    have hdot : '.' ∈ ipv4Display (g.toNat / 256) (g.toNat % 256) (h.toNat / 256) (h.toNat % 256) := by
      unfold ipv4Display; simp
    have e2 : groups (['f', 'f', 'f', 'f'] ++ ':' ::
        ipv4Display (g.toNat / 256) (g.toNat % 256) (h.toNat / 256) (h.toNat % 256)) =
        [0xffff, g.toNat, h.toNat] := by
      unfold groups
      rw [if_neg (by simp), pieces_cons (by decide), pieces_none hd]
      simp only [List.flatMap_cons, List.flatMap_nil, List.append_nil]
      have e3 : group ['f', 'f', 'f', 'f'] = [0xffff] := by decide
      rw [e3]
      unfold group
      rw [if_pos hdot, v4_display]
      simp only [List.cons_append, List.nil_append, List.cons.injEq, and_true, true_and]
      omega
    rw [e2]
    rfl
  · obtain ⟨x, y, h1, h2⟩ := v6Zeroes_zero segs [] (0, 0) (0, 0) (.inl rfl) ⟨[], [], rfl, rfl⟩
    simp only [List.nil_append, List.length_nil] at h1 h2
    generalize v6Zeroes segs 0 (0, 0) (0, 0) = z at h1 h2
    split
    · have et : segs.take z.1 = x := by rw [h1, ← h2]; simp
      have ed : segs.drop (z.1 + z.2) = y := by
        rw [h1, ← h2, ← List.drop_drop]; simp
      rw [et, ed]
      unfold v6
      rw [cut_subslice _ _ (.inr ⟨_, rfl⟩)]
      have : cut (':' :: ':' :: v6Subslice y) = some ([], v6Subslice y) := by simp [cut]
      rw [this]
      simp only [Option.map_some, List.append_nil, groups_subslice, List.length_map]
      have hlen : x.length + z.2 + y.length = 8 := by
        rw [← hl, h1]; simp; omega
      have : 8 - (x.length + y.length) = z.2 := by omega
      rw [this, h1]
      simp
    · unfold v6
      have := cut_subslice segs [] (.inl rfl)
      rw [List.append_nil] at this
      rw [this]
      simp only [cut, Option.map_none, groups_subslice]

end Verif
