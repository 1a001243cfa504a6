import Verif.Model.DecoderBuffer
import Verif.Props.TemplateFragments
import Verif.Props.UriText

/-!
# C81: the fixed buffers of the decoder

The decoder of `{+v}` and `{#v}` keeps bytes in two arrays of fixed size and copies them around.  It is
proved that for every value (however it is cut into pieces) and every callback no index and no subtraction
in it is out of range and no stale byte is handed on: the program with buffers behaves like the program
that keeps a text.
-/

namespace Verif.DecBuf

open Verif.MaybePct Verif.Rfc6570 Verif.Rfc Verif.Abnf

/-- Complete triplets and the beginning of one. -/
def Shape (e : Str) : Prop := ∃ g bs t, e = g ++ t ∧ Trip g bs ∧ Tail t

/-- The bytes of a text of ASCII characters. -/
abbrev raw (e : Str) : List Nat := e.map Char.toNat

/-- The array starts with the bytes of the text. -/
def Holds (l : List Nat) (e : Str) : Prop := ∃ r, l = raw e ++ r

/-- The buffers hold the text. -/
structure Rel (d : DecoderBuffer) (e : Str) : Prop where
  size : d.encoded.length = 12
  dsize : d.decoded.length = 4
  len : d.len_encoded = e.length
  shape : Shape e
  encoded : Holds d.encoded e
  decoded : ∃ bs r, decodedBytes e = some bs ∧ d.decoded = bs ++ r ∧ bs.length = e.length / 3

theorem Holds.length {l : List Nat} {e : Str} (h : Holds l e) : e.length ≤ l.length := by
  obtain ⟨r, rfl⟩ := h; simp

theorem Rel.le {d : DecoderBuffer} {e : Str} (h : Rel d e) : e.length ≤ 12 := by
  have := h.encoded.length; rw [h.size] at this; exact this

theorem rel_nil : Rel {} [] :=
  ⟨rfl, rfl, rfl, ⟨[], [], [], rfl, .nil, .inl rfl⟩, ⟨_, rfl⟩, ⟨[], _, rfl, rfl, rfl⟩⟩

theorem Shape.asc {e : Str} (h : Shape e) : ∀ c ∈ e, c.toNat < 128 := by
  obtain ⟨g, bs, t, rfl, hg, ht⟩ := h
  exact Asc.append hg.asc ht.asc

theorem utf8s_raw {e : Str} (h : ∀ c ∈ e, c.toNat < 128) : utf8s e = raw e := by
  induction e with
  | nil => rfl
  | cons c e ih =>
    show utf8 c ++ utf8s e = _
    rw [ih fun d hd => h d (.tail _ hd), utf8_ascii (h c (.head _))]
    rfl

theorem from_utf8_raw {e : Str} (h : ∀ c ∈ e, c.toNat < 128) : from_utf8 (raw e) = some e := by
  rw [← utf8s_raw h]
  exact (from_utf8_iff _ _).2 rfl

theorem Holds.range {l : List Nat} {e : Str} (h : Holds l e) : range l 0 e.length = some (raw e) := by
  obtain ⟨r, rfl⟩ := h
  unfold DecBuf.range
  rw [if_pos ⟨Nat.zero_le _, by simp⟩]
  simp

/-! ## The counter and the arrays -/

theorem write_and_pop_all {dbg : Bool} {d : DecoderBuffer} {e : Str} (h : Rel d e) {buf : List Nat}
    (hb : 12 ≤ buf.length) :
    ∃ buf', write_and_pop dbg d buf e.length = some ({}, buf') ∧ buf'.length = buf.length ∧ Holds buf' e := by
  have h1 := h.le
  obtain ⟨r, hr⟩ := h.encoded
  have h2 : copyTo buf d.encoded e.length = some (raw e ++ buf.drop e.length) := by
    unfold copyTo
    rw [h.encoded.range]
    unfold DecBuf.range
    rw [if_pos ⟨Nat.zero_le _, by omega⟩]
    rfl
  refine ⟨raw e ++ buf.drop e.length, ?_, ?_, ⟨_, rfl⟩⟩
  · unfold write_and_pop u8sub
    rw [h.len, if_pos (Nat.le_refl _)]
    simp [h2]
  · simp; omega

theorem Holds.set {l : List Nat} {e : Str} (h : Holds l e) (c : Char) (hl : e.length < l.length) :
    ∃ l', set l e.length c.toNat = some l' ∧ l'.length = l.length ∧ Holds l' (e ++ [c]) := by
  obtain ⟨r, rfl⟩ := h
  cases r with
  | nil => simp at hl
  | cons x r =>
    refine ⟨raw e ++ c.toNat :: r, ?_, by simp, ⟨r, by simp⟩⟩
    unfold DecBuf.set
    rw [if_pos hl]
    congr 1
    rw [List.set_append_right _ _ (by simp)]
    simp

theorem Shape.split {e : Str} (h : Shape e) : ∃ g bs t, e = g ++ t ∧ Trip g bs ∧ Tail t ∧
    e.length = 3 * bs.length + t.length ∧ e.length / 3 = bs.length ∧ e.length % 3 = t.length := by
  obtain ⟨g, bs, t, rfl, hg, ht⟩ := h
  have h1 := trip_length hg
  have h2 : t.length < 3 := by
    rcases ht with rfl | rfl | ⟨_, _, rfl⟩ <;> simp
  refine ⟨g, bs, t, rfl, hg, ht, ?_, ?_, ?_⟩ <;> simp only [List.length_append, h1] <;> omega

theorem decodedBytes_tail {g t : Str} {bs : List Nat} (hg : Trip g bs) (ht : Tail t) :
    decodedBytes (g ++ t) = some bs := by
  induction hg with
  | nil =>
    rcases ht with rfl | rfl | ⟨_, _, rfl⟩ <;> rfl
  | @cons h l g bs h1 h2 _ ih =>
    have := trip_decoded (.cons h1 h2 .nil)
    simp only [decodedBytes, Option.bind_eq_some_iff] at this
    obtain ⟨v, hv, hv2⟩ := this
    simp at hv2
    subst hv2
    show decodedBytes ('%' :: h :: l :: (g ++ t)) = _
    simp only [decodedBytes, hv, ih, Option.bind_some, Option.map_some]

theorem push_pct {dbg : Bool} {d : DecoderBuffer} {e : Str} (h : Rel d e) (h3 : e.length % 3 = 0) :
    if 12 ≤ e.length then push_single_encoded_byte dbg d 37 = none
    else ∃ d', push_single_encoded_byte dbg d 37 = some d' ∧ Rel d' (e ++ ['%']) := by
  split
  · next hl =>
    unfold push_single_encoded_byte DecBuf.set
    rw [h.len, h.size]
    cases dbg <;> simp [Nat.not_lt.2 hl]
  · next hl =>
    obtain ⟨l', s1, s2, s3⟩ := h.encoded.set '%' (by rw [h.size]; omega)
    obtain ⟨g, bs, t, rfl, hg, ht, l1, l2, l3⟩ := h.shape.split
    have ht0 : t = [] := List.length_eq_zero_iff.1 (by omega)
    subst ht0
    rw [List.append_nil] at *
    obtain ⟨bs', r, d1, d2, d3⟩ := h.decoded
    refine ⟨{ d with encoded := l', len_encoded := g.length + 1 }, ?_, ?_⟩
    · unfold push_single_encoded_byte
      rw [h.len]
      have : (g.length + 1) % 3 ≠ 0 := by omega
      have e1 : DecBuf.set d.encoded g.length 37 = some l' := s1
      have e2 : (dbg && !decide (g.length < 12)) = false := by simp; intro _; omega
      simp [e1, this]
      omega
    · refine ⟨by rw [s2, h.size], h.dsize, by simp, ⟨g, bs, ['%'], rfl, hg, .inr (.inl rfl)⟩, s3, bs, r, decodedBytes_tail hg (.inr (.inl rfl)), ?_, by simp; omega⟩
      rw [trip_decoded hg] at d1
      cases d1
      exact d2

theorem push_hex1 {dbg : Bool} {d : DecoderBuffer} {e : Str} (h : Rel d e) (h3 : e.length % 3 = 1) {c : Char}
    (hc : isHex c = true) :
    ∃ d', push_single_encoded_byte dbg d (c.toNat % 256) = some d' ∧ Rel d' (e ++ [c]) := by
  have hle := h.le
  have hx : c.toNat % 256 = c.toNat := Nat.mod_eq_of_lt (by have := isHex_lt hc; omega)
  rw [hx]
  obtain ⟨l', s1, s2, s3⟩ := h.encoded.set c (by rw [h.size]; omega)
  obtain ⟨g, bs, t, rfl, hg, ht, l1, l2, l3⟩ := h.shape.split
  have ht0 : t = ['%'] := by
    rcases ht with rfl | rfl | ⟨_, _, rfl⟩
    · rw [l3] at h3; simp at h3
    · rfl
    · rw [l3] at h3; simp at h3
  subst ht0
  have htail : Tail ['%', c] := .inr (.inr ⟨c, by rw [HEXDIG_eq]; exact hc, rfl⟩)
  obtain ⟨bs', r, d1, d2, d3⟩ := h.decoded
  refine ⟨{ d with encoded := l', len_encoded := (g ++ ['%']).length + 1 }, ?_, ?_⟩
  · unfold push_single_encoded_byte
    rw [h.len]
    have : ((g ++ ['%']).length + 1) % 3 ≠ 0 := by omega
    have e2 : (dbg && !decide ((g ++ ['%']).length < 12)) = false := by
      simp only [Bool.and_eq_false_iff, Bool.not_eq_false', decide_eq_true_eq]; right; omega
    simp only [s1, e2, if_neg this]
    rfl
  · have e3 : g ++ ['%'] ++ [c] = g ++ ['%', c] := by simp
    refine ⟨by rw [s2, h.size], h.dsize, by simp, ⟨g, bs, _, e3, hg, htail⟩, s3, bs, r, ?_, ?_, ?_⟩
    · rw [e3]; exact decodedBytes_tail hg htail
    · rw [decodedBytes_tail hg (.inr (.inl rfl))] at d1
      cases d1
      exact d2
    · simp at l1 l2 ⊢; omega

theorem push_hex2 {dbg : Bool} {d : DecoderBuffer} {e : Str} (h : Rel d e) (h3 : e.length % 3 = 2) {c : Char}
    (hc : isHex c = true) :
    ∃ d', push_single_encoded_byte dbg d (c.toNat % 256) = some d' ∧ Rel d' (e ++ [c]) ∧
      ∃ bs, Trip (e ++ [c]) bs ∧ bs ≠ [] := by
  have hle := h.le
  have hx : c.toNat % 256 = c.toNat := Nat.mod_eq_of_lt (by have := isHex_lt hc; omega)
  rw [hx]
  obtain ⟨l', s1, s2, s3⟩ := h.encoded.set c (by rw [h.size]; omega)
  obtain ⟨g, bs, t, rfl, hg, ht, l1, l2, l3⟩ := h.shape.split
  obtain ⟨x, hx', rfl⟩ : ∃ x, HEXDIG x = true ∧ t = ['%', x] := by
    rcases ht with rfl | rfl | h
    · rw [l3] at h3; simp at h3
    · rw [l3] at h3; simp at h3
    · exact h
  have hcH : HEXDIG c = true := by rw [HEXDIG_eq]; exact hc
  have ht1 : Trip ['%', x, c] [hexVal x * 16 + hexVal c] := .cons hx' hcH .nil
  have e3 : g ++ ['%', x] ++ [c] = g ++ ['%', x, c] := by simp
  have htr := trip_append hg ht1
  have hv : hexdigits_to_byte x.toNat c.toNat = some (hexVal x * 16 + hexVal c) := by
    have := trip_decoded ht1
    simp only [decodedBytes, Option.bind_eq_some_iff] at this
    obtain ⟨v, hv, hv2⟩ := this
    simp at hv2
    rw [hv, hv2]
  obtain ⟨bs', r, d1, d2, d3⟩ := h.decoded
  rw [decodedBytes_tail hg ht] at d1
  cases d1
  have hlen : (g ++ ['%', x]).length = 3 * bs.length + 2 := by simp at l1 ⊢; omega
  have hbl : bs.length < 4 := by omega
  cases r with
  | nil =>
    have := h.dsize
    rw [d2] at this
    simp at this; omega
  | cons y r =>
  refine ⟨⟨l', bs ++ (hexVal x * 16 + hexVal c) :: r, (g ++ ['%', x]).length + 1⟩, ?_, ?_, ?_⟩
  · unfold push_single_encoded_byte
    rw [h.len]
    have h0 : ((g ++ ['%', x]).length + 1) % 3 = 0 := by omega
    have e2 : (dbg && !decide ((g ++ ['%', x]).length < 12)) = false := by
      simp only [Bool.and_eq_false_iff, Bool.not_eq_false', decide_eq_true_eq]; right; omega
    have e4 : get l' ((g ++ ['%', x]).length - 1) = some x.toNat := by
      obtain ⟨r', rfl⟩ := s3
      unfold get
      simp [List.getElem?_append]
    have e5 : (dbg && !(isHexdigit x.toNat && isHexdigit c.toNat)) = false := by
      rw [HEXDIG_eq] at hx'
      have a : isHexdigit x.toNat = true := by simpa [isHexdigit, isHex] using hx'
      have b : isHexdigit c.toNat = true := by simpa [isHexdigit, isHex] using hc
      simp [a, b]
    have e6 : DecBuf.set d.decoded (((g ++ ['%', x]).length + 1) / 3 - 1) (hexVal x * 16 + hexVal c) =
        some (bs ++ (hexVal x * 16 + hexVal c) :: r) := by
      have : ((g ++ ['%', x]).length + 1) / 3 - 1 = bs.length := by omega
      rw [this, d2]
      unfold DecBuf.set
      rw [if_pos (by simp), List.set_append_right _ _ (Nat.le_refl _)]
      simp
    simp only [s1, e2, h0, if_pos]
    simp only [bind, Option.bind, pure, e4, e5, hv, e6]
    rfl
  · rw [e3] at s3 ⊢
    refine ⟨by rw [s2, h.size], ?_, by simp, ⟨_, _, [], by simp, htr, .inl rfl⟩, s3, _, r, trip_decoded htr, by simp, ?_⟩
    · have := h.dsize
      rw [d2] at this
      simpa using this
    · simp at l1 ⊢; omega
  · rw [e3]
    exact ⟨_, htr, by simp⟩

/-- What `push_encoded` returns, at the two levels. -/
def PushRel (buf : List Nat) : Push → PushResult → Prop
  | .needMore, .needMoreBytes => True
  | .decoded s, .decoded n => n = s.length ∧ Holds buf s ∧ Shape s
  | .undecodable s, .undecodable n => n = s.length ∧ Holds buf s ∧ Shape s
  | _, _ => False

theorem trip_shape {g : Str} {bs : List Nat} (h : Trip g bs) : Shape g := ⟨g, bs, [], by simp, h, .inl rfl⟩

theorem write_and_pop_some {dbg : Bool} {d : DecoderBuffer} {a b : Str} {as bs : List Nat} (h : Rel d (a ++ b))
    (ha : Trip a as) (hb : Trip b bs) {buf : List Nat} (hbuf : 12 ≤ buf.length) :
    ∃ d' buf', write_and_pop dbg d buf a.length = some (d', buf') ∧ buf'.length = buf.length ∧ Holds buf' a ∧
      Rel d' b := by
  cases bs with
  | nil =>
    cases hb
    rw [List.append_nil] at h
    obtain ⟨buf', h1, h2, h3⟩ := write_and_pop_all (dbg := dbg) h hbuf
    exact ⟨_, buf', h1, h2, h3, rel_nil⟩
  | cons x bs =>
    have hle := h.le
    have la := trip_length ha
    have lb := trip_length hb
    simp only [List.length_append, List.length_cons] at hle lb
    have lab : (a ++ b).length = 3 * as.length + 3 * (bs.length + 1) := by simp only [List.length_append, la, lb]
    obtain ⟨r, hr⟩ := h.encoded
    obtain ⟨xs, r', d1, d2, d3⟩ := h.decoded
    rw [trip_decoded (trip_append ha hb)] at d1
    cases d1
    have h2 : copyTo buf d.encoded a.length = some (raw a ++ buf.drop a.length) := by
      unfold copyTo
      have : Holds d.encoded a := ⟨raw b ++ r, by rw [hr]; simp⟩
      rw [this.range]
      unfold DecBuf.range
      rw [if_pos ⟨Nat.zero_le _, by omega⟩]
      rfl
    have h3 : copyWithin d.encoded a.length (a ++ b).length = some (raw b ++ d.encoded.drop b.length) := by
      unfold copyWithin DecBuf.range
      have := h.size
      rw [if_pos ⟨by simp, by simp only [List.length_append]; omega⟩, hr]
      have e0 : (a ++ b).length = (raw (a ++ b)).length := by simp
      rw [e0, List.take_left]
      simp
    have ea : a.length / 3 = as.length := by omega
    have eb : (a ++ b).length / 3 = as.length + (bs.length + 1) := by omega
    have h4 : copyWithin d.decoded (a.length / 3) ((a ++ b).length / 3) =
        some ((x :: bs) ++ d.decoded.drop (bs.length + 1)) := by
      unfold copyWithin DecBuf.range
      have := h.dsize
      rw [d2] at this
      rw [ea, eb, if_pos ⟨by omega, by rw [d2]; simp⟩, d2]
      have e0 : as.length + (bs.length + 1) = (as ++ x :: bs).length := by simp
      rw [e0, List.take_left]
      simp
    refine ⟨⟨raw b ++ d.encoded.drop b.length, (x :: bs) ++ d.decoded.drop (bs.length + 1), b.length⟩,
      raw a ++ buf.drop a.length, ?_, ?_, ⟨_, rfl⟩, ?_⟩
    · unfold write_and_pop u8sub
      rw [h.len, if_pos (by simp)]
      have e1 : (a ++ b).length - a.length = b.length := by simp
      have e2 : b.length ≠ 0 := by omega
      simp only [bind, Option.bind, pure, e1, h2, if_neg e2, h3, h4]
    · simp; omega
    · refine ⟨?_, ?_, rfl, trip_shape hb, ⟨_, rfl⟩, _, _, trip_decoded hb, rfl, ?_⟩
      · have := h.size
        simp; omega
      · have := h.dsize
        have hx : bs.length < 4 := by omega
        simp; omega
      · simp; omega

theorem utf8Step_err {b : Nat} {r : List Nat} {v : Nat} (h : utf8Step b r = .error (some v)) :
    1 ≤ v ∧ v ≤ r.length + 1 ∧ v ≤ 3 := by
  unfold utf8Step at h
  repeat' split at h
  all_goals first | (cases h; done) | (cases h; simp; done) | (cases h; simp; omega)

theorem utf8Step_ok {b : Nat} {r r' : List Nat} (h : utf8Step b r = .ok r') : r'.length ≤ r.length := by
  unfold utf8Step at h
  repeat' split at h
  all_goals first | (cases h; done) | (cases h; simp; done) | (cases h; simp; omega)

theorem utf8Check_upTo {fuel n : Nat} {bs : List Nat} {u : Nat} {l : Option Nat}
    (h : utf8Check fuel n bs = .err u l) : n ≤ u := by
  induction fuel generalizing n bs with
  | zero =>
    cases bs with
    | nil => cases h
    | cons b r => cases h; exact Nat.le_refl _
  | succ fuel ih =>
    cases bs with
    | nil => cases h
    | cons b r =>
      simp only [utf8Check] at h
      split at h
      · cases h; exact Nat.le_refl _
      · exact Nat.le_trans (by omega) (ih h)

theorem utf8Check_len {bs : List Nat} {v : Nat} (h : utf8Check 4 0 bs = .err 0 (some v)) :
    1 ≤ v ∧ v ≤ bs.length ∧ v ≤ 3 := by
  cases bs with
  | nil => cases h
  | cons b r =>
    simp only [utf8Check] at h
    split at h
    · next e =>
      cases h
      exact utf8Step_err e
    · next r' e =>
      have := utf8Check_upTo h
      have := utf8Step_ok e
      omega

theorem take_trip {g : Str} {bs : List Nat} (h : Trip g bs) (v : Nat) (hv : v ≤ bs.length) :
    ∃ as bs', Trip (g.take (v * 3)) as ∧ Trip (g.drop (v * 3)) bs' ∧ (g.take (v * 3)).length = v * 3 := by
  rw [← List.take_append_drop v bs] at h
  obtain ⟨a, b, rfl, ha, hb⟩ := trip_split h
  have : a.length = v * 3 := by rw [trip_length ha]; simp; omega
  refine ⟨bs.take v, bs.drop v, ?_, ?_, ?_⟩
  · rw [← this, List.take_left]; exact ha
  · rw [← this, List.drop_left]; exact hb
  · simp; omega

/-- The check after a complete triplet, at the two levels. -/
def CheckRel (buf : List Nat) (k : Nat) : Option (Option (Str × Push)) → Option (Option Pushed) → Prop
  | none, r => r = none
  | some none, r => r = some none
  | some (some (e', res)), r => ∃ p, r = some (some p) ∧ p.consumed = k ∧ Rel p.self e' ∧
      p.buf.length = buf.length ∧ PushRel p.buf res p.result

theorem tryDecode_rel {dbg : Bool} {d : DecoderBuffer} {e : Str} {bs : List Nat} (h : Rel d e) (ht : Trip e bs)
    (hne : bs ≠ []) {buf : List Nat} (hbuf : 12 ≤ buf.length) (k : Nat) :
    CheckRel buf k (checkTriplets e) (tryDecode dbg d buf k) := by
  have hl := trip_length ht
  have hle := h.le
  obtain ⟨xs, r, d1, d2, d3⟩ := h.decoded
  rw [trip_decoded ht] at d1
  cases d1
  have hr : DecBuf.range d.decoded 0 (d.len_encoded / 3) = some bs := by
    unfold DecBuf.range
    rw [h.len, ← d3, d2, if_pos ⟨Nat.zero_le _, by simp⟩]
    simp
  have hbl : 0 < bs.length := List.length_pos_iff.2 hne
  unfold checkTriplets tryDecode
  rw [trip_decoded ht]
  simp only [hr, bind, Option.bind, pure]
  cases hu : utf8Check 4 0 bs with
  | valid =>
    simp only
    rw [if_neg (by rw [h.len]; simp only [not_or]; exact ⟨hne, by omega⟩)]
    obtain ⟨buf', w1, w2, w3⟩ := write_and_pop_all (dbg := dbg) h hbuf
    rw [h.len, w1]
    exact ⟨_, rfl, rfl, rel_nil, w2, rfl, w3, trip_shape ht⟩
  | err u l =>
    simp only
    by_cases h0 : u = 0
    · subst h0
      simp only [ne_eq, not_true_eq_false, if_false]
      cases l with
      | none => rfl
      | some v =>
        obtain ⟨v1, v2, v3⟩ := utf8Check_len hu
        obtain ⟨as, bs', ta, tb, tl⟩ := take_trip ht v v2
        have m1 : v % 256 = v := Nat.mod_eq_of_lt (by omega)
        have m2 : v * 3 % 256 = v * 3 := Nat.mod_eq_of_lt (by omega)
        have m3 : (dbg && decide (256 ≤ v * 3)) = false := by simp; intro _; omega
        have h' := h
        rw [← List.take_append_drop (v * 3) e] at h'
        obtain ⟨d', buf', w1, w2, w3, w4⟩ := write_and_pop_some (dbg := dbg) h' ta tb hbuf
        rw [tl] at w1
        have m4 : ¬ v = 0 := by omega
        simp only [m1, m2, m3, if_neg m4, w1]
        exact ⟨_, rfl, rfl, w4, w2, by rw [tl], w3, trip_shape ta⟩
    · simp only [ne_eq, h0, not_false_eq_true, if_true]
      rfl

/-- `push_encoded`, at the two levels. -/
def LoopRel (buf : List Nat) : Option (Str × Nat × Push) → Option Pushed → Prop
  | none, r => r = none
  | some (e', k', res), r => ∃ p, r = some p ∧ p.consumed = k' ∧ Rel p.self e' ∧
      p.buf.length = buf.length ∧ PushRel p.buf res p.result

theorem giveUp_rel {dbg : Bool} {d : DecoderBuffer} {e : Str} (h : Rel d e) {buf : List Nat}
    (hbuf : 12 ≤ buf.length) (k : Nat) :
    LoopRel buf (some ([], k - 1, .undecodable e)) (giveUp dbg d buf k) := by
  obtain ⟨buf', w1, w2, w3⟩ := write_and_pop_all (dbg := dbg) h hbuf
  unfold giveUp
  rw [h.len]
  simp only [w1]
  exact ⟨_, rfl, rfl, rel_nil, w2, rfl, w3, h.shape⟩

theorem pushLoop_rel {dbg : Bool} {d : DecoderBuffer} {e : Str} (h : Rel d e) {buf : List Nat}
    (hbuf : 12 ≤ buf.length) (k : Nat) (s : Str) :
    LoopRel buf (MaybePct.pushLoop e k s) (pushLoop dbg d buf (e.length % 3) k s) := by
  induction s generalizing d e k with
  | nil => exact ⟨_, rfl, rfl, h, rfl, trivial⟩
  | cons c r ih =>
    simp only [MaybePct.pushLoop, pushLoop]
    by_cases h0 : e.length % 3 = 0
    · rw [if_pos h0, if_pos h0]
      by_cases hc : c = '%'
      · subst hc
        simp only [ne_eq, not_true_eq_false, if_false]
        have hp := push_pct (dbg := dbg) h h0
        by_cases hl : 12 ≤ e.length
        · rw [if_pos hl] at hp ⊢
          rw [hp]
          rfl
        · rw [if_neg hl] at hp ⊢
          obtain ⟨d', p1, p2⟩ := hp
          rw [p1]
          have := ih p2 (k + ('%' : Char).utf8Size)
          rw [show (e ++ ['%']).length % 3 = 1 by simp; omega] at this
          exact this
      · simp only [ne_eq, hc, not_false_eq_true, if_true]
        exact giveUp_rel h hbuf _
    · rw [if_neg h0, if_neg h0]
      cases hc : isHex c with
      | false =>
        simp only [Bool.not_false, if_true]
        exact giveUp_rel h hbuf _
      | true =>
        simp only [Bool.not_true, Bool.false_eq_true, if_false]
        by_cases h1 : e.length % 3 = 1
        · obtain ⟨d', p1, p2⟩ := push_hex1 (dbg := dbg) h h1 hc
          rw [if_pos h1, p1]
          simp only [Option.bind, if_pos h1]
          have := ih p2 (k + c.utf8Size)
          rw [show (e ++ [c]).length % 3 = 2 by simp; omega] at this
          exact this
        · have h2 : e.length % 3 = 2 := by omega
          obtain ⟨d', p1, p2, bs, p3, p4⟩ := push_hex2 (dbg := dbg) h h2 hc
          rw [if_neg h1, p1]
          simp only [Option.bind, if_neg h1]
          rw [if_neg (by simp [h2])]
          have ht := tryDecode_rel (dbg := dbg) p2 p3 p4 hbuf (k + c.utf8Size)
          cases hct : checkTriplets (e ++ [c]) with
          | none =>
            rw [hct] at ht
            have ht : tryDecode dbg d' buf (k + c.utf8Size) = none := ht
            rw [ht]
            rfl
          | some x =>
            cases x with
            | none =>
              rw [hct] at ht
              have ht : tryDecode dbg d' buf (k + c.utf8Size) = some none := ht
              rw [ht]
              have := ih p2 (k + c.utf8Size)
              rw [show (e ++ [c]).length % 3 = 0 by simp; omega] at this
              exact this
            | some x =>
              rw [hct] at ht
              obtain ⟨p, q1, q2, q3, q4, q5⟩ := ht
              rw [q1]
              exact ⟨p, rfl, q2, q3, q4, q5⟩

theorem push_encoded_rel {dbg : Bool} {d : DecoderBuffer} {e : Str} (h : Rel d e) {buf : List Nat}
    (hbuf : 12 ≤ buf.length) (s : Str) :
    LoopRel buf (MaybePct.pushLoop e 0 s) (push_encoded dbg d buf s) := by
  unfold push_encoded
  rw [if_neg (by simp [hbuf]), h.len]
  exact pushLoop_rel h hbuf 0 s

theorem flush_rel {dbg : Bool} {d : DecoderBuffer} {e : Str} (h : Rel d e) {buf : List Nat}
    (hbuf : 12 ≤ buf.length) :
    ∃ d' buf', flush dbg d buf = some (d', buf', if e.isEmpty then none else some e.length) ∧
      buf'.length = buf.length ∧ Rel d' [] ∧ Holds buf' e := by
  unfold flush
  rw [h.len]
  cases e with
  | nil => exact ⟨d, buf, rfl, rfl, h, ⟨buf, rfl⟩⟩
  | cons c e =>
    obtain ⟨buf', w1, w2, w3⟩ := write_and_pop_all (dbg := dbg) h hbuf
    refine ⟨_, buf', ?_, w2, rel_nil, w3⟩
    rw [if_neg (by simp)]
    simp only [w1]
    simp [bind, Option.bind, pure]

/-! ## Calling the callback -/

variable {σ : Type}

theorem splitAtB_ascii (a b : Str) (h : ∀ c ∈ a, c.toNat < 128) : splitAtB (a ++ b) a.length = some (a, b) := by
  have := splitAtB_append a b
  rwa [blen_ascii h] at this

theorem output_rel (dbg : Bool) (f : Callback σ) (st : σ) {buf : List Nat} {e : Str} (hb : Holds buf e)
    (hs : Shape e) :
    output_as_undecodable dbg f st buf e.length = MaybePct.output_as_undecodable f st e := by
  have ha := hs.asc
  obtain ⟨g, bs, t, rfl, hg, ht, l1, l2, l3⟩ := hs.split
  have lg := trip_length hg
  have ec : (g ++ t).length - (g ++ t).length % 3 = g.length := by omega
  unfold output_as_undecodable MaybePct.output_as_undecodable
  simp only [hb.range, from_utf8_raw ha, bind, Option.bind, pure]
  rw [ec]
  have e1 : sliceTo (g ++ t) g.length = some g := by
    unfold sliceTo
    rw [splitAtB_ascii g t hg.asc]
    rfl
  simp only [e1, List.take_left, List.drop_left]
  rw [l3]
  cases f st (.invalid g) with
  | none => rfl
  | some o =>
    obtain ⟨st', b⟩ := o
    rcases ht with rfl | rfl | ⟨x, hx, rfl⟩
    · cases b <;> rfl
    · cases b with
      | true => simp [andThen]
      | false =>
        simp only [andThen]
        cases f st' .stray with
        | none => rfl
        | some o =>
          obtain ⟨st', b⟩ := o
          cases b <;> rfl
    · have e2 : slice (g ++ ['%', x]) (g.length + 1) (g ++ ['%', x]).length = some [x] := by
        unfold slice sliceTo sliceFrom
        have : splitAtB (g ++ ['%', x]) (g ++ ['%', x]).length = some (g ++ ['%', x], []) := by
          have := splitAtB_ascii (g ++ ['%', x]) [] ha
          rwa [List.append_nil] at this
        rw [if_pos (by simp), this]
        have h2 := splitAtB_ascii (g ++ ['%']) [x] (hg.asc.append (by intro c hc; simp at hc; subst hc; decide))
        have e3 : (g ++ ['%']).length = g.length + 1 := by simp
        rw [e3, List.append_assoc] at h2
        simp only [Option.map_some, Option.bind_some]
        have : g ++ ['%', x] = g ++ (['%'] ++ [x]) := rfl
        rw [this, h2]
        rfl
      cases b with
      | true => simp [andThen]
      | false =>
        simp only [andThen]
        cases hf : f st' .stray with
        | none => rfl
        | some o =>
          obtain ⟨st', b⟩ := o
          cases b with
          | true => simp
          | false =>
            simp only [e2]
            cases dbg <;> simp

theorem process_rel (dbg : Bool) (f : Callback σ) (st : σ) {buf : List Nat} {res : Push} {r : PushResult}
    (h : PushRel buf res r) : processResult dbg f st buf r = processPush f st res := by
  cases res with
  | needMore => cases r <;> first | rfl | exact h.elim
  | decoded s =>
    cases r with
    | decoded n =>
      obtain ⟨rfl, h1, h2⟩ := h
      simp only [processResult, processPush, h1.range, from_utf8_raw h2.asc, bind, Option.bind]
    | _ => exact h.elim
  | undecodable s =>
    cases r with
    | undecodable n =>
      obtain ⟨rfl, h1, h2⟩ := h
      exact output_rel dbg f st h1 h2
    | _ => exact h.elim

/-- One round of `write_str`, at the two levels. -/
def RoundRel (n : Nat) : Option ((σ × Bool) × Str × Str) → Option (WState σ) → Prop
  | none, r => r = none
  | some (o, e', rest'), r => ∃ w, r = some w ∧ w.st = o.1 ∧ w.stop = o.2 ∧
      (o.2 = false → w.rest = rest' ∧ Rel w.decoder e' ∧ w.buf.length = n)

theorem plain_rel (dbg : Bool) (f : Callback σ) (st : σ) {d : DecoderBuffer} {e : Str} (h : Rel d e)
    {buf : List Nat} (hbuf : 12 ≤ buf.length) (rest : Str) :
    RoundRel buf.length (((flushRest f st e rest).bind (plainPrefix dbg f)).map fun (o, rest) => (o, [], rest))
      (plainRound dbg f st d buf rest) := by
  obtain ⟨d', buf', f1, f2, f3, f4⟩ := flush_rel (dbg := dbg) h hbuf
  unfold plainRound flushRest
  simp only [f1, bind, Option.bind, pure]
  have hplain : ∀ (st : σ) (rest : Str), RoundRel buf.length
      ((plainPrefix dbg f ((st, false), rest)).map fun (o, rest) => (o, ([] : Str), rest))
      (if (dbg && ((find_split rest '%').getD (rest, [])).1.isEmpty) = true then none
       else match f st (.noPct ((find_split rest '%').getD (rest, [])).1) with
        | none => none
        | some o => some ⟨o.1, o.2, d', buf', ((find_split rest '%').getD (rest, [])).2⟩) := by
    intro st rest
    simp only [plainPrefix, Bool.false_eq_true, if_false]
    cases (dbg && ((find_split rest '%').getD (rest, [])).1.isEmpty) with
    | true => rfl
    | false =>
      simp only [Bool.false_eq_true, if_false]
      cases f st (.noPct ((find_split rest '%').getD (rest, [])).1) with
      | none => rfl
      | some o => exact ⟨_, rfl, rfl, rfl, fun _ => ⟨rfl, f3, f2⟩⟩
  cases he : e.isEmpty with
  | true =>
    simp only [if_true]
    have := hplain st rest
    cases hd : (dbg && ((find_split rest '%').getD (rest, [])).1.isEmpty) <;>
      cases hf : f st (.noPct ((find_split rest '%').getD (rest, [])).1) <;>
      simp only [hd, hf] at this ⊢ <;> exact this
  | false =>
    simp only [Bool.false_eq_true, if_false]
    rw [output_rel dbg f st f4 h.shape]
    cases MaybePct.output_as_undecodable f st e with
    | none => rfl
    | some o =>
      obtain ⟨st', b⟩ := o
      cases b with
      | true => exact ⟨_, rfl, rfl, rfl, fun h => by cases h⟩
      | false =>
        simp only [Bool.false_eq_true, if_false]
        cases sliceFrom rest e.length with
        | none => rfl
        | some rest =>
          have := hplain st' rest
          cases hd : (dbg && ((find_split rest '%').getD (rest, [])).1.isEmpty) <;>
            cases hf : f st' (.noPct ((find_split rest '%').getD (rest, [])).1) <;>
            simp only [hd, hf] at this ⊢ <;> exact this

theorem round_rel (dbg : Bool) (f : Callback σ) (st : σ) {d : DecoderBuffer} {e : Str} (h : Rel d e)
    {buf : List Nat} (hbuf : 12 ≤ buf.length) (rest : Str) :
    RoundRel buf.length (writeStep dbg f st e rest) (round dbg f st d buf rest) := by
  have hp := push_encoded_rel (dbg := dbg) h hbuf rest
  unfold writeStep round
  cases hl : MaybePct.pushLoop e 0 rest with
  | none =>
    rw [hl] at hp
    have hp : push_encoded dbg d buf rest = none := hp
    rw [hp]
    rfl
  | some x =>
    obtain ⟨e', k, res⟩ := x
    rw [hl] at hp
    obtain ⟨p, p1, p2, p3, p4, p5⟩ := hp
    rw [p1]
    simp only [bind, Option.bind, pure, p2]
    by_cases hk : k = 0
    · rw [if_pos hk, if_pos hk]
      have := plain_rel dbg f st p3 (buf := p.buf) (by omega) rest
      rw [p4] at this
      exact this
    · rw [if_neg hk, if_neg hk, process_rel dbg f st p5]
      cases processPush f st res with
      | none => rfl
      | some o =>
        obtain ⟨st', b⟩ := o
        cases b with
        | true => exact ⟨_, rfl, rfl, rfl, fun h => by cases h⟩
        | false =>
          simp only [Bool.false_eq_true, if_false]
          cases sliceFrom rest k with
          | none => rfl
          | some rest => exact ⟨_, rfl, rfl, rfl, fun _ => ⟨rfl, p3, p4⟩⟩

/-- `write_str`, at the two levels. -/
def StrRel (n : Nat) : Option ((σ × Bool) × Str) → Option (WState σ) → Prop
  | none, r => r = none
  | some (o, e'), r => ∃ w, r = some w ∧ w.st = o.1 ∧ w.stop = o.2 ∧
      (o.2 = false → Rel w.decoder e' ∧ w.buf.length = n)

theorem write_str_rel (dbg : Bool) (f : Callback σ) (fuel : Nat) (st : σ) {d : DecoderBuffer} {e : Str}
    (h : Rel d e) {buf : List Nat} (hbuf : 12 ≤ buf.length) (rest : Str) :
    StrRel buf.length (writeStr dbg f fuel st e rest) (write_str dbg f fuel st d buf rest) := by
  induction fuel generalizing st d e buf rest with
  | zero => rfl
  | succ fuel ih =>
    unfold writeStr write_str
    cases hr : rest.isEmpty with
    | true => exact ⟨_, rfl, rfl, rfl, fun _ => ⟨h, rfl⟩⟩
    | false =>
      simp only [Bool.false_eq_true, if_false]
      have := round_rel dbg f st h hbuf rest
      cases hw : writeStep dbg f st e rest with
      | none =>
        rw [hw] at this
        have this : round dbg f st d buf rest = none := this
        rw [this]
        rfl
      | some x =>
        obtain ⟨⟨st', b⟩, e', rest'⟩ := x
        rw [hw] at this
        obtain ⟨w, w1, w2, w3, w4⟩ := this
        rw [w1]
        simp only [Option.bind] at w2 w3 w4 ⊢
        cases b with
        | true =>
          rw [w3]
          exact ⟨w, rfl, w2, w3, fun h => by cases h⟩
        | false =>
          obtain ⟨w5, w6, w7⟩ := w4 rfl
          rw [w3, w2, w5]
          have := ih st' w6 (buf := w.buf) (by omega) rest'
          rw [w7] at this
          exact this

theorem write_all_rel (dbg : Bool) (f : Callback σ) (st : σ) {d : DecoderBuffer} {e : Str}
    (h : Rel d e) {buf : List Nat} (hbuf : 12 ≤ buf.length) (v : List Str) :
    StrRel buf.length (writeAll dbg f st e v) (write_all dbg f st d buf v) := by
  induction v generalizing st d e buf with
  | nil => exact ⟨_, rfl, rfl, rfl, fun _ => ⟨h, rfl⟩⟩
  | cons s r ih =>
    unfold writeAll write_all
    have := write_str_rel dbg f (2 * s.length + 2) st h hbuf s
    cases hw : writeStr dbg f (2 * s.length + 2) st e s with
    | none =>
      rw [hw] at this
      have this : write_str dbg f (2 * s.length + 2) st d buf s = none := this
      rw [this]
      rfl
    | some x =>
      obtain ⟨⟨st', b⟩, e'⟩ := x
      rw [hw] at this
      obtain ⟨w, w1, w2, w3, w4⟩ := this
      rw [w1]
      simp only [Option.bind] at w2 w3 w4 ⊢
      cases b with
      | true =>
        rw [w3]
        exact ⟨w, rfl, w2, w3, fun h => by cases h⟩
      | false =>
        obtain ⟨w6, w7⟩ := w4 rfl
        rw [w3, w2]
        have := ih st' w6 (buf := w.buf) (by omega)
        rw [w7] at this
        exact this

theorem Holds.take {l : List Nat} {a b : Str} (h : Holds l (a ++ b)) : Holds l a := by
  obtain ⟨r, rfl⟩ := h
  exact ⟨raw b ++ r, by simp⟩

theorem finish_rel (f : Callback σ) (st : σ) {buf : List Nat} {e : Str} (hb : Holds buf e) (hs : Shape e) :
    finish f st buf e.length = (MaybePct.output_as_undecodable f st e).map Prod.fst := by
  obtain ⟨g, bs, t, rfl, hg, ht, l1, l2, l3⟩ := hs.split
  have lg := trip_length hg
  have ec : (g ++ t).length - (g ++ t).length % 3 = g.length := by omega
  unfold finish MaybePct.output_as_undecodable
  simp only [bind, Option.bind, pure]
  rw [ec]
  simp only [hb.take.range, from_utf8_raw hg.asc, List.take_left, List.drop_left]
  rw [l3]
  cases f st (.invalid g) with
  | none => rfl
  | some o =>
    obtain ⟨st', b⟩ := o
    rcases ht with rfl | rfl | ⟨x, hx, rfl⟩
    · cases b <;> rfl
    · cases b with
      | true => simp [andThen]
      | false =>
        simp only [andThen]
        cases hf : f st' .stray with
        | none => simp [hf]
        | some o =>
          obtain ⟨st', b⟩ := o
          cases b <;> simp [hf]
    · have e2 : DecBuf.range buf (g.length + 1) (g.length + 2) = some (raw [x]) := by
        obtain ⟨r, rfl⟩ := hb
        unfold DecBuf.range
        rw [if_pos ⟨by omega, by simp⟩]
        have e4 : raw (g ++ ['%', x]) ++ r = (raw (g ++ ['%']) ++ raw [x]) ++ r := by simp
        have e5 : (raw (g ++ ['%'])).length = g.length + 1 := by simp
        have e6 : (raw (g ++ ['%']) ++ raw [x]).length = g.length + 2 := by simp
        rw [e4, ← e6, List.take_left, ← e5, List.drop_left]
      have e3 : from_utf8 (raw [x]) = some [x] := from_utf8_raw (by
        intro c hc; simp at hc; subst hc; exact hexdig_ascii hx)
      cases b with
      | true => simp [andThen]
      | false =>
        simp only [andThen]
        cases hf : f st' .stray with
        | none => simp [hf]
        | some o =>
          obtain ⟨st', b⟩ := o
          cases b with
          | true => simp [hf]
          | false =>
            simp only [hf]
            simp only [List.length_cons, List.length_nil, e2, e3]
            simp only [Bool.false_eq_true, if_false, List.isEmpty, Nat.reduceAdd, Nat.reduceLT, if_true,
              List.drop_succ_cons, List.drop_zero]
            cases f st' (.noPct [x]) <;> rfl

theorem process_eq (dbg : Bool) (f : Callback σ) (st : σ) (v : List Str) :
    process_percent_encoded_best_effort dbg f st v =
      MaybePct.process_percent_encoded_best_effort dbg f st v := by
  unfold process_percent_encoded_best_effort MaybePct.process_percent_encoded_best_effort
  have := write_all_rel dbg f st rel_nil (buf := List.replicate 12 0) (by simp) v
  cases hw : writeAll dbg f st [] v with
  | none =>
    rw [hw] at this
    have this : write_all dbg f st {} (List.replicate 12 0) v = none := this
    rw [this]
    rfl
  | some x =>
    obtain ⟨⟨st', b⟩, e'⟩ := x
    rw [hw] at this
    obtain ⟨w, w1, w2, w3, w4⟩ := this
    rw [w1]
    simp only [bind, Option.bind, pure] at w2 w3 w4 ⊢
    cases b with
    | true => rw [w3, w2]; rfl
    | false =>
      obtain ⟨w6, w7⟩ := w4 rfl
      rw [w3, w2]
      simp only [Bool.false_eq_true, if_false]
      obtain ⟨d', buf', f1, f2, f3, f4⟩ := flush_rel (dbg := dbg) w6 (buf := w.buf) (by rw [w7]; simp)
      rw [f1]
      simp only
      cases he : e'.isEmpty with
      | true => rfl
      | false => exact finish_rel f st' f4 w6.shape

/-- C81: whatever the callback does (its state `σ`, stopping early, panicking), a value in pieces `v` ends
in the same state whether the decoder keeps its two arrays of fixed size, or an unbounded text; a panic of
the one is a panic of the other. -/
theorem _root_.Verif.C81_buffers (dbg : Bool) (f : Callback σ) (st : σ) (v : List Str) :
    process_percent_encoded_best_effort dbg f st v =
      MaybePct.process_percent_encoded_best_effort dbg f st v := process_eq dbg f st v

/-- C81: what the decoder with buffers hands on is exactly the fragments that the specification gives for
the value, and it panics exactly where the specification says so: never because of a buffer. -/
theorem _root_.Verif.C81_fragments (dbg : Bool) (d : List Str) (fs : List Frag) (p : Bool)
    (h : Fragments dbg [] [] d fs p) :
    process_percent_encoded_best_effort dbg (fun (seen : List Frag) a => some (seen ++ [a], false)) [] d =
      if p then none else some fs := by
  have run : ∀ (fs seen : List Frag),
      runK (fun (seen : List Frag) a => some (seen ++ [a], false)) seen fs (fin_ p) =
      if p then none else some (seen ++ fs) := by
    intro fs
    induction fs with
    | nil => intro seen; simp [runK, fin_]
    | cons a fs ih =>
      intro seen
      rw [runK]
      simp only [Option.bind_some, Bool.false_eq_true, if_false]
      rw [ih]
      simp
  rw [process_eq, process_exact h, run]
  simp

/-- C81: the text written for a list item, key or value under `{+v}` and `{#v}`. -/
theorem _root_.Verif.C81_escape (S : Spec) (dbg : Bool) (d : List Str) (fs : List Frag) (p : Bool)
    (h : Fragments dbg [] [] d fs p) :
    DecBuf.escape_write S dbg d = (if p then none else some (fs.flatMap (fragText S))) ∧
    DecBuf.escape_write S dbg d = Tpl.escape_write S dbg d true := by
  have e : DecBuf.escape_write S dbg d = Tpl.escape_write S dbg d true := by
    unfold DecBuf.escape_write Tpl.escape_write
    rw [process_eq, if_pos rfl]
  exact ⟨by rw [e, Verif.escape_write_exact S h], e⟩

/-- C81: the text written for a string under `{+v:n}` and `{#v:n}`. -/
theorem _root_.Verif.C81_escape_prefix (S : Spec) (dbg : Bool) (d : List Str) (n : Nat) (fs : List Frag) (p : Bool)
    (h : Fragments dbg [] [] d fs p) :
    DecBuf.escape_write_with_maxlen S dbg d (some n) = prefixText S dbg n fs p ∧
    DecBuf.escape_write_with_maxlen S dbg d (some n) = Tpl.escape_write_with_maxlen S dbg d true (some n) := by
  have e : DecBuf.escape_write_with_maxlen S dbg d (some n) = Tpl.escape_write_with_maxlen S dbg d true (some n) := by
    unfold DecBuf.escape_write_with_maxlen Tpl.escape_write_with_maxlen
    simp only [process_eq, if_true]
  exact ⟨by rw [e, Verif.escape_prefix_exact S n h], e⟩

/-- C81: the text written for a string under `{+v}` and `{#v}`. -/
theorem _root_.Verif.C81_escape_string (S : Spec) (dbg : Bool) (d : List Str) (fs : List Frag) (p : Bool)
    (h : Fragments dbg [] [] d fs p) :
    DecBuf.escape_write_with_maxlen S dbg d none =
      (if p || fs.contains (.noPct []) then none else some (fs.flatMap (fragText S))) ∧
    DecBuf.escape_write_with_maxlen S dbg d none = Tpl.escape_write_with_maxlen S dbg d true none := by
  have e : DecBuf.escape_write_with_maxlen S dbg d none = Tpl.escape_write_with_maxlen S dbg d true none := by
    unfold DecBuf.escape_write_with_maxlen Tpl.escape_write_with_maxlen
    simp only [process_eq, if_true]
  exact ⟨by rw [e, Verif.escape_unbounded_exact S h], e⟩

/-- A value cut inside a triplet and inside a character; the decoder's buffer holds bytes across the cuts. -/
example : DecBuf.escape_write .uri true [chars! "a%E3%", chars! "81%8", chars! "2%F0%9F%98%80%FF"] =
    some (chars! "a%E3%81%82%F0%9F%98%80%FF") := by decide +kernel

/-- Broken bytes: what was copied down in the arrays is seen afterwards. -/
example : process_percent_encoded_best_effort true (fun (seen : List Frag) a => some (seen ++ [a], false)) []
    [chars! "%E3%81%E4%BD%A0x"] =
      some [.invalid (chars! "%E3%81"), .char (chars! "%E4%BD%A0"), .noPct (chars! "x")] := by
  decide +kernel

example : process_percent_encoded_best_effort true (fun (seen : List Frag) a => some (seen ++ [a], false)) []
    [chars! "%E2%41b"] = some [.invalid (chars! "%E2"), .noPct (chars! "b")] :=
  Verif.C81_fragments true _ _ _ (Verif.fragments_lost true)

end Verif.DecBuf
