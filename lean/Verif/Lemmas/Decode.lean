import Verif.Model.Decode
import Verif.Spec.Decode
import Verif.Lemmas.Pct

/-!
# Percent-decoding of bytes
-/

namespace Verif

theorem isHexByte_eq : isHexByte = hexByte := rfl

theorem decToks_nil : decToks [] = [] := by simp [decToks]

theorem decToks_plain {b : Nat} (h : b ≠ 0x25) (r : List Nat) : decToks (b :: r) = .plain b :: decToks r := by
  match r with
  | [] => simp [decToks, h]
  | [_] => simp [decToks, h]
  | _ :: _ :: _ =>
    rw [decToks]
    · simp [h]
    · intro _ _ _ e; exact absurd e h

theorem decToks_triplet {h l : Nat} (hh : hexByte h = true) (hl : hexByte l = true) (r : List Nat) :
    decToks (0x25 :: h :: l :: r) = .triplet (hexByteVal h * 16 + hexByteVal l) :: decToks r := by
  rw [decToks]; simp [hh, hl]

theorem decToks_stray {r : List Nat} (h : startsWithHexB r = false) :
    decToks (0x25 :: r) = .stray :: decToks r := by
  match r with
  | [] => simp [decToks]
  | [_] => simp [decToks]
  | a :: b :: r =>
    have : (hexByte a && hexByte b) = false := h
    rw [decToks]; simp only [this, Bool.false_eq_true, if_false]

theorem decToks_plains {a : List Nat} (h : ∀ b ∈ a, b ≠ 0x25) (r : List Nat) :
    decToks (a ++ r) = a.map .plain ++ decToks r := by
  induction a with
  | nil => rfl
  | cons b a ih =>
    rw [List.cons_append, decToks_plain (h b (by simp)), ih fun x hx => h x (by simp [hx])]; rfl

theorem hexdigitsB_eq {h l : Nat} (hh : hexByte h = true) (hl : hexByte l = true) :
    hexdigits_to_byte h l = some (hexByteVal h * 16 + hexByteVal l) := by
  unfold hexdigits_to_byte hexByteVal
  simp [hexByte] at hh hl
  simp only
  repeat' split
  all_goals
    first
    | omega
    | rw [u8add_eq (by omega), Option.bind_some, u8add_eq (by omega), Option.bind_some, u8add_eq (by omega)]
      congr 1
      omega

/-- What stripping two hexadecimal digits does. -/
theorem strip_cases (s : List Nat) :
    (startsWithHexB s = false ∧ stripDecodeXdigits2B s = some (none, s)) ∨
    (∃ h l r, s = h :: l :: r ∧ hexByte h = true ∧ hexByte l = true ∧
      stripDecodeXdigits2B s = some (some (hexByteVal h * 16 + hexByteVal l), r)) := by
  unfold stripDecodeXdigits2B
  match s with
  | [] => left; simp [startsWithHexB]
  | [_] => left; simp [startsWithHexB]
  | h :: l :: r =>
    by_cases e : (isHexByte h && isHexByte l) = true
    · right
      have e' := e
      rw [isHexByte_eq, Bool.and_eq_true] at e'
      refine ⟨h, l, r, rfl, e'.1, e'.2, ?_⟩
      simp only [startsWithHexB, e, if_true, takeXdigits2B, Option.map_some]
      rw [hexdigitsB_eq e'.1 e'.2]; rfl
    · left
      simp only [Bool.not_eq_true] at e
      simp [startsWithHexB, e]

theorem position_cases (s : List Nat) :
    (Bytes.position (· == 0x25) s = none ∧ ∀ b ∈ s, b ≠ 0x25) ∨
    (∃ a r, s = a ++ 0x25 :: r ∧ (∀ b ∈ a, b ≠ 0x25) ∧ Bytes.position (· == 0x25) s = some a.length) := by
  induction s with
  | nil => left; simp [Bytes.position]
  | cons b s ih =>
    by_cases e : b = 0x25
    · right; refine ⟨[], s, by simp [e], by simp, by simp [Bytes.position, e]⟩
    · rcases ih with ⟨h1, h2⟩ | ⟨a, r, h1, h2, h3⟩
      · left
        refine ⟨by simp [Bytes.position, e, h1], ?_⟩
        intro x hx
        rcases List.mem_cons.1 hx with rfl | hx
        · exact e
        · exact h2 x hx
      · right
        refine ⟨b :: a, r, by rw [h1]; rfl, ?_, by simp [Bytes.position, e, h3]⟩
        intro x hx
        rcases List.mem_cons.1 hx with rfl | hx
        · exact e
        · exact h2 x hx

theorem plains_no_triplet {a : List Nat} {b : Nat} : DecTok.triplet b ∉ a.map DecTok.plain := by
  simp

theorem plains_no_stray {a : List Nat} : DecTok.stray ∉ a.map DecTok.plain := by
  simp

theorem decToks_no_pct {s : List Nat} (h : ∀ b ∈ s, b ≠ 0x25) : decToks s = s.map .plain := by
  have := decToks_plains h []
  simpa [decToks_nil] using this

theorem plains_bytes (a : List Nat) : (a.map DecTok.plain).flatMap DecTok.bytes = a := by
  induction a with
  | nil => rfl
  | cons b r ih => rw [List.map_cons, List.flatMap_cons, ih]; rfl

/-- The search for the first triplet. -/
theorem tryDecodeGo_spec (fuel : Nat) (s : List Nat) (hf : s.length < fuel) :
    (tryDecodeGo fuel s = some none ∧ ∀ b, DecTok.triplet b ∉ decToks s) ∨
    (∃ pre seg h l rest, tryDecodeGo fuel s = some (some (seg.length, hexByteVal h * 16 + hexByteVal l, rest)) ∧
      s = pre ++ (seg ++ 0x25 :: h :: l :: rest) ∧ (∀ b ∈ seg, b ≠ 0x25) ∧ hexByte h = true ∧
      hexByte l = true ∧ (∀ b, DecTok.triplet b ∉ decToks pre) ∧
      (pre = [] ∨ DecTok.stray ∈ decToks s) ∧
      decToks s = decToks pre ++ (seg.map .plain ++ .triplet (hexByteVal h * 16 + hexByteVal l) :: decToks rest)
      ∧ percentDecode pre = pre ∧ (pre = [] ∨ ∃ x, pre = x ++ [0x25])) := by
  induction fuel generalizing s with
  | zero => omega
  | succ fuel ih =>
    unfold tryDecodeGo
    by_cases hs : s.isEmpty = true
    · rw [if_pos hs]
      left
      refine ⟨rfl, ?_⟩
      rw [List.isEmpty_iff.1 hs, decToks_nil]; simp
    · rw [if_neg hs]
      rcases position_cases s with ⟨h1, h2⟩ | ⟨a, r, h1, h2, h3⟩
      · rw [h1]
        left
        refine ⟨rfl, ?_⟩
        rw [decToks_no_pct h2]
        exact fun b => plains_no_triplet
      · rw [h3]
        have hd : s.drop (a.length + 1) = r := by
          rw [h1, List.append_cons, List.drop_left' (by simp)]
        simp only [hd]
        rcases strip_cases r with ⟨hx, hr⟩ | ⟨h, l, r', rfl, hh, hl, hr⟩
        · rw [hr]
          simp only
          have hst := decToks_stray hx
          have hs' : decToks s = a.map .plain ++ .stray :: decToks r := by
            rw [h1, decToks_plains h2, hst]
          have hlen : r.length < fuel := by rw [h1] at hf; simp at hf; omega
          rcases ih r hlen with ⟨h4, h5⟩ | ⟨pre, seg, h, l, rest, h4, h5, h6, h7, h8, h9, h10, h11, h12, h13⟩
          · left
            refine ⟨h4, ?_⟩
            rw [hs']
            intro b
            simp only [List.mem_append, List.mem_cons, reduceCtorEq, false_or, not_or]
            exact ⟨plains_no_triplet, h5 b⟩
          · right
            have hpre : startsWithHexB pre = false := by
              match pre, h5, hx with
              | [], _, _ => rfl
              | [_], _, _ => rfl
              | x :: y :: _, h5, hx => rw [h5] at hx; exact hx
            have hst' := decToks_stray hpre
            have hpd : decToks (a ++ 0x25 :: pre) = a.map .plain ++ .stray :: decToks pre := by
              rw [decToks_plains h2, hst']
            refine ⟨a ++ 0x25 :: pre, seg, h, l, rest, h4, ?_, h6, h7, h8, ?_, .inr ?_, ?_, ?_, .inr ?_⟩
            · rw [h1, h5]; simp
            · rw [hpd]
              intro b
              simp only [List.mem_append, List.mem_cons, reduceCtorEq, false_or, not_or]
              exact ⟨plains_no_triplet, h9 b⟩
            · rw [hs']; simp
            · rw [hs', hpd, h11]; simp
            · unfold percentDecode at *
              rw [hpd, List.flatMap_append, plains_bytes, List.flatMap_cons, h12]; rfl
            · rcases h13 with rfl | ⟨x, rfl⟩
              · exact ⟨a, rfl⟩
              · exact ⟨a ++ 0x25 :: x, by simp⟩
        · right
          rw [hr]
          refine ⟨[], a, h, l, r', rfl, by simpa using h1, h2, hh, hl, by simp [decToks_nil], .inl rfl, ?_, rfl, .inl rfl⟩
          rw [h1, decToks_plains h2, decToks_triplet hh hl, decToks_nil]; rfl

/-- The bytes `into_bytes` produces from the first triplet on: strays are dropped. -/
def dropStray : DecTok → List Nat
  | .plain b => [b]
  | .triplet b => [b]
  | .stray => []

theorem intoBytesGo_spec (fuel : Nat) (s : List Nat) (hf : s.length < fuel) :
    intoBytesGo fuel s = some ((decToks s).flatMap dropStray) := by
  induction fuel generalizing s with
  | zero => omega
  | succ fuel ih =>
    have hp : ∀ a : List Nat, (a.map DecTok.plain).flatMap dropStray = a := by
      intro a
      induction a with
      | nil => rfl
      | cons b r ih => rw [List.map_cons, List.flatMap_cons, ih]; rfl
    unfold intoBytesGo
    by_cases hs : s.isEmpty = true
    · rw [if_pos hs, List.isEmpty_iff.1 hs, decToks_nil]; rfl
    · rw [if_neg hs]
      rcases position_cases s with ⟨h1, h2⟩ | ⟨a, r, h1, h2, h3⟩
      · rw [h1, decToks_no_pct h2]
        simp only [hp]
      · rw [h3]
        have hd : s.drop (a.length + 1) = r := by
          rw [h1, List.append_cons, List.drop_left' (by simp)]
        have ht : s.take a.length = a := by rw [h1, List.take_left' rfl]
        simp only [hd, ht]
        rcases strip_cases r with ⟨hx, hr⟩ | ⟨h, l, r', rfl, hh, hl, hr⟩
        · rw [hr]
          have hlen : r.length < fuel := by rw [h1] at hf; simp at hf; omega
          simp only [Option.bind_eq_bind, Option.bind_some, ih r hlen]
          rw [h1, decToks_plains h2, decToks_stray hx, List.flatMap_append, hp, List.flatMap_cons]
          rfl
        · rw [hr]
          have hlen : r'.length < fuel := by rw [h1] at hf; simp at hf; omega
          simp only [Option.bind_eq_bind, Option.bind_some, ih r' hlen]
          rw [h1, decToks_plains h2, decToks_triplet hh hl, List.flatMap_append, hp, List.flatMap_cons]
          rfl

theorem dropStray_eq {ts : List DecTok} (h : DecTok.stray ∉ ts) :
    ts.flatMap dropStray = ts.flatMap DecTok.bytes := by
  induction ts with
  | nil => rfl
  | cons t ts ih =>
    simp at h
    rw [List.flatMap_cons, List.flatMap_cons, ih h.2]
    cases t with
    | plain b => rfl
    | triplet b => rfl
    | stray => exact absurd rfl h.1

theorem dropStray_length (ts : List DecTok) :
    (ts.flatMap dropStray).length ≤ (ts.flatMap DecTok.bytes).length ∧
    (DecTok.stray ∈ ts → (ts.flatMap dropStray).length < (ts.flatMap DecTok.bytes).length) := by
  induction ts with
  | nil => simp
  | cons t ts ih =>
    rw [List.flatMap_cons, List.flatMap_cons, List.length_append, List.length_append]
    cases t with
    | plain b =>
      have e1 : (dropStray (.plain b)).length = 1 := rfl
      have e2 : (DecTok.bytes (.plain b)).length = 1 := rfl
      refine ⟨by omega, fun h => ?_⟩
      have := ih.2 (by simpa using h)
      omega
    | triplet b =>
      have e1 : (dropStray (.triplet b)).length = 1 := rfl
      have e2 : (DecTok.bytes (.triplet b)).length = 1 := rfl
      refine ⟨by omega, fun h => ?_⟩
      have := ih.2 (by simpa using h)
      omega
    | stray =>
      have e1 : (dropStray .stray).length = 0 := rfl
      have e2 : (DecTok.bytes .stray).length = 1 := rfl
      exact ⟨by omega, fun h => by omega⟩

/-! ## UTF-8 -/

theorem decodeOne_utf8 (c : Char) (r : List Nat) : decodeOne (utf8 c ++ r) = some (c, r) := by
  have hlt := char_lt c
  have hsu := char_not_surrogate c
  unfold utf8
  simp only
  split
  · simp only [List.cons_append, List.nil_append, decodeOne]
    rw [if_pos (by assumption), ofNat_toNat]
  split
  · simp only [List.cons_append, List.nil_append, decodeOne]
    rw [if_neg (by omega), if_pos (by simp; omega)]
    rw [if_pos (by simp; omega)]
    rw [show (192 + c.toNat / 64 - 192) * 64 + (128 + c.toNat % 64 - 128) = c.toNat by omega, ofNat_toNat]
  split
  · simp only [List.cons_append, List.nil_append, decodeOne]
    rw [if_neg (by omega), if_neg (by simp <;> omega), if_pos (by simp <;> omega)]
    rw [show (224 + c.toNat / 4096 - 224) * 4096 + (128 + c.toNat / 64 % 64 - 128) * 64 +
      (128 + c.toNat % 64 - 128) = c.toNat by omega, ofNat_toNat]
    rw [if_pos (by simp; omega)]
  · simp only [List.cons_append, List.nil_append, decodeOne]
    rw [if_neg (by omega), if_neg (by simp <;> omega), if_neg (by simp <;> omega), if_pos (by simp <;> omega)]
    rw [show (240 + c.toNat / 262144 - 240) * 262144 + (128 + c.toNat / 4096 % 64 - 128) * 4096 +
      (128 + c.toNat / 64 % 64 - 128) * 64 + (128 + c.toNat % 64 - 128) = c.toNat by omega, ofNat_toNat]
    rw [if_pos (by simp; omega)]

theorem toNat_ofNat {v : Nat} (h : v < 0xD800 ∨ (0xE000 ≤ v ∧ v < 0x110000)) : (Char.ofNat v).toNat = v :=
  utf8_ofNat (by simp [Nat.isValidChar]; omega)

theorem decodeOne_some {bs : List Nat} {c : Char} {r : List Nat} (h : decodeOne bs = some (c, r)) :
    bs = utf8 c ++ r := by
  match bs with
  | [] => simp [decodeOne] at h
  | b0 :: t =>
    simp only [decodeOne] at h
    split at h
    · rename_i h0
      simp only [Option.some.injEq, Prod.mk.injEq] at h
      obtain ⟨rfl, rfl⟩ := h
      rw [utf8_ascii (by rw [toNat_ofNat (by omega)]; exact h0), toNat_ofNat (by omega)]; rfl
    split at h
    · rename_i h0
      simp only [Bool.and_eq_true, decide_eq_true_eq] at h0
      split at h
      · rename_i b1 t'
        split at h
        · rename_i h1
          simp only [Bool.and_eq_true, decide_eq_true_eq] at h1
          simp only [Option.some.injEq, Prod.mk.injEq] at h
          obtain ⟨rfl, rfl⟩ := h
          unfold utf8
          simp only
          rw [toNat_ofNat (by omega), if_neg (by omega), if_pos (by omega)]
          simp only [List.cons_append, List.nil_append, List.cons.injEq, and_true]
          omega
        · cases h
      · cases h
    split at h
    · rename_i h0
      simp only [Bool.and_eq_true, decide_eq_true_eq] at h0
      split at h
      · rename_i b1 b2 t'
        split at h
        · rename_i h1
          simp only [Bool.and_eq_true, decide_eq_true_eq, Bool.not_eq_true', Bool.and_eq_false_iff,
            decide_eq_false_iff_not] at h1
          simp only [Option.some.injEq, Prod.mk.injEq] at h
          obtain ⟨rfl, rfl⟩ := h
          unfold utf8
          simp only
          rw [toNat_ofNat (by omega), if_neg (by omega), if_neg (by omega), if_pos (by omega)]
          simp only [List.cons_append, List.nil_append, List.cons.injEq, and_true]
          omega
        · cases h
      · cases h
    split at h
    · rename_i h0
      simp only [Bool.and_eq_true, decide_eq_true_eq] at h0
      split at h
      · rename_i b1 b2 b3 t'
        split at h
        · rename_i h1
          simp only [Bool.and_eq_true, decide_eq_true_eq] at h1
          simp only [Option.some.injEq, Prod.mk.injEq] at h
          obtain ⟨rfl, rfl⟩ := h
          unfold utf8
          simp only
          rw [toNat_ofNat (by omega), if_neg (by omega), if_neg (by omega), if_neg (by omega)]
          simp only [List.cons_append, List.nil_append, List.cons.injEq, and_true]
          omega
        · cases h
      · cases h
    · cases h

theorem from_utf8_go_utf8s (s : Str) (fuel : Nat) (hf : (utf8s s).length ≤ fuel) :
    from_utf8_go fuel (utf8s s) = some s := by
  induction s generalizing fuel with
  | nil => simp [utf8s_nil, from_utf8_go]
  | cons c r ih =>
    rw [utf8s_cons] at hf ⊢
    have hd := decodeOne_utf8 c (utf8s r)
    obtain ⟨b, t, e⟩ : ∃ b t, utf8 c = b :: t := by
      obtain ⟨b, t, e, _⟩ := utf8_shape c; exact ⟨b, t, e⟩
    rw [e] at hd hf ⊢
    cases fuel with
    | zero => simp at hf
    | succ fuel =>
      simp only [List.cons_append] at hd ⊢
      simp only [from_utf8_go, hd]
      rw [ih fuel (by simp at hf; omega)]; rfl

theorem from_utf8_go_some (fuel : Nat) (bs : List Nat) (s : Str) (h : from_utf8_go fuel bs = some s) :
    utf8s s = bs := by
  induction fuel generalizing bs s with
  | zero =>
    cases bs with
    | nil => simp [from_utf8_go] at h; subst h; rfl
    | cons b r => simp [from_utf8_go] at h
  | succ fuel ih =>
    cases bs with
    | nil => simp [from_utf8_go] at h; subst h; rfl
    | cons b r =>
      simp only [from_utf8_go] at h
      cases hd : decodeOne (b :: r) with
      | none => rw [hd] at h; cases h
      | some x =>
        obtain ⟨c, r'⟩ := x
        rw [hd] at h
        simp only at h
        cases hr : from_utf8_go fuel r' with
        | none => rw [hr] at h; cases h
        | some t =>
          rw [hr] at h
          simp only [Option.map_some, Option.some.injEq] at h
          subst h
          rw [utf8s_cons, ih _ _ hr, decodeOne_some hd]

/-- Strict UTF-8 decoding is the inverse of UTF-8 encoding. -/
theorem from_utf8_iff (bs : List Nat) (s : Str) : from_utf8 bs = some s ↔ utf8s s = bs := by
  constructor
  · exact from_utf8_go_some _ _ _
  · rintro rfl; exact from_utf8_go_utf8s s _ (Nat.le_refl _)

end Verif
