import Verif.Lemmas.Decode
import Verif.Spec.Lit

/-!
# C23: percent-decoding
-/

namespace Verif

/-- The bytes a fragment stands for, read as tokens. -/
def DecodedFragment.toks : DecodedFragment → List DecTok
  | .direct bs => bs.map .plain
  | .decodedByte b => [.triplet b]
  | .strayPercent => [.stray]

/-- Two directly following `Direct` fragments. -/
def AdjacentDirect (fs : List DecodedFragment) : Prop :=
  ∃ a x y b, fs = a ++ .direct x :: .direct y :: b

/-- One step of the fragment iterator, from any state it can be in. -/
theorem C23_next (rest : List Nat) :
    (rest = [] ∧ fragNext rest = some none) ∨
    (∃ f rest', fragNext rest = some (some (f, rest')) ∧ decToks rest = f.toks ++ decToks rest' ∧
      rest'.length < rest.length ∧
      ∀ bs, f = .direct bs → bs ≠ [] ∧ 0x25 ∉ bs ∧ (rest' = [] ∨ ∃ r, rest' = 0x25 :: r)) := by
  match rest with
  | [] => left; exact ⟨rfl, rfl⟩
  | b :: after =>
    right
    unfold fragNext
    by_cases e : b = 0x25
    · subst e
      simp only [if_true]
      rcases strip_cases after with ⟨hx, hr⟩ | ⟨h, l, r', rfl, hh, hl, hr⟩
      · rw [hr]
        exact ⟨.strayPercent, after, rfl, decToks_stray hx, by simp, by simp⟩
      · rw [hr]
        exact ⟨.decodedByte _, r', rfl, decToks_triplet hh hl r', by simp; omega, by simp⟩
    · simp only [e, if_false]
      rcases position_cases after with ⟨h1, h2⟩ | ⟨a, r, h1, h2, h3⟩
      · rw [h1]
        have hall : ∀ x ∈ b :: after, x ≠ 0x25 := by
          intro x hx
          rcases List.mem_cons.1 hx with rfl | hx
          · exact e
          · exact h2 x hx
        refine ⟨_, _, rfl, ?_, by simp, ?_⟩
        · rw [decToks_no_pct hall, decToks_nil]; simp [DecodedFragment.toks]
        · rintro bs ⟨⟩
          exact ⟨by simp, fun h => hall _ h rfl, .inl rfl⟩
      · rw [h3]
        have hall : ∀ x ∈ b :: a, x ≠ 0x25 := by
          intro x hx
          rcases List.mem_cons.1 hx with rfl | hx
          · exact e
          · exact h2 x hx
        have e1 : (b :: after).take (a.length + 1) = b :: a := by
          rw [List.take_succ_cons, h1, List.take_left' rfl]
        have e2 : (b :: after).drop (a.length + 1) = 0x25 :: r := by
          rw [List.drop_succ_cons, h1, List.drop_left' rfl]
        simp only [e1, e2]
        refine ⟨_, _, rfl, ?_, by rw [h1]; simp; omega, ?_⟩
        · rw [h1, ← List.cons_append, decToks_plains hall]; rfl
        · rintro bs ⟨⟩
          exact ⟨by simp, fun h => hall _ h rfl, .inr ⟨r, rfl⟩⟩

theorem fragAll_spec (fuel : Nat) (bs : List Nat) (hf : bs.length < fuel) :
    ∃ fs, fragAll fuel bs = some fs ∧ fs.flatMap DecodedFragment.toks = decToks bs ∧
      (∀ x, .direct x ∈ fs → x ≠ [] ∧ 0x25 ∉ x) ∧ ¬ AdjacentDirect fs ∧
      ((∃ x r, fs = .direct x :: r) → ¬ ∃ r, bs = 0x25 :: r) := by
  induction fuel generalizing bs with
  | zero => omega
  | succ fuel ih =>
    unfold fragAll
    rcases C23_next bs with ⟨h0, h1⟩ | ⟨f, rest, h1, h2, h3, h4⟩
    · rw [h1]
      refine ⟨[], rfl, by rw [h0, decToks_nil]; rfl, by simp, ?_, by simp⟩
      rintro ⟨a, x, y, b, h⟩
      simp at h
    · rw [h1]
      obtain ⟨fs, g1, g2, g3, g4, g5⟩ := ih rest (by omega)
      refine ⟨f :: fs, by simp [g1], by rw [List.flatMap_cons, g2, h2], ?_, ?_, ?_⟩
      · intro x hx
        rcases List.mem_cons.1 hx with hx | hx
        · exact ⟨(h4 x hx.symm).1, (h4 x hx.symm).2.1⟩
        · exact g3 x hx
      · rintro ⟨a, x, y, b, h⟩
        cases a with
        | nil =>
          simp only [List.nil_append, List.cons.injEq] at h
          obtain ⟨rfl, rfl⟩ := h
          rcases (h4 x rfl).2.2 with hr | hr
          · rw [hr, decToks_nil] at g2
            rw [List.flatMap_cons] at g2
            have := (List.append_eq_nil_iff.1 g2).1
            have hy := (g3 y (by simp)).1
            simp [DecodedFragment.toks] at this
            exact hy this
          · exact g5 ⟨y, b, rfl⟩ hr
        | cons c a =>
          simp only [List.cons_append, List.cons.injEq] at h
          exact g4 ⟨a, x, y, b, h.2⟩
      · rintro ⟨x, r, h⟩ ⟨t, rfl⟩
        simp only [List.cons.injEq] at h
        obtain ⟨rfl, rfl⟩ := h
        have hx := h4 x rfl
        cases x with
        | nil => exact hx.1 rfl
        | cons c x =>
          have : decToks (0x25 :: t) = .plain c :: (x.map .plain ++ decToks rest) := by rw [h2]; rfl
          rcases strip_cases t with ⟨hq, _⟩ | ⟨h, l, r', rfl, hh, hl, _⟩
          · rw [decToks_stray hq] at this; cases this
          · rw [decToks_triplet hh hl] at this; cases this

/-- **C23.**  The fragments of every byte sequence are its tokens: each `DecodedByte` is a triplet,
each `StrayPercent` a `%` that is not part of a triplet, each `Direct` a maximal non-empty run of
other bytes; so their bytes concatenate to the percent-decoded sequence.  No panic. -/
theorem C23_fragments (bs : List Nat) :
    ∃ fs, bytes_fragments bs = some fs ∧ fs.flatMap DecodedFragment.toks = decToks bs ∧
      (fs.flatMap DecodedFragment.toks).flatMap DecTok.bytes = percentDecode bs ∧
      (∀ x, .direct x ∈ fs → x ≠ [] ∧ 0x25 ∉ x) ∧ ¬ AdjacentDirect fs := by
  obtain ⟨fs, h1, h2, h3, h4, _⟩ := fragAll_spec (bs.length + 1) bs (by omega)
  exact ⟨fs, h1, h2, by rw [h2]; rfl, h3, h4⟩

/-- **C23.**  `to_bytes` returns the input exactly if it has no triplet, and then the input is its
own decoding. -/
theorem C23_to_bytes (bs : List Nat) :
    ((∀ b, DecTok.triplet b ∉ decToks bs) → to_bytes bs = some (some bs) ∧ percentDecode bs = bs) ∧
    ((∃ b, DecTok.triplet b ∈ decToks bs) → to_bytes bs = some none) := by
  have hid : ∀ bs : List Nat, (∀ b, DecTok.triplet b ∉ decToks bs) → percentDecode bs = bs := by
    intro bs
    unfold percentDecode
    induction bs with
    | nil => intro _; rw [decToks_nil]; rfl
    | cons b r ih =>
      intro h
      by_cases e : b = 0x25
      · subst e
        rcases strip_cases r with ⟨hq, _⟩ | ⟨x, l, r', rfl, hh, hl, _⟩
        · rw [decToks_stray hq] at h ⊢
          rw [List.flatMap_cons, ih fun b hb => h b (by simp [hb])]; rfl
        · rw [decToks_triplet hh hl] at h
          exact absurd (List.mem_cons_self) (h _)
      · rw [decToks_plain e] at h ⊢
        rw [List.flatMap_cons, ih fun b hb => h b (by simp [hb])]; rfl
  have key := tryDecodeGo_spec (bs.length + 1) bs (by omega)
  constructor
  · intro h
    refine ⟨?_, hid bs h⟩
    unfold to_bytes try_non_allocating_decode
    rcases key with ⟨k, _⟩ | ⟨pre, seg, x, l, rest, _, _, _, _, _, _, _, k, _⟩
    · rw [k]; rfl
    · exact absurd (by rw [k]; simp) (h (hexByteVal x * 16 + hexByteVal l))
  · rintro ⟨b, h⟩
    unfold to_bytes try_non_allocating_decode
    rcases key with ⟨_, k⟩ | ⟨pre, seg, x, l, rest, k, _⟩
    · exact absurd h (k b)
    · rw [k]; rfl

/-- **C23** (partial).  `into_bytes` never panics, and returns the percent-decoded bytes exactly if
the input does not have both a triplet and a stray `%`.  The full property (for every input) does
not hold, see `C23_refuted`. -/
theorem C23_into_bytes_partial (bs : List Nat) :
    ∃ out, into_bytes bs = some out ∧
      (out = percentDecode bs ↔ ¬ (DecTok.stray ∈ decToks bs ∧ ∃ b, DecTok.triplet b ∈ decToks bs)) := by
  have key := tryDecodeGo_spec (bs.length + 1) bs (by omega)
  rcases key with ⟨k, h⟩ | ⟨pre, seg, h, l, rest, k1, k2, k3, k4, k5, k6, k7, k8, k9, _⟩
  · have := ((C23_to_bytes bs).1 h).2
    refine ⟨bs, ?_, ?_⟩
    · unfold into_bytes try_non_allocating_decode; rw [k]; rfl
    · rw [this]
      simp only [true_iff]
      rintro ⟨_, b, hb⟩
      exact h b hb
  · have hgo := intoBytesGo_spec (rest.length + 1) rest (by omega)
    refine ⟨bs.take seg.length ++ ((hexByteVal h * 16 + hexByteVal l) :: (decToks rest).flatMap dropStray),
      ?_, ?_⟩
    · unfold into_bytes try_non_allocating_decode; rw [k1]
      show (intoBytesGo (rest.length + 1) rest).bind _ = _
      rw [hgo]; rfl
    · have hdec : percentDecode bs = pre ++ (seg ++ ((hexByteVal h * 16 + hexByteVal l) ::
          (decToks rest).flatMap DecTok.bytes)) := by
        unfold percentDecode at *
        rw [k8, List.flatMap_append, k9, List.flatMap_append, plains_bytes, List.flatMap_cons]; rfl
      have htrip : ∃ b, DecTok.triplet b ∈ decToks bs :=
        ⟨hexByteVal h * 16 + hexByteVal l, by rw [k8]; simp⟩
      rw [hdec]
      have hlen : (bs.take seg.length).length = seg.length := by
        rw [List.length_take, k2]; simp; omega
      constructor
      · intro he
        rintro ⟨hs, _⟩
        have hl := congrArg List.length he
        simp only [List.length_append, List.length_cons] at hl
        have d := dropStray_length (decToks rest)
        rw [hlen] at hl
        have hpre : pre = [] := by
          have : pre.length = 0 := by omega
          exact List.length_eq_zero_iff.1 this
        rw [k8, hpre, decToks_nil] at hs
        have : DecTok.stray ∈ decToks rest := by
          simpa using hs
        have := d.2 this
        rw [hpre, List.length_nil] at hl
        omega
      · intro hn
        have hns : DecTok.stray ∉ decToks bs := fun hs => hn ⟨hs, htrip⟩
        have hpre : pre = [] := by
          rcases k7 with k7 | k7
          · exact k7
          · exact absurd k7 hns
        have hr : DecTok.stray ∉ decToks rest := by
          intro hr; apply hns; rw [k8]; simp [hr]
        rw [hpre] at k2 ⊢
        rw [dropStray_eq hr, k2]
        simp

/-- The bytes of a token, without stray percent signs. -/
def withoutStray : DecTok → List Nat
  | .stray => []
  | t => t.bytes

/-- **C23**, exactly what `into_bytes` returns for every input.  Without a triplet it is the input.
Otherwise let `%hl` be the first triplet, `seg` the bytes between it and the stray `%` before it (or
the beginning), and `pre` everything up to that stray `%`: the result starts with the first
`seg.length` bytes of the input (which are `seg` only if `pre` is empty), then comes the byte of the
triplet, and then the decoding of the rest without its stray percent signs. -/
theorem C23_into_bytes_exact (bs : List Nat) :
    ((∀ b, DecTok.triplet b ∉ decToks bs) → into_bytes bs = some bs) ∧
    ((∃ b, DecTok.triplet b ∈ decToks bs) → ∃ pre seg h l rest,
      bs = pre ++ seg ++ 0x25 :: h :: l :: rest ∧ hexByte h = true ∧ hexByte l = true ∧
      0x25 ∉ seg ∧ (pre = [] ∨ ∃ x, pre = x ++ [0x25]) ∧
      (∀ b, DecTok.triplet b ∉ decToks pre) ∧
      decToks bs = decToks pre ++ seg.map .plain ++
        .triplet (hexByteVal h * 16 + hexByteVal l) :: decToks rest ∧
      into_bytes bs = some (bs.take seg.length ++
        ((hexByteVal h * 16 + hexByteVal l) :: (decToks rest).flatMap withoutStray))) := by
  have key := tryDecodeGo_spec (bs.length + 1) bs (by omega)
  rcases key with ⟨k, h⟩ | ⟨pre, seg, h, l, rest, k1, k2, k3, k4, k5, k6, k7, k8, k9, k10⟩
  · refine ⟨fun _ => ?_, fun ⟨b, hb⟩ => absurd hb (h b)⟩
    unfold into_bytes try_non_allocating_decode; rw [k]; rfl
  · refine ⟨fun hn => absurd (show DecTok.triplet (hexByteVal h * 16 + hexByteVal l) ∈ decToks bs by
      rw [k8]; simp) (hn _), fun _ => ⟨pre, seg, h, l, rest, by rw [k2]; simp, k4, k5,
      fun hm => k3 _ hm rfl, k10, k6, ?_, ?_⟩⟩
    · rw [k8]; simp
    · have hgo := intoBytesGo_spec (rest.length + 1) rest (by omega)
      have e : (decToks rest).flatMap dropStray = (decToks rest).flatMap withoutStray := by
        congr 1; funext t; cases t <;> rfl
      unfold into_bytes try_non_allocating_decode; rw [k1]
      show (intoBytesGo (rest.length + 1) rest).bind _ = _
      rw [hgo, e]; rfl

/-- **C23.**  The full claim about `into_bytes` is false: with both a stray `%` and a triplet in the
input, bytes are lost.  `%zz%41` decodes to `%zA` instead of `%zzA`, and `%41%zz` to `Azz` instead of
`A%zz`. -/
theorem C23_refuted :
    into_bytes (utf8s (chars! "%zz%41")) = some (utf8s (chars! "%zA")) ∧
    percentDecode (utf8s (chars! "%zz%41")) = utf8s (chars! "%zzA") ∧
    into_bytes (utf8s (chars! "%41%zz")) = some (utf8s (chars! "Azz")) ∧
    percentDecode (utf8s (chars! "%41%zz")) = utf8s (chars! "A%zz") := by
  decide +kernel

/-- **C23.**  On the UTF-8 bytes of a text, percent-decoding of bytes is percent-decoding of the
text. -/
theorem C23_text (s : Str) : percentDecode (utf8s s) = pctDecode s := by
  have hna : ∀ c : Char, 128 ≤ c.toNat → ∀ r, decToks (utf8 c ++ r) = (utf8 c).map .plain ++ decToks r := by
    intro c hc r
    apply decToks_plains
    intro b hb
    have := (utf8_nonascii hc b hb).1
    omega
  have hex_iff : ∀ c : Char, isHex c = hexByte c.toNat := fun c => rfl
  suffices h : ∀ n (s : Str), s.length ≤ n → percentDecode (utf8s s) = pctDecode s from h _ s (Nat.le_refl _)
  intro n
  unfold percentDecode pctDecode
  induction n with
  | zero =>
    intro s hs
    have : s = [] := List.length_eq_zero_iff.1 (by omega)
    subst this; rw [utf8s_nil, decToks_nil, tokens_nil]; rfl
  | succ n ih =>
    intro s hs
    match s with
    | [] => rw [utf8s_nil, decToks_nil, tokens_nil]; rfl
    | c :: r =>
      simp at hs
      by_cases hp : c = '%'
      · subst hp
        have e25 : utf8 '%' = [0x25] := by decide
        by_cases hx : ∃ h l r', r = h :: l :: r' ∧ isHex h = true ∧ isHex l = true
        · obtain ⟨h, l, r', rfl, hh, hl⟩ := hx
          rw [tokens_pct hh hl, utf8s_cons, utf8s_cons, utf8s_cons, e25, utf8_ascii (isHex_lt hh),
            utf8_ascii (isHex_lt hl)]
          simp only [List.cons_append, List.nil_append]
          rw [decToks_triplet (by rw [← hex_iff]; exact hh) (by rw [← hex_iff]; exact hl)]
          rw [List.flatMap_cons, List.flatMap_cons, ih r' (by simp at hs; omega)]
          rfl
        · have h1 : tokens ('%' :: r) = .ch '%' :: tokens r := by
            match r with
            | [] => simp [tokens]
            | [_] => simp [tokens]
            | h :: l :: r' =>
              rw [tokens, HEXDIG_eq, if_neg]
              intro e
              rw [Bool.and_eq_true] at e
              exact hx ⟨h, l, r', rfl, e.1, e.2⟩
          have h2 : startsWithHexB (utf8s r) = false := by
            rw [Bool.eq_false_iff]
            intro e
            match r with
            | [] => simp [utf8s_nil, startsWithHexB] at e
            | a :: r =>
              by_cases ha : a.toNat < 128
              · rw [utf8s_cons, utf8_ascii ha] at e
                match r with
                | [] => simp [utf8s_nil, startsWithHexB] at e
                | b :: r =>
                  by_cases hb : b.toNat < 128
                  · rw [utf8s_cons, utf8_ascii hb] at e
                    simp [startsWithHexB] at e
                    exact hx ⟨a, b, r, rfl, e.1, e.2⟩
                  · rw [utf8s_cons] at e
                    obtain ⟨x, t, he, _⟩ := utf8_shape b
                    have hbx := (utf8_nonascii (c := b) (by omega) x (by rw [he]; simp)).1
                    rw [he] at e
                    simp [startsWithHexB, isHexByte] at e
                    omega
              · rw [utf8s_cons] at e
                obtain ⟨x, t, he, _⟩ := utf8_shape a
                have hbx := (utf8_nonascii (c := a) (by omega) x (by rw [he]; simp)).1
                rw [he] at e
                simp only [List.cons_append] at e
                match h : t ++ utf8s r with
                | [] => rw [h] at e; simp [startsWithHexB] at e
                | _ :: _ => rw [h] at e; simp [startsWithHexB, isHexByte] at e; omega
          rw [h1, utf8s_cons, e25]
          simp only [List.cons_append, List.nil_append]
          rw [decToks_stray h2, List.flatMap_cons, List.flatMap_cons, ih r (by omega)]
          rfl
      · rw [tokens_ch hp, utf8s_cons, List.flatMap_cons, ← ih r (by omega)]
        have : decToks (utf8 c ++ utf8s r) = (utf8 c).map .plain ++ decToks (utf8s r) := by
          by_cases hc : c.toNat < 128
          · rw [utf8_ascii hc]
            exact decToks_plain (fun e => hp ((char_eq_iff c '%').2 e)) _
          · exact hna c (by omega) _
        rw [this, List.flatMap_append, plains_bytes]; rfl

/-- **C23** (partial).  `into_string` on input without stray `%` gives the text whose UTF-8 encoding
is the decoded byte sequence, or an error if there is none. -/
theorem C23_into_string_partial (bs : List Nat) (h : DecTok.stray ∉ decToks bs) :
    ∃ r, into_string bs = some r ∧ ∀ s, r = some s ↔ utf8s s = percentDecode bs := by
  obtain ⟨out, h1, h2⟩ := C23_into_bytes_partial bs
  have := h2.2 fun hh => h hh.1
  subst this
  refine ⟨from_utf8 (percentDecode bs), by unfold into_string; rw [h1]; rfl, fun s => from_utf8_iff _ s⟩

/-- **C23**, exactly what `into_string` returns for every input: the text whose UTF-8 encoding is what
`into_bytes` returns (`C23_into_bytes_exact`), or an error if there is none. -/
theorem C23_into_string_exact (bs : List Nat) :
    ∃ out r, into_bytes bs = some out ∧ into_string bs = some r ∧ ∀ s, r = some s ↔ utf8s s = out := by
  obtain ⟨out, h1, _⟩ := C23_into_bytes_partial bs
  exact ⟨out, from_utf8 out, h1, by unfold into_string; rw [h1]; rfl, fun s => from_utf8_iff _ s⟩

/-- Concrete cases: the hypotheses of the theorems above are met by non-trivial inputs. -/
example : bytes_fragments (utf8s (chars! "100% hello%20world%")) =
    some [.direct (utf8s (chars! "100")), .strayPercent, .direct (utf8s (chars! " hello")),
      .decodedByte 32, .direct (utf8s (chars! "world")), .strayPercent] := by decide +kernel
example : to_bytes (utf8s (chars! "99% unsafe")) = some (some (utf8s (chars! "99% unsafe"))) := by
  decide +kernel
example : into_string (utf8s (chars! "h%C3%a9llo%20w")) = some (some (chars! "héllo w")) := by
  decide +kernel
example : into_string (utf8s (chars! "%C3%20")) = some none := by decide +kernel

end Verif
