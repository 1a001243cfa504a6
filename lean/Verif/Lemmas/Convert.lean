import Verif.Lemmas.Encode
import Verif.Lemmas.Decode
import Verif.Lemmas.Edit

/-!
# Mapping IRIs to URIs: buffers, and validity of the mapped text
-/

namespace Verif

open Rfc

/-- The three bytes of an upper-case triplet. -/
def pctB (b : Nat) : List Nat := [37, (hexUpper (b / 16)).toNat, (hexUpper (b % 16)).toNat]

theorem pctB_chars (b : Nat) : (pctB b).map Char.ofNat = pctUpper b := by
  simp [pctB, pctUpper]

theorem pctB_utf8s {b : Nat} (h : b < 256) : utf8s (pctUpper b) = pctB b := by
  have : ∀ n : Fin 256, utf8s (pctUpper n.val) = pctB n.val := by decide +kernel
  exact this ⟨b, h⟩

theorem HEXDIGITS_hi {b : Nat} (h : b < 256) : HEXDIGITS[b >>> 4]? = some (hexUpper (b / 16)).toNat := by
  have : ∀ n : Fin 256, HEXDIGITS[n.val >>> 4]? = some (hexUpper (n.val / 16)).toNat := by decide +kernel
  exact this ⟨b, h⟩

theorem HEXDIGITS_lo {b : Nat} (h : b < 256) : HEXDIGITS[b &&& 0b1111]? = some (hexUpper (b % 16)).toNat := by
  have : ∀ n : Fin 256, HEXDIGITS[n.val &&& 0b1111]? = some (hexUpper (n.val % 16)).toNat := by
    decide +kernel
  exact this ⟨b, h⟩

/-- A buffer of `k` groups of three bytes, each beginning with `%`. -/
inductive Groups : Nat → List Nat → Prop
  | nil : Groups 0 []
  | cons {k r} (x y : Nat) : Groups k r → Groups (k + 1) (37 :: x :: y :: r)

theorem Groups.length {k : Nat} {buf : List Nat} (h : Groups k buf) : buf.length = k * 3 := by
  induction h with
  | nil => rfl
  | cons x y _ ih => simp [ih]; omega

theorem groups_replicate (k : Nat) : Groups k (List.replicate (k * 3) 37) := by
  induction k with
  | zero => exact .nil
  | succ k ih =>
    rw [Nat.succ_mul]
    exact .cons 37 37 ih

theorem fillZip_spec {k : Nat} {buf : List Nat} (hb : Groups k buf) (bytes : List Nat)
    (h : ∀ b ∈ bytes, b < 256) : ∃ tail, fillZip buf bytes =
      some ((bytes.take k).flatMap pctB ++ tail, bytes.drop k) ∧
      Groups k ((bytes.take k).flatMap pctB ++ tail) := by
  induction hb generalizing bytes with
  | nil => exact ⟨[], by simp [fillZip], by simpa using .nil⟩
  | @cons k r x y hr ih =>
    cases bytes with
    | nil => exact ⟨37 :: x :: y :: r, by simp [fillZip], by simpa using .cons x y hr⟩
    | cons b bytes =>
      obtain ⟨tail, h1, h2⟩ := ih bytes fun x hx => h x (by simp [hx])
      refine ⟨tail, ?_, ?_⟩
      · have hb := h b (by simp)
        simp only [fillZip, HEXDIGITS_hi hb, HEXDIGITS_lo hb, h1, beq_self_eq_true, if_true,
          Option.bind_eq_bind, Option.bind_some]
        rfl
      · simp only [List.take_succ_cons, List.flatMap_cons]
        exact .cons _ _ h2

theorem flatMap_pctB_length (bs : List Nat) : (bs.flatMap pctB).length = bs.length * 3 := by
  induction bs with
  | nil => rfl
  | cons b r ih => rw [List.flatMap_cons, List.length_append, ih]; simp [pctB]; omega

theorem flatMap_pctB_chars (bs : List Nat) : (bs.flatMap pctB).map Char.ofNat = bs.flatMap pctUpper := by
  induction bs with
  | nil => rfl
  | cons b r ih => rw [List.flatMap_cons, List.map_append, ih, pctB_chars]; rfl

theorem percentEncodeLoop_spec (fuel : Nat) {k : Nat} {buf : List Nat} (hb : Groups (k + 1) buf)
    (bytes : List Nat) (h : ∀ b ∈ bytes, b < 256) (hf : bytes.length < fuel) :
    percentEncodeLoop fuel buf bytes = some (bytes.flatMap pctUpper) := by
  induction fuel generalizing buf bytes with
  | zero => omega
  | succ fuel ih =>
    unfold percentEncodeLoop
    by_cases h0 : bytes.length = 0
    · rw [if_pos h0, List.length_eq_zero_iff.1 h0]; rfl
    · rw [if_neg h0]
      obtain ⟨tail, h1, h2⟩ := fillZip_spec hb bytes h
      have hl : (bytes.length - (bytes.drop (k + 1)).length) * 3 = ((bytes.take (k + 1)).flatMap pctB).length := by
        rw [flatMap_pctB_length, List.length_drop, List.length_take]; omega
      have hfill : fill_by_percent_encoded buf bytes = some ((bytes.take (k + 1)).flatMap pctB,
          (bytes.take (k + 1)).flatMap pctB ++ tail, bytes.drop (k + 1)) := by
        unfold fill_by_percent_encoded
        rw [h1]
        simp only [Option.bind_eq_bind, Option.bind_some, hl]
        rw [if_pos (by simp), List.take_left' rfl]
      rw [hfill]
      simp only [Option.bind_eq_bind, Option.bind_some]
      rw [ih h2 (bytes.drop (k + 1)) (fun b hb => h b (List.mem_of_mem_drop hb))
        (by rw [List.length_drop]; omega)]
      simp only [Option.bind_some]
      rw [flatMap_pctB_chars, ← List.flatMap_append, List.take_append_drop]

theorem percent_encode_bytes_spec (s : Str) :
    percent_encode_bytes s (List.replicate (21 * 3) 0) = some ((utf8s s).flatMap pctUpper) := by
  unfold percent_encode_bytes
  rw [if_pos (by simp)]
  simp only [List.length_replicate, List.take_replicate, List.map_replicate]
  have : min (21 * 3 / 3 * 3) (21 * 3) = (20 + 1) * 3 := by decide
  rw [this]
  refine percentEncodeLoop_spec _ (groups_replicate (20 + 1)) _ ?_ (by omega)
  intro b hb
  obtain ⟨c, _, hc⟩ := List.mem_flatMap.1 hb
  exact utf8_lt c b hc

theorem splitAtFirst_spec (p : Char → Bool) (s : Str) :
    s = (splitAtFirst p s).1 ++ (splitAtFirst p s).2 ∧ (∀ c ∈ (splitAtFirst p s).1, p c = false) ∧
    ((splitAtFirst p s).2 = [] ∨ ∃ c r, (splitAtFirst p s).2 = c :: r ∧ p c = true) := by
  unfold splitAtFirst
  induction s with
  | nil => simp [findSplitP]
  | cons c r ih =>
    unfold findSplitP
    by_cases h : p c = true
    · rw [if_pos h]; exact ⟨rfl, by simp, .inr ⟨c, r, rfl, h⟩⟩
    · rw [if_neg h]
      cases hr : findSplitP p r with
      | none =>
        rw [hr] at ih
        refine ⟨by simp, ?_, .inl rfl⟩
        intro x hx
        rcases List.mem_cons.1 hx with rfl | hx
        · simpa using h
        · exact ih.2.1 x hx
      | some x =>
        rw [hr] at ih
        simp only [Option.map_some, Option.getD_some] at ih ⊢
        refine ⟨by rw [List.cons_append, ← ih.1], ?_, ih.2.2⟩
        intro y hy
        rcases List.mem_cons.1 hy with rfl | hy
        · simpa using h
        · exact ih.2.1 y hy

theorem mapToUri_nil : mapToUri [] = [] := rfl
theorem mapToUri_append (a b : Str) : mapToUri (a ++ b) = mapToUri a ++ mapToUri b := by
  simp [mapToUri]
theorem mapToUri_ascii {s : Str} (h : ∀ c ∈ s, c.toNat < 128) : mapToUri s = s := by
  induction s with
  | nil => rfl
  | cons c r ih =>
    have : mapToUri (c :: r) = mapToUri [c] ++ mapToUri r := mapToUri_append [c] r
    rw [this, ih fun x hx => h x (by simp [hx])]
    simp [mapToUri, h c (by simp)]
theorem mapToUri_nonascii {s : Str} (h : ∀ c ∈ s, 128 ≤ c.toNat) :
    mapToUri s = (utf8s s).flatMap pctUpper := by
  induction s with
  | nil => rfl
  | cons c r ih =>
    have : mapToUri (c :: r) = mapToUri [c] ++ mapToUri r := mapToUri_append [c] r
    rw [this, ih fun x hx => h x (by simp [hx]), utf8s_cons, List.flatMap_append]
    have := h c (by simp)
    simp [mapToUri, show ¬ c.toNat < 128 by omega]

theorem isAscii_false {c : Char} : isAscii c = false ↔ 128 ≤ c.toNat := by simp [isAscii]
theorem isAscii_true {c : Char} : isAscii c = true ↔ c.toNat < 128 := by simp [isAscii]

theorem writeGo_spec (fuel : Nat) (s : Str) (hf : s.length < fuel) :
    writePercentEncodedGo fuel s = some (mapToUri s) := by
  induction fuel generalizing s with
  | zero => omega
  | succ fuel ih =>
    unfold writePercentEncodedGo
    by_cases h0 : s.isEmpty = true
    · rw [if_pos h0, List.isEmpty_iff.1 h0]; rfl
    · rw [if_neg h0]
      obtain ⟨h1, h2, h3⟩ := splitAtFirst_spec (fun c => !isAscii c) s
      generalize hA : splitAtFirst (fun c => !isAscii c) s = A at h1 h2 h3 ⊢
      obtain ⟨ascii, rest⟩ := A
      simp only at h1 h2 h3 ⊢
      have hasc : ∀ c ∈ ascii, c.toNat < 128 := by
        intro c hc
        have := h2 c hc
        simp only [Bool.not_eq_false'] at this
        exact isAscii_true.1 this
      have hs : (if ascii.isEmpty = true then s else rest) = rest := by
        split
        · rename_i he; rw [h1, List.isEmpty_iff.1 he]; rfl
        · rfl
      rw [hs]
      rcases h3 with h3 | ⟨c, r, h3, h4⟩
      · rw [h3]
        simp only [List.isEmpty_nil, if_true]
        rw [h1, h3, List.append_nil, mapToUri_ascii hasc]
      · rw [h3]
        simp only [List.isEmpty_cons, Bool.false_eq_true, if_false]
        obtain ⟨g1, g2, g3⟩ := splitAtFirst_spec isAscii (c :: r)
        generalize hB : splitAtFirst isAscii (c :: r) = B at g1 g2 g3 ⊢
        obtain ⟨non, rest'⟩ := B
        simp only at g1 g2 g3 ⊢
        have hne : non ≠ [] := by
          rintro rfl
          rcases g3 with g3 | ⟨d, t, g3, g4⟩
          · rw [g3] at g1; simp at g1
          · rw [g3] at g1
            have : c = d := (List.cons.inj g1).1
            subst this
            rw [g4] at h4; cases h4
        have hnon : ∀ c ∈ non, 128 ≤ c.toNat := fun c hc => isAscii_false.1 (g2 c hc)
        rw [if_neg (by simpa using hne), percent_encode_bytes_spec]
        simp only [Option.bind_eq_bind, Option.bind_some]
        rw [ih rest' ?_]
        · simp only [Option.bind_some]
          rw [h1, h3, g1, mapToUri_append, mapToUri_append, mapToUri_ascii hasc, mapToUri_nonascii hnon]
        · have e1 := congrArg List.length h1
          have e2 := congrArg List.length g1
          have e3 := congrArg List.length h3
          have : 0 < non.length := List.length_pos_iff.2 hne
          simp at e1 e2 e3
          omega

/-! ## The in-place variant -/

/-- Bytes after the mapping. -/
def encB (bs : List Nat) : List Nat := bs.flatMap fun b => if b < 128 then [b] else pctB b

def cntB (bs : List Nat) : Nat := (bs.filter fun b => !(b < 128)).length

theorem encB_snoc (a : List Nat) (b : Nat) : encB (a ++ [b]) = encB a ++ (if b < 128 then [b] else pctB b) := by
  simp [encB]

theorem cntB_snoc (a : List Nat) (b : Nat) : cntB (a ++ [b]) = cntB a + (if b < 128 then 0 else 1) := by
  unfold cntB
  rw [List.filter_append, List.length_append]
  split
  · rename_i h; simp [h]
  · rename_i h; simp [h]

theorem encB_cnt0 {a : List Nat} (h : cntB a = 0) : encB a = a := by
  unfold cntB at h
  rw [List.length_eq_zero_iff, List.filter_eq_nil_iff] at h
  unfold encB
  induction a with
  | nil => rfl
  | cons b r ih =>
    have hb := h b (by simp)
    simp at hb
    rw [List.flatMap_cons, ih fun x hx => h x (by simp [hx]), if_pos hb]; rfl

theorem snoc_exists {α : Type} {l : List α} (h : l ≠ []) : ∃ a x, l = a ++ [x] :=
  ⟨l.dropLast, l.getLast h, (List.dropLast_concat_getLast h).symm⟩

theorem setB_append (a : List Nat) (x y : Nat) (r : List Nat) {i : Nat} (h : i = a.length) :
    setB (a ++ x :: r) i y = some (a ++ y :: r) := by
  subst h
  unfold setB
  rw [if_pos (by simp)]
  simp

theorem inlineLoop_spec (n : Nat) (pre junk tail : List Nat) (fuel : Nat) (hn : pre.length = n)
    (hp : ∀ b ∈ pre, b < 256) (hj : junk.length = 2 * cntB pre) (hf : n ≤ fuel) :
    inlineLoop fuel (pre ++ (junk ++ tail)) (pre.length + junk.length) pre.length (cntB pre) =
      some (encB pre ++ tail) := by
  induction n generalizing pre junk tail fuel with
  | zero =>
    have : pre = [] := List.length_eq_zero_iff.1 hn
    subst this
    have : junk = [] := List.length_eq_zero_iff.1 (by rw [hj]; rfl)
    subst this
    unfold inlineLoop
    rfl
  | succ n ih =>
    unfold inlineLoop
    by_cases h0 : cntB pre = 0
    · rw [if_neg (by omega)]
      have : junk = [] := List.length_eq_zero_iff.1 (by omega)
      subst this
      rw [encB_cnt0 h0]; rfl
    · rw [if_pos (by omega)]
      obtain ⟨pre', b, rfl⟩ := snoc_exists (l := pre) (by rintro rfl; simp at hn)
      obtain ⟨fuel, rfl⟩ : ∃ f, fuel = f + 1 := ⟨fuel - 1, by omega⟩
      have hb := hp b (by simp)
      have hn' : pre'.length = n := by simpa using hn
      have hp' : ∀ b ∈ pre', b < 256 := fun x hx => hp x (by simp [hx])
      have s1 : subB (pre' ++ [b]).length 1 = some pre'.length := by simp [subB]
      have s2 : subB ((pre' ++ [b]).length + junk.length) 1 = some (pre'.length + junk.length) := by
        simp only [subB, List.length_append, List.length_cons, List.length_nil]
        rw [if_pos (by omega)]; congr 1; omega
      have hget : (pre' ++ [b] ++ (junk ++ tail))[pre'.length]? = some b := by
        rw [List.append_assoc]; simp
      simp only [s1, s2, hget, Option.bind_eq_bind, Option.bind_some]
      have e1 : pre' ++ [b] ++ (junk ++ tail) = pre' ++ (b :: junk) ++ tail := by simp
      rw [cntB_snoc] at *
      by_cases hlt : b < 128
      · rw [if_pos hlt] at hj h0 ⊢
        simp only [Nat.add_zero] at hj h0 ⊢
        rw [if_pos hlt]
        obtain ⟨j', x, hjx⟩ := snoc_exists (l := b :: junk) (by simp)
        have hjl : j'.length = junk.length := by
          have := congrArg List.length hjx; simp at this; omega
        rw [e1, hjx]
        have e2 : pre' ++ (j' ++ [x]) ++ tail = (pre' ++ j') ++ x :: tail := by simp
        rw [e2, setB_append (pre' ++ j') x b tail (by simp [hjl])]
        simp only [Option.bind_some]
        have := ih pre' j' (b :: tail) fuel hn' hp' (by omega) (by omega)
        rw [List.append_assoc, ← hjl, Nat.add_zero, this, encB_snoc, if_pos hlt]
        simp
      · rw [if_neg hlt] at hj h0 ⊢
        rw [if_neg hlt]
        obtain ⟨j1, z, hjx⟩ := snoc_exists (l := b :: junk) (by simp)
        have hl1 : j1.length = junk.length := by
          have := congrArg List.length hjx; simp at this; omega
        obtain ⟨j2, y, rfl⟩ := snoc_exists (l := j1) (by rintro rfl; simp at hl1; omega)
        obtain ⟨j3, x, rfl⟩ := snoc_exists (l := j2) (by rintro rfl; simp at hl1; omega)
        have hjl : j3.length + 2 = junk.length := by simp at hl1; omega
        have s3 : subB (pre'.length + junk.length) 2 = some (pre' ++ j3).length := by
          simp only [subB]; rw [if_pos (by omega)]; congr 1; simp; omega
        rw [e1, hjx, s3]
        simp only [Option.bind_some]
        have e2 : pre' ++ (j3 ++ [x] ++ [y] ++ [z]) ++ tail = (pre' ++ j3) ++ x :: y :: z :: tail := by simp
        rw [e2, setB_append (pre' ++ j3) x 37 _ rfl]
        simp only [Option.bind_some, HEXDIGITS_hi hb, HEXDIGITS_lo hb]
        rw [show pre' ++ j3 ++ 37 :: y :: z :: tail = (pre' ++ j3 ++ [37]) ++ y :: z :: tail by simp]
        rw [setB_append (pre' ++ j3 ++ [37]) y _ _ (by simp; omega)]
        simp only [Option.bind_some]
        rw [show pre' ++ j3 ++ [37] ++ (hexUpper (b / 16)).toNat :: z :: tail =
          (pre' ++ j3 ++ [37, (hexUpper (b / 16)).toNat]) ++ z :: tail by simp]
        rw [setB_append (pre' ++ j3 ++ [37, (hexUpper (b / 16)).toNat]) z _ _ (by simp; omega)]
        simp only [Option.bind_some, Nat.add_sub_cancel]
        have := ih pre' j3 (pctB b ++ tail) fuel hn' hp' (by omega) (by omega)
        rw [show pre' ++ j3 ++ [37, (hexUpper (b / 16)).toNat] ++ (hexUpper (b % 16)).toNat :: tail =
          pre' ++ (j3 ++ (pctB b ++ tail)) by simp [pctB], List.length_append, this, encB_snoc, if_neg hlt]
        simp

theorem utf8s_mapToUri (s : Str) : utf8s (mapToUri s) = encB (utf8s s) := by
  induction s with
  | nil => rfl
  | cons c r ih =>
    have : mapToUri (c :: r) = mapToUri [c] ++ mapToUri r := mapToUri_append [c] r
    rw [this, utf8s_append, ih, utf8s_cons]
    have : encB (utf8 c ++ utf8s r) = encB (utf8 c) ++ encB (utf8s r) := by simp [encB]
    rw [this]
    congr 1
    by_cases hc : c.toNat < 128
    · rw [mapToUri_ascii (by simpa using hc), utf8_ascii hc]
      simp [utf8s, utf8_ascii hc, encB, hc]
    · rw [mapToUri_nonascii (by simpa using hc)]
      have hb := utf8_nonascii (c := c) (by omega)
      have : ∀ bs : List Nat, (∀ b ∈ bs, 128 ≤ b ∧ b < 256) → utf8s (bs.flatMap pctUpper) = encB bs := by
        intro bs
        induction bs with
        | nil => intro _; rfl
        | cons b bs ih =>
          intro h
          have hb := h b (by simp)
          rw [List.flatMap_cons, utf8s_append, ih fun x hx => h x (by simp [hx]), pctB_utf8s hb.2]
          simp [encB, show ¬ b < 128 by omega]
      have e : utf8s [c] = utf8 c := by simp [utf8s]
      rw [e]
      exact this _ hb

theorem utf8s_lt (s : Str) : ∀ b ∈ utf8s s, b < 256 := by
  intro b hb
  obtain ⟨c, _, hc⟩ := List.mem_flatMap.1 hb
  exact utf8_lt c b hc

theorem encode_inline_spec (s : Str) : encode_to_uri_inline s = some (mapToUri s) := by
  unfold encode_to_uri_inline
  have hc : count_nonascii s = cntB (utf8s s) := rfl
  simp only [hc]
  by_cases h0 : cntB (utf8s s) = 0
  · rw [h0]
    simp only [beq_self_eq_true, if_true]
    have := utf8s_mapToUri s
    rw [encB_cnt0 h0] at this
    rw [utf8s_inj this]
  · rw [if_neg (by simpa using h0)]
    have := inlineLoop_spec (blen s) (utf8s s) (List.replicate (cntB (utf8s s) * 2) 0) [] (blen s)
      (utf8s_length s) (utf8s_lt s) (by simp; omega) (Nat.le_refl _)
    simp only [List.append_nil, utf8s_length] at this
    simp only [List.length_append, utf8s_length, Option.bind_eq_bind]
    rw [this]
    simp only [Option.bind_some]
    rw [from_utf8_iff, utf8s_mapToUri]

/-! ## Validity of the mapped text -/

theorem mapToUri_all_ascii (s : Str) : ∀ c ∈ mapToUri s, c.toNat < 128 := by
  intro c hc
  obtain ⟨d, _, hd⟩ := List.mem_flatMap.1 hc
  split at hd
  · simp at hd; subst hd; assumption
  · have h1 : ∀ b ∈ utf8 d, b < 256 := utf8_lt d
    obtain ⟨b, hb, hx⟩ := List.mem_flatMap.1 hd
    have hb := h1 b hb
    have h2 := isHex_lt (hexUpper_isHex (n := b / 16) (by omega)).1
    have h3 := isHex_lt (hexUpper_isHex (n := b % 16) (by omega)).1
    simp [pctUpper] at hx
    rcases hx with rfl | rfl | rfl
    · decide
    · exact h2
    · exact h3

theorem PC_mapToUri {p q : Char → Bool} {s : Str} (h : PC p s)
    (hpq : ∀ c, c.toNat < 128 → p c = true → q c = true) : PC q (mapToUri s) := by
  induction h with
  | nil => exact .nil
  | @chr c r h1 h2 _ ih =>
    have : mapToUri (c :: r) = mapToUri [c] ++ mapToUri r := mapToUri_append [c] r
    rw [this]
    refine PC.append ?_ ih
    by_cases hc : c.toNat < 128
    · rw [mapToUri_ascii (by simpa using hc)]
      exact .chr h1 (hpq c hc h2) .nil
    · rw [mapToUri_nonascii (by simpa using hc)]
      exact PC_pctUppers (utf8s_lt _)
  | @pct a b r h1 h2 _ ih =>
    have : mapToUri ('%' :: a :: b :: r) = mapToUri ['%', a, b] ++ mapToUri r := mapToUri_append ['%', a, b] r
    rw [this, mapToUri_ascii (s := ['%', a, b])]
    · exact .pct h1 h2 ih
    · intro c hc
      simp at hc
      rcases hc with rfl | rfl | rfl
      · decide
      · exact isHex_lt h1
      · exact isHex_lt h2

theorem iunreserved_ascii {c : Char} (h : c.toNat < 128) : iunreserved .iri c = iunreserved .uri c := by
  simp only [iunreserved]
  cases hu : ucschar c
  · simp
  · have := ucschar_nonascii hu; omega

theorem queryPrivate_ascii {c : Char} (h : c.toNat < 128) : queryPrivate .iri c = queryPrivate .uri c := by
  simp only [queryPrivate]
  cases hu : iprivate c
  · rfl
  · have := iprivate_nonascii hu; omega

theorem spec_le (S : Spec) {c : Char} (h : c.toNat < 128) : iunreserved S c = iunreserved .uri c := by
  cases S
  · exact iunreserved_ascii h
  · rfl

theorem spec_le_q (S : Spec) {c : Char} (h : c.toNat < 128) : queryPrivate S c = queryPrivate .uri c := by
  cases S
  · exact queryPrivate_ascii h
  · rfl

theorem map_query {S : Spec} {s : Str} (h : query S s) : query .uri (mapToUri s) := by
  rw [query_iff] at *
  exact PC_mapToUri h fun c hc h => by
    simp only [queryC, pcharC, spec_le S hc, spec_le_q S hc] at h ⊢; exact h

theorem map_fragment {S : Spec} {s : Str} (h : fragment S s) : fragment .uri (mapToUri s) := by
  rw [fragment_iff] at *
  exact PC_mapToUri h fun c hc h => by
    simp only [fragC, pcharC, spec_le S hc] at h ⊢; exact h

theorem map_userinfo {S : Spec} {s : Str} (h : userinfo S s) : userinfo .uri (mapToUri s) := by
  rw [userinfo_iff] at *
  exact PC_mapToUri h fun c hc h => by
    simp only [userinfoC, spec_le S hc] at h ⊢; exact h

theorem map_reg_name {S : Spec} {s : Str} (h : reg_name S s) : reg_name .uri (mapToUri s) := by
  rw [reg_name_iff] at *
  exact PC_mapToUri h fun c hc h => by
    simp only [regnameC, spec_le S hc] at h ⊢; exact h

theorem map_path {S : Spec} {s : Str} (h : path S s) : path .uri (mapToUri s) := by
  rw [path_iff] at *
  exact PC_mapToUri h fun c hc h => by
    simp only [pcharSlashC, pcharC, spec_le S hc] at h ⊢; exact h

theorem scheme_all_ascii {s : Str} (h : scheme s) : ∀ c ∈ s, c.toNat < 128 := by
  intro c hc
  by_cases h' : c.toNat < 128
  · exact h'
  · have : schemeC c = false := by
      unfold schemeC isAlpha isDigit
      simp [beq_false_of_nonascii (c := c) (by omega)]
      omega
    exact absurd hc (scheme_not_mem h this)

theorem port_all_ascii {s : Str} (h : port s) : ∀ c ∈ s, c.toNat < 128 := by
  rw [port_iff, List.all_eq_true] at h
  intro c hc
  have := h c hc
  simp [isDigit] at this
  omega

theorem ip_literal_all_ascii {s : Str} (h : IP_literal s) : ∀ c ∈ s, c.toNat < 128 := by
  obtain ⟨_, _, rfl, rfl, m, _, rfl, hm, rfl⟩ := h
  have hmid : ∀ c ∈ m, c.toNat < 128 := by
    rcases hm with hm | hm
    · have := ipv6_v6C hm
      rw [List.all_eq_true] at this
      intro c hc
      have := this c hc
      simp [v6C, isHex, char_eq_iff] at this
      omega
    · obtain ⟨_, _, rfl, hv, _, _, rfl, hx, _, _, rfl, rfl, hy⟩ := hm
      rw [plus_chr, List.all_eq_true] at hx hy
      intro c hc
      simp only [List.mem_append] at hc
      rcases hc with hc | hc | hc | hc
      · rcases hv with rfl | rfl
        · simp at hc; subst hc; decide
        · simp at hc; subst hc; decide
      · have := hx.2 c hc; rw [HEXDIG_eq] at this; exact isHex_lt this
      · simp at hc; subst hc; decide
      · have := hy.2 c hc
        simp only [Bool.or_eq_true] at this
        rcases this with (h | h) | h
        · exact unreserved_ascii h
        · exact sub_delims_ascii h
        · simp at h; subst h; decide
  intro c hc
  simp only [List.mem_append, List.mem_singleton] at hc
  rcases hc with rfl | hc | rfl
  · decide
  · exact hmid c hc
  · decide

theorem map_host {S : Spec} {s : Str} (h : host S s) : host .uri (mapToUri s) := by
  rcases h with h | h | h
  · rw [mapToUri_ascii (ip_literal_all_ascii h)]; exact .inl h
  · exact .inr (.inr (map_reg_name (ipv4_regname (S := S) h)))
  · exact .inr (.inr (map_reg_name h))

theorem map_authority {S : Spec} {s : Str} (h : authority S s) : authority .uri (mapToUri s) := by
  obtain ⟨a, ha, rfl⟩ := (authority_auth_parts S s).1 h
  refine (authority_auth_parts .uri _).2
    ⟨{ userinfo := a.userinfo.map mapToUri, host := mapToUri a.host, port := a.port }, ⟨?_, ?_, ha.port⟩, ?_⟩
  · intro x hx
    simp only [Option.map_eq_some_iff] at hx
    obtain ⟨u, hu, rfl⟩ := hx
    exact map_userinfo (ha.userinfo u hu)
  · exact map_host ha.host
  · unfold AuthParts.recompose
    rw [mapToUri_append, mapToUri_append]
    congr 1
    · cases a.userinfo with
      | none => rfl
      | some u => simp only [Option.map_some, optPre]; rw [mapToUri_append]; rfl
    · congr 1
      cases hp : a.port with
      | none => rfl
      | some u =>
        simp only [optSuf]
        rw [mapToUri_append, mapToUri_ascii (port_all_ascii (ha.port u hp))]; rfl

/-- The components after the mapping. -/
def mapParts (p : Parts) : Parts where
  scheme := p.scheme
  authority := p.authority.map mapToUri
  path := mapToUri p.path
  query := p.query.map mapToUri
  fragment := p.fragment.map mapToUri

theorem mapToUri_cons_ascii {c : Char} (h : c.toNat < 128) (r : Str) :
    mapToUri (c :: r) = c :: mapToUri r := by
  have : mapToUri (c :: r) = mapToUri [c] ++ mapToUri r := mapToUri_append [c] r
  rw [this, mapToUri_ascii (by simpa using h)]; rfl

/-- An ASCII character other than `%` and the hexadecimal digits is where it was. -/
theorem mapToUri_cut {s a b : Str} {d : Char} (hd : d.toNat < 128) (hp : d ≠ '%') (hx : isHex d = false)
    (h : mapToUri s = a ++ d :: b) : ∃ a' b', s = a' ++ d :: b' ∧ mapToUri a' = a := by
  induction s generalizing a with
  | nil => simp [mapToUri_nil] at h
  | cons c r ih =>
    by_cases hc : c.toNat < 128
    · rw [mapToUri_cons_ascii hc] at h
      cases a with
      | nil =>
        simp only [List.nil_append, List.cons.injEq] at h
        exact ⟨[], r, by rw [h.1]; rfl, rfl⟩
      | cons x a =>
        simp only [List.cons_append, List.cons.injEq] at h
        obtain ⟨a', b', rfl, h2⟩ := ih h.2
        exact ⟨c :: a', b', rfl, by rw [mapToUri_cons_ascii hc, h2, h.1]⟩
    · have e : mapToUri (c :: r) = mapToUri [c] ++ mapToUri r := mapToUri_append [c] r
      rw [e, mapToUri_nonascii (s := [c]) (by simpa using hc)] at h
      have hno : d ∉ (utf8s [c]).flatMap pctUpper := by
        have := PC_pctUppers (p := fun _ => false) (utf8s_lt [c])
        exact this.not_mem hp hx rfl
      rcases List.append_eq_append_iff.1 h with ⟨t, h1, h2⟩ | ⟨t, h1, h2⟩
      · obtain ⟨a', b', rfl, h4⟩ := ih (a := t) h2
        refine ⟨c :: a', b', rfl, ?_⟩
        have e : mapToUri (c :: a') = mapToUri [c] ++ mapToUri a' := mapToUri_append [c] a'
        rw [e, mapToUri_nonascii (s := [c]) (by simpa using hc), h4, h1]
      · cases t with
        | nil =>
          simp only [List.append_nil, List.nil_append] at h1 h2
          obtain ⟨a', b', rfl, h4⟩ := ih (a := []) h2.symm
          refine ⟨c :: a', b', rfl, ?_⟩
          have e : mapToUri (c :: a') = mapToUri [c] ++ mapToUri a' := mapToUri_append [c] a'
          rw [e, mapToUri_nonascii (s := [c]) (by simpa using hc), h4, h1]; simp
        | cons x t =>
          simp only [List.cons_append, List.cons.injEq] at h2
          exact absurd (by rw [h1, h2.1]; simp) hno

theorem map_slash {s : Str} (h : ∃ r, mapToUri s = '/' :: r) : ∃ r, s = '/' :: r ∧ mapToUri s = '/' :: mapToUri r := by
  obtain ⟨r, h⟩ := h
  obtain ⟨a, b, rfl, h2⟩ := mapToUri_cut (s := s) (a := []) (d := '/') (by decide) (by decide) (by decide) h
  have : a = [] := by
    cases a with
    | nil => rfl
    | cons c t =>
      have e : mapToUri (c :: t) = mapToUri [c] ++ mapToUri t := mapToUri_append [c] t
      rw [e] at h2
      have := (List.append_eq_nil_iff.1 h2).1
      simp only [mapToUri, List.flatMap_cons, List.flatMap_nil, List.append_nil] at this
      split at this
      · cases this
      · have hne := utf8_ne_nil c
        cases hu : utf8 c with
        | nil => exact absurd hu hne
        | cons b bs => rw [hu, List.flatMap_cons] at this; simp [pctUpper] at this
  subst this
  exact ⟨b, rfl, by rw [List.nil_append, mapToUri_cons_ascii (by decide)]⟩

theorem mapParts_valid {S : Spec} {p : Parts} (h : p.Valid S) : (mapParts p).Valid .uri where
  scheme := h.scheme
  authority := by
    intro x hx
    simp only [mapParts, Option.map_eq_some_iff] at hx
    obtain ⟨a, ha, rfl⟩ := hx
    exact map_authority (h.authority a ha)
  path := map_path h.path
  query := by
    intro x hx
    simp only [mapParts, Option.map_eq_some_iff] at hx
    obtain ⟨a, ha, rfl⟩ := hx
    exact map_query (h.query a ha)
  fragment := by
    intro x hx
    simp only [mapParts, Option.map_eq_some_iff] at hx
    obtain ⟨a, ha, rfl⟩ := hx
    exact map_fragment (h.fragment a ha)
  withAuthority := by
    intro ha
    rcases h.withAuthority (by intro e; apply ha; simp [mapParts, e]) with h1 | ⟨r, h1⟩
    · left; simp [mapParts, h1, mapToUri_nil]
    · right; exact ⟨mapToUri r, by simp only [mapParts, h1]; rw [mapToUri_cons_ascii (by decide)]⟩
  withoutAuthority := by
    intro ha r hr
    have ha : p.authority = none := by simpa [mapParts] using ha
    simp only [mapParts] at hr
    obtain ⟨t, e, e2⟩ := map_slash ⟨_, hr⟩
    rw [e2] at hr
    obtain ⟨u, e3, e4⟩ := map_slash ⟨_, (List.cons.inj hr).2⟩
    exact h.withoutAuthority ha u (by rw [e, e3])
  withoutScheme := by
    intro hs ha
    have ha : p.authority = none := by simpa [mapParts] using ha
    rintro ⟨a, b, h1, h2⟩
    simp only [mapParts] at h1
    obtain ⟨a', b', h3, h4⟩ := mapToUri_cut (by decide) (by decide) (by decide) h1
    refine h.withoutScheme hs ha ⟨a', b', h3, ?_⟩
    intro hm
    apply h2
    rw [← h4]
    exact List.mem_flatMap.2 ⟨'/', hm, by decide⟩

theorem mapParts_recompose {S : Spec} {p : Parts} (h : p.Valid S) :
    (mapParts p).recompose = mapToUri p.recompose := by
  unfold Parts.recompose
  simp only [mapToUri_append]
  congr 1
  · simp only [mapParts]
    cases hs : p.scheme with
    | none => rfl
    | some x =>
      simp only [optPre]
      rw [mapToUri_append, mapToUri_ascii (scheme_all_ascii (h.scheme x hs))]; rfl
  have hsuf : ∀ (d : Str) (o : Option Str), (∀ c ∈ d, c.toNat < 128) →
      optSuf d (o.map mapToUri) = mapToUri (optSuf d o) := by
    intro d o hd
    cases o with
    | none => rfl
    | some x => simp only [Option.map_some, optSuf]; rw [mapToUri_append, mapToUri_ascii hd]
  congr 1
  · exact hsuf _ _ (by decide)
  congr 1
  congr 1
  · exact hsuf _ _ (by decide)
  · exact hsuf _ _ (by decide)

theorem mapToUri_wf_decode {s : Str} (h : WF s) : pctDecode (mapToUri s) = pctDecode s := by
  unfold pctDecode
  induction h with
  | nil => rfl
  | @chr c r h1 _ h3 ih =>
    have e : mapToUri (c :: r) = mapToUri [c] ++ mapToUri r := mapToUri_append [c] r
    rw [e]
    by_cases hc : c.toNat < 128
    · rw [mapToUri_ascii (s := [c]) (by simpa using hc)]
      show (tokens (c :: mapToUri r)).flatMap _ = _
      rw [tokens_ch h1, tokens_ch h1, List.flatMap_cons, List.flatMap_cons, ih]
    · rw [mapToUri_nonascii (s := [c]) (by simpa using hc)]
      have hw : WF ((utf8s [c]).flatMap pctUpper) := (PC_pctUppers (p := fun _ => true) (utf8s_lt [c])).wf
      have hd := pctDecode_pcts (utf8s_lt [c])
      unfold pctDecode at hd
      rw [tokens_append_ch hw, List.flatMap_append, hd, ih, tokens_ch h1, List.flatMap_cons]
      simp [utf8s, Tok.bytes]
  | @pct a b r h1 h2 _ ih =>
    have e : mapToUri ('%' :: a :: b :: r) = mapToUri ['%', a, b] ++ mapToUri r := mapToUri_append ['%', a, b] r
    rw [e, mapToUri_ascii (s := ['%', a, b])]
    · show (tokens ('%' :: a :: b :: mapToUri r)).flatMap _ = _
      rw [tokens_pct h1 h2, tokens_pct h1 h2, List.flatMap_cons, List.flatMap_cons, ih]
    · intro c hc
      simp at hc
      rcases hc with rfl | rfl | rfl
      · decide
      · exact isHex_lt h1
      · exact isHex_lt h2

/-! ## The characters of a reference -/

theorem anyC_of_unreserved (S : Spec) {c : Char} (h : unreserved c = true) : ctxC S .character c = true := by
  cases S <;> simp [ctxC, iunreserved, h]

theorem anyC_hex (S : Spec) {c : Char} (h : isHex c = true) : ctxC S .character c = true := by
  apply anyC_of_unreserved
  revert h
  exact ascii_forall (P := fun c => isHex c = true → unreserved c = true) (by decide) c |>
    fun f => fun h => f (isHex_lt h) h

theorem PC_of_all {p : Char → Bool} {s : Str} (hp : p '%' = false) (h : ∀ c ∈ s, p c = true) : PC p s := by
  induction s with
  | nil => exact .nil
  | cons c r ih =>
    refine .chr ?_ (h c (by simp)) (ih fun x hx => h x (by simp [hx]))
    rintro rfl
    rw [h '%' (by simp)] at hp; cases hp

theorem ip_literal_any (S : Spec) {s : Str} (h : IP_literal s) : PC (ctxC S .character) s := by
  apply PC_of_all (ctxC_pct S .character)
  obtain ⟨_, _, rfl, rfl, m, _, rfl, hm, rfl⟩ := h
  have hmid : ∀ c ∈ m, ctxC S .character c = true := by
    rcases hm with hm | hm
    · have := ipv6_v6C hm
      rw [List.all_eq_true] at this
      intro c hc
      have := this c hc
      simp only [v6C, Bool.or_eq_true, beq_iff_eq] at this
      rcases this with (h | h) | h
      · exact anyC_hex S h
      · subst h; cases S <;> decide
      · subst h; cases S <;> decide
    · obtain ⟨_, _, rfl, hv, _, _, rfl, hx, _, _, rfl, rfl, hy⟩ := hm
      rw [plus_chr, List.all_eq_true] at hx hy
      intro c hc
      simp only [List.mem_append] at hc
      rcases hc with hc | hc | hc | hc
      · rcases hv with rfl | rfl
        · simp at hc; subst hc; cases S <;> decide
        · simp at hc; subst hc; cases S <;> decide
      · have := hx.2 c hc; rw [HEXDIG_eq] at this; exact anyC_hex S this
      · simp at hc; subst hc; cases S <;> decide
      · have := hy.2 c hc
        simp only [Bool.or_eq_true] at this
        rcases this with (h | h) | h
        · exact anyC_of_unreserved S h
        · simp [ctxC, h]
        · simp at h; subst h; cases S <;> decide
  intro c hc
  simp only [List.mem_append, List.mem_singleton] at hc
  rcases hc with rfl | hc | rfl
  · cases S <;> decide
  · exact hmid c hc
  · cases S <;> decide

theorem anyC_pchar {S : Spec} {c : Char} (h : pcharC S c = true) : ctxC S .character c = true := by
  simp only [pcharC, Bool.or_eq_true, beq_iff_eq] at h
  rcases h with ((h | h) | h) | h
  · simp [ctxC, h]
  · simp [ctxC, h]
  · subst h; cases S <;> decide
  · subst h; cases S <;> decide

theorem authority_any {S : Spec} {s : Str} (h : authority S s) : PC (ctxC S .character) s := by
  obtain ⟨a, ha, rfl⟩ := (authority_auth_parts S s).1 h
  unfold AuthParts.recompose
  have hreg : ∀ x, reg_name S x → PC (ctxC S .character) x := fun x hx => by
    rw [reg_name_iff] at hx
    refine hx.mono fun c hc => ?_
    simp only [regnameC, Bool.or_eq_true] at hc
    rcases hc with h | h <;> simp [ctxC, h]
  refine PC.append ?_ (PC.append ?_ ?_)
  · cases hu : a.userinfo with
    | none => exact .nil
    | some u =>
      have := ha.userinfo u hu
      rw [userinfo_iff] at this
      refine PC.append (this.mono fun c hc => ?_) (.chr (by decide) (by cases S <;> decide) .nil)
      simp only [userinfoC, Bool.or_eq_true, beq_iff_eq] at hc
      rcases hc with (h | h) | h
      · simp [ctxC, h]
      · simp [ctxC, h]
      · subst h; cases S <;> decide
  · rcases ha.host with h | h | h
    · exact ip_literal_any S h
    · exact hreg _ (ipv4_regname h)
    · exact hreg _ h
  · cases hp : a.port with
    | none => exact .nil
    | some u =>
      have := ha.port u hp
      rw [port_iff, List.all_eq_true] at this
      refine .chr (by decide) (by cases S <;> decide) (PC_of_all (ctxC_pct S .character) fun c hc => ?_)
      have := this c hc
      simp [ctxC, digit_iunreserved S this]

/-- Every valid reference is made of unreserved, private and reserved characters and triplets. -/
theorem valid_recompose_any {S : Spec} {p : Parts} (h : p.Valid S) : PC (ctxC S .character) p.recompose := by
  unfold Parts.recompose
  refine PC.append ?_ (PC.append ?_ (PC.append ?_ (PC.append ?_ ?_)))
  · cases hs : p.scheme with
    | none => exact .nil
    | some x =>
      refine PC.append ?_ (.chr (by decide) (by cases S <;> decide) .nil)
      apply PC_of_all (ctxC_pct S .character)
      intro c hc
      cases hq : schemeC c
      · exact absurd hc (scheme_not_mem (h.scheme x hs) hq)
      · have : ∀ n : Fin 128, schemeC (Char.ofNat n.val) = true → ctxC S .character (Char.ofNat n.val) = true := by
          cases S <;> decide
        exact ascii_forall (P := fun c => schemeC c = true → ctxC S .character c = true) this c
          (scheme_all_ascii (h.scheme x hs) c hc) hq
  · cases ha : p.authority with
    | none => exact .nil
    | some x =>
      exact .chr (by decide) (by cases S <;> decide)
        (.chr (by decide) (by cases S <;> decide) (authority_any (h.authority x ha)))
  · have := h.path
    rw [path_iff] at this
    refine this.mono fun c hc => ?_
    simp only [pcharSlashC, Bool.or_eq_true, beq_iff_eq] at hc
    rcases hc with h | h
    · exact anyC_pchar h
    · subst h; cases S <;> decide
  · cases hq : p.query with
    | none => exact .nil
    | some x =>
      have := h.query x hq
      rw [query_iff] at this
      refine .chr (by decide) (by cases S <;> decide) (this.mono fun c hc => ?_)
      simp only [queryC, Bool.or_eq_true, beq_iff_eq] at hc
      rcases hc with ((h | h) | h) | h
      · exact anyC_pchar h
      · subst h; cases S <;> decide
      · subst h; cases S <;> decide
      · simp [ctxC, h]
  · cases hq : p.fragment with
    | none => exact .nil
    | some x =>
      have := h.fragment x hq
      rw [fragment_iff] at this
      refine .chr (by decide) (by cases S <;> decide) (this.mono fun c hc => ?_)
      simp only [fragC, Bool.or_eq_true, beq_iff_eq] at hc
      rcases hc with (h | h) | h
      · exact anyC_pchar h
      · subst h; cases S <;> decide
      · subst h; cases S <;> decide

theorem valid_recompose_wf {S : Spec} {p : Parts} (h : p.Valid S) : WF p.recompose :=
  (valid_recompose_any h).wf

theorem uri_recompose_ascii {p : Parts} (h : p.Valid .uri) : ∀ c ∈ p.recompose, c.toNat < 128 := by
  intro c hc
  rcases (valid_recompose_any h).mem hc with h | h | h
  · subst h; decide
  · exact isHex_lt h
  · simp only [ctxC, iunreserved, queryPrivate, Bool.or_eq_true, Bool.false_eq_true, or_false] at h
    rcases h with (h | h) | h
    · exact unreserved_ascii h
    · exact gen_delims_ascii h
    · exact sub_delims_ascii h

end Verif
