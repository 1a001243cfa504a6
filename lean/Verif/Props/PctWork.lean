import Verif.Model.PctWork
import Verif.Props.AccessWork
import Verif.Lemmas.Convert
import Verif.Lemmas.DisplayWriterPath
import Verif.Spec.Lit

/-!
# C90: normalizing, decoding and encoding triplets look at each byte a bounded number of times
-/

namespace Verif

namespace Work

/-! ### The counter changes nothing -/

@[simp] theorem take_xdigits2_fst (s : Str) : (take_xdigits2 s).1 = Verif.take_xdigits2 s := rfl

@[simp] theorem is_ascii_only_host_go_fst : ∀ (f : Nat) (s : Str),
    (is_ascii_only_host_go f s).1 = Verif.is_ascii_only_host_go f s
  | 0, _ => rfl
  | f + 1, s => by
    unfold is_ascii_only_host_go Verif.is_ascii_only_host_go
    rw [bind_fst, findSplitHoleP_fst]
    rcases Verif.findSplitHoleP (fun c => !isAscii c || c == '%') s with _ | ⟨a, c, r⟩
    · rfl
    · simp only
      by_cases hc : (c != '%') = true
      · rw [if_pos hc, if_pos hc]; rfl
      · rw [if_neg hc, if_neg hc, bind_fst, take_xdigits2_fst]
        rcases Verif.take_xdigits2 r with _ | ⟨b, q⟩
        · rfl
        · simp only
          by_cases hb : b < 128
          · rw [if_pos hb, if_pos hb]; exact is_ascii_only_host_go_fst f q
          · rw [if_neg hb, if_neg hb]; rfl

@[simp] theorem takeCont_fst : ∀ (n : Nat) (buf : List Nat) (s : Str),
    (takeCont n buf s).1 = Verif.takeCont n buf s
  | 0, _, _ => rfl
  | n + 1, buf, [] => rfl
  | n + 1, buf, c :: r => by
    unfold takeCont Verif.takeCont
    simp only [bind_fst]
    by_cases hc : (c == '%') = true
    · simp only [hc, if_true, bind_fst, take_xdigits2_fst]
      rcases Verif.take_xdigits2 r with _ | ⟨b, q⟩
      · rfl
      · simp only
        by_cases hb : (!is_utf8_byte_continue b) = true
        · rw [if_pos hb, if_pos hb]; rfl
        · rw [if_neg hb, if_neg hb]; exact takeCont_fst n _ q
    · simp only [hc, if_false]
      rfl

@[simp] theorem pct_case_go_fst (S : Spec) : ∀ (f : Nat) (s : Str),
    (pct_case_go S f s).1 = Verif.pct_case_go S f s
  | 0, _ => rfl
  | f + 1, s => by
    unfold pct_case_go Verif.pct_case_go
    rw [bind_fst, find_split_hole_fst]
    rcases Verif.find_split_hole s '%' with _ | ⟨a, r⟩
    · rfl
    · simp only [bind_fst, take_xdigits2_fst]
      rcases Verif.take_xdigits2 r with _ | ⟨b, q⟩
      · rfl
      · simp only
        by_cases hb : b < 0x80
        · rw [if_pos hb, if_pos hb, bind_fst, pct_case_go_fst S f q]; rfl
        · rw [if_neg hb, if_neg hb]
          rcases expectedLen b with _ | n
          · simp only [bind_fst, pct_case_go_fst S f q]; rfl
          · simp only [bind_fst, takeCont_fst]
            rcases Verif.takeCont (n - 1) [b] q with _ | ⟨u, v⟩ | ⟨u, v⟩ | u
            · rfl
            · simp only
              rcases into_char_trusted u with _ | _ | c
              · rfl
              · simp only
                rcases sliceFrom q ((n - 1) * 3) with _ | w
                · rfl
                · simp only [bind_fst, pct_case_go_fst S f w]; rfl
              · simp only [bind_fst, pct_case_go_fst S f v]; rfl
            · simp only [bind_fst, pct_case_go_fst S f v]; rfl
            · rfl

@[simp] theorem ascii_host_go_fst : ∀ (f : Nat) (s : Str),
    (ascii_host_go f s).1 = Verif.ascii_host_go f s
  | 0, _ => rfl
  | f + 1, s => by
    unfold ascii_host_go Verif.ascii_host_go
    rw [bind_fst, find_split_hole_fst]
    rcases Verif.find_split_hole s '%' with _ | ⟨a, r⟩
    · rfl
    · simp only [bind_fst, take_xdigits2_fst]
      rcases Verif.take_xdigits2 r with _ | ⟨b, q⟩
      · rfl
      · simp only
        by_cases hb : b < 128
        · rw [if_pos hb, if_pos hb, bind_fst, ascii_host_go_fst f q]; rfl
        · rw [if_neg hb, if_neg hb]; rfl

@[simp] theorem position_fst (p : Nat → Bool) : ∀ s : List Nat, (position p s).1 = Bytes.position p s
  | [] => rfl
  | b :: r => by
    unfold position Bytes.position
    by_cases h : p b = true
    · simp [h]
    · simp [h, position_fst p r]

@[simp] theorem startsWithHexB_fst (s : List Nat) : (startsWithHexB s).1 = Verif.startsWithHexB s := by
  unfold startsWithHexB Verif.startsWithHexB
  rcases s with _ | ⟨x, _ | ⟨y, r⟩⟩ <;> rfl

@[simp] theorem stripDecodeXdigits2B_fst (s : List Nat) :
    (stripDecodeXdigits2B s).1 = Verif.stripDecodeXdigits2B s := by
  unfold stripDecodeXdigits2B Verif.stripDecodeXdigits2B
  rw [bind_fst, startsWithHexB_fst]
  rcases Verif.startsWithHexB s <;> rfl

@[simp] theorem tryDecodeGo_fst : ∀ (f : Nat) (s : List Nat), (tryDecodeGo f s).1 = Verif.tryDecodeGo f s
  | 0, _ => rfl
  | f + 1, s => by
    unfold tryDecodeGo Verif.tryDecodeGo
    by_cases h : s.isEmpty = true
    · rw [if_pos h, if_pos h]; rfl
    · rw [if_neg h, if_neg h, bind_fst, position_fst]
      rcases Bytes.position (· == 0x25) s with _ | n
      · rfl
      · simp only [bind_fst, stripDecodeXdigits2B_fst]
        rcases Verif.stripDecodeXdigits2B (s.drop (n + 1)) with _ | ⟨_ | d, r⟩
        · rfl
        · exact tryDecodeGo_fst f _
        · rfl

@[simp] theorem intoBytesGo_fst : ∀ (f : Nat) (s : List Nat), (intoBytesGo f s).1 = Verif.intoBytesGo f s
  | 0, _ => rfl
  | f + 1, s => by
    unfold intoBytesGo Verif.intoBytesGo
    by_cases h : s.isEmpty = true
    · rw [if_pos h, if_pos h]; rfl
    · rw [if_neg h, if_neg h, bind_fst, position_fst]
      rcases Bytes.position (· == 0x25) s with _ | n
      · rfl
      · simp only [bind_fst, stripDecodeXdigits2B_fst]
        rcases Verif.stripDecodeXdigits2B (s.drop (n + 1)) with _ | ⟨d, r⟩
        · rfl
        · simp only [bind_fst, intoBytesGo_fst f r]
          show _ = Option.bind (Verif.intoBytesGo f r) _
          rcases Verif.intoBytesGo f r <;> rfl

theorem into_bytes_fst (s : List Nat) : (into_bytes s).1 = Verif.into_bytes s := by
  unfold into_bytes Verif.into_bytes try_non_allocating_decode Verif.try_non_allocating_decode
  rw [bind_fst, tryDecodeGo_fst]
  rcases Verif.tryDecodeGo (s.length + 1) s with _ | _ | ⟨n, d, r⟩
  · rfl
  · rfl
  · simp only [bind_fst, intoBytesGo_fst]
    show _ = Option.bind (Verif.intoBytesGo (r.length + 1) r) _
    rcases Verif.intoBytesGo (r.length + 1) r <;> rfl

@[simp] theorem fragNext_fst (s : List Nat) : (fragNext s).1 = Verif.fragNext s := by
  unfold fragNext Verif.fragNext
  rcases s with _ | ⟨b, r⟩
  · rfl
  · simp only [bind_fst]
    by_cases h : b = 0x25
    · simp only [h, if_true, decide_true, bind_fst, stripDecodeXdigits2B_fst]
      rcases Verif.stripDecodeXdigits2B r with _ | ⟨_ | d, q⟩ <;> rfl
    · simp only [h, if_false, decide_false, bind_fst, position_fst]
      rcases Bytes.position (· == 0x25) r <;> rfl

@[simp] theorem fragAll_fst : ∀ (f : Nat) (s : List Nat), (fragAll f s).1 = Verif.fragAll f s
  | 0, _ => rfl
  | f + 1, s => by
    unfold fragAll Verif.fragAll
    rw [bind_fst, fragNext_fst]
    rcases Verif.fragNext s with _ | _ | ⟨x, r⟩
    · rfl
    · rfl
    · simp only [bind_fst, fragAll_fst f r]; rfl

@[simp] theorem fillZip_fst : ∀ (buf bytes : List Nat), (fillZip buf bytes).1 = Verif.fillZip buf bytes
  | [], _ => by unfold fillZip Verif.fillZip; rfl
  | [_], _ => by unfold fillZip Verif.fillZip; rfl
  | [_, _], _ => by unfold fillZip Verif.fillZip; rfl
  | _ :: _ :: _ :: _, [] => by unfold fillZip Verif.fillZip; rfl
  | d0 :: d1 :: d2 :: buf, byte :: bytes => by
    unfold fillZip Verif.fillZip
    simp only
    by_cases h : (d0 == 37) = true
    · rw [if_pos h, if_pos h, bind_fst]
      show _ = Option.bind HEXDIGITS[byte >>> 4]? _
      rcases HEXDIGITS[byte >>> 4]? with _ | hi
      · rfl
      · simp only [bind_fst]
        show _ = Option.bind HEXDIGITS[byte &&& 0b1111]? _
        rcases HEXDIGITS[byte &&& 0b1111]? with _ | lo
        · rfl
        · simp only [bind_fst, fillZip_fst buf bytes]
          show _ = Option.bind (Verif.fillZip buf bytes) _
          rcases Verif.fillZip buf bytes <;> rfl
    · rw [if_neg h, if_neg h]; rfl

@[simp] theorem fill_by_percent_encoded_fst (buf bytes : List Nat) :
    (fill_by_percent_encoded buf bytes).1 = Verif.fill_by_percent_encoded buf bytes := by
  unfold fill_by_percent_encoded Verif.fill_by_percent_encoded
  rw [bind_fst, fillZip_fst]
  rcases Verif.fillZip buf bytes <;> rfl

@[simp] theorem percentEncodeLoop_fst : ∀ (f : Nat) (buf bytes : List Nat),
    (percentEncodeLoop f buf bytes).1 = Verif.percentEncodeLoop f buf bytes
  | 0, _, _ => rfl
  | f + 1, buf, bytes => by
    unfold percentEncodeLoop Verif.percentEncodeLoop
    by_cases h : bytes.length = 0
    · rw [if_pos h, if_pos h]; rfl
    · rw [if_neg h, if_neg h, bind_fst, fill_by_percent_encoded_fst]
      show _ = Option.bind (Verif.fill_by_percent_encoded buf bytes) _
      rcases Verif.fill_by_percent_encoded buf bytes with _ | ⟨e, b, r⟩
      · rfl
      · simp only [bind_fst, percentEncodeLoop_fst f b r]
        show _ = Option.bind (Verif.percentEncodeLoop f b r) _
        rcases Verif.percentEncodeLoop f b r <;> rfl

@[simp] theorem percent_encode_bytes_fst (s : Str) (buf : List Nat) :
    (percent_encode_bytes s buf).1 = Verif.percent_encode_bytes s buf := by
  unfold percent_encode_bytes Verif.percent_encode_bytes
  by_cases h : buf.length ≥ 3
  · rw [if_pos h, if_pos h, bind_fst, percentEncodeLoop_fst]
  · rw [if_neg h, if_neg h]; rfl

@[simp] theorem splitAtFirst_fst (p : Char → Bool) (s : Str) : (splitAtFirst p s).1 = Verif.splitAtFirst p s := by
  unfold splitAtFirst Verif.splitAtFirst
  rw [bind_fst, findSplitP_fst]; rfl

@[simp] theorem writePercentEncodedGo_fst : ∀ (f : Nat) (s : Str),
    (writePercentEncodedGo f s).1 = Verif.writePercentEncodedGo f s
  | 0, _ => rfl
  | f + 1, s => by
    unfold writePercentEncodedGo Verif.writePercentEncodedGo
    by_cases h : s.isEmpty = true
    · rw [if_pos h, if_pos h]; rfl
    · rw [if_neg h, if_neg h, bind_fst, splitAtFirst_fst]
      rcases Verif.splitAtFirst (fun c => !isAscii c) s with ⟨a, r⟩
      simp only
      generalize (if a.isEmpty = true then s else r) = t
      by_cases h2 : t.isEmpty = true
      · rw [if_pos h2, if_pos h2]; rfl
      · rw [if_neg h2, if_neg h2, bind_fst, splitAtFirst_fst]
        rcases Verif.splitAtFirst isAscii t with ⟨n, q⟩
        simp only
        by_cases h3 : n.isEmpty = true
        · rw [if_pos h3, if_pos h3]; rfl
        · rw [if_neg h3, if_neg h3, bind_fst, bind_fst, percent_encode_bytes_fst]
          show _ = Option.bind (Verif.percent_encode_bytes n (List.replicate (21 * 3) 0)) _
          rcases Verif.percent_encode_bytes n (List.replicate (21 * 3) 0) with _ | e
          · rfl
          · simp only [bind_fst, writePercentEncodedGo_fst f q]
            show _ = Option.bind (Verif.writePercentEncodedGo f q) _
            rcases Verif.writePercentEncodedGo f q <;> rfl

@[simp] theorem inlineLoop_fst : ∀ (f : Nat) (buf : List Nat) (d s n : Nat),
    (inlineLoop f buf d s n).1 = Verif.inlineLoop f buf d s n
  | 0, buf, d, s, n => by
    unfold inlineLoop Verif.inlineLoop
    by_cases h : n > 0
    · rw [if_pos h, if_pos h]; rfl
    · rw [if_neg h, if_neg h]; rfl
  | f + 1, buf, d, s, n => by
    unfold inlineLoop Verif.inlineLoop
    by_cases h : n > 0
    · rw [if_pos h, if_pos h]
      simp only [bind_fst]
      rcases subB s 1 with _ | s1
      · rfl
      rcases subB d 1 with _ | d1
      · rfl
      simp only [Option.bind_eq_bind, Option.bind_some]
      rcases buf[s1]? with _ | b
      · rfl
      simp only [Option.bind_some]
      by_cases hb : b < 128
      · rw [if_pos hb, if_pos hb, bind_fst]
        rcases setB buf d1 b with _ | w
        · rfl
        · exact inlineLoop_fst f w d1 s1 n
      · rw [if_neg hb, if_neg hb, bind_fst]
        rcases subB d1 2 with _ | d2
        · rfl
        simp only [Option.bind_some]
        rcases setB buf d2 37 with _ | w
        · rfl
        simp only [Option.bind_some]
        rcases HEXDIGITS[b >>> 4]? with _ | hi
        · rfl
        simp only [Option.bind_some]
        rcases setB w (d2 + 1) hi with _ | w1
        · rfl
        simp only [Option.bind_some]
        rcases HEXDIGITS[b &&& 0b1111]? with _ | lo
        · rfl
        simp only [Option.bind_some]
        rcases setB w1 (d2 + 2) lo with _ | w2
        · rfl
        exact inlineLoop_fst f w2 d2 s1 (n - 1)
    · rw [if_neg h, if_neg h]; rfl

theorem encode_to_uri_inline_fst (s : Str) : (encode_to_uri_inline s).1 = Verif.encode_to_uri_inline s := by
  unfold encode_to_uri_inline Verif.encode_to_uri_inline count_nonascii
  rw [bind_fst]
  simp only
  by_cases h : (Verif.count_nonascii s == 0) = true
  · rw [if_pos h, if_pos h]; rfl
  · rw [if_neg h, if_neg h, bind_fst, bind_fst, inlineLoop_fst]
    simp only
    show _ = Option.bind (Verif.inlineLoop _ _ _ _ _) _
    rcases Verif.inlineLoop _ _ _ _ _ <;> rfl

/-! ### The bounds -/

theorem sliceFrom_len {s r : Str} {n : Nat} (h : sliceFrom s n = some r) : blen r + n = blen s := by
  obtain ⟨a, e, ha⟩ := Out.sliceFrom_suffix h
  rw [e, blen_append]
  omega

theorem take_xdigits2_snd (s : Str) :
    (∀ b r, Verif.take_xdigits2 s = some (b, r) → (take_xdigits2 s).2 + blen r = blen s ∧ blen r + 2 = blen s) ∧
      (take_xdigits2 s).2 ≤ blen s := by
  refine ⟨?_, by unfold take_xdigits2; simp only; omega⟩
  intro b r h
  have : blen r + 2 = blen s := by
    unfold Verif.take_xdigits2 at h
    split at h
    · rw [Option.bind_eq_some_iff] at h
      obtain ⟨v, _, h⟩ := h
      rw [Option.map_eq_some_iff] at h
      obtain ⟨q, h, e⟩ := h
      cases e
      exact sliceFrom_len h
    · cases h
  unfold take_xdigits2
  simp only
  omega

theorem is_ascii_only_host_go_snd : ∀ (f : Nat) (s : Str), (is_ascii_only_host_go f s).2 ≤ blen s
  | 0, _ => Nat.zero_le _
  | f + 1, s => by
    have h1 := findSplitHoleP_snd (fun c => !isAscii c || c == '%') s
    unfold is_ascii_only_host_go
    rw [bind_snd, findSplitHoleP_fst]
    rcases hs : Verif.findSplitHoleP (fun c => !isAscii c || c == '%') s with _ | ⟨a, c, r⟩
    · simp only [ret_snd]; omega
    · have h2 := h1.1 _ _ _ hs
      simp only
      by_cases hc : (c != '%') = true
      · rw [if_pos hc, ret_snd]; omega
      · rw [if_neg hc, bind_snd, take_xdigits2_fst]
        have h3 := take_xdigits2_snd r
        rcases ht : Verif.take_xdigits2 r with _ | ⟨b, q⟩
        · simp only [ret_snd]; omega
        · have h4 := h3.1 _ _ ht
          have h5 := is_ascii_only_host_go_snd f q
          simp only
          by_cases hb : b < 128
          · rw [if_pos hb]; omega
          · rw [if_neg hb, ret_snd]; omega

/-- What a scan for continuation bytes costs. -/
theorem takeCont_snd : ∀ (n : Nat) (buf : List Nat) (s : Str),
    (takeCont n buf s).2 ≤ blen s ∧
    (∀ b r, Verif.takeCont n buf s = some (.full b r) →
      (takeCont n buf s).2 + blen r = blen s ∧ blen r + n * 3 = blen s) ∧
    (∀ o r, Verif.takeCont n buf s = some (.again o r) →
      (takeCont n buf s).2 + blen r ≤ blen s + 3 ∧ blen r ≤ blen s)
  | 0, buf, s => by
    refine ⟨Nat.zero_le _, ?_, ?_⟩
    · intro b r h
      simp only [Verif.takeCont, Option.some.injEq, ContRes.full.injEq] at h
      obtain ⟨_, rfl⟩ := h
      simp [takeCont]
    · intro o r h
      simp [Verif.takeCont] at h
  | n + 1, buf, [] => by
    refine ⟨Nat.zero_le _, ?_, ?_⟩ <;> intro b r h <;> simp [Verif.takeCont] at h
  | n + 1, buf, c :: s => by
    unfold takeCont Verif.takeCont
    have hp := Char.utf8Size_pos c
    simp only [bind_snd, blen_cons]
    by_cases hc : (c == '%') = true
    · have hc1 : c.utf8Size = 1 := by rw [beq_iff_eq.1 hc]; decide
      simp only [hc, if_true, bind_snd, take_xdigits2_fst, hc1]
      have h3 := take_xdigits2_snd s
      rcases ht : Verif.take_xdigits2 s with _ | ⟨b, q⟩
      · simp only [ret_snd]
        refine ⟨by omega, ?_, ?_⟩ <;> intro b r h <;> cases h
      · have h4 := h3.1 _ _ ht
        simp only
        by_cases hb : (!is_utf8_byte_continue b) = true
        · rw [if_pos hb, if_pos hb]
          simp only [ret_snd]
          refine ⟨by omega, ?_, ?_⟩
          · intro b r h; cases h
          · intro o r h
            simp only [Option.some.injEq, ContRes.again.injEq] at h
            obtain ⟨_, rfl⟩ := h
            rw [blen_cons, hc1]
            omega
        · rw [if_neg hb, if_neg hb]
          obtain ⟨i1, i2, i3⟩ := takeCont_snd n (buf ++ [b]) q
          refine ⟨by omega, ?_, ?_⟩
          · intro b' r h
            have := i2 _ _ h
            omega
          · intro o r h
            have := i3 _ _ h
            omega
    · simp only [hc, Bool.false_eq_true, if_false, ret_snd]
      refine ⟨by omega, ?_, ?_⟩
      · intro b r h; cases h
      · intro o r h
        simp only [Option.some.injEq, ContRes.again.injEq] at h
        obtain ⟨_, rfl⟩ := h
        omega

theorem pct_case_go_snd (S : Spec) : ∀ (f : Nat) (s : Str), (pct_case_go S f s).2 ≤ 2 * blen s
  | 0, _ => Nat.zero_le _
  | f + 1, s => by
    have h1 := find_split_hole_snd s '%'
    unfold pct_case_go
    rw [bind_snd, find_split_hole_fst]
    rcases hs : Verif.find_split_hole s '%' with _ | ⟨a, r⟩
    · simp only [ret_snd]; omega
    · have h2 := h1.1 _ _ hs
      have h3 := take_xdigits2_snd r
      simp only [bind_snd, take_xdigits2_fst]
      rcases ht : Verif.take_xdigits2 r with _ | ⟨b, q⟩
      · simp only [ret_snd]; omega
      · have h4 := h3.1 _ _ ht
        have h5 := pct_case_go_snd S f q
        simp only
        by_cases hb : b < 0x80
        · rw [if_pos hb, bind_snd, ret_snd]; omega
        · rw [if_neg hb]
          rcases expectedLen b with _ | n
          · simp only [bind_snd, ret_snd]; omega
          · obtain ⟨t1, t2, t3⟩ := takeCont_snd (n - 1) [b] q
            simp only [bind_snd, takeCont_fst]
            rcases hk : Verif.takeCont (n - 1) [b] q with _ | ⟨u, v⟩ | ⟨u, v⟩ | u
            · simp only [ret_snd]; omega
            · have t4 := t2 _ _ hk
              have h6 := pct_case_go_snd S f v
              simp only
              rcases into_char_trusted u with _ | _ | c
              · simp only [ret_snd]; omega
              · simp only
                rcases hw : sliceFrom q ((n - 1) * 3) with _ | w
                · simp only [ret_snd]; omega
                · have h7 := pct_case_go_snd S f w
                  have h8 := sliceFrom_len hw
                  simp only [bind_snd, ret_snd]; omega
              · simp only [bind_snd, ret_snd]; omega
            · have t4 := t3 _ _ hk
              have h6 := pct_case_go_snd S f v
              simp only [bind_snd, ret_snd]; omega
            · simp only [ret_snd]; omega

theorem ascii_host_go_snd : ∀ (f : Nat) (s : Str), (ascii_host_go f s).2 ≤ blen s
  | 0, _ => Nat.zero_le _
  | f + 1, s => by
    have h1 := find_split_hole_snd s '%'
    unfold ascii_host_go
    rw [bind_snd, find_split_hole_fst]
    rcases hs : Verif.find_split_hole s '%' with _ | ⟨a, r⟩
    · simp only [ret_snd]; omega
    · have h2 := h1.1 _ _ hs
      have h3 := take_xdigits2_snd r
      simp only [bind_snd, take_xdigits2_fst]
      rcases ht : Verif.take_xdigits2 r with _ | ⟨b, q⟩
      · simp only [ret_snd]; omega
      · have h4 := h3.1 _ _ ht
        have h5 := ascii_host_go_snd f q
        simp only
        by_cases hb : b < 128
        · rw [if_pos hb, bind_snd, ret_snd]; omega
        · rw [if_neg hb, ret_snd]; omega

theorem position_snd (p : Nat → Bool) : ∀ s : List Nat,
    (position p s).2 ≤ s.length ∧ ∀ n, Bytes.position p s = some n → (position p s).2 = n + 1 ∧ n < s.length
  | [] => by simp [position, Bytes.position]
  | b :: r => by
    obtain ⟨h1, h2⟩ := position_snd p r
    unfold position Bytes.position
    by_cases h : p b = true
    · simp only [h, if_true, List.length_cons]
      refine ⟨by omega, ?_⟩
      intro n e
      cases e
      omega
    · simp only [h, Bool.false_eq_true, if_false, List.length_cons]
      refine ⟨by omega, ?_⟩
      intro n e
      rw [Option.map_eq_some_iff] at e
      obtain ⟨m, e1, e2⟩ := e
      have := h2 _ e1
      omega

theorem stripDecodeXdigits2B_snd (s : List Nat) :
    (stripDecodeXdigits2B s).2 ≤ 4 ∧ (stripDecodeXdigits2B s).2 ≤ 2 * s.length ∧
    (∀ d r, Verif.stripDecodeXdigits2B s = some (some d, r) → r.length + 2 = s.length) ∧
    (∀ r, Verif.stripDecodeXdigits2B s = some (none, r) → r = s ∧ (stripDecodeXdigits2B s).2 ≤ 2) := by
  unfold stripDecodeXdigits2B Verif.stripDecodeXdigits2B startsWithHexB Verif.startsWithHexB takeXdigits2B
  rcases s with _ | ⟨x, _ | ⟨y, r⟩⟩
  · simp
  · simp
  · simp only [bind_snd, List.length_cons]
    rcases hx : isHexByte x <;> rcases hy : isHexByte y <;> simp <;> (try omega)
    refine ⟨by omega, ?_⟩
    rintro d q v _ _ rfl
    rfl

theorem tryDecodeGo_snd : ∀ (f : Nat) (s : List Nat),
    (tryDecodeGo f s).2 ≤ 3 * s.length ∧
    ∀ n d r, Verif.tryDecodeGo f s = some (some (n, d, r)) → (tryDecodeGo f s).2 + 3 * r.length ≤ 3 * s.length
  | 0, s => ⟨Nat.zero_le _, by intro n d r h; cases h⟩
  | f + 1, s => by
    unfold tryDecodeGo Verif.tryDecodeGo
    by_cases h : s.isEmpty = true
    · rw [if_pos h, if_pos h]
      exact ⟨Nat.zero_le _, by intro n d r h; cases h⟩
    · rw [if_neg h, if_neg h, bind_snd, position_fst]
      obtain ⟨h1, h2⟩ := position_snd (· == 0x25) s
      rcases hp : Bytes.position (· == 0x25) s with _ | n
      · simp only [ret_snd]
        exact ⟨by omega, by intro n d r h; cases h⟩
      · have h3 := h2 _ hp
        obtain ⟨k1, k2, k3, k4⟩ := stripDecodeXdigits2B_snd (s.drop (n + 1))
        simp only [List.length_drop] at k2 k3
        simp only [bind_snd, stripDecodeXdigits2B_fst]
        rcases hd : Verif.stripDecodeXdigits2B (s.drop (n + 1)) with _ | ⟨_ | d, r⟩
        · simp only [ret_snd]
          exact ⟨by omega, by intro n d r h; cases h⟩
        · have k5 := k4 _ hd
          obtain ⟨i1, i2⟩ := tryDecodeGo_snd f (s.drop (n + 1))
          simp only [List.length_drop] at i1 i2
          refine ⟨by simp only; omega, ?_⟩
          intro m d q hq
          have := i2 _ _ _ hq
          simp only
          omega
        · have k5 := k3 _ _ hd
          simp only [ret_snd]
          refine ⟨by omega, ?_⟩
          rintro m d' q ⟨⟩
          omega

theorem intoBytesGo_snd : ∀ (f : Nat) (s : List Nat), (intoBytesGo f s).2 ≤ 3 * s.length
  | 0, _ => Nat.zero_le _
  | f + 1, s => by
    unfold intoBytesGo
    by_cases h : s.isEmpty = true
    · rw [if_pos h]; exact Nat.zero_le _
    · rw [if_neg h, bind_snd, position_fst]
      obtain ⟨h1, h2⟩ := position_snd (· == 0x25) s
      rcases hp : Bytes.position (· == 0x25) s with _ | n
      · simp only [ret_snd]; omega
      · have h3 := h2 _ hp
        obtain ⟨k1, k2, k3, k4⟩ := stripDecodeXdigits2B_snd (s.drop (n + 1))
        simp only [List.length_drop] at k2 k3
        simp only [bind_snd, stripDecodeXdigits2B_fst]
        rcases hd : Verif.stripDecodeXdigits2B (s.drop (n + 1)) with _ | ⟨_ | d, r⟩
        · simp only [ret_snd]; omega
        · have k5 := k4 _ hd
          have i1 := intoBytesGo_snd f r
          rw [k5.1, List.length_drop] at i1
          simp only [bind_snd, ret_snd]
          rw [k5.1]
          omega
        · have k5 := k3 _ _ hd
          have i1 := intoBytesGo_snd f r
          simp only [bind_snd, ret_snd]
          omega

theorem into_bytes_snd (s : List Nat) : (into_bytes s).2 ≤ 3 * s.length := by
  obtain ⟨h1, h2⟩ := tryDecodeGo_snd (s.length + 1) s
  unfold into_bytes try_non_allocating_decode
  rw [bind_snd, tryDecodeGo_fst]
  rcases hd : Verif.tryDecodeGo (s.length + 1) s with _ | _ | ⟨n, d, r⟩
  · simp only [ret_snd]; omega
  · simp only [ret_snd]; omega
  · have h3 := h2 _ _ _ hd
    have h4 := intoBytesGo_snd (r.length + 1) r
    simp only [bind_snd, ret_snd]
    omega

theorem fragNext_snd (s : List Nat) :
    (fragNext s).2 ≤ 3 * s.length ∧
    ∀ x r, Verif.fragNext s = some (some (x, r)) → (fragNext s).2 + 3 * r.length ≤ 3 * s.length := by
  unfold fragNext Verif.fragNext
  rcases s with _ | ⟨b, s⟩
  · exact ⟨Nat.zero_le _, by intro x r h; cases h⟩
  · simp only [bind_snd, List.length_cons]
    by_cases hb : b = 0x25
    · obtain ⟨k1, k2, k3, k4⟩ := stripDecodeXdigits2B_snd s
      simp only [hb, decide_true, if_true, bind_snd, stripDecodeXdigits2B_fst]
      rcases hd : Verif.stripDecodeXdigits2B s with _ | ⟨_ | d, r⟩
      · simp only [ret_snd]
        exact ⟨by omega, by intro x r h; cases h⟩
      · have k5 := k4 _ hd
        simp only [ret_snd]
        refine ⟨by omega, ?_⟩
        rintro x q ⟨⟩
        omega
      · have k5 := k3 _ _ hd
        simp only [ret_snd]
        refine ⟨by omega, ?_⟩
        rintro x q ⟨⟩
        omega
    · obtain ⟨h1, h2⟩ := position_snd (· == 0x25) s
      simp only [hb, decide_false, if_false, bind_snd, position_fst]
      rcases hp : Bytes.position (· == 0x25) s with _ | n
      · simp only [ret_snd]
        refine ⟨by omega, ?_⟩
        rintro x q ⟨⟩
        simp only [List.length_nil]
        omega
      · have h3 := h2 _ hp
        simp only [ret_snd]
        refine ⟨by omega, ?_⟩
        rintro x q ⟨⟩
        simp only [List.length_drop, List.length_cons]
        omega

theorem fragAll_snd : ∀ (f : Nat) (s : List Nat), (fragAll f s).2 ≤ 3 * s.length
  | 0, _ => Nat.zero_le _
  | f + 1, s => by
    obtain ⟨h1, h2⟩ := fragNext_snd s
    unfold fragAll
    rw [bind_snd, fragNext_fst]
    rcases hd : Verif.fragNext s with _ | _ | ⟨x, r⟩
    · simp only [ret_snd]; omega
    · simp only [ret_snd]; omega
    · have h3 := h2 _ _ hd
      have h4 := fragAll_snd f r
      simp only [bind_snd, ret_snd]
      omega

theorem fillZip_snd : ∀ (buf bytes : List Nat),
    (fillZip buf bytes).2 ≤ 3 * bytes.length ∧
    ∀ r, Verif.fillZip buf bytes = some r → (fillZip buf bytes).2 + 3 * r.2.length = 3 * bytes.length
  | [], _ => by
    unfold fillZip Verif.fillZip
    exact ⟨Nat.zero_le _, by rintro r ⟨⟩; simp⟩
  | [_], _ => by
    unfold fillZip Verif.fillZip
    exact ⟨Nat.zero_le _, by rintro r ⟨⟩; simp⟩
  | [_, _], _ => by
    unfold fillZip Verif.fillZip
    exact ⟨Nat.zero_le _, by rintro r ⟨⟩; simp⟩
  | _ :: _ :: _ :: _, [] => by
    unfold fillZip Verif.fillZip
    exact ⟨Nat.zero_le _, by rintro r ⟨⟩; simp⟩
  | d0 :: d1 :: d2 :: buf, byte :: bytes => by
    obtain ⟨i1, i2⟩ := fillZip_snd buf bytes
    unfold fillZip Verif.fillZip
    simp only [List.length_cons]
    by_cases h : (d0 == 37) = true
    · rw [if_pos h, if_pos h, bind_snd]
      rcases HEXDIGITS[byte >>> 4]? with _ | hi
      · simp only [ret_snd]
        exact ⟨by omega, by intro r h; cases h⟩
      · simp only [bind_snd]
        rcases HEXDIGITS[byte &&& 0b1111]? with _ | lo
        · simp only [ret_snd]
          exact ⟨by omega, by intro r h; cases h⟩
        · simp only [bind_snd, ret_snd]
          refine ⟨by omega, ?_⟩
          intro r hr
          replace hr : (Option.bind (Verif.fillZip buf bytes) fun r => some (d0 :: hi :: lo :: r.1, r.2)) = some r := hr
          rw [Option.bind_eq_some_iff] at hr
          obtain ⟨q, e1, e2⟩ := hr
          have := i2 _ e1
          cases e2
          simp only
          omega
    · rw [if_neg h, if_neg h]
      exact ⟨Nat.zero_le _, by intro r h; cases h⟩

theorem fill_by_percent_encoded_snd (buf bytes : List Nat) :
    (fill_by_percent_encoded buf bytes).2 ≤ 3 * bytes.length ∧
    ∀ e b r, Verif.fill_by_percent_encoded buf bytes = some (e, b, r) →
      (fill_by_percent_encoded buf bytes).2 + 3 * r.length = 3 * bytes.length := by
  obtain ⟨h1, h2⟩ := fillZip_snd buf bytes
  unfold fill_by_percent_encoded Verif.fill_by_percent_encoded
  rw [bind_snd, fillZip_fst]
  rcases hf : Verif.fillZip buf bytes with _ | r
  · simp only [ret_snd]
    exact ⟨by omega, by intro e b r h; cases h⟩
  · have h3 := h2 _ hf
    simp only [ret_snd]
    refine ⟨by omega, ?_⟩
    intro e b q h
    replace h : (if (bytes.length - r.2.length) * 3 ≤ r.1.length then
      some (r.1.take ((bytes.length - r.2.length) * 3), r.1, r.2) else none) = some (e, b, q) := h
    split at h
    · cases h; omega
    · cases h

theorem percentEncodeLoop_snd : ∀ (f : Nat) (buf bytes : List Nat),
    (percentEncodeLoop f buf bytes).2 ≤ 3 * bytes.length
  | 0, _, _ => Nat.zero_le _
  | f + 1, buf, bytes => by
    obtain ⟨h1, h2⟩ := fill_by_percent_encoded_snd buf bytes
    unfold percentEncodeLoop
    by_cases h : bytes.length = 0
    · rw [if_pos h]; exact Nat.zero_le _
    · rw [if_neg h, bind_snd, fill_by_percent_encoded_fst]
      rcases hf : Verif.fill_by_percent_encoded buf bytes with _ | ⟨e, b, r⟩
      · simp only [ret_snd]; omega
      · have h3 := h2 _ _ _ hf
        have h4 := percentEncodeLoop_snd f b r
        simp only [bind_snd, ret_snd]
        omega

theorem percent_encode_bytes_snd (s : Str) (buf : List Nat) :
    (percent_encode_bytes s buf).2 ≤ buf.length + 3 * blen s := by
  unfold percent_encode_bytes
  by_cases h : buf.length ≥ 3
  · rw [if_pos h, bind_snd]
    have := percentEncodeLoop_snd ((utf8s s).length + 1)
      ((buf.take (buf.length / 3 * 3)).map fun _ => 37) (utf8s s)
    rw [utf8s_length] at this ⊢
    simp only
    omega
  · rw [if_neg h]; exact Nat.zero_le _

/-- The two parts, what finding them costs, and that the first has no needle. -/
theorem splitAtFirst_snd (p : Char → Bool) (s : Str) :
    (splitAtFirst p s).2 ≤ blen s ∧
    (splitAtFirst p s).2 ≤ blen (Verif.splitAtFirst p s).1 + 4 ∧
    blen (Verif.splitAtFirst p s).1 + blen (Verif.splitAtFirst p s).2 = blen s ∧
    ∀ c ∈ (Verif.splitAtFirst p s).1, p c = false := by
  obtain ⟨h1, h2⟩ := findSplitP_snd p s
  unfold splitAtFirst Verif.splitAtFirst
  rw [bind_snd, ret_snd]
  rcases hf : Verif.findSplitP p s with _ | ⟨a, b⟩
  · simp only [Option.getD_none, blen_nil]
    exact ⟨by omega, by omega, by omega, findSplitP_none.1 hf⟩
  · have h3 := h1 _ _ hf
    simp only [Option.getD_some]
    refine ⟨by omega, by omega, by omega, ?_⟩
    obtain ⟨_, _, _, _, _, h⟩ := findSplitP_some.1 hf
    exact h

theorem nonascii_two {c : Char} (h : isAscii c = false) : 2 ≤ c.utf8Size := by
  have h2 := Char.utf8Size_pos c
  by_cases h3 : c.utf8Size = 1
  · rw [Char.utf8Size_eq_one_iff] at h3
    unfold isAscii at h
    have h4 : c.toNat ≤ 127 := h3
    simp at h
    omega
  · omega

theorem writePercentEncodedGo_snd : ∀ (f : Nat) (s : Str), (writePercentEncodedGo f s).2 ≤ 71 * blen s
  | 0, _ => Nat.zero_le _
  | f + 1, s => by
    unfold writePercentEncodedGo
    by_cases h : s.isEmpty = true
    · rw [if_pos h]; exact Nat.zero_le _
    · rw [if_neg h, bind_snd, splitAtFirst_fst]
      obtain ⟨a1, a2, a3, a4⟩ := splitAtFirst_snd (fun c => !isAscii c) s
      rcases hx : Verif.splitAtFirst (fun c => !isAscii c) s with ⟨a, r⟩
      rw [hx] at a2 a3 a4
      simp only at a2 a3 a4 ⊢
      have ht : ∃ t, (if a.isEmpty = true then s else r) = t ∧ blen a + blen t = blen s := by
        refine ⟨_, rfl, ?_⟩
        by_cases he : a.isEmpty = true
        · rw [if_pos he, List.isEmpty_iff.1 he, blen_nil]; omega
        · rw [if_neg he]; exact a3
      obtain ⟨t, e, ht⟩ := ht
      rw [e]
      by_cases h2 : t.isEmpty = true
      · rw [if_pos h2, ret_snd]; omega
      · rw [if_neg h2, bind_snd, splitAtFirst_fst]
        obtain ⟨b1, b2, b3, b4⟩ := splitAtFirst_snd isAscii t
        rcases hy : Verif.splitAtFirst isAscii t with ⟨n, q⟩
        rw [hy] at b2 b3 b4
        simp only at b2 b3 b4 ⊢
        by_cases h3 : n.isEmpty = true
        · rw [if_pos h3, ret_snd]
          have : 1 ≤ blen t := by
            rcases t with _ | ⟨c, t⟩
            · simp at h2
            · have := Char.utf8Size_pos c
              rw [blen_cons]; omega
          omega
        · have hn : 2 ≤ blen n := by
            rcases n with _ | ⟨c, n⟩
            · simp at h3
            · have := nonascii_two (b4 c (List.mem_cons_self ..))
              rw [blen_cons]; omega
          rw [if_neg h3, bind_snd, bind_snd, percent_encode_bytes_fst]
          have h5 := percent_encode_bytes_snd n (List.replicate (21 * 3) 0)
          rw [List.length_replicate] at h5
          have h6 := writePercentEncodedGo_snd f q
          simp only
          rcases Verif.percent_encode_bytes n (List.replicate (21 * 3) 0) with _ | e
          · simp only [ret_snd]; omega
          · simp only [bind_snd, ret_snd]; omega

theorem setB_length {buf w : List Nat} {i b : Nat} (h : setB buf i b = some w) : w.length = buf.length := by
  unfold setB at h
  split at h
  · cases h; exact List.length_set
  · cases h

theorem inlineLoop_snd : ∀ (f : Nat) (buf : List Nat) (d s n : Nat),
    (inlineLoop f buf d s n).2 ≤ 4 * f ∧
    ∀ w, Verif.inlineLoop f buf d s n = some w → w.length = buf.length
  | 0, buf, d, s, n => by
    unfold inlineLoop Verif.inlineLoop
    by_cases h : n > 0
    · rw [if_pos h, if_pos h]; exact ⟨Nat.zero_le _, by intro w h; cases h⟩
    · rw [if_neg h, if_neg h]; exact ⟨Nat.zero_le _, by rintro w ⟨⟩; rfl⟩
  | f + 1, buf, d, s, n => by
    unfold inlineLoop Verif.inlineLoop
    by_cases h : n > 0
    · rw [if_pos h, if_pos h]
      simp only [bind_snd]
      rcases subB s 1 with _ | s1
      · exact ⟨by simp; omega, by intro w h; cases h⟩
      rcases subB d 1 with _ | d1
      · exact ⟨by simp; omega, by intro w h; cases h⟩
      simp only [Option.bind_eq_bind, Option.bind_some]
      rcases buf[s1]? with _ | b
      · exact ⟨by simp; omega, by intro w h; cases h⟩
      simp only [Option.bind_some]
      by_cases hb : b < 128
      · rw [if_pos hb, if_pos hb, bind_snd]
        rcases h1 : setB buf d1 b with _ | w
        · exact ⟨by simp; omega, by intro w h; cases h⟩
        · obtain ⟨i1, i2⟩ := inlineLoop_snd f w d1 s1 n
          refine ⟨by simp only; omega, ?_⟩
          intro v hv
          rw [i2 v hv, setB_length h1]
      · rw [if_neg hb, if_neg hb, bind_snd]
        rcases subB d1 2 with _ | d2
        · exact ⟨by simp; omega, by intro w h; cases h⟩
        simp only [Option.bind_some]
        rcases h1 : setB buf d2 37 with _ | w
        · exact ⟨by simp; omega, by intro w h; cases h⟩
        simp only [Option.bind_some]
        rcases HEXDIGITS[b >>> 4]? with _ | hi
        · exact ⟨by simp; omega, by intro w h; cases h⟩
        simp only [Option.bind_some]
        rcases h2 : setB w (d2 + 1) hi with _ | w1
        · exact ⟨by simp; omega, by intro w h; cases h⟩
        simp only [Option.bind_some]
        rcases HEXDIGITS[b &&& 0b1111]? with _ | lo
        · exact ⟨by simp; omega, by intro w h; cases h⟩
        simp only [Option.bind_some]
        rcases h3 : setB w1 (d2 + 2) lo with _ | w2
        · exact ⟨by simp; omega, by intro w h; cases h⟩
        obtain ⟨i1, i2⟩ := inlineLoop_snd f w2 d2 s1 (n - 1)
        refine ⟨by show 1 + (3 + (inlineLoop f w2 d2 s1 (n - 1)).2) ≤ _; omega, ?_⟩
        intro v hv
        rw [i2 v hv, setB_length h3, setB_length h2, setB_length h1]
    · rw [if_neg h, if_neg h]; exact ⟨Nat.zero_le _, by rintro w ⟨⟩; rfl⟩

theorem encode_to_uri_inline_snd (s : Str) : (encode_to_uri_inline s).2 ≤ 10 * blen s := by
  have hc : Verif.count_nonascii s ≤ blen s := by
    unfold Verif.count_nonascii
    rw [← utf8s_length s]
    exact List.length_filter_le ..
  unfold encode_to_uri_inline count_nonascii
  rw [bind_snd]
  simp only
  by_cases h : (Verif.count_nonascii s == 0) = true
  · rw [if_pos h, ret_snd]; omega
  · rw [if_neg h, bind_snd, bind_snd, inlineLoop_fst]
    simp only
    obtain ⟨i1, i2⟩ := inlineLoop_snd (blen s) (utf8s s ++ List.replicate (Verif.count_nonascii s * 2) 0)
      (utf8s s ++ List.replicate (Verif.count_nonascii s * 2) 0).length (blen s) (Verif.count_nonascii s)
    split
    next hl =>
      simp only [ret_snd]; omega
    next w hl =>
      have := i2 _ hl
      rw [List.length_append, List.length_replicate, utf8s_length] at this
      simp only [from_utf8]
      omega

end Work

/-! ### The property -/

/-- **C90 (the counter is only a counter).**  The functions whose work is counted give the same results as those of
the model. -/
theorem C90_same (S : Spec) (s : Str) (bs : List Nat) :
    (Work.pct_case_normalized S s).1 = pct_case_normalized S s ∧
    (Work.is_ascii_only_host s).1 = is_ascii_only_host s ∧
    (Work.normalized_ascii_only_host s).1 = normalized_ascii_only_host s ∧
    (Work.into_bytes bs).1 = into_bytes bs ∧ (Work.bytes_fragments bs).1 = bytes_fragments bs ∧
    (Work.encode_to_uri s).1 = encode_to_uri s ∧ (Work.encode_to_uri_inline s).1 = encode_to_uri_inline s :=
  ⟨Work.pct_case_go_fst S _ _, Work.is_ascii_only_host_go_fst _ _, Work.ascii_host_go_fst _ _, Work.into_bytes_fst bs,
    Work.fragAll_fst _ _, Work.writePercentEncodedGo_fst _ _, Work.encode_to_uri_inline_fst s⟩

/-- **C90 (linear).**  Whatever the text, valid or not: normalizing its triplets looks at no more than twice its
bytes, the check for an ASCII host and the normalization of such a host look at each byte once, decoding at no more
than three times the bytes, converting to a URI in place at no more than ten times (reads and writes), and writing it
as a URI at no more than 71 times (reads and writes, among them 126 bytes of a buffer for every run of characters that
are not ASCII). -/
theorem C90_linear (S : Spec) (s : Str) (bs : List Nat) :
    (Work.pct_case_normalized S s).2 ≤ 2 * blen s ∧ (Work.is_ascii_only_host s).2 ≤ blen s ∧
    (Work.normalized_ascii_only_host s).2 ≤ blen s ∧ (Work.into_bytes bs).2 ≤ 3 * bs.length ∧
    (Work.bytes_fragments bs).2 ≤ 3 * bs.length ∧ (Work.encode_to_uri_inline s).2 ≤ 10 * blen s ∧
    (Work.encode_to_uri s).2 ≤ 71 * blen s :=
  ⟨Work.pct_case_go_snd S _ _, Work.is_ascii_only_host_go_snd _ _, Work.ascii_host_go_snd _ _, Work.into_bytes_snd bs,
    Work.fragAll_snd _ _, Work.encode_to_uri_inline_snd s, Work.writePercentEncodedGo_snd _ _⟩

/-- 29 bytes cost 44 looks (a leading byte without its continuation makes the next triplet be read twice); the
counter is near the bound for a text of such bytes. -/
example : (Work.pct_case_normalized .iri (chars! "%C3%C3%C3%C3%C3%41%e3%81%82/x")).2 = 44 ∧
    blen (chars! "%C3%C3%C3%C3%C3%41%e3%81%82/x") = 29 ∧
    (Work.pct_case_normalized .iri (chars! "%C3%C3%C3%C3%C3%41%e3%81%82/x")).1.isSome = true ∧
    (Work.into_bytes (utf8s (chars! "%%%%41%a%e3%81%82/x"))).2 = 32 ∧
    (Work.encode_to_uri (chars! "/あ/ñ/")).2 = 282 ∧ (Work.encode_to_uri_inline (chars! "/あ/ñ/")).2 = 60 ∧
    (Work.is_ascii_only_host (chars! "ex%41mple.com")) = (some true, 13) := by
  decide +kernel

end Verif
