import Verif.Model.Format
import Verif.Lemmas.Encode

namespace Verif

namespace Display

theorem Fails.run {σ : Type} {step : σ → Str → σ × Bool} {d : Display} (h : d.Fails) :
    ∀ w, (d.run step w).2 = false := by
  induction h with
  | done => intro w; rfl
  | write s next _ ih => intro w; exact ih _ _

theorem Honest.chunks : ∀ l, (Display.chunks l).Honest
  | [] => .done true
  | s :: r => .write s _ (Honest.chunks r) .done

theorem text_chunks : ∀ l, (Display.chunks l).text = (l.flatten, true)
  | [] => rfl
  | s :: r => by
    have := text_chunks r
    show (s ++ ((Display.chunks r).text).1, ((Display.chunks r).text).2) = _
    rw [this]; rfl

end Display

namespace Fmt

theorem stripPrefix_iff : ∀ {p s r : Str}, stripPrefix p s = some r ↔ s = p ++ r
  | [], s, r => by simp [stripPrefix]
  | c :: p, [], r => by simp [stripPrefix]
  | c :: p, d :: s, r => by
    unfold stripPrefix
    by_cases h : c = d
    · rw [if_pos h, stripPrefix_iff, h]; simp
    · rw [if_neg h]
      simp only [List.cons_append, List.cons.injEq, reduceCtorEq, false_iff, not_and]
      intro e; exact absurd e.symm h

theorem run_cmp {d : Display} (h : d.Honest) : ∀ w : Str,
    ((d.run cmpWrite w).2 = true ∧ (d.run cmpWrite w).1 = []) ↔ d.text = (w, true) := by
  induction h with
  | done ok =>
    intro w
    cases ok <;> simp [Display.run, Display.text, eq_comm]
  | write s next _ hf ih =>
    intro w
    unfold Display.run Display.text
    unfold cmpWrite
    cases hs : stripPrefix s w with
    | some rest =>
      rw [stripPrefix_iff.1 hs]
      show ((next true).run cmpWrite rest).2 = true ∧ ((next true).run cmpWrite rest).1 = [] ↔ _
      rw [ih rest]
      generalize (next true).text = t
      obtain ⟨a, b⟩ := t
      simp
    | none =>
      have e := hf.run (step := cmpWrite) w
      show ((next false).run cmpWrite w).2 = true ∧ _ ↔ _
      rw [e]
      simp only [Bool.false_eq_true, false_and, Prod.mk.injEq, false_iff, not_and]
      intro e2
      have := stripPrefix_iff.2 e2.symm
      rw [hs] at this; cases this

/-- The invariant of `ByteBufWriter`, for an original buffer `buf` and text `t` so far. -/
def BufInv (buf : List Nat) (w : ByteBufWriter) (t : Str) : Prop :=
  w.front = utf8s t ∧ w.len_written = blen t ∧ blen t ≤ buf.length ∧ w.buffer = buf.drop (blen t)

theorem buf_write {buf : List Nat} {w : ByteBufWriter} {t : Str} (h : BufInv buf w t) (s : Str) :
    (blen (t ++ s) ≤ buf.length ∧ (w.write s).2 = true ∧ BufInv buf (w.write s).1 (t ++ s)) ∨
    (buf.length < blen (t ++ s) ∧ w.write s = (w, false)) := by
  obtain ⟨h1, h2, h3, h4⟩ := h
  unfold ByteBufWriter.write
  rw [blen_append]
  by_cases hl : w.buffer.length < blen s
  · right
    rw [if_pos hl]
    rw [h4, List.length_drop] at hl
    exact ⟨by omega, rfl⟩
  · left
    rw [if_neg hl]
    rw [h4, List.length_drop] at hl
    refine ⟨by omega, rfl, ?_, ?_, ?_, ?_⟩
    · simp [h1, utf8s_append]
    · simp [h2, blen_append]
    · rw [blen_append]; omega
    · simp [h4, blen_append]

theorem run_buf_any {buf : List Nat} (d : Display) : ∀ (w : ByteBufWriter) (t : Str), BufInv buf w t →
    ∃ t', BufInv buf (d.run ByteBufWriter.write w).1 t' := by
  induction d with
  | done ok => intro w t h; exact ⟨t, h⟩
  | write s next ih =>
    intro w t h
    unfold Display.run
    rcases buf_write h s with ⟨_, _, h3⟩ | ⟨_, h2⟩
    · exact ih _ _ _ h3
    · rw [h2]; exact ih _ _ _ h

theorem run_buf {buf : List Nat} {d : Display} (h : d.Honest) : ∀ (w : ByteBufWriter) (t : Str),
    BufInv buf w t →
    (d.text.2 = true → blen (t ++ d.text.1) ≤ buf.length →
      (d.run ByteBufWriter.write w).2 = true ∧
      BufInv buf (d.run ByteBufWriter.write w).1 (t ++ d.text.1)) ∧
    (¬ (d.text.2 = true ∧ blen (t ++ d.text.1) ≤ buf.length) →
      (d.run ByteBufWriter.write w).2 = false) := by
  induction h with
  | done ok =>
    intro w t h
    simp only [Display.text, Display.run, List.append_nil]
    refine ⟨fun h1 _ => ⟨h1, h⟩, fun h1 => ?_⟩
    cases ok with
    | true => exact absurd ⟨rfl, h.2.2.1⟩ h1
    | false => rfl
  | write s next _ hf ih =>
    intro w t h
    simp only [Display.text, Display.run]
    rw [← List.append_assoc]
    rcases buf_write h s with ⟨_, h2, h3⟩ | ⟨h1, h2⟩
    · rw [h2]; exact ih _ _ h3
    · rw [h2]
      have : buf.length < blen (t ++ s ++ ((next true).text).1) := by rw [blen_append]; omega
      exact ⟨fun _ h4 => by omega, fun _ => hf.run _⟩

theorem buf_after {buf : List Nat} {w : ByteBufWriter} {t : Str} (h : BufInv buf w t) :
    w.front ++ w.buffer = utf8s t ++ buf.drop (blen t) ∧
    (w.front ++ w.buffer).length = buf.length ∧ w.len_written ≤ buf.length ∧
    (w.front ++ w.buffer).take w.len_written = utf8s t := by
  obtain ⟨h1, h2, h3, h4⟩ := h
  rw [h1, h2, h4]
  refine ⟨rfl, ?_, h3, ?_⟩
  · rw [List.length_append, utf8s_length, List.length_drop]; omega
  · rw [List.take_append_of_le_length (by rw [utf8s_length]; omega), ← utf8s_length, List.take_length]

theorem run_str (alloc : Nat → Bool) (d : Display) : ∀ w : StringWriter,
    (w.error = true → (d.run (StringWriter.write alloc) w).1 = w) ∧
    (w.error = false →
      ((d.run (StringWriter.write alloc) w).1.error = false →
        (d.run (StringWriter.write alloc) w).2 = d.text.2 ∧
        (d.run (StringWriter.write alloc) w).1.buffer = w.buffer ++ d.text.1) ∧
      ((d.run (StringWriter.write alloc) w).1.error = true →
        (∃ n, alloc n = false) ∧ ∃ p q, d.text.1 = p ++ q ∧
        (d.run (StringWriter.write alloc) w).1.buffer = w.buffer ++ p)) := by
  induction d with
  | done ok =>
    intro w
    refine ⟨fun _ => rfl, fun h => ⟨fun _ => ⟨rfl, by simp [Display.run, Display.text]⟩, fun h2 => ?_⟩⟩
    rw [show (Display.run (StringWriter.write alloc) (.done ok) w).1 = w from rfl, h] at h2
    cases h2
  | write s next ih =>
    intro w
    constructor
    · intro h
      unfold Display.run
      rw [show w.write alloc s = (w, false) by unfold StringWriter.write; rw [if_pos h]]
      exact (ih false w).1 h
    · intro h
      unfold Display.run
      by_cases ha : alloc w.calls = false
      · rw [show w.write alloc s = ({ w with error := true, calls := w.calls + 1 }, false) by
          unfold StringWriter.write; rw [if_neg (by rw [h]; simp), if_pos ha]]
        have := (ih false { w with error := true, calls := w.calls + 1 }).1 rfl
        refine ⟨fun h2 => ?_, fun _ => ⟨⟨_, ha⟩, [], _, rfl, ?_⟩⟩
        · simp only [this] at h2; cases h2
        · simp [this]
      · rw [show w.write alloc s = ({ w with buffer := w.buffer ++ s, calls := w.calls + 1 }, true) by
          unfold StringWriter.write; rw [if_neg (by rw [h]; simp), if_neg ha]]
        obtain ⟨h1, h2⟩ := (ih true { w with buffer := w.buffer ++ s, calls := w.calls + 1 }).2 h
        refine ⟨fun h3 => ⟨(h1 h3).1, ?_⟩, fun h3 => ?_⟩
        · rw [(h1 h3).2]; simp [Display.text]
        · obtain ⟨hn, p, q, h4, h5⟩ := h2 h3
          refine ⟨hn, s ++ p, q, by simp [Display.text, h4], ?_⟩
          rw [h5]; simp

/-- If no allocation fails the writer never records an error. -/
theorem run_str_ok {alloc : Nat → Bool} (ha : ∀ n, alloc n = true) (d : Display) (w : StringWriter)
    (h : w.error = false) : (d.run (StringWriter.write alloc) w).1.error = false := by
  cases h2 : (d.run (StringWriter.write alloc) w).1.error with
  | false => rfl
  | true =>
    obtain ⟨⟨n, hn⟩, _⟩ := (run_str alloc d w).2 h |>.2 h2
    rw [ha n] at hn; cases hn

/-- An honest `Display` that met an allocation failure returns `Err`. -/
theorem run_str_honest {alloc : Nat → Bool} {d : Display} (hd : d.Honest) : ∀ w : StringWriter,
    w.error = false → (d.run (StringWriter.write alloc) w).1.error = true →
    (d.run (StringWriter.write alloc) w).2 = false := by
  induction hd with
  | done ok => intro w h h2; rw [show (Display.run (StringWriter.write alloc) (.done ok) w).1 = w from rfl, h] at h2; cases h2
  | write s next _ hf ih =>
    intro w h
    unfold Display.run
    by_cases ha : alloc w.calls = false
    · rw [show w.write alloc s = ({ w with error := true, calls := w.calls + 1 }, false) by
          unfold StringWriter.write; rw [if_neg (by rw [h]; simp), if_pos ha]]
      intro _; exact hf.run _
    · rw [show w.write alloc s = ({ w with buffer := w.buffer ++ s, calls := w.calls + 1 }, true) by
          unfold StringWriter.write; rw [if_neg (by rw [h]; simp), if_neg ha]]
      exact ih _ h

end Fmt

end Verif
