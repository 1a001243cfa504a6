import Verif.Model.TemplateWriter
import Verif.Spec.Writer
import Verif.Spec.Writer
import Verif.Lemmas.WriterSim

/-!
# Expansion into a writer follows the expansion to a text
-/

namespace Verif.Tpl

open Verif.MaybePct

variable {τ : Type}

/-- `Rel t x t' b`: the text `x` was to be written, the state of the writer went from `t` to `t'`, and
`b` tells whether all of it was accepted. -/
structure Tracks (E : Bool) (w : Writer τ) (Rel : τ → Str → τ → Bool → Prop) : Prop where
  nil : ∀ t, Rel t [] t true
  trans : ∀ {t x t' y t'' b}, Rel t x t' true → Rel t' y t'' b → Rel t (x ++ y) t'' b
  stop : ∀ {t x t'} y, Rel t x t' false → Rel t (x ++ y) t' false
  write : ∀ t s, (E = true ∨ s ≠ []) → ∃ t' b, w t s = some (t', b) ∧ Rel t s t' b

/-- Running a part of the program that writes the text `m` (`none`: it panics). -/
def SimW (Rel : τ → Str → τ → Bool → Prop) (t : τ) (m : Option Str) (o : Option (τ × Bool)) : Prop :=
  match m with
  | none => o = none ∨ ∃ t' x, o = some (t', false) ∧ Rel t x t' false
  | some x => ∃ t' b, o = some (t', b) ∧ Rel t x t' b

/-- One text after the other. -/
def cat (m m' : Option Str) : Option Str := m.bind fun x => m'.map fun y => x ++ y

section sim

variable {E : Bool} {w : Writer τ} {Rel : τ → Str → τ → Bool → Prop}

theorem SimW.seq (H : Tracks E w Rel) {t : τ} {m m' : Option Str} {o : Option (τ × Bool)}
    {k : τ → Option (τ × Bool)} (h : SimW Rel t m o) (hk : ∀ t', SimW Rel t' m' (k t')) :
    SimW Rel t (cat m m') (seqW o k) := by
  cases m with
  | none =>
    rcases h with rfl | ⟨t', x, rfl, h⟩
    · exact .inl rfl
    · exact .inr ⟨t', x, rfl, h⟩
  | some x =>
    obtain ⟨t', b, rfl, h⟩ := h
    cases b with
    | false =>
      cases m' with
      | none => exact .inr ⟨t', x, rfl, h⟩
      | some y => exact ⟨t', false, rfl, H.stop y h⟩
    | true =>
      have h' := hk t'
      cases m' with
      | none =>
        rcases h' with h' | ⟨t'', y, h', h2⟩
        · exact .inl h'
        · exact .inr ⟨t'', x ++ y, h', H.trans h h2⟩
      | some y =>
        obtain ⟨t'', b, h', h2⟩ := h'
        exact ⟨t'', b, h', H.trans h h2⟩

theorem SimW.ok (H : Tracks E w Rel) (t : τ) : SimW Rel t (some []) (okW t) := ⟨t, true, rfl, H.nil t⟩

theorem SimW.write (H : Tracks E w Rel) (t : τ) {s : Str} (hs : E = true ∨ s ≠ []) :
    SimW Rel t (some s) (w t s) := H.write t s hs

theorem cat_some (x y : Str) : cat (some x) (some y) = some (x ++ y) := rfl

theorem SimW.seq' (H : Tracks E w Rel) {t : τ} {x y : Str} {o : Option (τ × Bool)}
    {k : τ → Option (τ × Bool)} (h : SimW Rel t (some x) o) (hk : ∀ t', SimW Rel t' (some y) (k t')) :
    SimW Rel t (some (x ++ y)) (seqW o k) := SimW.seq H h hk

theorem pieces_sim {W : Writer τ} {f : Str → Str} (H : Tracks E w Rel)
    (hw : ∀ t s, SimW Rel t (some (f s)) (W t s)) (t : τ) (v : List Str) :
    SimW Rel t (some (v.flatMap f)) (writePieces W t v) := by
  induction v generalizing t with
  | nil => exact SimW.ok H t
  | cons s r ih =>
    rw [List.flatMap_cons]
    exact SimW.seq' H (hw t s) fun t' => ih t'

theorem writeAll_sim (H : Tracks E w Rel) (t : τ) (l : List Str) (hl : E = true ∨ [] ∉ l) :
    SimW Rel t (some l.flatten) (writePieces w t l) := by
  induction l generalizing t with
  | nil => exact SimW.ok H t
  | cons s r ih =>
    rw [List.flatten_cons]
    refine SimW.seq' H (SimW.write H t ?_) fun t' => ih t' ?_
    · exact hl.imp id fun h => fun e => h (by simp [e])
    · exact hl.imp id fun h => fun e => h (List.mem_cons_of_mem _ e)

variable {S : Spec} {hex : Nat → List Str}

theorem filterChar_sim (H : Tracks E w Rel) (hh : HexOk hex) (ctx : Context) (t : τ) (c : Char) :
    SimW Rel t (some (encWriteChar S ctx c)) (filterChar S hex ctx w t c) := by
  unfold filterChar encWriteChar
  split
  · exact SimW.write H t (.inr (by simp))
  · unfold writePctChar write_pct_encoded_char
    have : (utf8 c).flatMap writePct = ((utf8 c).flatMap hex).flatten := by
      rw [List.flatten_eq_flatMap, List.flatMap_assoc]
      congr 1
      funext b
      rw [← List.flatten_eq_flatMap, (hh b).1]
    rw [this]
    refine writeAll_sim H t _ (.inr ?_)
    rw [List.mem_flatMap]
    rintro ⟨b, _, hb⟩
    exact (hh b).2 hb

theorem filterStr_sim (H : Tracks E w Rel) (hh : HexOk hex) (ctx : Context) (t : τ) (s : Str) :
    SimW Rel t (some (encWriteStr S ctx s)) (filterStr S hex ctx w t s) := by
  induction s generalizing t with
  | nil => exact SimW.ok H t
  | cons c r ih =>
    unfold encWriteStr
    rw [List.flatMap_cons]
    exact SimW.seq' H (filterChar_sim H hh ctx t c) fun t' => ih t'

theorem encoded_sim (H : Tracks E w Rel) (hh : HexOk hex) (ctx : Context) (t : τ) (v : Disp) :
    SimW Rel t (some (percent_encode S ctx v)) (writeEncoded S hex ctx w t v) :=
  pieces_sim H (fun t s => filterStr_sim H hh ctx t s) t v

/-! ### `escape_write` -/

/-- A text written by a callback of the decomposition. -/
theorem brk_sim (H : Tracks E w Rel) {t0 t : τ} {out x : Str} {o : Option (τ × Bool)}
    (h : Rel t0 out t true) (hs : SimW Rel t (some x) o) :
    ∃ p, breakOnErr o = some p ∧ ((p.2 = false ∧ p.1.2 = true ∧ Rel t0 (out ++ x) p.1.1 true) ∨
      (p.2 = true ∧ p.1.2 = false ∧ Rel t0 (out ++ x) p.1.1 false)) := by
  obtain ⟨t', b, rfl, h'⟩ := hs
  cases b with
  | true => exact ⟨_, rfl, .inl ⟨rfl, rfl, H.trans h h'⟩⟩
  | false => exact ⟨_, rfl, .inr ⟨rfl, rfl, H.trans h h'⟩⟩

/-- The states before a failure. -/
def GoR (Rel : τ → Str → τ → Bool → Prop) (t0 : τ) (out : Str) (b : τ × Bool) : Prop :=
  b.2 = true ∧ Rel t0 out b.1 true

/-- The states after a failure. -/
def StopR (Rel : τ → Str → τ → Bool → Prop) (t0 : τ) (out : Str) (b : τ × Bool) : Prop :=
  b.2 = false ∧ Rel t0 out b.1 false

theorem escapeFrag_some (S : Spec) (out : Str) (fr : Frag) :
    ∃ x, escapeFrag S out fr = some (out ++ x, false) := by
  cases fr <;> exact ⟨_, rfl⟩

theorem escapeFrag_sim (H : Tracks true w Rel) (hh : HexOk hex) (t0 : τ) (a : Str) (b : τ × Bool)
    (fr : Frag) (h : GoR Rel t0 a b) :
    Both (GoR Rel t0) (StopR Rel t0) (fun b => ∃ x, StopR Rel t0 x b) (escapeFrag S a fr)
      (escapeFragW S hex w b fr) := by
  cases fr with
  | noPct s =>
    obtain ⟨p, hp, h'⟩ := brk_sim H h.2 (encoded_sim (S := S) H hh .character b.1 [s])
    exact ⟨p, hp, h'⟩
  | stray =>
    obtain ⟨p, hp, h'⟩ := brk_sim H h.2 (SimW.write H b.1 (s := ['%', '2', '5']) (.inl rfl))
    exact ⟨p, hp, h'⟩
  | char s =>
    obtain ⟨p, hp, h'⟩ := brk_sim H h.2 (SimW.write H b.1 (s := s) (.inl rfl))
    exact ⟨p, hp, h'⟩
  | invalid s =>
    obtain ⟨p, hp, h'⟩ := brk_sim H h.2 (SimW.write H b.1 (s := s) (.inl rfl))
    exact ⟨p, hp, h'⟩

theorem escape_side (H : Tracks true w Rel) (hh : HexOk hex) (t0 : τ) :
    Side (GoR Rel t0) (StopR Rel t0) (fun b => ∃ x, StopR Rel t0 x b) (escapeFrag S)
      (escapeFragW S hex w) where
  step := fun a b fr h => escapeFrag_sim H hh t0 a b fr h
  keep := by
    intro b a fr a' br h _ e
    obtain ⟨x, hx⟩ := escapeFrag_some S a fr
    rw [hx] at e
    cases e
    exact ⟨h.1, H.stop x h.2⟩
  z := fun a b h => ⟨a, h⟩

theorem process_sim {Cb : Callback Str} {CbW : Callback (τ × Bool)} {t0 : τ}
    (hs : Side (GoR Rel t0) (StopR Rel t0) (fun b => ∃ x, StopR Rel t0 x b) Cb CbW) (hn : Rel t0 [] t0 true)
    (dbg : Bool) (v : Disp) :
    SimW Rel t0 (process_percent_encoded_best_effort dbg Cb [] v)
      (process_percent_encoded_best_effort dbg CbW (t0, true) v) := by
  have := hs.process (dbg := dbg) v (a := []) (b := (t0, true)) ⟨rfl, hn⟩
  cases e : process_percent_encoded_best_effort dbg Cb [] v with
  | none =>
    rw [e] at this
    rcases this with h | ⟨⟨t', b⟩, h, x, h1, h2⟩
    · exact .inl h
    · simp only at h1 h2; subst h1; exact .inr ⟨t', x, h, h2⟩
  | some x =>
    rw [e] at this
    obtain ⟨⟨t', b⟩, h, h' | h'⟩ := this
    · obtain ⟨h1, h2⟩ := h'; simp only at h1 h2; subst h1; exact ⟨t', true, h, h2⟩
    · obtain ⟨h1, h2⟩ := h'; simp only at h1 h2; subst h1; exact ⟨t', false, h, h2⟩

theorem escape_sim (H : Tracks true w Rel) (hh : HexOk hex) (dbg : Bool) (t : τ) (v : Disp) (r : Bool) :
    SimW Rel t (escape_write S dbg v r) (escapeWriteW S hex dbg w t v r) := by
  unfold escape_write escapeWriteW
  cases r with
  | true => exact process_sim (escape_side H hh t) (H.nil t) dbg v
  | false => exact pieces_sim H (fun t s => encoded_sim H hh .unreserve t [s]) t v

/-! ### `escape_write_with_maxlen` -/

theorem unbounded_side (H : Tracks true w Rel) (hh : HexOk hex) (t0 : τ) :
    Side (GoR Rel t0) (StopR Rel t0) (fun b => ∃ x, StopR Rel t0 x b) (unboundedFrag S)
      (unboundedFragW S hex w) where
  step := by
    intro a b fr h
    unfold unboundedFrag unboundedFragW
    cases fr with
    | noPct s =>
      simp only
      by_cases hz : s.isEmpty = true
      · simp only [hz, if_true]; exact .inl rfl
      · simp only [hz, Bool.false_eq_true, if_false]
        exact escapeFrag_sim H hh t0 a b (.noPct s) h
    | stray => exact escapeFrag_sim H hh t0 a b _ h
    | char s => exact escapeFrag_sim H hh t0 a b _ h
    | invalid s => exact escapeFrag_sim H hh t0 a b _ h
  keep := by
    intro b a fr a' br h _ e
    obtain ⟨x, hx⟩ := escapeFrag_some S a fr
    have : (a', br) = (a ++ x, false) := by
      unfold unboundedFrag at e
      rw [hx] at e
      cases fr with
      | noPct s =>
        simp only at e
        split at e
        · cases e
        · cases e; rfl
      | stray => cases e; rfl
      | char s => cases e; rfl
      | invalid s => cases e; rfl
    cases this
    exact ⟨h.1, H.stop x h.2⟩
  z := fun a b h => ⟨a, h⟩

theorem trunc_side (H : Tracks true w Rel) (hh : HexOk hex) (dbg : Bool) (t0 : τ) :
    Side (fun (a : Str × Nat) (b : (τ × Bool) × Nat) => a.2 = b.2 ∧ GoR Rel t0 a.1 b.1)
      (fun a b => StopR Rel t0 a.1 b.1) (fun b => ∃ x, StopR Rel t0 x b.1) (truncFrag S dbg)
      (truncFragW S hex dbg w) where
  step := by
    rintro ⟨a, n⟩ ⟨⟨t, k⟩, n'⟩ fr ⟨h0, h⟩
    simp only at h0; subst h0
    unfold truncFrag truncFragW
    simp only
    by_cases hn : n = 0
    · subst hn
      obtain ⟨h1, h2⟩ := h
      simp only at h1 h2
      simp only [if_true]
      exact ⟨_, rfl, .inl ⟨rfl, rfl, rfl, h2⟩⟩
    · rw [if_neg hn, if_neg hn]
      cases fr with
      | noPct s =>
        simp only
        cases lastIdx (s.take n) with
        | none => exact .inl rfl
        | some c =>
          simp only [Option.bind_some]
          cases usizeSub dbg n c with
          | none => exact .inl rfl
          | some m =>
            obtain ⟨p, hp, h'⟩ := brk_sim H h.2 (encoded_sim (S := S) H hh .character t [s.take n])
            simp only [Option.map_some, Option.bind_some, hp]
            exact ⟨_, rfl, h'.imp (fun h' => ⟨h'.1, rfl, h'.2⟩) id⟩
      | stray =>
        obtain ⟨p, hp, h'⟩ := brk_sim H h.2 (SimW.write H t (s := ['%', '2', '5']) (.inl rfl))
        simp only [Option.map_some, hp]
        exact ⟨_, rfl, h'.imp (fun h' => ⟨h'.1, rfl, h'.2⟩) id⟩
      | char s =>
        obtain ⟨p, hp, h'⟩ := brk_sim H h.2 (SimW.write H t (s := s) (.inl rfl))
        simp only [Option.map_some, hp]
        exact ⟨_, rfl, h'.imp (fun h' => ⟨h'.1, rfl, h'.2⟩) id⟩
      | invalid s =>
        obtain ⟨p, hp, h'⟩ := brk_sim H h.2 (SimW.write H t (s := s.take (min n (s.length / 3) * 3)) (.inl rfl))
        simp only [Option.map_some, hp]
        exact ⟨_, rfl, h'.imp (fun h' => ⟨h'.1, rfl, h'.2⟩) id⟩
  keep := by
    rintro b ⟨a, n⟩ fr ⟨a', n'⟩ br h _ e
    suffices ∃ x, a' = a ++ x by
      obtain ⟨x, rfl⟩ := this
      exact ⟨h.1, H.stop x h.2⟩
    unfold truncFrag at e
    simp only at e
    split at e
    · cases e; exact ⟨[], by simp⟩
    · cases fr with
      | noPct s =>
        simp only [Option.bind_eq_some_iff, Option.map_eq_some_iff] at e
        obtain ⟨_, _, _, _, e⟩ := e
        cases e; exact ⟨_, rfl⟩
      | stray => cases e; exact ⟨_, rfl⟩
      | char s => cases e; exact ⟨_, rfl⟩
      | invalid s => cases e; exact ⟨_, rfl⟩
  z := fun a b h => ⟨a.1, h⟩

theorem truncate_sim (H : Tracks E w Rel) (hh : HexOk hex) (dbg : Bool) (t : τ) (n : Nat) (v : Disp) :
    SimW Rel t (truncateWrite S dbg n v) (dropState (writePieces (truncateW S hex dbg w) (t, n) v)) := by
  induction v generalizing t n with
  | nil => exact SimW.ok H t
  | cons s r ih =>
    rw [truncateWrite, writePieces, truncateW]
    by_cases hn : n = 0
    · rw [if_pos hn, if_pos hn]
      exact ih t n
    · rw [if_neg hn, if_neg hn]
      obtain ⟨t', b, h1, h2⟩ := encoded_sim (S := S) H hh .unreserve t [s.take n]
      rw [h1]
      cases b with
      | false =>
        simp only [seqW]
        cases e : (usizeSub dbg n (((lastIdx (s.take n)).map (· + 1)).getD 0)).bind fun rest' =>
            (truncateWrite S dbg rest' r).map fun t => unreserve S [s.take n] ++ t with
        | none => exact .inr ⟨t', _, rfl, h2⟩
        | some x =>
          rw [Option.bind_eq_some_iff] at e
          obtain ⟨m, _, e⟩ := e
          rw [Option.map_eq_some_iff] at e
          obtain ⟨y, _, rfl⟩ := e
          exact ⟨t', false, rfl, H.stop y h2⟩
      | true =>
        simp only
        cases usizeSub dbg n (((lastIdx (s.take n)).map (· + 1)).getD 0) with
        | none => exact .inl rfl
        | some m =>
          simp only [Option.bind_some, Option.map_some, seqW]
          have hi := ih t' m
          cases e : truncateWrite S dbg m r with
          | none =>
            rw [e] at hi
            rcases hi with hi | ⟨t'', y, hi, h3⟩
            · exact .inl hi
            · exact .inr ⟨t'', _, hi, H.trans h2 h3⟩
          | some y =>
            rw [e] at hi
            obtain ⟨t'', b, hi, h3⟩ := hi
            exact ⟨t'', b, hi, H.trans h2 h3⟩

theorem escapeMax_sim (H : Tracks E w Rel) (hh : HexOk hex) (dbg : Bool) (t : τ) (v : Disp) (r : Bool)
    (hr : r = false ∨ E = true) (m : Option Nat) :
    SimW Rel t (escape_write_with_maxlen S dbg v r m) (escapeWriteMaxW S hex dbg w t v r m) := by
  unfold escape_write_with_maxlen escapeWriteMaxW
  cases r with
  | false =>
    simp only [Bool.false_eq_true, if_false]
    cases m with
    | none => exact encoded_sim H hh .unreserve t v
    | some n => exact truncate_sim H hh dbg t n v
  | true =>
    simp only [if_true]
    have : E = true := by simpa using hr
    subst this
    cases m with
    | none => exact process_sim (unbounded_side H hh t) (H.nil t) dbg v
    | some n =>
      have := (trunc_side (S := S) H hh dbg t).process (dbg := dbg) v (a := ([], n)) (b := ((t, true), n))
        ⟨rfl, rfl, H.nil t⟩
      simp only
      cases e : process_percent_encoded_best_effort dbg (truncFrag S dbg) ([], n) v with
      | none =>
        rw [e] at this
        rcases this with h | ⟨⟨⟨t', b⟩, n'⟩, h, x, h1, h2⟩
        · exact .inl (by rw [h]; rfl)
        · simp only at h1 h2; subst h1; exact .inr ⟨t', x, by rw [h]; rfl, h2⟩
      | some x =>
        rw [e] at this
        obtain ⟨⟨⟨t', b⟩, n'⟩, h, h' | h'⟩ := this
        · obtain ⟨_, h1, h2⟩ := h'; simp only at h1 h2; subst h1
          exact ⟨t', true, by rw [h]; rfl, h2⟩
        · obtain ⟨h1, h2⟩ := h'; simp only at h1 h2; subst h1
          exact ⟨t', false, by rw [h]; rfl, h2⟩

/-! ### `PrefixOnceWriter` -/

/-- With a prefix: it is written before the first text. -/
def PreRel (Rel : τ → Str → τ → Bool → Prop) (t : τ × Option Str) (x : Str) (t' : τ × Option Str)
    (b : Bool) : Prop :=
  match t.2 with
  | none => t'.2 = none ∧ Rel t.1 x t'.1 b
  | some p => (x = [] ∧ t' = t ∧ b = true) ∨ (x ≠ [] ∧ t'.2 = none ∧ Rel t.1 (p ++ x) t'.1 b)

theorem prefix_tracks (H : Tracks true w Rel) : Tracks false (prefixOnce w) (PreRel Rel) where
  nil := by
    rintro ⟨t, p⟩
    cases p with
    | none => exact ⟨rfl, H.nil t⟩
    | some p => exact .inl ⟨rfl, rfl, rfl⟩
  trans := by
    rintro ⟨t, p⟩ x ⟨t', p'⟩ y ⟨t'', p''⟩ b h h'
    cases p with
    | none =>
      obtain ⟨h1, h2⟩ := h
      simp only at h1 h2; subst h1
      exact ⟨h'.1, H.trans h2 h'.2⟩
    | some p =>
      rcases h with ⟨rfl, h2, _⟩ | ⟨h1, h2, h3⟩
      · cases h2; exact h'
      · simp only at h2 h3; subst h2
        refine .inr ⟨by simp [h1], h'.1, ?_⟩
        rw [← List.append_assoc]
        exact H.trans h3 h'.2
  stop := by
    rintro ⟨t, p⟩ x ⟨t', p'⟩ y h
    cases p with
    | none => exact ⟨h.1, H.stop y h.2⟩
    | some p =>
      rcases h with ⟨_, _, h2⟩ | ⟨h1, h2, h3⟩
      · cases h2
      · refine .inr ⟨by simp [h1], h2, ?_⟩
        rw [← List.append_assoc]
        exact H.stop y h3
  write := by
    rintro ⟨t, p⟩ s hs
    have hs : s ≠ [] := by simpa using hs
    cases p with
    | none =>
      obtain ⟨t', b, h1, h2⟩ := H.write t s (.inl rfl)
      exact ⟨(t', none), b, by simp [prefixOnce, h1], rfl, h2⟩
    | some p =>
      obtain ⟨t', b, h1, h2⟩ := SimW.seq' H (SimW.write H t (s := p) (.inl rfl))
        fun t' => SimW.write H t' (s := s) (.inl rfl)
      exact ⟨(t', none), b, by simp [prefixOnce, h1], .inr ⟨hs, rfl, h2⟩⟩

/-- Without a prefix. -/
def NoPreRel (Rel : τ → Str → τ → Bool → Prop) (t : τ × Option Str) (x : Str) (t' : τ × Option Str)
    (b : Bool) : Prop := t.2 = none → t'.2 = none ∧ Rel t.1 x t'.1 b

theorem noprefix_tracks (H : Tracks true w Rel) : Tracks true (prefixOnce w) (NoPreRel Rel) where
  nil := fun t h => ⟨h, H.nil _⟩
  trans := fun h h' e => by
    obtain ⟨h1, h2⟩ := h e
    obtain ⟨h3, h4⟩ := h' h1
    exact ⟨h3, H.trans h2 h4⟩
  stop := fun y h e => ⟨(h e).1, H.stop y (h e).2⟩
  write := by
    rintro ⟨t, p⟩ s _
    cases p with
    | none =>
      obtain ⟨t', b, h1, h2⟩ := H.write t s (.inl rfl)
      exact ⟨(t', none), b, by simp [prefixOnce, h1], fun _ => ⟨rfl, h2⟩⟩
    | some p =>
      obtain ⟨t', b, h1, h2⟩ := SimW.seq' H (SimW.write H t (s := p) (.inl rfl))
        fun t' => SimW.write H t' (s := s) (.inl rfl)
      exact ⟨(t', none), b, by simp [prefixOnce, h1], fun e => by cases e⟩

/-! ### The visitors -/

theorem visitString_sim (H : Tracks true w Rel) (hh : HexOk hex) (dbg : Bool) (op : Operator)
    (spec : VarSpec) (first : Bool) (t : τ) (v : Disp) :
    SimW Rel t (visit_string S dbg op spec first v) (visitStringW S hex dbg w op spec first t v) := by
  unfold visit_string visitStringW
  simp only
  generalize hm : maxLenOf spec.modifier = m
  cases hn : (opProps op).named with
  | true =>
    have hr : (opProps op).allow_reserved = false := by cases op <;> first | rfl | cases hn
    simp only [if_true, hr]
    have key : ∀ t, SimW Rel t ((escape_write_with_maxlen S dbg v false m).map fun x =>
        if x.isEmpty then (opProps op).ifemp else '=' :: x)
        (match escapeWriteMaxW S hex dbg (prefixOnce w) (t, some ['=']) v false m with
          | none => none
          | some ((t, _), false) => some (t, false)
          | some ((t, pre), true) => if pre.isSome then w t (opProps op).ifemp else okW t) := by
      intro t
      have hs := escapeMax_sim (S := S) (prefix_tracks H) hh dbg (t, some ['=']) v false (.inl rfl) m
      cases e : escape_write_with_maxlen S dbg v false m with
      | none =>
        rw [e] at hs
        rcases hs with hs | ⟨⟨t', p'⟩, x, hs, hr⟩
        · rw [hs]; exact .inl rfl
        · rw [hs]
          rcases hr with ⟨_, _, hr⟩ | ⟨_, _, hr⟩
          · cases hr
          · exact .inr ⟨t', _, rfl, hr⟩
      | some x =>
        rw [e] at hs
        obtain ⟨⟨t', p'⟩, b, hs, hr⟩ := hs
        rw [hs]
        rcases hr with ⟨rfl, h2, rfl⟩ | ⟨h1, h2, h3⟩
        · cases h2
          exact SimW.write H t (.inl rfl)
        · simp only at h2; subst h2
          have hx : x.isEmpty = false := by simpa using h1
          simp only [Option.map_some, hx, Bool.false_eq_true, if_false]
          cases b with
          | false => exact ⟨t', false, rfl, h3⟩
          | true => exact ⟨t', true, rfl, h3⟩
    have := SimW.seq H (SimW.write H t (s := leader (opProps op) first) (.inl rfl)) fun t =>
      SimW.seq H (SimW.write H t (s := spec.name) (.inl rfl)) key
    revert this
    cases escape_write_with_maxlen S dbg v false m <;> exact fun h => h
  | false =>
    simp only [Bool.false_eq_true, if_false]
    have key : ∀ t, SimW Rel t (escape_write_with_maxlen S dbg v (opProps op).allow_reserved m)
        (match escapeWriteMaxW S hex dbg (prefixOnce w) (t, none) v (opProps op).allow_reserved m with
          | none => none
          | some ((t, _), false) => some (t, false)
          | some ((t, pre), true) => if pre.isSome then w t (opProps op).ifemp else okW t) := by
      intro t
      have hs := escapeMax_sim (S := S) (noprefix_tracks H) hh dbg (t, none) v (opProps op).allow_reserved
        (.inr rfl) m
      cases e : escape_write_with_maxlen S dbg v (opProps op).allow_reserved m with
      | none =>
        rw [e] at hs
        rcases hs with hs | ⟨⟨t', p'⟩, x, hs, hr⟩
        · rw [hs]; exact .inl rfl
        · rw [hs]; exact .inr ⟨t', _, rfl, (hr rfl).2⟩
      | some x =>
        rw [e] at hs
        obtain ⟨⟨t', p'⟩, b, hs, hr⟩ := hs
        rw [hs]
        obtain ⟨h1, h2⟩ := hr rfl
        simp only at h1; subst h1
        cases b with
        | false => exact ⟨t', false, rfl, h2⟩
        | true => exact ⟨t', true, rfl, h2⟩
    have := SimW.seq H (SimW.write H t (s := leader (opProps op) first) (.inl rfl)) fun t =>
      SimW.seq H (SimW.ok H t) key
    revert this
    cases escape_write_with_maxlen S dbg v (opProps op).allow_reserved m <;> exact fun h => h

theorem SimW.cast {t : τ} {m m' : Option Str} {o : Option (τ × Bool)} (h : SimW Rel t m o) (e : m = m') :
    SimW Rel t m' o := e ▸ h

theorem visitItem_sim (H : Tracks true w Rel) (hh : HexOk hex) (dbg : Bool) (op : Operator)
    (spec : VarSpec) (first : Bool) (n : Nat) (t : τ) (v : Disp) :
    SimW Rel t (visit_item S dbg op spec first n v) (visitItemW S hex dbg w op spec first n t v) := by
  have W : ∀ (t : τ) (s : Str), SimW Rel t (some s) (w t s) := fun t s => SimW.write H t (.inl rfl)
  unfold visit_item visitItemW
  simp only
  cases isExplode spec.modifier with
  | none => exact .inl rfl
  | some ex =>
    simp only [Option.bind_some]
    refine SimW.seq H ?_ fun t => escape_sim H hh dbg t v _
    by_cases h0 : n = 0
    · simp only [h0, if_true]
      refine SimW.seq' H (W _ _) fun t => ?_
      split
      · exact SimW.seq' H (W _ _) fun t => W _ _
      · exact SimW.ok H t
    · rw [if_neg h0, if_neg h0]
      cases ex with
      | false => exact W _ _
      | true =>
        simp only [Bool.not_true, Bool.false_eq_true, if_false]
        by_cases hn : (opProps op).named = true
        · simp only [hn, Bool.not_true, Bool.false_eq_true, if_false]
          refine (SimW.seq H (W t (opProps op).sep) fun t => SimW.seq H
            (escape_sim (S := S) H hh dbg t [spec.name] (opProps op).allow_reserved) fun t => W t ['=']).cast ?_
          unfold cat
          cases escape_write S dbg [spec.name] (opProps op).allow_reserved <;> simp
        · simp only [hn, Bool.not_false, if_true]
          exact W _ _

theorem visitItems_sim (H : Tracks true w Rel) (hh : HexOk hex) (dbg : Bool) (op : Operator)
    (spec : VarSpec) (first : Bool) (n : Nat) (t : τ) (l : List Disp) :
    SimW Rel t (visit_items S dbg op spec first n l) (visitItemsW S hex dbg w op spec first n t l) := by
  induction l generalizing n t with
  | nil => exact SimW.ok H t
  | cons v l ih => exact SimW.seq H (visitItem_sim H hh dbg op spec first n t v) fun t => ih _ t

theorem visitEntry_sim (H : Tracks true w Rel) (hh : HexOk hex) (dbg : Bool) (op : Operator)
    (spec : VarSpec) (first : Bool) (n : Nat) (t : τ) (e : Disp × Disp) :
    SimW Rel t (visit_entry S dbg op spec first n e) (visitEntryW S hex dbg w op spec first n t e) := by
  have W : ∀ (t : τ) (s : Str), SimW Rel t (some s) (w t s) := fun t s => SimW.write H t (.inl rfl)
  have Q := fun (t : τ) (v : Disp) => escape_sim (S := S) H hh dbg t v (opProps op).allow_reserved
  unfold visit_entry visitEntryW
  simp only
  cases isExplode spec.modifier with
  | none => exact .inl rfl
  | some ex =>
    simp only [Option.bind_some]
    refine SimW.seq H ?_ fun t => Q t e.2
    by_cases h0 : n = 0
    · simp only [h0, if_true]
      cases ex with
      | true =>
        simp only [if_true]
        refine (SimW.seq H (W t _) fun t => SimW.seq H (Q t e.1) fun t => W t ['=']).cast ?_
        unfold cat
        cases escape_write S dbg e.1 (opProps op).allow_reserved <;> simp
      | false =>
        simp only [Bool.false_eq_true, if_false]
        cases hn : (opProps op).named with
        | true =>
          simp only [if_true]
          refine (SimW.seq H (W t _) fun t => SimW.seq H (SimW.seq H (Q t [spec.name]) fun t => W t ['=']) fun t =>
            SimW.seq H (Q t e.1) fun t => W t [',']).cast ?_
          unfold cat
          cases escape_write S dbg e.1 (opProps op).allow_reserved <;>
            cases escape_write S dbg [spec.name] (opProps op).allow_reserved <;> simp
        | false =>
          simp only [Bool.false_eq_true, if_false]
          refine (SimW.seq H (W t _) fun t => SimW.seq H (SimW.ok H t) fun t =>
            SimW.seq H (Q t e.1) fun t => W t [',']).cast ?_
          unfold cat
          cases escape_write S dbg e.1 (opProps op).allow_reserved <;> simp
    · rw [if_neg h0, if_neg h0]
      cases ex with
      | false =>
        simp only [Bool.not_false, if_true]
        refine (SimW.seq H (W t _) fun t => SimW.seq H (Q t e.1) fun t => W t [',']).cast ?_
        unfold cat
        cases escape_write S dbg e.1 (opProps op).allow_reserved <;> simp
      | true =>
        simp only [Bool.not_true, Bool.false_eq_true, if_false]
        refine (SimW.seq H (W t _) fun t => SimW.seq H (Q t e.1) fun t => W t ['=']).cast ?_
        unfold cat
        cases escape_write S dbg e.1 (opProps op).allow_reserved <;> simp

theorem visitEntries_sim (H : Tracks true w Rel) (hh : HexOk hex) (dbg : Bool) (op : Operator)
    (spec : VarSpec) (first : Bool) (n : Nat) (t : τ) (l : List (Disp × Disp)) :
    SimW Rel t (visit_entries S dbg op spec first n l) (visitEntriesW S hex dbg w op spec first n t l) := by
  induction l generalizing n t with
  | nil => exact SimW.ok H t
  | cons v l ih => exact SimW.seq H (visitEntry_sim H hh dbg op spec first n t v) fun t => ih _ t

theorem visitValue_sim (H : Tracks true w Rel) (hh : HexOk hex) (dbg : Bool) (op : Operator)
    (spec : VarSpec) (first : Bool) (t : τ) (v : Value) :
    SimW Rel t ((visit_value S dbg op spec first v).map Prod.fst)
      (visitValueW S hex dbg w op spec first t v) := by
  cases v with
  | undefined => exact SimW.ok H t
  | string v =>
    refine (visitString_sim (S := S) H hh dbg op spec first t v).cast ?_
    simp [visit_value, Function.comp_def]
  | list l =>
    refine (visitItems_sim (S := S) H hh dbg op spec first 0 t l).cast ?_
    simp [visit_value, Function.comp_def]
  | assoc l =>
    refine (visitEntries_sim (S := S) H hh dbg op spec first 0 t l).cast ?_
    simp [visit_value, Function.comp_def]

theorem visitValue_first {dbg : Bool} {op : Operator} {spec : VarSpec} {first : Bool} {v : Value}
    {o : Str × Bool} (h : visit_value S dbg op spec first v = some o) : o.2 = stillFirst first v := by
  cases v with
  | undefined => cases h; rfl
  | string v => simp only [visit_value, Option.map_eq_some_iff] at h; obtain ⟨_, _, rfl⟩ := h; rfl
  | list v => simp only [visit_value, Option.map_eq_some_iff] at h; obtain ⟨_, _, rfl⟩ := h; rfl
  | assoc v => simp only [visit_value, Option.map_eq_some_iff] at h; obtain ⟨_, _, rfl⟩ := h; rfl

/-! ### Static contexts -/

theorem expandVars_sim (H : Tracks true w Rel) (hh : HexOk hex) (dbg : Bool) (ctx : Ctx) (op : Operator)
    (fuel : Nat) (first : Bool) (t : τ) (vl : Str) :
    SimW Rel t (expandVars S dbg ctx op fuel first vl) (expandVarsW S hex dbg w ctx op fuel first t vl) := by
  induction fuel generalizing first t vl with
  | zero => exact .inl rfl
  | succ n ih =>
    rw [expandVars, expandVarsW]
    cases varListNext vl with
    | none => exact .inl rfl
    | some o =>
      cases o with
      | none => exact SimW.ok H t
      | some o =>
        obtain ⟨⟨len, spec⟩, rest⟩ := o
        simp only
        refine (SimW.seq H (visitValue_sim (S := S) H hh dbg op spec first t (ctx .expand spec.name))
          fun t => ih (stillFirst first (ctx .expand spec.name)) t rest).cast ?_
        unfold cat
        cases e : visit_value S dbg op spec first (ctx .expand spec.name) with
        | none => rfl
        | some o => simp [visitValue_first e]

theorem display_sim (H : Tracks true w Rel) (hh : HexOk hex) (dbg : Bool) (ctx : Ctx) (fuel : Nat) (t : τ)
    (s : Str) :
    SimW Rel t (displayExpanded S dbg ctx fuel s) (displayExpandedW S hex dbg w ctx fuel t s) := by
  induction fuel generalizing t s with
  | zero => exact .inl rfl
  | succ n ih =>
    rw [displayExpanded, displayExpandedW]
    cases chunksNext s with
    | none => exact .inl rfl
    | some o =>
      cases o with
      | none => exact SimW.ok H t
      | some o =>
        obtain ⟨c, rest⟩ := o
        cases c with
        | literal lit => exact SimW.seq H (SimW.write H t (.inl rfl)) fun t => ih t rest
        | expr body =>
          simp only [expandExpr]
          cases decompose body with
          | none => exact .inl rfl
          | some d =>
            obtain ⟨op, vl⟩ := d
            exact SimW.seq H (expandVars_sim H hh dbg ctx op _ true t vl) fun t => ih t rest

/-! ### Dynamic contexts -/

variable {σ : Type}

/-- Dynamic expansion into a writer and to a text. -/
def SimD {α : Type} (Rel : τ → Str → τ → Bool → Prop) (t : τ) (d : Option (DynOut σ α))
    (o : Option (DynOutW τ σ α)) : Prop :=
  match d with
  | none => o = none ∨ ∃ o', o = some o' ∧ (∃ pos, o'.result = .error (.writeFailed, pos)) ∧
      ∃ x, Rel t x o'.writer false
  | some d => ∃ o', o = some o' ∧
      ((o'.result = d.result ∧ o'.state = d.state ∧ Rel t d.out o'.writer true) ∨
        ((∃ pos, o'.result = .error (.writeFailed, pos)) ∧ Rel t d.out o'.writer false))

theorem SimD.after {α : Type} (H : Tracks true w Rel) {t t' : τ} {x : Str} {d : Option (DynOut σ α)}
    {o : Option (DynOutW τ σ α)} (h : Rel t x t' true) (hd : SimD Rel t' d o) :
    SimD Rel t (d.map fun d => ⟨d.result, x ++ d.out, d.state⟩) o := by
  cases d with
  | none =>
    rcases hd with hd | ⟨o', e, hp, y, hy⟩
    · exact .inl hd
    · exact .inr ⟨o', e, hp, x ++ y, H.trans h hy⟩
  | some d =>
    obtain ⟨o', e, hd⟩ := hd
    refine ⟨o', e, ?_⟩
    rcases hd with ⟨h1, h2, h3⟩ | ⟨h1, h2⟩
    · exact .inl ⟨h1, h2, H.trans h h3⟩
    · exact .inr ⟨h1, H.trans h h2⟩

/-- The writer fails while the text `x`, or nothing that ends, is to be written. -/
theorem SimD.failed {α β : Type} (H : Tracks true w Rel) {t t' : τ} {x : Str} {pos : Nat} {st : σ}
    {d : Option (DynOut σ α)} {g : DynOut σ α → DynOut σ β} (h : Rel t x t' false)
    (hg : ∀ d, (g d).out = x ++ d.out) :
    SimD (α := β) Rel t (d.map g) (some ⟨.error (.writeFailed, pos), t', st⟩) := by
  cases d with
  | none => exact .inr ⟨_, rfl, ⟨pos, rfl⟩, x, h⟩
  | some d =>
    refine ⟨_, rfl, .inr ⟨⟨pos, rfl⟩, ?_⟩⟩
    rw [hg]
    exact H.stop _ h

theorem expandVarsMut_sim (H : Tracks true w Rel) (hh : HexOk hex) (dbg : Bool) (ctx : DynCtx σ)
    (op : Operator) (fuel : Nat) (first : Bool) (pos : Nat) (vl : Str) (t : τ) (st : σ) :
    SimD Rel t (expandVarsMut S dbg ctx op fuel first pos vl st)
      (expandVarsMutW S hex dbg w ctx op fuel first pos vl t st) := by
  induction fuel generalizing first pos vl t st with
  | zero => exact .inl rfl
  | succ n ih =>
    rw [expandVarsMut, expandVarsMutW]
    cases varListNext vl with
    | none => exact .inl rfl
    | some o =>
      cases o with
      | none => exact ⟨_, rfl, .inl ⟨rfl, rfl, H.nil t⟩⟩
      | some o =>
        obtain ⟨⟨len, spec⟩, rest⟩ := o
        simp only
        by_cases hb : badType spec.modifier (typeOf (ctx.visit .typecheck spec.name st).1) = true
        · rw [if_pos hb, if_pos hb]
          exact ⟨_, rfl, .inl ⟨rfl, rfl, H.nil t⟩⟩
        · rw [if_neg hb, if_neg hb]
          generalize (ctx.visit .expand spec.name (ctx.visit .typecheck spec.name st).2) = v
          have hv := visitValue_sim (S := S) H hh dbg op spec first t v.1
          cases e : visit_value S dbg op spec first v.1 with
          | none =>
            rw [e] at hv
            rcases hv with hv | ⟨t', x, hv, hr⟩
            · rw [hv]; exact .inl rfl
            · rw [hv]; exact .inr ⟨_, rfl, ⟨pos, rfl⟩, x, hr⟩
          | some o =>
            rw [e] at hv
            obtain ⟨t', b, hv, hr⟩ := hv
            rw [hv]
            simp only [Option.bind_some]
            cases b with
            | false => exact SimD.failed H hr fun d => rfl
            | true =>
              rw [visitValue_first e]
              exact SimD.after H hr (ih _ _ _ _ _)

theorem expandExprMut_sim (H : Tracks true w Rel) (hh : HexOk hex) (dbg : Bool) (ctx : DynCtx σ)
    (pos : Nat) (body : Str) (t : τ) (st : σ) :
    SimD Rel t (expandExprMut S dbg ctx pos body st) (expandExprMutW S hex dbg w ctx pos body t st) := by
  unfold expandExprMut expandExprMutW
  cases decompose body with
  | none => exact .inl rfl
  | some d =>
    obtain ⟨op, vl⟩ := d
    simp only
    have hs := expandVarsMut_sim (S := S) H hh dbg ctx op (vl.length + 1) true (pos + (op.len + 1)) vl t st
    cases e : expandVarsMut S dbg ctx op (vl.length + 1) true (pos + (op.len + 1)) vl st with
    | none =>
      rw [e] at hs
      rcases hs with hs | ⟨⟨res, t', st'⟩, hs, ⟨p, hp⟩, x, hx⟩
      · rw [hs]; exact .inl rfl
      · rw [hs]
        simp only at hp; subst hp
        exact .inr ⟨_, rfl, ⟨p, rfl⟩, x, hx⟩
    | some d =>
      rw [e] at hs
      obtain ⟨⟨res, t', st'⟩, hs, h | h⟩ := hs
      · obtain ⟨h1, h2, h3⟩ := h
        obtain ⟨dr, dout, dst⟩ := d
        simp only at h1 h2 h3; subst h1 h2
        rw [hs]
        simp only [Option.bind_some, checkEnd]
        cases res with
        | error er => exact ⟨_, rfl, .inl ⟨rfl, rfl, h3⟩⟩
        | ok p =>
          simp only
          by_cases hp : p = pos + blen body + 2
          · rw [if_pos hp, if_pos hp]; exact ⟨_, rfl, .inl ⟨rfl, rfl, h3⟩⟩
          · rw [if_neg hp, if_neg hp]; exact .inl rfl
      · obtain ⟨⟨p, hp⟩, h2⟩ := h
        simp only at hp h2; subst hp
        rw [hs]
        simp only [Option.bind_some]
        cases e' : checkEnd (pos + blen body + 2) d with
        | none => exact .inr ⟨_, rfl, ⟨p, rfl⟩, _, h2⟩
        | some d' =>
          have : d' = d := by
            unfold checkEnd at e'
            split at e'
            · split at e'
              · cases e'; rfl
              · cases e'
            · cases e'; rfl
          subst this
          exact ⟨_, rfl, .inr ⟨⟨p, rfl⟩, h2⟩⟩

theorem expandDynLoop_sim (H : Tracks true w Rel) (hh : HexOk hex) (dbg : Bool) (ctx : DynCtx σ)
    (fuel : Nat) (pos : Nat) (s : Str) (t : τ) (st : σ) :
    SimD Rel t (expandDynLoop S dbg ctx fuel pos s st) (expandDynLoopW S hex dbg w ctx fuel pos s t st) := by
  induction fuel generalizing pos s t st with
  | zero => exact .inl rfl
  | succ n ih =>
    rw [expandDynLoop, expandDynLoopW]
    cases chunksNext s with
    | none => exact .inl rfl
    | some o =>
      cases o with
      | none => exact ⟨_, rfl, .inl ⟨rfl, rfl, H.nil t⟩⟩
      | some o =>
        obtain ⟨c, rest⟩ := o
        cases c with
        | literal lit =>
          simp only
          obtain ⟨t', b, h1, h2⟩ := H.write t lit (.inl rfl)
          rw [h1]
          cases b with
          | false => exact SimD.failed H h2 fun d => rfl
          | true => exact SimD.after H h2 (ih _ _ _ _)
        | expr body =>
          simp only
          have hs := expandExprMut_sim (S := S) H hh dbg ctx pos body t st
          cases e : expandExprMut S dbg ctx pos body st with
          | none =>
            rw [e] at hs
            rcases hs with hs | ⟨⟨res, t', st'⟩, hs, ⟨p, hp⟩, x, hx⟩
            · rw [hs]; exact .inl rfl
            · rw [hs]
              simp only at hp; subst hp
              exact .inr ⟨_, rfl, ⟨p, rfl⟩, x, hx⟩
          | some d =>
            rw [e] at hs
            obtain ⟨⟨res, t', st'⟩, hs, h | h⟩ := hs
            · obtain ⟨h1, h2, h3⟩ := h
              obtain ⟨dr, dout, dst⟩ := d
              simp only at h1 h2 h3; subst h1 h2
              rw [hs]
              simp only [Option.bind_some, dynThen]
              cases res with
              | error er => exact ⟨_, rfl, .inl ⟨rfl, rfl, h3⟩⟩
              | ok p => exact SimD.after H h3 (ih _ _ _ _)
            · obtain ⟨⟨p, hp⟩, h2⟩ := h
              simp only at hp h2; subst hp
              rw [hs]
              simp only [Option.bind_some, dynThen]
              split
              · exact ⟨_, rfl, .inr ⟨⟨p, rfl⟩, h2⟩⟩
              · exact SimD.failed H h2 fun d => rfl

/-! ### Any writer -/

/-- `x` was to be written: all calls are accepted and make up `x`; or the last one fails, and what was
passed to the writer is a beginning of `x`. -/
def Wrote (ok : List Str → Bool) (calls : List Str) (x : Str) (calls' : List Str) (b : Bool) : Prop :=
  ∃ ps, calls' = calls ++ ps ∧ (∀ xs ys, ps = xs ++ ys → xs ≠ [] → (ys ≠ [] ∨ b = true) → ok (calls ++ xs) = true) ∧
    (b = true → ps.flatten = x) ∧ (b = false → ps ≠ [] ∧ ok calls' = false ∧ ps.flatten <+: x)

theorem sink_tracks (ok : List Str → Bool) : Tracks true (sink ok) (Wrote ok) where
  nil := by
    intro t
    refine ⟨[], by simp, ?_, fun _ => rfl, fun h => by cases h⟩
    intro xs ys h hx
    simp at h
    exact absurd h.1 hx
  trans := by
    rintro t x t' y t'' b ⟨ps, rfl, h1, h2, _⟩ ⟨qs, rfl, g1, g2, g3⟩
    refine ⟨ps ++ qs, by simp, ?_, ?_, ?_⟩
    · intro xs ys e hx hy
      rcases List.append_eq_append_iff.1 e with ⟨a, rfl, e2⟩ | ⟨a, e1, e2⟩
      · by_cases ha : a = []
        · subst ha
          simp only [List.append_nil]
          simp only [List.append_nil] at hx
          exact h1 ps [] (by simp) hx (.inr rfl)
        · have := g1 a ys e2 ha hy
          rwa [List.append_assoc] at this
      · exact h1 xs a e1 hx (.inr rfl)
    · intro hb
      rw [List.flatten_append, h2 rfl, g2 hb]
    · intro hb
      obtain ⟨g4, g5, g6⟩ := g3 hb
      refine ⟨by simp [g4], by simpa using g5, ?_⟩
      rw [List.flatten_append, h2 rfl]
      exact (List.prefix_append_right_inj x).2 g6
  stop := by
    rintro t x t' y ⟨ps, rfl, h1, h2, h3⟩
    obtain ⟨g1, g2, g3⟩ := h3 rfl
    exact ⟨ps, rfl, h1, (fun h => by cases h), fun _ => ⟨g1, g2, g3.trans (List.prefix_append x y)⟩⟩
  write := by
    intro t s _
    refine ⟨t ++ [s], ok (t ++ [s]), rfl, [s], rfl, ?_, fun _ => by simp, fun h => ⟨by simp, h, by simp⟩⟩
    intro xs ys e hx hy
    cases xs with
    | nil => exact absurd rfl hx
    | cons a xs =>
      simp at e
      obtain ⟨rfl, rfl, rfl⟩ := e
      simpa using hy

end sim

end Verif.Tpl
