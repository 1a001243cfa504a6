import Verif.Spec.TemplateCode
import Verif.Lemmas.TemplateWriter

namespace Verif.Tpl

variable {σ α τ : Type}

/-- The items one after another. -/
def foldVisit (visit : Nat → Bool → τ → α → Option (τ × Bool)) (first : Bool) :
    Nat → τ → List α → Option (τ × Bool)
  | _, t, [] => okW t
  | n, t, v :: r => seqW (visit n first t v) fun t => foldVisit visit first (n + 1) t r

theorem foldVisit_items (S : Spec) (hex : Nat → List Str) (dbg : Bool) (w : Writer τ) (op : Operator)
    (spec : VarSpec) (first : Bool) (n : Nat) (t : τ) (l : List Disp) :
    visitItemsW S hex dbg w op spec first n t l =
      foldVisit (fun n first t v => visitItemW S hex dbg w op spec first n t v) first n t l := by
  induction l generalizing n t with
  | nil => rfl
  | cons v r ih =>
    rw [visitItemsW, foldVisit]
    congr 1
    funext t
    exact ih _ t

theorem foldVisit_entries (S : Spec) (hex : Nat → List Str) (dbg : Bool) (w : Writer τ) (op : Operator)
    (spec : VarSpec) (first : Bool) (n : Nat) (t : τ) (l : List (Disp × Disp)) :
    visitEntriesW S hex dbg w op spec first n t l =
      foldVisit (fun n first t v => visitEntryW S hex dbg w op spec first n t v) first n t l := by
  induction l generalizing n t with
  | nil => rfl
  | cons v r ih =>
    rw [visitEntriesW, foldVisit]
    congr 1
    funext t
    exact ih _ t

/-- Agreement of the code with the list of its items. -/
def Agrees (first : Bool) (st : σ) (o : Option (τ × Bool)) (r : Option (Left τ σ)) : Prop :=
  match o with
  | none => r = none
  | some (t, true) => r = some ⟨t, true, first, st⟩
  | some (t, false) => ∃ f st, r = some ⟨t, false, f, st⟩

theorem run_agrees {visit : Nat → Bool → τ → α → Option (τ × Bool)}
    (hv : ∀ n f f' t v, n ≠ 0 → visit n f t v = visit n f' t v) :
    ∀ (c : SeqCode σ α false) (_ : c.ReturnsBreak ∨ ∀ n f t v t', visit n f t v ≠ some (t', false))
      (n : Nat) (f f' : Bool) (_ : n = 0 → f = f') (t : τ),
      Agrees (if n = 0 ∧ c.items.1 ≠ [] then false else f) c.items.2 (foldVisit visit f' n t c.items.1)
        (c.run visit n f t)
  | .finish st, _, n, f, f', _, t => by simp [SeqCode.items, foldVisit, okW, Agrees, SeqCode.run]
  | .item v c br, hc, n, f, f', hf, t => by
    simp only [SeqCode.items, foldVisit, SeqCode.run]
    have hvv : visit n f t v = visit n f' t v := by
      by_cases h : n = 0
      · rw [hf h]
      · exact hv n _ _ t v h
    rw [hvv]
    cases hr : visit n f' t v with
    | none => rfl
    | some o =>
      obtain ⟨t', b⟩ := o
      cases b with
      | false =>
        rcases hc with hc | hc
        · obtain ⟨⟨st, rfl⟩, _⟩ := hc
          exact ⟨_, st, rfl⟩
        · exact absurd hr (hc n f' t v t')
      | true =>
        have hc' : c.ReturnsBreak ∨ ∀ n f t v t', visit n f t v ≠ some (t', false) := by
          rcases hc with hc | hc
          · exact .inl hc.2
          · exact .inr hc
        have := run_agrees hv c hc' (n + 1) (if n = 0 then false else f) f' (by omega) t'
        simp only [seqW]
        simpa using this

theorem visitItem_first {S : Spec} {hex : Nat → List Str} {dbg : Bool} {w : Writer τ} {op : Operator}
    {spec : VarSpec} (n : Nat) (f f' : Bool) (t : τ) (v : Disp) (h : n ≠ 0) :
    visitItemW S hex dbg w op spec f n t v = visitItemW S hex dbg w op spec f' n t v := by
  simp [visitItemW, h]

theorem visitEntry_first {S : Spec} {hex : Nat → List Str} {dbg : Bool} {w : Writer τ} {op : Operator}
    {spec : VarSpec} (n : Nat) (f f' : Bool) (t : τ) (v : Disp × Disp) (h : n ≠ 0) :
    visitEntryW S hex dbg w op spec f n t v = visitEntryW S hex dbg w op spec f' n t v := by
  simp [visitEntryW, h]

theorem neverFails_tracks {w : Writer τ} (h : NeverFails w) :
    Tracks true w (fun _ _ _ b => b = true) where
  nil := fun _ => rfl
  trans := fun _ h => h
  stop := fun _ h => by cases h
  write := fun t s _ => by
    obtain ⟨t', e⟩ := h t s
    exact ⟨t', true, e, rfl⟩

theorem sim_true {t : τ} {m : Option Str} {o : Option (τ × Bool)}
    (h : SimW (fun _ _ _ b => b = true) t m o) (t' : τ) : o ≠ some (t', false) := by
  cases m with
  | none =>
    rcases h with rfl | ⟨_, _, _, h⟩
    · simp
    · cases h
  | some x =>
    obtain ⟨t'', b, rfl, rfl⟩ := h
    simp

/-- The code of a variable agrees with its value. -/
theorem code_agrees {S : Spec} {hex : Nat → List Str} (hh : HexOk hex) {dbg : Bool} {w : Writer τ}
    {op : Operator} {spec : VarSpec} {first : Bool} {t : τ} (c : Code σ)
    (h : c.ReturnsBreak ∨ NeverFails w) :
    Agrees (stillFirst first c.value) c.endState (visitValueW S hex dbg w op spec first t c.value)
      (c.run S hex dbg w op spec first t) := by
  cases c with
  | undefined st => simp [Code.value, visitValueW, okW, Agrees, Code.run, stillFirst, Code.endState]
  | string v st =>
    simp only [Code.value, visitValueW, Code.run, stillFirst, Code.endState]
    cases visitStringW S hex dbg w op spec first t v with
    | none => rfl
    | some o =>
      obtain ⟨t', b⟩ := o
      cases b
      · exact ⟨false, st, rfl⟩
      · rfl
  | list c =>
    have := run_agrees (σ := σ) (visit := fun n first t v => visitItemW S hex dbg w op spec first n t v)
      (fun n f f' t v hn => visitItem_first n f f' t v hn) c
      (h.imp id fun h n f t v t' => sim_true (visitItem_sim (neverFails_tracks h) hh dbg op spec f n t v) t')
      0 first first (fun _ => rfl) t
    simp only [Code.value, visitValueW, Code.run, stillFirst, Code.endState, foldVisit_items]
    have e : (first && c.items.1.isEmpty) = if 0 = 0 ∧ c.items.1 ≠ [] then false else first := by
      cases c.items.1 <;> simp
    rw [e]
    exact this
  | assoc c =>
    have := run_agrees (σ := σ) (visit := fun n first t v => visitEntryW S hex dbg w op spec first n t v)
      (fun n f f' t v hn => visitEntry_first n f f' t v hn) c
      (h.imp id fun h n f t v t' => sim_true (visitEntry_sim (neverFails_tracks h) hh dbg op spec f n t v) t')
      0 first first (fun _ => rfl) t
    simp only [Code.value, visitValueW, Code.run, stillFirst, Code.endState, foldVisit_entries]
    have e : (first && c.items.1.isEmpty) = if 0 = 0 ∧ c.items.1 ≠ [] then false else first := by
      cases c.items.1 <;> simp
    rw [e]
    exact this

end Verif.Tpl
