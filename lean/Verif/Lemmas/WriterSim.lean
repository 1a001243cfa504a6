import Verif.Lemmas.TemplateSafe

/-!
# Two callbacks of the decomposition of percent-encoded text, run side by side

`R` relates the states as long as the second callback has not failed; after it has failed (and so has
stopped) with the state `b`, the first one goes on and keeps `F · b`.
-/

namespace Verif.MaybePct

open Verif.Tpl

variable {α β : Type}

/-- The outcomes correspond. -/
def Both (R F : α → β → Prop) (Z : β → Prop) (x : Option (α × Bool)) (y : Option (β × Bool)) : Prop :=
  match x with
  | none => y = none ∨ ∃ b, y = some (b, true) ∧ Z b
  | some o => ∃ p, y = some p ∧ ((p.2 = o.2 ∧ R o.1 p.1) ∨ (p.2 = true ∧ F o.1 p.1))

structure Side (R F : α → β → Prop) (Z : β → Prop) (f : Callback α) (g : Callback β) : Prop where
  step : ∀ a b fr, R a b → Both R F Z (f a fr) (g b fr)
  keep : ∀ b, Keeps f (fun a => F a b)
  z : ∀ a b, F a b → Z b

section

variable {R F : α → β → Prop} {Z : β → Prop} {f : Callback α} {g : Callback β}

/-- The outcomes correspond, with an additional result. -/
def BothX {γ : Type} (R F : α → β → Prop) (Z : β → Prop) (x : Option ((α × Bool) × γ))
    (y : Option ((β × Bool) × γ)) : Prop :=
  match x with
  | none => y = none ∨ ∃ b e, y = some ((b, true), e) ∧ Z b
  | some o => ∃ p, y = some p ∧
      ((p.1.2 = o.1.2 ∧ R o.1.1 p.1.1 ∧ p.2 = o.2) ∨ (p.1.2 = true ∧ F o.1.1 p.1.1))

/-- Going on: `x` by the first callback alone (`k`), or both. -/
theorem Both.bind (H : ∀ a b, F a b → Z b) {x : Option (α × Bool)} {y : Option (β × Bool)} (h : Both R F Z x y)
    {k : α × Bool → Option (α × Bool)} {l : β × Bool → Option (β × Bool)}
    (hr : ∀ a b, R a b → Both R F Z (k (a, false)) (l (b, false)))
    (hs : ∀ a, k (a, true) = some (a, true)) (hs' : ∀ b, l (b, true) = some (b, true))
    (hk : ∀ a b br o, F a b → k (a, br) = some o → F o.1 b) : Both R F Z (x.bind k) (y.bind l) := by
  cases x with
  | none =>
    rcases h with rfl | ⟨b, rfl, hz⟩
    · exact .inl rfl
    · exact .inr ⟨b, hs' b, hz⟩
  | some o =>
    obtain ⟨⟨b, br'⟩, rfl, h⟩ := h
    obtain ⟨a, br⟩ := o
    rcases h with ⟨h1, h2⟩ | ⟨h1, h2⟩
    · simp only at h1 h2; subst h1
      cases br' with
      | false => exact hr a b h2
      | true =>
        simp only [Option.bind_some, hs, hs']
        exact ⟨_, rfl, .inl ⟨rfl, h2⟩⟩
    · simp only at h1 h2; subst h1
      simp only [Option.bind_some, hs']
      cases e : k (a, br) with
      | none => exact .inr ⟨b, rfl, H _ _ h2⟩
      | some o => exact ⟨_, rfl, .inr ⟨rfl, hk a b br o h2 e⟩⟩

theorem Side.andThen (H : Side R F Z f g) {fr : Frag} {a : α} {b : β} (h : R a b) :
    Both R F Z (andThen f fr (a, false)) (andThen g fr (b, false)) := by
  have := H.step a b fr h
  unfold MaybePct.andThen Both
  exact this

theorem Side.undec (H : Side R F Z f g) {a : α} {b : β} (h : R a b) {s : Str} (hs : Part s) :
    Both R F Z (output_as_undecodable f a s) (output_as_undecodable g b s) := by
  unfold output_as_undecodable
  simp only
  have e : s.length - s.length % 3 = (s.length / 3) * 3 := by omega
  refine Both.bind H.z (H.step a b _ h) ?_ ?_ ?_ ?_
  · intro a b h
    split
    · exact ⟨_, rfl, .inl ⟨rfl, h⟩⟩
    · refine Both.bind H.z (H.andThen h) ?_ ?_ ?_ ?_
      · intro a b h
        split
        · exact ⟨_, rfl, .inl ⟨rfl, h⟩⟩
        · exact H.andThen h
      · intro a; split <;> rfl
      · intro a; split <;> rfl
      · intro a b br o h e
        split at e
        · cases e; exact h
        · exact andThen_keeps (frag := .noPct _) (H.keep b) (o := (a, br)) h trivial e
  · intro a; split <;> simp [MaybePct.andThen]
  · intro a; split <;> simp [MaybePct.andThen]
  · intro a b br o h e
    split at e
    · cases e; exact h
    · rw [Option.bind_eq_some_iff] at e
      obtain ⟨o2, e2, e⟩ := e
      have p2 := andThen_keeps (frag := .stray) (H.keep b) (o := (a, br)) h trivial e2
      split at e
      · cases e; exact p2
      · exact andThen_keeps (frag := .noPct _) (H.keep b) p2 trivial e

theorem BothX.bindX {γ δ : Type} (H : ∀ a b, F a b → Z b) {x : Option ((α × Bool) × γ)}
    {y : Option ((β × Bool) × γ)} (h : BothX R F Z x y)
    {k : (α × Bool) × γ → Option ((α × Bool) × δ)} {l : (β × Bool) × γ → Option ((β × Bool) × δ)}
    (hr : ∀ a b c, x = some ((a, false), c) → R a b → BothX R F Z (k ((a, false), c)) (l ((b, false), c)))
    (ht : ∀ a b c, x = some ((a, true), c) → R a b → BothX R F Z (k ((a, true), c)) (l ((b, true), c)))
    (hs' : ∀ b c, ∃ d, l ((b, true), c) = some ((b, true), d))
    (hk : ∀ a b br c o, x = some ((a, br), c) → F a b → k ((a, br), c) = some o → F o.1.1 b) :
    BothX R F Z (x.bind k) (y.bind l) := by
  cases x with
  | none =>
    rcases h with rfl | ⟨b, e, rfl, hz⟩
    · exact .inl rfl
    · obtain ⟨d, hd⟩ := hs' b e
      exact .inr ⟨b, d, hd, hz⟩
  | some o =>
    obtain ⟨⟨⟨b, br'⟩, c'⟩, rfl, h⟩ := h
    obtain ⟨⟨a, br⟩, c⟩ := o
    rcases h with ⟨h1, h2, h3⟩ | ⟨h1, h2⟩
    · simp only at h1 h2 h3; subst h1 h3
      cases br' with
      | false => exact hr a b c' rfl h2
      | true => exact ht a b c' rfl h2
    · simp only at h1 h2; subst h1
      obtain ⟨d, hd⟩ := hs' b c'
      simp only [Option.bind_some, hd]
      cases e : k ((a, br), c) with
      | none => exact .inr ⟨b, d, rfl, H _ _ h2⟩
      | some o => exact ⟨_, rfl, .inr ⟨rfl, hk a b br c o rfl h2 e⟩⟩

/-- From `Both` to `BothX`. -/
theorem Both.bindX {γ : Type} (H : ∀ a b, F a b → Z b) {x : Option (α × Bool)} {y : Option (β × Bool)}
    (h : Both R F Z x y) {k : α × Bool → Option ((α × Bool) × γ)} {l : β × Bool → Option ((β × Bool) × γ)}
    (hr : ∀ a b, R a b → BothX R F Z (k (a, false)) (l (b, false)))
    (ht : ∀ a b, R a b → BothX R F Z (k (a, true)) (l (b, true)))
    (hs' : ∀ b, ∃ d, l (b, true) = some ((b, true), d))
    (hk : ∀ a b br o, F a b → k (a, br) = some o → F o.1.1 b) :
    BothX R F Z (x.bind k) (y.bind l) := by
  cases x with
  | none =>
    rcases h with rfl | ⟨b, rfl, hz⟩
    · exact .inl rfl
    · obtain ⟨d, hd⟩ := hs' b
      exact .inr ⟨b, d, hd, hz⟩
  | some o =>
    obtain ⟨⟨b, br'⟩, rfl, h⟩ := h
    obtain ⟨a, br⟩ := o
    rcases h with ⟨h1, h2⟩ | ⟨h1, h2⟩
    · simp only at h1 h2; subst h1
      cases br' with
      | false => exact hr a b h2
      | true => exact ht a b h2
    · simp only at h1 h2; subst h1
      obtain ⟨d, hd⟩ := hs' b
      simp only [Option.bind_some, hd]
      cases e : k (a, br) with
      | none => exact .inr ⟨b, d, rfl, H _ _ h2⟩
      | some o => exact ⟨_, rfl, .inr ⟨rfl, hk a b br o h2 e⟩⟩

theorem bothX_of {γ : Type} {a : α} {b : β} {br : Bool} {c : γ} (h : R a b) :
    BothX R F Z (some ((a, br), c)) (some ((b, br), c)) := ⟨_, rfl, .inl ⟨rfl, h, rfl⟩⟩

theorem bothX_map {γ δ : Type} {x : Option γ} {a : α} {b : β} {br : Bool} {m : γ → δ} (h : R a b) :
    BothX R F Z (x.map fun c => ((a, br), m c)) (x.map fun c => ((b, br), m c)) := by
  cases x with
  | none => exact .inl rfl
  | some c => exact bothX_of h

theorem Side.flush (H : Side R F Z f g) {a : α} {b : β} (h : R a b) {enc rest : Str} (hs : Part enc) :
    BothX R F Z (flushRest f a enc rest) (flushRest g b enc rest) := by
  unfold flushRest
  split
  · exact bothX_of h
  · refine Both.bindX H.z (H.undec h hs) ?_ ?_ ?_ ?_
    · intro a b h
      simp only [Bool.false_eq_true, if_false]
      exact bothX_map h
    · intro a b h
      exact bothX_of h
    · intro b; exact ⟨rest, rfl⟩
    · intro a b br o h e
      simp only at e
      split at e
      · cases e; exact h
      · rw [Option.map_eq_some_iff] at e
        obtain ⟨_, _, rfl⟩ := e
        exact h

theorem Side.plain (H : Side R F Z f g) {dbg : Bool} {a : α} {b : β} (h : R a b) {rest : Str} :
    BothX R F Z (plainPrefix dbg f ((a, false), rest)) (plainPrefix dbg g ((b, false), rest)) := by
  unfold plainPrefix
  simp only [Bool.false_eq_true, if_false]
  split
  · exact .inl rfl
  · have := H.step a b (.noPct ((find_split rest '%').getD (rest, [])).1) h
    cases e : f a (.noPct ((find_split rest '%').getD (rest, [])).1) with
    | none =>
      rw [e] at this
      rcases this with h | ⟨b', h, hz⟩
      · rw [h]; exact .inl rfl
      · rw [h]; exact .inr ⟨b', _, rfl, hz⟩
    | some o =>
      rw [e] at this
      obtain ⟨p, hp, h⟩ := this
      rw [hp]
      rcases h with h | h
      · exact ⟨_, rfl, .inl ⟨h.1, h.2, rfl⟩⟩
      · exact ⟨_, rfl, .inr h⟩

theorem plain_keeps {P : α → Prop} (hf : Keeps f P) {dbg : Bool} {o o' : (α × Bool) × Str} (ho : P o.1.1)
    (h : plainPrefix dbg f o = some o') : P o'.1.1 := by
  unfold plainPrefix at h
  split at h
  · cases h; exact ho
  · simp only at h
    split at h
    · cases h
    · rw [Option.map_eq_some_iff] at h
      obtain ⟨o4, h5, rfl⟩ := h
      exact hf _ (.noPct _) o4.1 o4.2 ho trivial h5

theorem Side.push (H : Side R F Z f g) {a : α} {b : β} (h : R a b) {res : Push} (hr : PushOk res) :
    Both R F Z (processPush f a res) (processPush g b res) := by
  cases res with
  | needMore => exact ⟨_, rfl, .inl ⟨rfl, h⟩⟩
  | decoded s => exact H.step a b (.char s) h
  | undecodable s => exact H.undec h hr

theorem Side.writeStep (H : Side R F Z f g) {dbg : Bool} {a : α} {b : β} (h : R a b) {enc rest : Str}
    (he : Part enc) : BothX R F Z (writeStep dbg f a enc rest) (writeStep dbg g b enc rest) := by
  unfold MaybePct.writeStep
  cases hp : pushLoop enc 0 rest with
  | none => exact .inl rfl
  | some r =>
    obtain ⟨enc', consumed, res⟩ := r
    obtain ⟨q1, q2⟩ := pushLoop_ok he hp
    simp only [Option.bind_some]
    split
    · have hb : BothX R F Z ((flushRest f a enc' rest).bind (plainPrefix dbg f))
          ((flushRest g b enc' rest).bind (plainPrefix dbg g)) := by
        refine BothX.bindX H.z (H.flush h q1) ?_ ?_ ?_ ?_
        · intro a b c _ h; exact H.plain h
        · intro a b c _ h; exact bothX_of h
        · intro b c; exact ⟨c, rfl⟩
        · intro a b br c o _ h e
          exact plain_keeps (H.keep b) (o := ((a, br), c)) h e
      revert hb
      generalize (flushRest f a enc' rest).bind (plainPrefix dbg f) = x
      generalize (flushRest g b enc' rest).bind (plainPrefix dbg g) = y
      intro hb
      cases x with
      | none =>
        rcases hb with rfl | ⟨b, e, rfl, hz⟩
        · exact .inl rfl
        · exact .inr ⟨b, _, rfl, hz⟩
      | some o =>
        obtain ⟨p, rfl, hb⟩ := hb
        rcases hb with hb | hb
        · refine ⟨_, rfl, .inl ⟨hb.1, hb.2.1, ?_⟩⟩
          simp [hb.2.2]
        · exact ⟨_, rfl, .inr hb⟩
    · refine Both.bindX H.z (H.push h q2) ?_ ?_ ?_ ?_
      · intro a b h
        simp only [Bool.false_eq_true, if_false]
        exact bothX_map h
      · intro a b h
        exact bothX_of h
      · intro b; exact ⟨(enc', rest), rfl⟩
      · intro a b br o h e
        simp only at e
        split at e
        · cases e; exact h
        · rw [Option.map_eq_some_iff] at e
          obtain ⟨_, _, rfl⟩ := e
          exact h

theorem Side.writeStr (H : Side R F Z f g) {dbg : Bool} (fuel : Nat) {a : α} {b : β} (h : R a b)
    {enc rest : Str} (he : Part enc) :
    BothX R F Z (writeStr dbg f fuel a enc rest) (writeStr dbg g fuel b enc rest) := by
  induction fuel generalizing a b enc rest with
  | zero => exact .inl rfl
  | succ n ih =>
    rw [MaybePct.writeStr, MaybePct.writeStr]
    split
    · exact bothX_of h
    · refine BothX.bindX H.z (H.writeStep h he) ?_ ?_ ?_ ?_
      · intro a' b' c hc h
        simp only [Bool.false_eq_true, if_false]
        exact ih h (writeStep_keeps (P := fun _ => True) (fun _ _ _ _ _ _ _ => trivial) trivial he hc).2
      · intro a b c _ h; exact bothX_of h
      · intro b c; exact ⟨c.1, rfl⟩
      · intro a' b' br c o hc h e
        have hp := (writeStep_keeps (P := fun _ => True) (fun _ _ _ _ _ _ _ => trivial) trivial he hc).2
        simp only at e
        split at e
        · cases e; exact h
        · obtain ⟨o1, o2⟩ := o
          exact (writeStr_keeps (H.keep b') h hp e).1

theorem Side.writeAll (H : Side R F Z f g) {dbg : Bool} (d : List Str) {a : α} {b : β} (h : R a b)
    {enc : Str} (he : Part enc) : BothX R F Z (writeAll dbg f a enc d) (writeAll dbg g b enc d) := by
  induction d generalizing a b enc with
  | nil => exact bothX_of h
  | cons s d ih =>
    rw [MaybePct.writeAll, MaybePct.writeAll]
    refine BothX.bindX H.z (H.writeStr _ h he) ?_ ?_ ?_ ?_
    · intro a' b' c hc h
      simp only [Bool.false_eq_true, if_false]
      exact ih h (writeStr_keeps (P := fun _ => True) (fun _ _ _ _ _ _ _ => trivial) trivial he hc).2
    · intro a b c _ h; exact bothX_of h
    · intro b c; exact ⟨c, rfl⟩
    · intro a' b' br c o hc h e
      have hp := (writeStr_keeps (P := fun _ => True) (fun _ _ _ _ _ _ _ => trivial) trivial he hc).2
      simp only at e
      split at e
      · cases e; exact h
      · obtain ⟨o1, o2⟩ := o
        exact (writeAll_keeps (H.keep b') h hp e).1

/-- The outcomes of the whole decomposition. -/
theorem Side.process (H : Side R F Z f g) {dbg : Bool} (d : List Str) {a : α} {b : β} (h : R a b) :
    match process_percent_encoded_best_effort dbg f a d with
    | none => process_percent_encoded_best_effort dbg g b d = none ∨
        ∃ b', process_percent_encoded_best_effort dbg g b d = some b' ∧ Z b'
    | some a' => ∃ b', process_percent_encoded_best_effort dbg g b d = some b' ∧ (R a' b' ∨ F a' b') := by
  have hw := H.writeAll (dbg := dbg) d h Part.nil
  unfold process_percent_encoded_best_effort
  cases e : MaybePct.writeAll dbg f a [] d with
  | none =>
    rw [e] at hw
    rcases hw with h | ⟨b', e', h, hz⟩
    · rw [h]; exact .inl rfl
    · rw [h]; exact .inr ⟨b', rfl, hz⟩
  | some o =>
    rw [e] at hw
    obtain ⟨⟨⟨b', br'⟩, enc'⟩, hp, hw⟩ := hw
    obtain ⟨⟨a', br⟩, enc⟩ := o
    have he := (writeAll_keeps (P := fun _ => True) (fun _ _ _ _ _ _ _ => trivial) trivial .nil e).2
    rw [hp]
    simp only [Option.bind_some]
    rcases hw with ⟨h1, h2, h3⟩ | ⟨h1, h2⟩
    · simp only at h1 h2 h3; subst h1 h3
      cases br' with
      | true => exact ⟨b', rfl, .inl h2⟩
      | false =>
        simp only [Bool.false_eq_true, if_false]
        by_cases hz : enc'.isEmpty = true
        · simp only [hz, if_true]
          exact ⟨b', rfl, .inl h2⟩
        · simp only [hz, Bool.false_eq_true, if_false]
          have hu := H.undec h2 he
          cases ho : output_as_undecodable f a' enc' with
          | none =>
            rw [ho] at hu
            rcases hu with hu | ⟨b'', hu, hz⟩
            · rw [hu]; exact .inl rfl
            · rw [hu]; exact .inr ⟨b'', rfl, hz⟩
          | some o =>
            rw [ho] at hu
            obtain ⟨p, hp, hu⟩ := hu
            rw [hp]
            rcases hu with hu | hu
            · exact ⟨_, rfl, .inl hu.2⟩
            · exact ⟨_, rfl, .inr hu.2⟩
    · simp only at h1 h2; subst h1
      simp only [if_true]
      split
      · exact .inr ⟨b', rfl, H.z _ _ h2⟩
      · next a'' hh =>
        refine ⟨b', rfl, .inr ?_⟩
        split at hh
        · cases hh; exact h2
        · split at hh
          · cases hh; exact h2
          · rw [Option.map_eq_some_iff] at hh
            obtain ⟨o, ho, rfl⟩ := hh
            exact undec_keeps (H.keep b') h2 he ho

end

end Verif.MaybePct
