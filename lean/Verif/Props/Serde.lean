import Verif.Model.Serde
import Verif.Props.Construct

/-!
# C59: serde
-/

namespace Verif

/-- The call hands over the text, in one of the ways a deserializer may do that. -/
inductive DeCall.Text : DeCall → Str → Prop
  | str {s} : DeCall.Text (.str s) s
  | borrowedStr {s} : DeCall.Text (.borrowedStr s) s
  | string {s} : DeCall.Text (.string s) s
  | char {c} : DeCall.Text (.char c) [c]

/-- **C59.**  An owned value is deserialized exactly from the texts of the language of its type, however
the deserializer hands the text over, and the value has that text; every other text is reported as
invalid, and data that is not a text as of the wrong type. -/
theorem C59_owned (S : Spec) (k : TypeKind) (d : Deserializer) :
    (∀ c s, d .str = .ok c → c.Text s → ¬ Panics k s →
      (language S k s → deserializeOwned S k d = some (.ok s)) ∧
      (¬ language S k s → deserializeOwned S k d = some (.err (.custom .invalid)))) ∧
    (∀ c, d .str = .ok c → (∀ s, ¬ c.Text s) → deserializeOwned S k d = some (.err .invalidType)) ∧
    ∀ e, d .str = .err e → deserializeOwned S k d = some (.err e) := by
  refine ⟨fun c s hd ht hp => ?_, fun c hd hn => ?_, fun e hd => by unfold deserializeOwned; rw [hd]⟩
  · have key : (language S k s → k.validate S s = some (.ok ())) ∧
        (¬ language S k s → k.validate S s = some (.err .invalid)) := by
      rcases validate_cases S k s with h | h | h
      · exact ⟨fun _ => h.2.2, fun hn => absurd h.1 hn⟩
      · exact ⟨fun hl => absurd hl h.1, fun _ => h.2.2⟩
      · exact absurd h.2.1 hp
    constructor <;> intro h
    · have := key.1 h
      unfold deserializeOwned
      rw [hd]
      cases ht <;> simp [visitOwned, owned_try_from_str, try_from_str, owned_try_from_string, this,
        checked, checkedOwned, RResult.map, RResult.custom, RResult.customOwned, to_owned]
    · have := key.2 h
      unfold deserializeOwned
      rw [hd]
      cases ht <;> simp [visitOwned, owned_try_from_str, try_from_str, owned_try_from_string, this,
        checked, checkedOwned, RResult.map, RResult.custom, RResult.customOwned]
  · unfold deserializeOwned
    rw [hd]
    cases c with
    | other => rfl
    | str s => exact absurd .str (hn s)
    | borrowedStr s => exact absurd .borrowedStr (hn s)
    | string s => exact absurd .string (hn s)
    | char c => exact absurd .char (hn [c])

/-- **C59.**  A borrowed value is deserialized exactly if the deserializer can lend the text (and hands it
over so) and the text is in the language of the type. -/
theorem C59_borrowed (S : Spec) (k : TypeKind) (d : Deserializer)
    (hp : ∀ s, d .string = .ok (.borrowedStr s) → ¬ Panics k s) :
    (∀ s, deserializeBorrowed S k d = some (.ok s) ↔
      d .string = .ok (.borrowedStr s) ∧ language S k s) ∧
    (∀ s, d .string = .ok (.borrowedStr s) → ¬ language S k s →
      deserializeBorrowed S k d = some (.err (.custom .invalid))) ∧
    deserializeBorrowed S k d ≠ none := by
  unfold deserializeBorrowed
  cases hd : d .string with
  | err e => simp
  | ok c =>
    cases c with
    | borrowedStr t =>
      have hp' := hp t hd
      rcases validate_cases S k t with h | h | h
      · refine ⟨fun s => ?_, fun s e hl => ?_, ?_⟩
        · simp only [visitBorrowed, try_from_str, h.2.2, checked, Option.map_some, RResult.custom,
            Option.some.injEq, RResult.ok.injEq, DeCall.borrowedStr.injEq]
          constructor
          · rintro rfl
            exact ⟨rfl, h.1⟩
          · exact fun x => x.1
        · cases e
          exact absurd h.1 hl
        · simp [visitBorrowed, try_from_str, h.2.2]
      · refine ⟨fun s => ?_, fun s e hl => ?_, ?_⟩
        · simp only [visitBorrowed, try_from_str, h.2.2, checked, Option.map_some, RResult.custom,
            Option.some.injEq, RResult.ok.injEq, DeCall.borrowedStr.injEq]
          constructor
          · intro x; cases x
          · rintro ⟨rfl, x⟩
            exact absurd x h.1
        · simp [visitBorrowed, try_from_str, h.2.2, checked, RResult.custom]
        · simp [visitBorrowed, try_from_str, h.2.2]
      · exact absurd h.2.1 hp'
    | _ => simp [visitBorrowed]

/-- **C59** (round trip).  A value of the type is written as a text, and any deserializer that hands over
that text gives the value back. -/
theorem C59_round_trip (S : Spec) (k : TypeKind) (s : Str) (hl : language S k s) :
    ∃ t, serialize s = .str t ∧ ∀ d : Deserializer,
    (∀ c, d .str = .ok c → c.Text t → deserializeOwned S k d = some (.ok s)) ∧
    (d .string = .ok (.borrowedStr t) → deserializeBorrowed S k d = some (.ok s)) := by
  refine ⟨s, rfl, fun d => ?_⟩
  have hp : ¬ Panics k s := by
    rcases validate_cases S k s with h | h | h
    · exact h.2.1
    · exact h.2.1
    · exact absurd hl h.1
  refine ⟨fun c hd ht => ((C59_owned S k d).1 c s hd ht hp).1 hl, fun hd => ?_⟩
  refine ((C59_borrowed S k d ?_).1 s).2 ⟨hd, hl⟩
  intro s' h'
  rw [hd] at h'
  cases h'
  exact hp

example : deserializeOwned .uri (.iriLike .iri) (fun _ => .ok (.string (chars! "http://h/"))) =
    some (.ok (chars! "http://h/")) ∧
    deserializeOwned .uri (.iriLike .iri) (fun _ => .ok (.str (chars! "h/"))) =
      some (.err (.custom .invalid)) ∧
    deserializeBorrowed .uri .query (fun _ => .ok (.str (chars! "a=b"))) = some (.err .invalidType) ∧
    deserializeBorrowed .uri .query (fun _ => .ok (.borrowedStr (chars! "a=b"))) =
      some (.ok (chars! "a=b")) := by decide +kernel

end Verif
