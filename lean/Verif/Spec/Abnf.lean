/-!
# ABNF combinators (RFC 5234) as predicates on character lists

This file is part of the specification: it mentions nothing of the model.
-/

namespace Verif.Abnf

/-- A language: a set of character strings. -/
abbrev Lang := List Char → Prop

/-- A single character of a class. -/
def chr (p : Char → Bool) : Lang := fun s => ∃ c, s = [c] ∧ p c = true

/-- A literal string (given with the exact characters). -/
def lit (t : List Char) : Lang := fun s => s = t

/-- Concatenation `A B`. -/
def seq (A B : Lang) : Lang := fun s => ∃ a b, s = a ++ b ∧ A a ∧ B b

/-- Alternative `A / B`. -/
def alt (A B : Lang) : Lang := fun s => A s ∨ B s

/-- Optional `[ A ]`. -/
def opt (A : Lang) : Lang := fun s => s = [] ∨ A s

/-- Exactly `n` repetitions `nA`. -/
def rep : Nat → Lang → Lang
  | 0, _ => fun s => s = []
  | n + 1, A => seq A (rep n A)

/-- Any number of repetitions `*A`. -/
def star (A : Lang) : Lang := fun s => ∃ n, rep n A s

/-- At least one `1*A`. -/
def plus (A : Lang) : Lang := seq A (star A)

/-- At most `n` repetitions `*nA`. -/
def upTo (n : Nat) (A : Lang) : Lang := fun s => ∃ k, k ≤ n ∧ rep k A s

/-- Between `m` and `n` repetitions `m*nA`. -/
def between (m n : Nat) (A : Lang) : Lang := fun s => ∃ k, m ≤ k ∧ k ≤ n ∧ rep k A s

@[inherit_doc] scoped infixr:65 " ⬝ " => seq
@[inherit_doc] scoped infixr:60 " ∕ " => alt

end Verif.Abnf
