import Verif.Model.Alloc

/-!
# What a fallible operation on a string may do

`Fallible alloc b want a r`: the operation is to turn the string `b` into `want` and return `a`; `r` is
what it does.

* If the string has the capacity for `want`, or the allocator grants it, the operation succeeds: the
  string is `want` and its bytes fit into the capacity.
* Otherwise it returns the allocator's error and leaves the text and the capacity of the string as they
  were.

So it neither aborts nor panics, and it fails only if the allocator has refused.
-/

namespace Verif.Heap

/-- There is room for `n` bytes: the capacity is enough, or the allocator grants the request. -/
def Granted (alloc : Alloc) (b : Buf) (n : Nat) : Prop := n ≤ b.cap ∨ (alloc b.calls n).isSome = true

inductive Fallible {α : Type} (alloc : Alloc) (b : Buf) (want : Str) (a : α) : Run α → Prop
  | ok (b' : Buf) : Granted alloc b (blen want) → b'.text = want → blen want ≤ b'.cap →
      Fallible alloc b want a (.ok b' a)
  | err (b' : Buf) : ¬ Granted alloc b (blen want) → b'.text = b.text → b'.cap = b.cap →
      Fallible alloc b want a (.err b')

end Verif.Heap
