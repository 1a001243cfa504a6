import Verif.Model.MaybePct
import Verif.Spec.TemplateExpand

/-!
# How reserved expansion reads a value

Exact description of what the crate makes of the percent signs of *any* value under `{+v}` and `{#v}`,
including the values on which it loses text or panics.  Only the type `Frag` (the kinds of pieces
handed on) is taken from the model.  UTF-8 is that of `Spec/Utf8.lean`.
-/

namespace Verif.Rfc6570

open Verif.Abnf Verif.Rfc Verif.MaybePct

/-- The bytes are the beginning of the encoding of a character, and not all of it. -/
def Incomplete (bs : List Nat) : Prop := bs ≠ [] ∧ ∃ bs' c, bs' ≠ [] ∧ bs ++ bs' = utf8 c

/-- The bytes are the encoding of a character. -/
def Complete (bs : List Nat) : Prop := ∃ c, bs = utf8 c

/-- Neither of the two. -/
def Broken (bs : List Nat) : Prop := ¬ Incomplete bs ∧ ¬ Complete bs

/-- The beginning of a triplet. -/
def Tail (t : Str) : Prop := t = [] ∨ t = ['%'] ∨ ∃ h, HEXDIG h = true ∧ t = ['%', h]

/-- The character cannot go on after the triplets and the beginning `t` of a triplet. -/
def Stops (t : Str) (c : Char) : Prop := if t = [] then c ≠ '%' else HEXDIG c = false

/-- Triplets `g` that do not encode a character, and the beginning `t` of a triplet. -/
def flushed (g t : Str) : List Frag :=
  .invalid g :: match t with
    | [] => []
    | [_] => [.stray]
    | _ :: h => [.stray, .noPct h]

/-- `Fragments dbg k t d fs p`: when the triplets `k` and the beginning `t` of a triplet have been
held back, the pieces `d` of the value are decomposed into `fs`, and then the program panics if `p`. -/
inductive Fragments (dbg : Bool) : Str → Str → List Str → List Frag → Bool → Prop
  /-- The end of the value. -/
  | done : Fragments dbg [] [] [] [] false
  | doneHeld {k t} : k ++ t ≠ [] → Fragments dbg k t [] (flushed k t) false
  /-- The end of a piece. -/
  | next {k t d fs p} : Fragments dbg k t d fs p → Fragments dbg k t ([] :: d) fs p
  /-- Plain text starting with an ASCII character, up to the next percent sign: what has been held
  back is lost. -/
  | plain {k t c r s d fs p} : c.toNat < 128 → c ≠ '%' → (t ≠ [] → HEXDIG c = false) → '%' ∉ r →
      (s = [] ∨ ∃ s', s = '%' :: s') → Fragments dbg [] [] (s :: d) fs p →
      Fragments dbg k t ((c :: r ++ s) :: d) (.noPct (c :: r) :: fs) p
  /-- Plain text starting with another character: panic. -/
  | wide {k t c r d} : 128 ≤ c.toNat → Fragments dbg k t ((c :: r) :: d) (flushed k t) true
  /-- A percent sign directly after a piece that ended inside a triplet. -/
  | againDebug {k t r d} : t ≠ [] → dbg = true → Fragments dbg k t (('%' :: r) :: d) [] true
  | againRelease {k t r d fs p} : t ≠ [] → dbg = false → Fragments dbg [] [] (('%' :: r) :: d) fs p →
      Fragments dbg k t (('%' :: r) :: d) (.noPct [] :: fs) p
  /-- The triplets (with those held back) stop before they have encoded a character. -/
  | cut {k kb t x g ys t' c r d fs p} : Trip k kb → Trip g ys → Tail t' → x ≠ [] →
      t ++ x = g ++ t' → (ys = [] ∨ Incomplete (kb ++ ys)) → Stops t' c → c.toNat < 128 →
      Fragments dbg [] [] ((c :: r) :: d) fs p →
      Fragments dbg k t ((x ++ c :: r) :: d) (flushed (k ++ g) t' ++ fs) p
  | cutWide {k kb t x g ys t' c r d} : Trip k kb → Trip g ys → Tail t' → x ≠ [] →
      t ++ x = g ++ t' → (ys = [] ∨ Incomplete (kb ++ ys)) → 128 ≤ c.toNat →
      Fragments dbg k t ((x ++ c :: r) :: d) (flushed (k ++ g) t') true
  /-- The same at the end of a piece. -/
  | stay {k kb t x g ys t' d fs p} : Trip k kb → Trip g ys → Tail t' → x ≠ [] →
      t ++ x = g ++ t' → (ys = [] ∨ Incomplete (kb ++ ys)) → Fragments dbg (k ++ g) t' d fs p →
      Fragments dbg k t (x :: d) fs p
  /-- The triplets encode a character. -/
  | char {k kb t x g ys s d fs p} : Trip k kb → Trip g ys → ys ≠ [] → x ≠ [] → t ++ x = g →
      Complete (kb ++ ys) → Fragments dbg [] [] (s :: d) fs p →
      Fragments dbg k t ((x ++ s) :: d) (.char (k ++ g) :: fs) p
  /-- A triplet whose byte cannot start a character. -/
  | bad {t x g b s d fs p} : Trip g [b] → x ≠ [] → t ++ x = g → Broken [b] →
      Fragments dbg [] [] (s :: d) fs p → Fragments dbg [] t ((x ++ s) :: d) (.invalid g :: fs) p
  /-- A triplet that does not go on the character that was being read: it is held back. -/
  | broken {k kb t x g ys z b s d fs p} : Trip k kb → Trip g ys → Trip z [b] → x ≠ [] →
      t ++ x = g ++ z → (Incomplete (kb ++ ys) ∨ ys = [] ∧ ∃ y, kb = [y] ∧ Broken [y]) →
      Broken (kb ++ ys ++ [b]) → Fragments dbg z [] (s :: d) fs p →
      Fragments dbg k t ((x ++ s) :: d) (.invalid (k ++ g) :: fs) p
  /-- A triplet of an ASCII character has been held back. -/
  | ascii {k y t x g b s d fs p} : Trip k [y] → y < 128 → Trip g [b] → x ≠ [] → t ++ x = g → b < 128 →
      Fragments dbg [] [] (s :: d) fs p →
      Fragments dbg k t ((x ++ s) :: d) (.char (k ++ g) :: fs) p
  | asciiPanic {k y t x g b s d} : Trip k [y] → y < 128 → Trip g [b] → x ≠ [] → t ++ x = g → 128 ≤ b →
      Fragments dbg k t ((x ++ s) :: d) [] true

/-- The text written for a fragment. -/
def fragText (S : Spec) : Frag → Str
  | .char s => s
  | .noPct s => s.flatMap (encR1 S)
  | .stray => ['%', '2', '5']
  | .invalid s => s

/-- The text written for the fragments under a prefix modifier with maximum length `n`.  The crate
counts a decoded character, a stray percent sign and every broken triplet as one; a plain text counts
as many as the UTF-8 bytes before its last character that is written (which may be more than `n`: then
a debug build panics, and in a release build the remaining length wraps around). -/
def prefixText (S : Spec) (dbg : Bool) : Nat → List Frag → Bool → Option Str
  | _, [], p => if p then none else some []
  | 0, _ :: _, _ => some []
  | n + 1, .char s :: fs, p => (prefixText S dbg n fs p).map (s ++ ·)
  | n + 1, .stray :: fs, p => (prefixText S dbg n fs p).map (['%', '2', '5'] ++ ·)
  | n + 1, .invalid s :: fs, p =>
    let m := min (n + 1) (s.length / 3)
    (prefixText S dbg (n + 1 - m) fs p).map (s.take (3 * m) ++ ·)
  | _ + 1, .noPct [] :: _, _ => none
  | n + 1, .noPct (c :: r) :: fs, p =>
    let u := (c :: r).take (n + 1)
    let used := bytes u.dropLast
    if used ≤ n + 1 then (prefixText S dbg (n + 1 - used) fs p).map (u.flatMap (encR1 S) ++ ·)
    else if dbg then none
    else (prefixText S dbg (2 ^ 64 + (n + 1) - used) fs p).map (u.flatMap (encR1 S) ++ ·)

/-- The text written for the pieces of a value under a prefix modifier with maximum length `n`, for
the operators without "U+R": every piece counts as one more than the UTF-8 bytes before its last
character that is written. -/
def prefixPieces (S : Spec) (dbg : Bool) : Nat → List Str → Option Str
  | _, [] => some []
  | 0, _ :: _ => some []
  | n + 1, [] :: d => prefixPieces S dbg (n + 1) d
  | n + 1, (c :: r) :: d =>
    let u := (c :: r).take (n + 1)
    let used := bytes u.dropLast + 1
    if used ≤ n + 1 then (prefixPieces S dbg (n + 1 - used) d).map (encU S u ++ ·)
    else if dbg then none
    else (prefixPieces S dbg (2 ^ 64 + (n + 1) - used) d).map (encU S u ++ ·)

end Verif.Rfc6570
