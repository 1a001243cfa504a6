import Verif.Spec.TemplateValues
import Verif.Model.TemplateNaive

/-!
# What Rust values mean as values of template variables

The types `RustValue`, `FieldVisit` and `Field` describe the argument of the crate's functions.
-/

namespace Verif.Rfc6570

open Verif.Tpl Verif.Rfc

/-- The decimal text of a number: digits without superfluous zeros. -/
def IsDecimal (s : Str) (n : Nat) : Prop :=
  s ≠ [] ∧ (∀ c ∈ s, DIGIT c = true) ∧ decimal s = n ∧ (s.head? = some '0' → s = ['0'])

/-- The decimal text of an integer. -/
def IntText (s : Str) (i : Int) : Prop :=
  (0 ≤ i ∧ IsDecimal s i.natAbs) ∨ (i < 0 ∧ ∃ ds, s = '-' :: ds ∧ IsDecimal ds i.natAbs)

/-- `None` and `()` are undefined, integers and texts are strings, sequences and sets are lists (in the
order of iteration), maps are associative arrays. -/
inductive Means : RustValue → Val → Prop
  | unit : Means .unit .undefined
  | none : Means .none .undefined
  | some {v x} : Means v x → Means (.some v) x
  | ref {v x} : Means v x → Means (.ref v) x
  | int {i s} : IntText s i → Means (.int i) (.str s)
  | str {s} : Means (.str s) (.str s)
  | list {items} : Means (.list items) (.list (items.map List.flatten))
  | map {entries} : Means (.map entries) (.assoc (entries.map fun e => (e.1.flatten, e.2.flatten)))

/-- What a field stands for: its value, or what its custom function passes to the visitor. -/
inductive FieldMeans : FieldVisit → Val → Prop
  | naive {v x} : Means v x → FieldMeans (.naive v) x
  | undefined : FieldMeans .undefined .undefined
  | string {d} : FieldMeans (.string d) (.str d.flatten)
  | list {items} : FieldMeans (.listDirect items) (.list (items.map List.flatten))
  | assoc {entries} : FieldMeans (.assocDirect entries)
      (.assoc (entries.map fun e => (e.1.flatten, e.2.flatten)))

/-- The variables of a struct: the first field with the name (its own, unless another one is given)
determines the value; variables without a field are undefined. -/
def StructMeans (fields : List Field) (val : Str → Val) : Prop :=
  ∀ n, (∃ pre f post, fields = pre ++ f :: post ∧ f.var_name.getD f.field = n ∧
      (∀ g ∈ pre, g.var_name.getD g.field ≠ n) ∧ FieldMeans f.visit (val n)) ∨
    ((∀ g ∈ fields, g.var_name.getD g.field ≠ n) ∧ val n = .undefined)

/-- The value of a variable in a `SimpleContext`. -/
def simpleVal : Option SValue → Val
  | none => .undefined
  | some .undefined => .undefined
  | some (.string s) => .str s
  | some (.list l) => .list l
  | some (.assoc l) => .assoc l

/-- A `Display` object that makes one call to write itself. -/
def OneCall (d : Disp) : Prop := ∃ s, d = [s]

/-- All texts in the value are written in one call each.  (Negative integers are not: the sign and the
digits are written in two calls.) -/
inductive OnePiece : RustValue → Prop
  | unit : OnePiece .unit
  | none : OnePiece .none
  | some {v} : OnePiece v → OnePiece (.some v)
  | ref {v} : OnePiece v → OnePiece (.ref v)
  | int {i} : 0 ≤ i → OnePiece (.int i)
  | str {s} : OnePiece (.str s)
  | list {items} : (∀ d ∈ items, OneCall d) → OnePiece (.list items)
  | map {entries} : (∀ e ∈ entries, OneCall e.1 ∧ OneCall e.2) → OnePiece (.map entries)

/-- All texts that the visit of the field writes are written in one call each. -/
def OnePieceField : FieldVisit → Prop
  | .naive v => OnePiece v
  | .undefined => True
  | .string d => OneCall d
  | .listDirect items => ∀ d ∈ items, OneCall d
  | .assocDirect entries => ∀ e ∈ entries, OneCall e.1 ∧ OneCall e.2

/-- ASCII text without `%`. -/
def PlainAscii (s : Str) : Prop := ∀ c ∈ s, c.toNat < 128 ∧ c ≠ '%'

/-- All texts of the value are ASCII texts without `%`. -/
def PlainVal : Val → Prop
  | .undefined => True
  | .str s => PlainAscii s
  | .list l => ∀ s ∈ l, PlainAscii s
  | .assoc l => ∀ e ∈ l, PlainAscii e.1 ∧ PlainAscii e.2

end Verif.Rfc6570
