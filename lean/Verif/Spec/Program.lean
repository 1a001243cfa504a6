import Verif.Spec.Edit
import Verif.Spec.Build
import Verif.Spec.Template
import Verif.Spec.Utf8
import Verif.Spec.Normalize
import Verif.Model.Program

/-!
# What a safe program may rely on

Specification file for C71.  Of the model it uses the types of programs and values, the lookup of an
operand, and the state of a builder after its setters (which C28 specifies).
-/

namespace Verif.Prog

open Rfc

/-- The text belongs to the language of its type.  (The type of absolute IRIs has texts with an empty
fragment as well, see C04; the exact language of URI templates is that of C31.) -/
def Member (S : Spec) : TypeKind → Str → Prop
  | .iriLike .reference, s => IRI_reference S s
  | .iriLike .iri, s => IRI S s
  | .iriLike .relative, s => relative_ref S s
  | .iriLike .absolute, s => absolute_IRI S s ∨ ∃ t, s = t ++ ['#'] ∧ absolute_IRI S t
  | .query, s => query S s
  | .fragment, s => fragment S s
  | .template, s => Rfc6570.acceptedTemplate s

/-- Every value in the program belongs to its type. -/
def Sound (st : Store) : Prop := ∀ v ∈ st, Member v.spec v.kind v.text

/-- The texts on which the constructor of URI templates panics (C31): a template, a `%`, and then a
character of three or more bytes, or an ASCII character and one that is not ASCII. -/
def TemplatePanics (s : Str) : Prop :=
  ∃ p r, s = p ++ '%' :: r ∧ Rfc6570.acceptedTemplate p ∧
    ((∃ c r', r = c :: r' ∧ 0x800 ≤ c.toNat) ∨ (∃ c d r', r = c :: d :: r' ∧ c.toNat < 0x80 ∧ 0x80 ≤ d.toNat))

/-- The methods that break a value of an IRI type or panic on it: `remove_password_inline` (C26), if
the user information has no colon and ends in a triplet or a character that is not ASCII, or is empty before
an IP literal; and in debug builds the replacement of the host of an IRI with a non-empty fragment (C27). -/
def BadCall (debug : Bool) (v : Val) : Call → Prop
  | .remove_password_inline =>
    ∃ (p : Parts) (a : AuthParts) (u : Str), (p.Valid v.spec ∧ p.recompose = v.text) ∧ a.Valid v.spec ∧
      p.authority = some a.recompose ∧ a.userinfo = some u ∧ ':' ∉ u ∧ BreaksRemoval a u
  | .replace_host _ | .replace_host_reg_name _ =>
    debug = true ∧ v.kind = .iri ∧ ∃ p : Parts, (p.Valid v.spec ∧ p.recompose = v.text) ∧
      ∃ c r, p.fragment = some (c :: r)
  | _ => False

/-- The builders that may build an invalid value or panic (C28, C30): the path is not generated by the rule
`path`; or with normalization, without scheme and authority, it begins with `//` and is `/` without its dot
segments. -/
def BadBuilder (S : Spec) (b : Builder) : Prop :=
  ¬ path S b.path ∨
  (b.normalize = true ∧ b.scheme = none ∧ b.authority = none ∧ (∃ r, b.path = '/' :: '/' :: r) ∧
    remove_dot_segments (undot b.path) = ['/'])

/-- The calls that break the type system or panic.  Beside those above, the typed query of an absolute
IRI that ends in `#` (C53). -/
def Bad (debug : Bool) (st : Store) : Op → Prop
  | .new _ .template s => TemplatePanics s
  | .newBytes _ .template bytes => ∃ s, bytes = utf8s s ∧ TemplatePanics s
  | .call i c => ∃ v, getIri st i = some v ∧ BadCall debug v c
  | .query i => ∃ v t, getIri st i = some v ∧ v.kind = .absolute ∧ v.text = t ++ ['#'] ∧
      (debug = true ∨ '?' ∈ t)
  | .build S _ template setters => ∃ b, startBuilder st template = some b ∧ BadBuilder S (b.run setters)
  | _ => False

/-- A program in which no call is bad at the time it is made. -/
inductive Good (debug : Bool) : List Op → Store → Prop
  | nil (st : Store) : Good debug [] st
  | cons (op : Op) (ops : List Op) (st : Store) : ¬ Bad debug st op →
      (∀ st', step debug st op = some st' → Good debug ops st') → Good debug (op :: ops) st

end Verif.Prog
