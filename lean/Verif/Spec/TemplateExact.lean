import Verif.Spec.TemplateFragments
import Verif.Spec.TemplateValues

/-!
# Expansion of every template with every value

The expansion of RFC 6570 Appendix A as the crate performs it, with all its departures: the encodings are
those of `Spec/TemplateFragments.lean`, `none` is a panic.
-/

namespace Verif.Rfc6570

open Verif.Abnf Verif.Rfc Verif.Tpl Verif.MaybePct

/-- The fragments of a value, and whether reading it ends in a panic.  (There is exactly one such pair:
theorem `C33_fragments`.) -/
noncomputable def fragmentsOf (dbg : Bool) (d : List Str) : List Frag × Bool :=
  Classical.epsilon fun r => Fragments dbg [] [] d r.1 r.2

/-- All of them, unless one failed. -/
def allSome {α : Type} : List (Option α) → Option (List α)
  | [] => some []
  | x :: r => x.bind fun a => (allSome r).map (a :: ·)

/-- The text written for a member of a list or an associative array. -/
noncomputable def memberText (S : Spec) (dbg : Bool) (o : OpRow) (d : List Str) : Option Str :=
  if o.reserved then
    if (fragmentsOf dbg d).2 then none else some ((fragmentsOf dbg d).1.flatMap (fragText S))
  else some (encU S d.flatten)

/-- The text written for a string. -/
noncomputable def stringText (S : Spec) (dbg : Bool) (o : OpRow) (m : Mod) (d : List Str) : Option Str :=
  match m with
  | .pre ds =>
    if o.reserved then prefixText S dbg (decimal ds) (fragmentsOf dbg d).1 (fragmentsOf dbg d).2
    else prefixPieces S dbg (decimal ds) d
  | _ =>
    if o.reserved then
      if (fragmentsOf dbg d).2 || (fragmentsOf dbg d).1.contains (.noPct []) then none
      else some ((fragmentsOf dbg d).1.flatMap (fragText S))
    else some (encU S d.flatten)

/-- A list, given the texts of its items. -/
def listText (S : Spec) (o : OpRow) (v : Var) (items : List Str) : Str :=
  if v.mod = .explode then
    if o.named then
      match items with
      | [] => []
      | i :: r => joinWith o.sep ((v.name ++ '=' :: i) :: r.map fun i => encU S v.name ++ '=' :: i)
    else joinWith o.sep items
  else (if o.named then v.name ++ ['='] else []) ++ joinWith [','] items

/-- An associative array, given the texts of its keys and values. -/
def assocText (S : Spec) (o : OpRow) (v : Var) (entries : List (Str × Str)) : Str :=
  if v.mod = .explode then joinWith o.sep (entries.map fun e => e.1 ++ '=' :: e.2)
  else
    (if o.named then encU S v.name ++ ['='] else []) ++
      joinWith [','] (entries.map fun e => e.1 ++ ',' :: e.2)

/-- Whether the variable has a prefix modifier. -/
def Var.hasPrefix (v : Var) : Bool := match v.mod with | .pre _ => true | _ => false

/-- A defined variable, without the leading `first` or `sep`. -/
noncomputable def varExact (S : Spec) (dbg : Bool) (o : OpRow) (v : Var) : Value → Option Str
  | .undefined => some []
  | .string d => (stringText S dbg o v.mod d).map fun t =>
      if o.named then v.name ++ (if t = [] then o.ifemp else '=' :: t) else t
  | .list items =>
    if v.hasPrefix then none
    else (allSome (items.map (memberText S dbg o))).map (listText S o v)
  | .assoc entries =>
    if v.hasPrefix then none
    else
      (allSome (entries.map fun e =>
        (memberText S dbg o e.1).bind fun k => (memberText S dbg o e.2).map fun x => (k, x))).map
        (assocText S o v)

/-- An expression: the defined variables, separated by `sep`, after `first`. -/
noncomputable def exprExact (S : Spec) (dbg : Bool) (val : Str → Value) (op : Option Char)
    (vars : List Var) : Option Str :=
  (allSome ((vars.filter fun v => (flat (val v.name)).defined).map fun v =>
    varExact S dbg (row op) v (val v.name))).map fun
      | [] => []
      | parts => (row op).first ++ joinWith (row op).sep parts

/-- A part of a template. -/
noncomputable def pieceExact (S : Spec) (dbg : Bool) (val : Str → Value) : Piece → Option Str
  | .lit s => some s
  | .expr op vars => exprExact S dbg val op vars

/-- A template. -/
noncomputable def expansionExact (S : Spec) (dbg : Bool) (val : Str → Value) (t : List Piece) : Option Str :=
  (allSome (t.map (pieceExact S dbg val))).map List.flatten

/-! ## The type check -/

/-- The variables of an expression with their byte positions, the first being at `pos`. -/
def placeVars : Nat → List Var → List (Nat × Var)
  | _, [] => []
  | pos, v :: r => (pos, v) :: placeVars (pos + bytes v.render + 1) r

/-- The variables of a template with their byte positions. -/
def places : Nat → List Piece → List (Nat × Var)
  | _, [] => []
  | pos, p :: t =>
    (match p with
      | .lit _ => []
      | .expr op vars => placeVars (pos + 1 + bytes op.toList) vars) ++ places (pos + bytes p.render) t

/-- A prefix length that does not fit into 16 bits. -/
def Var.tooLong (v : Var) : Bool := match v.mod with | .pre ds => 65535 < decimal ds | _ => false

/-- A prefix modifier for a value that is a nonempty list or associative array (section 2.4.1). -/
def Var.misfits (v : Var) (val : Val) : Bool :=
  v.hasPrefix && match val with
    | .list l => !l.isEmpty
    | .assoc l => !l.isEmpty
    | _ => false

/-- The first variable that is at fault decides. -/
def checkAll (val : Str → Val) : List (Nat × Var) → Res Unit
  | [] => .ok ()
  | (pos, v) :: r =>
    if v.tooLong then .panic
    else if v.misfits (val v.name) then .err .unexpectedValueType pos
    else checkAll val r

end Verif.Rfc6570
