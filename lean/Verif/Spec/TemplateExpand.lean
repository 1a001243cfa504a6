import Verif.Spec.Template

/-!
# RFC 6570 section 3 and Appendix A: expansion

Specification file: it imports only other specification files.
-/

namespace Verif.Rfc6570

open Verif.Abnf Verif.Rfc

/-! ## Encoding (section 3.2.1) -/

/-- The "U" encoding: every character that is not unreserved becomes the triplets of its UTF-8 bytes.
(In IRI mode `ucschar` counts as unreserved, as everywhere in the crate.) -/
def encU (S : Spec) (s : Str) : Str :=
  s.flatMap fun c => if iunreserved S c then [c] else (utf8 c).flatMap pctUpper

/-- One character in the "U+R" encoding. -/
def encR1 (S : Spec) (c : Char) : Str :=
  if iunreserved S c || queryPrivate S c || gen_delims c || sub_delims c then [c]
  else (utf8 c).flatMap pctUpper

/-- The "U+R" encoding: triplets are kept, and all reserved and unreserved characters; every other
character, also a `%` that does not start a triplet, becomes triplets. -/
def encR (S : Spec) : Str → Str
  | [] => []
  | [c] => encR1 S c
  | [c, d] => encR1 S c ++ encR1 S d
  | c :: h :: l :: r =>
    if c = '%' ∧ HEXDIG h = true ∧ HEXDIG l = true then c :: h :: l :: encR S r
    else encR1 S c ++ encR S (h :: l :: r)

/-! ## The table of Appendix A -/

structure OpRow where
  first : Str
  sep : Str
  named : Bool
  ifemp : Str
  reserved : Bool

/-- The row of the table for an operator (`none`: no operator). -/
def row : Option Char → OpRow
  | none => ⟨[], [','], false, [], false⟩
  | some c =>
    if c = '+' then ⟨[], [','], false, [], true⟩
    else if c = '#' then ⟨['#'], [','], false, [], true⟩
    else if c = '.' then ⟨['.'], ['.'], false, [], false⟩
    else if c = '/' then ⟨['/'], ['/'], false, [], false⟩
    else if c = ';' then ⟨[';'], [';'], true, [], false⟩
    else if c = '?' then ⟨['?'], ['&'], true, ['='], false⟩
    else ⟨['&'], ['&'], true, ['='], false⟩

/-- The encoding selected by the operator. -/
def OpRow.enc (o : OpRow) (S : Spec) (s : Str) : Str := if o.reserved then encR S s else encU S s

/-! ## Values -/

/-- The value of a variable; the members of lists and associative arrays are defined. -/
inductive Val
  | undefined
  | str (s : Str)
  | list (items : List Str)
  | assoc (entries : List (Str × Str))
  deriving DecidableEq, Repr

/-- Section 2.3: a list or an associative array without members is undefined. -/
def Val.defined : Val → Bool
  | .undefined => false
  | .str _ => true
  | .list l => !l.isEmpty
  | .assoc l => !l.isEmpty

/-- Section 2.4.1: a prefix modifier selects the given number of characters at the beginning.
(Under `+` and `#` a triplet counts as one character, which this definition does not cover: no theorem
uses it for a value with a `%` under these operators.) -/
def Mod.cut (m : Mod) (s : Str) : Str :=
  match m with
  | .pre ds => s.take (decimal ds)
  | _ => s

/-- The expansion of one defined variable without the leading `first` or `sep` (Appendix A). -/
def varText (S : Spec) (o : OpRow) (v : Var) : Val → Str
  | .undefined => []
  | .str s =>
    let s := v.mod.cut s
    if o.named then v.name ++ (if s = [] then o.ifemp else '=' :: o.enc S s) else o.enc S s
  | .list items =>
    if v.mod = .explode then
      joinWith o.sep (items.map fun i =>
        if o.named then v.name ++ (if i = [] then o.ifemp else '=' :: o.enc S i) else o.enc S i)
    else (if o.named then v.name ++ ['='] else []) ++ joinWith [','] (items.map (o.enc S))
  | .assoc entries =>
    if v.mod = .explode then
      joinWith o.sep (entries.map fun e =>
        if o.named then encR S e.1 ++ (if e.2 = [] then o.ifemp else '=' :: o.enc S e.2)
        else o.enc S e.1 ++ '=' :: o.enc S e.2)
    else
      (if o.named then v.name ++ ['='] else []) ++
        joinWith [','] (entries.map fun e => o.enc S e.1 ++ ',' :: o.enc S e.2)

/-- The expansion of one defined variable by the crate, where it departs from Appendix A:
in an exploded list or associative array the `=` is written also before an empty value under the
operator `;`; the keys of an exploded associative array are encoded with the encoding of the operator;
the name of the variable is encoded once more before the second and later items of an exploded list,
and before an associative array that is not exploded (which only changes names with triplets). -/
def varTextCrate (S : Spec) (o : OpRow) (v : Var) : Val → Str
  | .list items =>
    if v.mod = .explode then
      if o.named then
        match items with
        | [] => []
        | i :: r => joinWith o.sep ((v.name ++ '=' :: o.enc S i) ::
            r.map fun i => o.enc S v.name ++ '=' :: o.enc S i)
      else joinWith o.sep (items.map (o.enc S))
    else (if o.named then v.name ++ ['='] else []) ++ joinWith [','] (items.map (o.enc S))
  | .assoc entries =>
    if v.mod = .explode then
      joinWith o.sep (entries.map fun e => o.enc S e.1 ++ '=' :: o.enc S e.2)
    else
      (if o.named then o.enc S v.name ++ ['='] else []) ++
        joinWith [','] (entries.map fun e => o.enc S e.1 ++ ',' :: o.enc S e.2)
  | val => varText S o v val

/-- The expansion of an expression, given the expansion of the variables: the defined variables,
separated by `sep`, after `first`; nothing if no variable is defined. -/
def exprText (varText : OpRow → Var → Val → Str) (ctx : Str → Val) (op : Option Char)
    (vars : List Var) : Str :=
  let o := row op
  match (vars.filter fun v => (ctx v.name).defined).map fun v => varText o v (ctx v.name) with
  | [] => []
  | parts => o.first ++ joinWith o.sep parts

/-- The expansion of a part of a template.  (ASCII literals are copied.) -/
def pieceText (varText : OpRow → Var → Val → Str) (ctx : Str → Val) : Piece → Str
  | .lit s => s
  | .expr op vars => exprText varText ctx op vars

/-- The expansion of a template (RFC 6570 section 3, Appendix A). -/
def expansion (S : Spec) (ctx : Str → Val) (t : List Piece) : Str :=
  t.flatMap (pieceText (varText S) ctx)

/-- The expansion of a template with the departures listed at `varTextCrate`. -/
def expansionCrate (S : Spec) (ctx : Str → Val) (t : List Piece) : Str :=
  t.flatMap (pieceText (varTextCrate S) ctx)

/-- The situations in which the crate does not depart from Appendix A. -/
def Agrees (S : Spec) (ctx : Str → Val) (t : List Piece) : Prop :=
  ∀ op vars, Piece.expr op vars ∈ t → (row op).named = true → ∀ v ∈ vars,
    match ctx v.name with
    | .list items => v.mod = .explode →
        (items.length ≤ 1 ∨ '%' ∉ v.name) ∧ ((row op).ifemp = ['='] ∨ [] ∉ items)
    | .assoc entries =>
        if v.mod = .explode then
          ∀ e ∈ entries, encR S e.1 = encU S e.1 ∧ ((row op).ifemp = ['='] ∨ e.2 ≠ [])
        else '%' ∉ v.name ∨ entries = []
    | _ => True

/-! ## Values that the crate expands without a failure

A value is a `Display` object: a list of pieces of text, written one after the other (one piece for a
`String`). -/

/-- `g` is a sequence of triplets that encodes the bytes `bs`. -/
inductive Trip : Str → List Nat → Prop
  | nil : Trip [] []
  | cons {h l g bs} : HEXDIG h = true → HEXDIG l = true → Trip g bs →
      Trip ('%' :: h :: l :: g) ((hexVal h * 16 + hexVal l) :: bs)

/-- The text is empty or starts with an ASCII character. -/
def asciiStart : Str → Prop
  | [] => True
  | c :: _ => c.toNat < 128

/-- Texts whose percent signs the crate can handle in reserved expansion: runs of plain characters that
start with an ASCII character; the triplets of a character; a triplet whose byte cannot start a
character; the triplets of an incomplete character followed by plain text; a `%` that does not start
a triplet followed by an ASCII character.  With `true` the text may also end inside a triplet or
inside the triplets of a character. -/
inductive Tidy : Bool → Str → Prop
  | nil {b} : Tidy b []
  | plain {b c r s} : c.toNat < 128 → c ≠ '%' → '%' ∉ r → (s = [] ∨ ∃ s', s = '%' :: s') →
      Tidy b s → Tidy b (c :: r ++ s)
  | char {b c g s} : Trip g (utf8 c) → Tidy b s → Tidy b (g ++ s)
  | bad {b g x s} : Trip g [x] → (0x80 ≤ x ∧ x < 0xC2 ∨ 0xF5 ≤ x) → Tidy b s → Tidy b (g ++ s)
  | cut {b ch g bs bs' c r} : Trip g bs → bs ≠ [] → bs' ≠ [] → bs ++ bs' = utf8 ch →
      c.toNat < 128 → c ≠ '%' → Tidy b (c :: r) → Tidy b (g ++ c :: r)
  | cutEnd {ch g bs bs'} : Trip g bs → bs ≠ [] → bs' ≠ [] → bs ++ bs' = utf8 ch → Tidy true g
  | stray {b c r} : c.toNat < 128 → HEXDIG c = false → Tidy b (c :: r) → Tidy b ('%' :: c :: r)
  | stray1 {b h c r} : HEXDIG h = true → c.toNat < 128 → HEXDIG c = false → Tidy b (c :: r) →
      Tidy b ('%' :: h :: c :: r)
  | strayEnd : Tidy true ['%']
  | stray1End {h} : HEXDIG h = true → Tidy true ['%', h]

/-- Every piece is tidy, and only the last one may end inside a triplet or a character. -/
def TidyAll : List Str → Prop
  | [] => True
  | [s] => Tidy true s
  | s :: r => Tidy false s ∧ TidyAll r

/-- UTF-8 length. -/
def bytes (s : Str) : Nat := (utf8s s).length

/-- Values that a prefix modifier handles under the operators without "U+R": ASCII values, and values
written in one piece; in a debug build the UTF-8 length of the prefix without its last character must
be less than the maximum length. -/
def PrefixOk (dbg : Bool) (n : Nat) (d : List Str) : Prop :=
  (∀ s ∈ d, ∀ c ∈ s, c.toNat < 128) ∨
  ∃ s, d = [s] ∧ (dbg = true → n = 0 ∨ s = [] ∨ bytes (s.take n).dropLast < n)

/-- Values that a prefix modifier handles under `+` and `#`: written in one piece, without `%`,
starting with an ASCII character; in a debug build the UTF-8 length of the prefix without its last
character must not exceed the maximum length. -/
def PrefixOkR (dbg : Bool) (n : Nat) (d : List Str) : Prop :=
  ∃ s, d = [s] ∧ '%' ∉ s ∧ asciiStart s ∧ (dbg = true → bytes (s.take n).dropLast ≤ n)

end Verif.Rfc6570
