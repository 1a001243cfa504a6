import Verif.Model.TemplateWork
import Verif.Model.EditWork
import Verif.Model.TemplateExpand

/-!
# Template expansion with a counter of the bytes it looks at and copies

The functions of `Model/MaybePct.lean` and `Model/TemplateExpand.lean` with the counter of
`Model/ValidateWork.lean`.  Counted are: every character an encoder or a search looks at; every byte that the decoder's
buffer copies out or checks; every byte of an already encoded fragment or of a variable name that is written.  Slicing,
and writing a separator, cost nothing; what the text becomes by percent-encoding is its size (property C86).  A context
is asked without cost.  That the results are those of the functions without a counter is theorem `C96_same`.
-/

namespace Verif.Work

open Verif.MaybePct (Frag Push)

/-- The check after a completed triplet, `src/parser/str/maybe_pct_encoded.rs` 246-256, 305-345: two digits and the
decoded bytes. -/
def checkTriplets (enc : Str) : T (Option (Option (Str × Push))) := (MaybePct.checkTriplets enc, 2 + enc.length / 3)

/-- `DecoderBuffer::push_encoded`, `src/parser/str/maybe_pct_encoded.rs` 266-349: the characters of the argument up to
the one that ends the fragment, the checks, and `write_and_pop` (213-229), which moves every byte of the buffer. -/
def pushLoop : Str → Nat → Str → T (Option (Str × Nat × Push))
  | enc, k, [] => ret (some (enc, k, .needMore))
  | enc, k, c :: r =>
    bind (enc.length % 3, c.utf8Size) fun incomplete =>
      if incomplete = 0 then
        if c ≠ '%' then (some ([], k + c.utf8Size - 1, .undecodable enc), enc.length)
        else if 12 ≤ enc.length then ret none
        else pushLoop (enc ++ ['%']) (k + c.utf8Size) r
      else if !isHex c then (some ([], k + c.utf8Size - 1, .undecodable enc), enc.length)
      else if incomplete = 1 then pushLoop (enc ++ [c]) (k + c.utf8Size) r
      else
        bind (checkTriplets (enc ++ [c])) fun
        | none => ret none
        | some (some (enc', res)) => (some (enc', k + c.utf8Size, res), enc.length + 1)
        | some none => pushLoop (enc ++ [c]) (k + c.utf8Size) r

variable {σ : Type}

/-- A callback with its cost. -/
abbrev Callback (σ : Type) := σ → Frag → T (Option (σ × Bool))

/-- Calling the callback with the next fragment unless it has asked to stop. -/
def andThen (f : Callback σ) (frag : Frag) : σ × Bool → T (Option (σ × Bool))
  | (st, true) => ret (some (st, true))
  | (st, false) => f st frag

/-- `DecomposeWriter::output_as_undecodable`, `src/parser/str/maybe_pct_encoded.rs` 104-133, and 50-72: the check of
the buffer by `from_utf8`, and the callbacks. -/
def output_as_undecodable (f : Callback σ) (st : σ) (frag : Str) : T (Option (σ × Bool)) :=
  let complete := frag.take (frag.length - frag.length % 3)
  let incomplete := frag.drop (frag.length - frag.length % 3)
  bind ((), frag.length) fun _ =>
    obind (f st (.invalid complete)) fun o =>
      if incomplete.length = 0 then ret (some o)
      else obind (andThen f .stray o) fun o =>
        if incomplete.length = 1 then ret (some o) else andThen f (.noPct (incomplete.drop 1)) o

/-- The flush in `DecomposeWriter::write_str`, `src/parser/str/maybe_pct_encoded.rs` 145-150. -/
def flushRest (f : Callback σ) (st : σ) (enc rest : Str) : T (Option ((σ × Bool) × Str)) :=
  if enc.isEmpty then ret (some ((st, false), rest))
  else obind (output_as_undecodable f st enc) fun o =>
    ret (if o.2 then some (o, rest) else (sliceFrom rest enc.length).map fun rest => (o, rest))

/-- The plain prefix, `src/parser/str/maybe_pct_encoded.rs` 152-161. -/
def plainPrefix (dbg : Bool) (f : Callback σ) (o : (σ × Bool) × Str) : T (Option ((σ × Bool) × Str)) :=
  if o.1.2 then ret (some o)
  else
    bind (find_split o.2 '%') fun p =>
      let p := p.getD (o.2, [])
      if dbg && p.1.isEmpty then ret none
      else obind (f o.1.1 (.noPct p.1)) fun o' => ret (some (o', p.2))

/-- Processing the push result, `src/parser/str/maybe_pct_encoded.rs` 164-179: the check of the buffer by `from_utf8`,
and the callbacks. -/
def processPush (f : Callback σ) (st : σ) : Push → T (Option (σ × Bool))
  | .decoded s => bind ((), s.length) fun _ => f st (.char s)
  | .undecodable s => output_as_undecodable f st s
  | .needMore => ret (some (st, false))

/-- One round of the loop in `DecomposeWriter::write_str`, `src/parser/str/maybe_pct_encoded.rs` 143-181. -/
def writeStep (dbg : Bool) (f : Callback σ) (st : σ) (enc rest : Str) : T (Option ((σ × Bool) × Str × Str)) :=
  obind (pushLoop enc 0 rest) fun x =>
    if x.2.1 = 0 then
      obind (obind (flushRest f st x.1 rest) (plainPrefix dbg f)) fun y => ret (some (y.1, [], y.2))
    else
      obind (processPush f st x.2.2) fun o =>
        ret (if o.2 then some (o, x.1, rest) else (sliceFrom rest x.2.1).map fun rest => (o, x.1, rest))

/-- `DecomposeWriter::write_str`, `src/parser/str/maybe_pct_encoded.rs` 140-184, with fuel. -/
def writeStr (dbg : Bool) (f : Callback σ) : Nat → σ → Str → Str → T (Option ((σ × Bool) × Str))
  | 0, _, _, _ => ret none
  | fuel + 1, st, enc, rest =>
    if rest.isEmpty then ret (some ((st, false), enc))
    else
      obind (writeStep dbg f st enc rest) fun x =>
        if x.1.2 then ret (some (x.1, x.2.1)) else writeStr dbg f fuel x.1.1 x.2.1 x.2.2

/-- `write!(writer, "{v}")`: the pieces one after the other, until the callback stops. -/
def writeAll (dbg : Bool) (f : Callback σ) : σ → Str → List Str → T (Option ((σ × Bool) × Str))
  | st, enc, [] => ret (some ((st, false), enc))
  | st, enc, s :: r =>
    obind (writeStr dbg f (2 * s.length + 2) st enc s) fun x =>
      if x.1.2 then ret (some x) else writeAll dbg f x.1.1 x.2 r

/-- `process_percent_encoded_best_effort`, `src/parser/str/maybe_pct_encoded.rs` 25-75. -/
def process_percent_encoded_best_effort (dbg : Bool) (f : Callback σ) (st : σ) (v : List Str) : T (Option σ) :=
  obind (writeAll dbg f st [] v) fun x =>
    if x.1.2 then ret (some x.1.1)
    else if x.2.isEmpty then ret (some x.1.1)
    else obind (output_as_undecodable f x.1.1 x.2) fun o => ret (some o.1)

/-- `PercentEncoded`'s `Display` (`src/percent_encode.rs` 326-379): every character is looked at once. -/
def percent_encode (S : Spec) (ctx : Context) (v : List Str) : T Str :=
  (Verif.percent_encode S ctx v, (v.map blen).sum)

/-- The callback of `escape_write`, `src/template/expand.rs` 407-420. -/
def escapeFrag (S : Spec) : Callback Str
  | out, .char s => (some (out ++ s, false), blen s)
  | out, .noPct s => bind (percent_encode S .character [s]) fun t => ret (some (out ++ t, false))
  | out, .stray => (some (out ++ ['%', '2', '5'], false), 3)
  | out, .invalid s => (some (out ++ s, false), blen s)

/-- `escape_write`, `src/template/expand.rs` 401-445. -/
def escape_write (S : Spec) (dbg : Bool) (v : Tpl.Disp) (allow_reserved : Bool) : T (Option Str) :=
  if allow_reserved then process_percent_encoded_best_effort dbg (escapeFrag S) [] v
  else bind (percent_encode S .unreserve v) fun t => ret (some t)

/-- `char_indices().take(n).last()`: the first `n` characters. -/
def lastOfFirst (s : Str) (n : Nat) : T (Option Nat) := (Tpl.lastIdx (s.take n), blen (s.take n))

/-- The callback of `escape_write_with_maxlen`, `src/template/expand.rs` 457-499, for a bounded `max_len`. -/
def truncFrag (S : Spec) (dbg : Bool) : Callback (Str × Nat) := fun st frag =>
    if st.2 = 0 then ret (some (st, true))
    else
      match frag with
      | .char s => (some ((st.1 ++ s, st.2 - 1), false), blen s)
      | .noPct s =>
        obind (lastOfFirst s st.2) fun count =>
          obind (Tpl.usizeSub dbg st.2 count, 0) fun m =>
            bind (percent_encode S .character [s.take st.2]) fun t => ret (some ((st.1 ++ t, m), false))
      | .stray => (some ((st.1 ++ ['%', '2', '5'], st.2 - 1), false), 3)
      | .invalid s =>
        let count := min st.2 (s.length / 3)
        (some ((st.1 ++ s.take (count * 3), st.2 - count), false), blen (s.take (count * 3)))

/-- The callback of `escape_write_with_maxlen` for `max_len` `None` (see `Tpl.unboundedFrag`): the search for the last
character looks at the whole fragment. -/
def unboundedFrag (S : Spec) : Callback Str
  | out, .noPct s => bind (s.isEmpty, blen s) fun
    | true => ret none
    | false => escapeFrag S out (.noPct s)
  | out, frag => escapeFrag S out frag

/-- `TruncatePercentEncodeWriter`, `src/template/expand.rs` 516-547. -/
def truncateWrite (S : Spec) (dbg : Bool) : Nat → Tpl.Disp → T (Option Str)
  | _, [] => ret (some [])
  | rest, s :: r =>
    if rest = 0 then truncateWrite S dbg rest r
    else
      bind (lastOfFirst s rest) fun l =>
        bind (percent_encode S .unreserve [s.take rest]) fun t =>
          obind (Tpl.usizeSub dbg rest ((l.map (· + 1)).getD 0), 0) fun rest' =>
            obind (truncateWrite S dbg rest' r) fun u => ret (some (t ++ u))

/-- `escape_write_with_maxlen`, `src/template/expand.rs` 448-513. -/
def escape_write_with_maxlen (S : Spec) (dbg : Bool) (v : Tpl.Disp) (allow_reserved : Bool)
    (max_len : Option Nat) : T (Option Str) :=
  if allow_reserved then
    match max_len with
    | some n => obind (process_percent_encoded_best_effort dbg (truncFrag S dbg) ([], n) v) fun o => ret (some o.1)
    | none => process_percent_encoded_best_effort dbg (unboundedFrag S) [] v
  else
    match max_len with
    | some n => truncateWrite S dbg n v
    | none => bind (percent_encode S .unreserve v) fun t => ret (some t)

/-- The name of a variable written as it is. -/
def writeName (name : Str) : T Str := (name, blen name)

/-- `ValueVisitor::visit_string`, `src/template/expand.rs` 693-718. -/
def visit_string (S : Spec) (dbg : Bool) (op : Tpl.Operator) (spec : Tpl.VarSpec) (first : Bool) (v : Tpl.Disp) :
    T (Option Str) :=
  let p := Tpl.opProps op
  bind (if p.named then writeName spec.name else ret []) fun n =>
    obind (escape_write_with_maxlen S dbg v p.allow_reserved (Tpl.maxLenOf spec.modifier)) fun t =>
      ret (some (Tpl.leader p first ++ (n ++ (if p.named && t.isEmpty then p.ifemp else if p.named then '=' :: t else t))))

/-- `ListValueVisitor::visit_item_impl`, `src/template/expand.rs` 764-811. -/
def visit_item (S : Spec) (dbg : Bool) (op : Tpl.Operator) (spec : Tpl.VarSpec) (first : Bool)
    (num_elems : Nat) (item : Tpl.Disp) : T (Option Str) :=
  let p := Tpl.opProps op
  obind (Tpl.isExplode spec.modifier, 0) fun is_explode =>
    obind
      (if num_elems = 0 then
        bind (if p.named then writeName spec.name else ret []) fun n =>
          ret (some (Tpl.leader p first ++ (if p.named then n ++ ['='] else [])))
      else if !is_explode then ret (some [','])
      else if !p.named then ret (some p.sep)
      else obind (escape_write S dbg [spec.name] p.allow_reserved) fun n => ret (some (p.sep ++ n ++ ['=']))) fun pre =>
        obind (escape_write S dbg item p.allow_reserved) fun t => ret (some (pre ++ t))

/-- `visit_items_and_finish`, `src/template/context.rs`, with `ListValueVisitor`. -/
def visit_items (S : Spec) (dbg : Bool) (op : Tpl.Operator) (spec : Tpl.VarSpec) (first : Bool) :
    Nat → List Tpl.Disp → T (Option Str)
  | _, [] => ret (some [])
  | n, item :: r =>
    obind (visit_item S dbg op spec first n item) fun a =>
      obind (visit_items S dbg op spec first (n + 1) r) fun b => ret (some (a ++ b))

/-- `AssocValueVisitor::visit_entry_impl`, `src/template/expand.rs` 855-918. -/
def visit_entry (S : Spec) (dbg : Bool) (op : Tpl.Operator) (spec : Tpl.VarSpec) (first : Bool)
    (num_elems : Nat) (entry : Tpl.Disp × Tpl.Disp) : T (Option Str) :=
  let p := Tpl.opProps op
  obind (Tpl.isExplode spec.modifier, 0) fun is_explode =>
    obind
      (if num_elems = 0 then
        if is_explode then
          obind (escape_write S dbg entry.1 p.allow_reserved) fun k => ret (some (Tpl.leader p first ++ k ++ ['=']))
        else
          obind (if p.named then
              obind (escape_write S dbg [spec.name] p.allow_reserved) fun n => ret (some (n ++ ['=']))
            else ret (some [])) fun n =>
            obind (escape_write S dbg entry.1 p.allow_reserved) fun k =>
              ret (some (Tpl.leader p first ++ n ++ k ++ [',']))
      else if !is_explode then
        obind (escape_write S dbg entry.1 p.allow_reserved) fun k => ret (some ([','] ++ k ++ [',']))
      else
        obind (escape_write S dbg entry.1 p.allow_reserved) fun k => ret (some (p.sep ++ k ++ ['=']))) fun pre =>
        obind (escape_write S dbg entry.2 p.allow_reserved) fun t => ret (some (pre ++ t))

/-- `visit_entries_and_finish`, `src/template/context.rs`, with `AssocValueVisitor`. -/
def visit_entries (S : Spec) (dbg : Bool) (op : Tpl.Operator) (spec : Tpl.VarSpec) (first : Bool) :
    Nat → List (Tpl.Disp × Tpl.Disp) → T (Option Str)
  | _, [] => ret (some [])
  | n, e :: r =>
    obind (visit_entry S dbg op spec first n e) fun a =>
      obind (visit_entries S dbg op spec first (n + 1) r) fun b => ret (some (a ++ b))

/-- `ValueVisitor` (`src/template/expand.rs` 670-739) given a value. -/
def visit_value (S : Spec) (dbg : Bool) (op : Tpl.Operator) (spec : Tpl.VarSpec) (first : Bool) :
    Tpl.Value → T (Option (Str × Bool))
  | .undefined => ret (some ([], first))
  | .string v => obind (visit_string S dbg op spec first v) fun t => ret (some (t, false))
  | .list items =>
    obind (visit_items S dbg op spec first 0 items) fun t => ret (some (t, first && items.isEmpty))
  | .assoc entries =>
    obind (visit_entries S dbg op spec first 0 entries) fun t => ret (some (t, first && entries.isEmpty))

/-- The loop over the varspecs in `expand`, `src/template/expand.rs` 385-394, with fuel. -/
def expandVars (S : Spec) (dbg : Bool) (ctx : Tpl.Ctx) (op : Tpl.Operator) : Nat → Bool → Str → T (Option Str)
  | 0, _, _ => ret none
  | fuel + 1, first, varlist =>
    bind (varListNext varlist) fun
    | none => ret none
    | some none => ret (some [])
    | some (some ((_, spec), rest)) =>
      obind (visit_value S dbg op spec first (ctx .expand spec.name)) fun o =>
        obind (expandVars S dbg ctx op fuel o.2 rest) fun t => ret (some (o.1 ++ t))

/-- `ExprBody::decompose`, `src/template/components.rs` 38-57: one byte. -/
def decompose (body : Str) : T (Option (Tpl.Operator × Str)) := (Tpl.decompose body, 1)

/-- `expand`, `src/template/expand.rs` 377-397. -/
def expandExpr (S : Spec) (dbg : Bool) (ctx : Tpl.Ctx) (body : Str) : T (Option Str) :=
  obind (decompose body) fun d => expandVars S dbg ctx d.1 (d.2.length + 1) true d.2

/-- `Display` of `Expanded`, `src/template/expand.rs` 136-151, with fuel: a literal is written. -/
def displayExpanded (S : Spec) (dbg : Bool) (ctx : Tpl.Ctx) : Nat → Str → T (Option Str)
  | 0, _ => ret none
  | fuel + 1, template =>
    bind (chunksNext template) fun
    | none => ret none
    | some none => ret (some [])
    | some (some (.literal lit, rest)) =>
      bind (lit, blen lit) fun lit =>
        obind (displayExpanded S dbg ctx fuel rest) fun t => ret (some (lit ++ t))
    | some (some (.expr body, rest)) =>
      obind (expandExpr S dbg ctx body) fun a =>
        obind (displayExpanded S dbg ctx fuel rest) fun t => ret (some (a ++ t))

/-- The loop over the varspecs in `typecheck_context`, `src/template/expand.rs` 112-128, with fuel. -/
def typecheckVars (ctx : Tpl.Ctx) : Nat → Nat → Str → T (Tpl.Res Nat)
  | 0, _, _ => ret .panic
  | fuel + 1, pos, varlist =>
    bind (varListNext varlist) fun
    | none => ret .panic
    | some none => ret (.ok pos)
    | some (some ((len, spec), rest)) =>
      if Tpl.badType spec.modifier (Tpl.typeOf (ctx .typecheck spec.name)) then
        ret (.err .unexpectedValueType pos)
      else typecheckVars ctx fuel (pos + (len + 1)) rest

/-- An expression in `typecheck_context`, `src/template/expand.rs` 101-129. -/
def typecheckExpr (ctx : Tpl.Ctx) (pos : Nat) (body : Str) : T (Tpl.Res Nat) :=
  bind (decompose body) fun
  | none => ret .panic
  | some (op, varlist) =>
    rb (typecheckVars ctx (varlist.length + 1) (pos + (op.len + 1)) varlist) fun pos' =>
      ret (if pos' = pos + blen body + 2 then .ok pos' else .panic)

/-- `Expanded::typecheck_context`, `src/template/expand.rs` 99-132, with fuel. -/
def typecheck (ctx : Tpl.Ctx) : Nat → Nat → Str → T (Tpl.Res Unit)
  | 0, _, _ => ret .panic
  | fuel + 1, pos, template =>
    bind (chunksNext template) fun
    | none => ret .panic
    | some none => ret (.ok ())
    | some (some (.literal lit, rest)) => typecheck ctx fuel (pos + blen lit) rest
    | some (some (.expr body, rest)) =>
      rb (typecheckExpr ctx pos body) fun pos' => typecheck ctx fuel pos' rest

/-- `UriTemplateStr::expand` (`src/template/string.rs` 262-267, `src/template/expand.rs` 88-95) followed by
`to_string()` of the result. -/
def expand_to_string (S : Spec) (dbg : Bool) (ctx : Tpl.Ctx) (template : Str) : T (Tpl.Res Str) :=
  rb (typecheck ctx (template.length + 1) 0 template) fun _ =>
    bind (displayExpanded S dbg ctx (template.length + 1) template) fun
    | some t => ret (.ok t)
    | none => ret .panic

/-! ### Dynamic contexts -/

/-- The loop over the varspecs in `expand_expr_mut`, `src/template/expand.rs` 236-266, with fuel. -/
def expandVarsMut (S : Spec) (dbg : Bool) (ctx : Tpl.DynCtx σ) (op : Tpl.Operator) :
    Nat → Bool → Nat → Str → σ → T (Option (Tpl.DynOut σ Nat))
  | 0, _, _, _, _ => ret none
  | fuel + 1, first, pos, varlist, st =>
    bind (varListNext varlist) fun
    | none => ret none
    | some none => ret (some ⟨.ok pos, [], st⟩)
    | some (some ((len, spec), rest)) =>
      let ty := ctx.visit .typecheck spec.name st
      if Tpl.badType spec.modifier (Tpl.typeOf ty.1) then
        ret (some ⟨.error (.unexpectedValueType, pos), [], ty.2⟩)
      else
        let v := ctx.visit .expand spec.name ty.2
        obind (visit_value S dbg op spec first v.1) fun o =>
          obind (expandVarsMut S dbg ctx op fuel o.2 (pos + (len + 1)) rest v.2) fun d =>
            ret (some ⟨d.result, o.1 ++ d.out, d.state⟩)

/-- `expand_expr_mut`, `src/template/expand.rs` 224-270. -/
def expandExprMut (S : Spec) (dbg : Bool) (ctx : Tpl.DynCtx σ) (pos : Nat) (body : Str) (st : σ) :
    T (Option (Tpl.DynOut σ Nat)) :=
  obind (decompose body) fun d =>
    obind (expandVarsMut S dbg ctx d.1 (d.2.length + 1) true (pos + (d.1.len + 1)) d.2 st) fun x =>
      ret (Tpl.checkEnd (pos + blen body + 2) x)

/-- Going on after an expression unless it failed. -/
def dynThen (d : Tpl.DynOut σ Nat) (k : Nat → σ → T (Option (Tpl.DynOut σ Unit))) : T (Option (Tpl.DynOut σ Unit)) :=
  match d.result with
  | .error e => ret (some ⟨.error e, d.out, d.state⟩)
  | .ok pos => obind (k pos d.state) fun d' => ret (some ⟨d'.result, d.out ++ d'.out, d'.state⟩)

/-- `expand_whole_dynamic_impl`, `src/template/expand.rs` 200-221, with fuel: a literal is written. -/
def expandDynLoop (S : Spec) (dbg : Bool) (ctx : Tpl.DynCtx σ) :
    Nat → Nat → Str → σ → T (Option (Tpl.DynOut σ Unit))
  | 0, _, _, _ => ret none
  | fuel + 1, pos, template, st =>
    bind (chunksNext template) fun
    | none => ret none
    | some none => ret (some ⟨.ok (), [], st⟩)
    | some (some (.literal lit, rest)) =>
      bind (lit, blen lit) fun lit =>
        obind (expandDynLoop S dbg ctx fuel (pos + blen lit) rest st) fun d =>
          ret (some ⟨d.result, lit ++ d.out, d.state⟩)
    | some (some (.expr body, rest)) =>
      obind (expandExprMut S dbg ctx pos body st) fun d =>
        dynThen d fun pos st => expandDynLoop S dbg ctx fuel pos rest st

/-- `expand_whole_dynamic`, `src/template/expand.rs` 186-195 (`UriTemplateStr::expand_dynamic`,
`src/template/string.rs` 280-286). -/
def expand_dynamic (S : Spec) (dbg : Bool) (ctx : Tpl.DynCtx σ) (template : Str) (st : σ) :
    T (Option (Tpl.DynOut σ Unit)) :=
  obind (expandDynLoop S dbg ctx (template.length + 1) 0 template (ctx.start st)) fun d =>
    ret (some ⟨d.result, d.out, ctx.finish d.state⟩)

end Verif.Work
