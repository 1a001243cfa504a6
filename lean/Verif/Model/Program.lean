import Verif.Model.History
import Verif.Model.TypedAccess
import Verif.Model.Construct

/-!
# Programs that use the safe API

A program is a list of calls.  Its state is the list of all values of the crate's string types made so
far; an operand is a position in that list.  A call takes its operands by copy and adds its results (a
method that modifies its receiver is a call on a clone, so that the program still has the old value as
well).  A call whose operands do not exist or are not of the right type would not compile; here it does
nothing.  `none` is a panic.
-/

namespace Verif.Prog

/-- A value of one of the types `RiReferenceStr<S>`, `RiStr<S>`, `RiAbsoluteStr<S>`, `RiRelativeStr<S>`,
`RiQueryStr<S>`, `RiFragmentStr<S>`, `UriTemplateStr` or of the owned type that goes with it. -/
structure TVal where
  spec : Spec
  kind : TypeKind
  text : Str
  deriving DecidableEq, Repr

/-- Everything the program has. -/
abbrev Store := List TVal

/-- The calls. -/
inductive Op
  | new (S : Spec) (k : TypeKind) (s : Str)
  | newBytes (S : Spec) (k : TypeKind) (bytes : List Nat)
  | queryFromPrefixed (S : Spec) (s : Str)
  | fragmentFromPrefixed (S : Spec) (s : Str)
  | call (i : Nat) (c : Call)
  | setFragment (i : Nat) (fragment : Option Nat)
  | resolve (mode : NormalizationMode) (i base : Nat)
  | downcast (i : Nat) (k : IriKind)
  | splitFragment (i : Nat)
  | toAbsolute (i : Nat)
  | query (i : Nat)
  | fragment (i : Nat)
  | resolverBase (i : Nat)
  | resolverQuery (i : Nat)
  | encodeToUri (i : Nat)
  | tryIntoUri (i : Nat)
  | intoIri (i : Nat)
  | append (i other : Nat)
  | build (S : Spec) (k : IriKind) (template : Option Nat) (setters : List BuilderOp)
  deriving Repr

/-- `new_unchecked_justified` and `new_unchecked` of a result: a debug assertion that the text is valid,
`src/types/generic/macros.rs` 248-259, 613-624. -/
def justified (debug : Bool) (S : Spec) (k : TypeKind) (s : Str) : Option (List TVal) :=
  if debug && k.validate S s != some (.ok ()) then none else some [⟨S, k, s⟩]

/-- `new_unchecked_justified` of an optional result. -/
def justifiedOpt (debug : Bool) (S : Spec) (k : TypeKind) : Option Str → Option (List TVal)
  | none => some []
  | some s => justified debug S k s

/-- The value that a constructor returns, if any. -/
def constructed {ε : Type} (S : Spec) (k : TypeKind) : RResult ε Str → List TVal
  | .ok s => [⟨S, k, s⟩]
  | .err _ => []

/-- An accepted text, or nothing. -/
def accepted (S : Spec) (k : TypeKind) : Option Str → List TVal
  | some s => [⟨S, k, s⟩]
  | none => []

/-- Calls that take a value of the crate's types as argument: they are operations of their own. -/
def hasOperand : Call → Bool
  | .set_fragment _ => true
  | .resolve_against _ _ => true
  | _ => false

/-- A call on a value of one of the four IRI types. -/
def callOn (debug : Bool) (S : Spec) (k : IriKind) (s : Str) (c : Call) : Option (List TVal) :=
  ((⟨S, k, s⟩ : Val).step debug c).map fun w => [⟨w.spec, .iriLike w.kind, w.text⟩]

/-- The IRI value at a position. -/
def getIri (st : Store) (i : Nat) : Option Val :=
  match st[i]? with
  | some ⟨S, .iriLike k, s⟩ => some ⟨S, k, s⟩
  | _ => none

/-- The query or fragment value at a position. -/
def getPiece (st : Store) (i : Nat) : Option TVal :=
  match st[i]? with
  | some ⟨S, .query, s⟩ => some ⟨S, .query, s⟩
  | some ⟨S, .fragment, s⟩ => some ⟨S, .fragment, s⟩
  | _ => none

/-- The text at a position, if it is a value of that type. -/
def getText (st : Store) (S : Spec) (k : TypeKind) (i : Nat) : Option Str :=
  match st[i]? with
  | some v => if v.spec = S ∧ v.kind = k then some v.text else none
  | none => none

/-- The builder that the setters are applied to: `Builder::new()`, or `Builder::from` a value,
`src/build.rs` 337-340, 1019-1057. -/
def startBuilder (st : Store) : Option Nat → Option Builder
  | none => some {}
  | some i =>
    match getIri st i with
    | some v => Builder.from_iri v.text
    | none => some {}

/-- The results of a call.  The functions are those cited at the definitions used here:
constructors (`new`, `TryFrom`, `FromStr`, `from_prefixed`), `Val.step`, `set_fragment`, `resolve_against`,
`TryFrom` between types, `to_absolute_and_fragment` and `to_absolute` of `RiStr`, `src/types/generic/normal.rs`
154-174, 196-206, the typed accessors `query`, `fragment` of the four types, `base` and `query` of
`FixedBaseResolver`, the conversions of query and fragment types between the specs, `src/types/iri.rs`
179-182, 283-296, `src/types/uri.rs` 80-85, `UriTemplateString::append` with its debug assertion,
`src/template/string/owned.rs` 112-117, and `Builder::build` followed by the conversion of the result to an
owned string, `src/build.rs` 1158-1195. -/
def outputs (debug : Bool) (st : Store) : Op → Option (List TVal)
  | .new S k s => (try_from_str S k s).map (constructed S k)
  | .newBytes S k bytes => (try_from_bytes S k bytes).map (constructed S k)
  | .queryFromPrefixed S s => some (accepted S .query (RiQueryStr.from_prefixed S s))
  | .fragmentFromPrefixed S s => some (accepted S .fragment (RiFragmentStr.from_prefixed S s))
  | .call i c =>
    match getIri st i with
    | some v => if hasOperand c then some [] else callOn debug v.spec v.kind v.text c
    | none => some []
  | .setFragment i none =>
    match getIri st i with
    | some v => callOn debug v.spec v.kind v.text (.set_fragment none)
    | none => some []
  | .setFragment i (some j) =>
    match getIri st i with
    | some v =>
      match getText st v.spec .fragment j with
      | some f => callOn debug v.spec v.kind v.text (.set_fragment (some f))
      | none => some []
    | none => some []
  | .resolve mode i base =>
    match getIri st i with
    | some v =>
      match getText st v.spec (.iriLike .absolute) base with
      | some b => callOn debug v.spec v.kind v.text (.resolve_against mode b)
      | none => some []
    | none => some []
  | .downcast i k =>
    match getIri st i with
    | some v => (Verif.downcast v.spec k v.text).map (constructed v.spec (.iriLike k))
    | none => some []
  | .splitFragment i =>
    match getIri st i with
    | some ⟨S, .iri, s⟩ =>
      (justified debug S (.iriLike .absolute) (RiStr.to_absolute_and_fragment s).1).bind fun a =>
        (justifiedOpt debug S .fragment (RiStr.to_absolute_and_fragment s).2).map fun f => a ++ f
    | _ => some []
  | .toAbsolute i =>
    match getIri st i with
    | some ⟨S, .iri, s⟩ => (RiStr.to_absolute s).bind fun a => justified debug S (.iriLike .absolute) a
    | _ => some []
  | .query i =>
    match getIri st i with
    | some ⟨S, .absolute, s⟩ => (RiAbsoluteStr.query debug S s).map (accepted S .query)
    | some v => (RiReferenceStr.query debug v.spec v.text).map (accepted v.spec .query)
    | none => some []
  | .fragment i =>
    match getIri st i with
    | some ⟨_, .absolute, _⟩ => some []
    | some v => (RiReferenceStr.fragment debug v.spec v.text).map (accepted v.spec .fragment)
    | none => some []
  | .resolverBase i =>
    match getIri st i with
    | some ⟨S, .absolute, s⟩ =>
      (FixedBaseResolver.new s).bind fun r => (r.base debug S).map fun b => [⟨S, .iriLike .absolute, b⟩]
    | _ => some []
  | .resolverQuery i =>
    match getIri st i with
    | some ⟨S, .absolute, s⟩ =>
      (FixedBaseResolver.new s).bind fun r => (r.query debug S).map (accepted S .query)
    | _ => some []
  | .encodeToUri i =>
    match getPiece st i with
    | some v => (Verif.encode_to_uri v.text).bind (justified debug .uri v.kind)
    | none => some []
  | .tryIntoUri i =>
    match getPiece st i with
    | some v => justifiedOpt debug .uri v.kind (as_uri v.text)
    | none => some []
  | .intoIri i =>
    match getPiece st i with
    | some v => justified debug .iri v.kind v.text
    | none => some []
  | .append i j =>
    match getText st .uri .template i, getText st .uri .template j with
    | some a, some b => justified debug .uri .template (Tpl.append a b)
    | _, _ => some []
  | .build S k template setters =>
    (startBuilder st template).bind fun b =>
      ((b.run setters).build S k).bind fun r =>
        match r with
        | none => some []
        | some built => (built.display S).bind (justified debug S (.iriLike k))

/-- One call. -/
def step (debug : Bool) (st : Store) (op : Op) : Option Store :=
  (outputs debug st op).map fun vs => st ++ vs

/-- A program. -/
def run (debug : Bool) : List Op → Store → Option Store
  | [], st => some st
  | op :: ops, st => (step debug st op).bind (run debug ops)

end Verif.Prog
