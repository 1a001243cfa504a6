import Verif.Model.Construct

/-!
# Serde: `src/types/generic/macros.rs` 179-184, 412-456, 545-550, 879-931, `src/template/string.rs`
83-84, 510-551, `src/template/string/owned.rs` 33-34, 266-318

A serialized value is what a `Serializer` is given, a `Deserializer` is what it does with a visitor.
An outer `none` is a panic.
-/

namespace Verif

/-- What a serializer is asked to write: one call of `serialize_str`, or something else. -/
inductive Serialized
  | str (s : Str)
  | other
  deriving DecidableEq, Repr

/-- `#[derive(Serialize)]` with `#[serde(transparent)]`, the marker field skipped: the inner `str` or
`String`, `src/types/generic/macros.rs` 179-184, 545-550. -/
def serialize (s : Str) : Serialized := .str s

/-- The hint given to a deserializer. -/
inductive DeHint
  | str
  | string
  deriving DecidableEq, Repr

/-- The method of the visitor called by a deserializer; `other` stands for all those that neither the
crate's visitors nor serde's defaults for them look at (numbers, bytes, sequences, ...). -/
inductive DeCall
  | str (s : Str)
  | borrowedStr (s : Str)
  | string (s : Str)
  | char (c : Char)
  | other
  deriving DecidableEq, Repr

/-- The error of a deserialization: of the crate (`E::custom`), or "invalid type" of serde's default
methods. -/
inductive DeError
  | custom (e : ValidationError)
  | invalidType
  deriving DecidableEq, Repr

/-- `map_err(E::custom)`. -/
def RResult.custom : RResult ValidationError Str → RResult DeError Str
  | .ok s => .ok s
  | .err e => .err (.custom e)

/-- `map_err(E::custom)` of a `CreationError`, whose `Display` is that of the validation error. -/
def RResult.customOwned : RResult CreationError Str → RResult DeError Str
  | .ok s => .ok s
  | .err e => .err (.custom e.error)

/-- `CustomStringVisitor`, `src/types/generic/macros.rs` 897-922, `src/template/string/owned.rs`
281-306.  Serde's defaults: `visit_borrowed_str` and `visit_char` call `visit_str`. -/
def visitOwned (S : Spec) (k : TypeKind) : DeCall → Option (RResult DeError Str)
  | .str s => (owned_try_from_str S k s).map RResult.custom
  | .borrowedStr s => (owned_try_from_str S k s).map RResult.custom
  | .char c => (owned_try_from_str S k [c]).map RResult.custom
  | .string s => (owned_try_from_string S k s).map RResult.customOwned
  | .other => some (.err .invalidType)

/-- `CustomStrVisitor`, `src/types/generic/macros.rs` 428-444, `src/template/string.rs` 523-538.
Serde's default `visit_str` is an error, `visit_string` and `visit_char` call it. -/
def visitBorrowed (S : Spec) (k : TypeKind) : DeCall → Option (RResult DeError Str)
  | .borrowedStr s => (try_from_str S k s).map RResult.custom
  | _ => some (.err .invalidType)

/-- A deserializer, by what it does with the visitor for each of the hints (it may also fail). -/
abbrev Deserializer : Type := DeHint → RResult DeError DeCall

/-- `Deserialize for $ty`, `src/types/generic/macros.rs` 924-931, `src/template/string/owned.rs`
308-316. -/
def deserializeOwned (S : Spec) (k : TypeKind) (d : Deserializer) : Option (RResult DeError Str) :=
  match d .str with
  | .ok c => visitOwned S k c
  | .err e => some (.err e)

/-- `Deserialize for &$ty`, `src/types/generic/macros.rs` 446-455, `src/template/string.rs` 540-550. -/
def deserializeBorrowed (S : Spec) (k : TypeKind) (d : Deserializer) : Option (RResult DeError Str) :=
  match d .string with
  | .ok c => visitBorrowed S k c
  | .err e => some (.err e)

end Verif
