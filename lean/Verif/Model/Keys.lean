import Verif.Spec.Keys
import Verif.Model.Construct

/-!
# Values as keys: `Hash`, `Eq`, `Ord` and `Borrow`

`src/types/generic/macros.rs` 294-322, 690-752 and `src/template/string.rs` 86, `template/string/owned.rs`
35, 119-146, and the two maps of the standard library that use them.  `none` is a panic.

The maps are those of the standard library, reduced to how they use the key type: `HashMap` looks at every
entry whose hash is equal to the one it looks for, and at any others it likes (`probe`); `BTreeMap` is one
sorted node (the real one descends to a node and searches there in this way).
-/

namespace Verif.Keys

open KeySpec (Form Op)

/-- `core::hash::Hasher`: any state, any way to take in bytes, any result. -/
structure Hasher (σ : Type) where
  init : σ
  write : σ → List Nat → σ
  write_u8 : σ → Nat → σ
  finish : σ → Nat

/-- `Hash for str` of the standard library: the bytes, then `0xff`. -/
def str_hash {σ : Type} (H : Hasher σ) (s : Str) (state : σ) : σ := H.write_u8 (H.write state (utf8s s)) 0xFF

/-- `Hash for $ty` (slices), `src/types/generic/macros.rs` 317-322; `derive(Hash)` of `UriTemplateStr`,
`src/template/string.rs` 86. -/
def slice_hash {σ : Type} (H : Hasher σ) (s : Str) (state : σ) : σ := str_hash H s state

/-- `Hash for $ty` (owned), `src/types/generic/macros.rs` 713-718; `derive(Hash)` of `UriTemplateString`,
`src/template/string/owned.rs` 35.  `Hash for String` is that of `str`. -/
def owned_hash {σ : Type} (H : Hasher σ) (s : Str) (state : σ) : σ := str_hash H s state

/-- `PartialEq for $ty` (slices), `src/types/generic/macros.rs` 294-299. -/
def slice_eq (a b : Str) : Bool := str_eq a b

/-- `PartialEq for $ty` (owned), `src/types/generic/macros.rs` 690-695. -/
def owned_eq (a b : Str) : Bool := str_eq a b

/-- `Ord for $ty` (slices), `src/types/generic/macros.rs` 310-315. -/
def slice_cmp (a b : Str) : Ordering := str_cmp a b

/-- `Ord for $ty` (owned), `src/types/generic/macros.rs` 706-711. -/
def owned_cmp (a b : Str) : Ordering := str_cmp a b

/-- `AsRef<$slice> for $ty`, `src/types/generic/macros.rs` 727-739 (with the debug assertion of
`new_unchecked_justified`, 248-259); of templates, `src/template/string/owned.rs` 125-132 (without). -/
def owned_as_slice (debug : Bool) (S : Spec) (k : TypeKind) (s : Str) : Option Str :=
  if debug && k != .template && !(k.validate S s == some (.ok ())) then none else some s

/-- `Borrow<str>`, `Borrow<$slice>`, `src/types/generic/macros.rs` 741-753, `src/template/string/owned.rs`
134-146, and `Borrow<T> for T` of the standard library. -/
def borrowAs (debug : Bool) (S : Spec) (k : TypeKind) : Form → Str → Option Str
  | .str, s => some s
  | .slice, s => owned_as_slice debug S k s
  | .owned, s => some s

/-- The hash of a key in a form. -/
def formHash {σ : Type} (H : Hasher σ) : Form → Str → Nat
  | .str, s => H.finish (str_hash H s H.init)
  | .slice, s => H.finish (slice_hash H s H.init)
  | .owned, s => H.finish (owned_hash H s H.init)

/-- Equality in a form. -/
def formEq : Form → Str → Str → Bool
  | .str => str_eq
  | .slice => slice_eq
  | .owned => owned_eq

/-- Order in a form. -/
def formCmp : Form → Str → Str → Ordering
  | .str => str_cmp
  | .slice => slice_cmp
  | .owned => owned_cmp

/-! ### `HashMap` -/

/-- An entry of a `HashMap`, with the hash under which it was put there. -/
structure HashEntry (V : Type) where
  hash : Nat
  key : Str
  value : V

/-- Looking for `q` in the form `f`: the index of the entry. -/
def hashLocate {V : Type} (debug : Bool) (S : Spec) (k : TypeKind) (look : Nat → Bool) (f : Form) (q : Str) :
    List (HashEntry V) → Option (Option Nat)
  | [] => some none
  | e :: r =>
    if look e.hash then
      (borrowAs debug S k f e.key).bind fun b =>
        if formEq f q b then some (some 0)
        else (hashLocate debug S k look f q r).map (Option.map (· + 1))
    else (hashLocate debug S k look f q r).map (Option.map (· + 1))

/-- A call on a `HashMap<$ty, V>`.  `insert` keeps the old key and replaces the value. -/
def hashStep {V σ : Type} (debug : Bool) (S : Spec) (k : TypeKind) (H : Hasher σ) (probe : Nat → Nat → Bool)
    (m : List (HashEntry V)) : Op V → Option (List (HashEntry V) × Option V)
  | .insert s v =>
    (hashLocate debug S k (probe (formHash H .owned s)) .owned s m).bind fun i =>
      match i with
      | some i =>
        match m[i]? with
        | some e => some (m.set i { e with value := v }, some e.value)
        | none => none
      | none => some (m ++ [⟨formHash H .owned s, s, v⟩], none)
  | .get f s =>
    (hashLocate debug S k (probe (formHash H f s)) f s m).bind fun i =>
      match i with
      | some i => some (m, (m[i]?).map HashEntry.value)
      | none => some (m, none)
  | .remove f s =>
    (hashLocate debug S k (probe (formHash H f s)) f s m).bind fun i =>
      match i with
      | some i => some (m.eraseIdx i, (m[i]?).map HashEntry.value)
      | none => some (m, none)

/-- A history of calls on a `HashMap`. -/
def hashRun {V σ : Type} (debug : Bool) (S : Spec) (k : TypeKind) (H : Hasher σ) (probe : Nat → Nat → Bool)
    (m : List (HashEntry V)) : List (Op V) → Option (List (HashEntry V) × List (Option V))
  | [] => some (m, [])
  | o :: r =>
    (hashStep debug S k H probe m o).bind fun x =>
      (hashRun debug S k H probe x.1 r).map fun y => (y.1, x.2 :: y.2)

/-! ### `BTreeMap` -/

/-- Looking for `q` in a sorted node: the number of smaller keys, and whether the next one is equal
(`search_tree`: `Greater` goes on, `Equal` is found, `Less` is not found). -/
def treeLocate {V : Type} (debug : Bool) (S : Spec) (k : TypeKind) (f : Form) (q : Str) :
    List (Str × V) → Option (Nat × Bool)
  | [] => some (0, false)
  | e :: r =>
    (borrowAs debug S k f e.1).bind fun b =>
      match formCmp f q b with
      | .gt => (treeLocate debug S k f q r).map fun x => (x.1 + 1, x.2)
      | .eq => some (0, true)
      | .lt => some (0, false)

/-- A call on a `BTreeMap<$ty, V>`. -/
def treeStep {V : Type} (debug : Bool) (S : Spec) (k : TypeKind) (m : List (Str × V)) :
    Op V → Option (List (Str × V) × Option V)
  | .insert s v =>
    (treeLocate debug S k .owned s m).bind fun x =>
      match x.2, m[x.1]? with
      | true, some e => some (m.set x.1 (e.1, v), some e.2)
      | true, none => none
      | false, _ => some (m.take x.1 ++ (s, v) :: m.drop x.1, none)
  | .get f s =>
    (treeLocate debug S k f s m).map fun x => (m, if x.2 then (m[x.1]?).map Prod.snd else none)
  | .remove f s =>
    (treeLocate debug S k f s m).map fun x =>
      if x.2 then (m.eraseIdx x.1, (m[x.1]?).map Prod.snd) else (m, none)

/-- A history of calls on a `BTreeMap`. -/
def treeRun {V : Type} (debug : Bool) (S : Spec) (k : TypeKind) (m : List (Str × V)) :
    List (Op V) → Option (List (Str × V) × List (Option V))
  | [] => some (m, [])
  | o :: r =>
    (treeStep debug S k m o).bind fun x =>
      (treeRun debug S k x.1 r).map fun y => (y.1, x.2 :: y.2)

end Verif.Keys
