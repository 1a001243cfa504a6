import Verif.Model.Types

/-!
# Accessors that return values of the crate's types without validating them again

The outer `none` is a panic.
-/

namespace Verif

/-- `new_unchecked_justified`, `src/types/generic/macros.rs` 248-259: a debug assertion that the text is
valid. -/
def new_unchecked_justified (debug : Bool) (validate : Str → Bool) (s : Str) : Option Str :=
  if debug && !validate s then none else some s

/-- `.map(|x| unsafe { new_unchecked_justified(x, ..) })` of an optional component. -/
def justifiedOpt (debug : Bool) (validate : Str → Bool) : Option Str → Option (Option Str)
  | none => some none
  | some x => (new_unchecked_justified debug validate x).map some

/-- `query`, `src/types/generic/reference.rs` 364-376, `relative.rs` 258-270 (same code), `normal.rs`
633-635 (that of the reference type). -/
def RiReferenceStr.query (debug : Bool) (S : Spec) (s : Str) : Option (Option Str) :=
  (extract_query s).bind (justifiedOpt debug (validate_query S))

/-- `fragment`, `src/types/generic/reference.rs` 474-486, `relative.rs` 344-356 (same code), `normal.rs`
696-698 (that of the reference type). -/
def RiReferenceStr.fragment (debug : Bool) (S : Spec) (s : Str) : Option (Option Str) :=
  justifiedOpt debug (validate_fragment S) (extract_fragment s)

/-- `query`, `src/types/generic/absolute.rs` 546-559. -/
def RiAbsoluteStr.query (debug : Bool) (S : Spec) (s : Str) : Option (Option Str) :=
  (extract_query_absolute_iri debug s).bind (justifiedOpt debug (validate_query S))

/-- `FixedBaseResolver`, `src/resolve.rs` 88-91, and `RiReferenceComponents`, `src/components.rs` 202-208. -/
structure FixedBaseResolver where
  iri : Str
  splitter : Splitter
  deriving DecidableEq, Repr

namespace FixedBaseResolver

/-- `FixedBaseResolver::new`, `src/resolve.rs` 118-122. -/
def new (base : Str) : Option FixedBaseResolver :=
  (decompose_iri_reference base).map fun sp => ⟨base, sp⟩

/-- `base`, `src/resolve.rs` 139-149. -/
def base (debug : Bool) (S : Spec) (r : FixedBaseResolver) : Option Str :=
  if debug && validate_absolute_uri S r.iri != some true then none else some r.iri

/-- `scheme_str`, `src/resolve.rs` 176-180, `src/components.rs` 236-238; a missing scheme panics. -/
def scheme_str (r : FixedBaseResolver) : Option Str := (r.splitter.scheme_str r.iri).bind id

/-- `authority_str`, `src/resolve.rs` 202-204, `src/components.rs` 243-245. -/
def authority_str (r : FixedBaseResolver) : Option (Option Str) := r.splitter.authority_str r.iri

/-- `path_str`, `src/resolve.rs` 224-226, `src/components.rs` 250-252. -/
def path_str (r : FixedBaseResolver) : Option Str := r.splitter.path_str r.iri

/-- `query_str`, `src/resolve.rs` 282-284, `src/components.rs` 257-259. -/
def query_str (r : FixedBaseResolver) : Option (Option Str) := r.splitter.query_str r.iri

/-- `query`, `src/resolve.rs` 249-260. -/
def query (debug : Bool) (S : Spec) (r : FixedBaseResolver) : Option (Option Str) :=
  r.query_str.bind (justifiedOpt debug (validate_query S))

end FixedBaseResolver

end Verif
