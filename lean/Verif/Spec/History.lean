import Verif.Spec.Edit
import Verif.Spec.Encode
import Verif.Spec.Normalize
import Verif.Model.History

/-!
# What the methods do to the components of a value

Specification file for C66: a machine whose state is the components of a value.  Of the model it uses only
the list of methods (`Call`) and of types (`IriKind`, `NormalizationMode`).
-/

namespace Verif.Rfc

/-- A value by its components, the authority by its own. -/
structure Comps where
  spec : Spec
  kind : IriKind
  scheme : Option Str
  authority : Option AuthParts
  path : Str
  query : Option Str
  fragment : Option Str
  deriving DecidableEq, Repr

/-- The five components of RFC 3986 section 3. -/
def Comps.parts (a : Comps) : Parts :=
  ⟨a.scheme, a.authority.map AuthParts.recompose, a.path, a.query, a.fragment⟩

/-- The value that has these components. -/
def Comps.val (a : Comps) : Val := ⟨a.spec, a.kind, a.parts.recompose⟩

/-- What the types ask of the scheme and the fragment.  (The crate's absolute IRIs may have an empty fragment,
see C04.) -/
def TypeFits (scheme fragment : Option Str) : IriKind → Prop
  | .reference => True
  | .iri => scheme ≠ none
  | .absolute => scheme ≠ none ∧ (fragment = none ∨ fragment = some [])
  | .relative => scheme = none

/-- The components conform to their rules, and to the value's type. -/
structure Comps.Valid (a : Comps) : Prop where
  parts : a.parts.Valid a.spec
  authority : ∀ x, a.authority = some x → x.Valid a.spec
  kind : TypeFits a.scheme a.fragment a.kind

/-- `user ":" password` becomes `f user`; user information without a colon has no password. -/
def mapPassword (f : Str → Str) (u : Str) : Str :=
  if ':' ∈ u then f (u.takeWhile (· != ':')) else u

/-- The components with the user information changed. -/
def Comps.mapUserinfo (f : Str → Str) (a : Comps) : Comps :=
  { a with authority := a.authority.map fun x => { x with userinfo := x.userinfo.map f } }

/-- The components with the host changed. -/
def Comps.withHost (h : Str) (a : Comps) : Comps :=
  { a with authority := a.authority.map fun x => { x with host := h } }

/-- Every component encoded as RFC 3987 section 3.1 says. -/
def Comps.encoded (a : Comps) : Comps :=
  { a with
    authority := a.authority.map fun x =>
      { userinfo := x.userinfo.map mapToUri, host := mapToUri x.host, port := x.port }
    path := mapToUri a.path, query := a.query.map mapToUri, fragment := a.fragment.map mapToUri }

/-- The host is neither an IP literal nor an IPv4 address. -/
def Comps.HasRegName (a : Comps) : Prop :=
  ∃ x, a.authority = some x ∧ ¬ IP_literal x.host ∧ ¬ IPv4address x.host

/-- `b` is the normal form of `a`. -/
def Comps.NormalizesTo (preserve : Bool) (a b : Comps) : Prop :=
  b.spec = a.spec ∧ b.kind = a.kind ∧ Normal a.spec preserve a.parts b.parts

/-- What a method does. -/
def Effect (c : Call) (a b : Comps) : Prop :=
  match c with
  | .set_fragment f => b = if a.kind = .absolute then a else { a with fragment := f }
  | .replace_host new => (host a.spec new → b = a.withHost new) ∧ (¬ host a.spec new → b = a)
  | .replace_host_reg_name new =>
    (host a.spec new ∧ a.HasRegName → b = a.withHost new) ∧ (¬ (host a.spec new ∧ a.HasRegName) → b = a)
  | .remove_password_inline => b = a.mapUserinfo (mapPassword fun user => user)
  | .remove_nonempty_password_inline => b = a.mapUserinfo (mapPassword fun user => user ++ [':'])
  | .mask_password => b = a.mapUserinfo (mapPassword fun user => user ++ [':'])
  | .encode_to_uri_inline => b = a.encoded
  | .encode_into_uri => b = { a.encoded with spec := .uri }
  | .try_into_uri =>
    b = if a.parts.recompose.all (fun c => decide (c.toNat < 128)) then { a with spec := .uri } else a
  | .into_iri_spec => b = { a with spec := .iri }
  | .into_reference => b = { a with kind := .reference }
  | .into_iri =>
    b = match a.kind with
      | .reference => { a with kind := if a.scheme.isSome then .iri else .relative }
      | .absolute => { a with kind := .iri }
      | _ => a
  | .into_absolute => b = if a.kind = .iri then { a with kind := .absolute, fragment := none } else a
  | .normalize => if a.kind = .iri ∨ a.kind = .absolute then a.NormalizesTo false b else b = a
  | .normalize_preserve => if a.kind = .iri ∨ a.kind = .absolute then a.NormalizesTo true b else b = a
  | .resolve_against mode base =>
    if a.kind = .reference ∨ a.kind = .relative then
      b.spec = a.spec ∧ b.kind = .iri ∧ ∃ p : Parts, p.Valid a.spec ∧ p.recompose = base ∧
        match mode with
        | .off => b.parts = { transform p a.parts with
            path := escapePath (transform p a.parts).authority.isSome (transform p a.parts).path }
        | .default => Normal a.spec false (mergeReference p a.parts) b.parts
        | .preserve => Normal a.spec true (mergeReference p a.parts) b.parts
    else b = a

/-- The arguments are values of the types that the method takes (for an absolute IRI, see C04), and the call is not one of the two that are
wrong (C26, C27): `remove_password_inline` on user information without a colon, and in a debug build the
replacement of the host of an IRI with a non-empty fragment. -/
def Allowed (debug : Bool) (c : Call) (a : Comps) : Prop :=
  match c with
  | .set_fragment f => ∀ x, f = some x → fragment a.spec x
  | .resolve_against _ base => absolute_IRI a.spec base ∨ ∃ t, base = t ++ ['#'] ∧ absolute_IRI a.spec t
  | .remove_password_inline => ∀ x u, a.authority = some x → x.userinfo = some u → ':' ∈ u
  | .replace_host _ | .replace_host_reg_name _ =>
    debug = true → a.kind = .iri → a.fragment = none ∨ a.fragment = some []
  | _ => True

/-- A history of calls, seen on the components. -/
inductive Runs (debug : Bool) : List Call → Comps → Comps → Prop
  | nil (a : Comps) : Runs debug [] a a
  | cons (c : Call) (cs : List Call) (a b d : Comps) :
      Allowed debug c a → Effect c a b → b.Valid → Runs debug cs b d → Runs debug (c :: cs) a d

/-- A history of calls; `none` is a panic. -/
def runCalls (debug : Bool) : List Call → Val → Option Val
  | [], v => some v
  | c :: cs, v => (v.step debug c).bind (runCalls debug cs)

end Verif.Rfc
