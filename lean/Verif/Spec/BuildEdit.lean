import Verif.Spec.Build
import Verif.Spec.History

/-!
# A builder made from a value

Specification file for C75: what the setters of a builder do to the components of a value.
-/

namespace Verif.BuildSpec

open Rfc

/-- The components that a builder has been given. -/
structure Draft where
  scheme : Option Str
  authority : Option AuthParts
  path : Str
  query : Option Str
  fragment : Option Str
  deriving DecidableEq, Repr

/-- The components of a value. -/
def Draft.of (a : Comps) : Draft := ⟨a.scheme, a.authority, a.path, a.query, a.fragment⟩

/-- As the components of a value of some type. -/
def Draft.comps (S : Spec) (k : IriKind) (d : Draft) : Comps :=
  ⟨S, k, d.scheme, d.authority, d.path, d.query, d.fragment⟩

/-- The authority changed, or made from an empty one. -/
def Draft.mapAuthority (f : AuthParts → AuthParts) (d : Draft) : Draft :=
  { d with authority := some (f (d.authority.getD ⟨none, [], none⟩)) }

/-- A setter. -/
def Draft.set (d : Draft) : BuilderOp → Draft
  | .scheme v => { d with scheme := some v }
  | .unset_scheme => { d with scheme := none }
  | .path v => { d with path := v }
  | .unset_authority => { d with authority := none }
  | .userinfo v => d.mapAuthority fun x => { x with userinfo := userinfoText v }
  | .unset_userinfo => d.mapAuthority fun x => { x with userinfo := none }
  | .host v => d.mapAuthority fun x => { x with host := v }
  | .ip_address_v4 a b c e => d.mapAuthority fun x => { x with host := hostText (.ipv4 a b c e) }
  | .ip_address_v6 a => d.mapAuthority fun x => { x with host := hostText (.ipv6 a) }
  | .port v => d.mapAuthority fun x => { x with port := portText v }
  | .unset_port => d.mapAuthority fun x => { x with port := none }
  | .query v => { d with query := some v }
  | .unset_query => { d with query := none }
  | .fragment v => { d with fragment := some v }
  | .unset_fragment => { d with fragment := none }
  | .unset_normalize => d
  | .normalize => d

/-- A sequence of setters. -/
def Draft.run (d : Draft) (ops : List BuilderOp) : Draft := ops.foldl Draft.set d

/-- What the claim asks of a setter: a path is a path (the builder does not check it, see C28), a user name given on
its own has no colon, and it is not `normalize` (for which see `C75_normalize`). -/
def PlainOp (S : Spec) : BuilderOp → Prop
  | .path v => Rfc.path S v
  | .userinfo (.userPass user _) => ':' ∉ user
  | .normalize => False
  | _ => True

/-- The components make a value of the type, in the sense of the RFC (an absolute IRI has no fragment). -/
def Draft.Fits (S : Spec) (k : IriKind) (d : Draft) : Prop :=
  (d.comps S k).Valid ∧ (k = .absolute → d.fragment = none)

/-- The setters that make the same change as a method on the value `a`. -/
inductive SameEdit (a : Comps) : Call → List BuilderOp → Prop
  | set_fragment (f : Str) : a.kind ≠ .absolute → Rfc.fragment a.spec f →
      SameEdit a (.set_fragment (some f)) [.fragment f]
  | remove_fragment : a.kind ≠ .absolute → SameEdit a (.set_fragment none) [.unset_fragment]
  | replace_host (h : Str) : a.authority ≠ none → Rfc.host a.spec h → SameEdit a (.replace_host h) [.host h]
  | remove_password (x : AuthParts) (user password : Str) : a.authority = some x →
      x.userinfo = some (user ++ ':' :: password) → ':' ∉ user →
      SameEdit a .remove_password_inline [.userinfo (.userPass user none)]
  | remove_nonempty_password (x : AuthParts) (user password : Str) : a.authority = some x →
      x.userinfo = some (user ++ ':' :: password) → ':' ∉ user →
      SameEdit a .remove_nonempty_password_inline [.userinfo (.userPass user (some []))]
  | mask_password (x : AuthParts) (user password : Str) : a.authority = some x →
      x.userinfo = some (user ++ ':' :: password) → ':' ∉ user →
      SameEdit a .mask_password [.userinfo (.userPass user (some []))]
  | into_absolute : a.kind = .iri → SameEdit a .into_absolute [.unset_fragment]
  | into_reference : SameEdit a .into_reference []

end Verif.BuildSpec
