import Verif.Spec.Parts

/-!
# Passwords and hosts inside a reference

Specification file: it imports no model file.  RFC 3986 3.2.1: the password is what follows the
first colon of the user information.
-/

namespace Verif.Rfc

/-- The reference `p` has the authority `a`, whose user information is `user ":" password`. -/
structure HasPassword (S : Spec) (p : Parts) (a : AuthParts) (user password : Str) : Prop where
  valid : a.Valid S
  authority : p.authority = some a.recompose
  userinfo : a.userinfo = some (user ++ ':' :: password)
  first : ':' ∉ user

/-- The reference `p` with the authority `a` in the place of its authority. -/
def withAuthority (p : Parts) (a : AuthParts) : Str :=
  ({ p with authority := some a.recompose } : Parts).recompose

/-- The text of `p`, whose authority is `a`, with the user information replaced. -/
def withUserinfo (p : Parts) (a : AuthParts) (u : Str) : Str :=
  withAuthority p { a with userinfo := some u }

/-- The text of `p`, whose authority is `a`, with the host replaced. -/
def withHost (p : Parts) (a : AuthParts) (h : Str) : Str :=
  withAuthority p { a with host := h }

/-- User information without a colon that `remove_password_inline()` cannot cope with: it ends in a
triplet, or in a character that is not ASCII, or it is empty and the host is an IP literal. -/
def BreaksRemoval (a : AuthParts) (u : Str) : Prop :=
  (u = [] ∧ IP_literal a.host) ∨ (∃ v c, u = v ++ [c] ∧ 128 ≤ c.toNat) ∨ (∃ v x y, u = v ++ ['%', x, y])

end Verif.Rfc
