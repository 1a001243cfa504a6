import Verif.Model.Debug

/-!
# Passwords in `Debug` output; where format options have an effect

`Builder`, `FmtOpts` and their parts describe the arguments of the crate's functions and macros.
-/

namespace Verif

/-- The user information has the given user name and a password: either given as one text, in which
the password starts after the first colon, or as a pair. -/
inductive WithPassword (user : Str) : UserinfoRepr → Prop
  | direct {pw} : ':' ∉ user → WithPassword user (.direct (user ++ ':' :: pw))
  | pair {pw} : pw ≠ [] → WithPassword user (.userPass user (some pw))

/-- Two builders that have the same settings, except that the passwords may be different. -/
def SameButPassword (b b' : Builder) : Prop :=
  ∃ a a' user, b.authority = some a ∧ b'.authority = some a' ∧
    WithPassword user a.userinfo ∧ WithPassword user a'.userinfo ∧
    a' = { a with userinfo := a'.userinfo } ∧ b' = { b with authority := b'.authority }

/-- The user name and the rest of what the formatter is told about user information: nothing, a user
without password, a user with the empty password, or a user with a password. -/
inductive UserShown
  | nothing
  | noPassword (user : Str)
  | emptyPassword (user : Str)
  | censored (user : Str)

/-- What is shown of user information. -/
inductive Shown : UserinfoRepr → UserShown → Prop
  | absent : Shown .absent .nothing
  | direct {u} : ':' ∉ u → Shown (.direct u) (.noPassword u)
  | directPassword {u p} : ':' ∉ u → Shown (.direct (u ++ ':' :: p)) (.censored u)
  | user {u} : Shown (.userPass u none) (.noPassword u)
  | empty {u} : Shown (.userPass u (some [])) (.emptyPassword u)
  | pair {u p} : p ≠ [] → Shown (.userPass u (some p)) (.censored u)

/-- The settings whose display takes format options into account: user information that is not
normalized and was given as one text or has a password, or an IPv4 address given as an address. -/
def TakesOptions (b : Builder) : Prop :=
  ∃ a, b.authority = some a ∧
    ((b.normalize = false ∧ ((∃ u, a.userinfo = .direct u) ∨ ∃ u p, a.userinfo = .userPass u (some p))) ∨
      ∃ w x y z, a.host = .ipv4 w x y z)

/-- The user information with the text of it that is displayed by `Display` of `str` padded. -/
def paddedUserinfo (o : FmtOpts) : UserinfoRepr → UserinfoRepr
  | .direct u => .direct (o.pad u)
  | .userPass u (some p) => .userPass u (some (o.pad p))
  | r => r

/-- The host with an IPv4 address padded. -/
def paddedHost (o : FmtOpts) : HostRepr → HostRepr
  | .ipv4 w x y z => .string (o.pad (ipv4Display w.toNat x.toNat y.toNat z.toNat))
  | r => r

/-- The settings with the padded texts in the place of user information and IPv4 address. -/
def padded (o : FmtOpts) (b : Builder) : Builder :=
  { b with authority := b.authority.map fun a =>
      { a with userinfo := paddedUserinfo o a.userinfo, host := paddedHost o a.host } }

end Verif
