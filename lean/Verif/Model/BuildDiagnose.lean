import Verif.Model.Build
import Verif.Model.Diagnose

/-! # `Builder::build` with its error kinds (`src/build.rs` 1207-1375) -/

namespace Verif.Diag

open Verif.Diagnose (ErrorKind)

/-- `if let Some(x) = o { check(x)? }`. -/
def optCheck {α : Type} (f : α → Res) : Option α → Res
  | none => .ok ()
  | some x => f x

/-- Userinfo checks, `src/build.rs` 1280-1299. -/
def checkUserinfo (S : Spec) : UserinfoRepr → Res
  | .absent => .ok ()
  | .direct u => validate_userinfo S u
  | .userPass user password =>
    if user.contains ':' then .error .InvalidUserInfo
    else andThen (validate_userinfo S user) (optCheck (validate_userinfo S) password)

/-- Host check, `src/build.rs` 1301-1305. -/
def checkHost (S : Spec) : HostRepr → Res
  | .string s => validate_host S s
  | .ipv4 .. => .ok ()
  | .ipv6 _ => .ok ()

/-- Port check, `src/build.rs` 1307-1311. -/
def checkPort : PortRepr → Res
  | .string s => if !s.all isDigit then .error .InvalidPort else .ok ()
  | .empty => .ok ()
  | .integer _ => .ok ()

/-- Authority checks, `src/build.rs` 1279-1312. -/
def checkAuthority (S : Spec) (a : AuthorityBuilder) : Res :=
  andThen (checkUserinfo S a.userinfo) (andThen (checkHost S a.host) (checkPort a.port))

/-- `validate_builder_for_iri_reference`, `src/build.rs` 1274-1375: `none` is a panic (only the
path checks, `Builder.pathCheck`, can panic, and only when they are reached). -/
def validateBuilder (S : Spec) (b : Builder) : Option (Except ErrorKind Bool) :=
  match andThen (optCheck validate_scheme b.scheme) (optCheck (checkAuthority S) b.authority) with
  | .error k => some (.error k)
  | .ok _ =>
    (b.pathCheck S).map fun (is_path_acceptable, path_is_absolute) =>
      if !is_path_acceptable then .error .InvalidPath
      else
        match andThen (optCheck (validate_query S) b.query)
            (optCheck (validate_fragment S) b.fragment) with
        | .error k => .error k
        | .ok _ => .ok path_is_absolute

/-- The checks made first for the four target types, `src/build.rs` 1207-1269. -/
def checkKind (b : Builder) : IriKind → Res
  | .reference => .ok ()
  | .iri => if b.scheme.isNone then .error .InvalidScheme else .ok ()
  | .absolute =>
    if b.scheme.isNone then .error .InvalidScheme
    else if b.fragment.isSome then .error .UnexpectedFragment else .ok ()
  | .relative => if b.scheme.isSome then .error .UnexpectedAbsolute else .ok ()

/-- `Builder::build::<T>()`, `src/build.rs` 447-452, 1207-1269: `none` is a panic. -/
def build (S : Spec) (k : IriKind) (b : Builder) : Option (Except ErrorKind Built) :=
  match checkKind b k with
  | .error e => some (.error e)
  | .ok _ => (validateBuilder S b).map fun r =>
      match r with
      | .error e => .error e
      | .ok path_is_absolute => .ok ⟨b, path_is_absolute⟩

end Verif.Diag
