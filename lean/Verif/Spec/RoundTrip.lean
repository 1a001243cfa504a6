import Verif.Model.Build
import Verif.Model.Encode
import Verif.Model.Decode
import Verif.Model.Types
import Verif.Spec.TemplateRead
import Verif.Spec.Normalize

/-!
# Data through the crate and back

Specification file for C70: two small programs that a user of the crate would write.  The first puts arbitrary
texts into a builder, each encoded for its place; the second takes the text of a reference apart with the
accessors and decodes every piece.  Only functions of the crate's public API are called, besides `split` and
`parse` of the standard library.
-/

namespace Verif.RoundTrip

/-- What is to be transported in an authority. -/
structure RawAuthority where
  /-- a user name, with or without a password -/
  user : Option (Str × Option Str)
  /-- a registered name -/
  host : Str
  port : Option UInt16
  deriving DecidableEq, Repr

/-- What is to be transported: any texts, except that the scheme is not encoded. -/
structure Raw where
  scheme : Option Str
  authority : Option RawAuthority
  /-- the path `/s₁/s₂/…` -/
  segments : List Str
  query : Option Str
  fragment : Option Str
  deriving DecidableEq, Repr

/-- User name and password are encoded one by one. -/
def writeUser (S : Spec) : Option (Str × Option Str) → UserinfoRepr
  | none => .absent
  | some (u, none) => .userPass (from_user S [u]) none
  | some (u, some p) => .userPass (from_user S [u]) (some (from_password S [p]))

/-- The port is given as a number. -/
def writePort : Option UInt16 → PortRepr
  | none => .empty
  | some n => .integer n

/-- The writer: encodes every piece for its place and hands it to the builder. -/
def builder (S : Spec) (r : Raw) : Builder where
  scheme := r.scheme
  authority := r.authority.map fun a => {
    userinfo := writeUser S a.user
    host := .string (from_reg_name S [a.host])
    port := writePort a.port }
  path := r.segments.flatMap fun s => '/' :: from_path_segment S [s]
  query := r.query.map fun q => from_query S [q]
  fragment := r.fragment.map fun f => from_fragment S [f]

/-- Percent-decoding to a text; `none` if that is not possible (or panics). -/
def decode (x : Str) : Option Str := (into_string (utf8s x)).bind id

/-- An optional piece. -/
def opt {α β : Type} (f : α → Option β) : Option α → Option (Option β)
  | none => some none
  | some x => (f x).map some

/-- Every piece of a list. -/
def all {α β : Type} (f : α → Option β) : List α → Option (List β)
  | [] => some []
  | x :: l => (f x).bind fun y => (all f l).map (y :: ·)

/-- User information is split at `:`. -/
def readUser (x : Str) : Option (Str × Option Str) :=
  match Rfc6570.splitAt ':' x with
  | [u] => (decode u).map fun u => (u, none)
  | [u, p] => (decode u).bind fun u => (decode p).map fun p => (u, some p)
  | _ => none

/-- A port is parsed as a decimal number. -/
def readPort (x : Str) : Option UInt16 :=
  if x ≠ [] ∧ (∀ c ∈ x, Rfc.DIGIT c = true) ∧ Rfc6570.decimal x < 65536 then
    some (UInt16.ofNat (Rfc6570.decimal x)) else none

/-- A path, which is empty or begins with `/`, is split at `/`. -/
def readPath (x : Str) : Option (List Str) :=
  match Rfc6570.splitAt '/' x with
  | [] :: l => all decode l
  | _ => none

/-- The authority is taken apart with `authority_components`. -/
def readAuthority (a : AuthorityComponents) : Option RawAuthority := do
  let user ← opt readUser (← a.userinfo)
  let host ← decode (← a.host)
  let port ← opt readPort (← a.port)
  some ⟨user, host, port⟩

/-- The reader; the result `none` is a panic or a piece that cannot be read. -/
def read (s : Str) : Option Raw := do
  let authority ← opt readAuthority (RiReferenceStr.authority_components s)
  let segments ← readPath (RiReferenceStr.path_str s)
  let query ← opt decode (← RiReferenceStr.query_str s)
  let fragment ← opt decode (RiReferenceStr.fragment_str s)
  some ⟨RiReferenceStr.scheme_str s, authority, segments, query, fragment⟩

/-- What the type asks for. -/
def KindOk (r : Raw) : IriKind → Prop
  | .reference => True
  | .iri => r.scheme ≠ none
  | .absolute => r.scheme ≠ none ∧ r.fragment = none
  | .relative => r.scheme = none

/-- The only requirements on the data: a scheme is a scheme, the type has the components, and a path that
begins with `//` needs an authority. -/
def Transportable (k : IriKind) (r : Raw) : Prop :=
  (∀ x, r.scheme = some x → Rfc.scheme x) ∧ KindOk r k ∧
  (r.authority = none → ∀ s l, r.segments ≠ [] :: s :: l)

/-- What normalization does to the data: the scheme becomes lower case, and so does a US-ASCII host. -/
def normalized (r : Raw) : Raw :=
  { r with
    scheme := r.scheme.map (List.map Rfc.lower)
    authority := r.authority.map fun a =>
      { a with host := if a.host.all (fun c => decide (c.toNat < 128)) then a.host.map Rfc.lower else a.host } }

end Verif.RoundTrip
