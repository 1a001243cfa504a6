import Verif.Spec.Lit
import Verif.Model.Build
import Verif.Model.Encode
import Verif.Model.Decode
import Verif.Model.Format
import Verif.Model.Construct
import Verif.Model.TemplateExpand

/-!
Conformance of the model: the test bodies of `/repo/tests`, run on the model.

Nothing in `Verif/Conformance` is a proof of a property.  The crate's own tests record what the
compiled code really does on particular inputs; evaluating the model on the same inputs (in the
kernel) is evidence that the model is a model *of this code*.  `tools/conformance.py` generates the
tables next to this file from `/repo/tests`; this file transcribes the loops over them.
-/

namespace Verif.Conformance

/-- `Components`, `/repo/tests/components/mod.rs` 70-90. -/
structure Comps where
  scheme : Option Str := none
  user : Option Str := none
  password : Option Str := none
  host : Option Str := none
  port : Option Str := none
  path : Str := []
  query : Option Str := none
  fragment : Option Str := none
  deriving DecidableEq

/-- `TestCase`, `/repo/tests/components/mod.rs` 8-28. -/
structure Case where
  composed : Str
  components : Comps
  normalized_uri : Str
  normalized_iri : Str
  normalized_uri_whatwg_like : Option Str := none
  normalized_iri_whatwg_like : Option Str := none
  different_iris : List Str := []

namespace Case

def isUriClass (c : Case) : Bool := c.composed.all isAscii
def isAbsolute (c : Case) : Bool := c.components.scheme.isSome
def isAbsoluteWithoutFragment (c : Case) : Bool :=
  c.components.scheme.isSome && c.components.fragment.isNone
def isRelative (c : Case) : Bool := c.components.scheme.isNone

/-- `is_rfc3986_normalizable`, 60-66: what follows the first `/` does not start with `./`. -/
def normalizable (c : Case) : Bool :=
  match c.normalized_iri.dropWhile (· != '/') with
  | '/' :: '.' :: '/' :: _ => false
  | _ => true

end Case

/-- `feed_builder`, 115-155. -/
def Comps.feed (c : Comps) (clean : Bool) : List BuilderOp :=
  (match c.scheme with
    | some s => [.scheme s]
    | none => if clean then [.unset_scheme] else []) ++
  (match c.host with
    | some h =>
      (if c.user.isSome || c.password.isSome then
          [BuilderOp.userinfo (.userPass (c.user.getD []) c.password)]
        else if clean then [.unset_userinfo] else []) ++ [.host h] ++
      (match c.port with
        | some p => [BuilderOp.port (.string p)]
        | none => if clean then [.unset_port] else [])
    | none => if clean then [.unset_authority] else []) ++
  [.path c.path] ++
  (match c.query with
    | some q => [BuilderOp.query q]
    | none => if clean then [.unset_query] else []) ++
  (match c.fragment with
    | some f => [BuilderOp.fragment f]
    | none => if clean then [.unset_fragment] else [])

/-- `builder.build::<T>()` and then `to_string()`: `some none` is a build error. -/
def built (S : Spec) (k : IriKind) (b : Builder) : Option (Option Str) := do
  match ← b.build S k with
  | none => some none
  | some v => (v.display S).map some

/-- `built.ensure_rfc3986_normalizable().is_ok()` after a successful build. -/
def builtNormalizable (S : Spec) (k : IriKind) (b : Builder) : Option Bool := do
  match ← b.build S k with
  | none => none
  | some v => v.ensure_rfc3986_normalizable

/-- `consistent_components_and_composed`, `/repo/tests/build.rs` 17-60. -/
def consistent (c : Case) : Bool :=
  let s := c.composed
  let (user, password, host, port) :=
    match RiReferenceStr.authority_components s with
    | none => ((none : Option Str), (none : Option Str), (none : Option Str), (none : Option Str))
    | some a =>
      let (u, p) := match a.userinfo.getD none with
        | none => ((none : Option Str), (none : Option Str))
        | some ui => (some (ui.takeWhile (· != ':')),
            match ui.dropWhile (· != ':') with
            | _ :: r => some r
            | [] => none)
      (u, p, a.host, a.port.getD none)
  built .iri .reference (({} : Builder).run (c.components.feed false)) == some (some c.composed) &&
  decide (Comps.mk (RiReferenceStr.scheme_str s) user password host port
    (RiReferenceStr.path_str s) ((RiReferenceStr.query_str s).getD none)
    (RiReferenceStr.fragment_str s) = c.components)

/-- `assert_builds_for_case`, `/repo/tests/build.rs` 62-135. -/
def buildsFor (c : Case) (b : Builder) : Bool :=
  let check (S : Spec) : Bool :=
    built S .reference b == some (some c.composed) &&
    built S .iri b == some (if c.isAbsolute then some c.composed else none) &&
    built S .absolute b == some (if c.isAbsoluteWithoutFragment then some c.composed else none) &&
    built S .relative b == some (if c.isRelative then some c.composed else none)
  check .iri && (!c.isUriClass || check .uri)

/-- `build_simple`, 138-147. -/
def buildSimple (c : Case) : Bool := buildsFor c (({} : Builder).run (c.components.feed false))

/-- `reuse_dirty_builder`, 150-170. -/
def buildDirty (c : Case) : Bool :=
  let dirty := ({} : Builder).run [.scheme (chars! "scheme"),
    .userinfo (.userPass (chars! "user") (some (chars! "password"))), .host (chars! "host"),
    .port (.string (chars! "90127")), .path (chars! "/path/path-again"), .query (chars! "query"),
    .fragment (chars! "fragment")]
  buildsFor c (dirty.run (c.components.feed true))

/-- `build_normalized_absolute`, `build_normalized_relative`, `build_normalizedness`, 173-263. -/
def buildNormalized (c : Case) : Bool :=
  let b := ({} : Builder).run (c.components.feed false ++ [.normalize])
  if c.isAbsolute then
    built .iri .iri b == some (some c.normalized_iri) &&
    (!c.isUriClass || built .uri .iri b == some (some c.normalized_uri)) &&
    builtNormalizable .iri .iri b == some c.normalizable &&
    (match built .iri .iri b with
      | some (some s) =>
        IriKind.iri.validate .iri s == some true &&
        is_normalized .iri .preserve s == some true &&
        is_normalized .iri .rfc3986 s == some c.normalizable
      | _ => false)
  else
    built .iri .relative b == some (some c.normalized_iri) &&
    (!c.isUriClass || built .uri .reference b == some (some c.normalized_uri))

/-- `different_iris`, `normalize_uri`, `normalize_iri`, `normalize_uri_whatwg_like`,
`normalize_iri_whatwg_like`, `normalize_idempotent`, `/repo/tests/normalize.rs` 13-160. -/
def normalizes (c : Case) : Bool :=
  let check (S : Spec) (n : Str) (w : Option Str) : Bool :=
    IriKind.iri.validate S c.composed == some true && IriKind.iri.validate S n == some true &&
    normalize S c.composed == some n &&
    normalize_but_preserve_authorityless_relative_path S c.composed == some (w.getD n) &&
    ensure_rfc3986_normalizable c.composed == some c.normalizable &&
    normalize S n == some n
  (c.different_iris.all fun o => IriKind.iri.validate .iri o == some true && o != c.normalized_iri) &&
  (!c.isAbsolute ||
    check .iri c.normalized_iri c.normalized_iri_whatwg_like &&
    (!c.isUriClass || check .uri c.normalized_uri c.normalized_uri_whatwg_like))

/-- `uri_resolution_against_self_with_normalization`, `iri_resolution_against_self_with_normalization`,
`/repo/tests/resolve.rs` 405-473. -/
def resolvesSelf (c : Case) : Bool :=
  let check (S : Spec) (n : Str) : Bool :=
    match RiStr.to_absolute c.composed with
    | some base =>
      resolve S .default base c.composed == some n &&
      resolve_ensure_rfc3986_normalizable base c.composed == some c.normalizable
    | none => false
  !c.isAbsolute ||
    check .iri c.normalized_iri && (!c.isUriClass || check .uri c.normalized_uri)

/-- `resolve`, `resolve_normalize`, `fixed_base_resolver`, `/repo/tests/resolve.rs` 233-292. -/
def resolves (base reference expected : Str) (normalized : Option Str) : Bool :=
  IriKind.absolute.validate .iri base == some true &&
  IriKind.reference.validate .iri reference == some true &&
  resolve .iri .off base reference == some expected &&
  resolve .iri .default base reference == some (normalized.getD expected)

/-- `normalizedness`, `/repo/tests/normalize.rs` 163-218. -/
def normalizedness (s : Str) (d r w : Bool) : Bool :=
  IriKind.iri.validate .iri s == some true && is_normalized .iri .default s == some d &&
  is_normalized .iri .rfc3986 s == some r && is_normalized .iri .preserve s == some w

/-- `assert_convertible`/`assert_non_convertible`, `/repo/tests/string_types_interop.rs`: which of
`IriReferenceStr`, `UriReferenceStr`, `IriStr`, `UriStr`, `IriAbsoluteStr`, `UriAbsoluteStr`,
`IriRelativeStr`, `UriRelativeStr` accept the string. -/
def accepts (s : Str) : List (Option Bool) :=
  [IriKind.reference.validate .iri s, IriKind.reference.validate .uri s,
   IriKind.iri.validate .iri s, IriKind.iri.validate .uri s,
   IriKind.absolute.validate .iri s, IriKind.absolute.validate .uri s,
   IriKind.relative.validate .iri s, IriKind.relative.validate .uri s]

def okStr : Tpl.Res Str → Option Str
  | .ok s => some s
  | _ => none

def okUnit : Tpl.Res Unit → Bool
  | .ok _ => true
  | _ => false

def okDyn {σ : Type} : Option (Except (Tpl.ErrorKind × Nat) Str × σ) → Option Str
  | some (.ok s, _) => some s
  | _ => none

/-- The loops of `/repo/tests/template.rs`: the template is valid and both expansions (in a debug
build, like the tests) give the expected text. -/
def expands (S : Spec) (ctx : Tpl.Ctx) (template expected : Str) : Bool :=
  okUnit (Tpl.validate_template_str template) &&
  okStr (Tpl.expand_to_string S true ctx template) == some expected &&
  okDyn (Tpl.expand_dynamic_to_string S true ctx.toDyn template ()) == some expected

def simple (l : List (Str × Tpl.SValue)) : Tpl.Variables :=
  l.foldl (fun m e => (Tpl.ctxInsert m e.1 e.2).2) []

/-! ## Documentation examples

A Rust value of type `T` is translated to a Lean value of type `Option T`; `none` is a panic.  A
`Result` is an `Option` (`none` is `Err`). -/

/-- `assert_eq!`: both sides are evaluated without a panic, and are equal. -/
def agree {α : Type} [DecidableEq α] (a b : Option α) : Bool := a.isSome && decide (a = b)

/-- The result of a validator as a `Result`. -/
def check (valid : Option Bool) (s : Str) : Option (Option Str) :=
  valid.map fun b => if b then some s else none

/-- `T::new(s)`, `T::try_from(s)`, `s.parse::<T>()` of the four IRI types. -/
def newIri (S : Spec) (k : IriKind) (s : Str) : Option (Option Str) := check (k.validate S s) s

/-- `UriTemplateStr::new(s)`. -/
def newTemplate (s : Str) : Option (Option Str) :=
  match Tpl.validate_template_str s with
  | .ok _ => some (some s)
  | .err _ _ => some none
  | .panic => none

/-- `template.expand::<S, _>(&ctx)` displayed. -/
def expandRes (S : Spec) (ctx : Tpl.Ctx) (t : Str) : Option (Option Str) :=
  match Tpl.expand_to_string S true ctx t with
  | .ok s => some (some s)
  | .err _ _ => some none
  | .panic => none

/-- `scheme_str` and so on of each type, in the form `Option (Option Str)`. -/
def schemeStr (k : IriKind) (s : Str) : Option (Option Str) :=
  match k with
  | .reference => some (RiReferenceStr.scheme_str s)
  | .iri => (RiStr.scheme_str s).map some
  | .absolute => (RiAbsoluteStr.scheme_str s).map some
  | .relative => some none

def authorityStr (k : IriKind) (s : Str) : Option (Option Str) :=
  match k with
  | .reference => some (RiReferenceStr.authority_str s)
  | .iri => RiStr.authority_str s
  | .absolute => RiAbsoluteStr.authority_str s
  | .relative => some (RiRelativeStr.authority_str s)

def pathStr (k : IriKind) (s : Str) : Option Str :=
  match k with
  | .reference => some (RiReferenceStr.path_str s)
  | .iri => RiStr.path_str s
  | .absolute => RiAbsoluteStr.path_str s
  | .relative => some (RiRelativeStr.path_str s)

def queryStr (k : IriKind) (s : Str) : Option (Option Str) :=
  match k with
  | .reference => RiReferenceStr.query_str s
  | .iri => RiStr.query_str s
  | .absolute => RiAbsoluteStr.query_str true s
  | .relative => RiRelativeStr.query_str s

def fragmentStr (k : IriKind) (s : Str) : Option (Option Str) :=
  match k with
  | .reference => some (RiReferenceStr.fragment_str s)
  | .iri => some (RiStr.fragment_str s)
  | .absolute => none
  | .relative => some (RiRelativeStr.fragment_str s)

end Verif.Conformance
