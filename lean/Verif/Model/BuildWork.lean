import Verif.Model.EditWork
import Verif.Model.NormalizeWork
import Verif.Model.Build

/-!
# The builder with a counter of the bytes it looks at and writes

The functions of `Model/Build.lean` with the counter of `Model/ValidateWork.lean`, on top of `Model/NormalizeWork.lean`.
Building counts the bytes looked at; displaying counts the bytes that normalization looks at and the bytes written.
Simplification towards a higher count: to see what kind of path normalization yields, the whole path is normalized and
looked at twice (the code stops as soon as it knows).  That the results are those of the functions without a
counter is theorem `C95_same`.
-/

namespace Verif.Work

/-- A text that is percent/case normalized or not, as in `src/build.rs` 188-193. -/
def pctIf (S : Spec) (normalize : Bool) (s : Str) : T (Option Str) :=
  if normalize then pct_case_normalized S s else ret (some s)

/-- Userinfo part of `AuthorityBuilder::fmt_write_to`, `src/build.rs` 186-212. -/
def userinfoWrite (S : Spec) (normalize : Bool) : UserinfoRepr → T (Option Str)
  | .absent => ret (some [])
  | .direct u => bind (pctIf S normalize u) fun o => ret (o.map fun t => t ++ ['@'])
  | .userPass u none => bind (pctIf S normalize u) fun o => ret (o.map fun t => t ++ ['@'])
  | .userPass u (some p) =>
    obind (pctIf S normalize u) fun t =>
      bind (pctIf S normalize p) fun o => ret (o.map fun q => t ++ (':' :: (q ++ ['@'])))

/-- Host part of `AuthorityBuilder::fmt_write_to`, `src/build.rs` 214-227. -/
def hostWrite (S : Spec) (normalize : Bool) : HostRepr → T (Option Str)
  | .string h => if normalize then normalize_host_port S h else ret (some h)
  | .ipv4 a b c d => ret (some (ipv4Display a.toNat b.toNat c.toNat d.toNat))
  | .ipv6 a => ret (some ('[' :: (a.display ++ [']'])))

/-- `AuthorityBuilder::fmt_write_to`, `src/build.rs` 185-241. -/
def authorityWrite (S : Spec) (normalize : Bool) (a : AuthorityBuilder) : T (Option Str) :=
  obind (userinfoWrite S normalize a.userinfo) fun u =>
    bind (hostWrite S normalize a.host) fun o => ret (o.map fun h => u ++ (h ++ a.port.write normalize))

/-- Path part of `Builder::fmt_write_to`, `src/build.rs` 376-393. -/
def builderWritePath (S : Spec) (b : Builder) (path_is_absolute : Bool) : T (Option Str) :=
  if !b.normalize then ret (some b.path)
  else if b.scheme.isSome || b.authority.isSome || path_is_absolute then
    fmt_write_normalize S .default b.authority.isSome (PathToNormalize.from_single_path b.path)
  else pct_case_normalized S b.path

/-- The scheme part of `Builder::fmt_write_to`, `src/build.rs` 357-364. -/
def schemeWrite (normalize : Bool) : Option Str → T Str
  | none => ret []
  | some s => if normalize then bind (normalize_scheme s) fun t => ret (t ++ [':']) else ret (s ++ [':'])

/-- The authority part of `Builder::fmt_write_to`, `src/build.rs` 366-369. -/
def authorityOptWrite (S : Spec) (normalize : Bool) : Option AuthorityBuilder → T (Option Str)
  | none => ret (some [])
  | some a => bind (authorityWrite S normalize a) fun o => ret (o.map fun t => '/' :: '/' :: t)

/-- `Builder::fmt_write_to`, `src/build.rs` 356-414: what normalization looks at. -/
def builderWrite (S : Spec) (b : Builder) (path_is_absolute : Bool) : T (Option Str) :=
  bind (schemeWrite b.normalize b.scheme) fun scheme =>
    obind (authorityOptWrite S b.normalize b.authority) fun authority =>
      obind (builderWritePath S b path_is_absolute) fun path =>
        obind (writeOpt ['?'] (pctIf S b.normalize) b.query) fun query =>
          bind (writeOpt ['#'] (pctIf S b.normalize) b.fragment) fun o =>
            ret (o.map fun fragment => scheme ++ (authority ++ (path ++ (query ++ fragment))))

/-- `Display` of `Built`, `src/build.rs` 1151-1195: also what is written. -/
def builtDisplay (S : Spec) (b : Built) : T (Option Str) :=
  bind (builderWrite S b.builder b.path_is_absolute) fun o => (o, o.elim 0 blen)

/-- `prior_byte2`, `src/parser/str.rs` 30-43: the bytes up to the needle. -/
def prior_byte2 (n1 n2 : Char) : Str → T (Option Char)
  | [] => ret none
  | c :: r =>
    if c == n1 || c == n2 then (some c, c.utf8Size)
    else ((prior_byte2 n1 n2 r).1, c.utf8Size + (prior_byte2 n1 n2 r).2)

/-- Userinfo checks of `validate_builder_for_iri_reference`, `src/build.rs` 1280-1299. -/
def userinfoOk (S : Spec) : UserinfoRepr → T Bool
  | .absent => ret true
  | .direct u => validate_userinfo S u
  | .userPass user none => and (all (fun c => c != ':') user) (validate_userinfo S user)
  | .userPass user (some p) =>
    and (and (all (fun c => c != ':') user) (validate_userinfo S user)) (validate_userinfo S p)

/-- Host check, `src/build.rs` 1301-1305. -/
def hostOk (S : Spec) : HostRepr → T Bool
  | .string s => validate_host S s
  | .ipv4 .. => ret true
  | .ipv6 _ => ret true

/-- Port check, `src/build.rs` 1307-1311. -/
def portOk : PortRepr → T Bool
  | .empty => ret true
  | .integer _ => ret true
  | .string s => all isDigit s

/-- Authority checks, `src/build.rs` 1279-1312. -/
def authorityOk (S : Spec) (a : AuthorityBuilder) : T Bool :=
  and (and (userinfoOk S a.userinfo) (hostOk S a.host)) (portOk a.port)

/-- `from_path_to_display`, `src/normalize/path.rs` 515-591, with the simplification of the header. -/
def from_path_to_display (S : Spec) (p : PathToNormalize) (auth : Bool) : T (Option PathCharacteristic) :=
  obind (fmt_write_normalize S .default auth p) fun t => (PathCharacteristic.ofChunks [t], 2 * blen t + 1)

/-- Path checks, `src/build.rs` 1314-1361. -/
def pathCheck (S : Spec) (b : Builder) : T (Option (Bool × Bool)) :=
  bind (starts_with b.path ['/']) fun abs =>
    if b.normalize then
      if b.scheme.isSome || b.authority.isSome || abs then
        bind (from_path_to_display S (PathToNormalize.from_single_path b.path) b.authority.isSome) fun o =>
          ret (o.map fun ch =>
            ((if b.authority.isSome then b.path.isEmpty || abs else true) && (match ch with
              | .commonAbsolute | .commonRelative => true
              | .startsWithDoubleSlash | .relativeFirstSegmentHasColon =>
                b.scheme.isSome || b.authority.isSome), ch.is_absolute))
      else bind (prior_byte2 '/' ':' b.path) fun o => ret (some (o != some ':', false))
    else if b.authority.isSome then ret (some (abs || b.path.isEmpty, abs))
    else if b.scheme.isSome || abs then bind (starts_with b.path ['/', '/']) fun d => ret (some (!d, abs))
    else bind (prior_byte2 '/' ':' b.path) fun o => ret (some (o != some ':', abs))

/-- `if let Some(x) = o { check(x)? }`, as in `src/build.rs` 1275-1277. -/
def optOk {α : Type} (check : α → T Bool) : Option α → T Bool
  | none => ret true
  | some x => check x

/-- `validate_builder_for_iri_reference`, `src/build.rs` 1274-1375. -/
def builderValidate (S : Spec) (b : Builder) : T (Option (Option Bool)) :=
  bind (and (optOk validate_scheme b.scheme) (optOk (authorityOk S) b.authority)) fun ok =>
    if !ok then ret (some none)
    else
      obind (pathCheck S b) fun x =>
        if !x.1 then ret (some none)
        else
          bind (and (optOk (validate_query S) b.query) (optOk (validate_fragment S) b.fragment)) fun ok =>
            ret (some (if ok then some x.2 else none))

/-- `Builder::build::<T>()`, `src/build.rs` 447-452, 1207-1269. -/
def build (S : Spec) (k : IriKind) (b : Builder) : T (Option (Option Built)) :=
  if !b.kindOk k then ret (some none)
  else bind (builderValidate S b) fun o => ret (o.map fun r => r.map fun path_is_absolute => ⟨b, path_is_absolute⟩)

end Verif.Work
