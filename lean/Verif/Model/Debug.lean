import Verif.Model.Build
import Verif.Model.Edit

/-!
# `Debug` output and format options: `src/build.rs`, `src/mask_password.rs`

`none` is a panic.  The `Debug` output of a builder is modelled by the tree of the names and values
given to the formatter; how the standard library lays it out (`{:?}`, `{:#?}`, escapes) is a function
of that tree.
-/

namespace Verif

/-! ## `Debug` -/

/-- What is given to a formatter by `Debug`: a text (shown quoted and escaped), something without
structure (numbers, names), or a name with named or unnamed fields. -/
inductive Dbg
  | str (s : Str)
  | raw (s : Str)
  | node (name : Str) (fields : List (Str × Dbg))

/-- `Debug` of `Option`. -/
def Dbg.opt {α : Type} (f : α → Dbg) : Option α → Dbg
  | none => .raw ['N', 'o', 'n', 'e']
  | some a => .node ['S', 'o', 'm', 'e'] [([], f a)]

/-- `Debug` of `Censored`, `src/format.rs` 142-146. -/
def Dbg.censored : Dbg := .raw ['{', 'c', 'e', 'n', 's', 'o', 'r', 'e', 'd', '}']

/-- `UserinfoBuilder::to_user_password`, `src/build.rs` 119-129 (the second text keeps the colon if the
user information was given as one text). -/
def UserinfoRepr.to_user_password : UserinfoRepr → Option (Str × Option Str)
  | .absent => none
  | .direct s =>
    match find_split s ':' with
    | none => some (s, none)
    | some (user, password) => some (user, some password)
  | .userPass user password => some (user, password)

/-- `Debug` of `UserinfoBuilder`, `src/build.rs` 98-115. -/
def UserinfoRepr.debug (u : UserinfoRepr) : Dbg :=
  .node ['U', 's', 'e', 'r', 'i', 'n', 'f', 'o', 'B', 'u', 'i', 'l', 'd', 'e', 'r']
    (match u.to_user_password with
      | none => []
      | some (user, password) =>
        [(['u', 's', 'e', 'r'], .str user),
         (['p', 'a', 's', 's', 'w', 'o', 'r', 'd'],
          if password = none ∨ password = some [] then Dbg.opt .str password
          else Dbg.opt (fun _ => .censored) (some ()))])

/-- Derived `Debug` of `PortBuilder` and `PortBuilderRepr`, `src/build.rs` 30, 70. -/
def PortRepr.debug (p : PortRepr) : Dbg :=
  .node ['P', 'o', 'r', 't', 'B', 'u', 'i', 'l', 'd', 'e', 'r'] [([],
    match p with
    | .empty => .raw ['E', 'm', 'p', 't', 'y']
    | .integer n => .node ['I', 'n', 't', 'e', 'g', 'e', 'r'] [([], .raw (decimal n.toNat))]
    | .string s => .node ['S', 't', 'r', 'i', 'n', 'g'] [([], .str s)])]

/-- Derived `Debug` of `HostRepr`, `src/build.rs` 245 (`Debug` of addresses is their `Display`). -/
def HostRepr.debug : HostRepr → Dbg
  | .string s => .node ['S', 't', 'r', 'i', 'n', 'g'] [([], .str s)]
  | .ipv4 a b c d =>
    .node ['I', 'p', 'A', 'd', 'd', 'r'] [([], .raw (ipv4Display a.toNat b.toNat c.toNat d.toNat))]
  | .ipv6 a => .node ['I', 'p', 'A', 'd', 'd', 'r'] [([], .raw a.display)]

/-- Derived `Debug` of `AuthorityBuilder`, `src/build.rs` 173. -/
def AuthorityBuilder.debug (a : AuthorityBuilder) : Dbg :=
  .node ['A', 'u', 't', 'h', 'o', 'r', 'i', 't', 'y', 'B', 'u', 'i', 'l', 'd', 'e', 'r']
    [(['h', 'o', 's', 't'], a.host.debug), (['p', 'o', 'r', 't'], a.port.debug),
     (['u', 's', 'e', 'r', 'i', 'n', 'f', 'o'], a.userinfo.debug)]

/-- Derived `Debug` of `bool`. -/
def Dbg.bool (b : Bool) : Dbg := .raw (if b then ['t', 'r', 'u', 'e'] else ['f', 'a', 'l', 's', 'e'])

/-- Derived `Debug` of `Builder`, `src/build.rs` 307. -/
def Builder.debug (b : Builder) : Dbg :=
  .node ['B', 'u', 'i', 'l', 'd', 'e', 'r']
    [(['s', 'c', 'h', 'e', 'm', 'e'], Dbg.opt .str b.scheme),
     (['a', 'u', 't', 'h', 'o', 'r', 'i', 't', 'y'], Dbg.opt AuthorityBuilder.debug b.authority),
     (['p', 'a', 't', 'h'], .str b.path),
     (['q', 'u', 'e', 'r', 'y'], Dbg.opt .str b.query),
     (['f', 'r', 'a', 'g', 'm', 'e', 'n', 't'], Dbg.opt .str b.fragment),
     (['n', 'o', 'r', 'm', 'a', 'l', 'i', 'z', 'e'], .bool b.normalize)]

/-- Derived `Debug` of `Built`, `src/build.rs` 1115 (the field of type `PhantomData` is the same for
all values of a type). -/
def Built.debug (b : Built) : Dbg :=
  .node ['B', 'u', 'i', 'l', 't']
    [(['b', 'u', 'i', 'l', 'd', 'e', 'r'], b.builder.debug),
     (['p', 'a', 't', 'h', '_', 'i', 's', '_', 'a', 'b', 's', 'o', 'l', 'u', 't', 'e'],
      .bool b.path_is_absolute)]

/-! ## Format options -/

/-- `core::fmt::Alignment`. -/
inductive Align
  | left
  | center
  | right
  deriving DecidableEq, Repr

/-- The options of a `Formatter` that `Formatter::pad` looks at, such as those of `{:*<10.3}`. -/
structure FmtOpts where
  fill : Char := ' '
  align : Option Align := none
  width : Option Nat := none
  precision : Option Nat := none
  deriving DecidableEq, Repr

/-- `Formatter::pad` (standard library): at most `precision` characters of the text, filled up to
`width` characters. -/
def FmtOpts.pad (o : FmtOpts) (s : Str) : Str :=
  let s := match o.precision with
    | none => s
    | some n => s.take n
  let n := o.width.getD 0 - s.length
  match o.align with
  | none | some .left => s ++ List.replicate n o.fill
  | some .right => List.replicate n o.fill ++ s
  | some .center => List.replicate (n / 2) o.fill ++ (s ++ List.replicate (n - n / 2) o.fill)

/-- Userinfo part of `AuthorityBuilder::fmt_write_to`, `src/build.rs` 186-212, with format options:
`userinfo.fmt(f)` and `password.fmt(f)` are `Display` of `str`, which is `Formatter::pad`; `write_str`
and `PctCaseNormalized` do not look at the options. -/
def UserinfoRepr.writeOpts (S : Spec) (o : FmtOpts) (normalize : Bool) : UserinfoRepr → Option Str
  | .absent => some []
  | .direct u => (if normalize then pct_case_normalized S u else some (o.pad u)).map fun t => t ++ ['@']
  | .userPass u none => (pctIf S normalize u).map fun t => t ++ ['@']
  | .userPass u (some p) =>
    (pctIf S normalize u).bind fun t =>
      (if normalize then pct_case_normalized S p else some (o.pad p)).map fun q =>
        t ++ (':' :: (q ++ ['@']))

/-- Host part, `src/build.rs` 214-227: `Display` of `Ipv4Addr` pads; `write!(f, "[{v}]")` and the
others do not. -/
def HostRepr.writeOpts (S : Spec) (o : FmtOpts) (normalize : Bool) : HostRepr → Option Str
  | .string h => if normalize then normalize_host_port S h else some h
  | .ipv4 a b c d => some (o.pad (ipv4Display a.toNat b.toNat c.toNat d.toNat))
  | .ipv6 a => some ('[' :: (a.display ++ [']']))

/-- `AuthorityBuilder::fmt_write_to`, `src/build.rs` 185-241, with format options. -/
def AuthorityBuilder.writeOpts (S : Spec) (o : FmtOpts) (normalize : Bool) (a : AuthorityBuilder) :
    Option Str :=
  (a.userinfo.writeOpts S o normalize).bind fun u =>
    (a.host.writeOpts S o normalize).map fun h => u ++ (h ++ a.port.write normalize)

/-- `Builder::fmt_write_to`, `src/build.rs` 356-414, with format options. -/
def Builder.writeOpts (S : Spec) (o : FmtOpts) (b : Builder) (path_is_absolute : Bool) :
    Option Str := do
  let scheme := match b.scheme with
    | none => []
    | some s => (if b.normalize then normalize_scheme s else s) ++ [':']
  let authority? : Option Str := match b.authority with
    | none => some []
    | some a => (a.writeOpts S o b.normalize).map fun t => '/' :: '/' :: t
  let authority ← authority?
  let path ← b.writePath S path_is_absolute
  let query ← writeOpt ['?'] (fun q => if b.normalize then normalize_query S q else some q) b.query
  let fragment ←
    writeOpt ['#'] (fun q => if b.normalize then normalize_fragment S q else some q) b.fragment
  some (scheme ++ (authority ++ (path ++ (query ++ fragment))))

/-- `format!` of a `Built` with options, `src/build.rs` 1151-1156. -/
def Built.displayOpts (S : Spec) (o : FmtOpts) (b : Built) : Option Str :=
  b.builder.writeOpts S o b.path_is_absolute

/-- `format!` of `mask_password()` with options, `src/mask_password.rs` 42-65, 180-189: `"".fmt(f)` is
`Formatter::pad`; the string types do not look at the options. -/
def mask_password_opts (s : Str) (o : FmtOpts) : Option Str := do
  match ← password_range_to_hide s with
  | some (st, e) => write_with_masked_password s st e (o.pad [])
  | none => some s

/-- `format!` with options of `mask_password().replace_password_with(replace)`,
`src/mask_password.rs` 42-60, 262-273, 279-288: `alt.fmt(f)`, the options reach the replacement. -/
def replace_password_opts (s : Str) (o : FmtOpts) (replace : Str → FmtOpts → Str) : Option Str := do
  match ← password_range_to_hide s with
  | some (st, e) => do
    let pw ← slice s st e
    write_with_masked_password s st e (replace pw o)
  | none => some s

/-- `Debug` of `PasswordMasked`, `src/mask_password.rs` 191-195. -/
def mask_password_debug (s : Str) (o : FmtOpts) : Option Str :=
  (mask_password_opts s o).map fun t => '<' :: (t ++ ['>'])

/-- `Debug` of `PasswordReplaced`, `src/mask_password.rs` 290-295. -/
def replace_password_debug (s : Str) (o : FmtOpts) (replace : Str → FmtOpts → Str) : Option Str :=
  (replace_password_opts s o replace).map fun t => '<' :: (t ++ ['>'])

end Verif
