import Verif.Model.Normalize
import Verif.Model.Edit

/-!
# `src/build.rs`, and `PathCharacteristic` of `src/normalize/path.rs`

`Option` results: an outer `none` is a panic.  `build` returns `Result<Built, Error>`; only whether
it is `Ok` is modelled, not the kind of the error.
-/

namespace Verif

/-! ## Standard library -/

/-- Decimal digits of a number (`Display` of `u8`/`u16`; the standard library). -/
def decimal (n : Nat) : Str := Nat.toDigits 10 n

/-- Lower-case hexadecimal digits of a number (`{:x}` of `u16`; the standard library). -/
def lowerHex (n : Nat) : Str := Nat.toDigits 16 n

/-- `std::net::Ipv6Addr`: eight 16-bit segments. -/
structure Ipv6Addr where
  segments : List UInt16
  len : segments.length = 8
  deriving DecidableEq, Repr

/-- Segments joined by colons (`fmt_subslice` of the standard library). -/
def v6Subslice : List UInt16 → Str
  | [] => []
  | [g] => lowerHex g.toNat
  | g :: r => lowerHex g.toNat ++ ':' :: v6Subslice r

/-- The longest run of zero segments, the first of those (standard library): the loop, with the
index of the current segment, the current run and the longest one, as (start, length). -/
def v6Zeroes : List UInt16 → Nat → Nat × Nat → Nat × Nat → Nat × Nat
  | [], _, _, longest => longest
  | g :: r, i, current, longest =>
    if g == 0 then
      let current := (if current.2 = 0 then i else current.1, current.2 + 1)
      v6Zeroes r (i + 1) current (if longest.2 < current.2 then current else longest)
    else v6Zeroes r (i + 1) (0, 0) longest

/-- `Display` of `std::net::Ipv4Addr`. -/
def ipv4Display (a b c d : Nat) : Str :=
  decimal a ++ '.' :: (decimal b ++ '.' :: (decimal c ++ '.' :: decimal d))

/-- `Display` of `std::net::Ipv6Addr` (without width or precision): IPv4-mapped addresses in dotted
notation, otherwise the longest run of at least two zero segments is abbreviated. -/
def Ipv6Addr.display (a : Ipv6Addr) : Str :=
  match a.segments with
  | [0, 0, 0, 0, 0, 0xffff, g, h] =>
    [':', ':', 'f', 'f', 'f', 'f', ':'] ++
      ipv4Display (g.toNat / 256) (g.toNat % 256) (h.toNat / 256) (h.toNat % 256)
  | segs =>
    let z := v6Zeroes segs 0 (0, 0) (0, 0)
    if 1 < z.2 then
      v6Subslice (segs.take z.1) ++ (':' :: ':' :: v6Subslice (segs.drop (z.1 + z.2)))
    else v6Subslice segs

/-! ## `Builder` -/

/-- `PortBuilderRepr`, `src/build.rs` 70-82 (`From<u8>`, `From<u16>`, `From<&str>`,
`From<&String>`, 40-66, choose the constructor; `Default` is `empty`). -/
inductive PortRepr
  | empty
  | integer (n : UInt16)
  | string (s : Str)
  deriving DecidableEq, Repr

/-- `UserinfoRepr`, `src/build.rs` 161-170 (the `From` implementations, 129-158, choose the
constructor; `Default` is `absent`, called `None` in the code). -/
inductive UserinfoRepr
  | absent
  | direct (s : Str)
  | userPass (user : Str) (password : Option Str)
  deriving DecidableEq, Repr

/-- `HostRepr`, `src/build.rs` 245-259: a text, or an `IpAddr`. -/
inductive HostRepr
  | string (s : Str)
  | ipv4 (a b c d : UInt8)
  | ipv6 (a : Ipv6Addr)
  deriving DecidableEq, Repr

/-- `AuthorityBuilder`, `src/build.rs` 173-181; the default values are those of `Default`. -/
structure AuthorityBuilder where
  host : HostRepr := .string []
  port : PortRepr := .empty
  userinfo : UserinfoRepr := .absent
  deriving DecidableEq, Repr

/-- `Builder`, `src/build.rs` 307-321; the default values are those of `Default`/`new()`. -/
structure Builder where
  scheme : Option Str := none
  authority : Option AuthorityBuilder := none
  path : Str := []
  query : Option Str := none
  fragment : Option Str := none
  normalize : Bool := false
  deriving DecidableEq, Repr

/-- The public setters, `src/build.rs` 467-1017.  `port` and `userinfo` take the value after
`Into::into`, `host` and `ip_address` the `HostRepr`. -/
inductive BuilderOp
  | scheme (v : Str)
  | unset_scheme
  | path (v : Str)
  | unset_authority
  | userinfo (v : UserinfoRepr)
  | unset_userinfo
  | host (v : Str)
  | ip_address_v4 (a b c d : UInt8)
  | ip_address_v6 (a : Ipv6Addr)
  | port (v : PortRepr)
  | unset_port
  | query (v : Str)
  | unset_query
  | fragment (v : Str)
  | unset_fragment
  | unset_normalize
  | normalize
  deriving DecidableEq, Repr

/-- `authority_builder`, `src/build.rs` 543-545: the present authority builder or a new one. -/
def Builder.authority_builder (b : Builder) : AuthorityBuilder :=
  match b.authority with
  | some a => a
  | none => {}

/-- One call of a setter, `src/build.rs` 467-1017. -/
def Builder.set (b : Builder) : BuilderOp → Builder
  | .scheme v => { b with scheme := some v }
  | .unset_scheme => { b with scheme := none }
  | .path v => { b with path := v }
  | .unset_authority => { b with authority := none }
  | .userinfo v => { b with authority := some { b.authority_builder with userinfo := v } }
  | .unset_userinfo => { b with authority := some { b.authority_builder with userinfo := .absent } }
  | .host v => { b with authority := some { b.authority_builder with host := .string v } }
  | .ip_address_v4 w x y z =>
    { b with authority := some { b.authority_builder with host := .ipv4 w x y z } }
  | .ip_address_v6 a => { b with authority := some { b.authority_builder with host := .ipv6 a } }
  | .port v => { b with authority := some { b.authority_builder with port := v } }
  | .unset_port => { b with authority := some { b.authority_builder with port := .empty } }
  | .query v => { b with query := some v }
  | .unset_query => { b with query := none }
  | .fragment v => { b with fragment := some v }
  | .unset_fragment => { b with fragment := none }
  | .unset_normalize => { b with normalize := false }
  | .normalize => { b with normalize := true }

/-- A sequence of setter calls. -/
def Builder.run (b : Builder) (ops : List BuilderOp) : Builder := ops.foldl Builder.set b

/-! ## Output -/

/-- A text that is percent/case normalized or not. -/
def pctIf (S : Spec) (normalize : Bool) (s : Str) : Option Str :=
  if normalize then pct_case_normalized S s else some s

/-- Userinfo part of `AuthorityBuilder::fmt_write_to`, `src/build.rs` 186-212. -/
def UserinfoRepr.write (S : Spec) (normalize : Bool) : UserinfoRepr → Option Str
  | .absent => some []
  | .direct u => (pctIf S normalize u).map fun t => t ++ ['@']
  | .userPass u none => (pctIf S normalize u).map fun t => t ++ ['@']
  | .userPass u (some p) =>
    (pctIf S normalize u).bind fun t => (pctIf S normalize p).map fun q => t ++ (':' :: (q ++ ['@']))

/-- Host part of `AuthorityBuilder::fmt_write_to`, `src/build.rs` 214-227. -/
def HostRepr.write (S : Spec) (normalize : Bool) : HostRepr → Option Str
  | .string h => if normalize then normalize_host_port S h else some h
  | .ipv4 a b c d => some (ipv4Display a.toNat b.toNat c.toNat d.toNat)
  | .ipv6 a => some ('[' :: (a.display ++ [']']))

/-- Port part of `AuthorityBuilder::fmt_write_to`, `src/build.rs` 229-238. -/
def PortRepr.write (normalize : Bool) : PortRepr → Str
  | .empty => []
  | .integer n => ':' :: decimal n.toNat
  | .string s => if s.isEmpty && normalize then [] else ':' :: s

/-- `AuthorityBuilder::fmt_write_to`, `src/build.rs` 185-241. -/
def AuthorityBuilder.write (S : Spec) (normalize : Bool) (a : AuthorityBuilder) : Option Str :=
  (a.userinfo.write S normalize).bind fun u =>
    (a.host.write S normalize).map fun h => u ++ (h ++ a.port.write normalize)

/-- Path part of `Builder::fmt_write_to`, `src/build.rs` 376-393. -/
def Builder.writePath (S : Spec) (b : Builder) (path_is_absolute : Bool) : Option Str :=
  if !b.normalize then some b.path
  else if b.scheme.isSome || b.authority.isSome || path_is_absolute then
    (PathToNormalize.from_single_path b.path).fmt_write_normalize S .default b.authority.isSome
  else pct_case_normalized S b.path

/-- `Builder::fmt_write_to`, `src/build.rs` 356-414 (the text written). -/
def Builder.write (S : Spec) (b : Builder) (path_is_absolute : Bool) : Option Str := do
  let scheme := match b.scheme with
    | none => []
    | some s => (if b.normalize then normalize_scheme s else s) ++ [':']
  let authority? : Option Str := match b.authority with
    | none => some []
    | some a => (a.write S b.normalize).map fun t => '/' :: '/' :: t
  let authority ← authority?
  let path ← b.writePath S path_is_absolute
  let query ← writeOpt ['?'] (fun q => if b.normalize then normalize_query S q else some q) b.query
  let fragment ←
    writeOpt ['#'] (fun q => if b.normalize then normalize_fragment S q else some q) b.fragment
  some (scheme ++ (authority ++ (path ++ (query ++ fragment))))

/-! ## `PathCharacteristic` -/

/-- `PathCharacteristic`, `src/normalize/path.rs` 494-504. -/
inductive PathCharacteristic
  | commonAbsolute
  | commonRelative
  | relativeFirstSegmentHasColon
  | startsWithDoubleSlash
  deriving DecidableEq, Repr

/-- `is_absolute`, `src/normalize/path.rs` 510-512. -/
def PathCharacteristic.is_absolute : PathCharacteristic → Bool
  | .commonAbsolute | .startsWithDoubleSlash => true
  | .commonRelative | .relativeFirstSegmentHasColon => false

/-- The state of the local `Writer`, `src/normalize/path.rs` 522-527. -/
structure CharWriter where
  result : Option PathCharacteristic := none
  is_absolute : Option Bool := none
  deriving DecidableEq, Repr

/-- One pass of the loop of `write_str` on a non-empty `s` when `is_absolute` is known,
`src/normalize/path.rs` 548-577: the result if it is decided. -/
def CharWriter.decide (is_absolute : Bool) (s : Str) : Option PathCharacteristic :=
  if is_absolute then
    some (if starts_with s ['/'] then .startsWithDoubleSlash else .commonAbsolute)
  else
    match find_split_hole s '/' with
    | some (first_seg, _) =>
      some (if first_seg.contains ':' then .relativeFirstSegmentHasColon else .commonRelative)
    | none => if s.contains ':' then some .relativeFirstSegmentHasColon else none

/-- `write_str`, `src/normalize/path.rs` 529-580: new state, and whether it returned `Ok`. -/
def CharWriter.write_str (w : CharWriter) (s : Str) : CharWriter × Bool :=
  if w.result.isSome then (w, false)
  else if s.isEmpty then (w, true)
  else
    let (abs, rest) := match w.is_absolute with
      | some a => (a, s)
      | none =>
        match s with
        | '/' :: rest => (true, rest)
        | _ => (false, s)
    if rest.isEmpty then ({ w with is_absolute := some abs }, true)
    else
      match CharWriter.decide abs rest with
      | some r => ({ result := some r, is_absolute := some abs }, false)
      | none => ({ w with is_absolute := some abs }, true)

/-- Writing the text in chunks; the formatting stops at the first `Err`. -/
def CharWriter.writeChunks (w : CharWriter) : List Str → CharWriter × Bool
  | [] => (w, true)
  | s :: r =>
    match w.write_str s with
    | (w, true) => w.writeChunks r
    | (w, false) => (w, false)

/-- The end of `from_path_to_display`, `src/normalize/path.rs` 583-590, for a text written in
chunks; `none` is the `expect` panic. -/
def PathCharacteristic.ofChunks (chunks : List Str) : Option PathCharacteristic :=
  match CharWriter.writeChunks {} chunks with
  | (_, true) => some .commonRelative
  | (w, false) => w.result

/-- `from_path_to_display`, `src/normalize/path.rs` 515-591.  Simplification: the text is formatted
to the end and written in one chunk (`Props/Build.lean` shows that the chunks do not matter);
formatting further than the code does could only add a panic.  `fromPathToDisplayW`
(`Model/DisplayWriter.lean`) stops where the code stops, and `C28_build_exact` compares the two. -/
def PathCharacteristic.from_path_to_display (S : Spec) (p : PathToNormalize) (auth : Bool) :
    Option PathCharacteristic :=
  (p.fmt_write_normalize S .default auth).bind fun t => PathCharacteristic.ofChunks [t]

/-! ## Validation -/

/-- `prior_byte2`, `src/parser/str.rs` 30-43 (for ASCII needles: on characters). -/
def prior_byte2 (s : Str) (n1 n2 : Char) : Option Char := s.find? fun c => c == n1 || c == n2

/-- Userinfo checks of `validate_builder_for_iri_reference`, `src/build.rs` 1280-1299. -/
def UserinfoRepr.ok (S : Spec) : UserinfoRepr → Bool
  | .absent => true
  | .direct u => validate_userinfo S u
  | .userPass user password =>
    !user.contains ':' && validate_userinfo S user &&
      (match password with | none => true | some p => validate_userinfo S p)

/-- Host check, `src/build.rs` 1301-1305. -/
def HostRepr.ok (S : Spec) : HostRepr → Bool
  | .string s => validate_host S s
  | .ipv4 .. => true
  | .ipv6 _ => true

/-- Port check, `src/build.rs` 1307-1311. -/
def PortRepr.ok : PortRepr → Bool
  | .empty => true
  | .integer _ => true
  | .string s => s.all isDigit

/-- Authority checks, `src/build.rs` 1279-1312. -/
def AuthorityBuilder.ok (S : Spec) (a : AuthorityBuilder) : Bool :=
  a.userinfo.ok S && a.host.ok S && a.port.ok

/-- Path checks, `src/build.rs` 1314-1361: whether the path is acceptable, and
`path_is_absolute`; `none` is a panic. -/
def Builder.pathCheck (S : Spec) (b : Builder) : Option (Bool × Bool) :=
  if b.normalize then
    if b.scheme.isSome || b.authority.isSome || starts_with b.path ['/'] then
      let acceptable :=
        if b.authority.isSome then b.path.isEmpty || starts_with b.path ['/'] else true
      (PathCharacteristic.from_path_to_display S (PathToNormalize.from_single_path b.path)
        b.authority.isSome).map fun ch =>
        (acceptable && (match ch with
          | .commonAbsolute | .commonRelative => true
          | .startsWithDoubleSlash | .relativeFirstSegmentHasColon =>
            b.scheme.isSome || b.authority.isSome), ch.is_absolute)
    else some (prior_byte2 b.path '/' ':' != some ':', false)
  else
    let path_is_absolute := starts_with b.path ['/']
    let acceptable :=
      if b.authority.isSome then path_is_absolute || b.path.isEmpty
      else if b.scheme.isSome || path_is_absolute then !starts_with b.path ['/', '/']
      else prior_byte2 b.path '/' ':' != some ':'
    some (acceptable, path_is_absolute)

/-- `if let Some(x) = o { check(x)? }`. -/
def optOk {α : Type} (check : α → Bool) : Option α → Bool
  | none => true
  | some x => check x

/-- `validate_builder_for_iri_reference`, `src/build.rs` 1274-1375: outer `none` is a panic, inner
`none` an error, otherwise `path_is_absolute`. -/
def Builder.validate (S : Spec) (b : Builder) : Option (Option Bool) :=
  if !optOk validate_scheme b.scheme then some none
  else if !optOk (AuthorityBuilder.ok S) b.authority then some none
  else
    (b.pathCheck S).map fun (acceptable, path_is_absolute) =>
      if !acceptable then none
      else if !optOk (validate_query S) b.query then none
      else if !optOk (validate_fragment S) b.fragment then none
      else some path_is_absolute

/-- The additional checks of the four target types, `src/build.rs` 1207-1269. -/
def Builder.kindOk (b : Builder) : IriKind → Bool
  | .reference => true
  | .iri => b.scheme.isSome
  | .absolute => b.scheme.isSome && !b.fragment.isSome
  | .relative => !b.scheme.isSome

/-- `Built`, `src/build.rs` 1116-1123. -/
structure Built where
  builder : Builder
  path_is_absolute : Bool
  deriving DecidableEq, Repr

/-- `Builder::build::<T>()`, `src/build.rs` 447-452, 1207-1269: outer `none` is a panic, inner
`none` an error. -/
def Builder.build (S : Spec) (k : IriKind) (b : Builder) : Option (Option Built) :=
  if !b.kindOk k then some none
  else (b.validate S).map fun r => r.map fun path_is_absolute => ⟨b, path_is_absolute⟩

/-- `Display` of `Built` (and the conversions to owned strings), `src/build.rs` 1151-1195; `none`
is a panic. -/
def Built.display (S : Spec) (b : Built) : Option Str := b.builder.write S b.path_is_absolute

/-- `Built::ensure_rfc3986_normalizable`, `src/build.rs` 1142-1148: `some true` is `Ok(())`. -/
def Built.ensure_rfc3986_normalizable (b : Built) : Option Bool :=
  if b.builder.authority.isNone then
    (PathToNormalize.from_single_path b.builder.path).ensure_rfc3986_normalizable_with_authority_absent
  else some true

/-- The authority part of `From<&RiReferenceStr>`, `src/build.rs` 1023-1036; `none` is a panic. -/
def AuthorityBuilder.from_str (s : Str) : Option AuthorityBuilder := do
  let a := decompose_authority s
  let host ← a.host
  let port ← a.port
  let userinfo ← a.userinfo
  some {
    host := .string host
    port := match port with | none => .empty | some p => .string p
    userinfo := match userinfo with | none => .absent | some u => .direct u }

/-- `Builder::from(&iri)`, `src/build.rs` 1019-1099 (all four types go through the reference
type); `none` is a panic. -/
def Builder.from_iri (s : Str) : Option Builder := do
  let m ← components_to_major s
  let authority? : Option (Option AuthorityBuilder) := match m.authority with
    | none => some none
    | some a => (AuthorityBuilder.from_str a).map some
  let authority ← authority?
  some {
    scheme := m.scheme, authority, path := m.path, query := m.query, fragment := m.fragment,
    normalize := false }

end Verif
