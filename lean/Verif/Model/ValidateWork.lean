import Verif.Model.Validate

/-!
# The validators with a counter of the bytes they look at

The functions of `Model/Validate.lean` and the searches of `Model/Str.lean`, returning also the number of
bytes that the searches and the character tests look at (with repetition, if a byte is looked at several
times).  A character is counted with all its bytes.  `str::len`, slicing and comparing an option cost nothing.
That the results are those of the functions without a counter is theorem `C85_same`.
-/

namespace Verif.Work

/-- A result and the number of bytes looked at. -/
abbrev T (α : Type) := α × Nat

/-- One computation after another. -/
def bind {α β : Type} (x : T α) (f : α → T β) : T β := ((f x.1).1, x.2 + (f x.1).2)

/-- No cost. -/
def ret {α : Type} (a : α) : T α := (a, 0)

/-- `a && b`, where `b` is looked at only if `a` holds (`?` after a validator, or `&&`). -/
def and (x y : T Bool) : T Bool := (x.1 && y.1, x.2 + if x.1 then y.2 else 0)

/-- `bytes().all(p)`. -/
def all (p : Char → Bool) : Str → T Bool
  | [] => (true, 0)
  | c :: r => if p c then ((all p r).1, c.utf8Size + (all p r).2) else (false, c.utf8Size)

/-- `findSplitP`: bytes from the start up to the needle. -/
def findSplitP (p : Char → Bool) : Str → T (Option (Str × Str))
  | [] => (none, 0)
  | c :: r =>
    if p c then (some ([], c :: r), c.utf8Size)
    else ((findSplitP p r).1.map fun x => (c :: x.1, x.2), c.utf8Size + (findSplitP p r).2)

/-- `findSplitHoleP`: bytes from the start up to the needle. -/
def findSplitHoleP (p : Char → Bool) : Str → T (Option (Str × Char × Str))
  | [] => (none, 0)
  | c :: r =>
    if p c then (some ([], c, r), c.utf8Size)
    else ((findSplitHoleP p r).1.map fun x => (c :: x.1, x.2), c.utf8Size + (findSplitHoleP p r).2)

/-- `rfindSplitHoleP`: bytes from the end down to the needle. -/
def rfindSplitHoleP (p : Char → Bool) : Str → T (Option (Str × Char × Str))
  | [] => (none, 0)
  | c :: r =>
    match rfindSplitHoleP p r with
    | (some x, n) => (some (c :: x.1, x.2), n)
    | (none, n) => (if p c then some ([], c, r) else none, n + c.utf8Size)

/-- `find_split`, `src/parser/str.rs` 64-71. -/
def find_split (s : Str) (n : Char) : T (Option (Str × Str)) := findSplitP (· == n) s

/-- `find_split_hole`, `src/parser/str.rs` 161-176. -/
def find_split_hole (s : Str) (n : Char) : T (Option (Str × Str)) :=
  bind (findSplitHoleP (· == n) s) fun o => ret (o.map fun x => (x.1, x.2.2))

/-- `find_split2_hole`, `src/parser/str.rs` 199-217. -/
def find_split2_hole (s : Str) (n1 n2 : Char) : T (Option (Str × Char × Str)) :=
  findSplitHoleP (fun c => c == n1 || c == n2) s

/-- `rfind_split_hole`, `src/parser/str.rs` 293-298. -/
def rfind_split_hole (s : Str) (n : Char) : T (Option (Str × Str)) :=
  bind (rfindSplitHoleP (· == n) s) fun o => ret (o.map fun x => (x.1, x.2.2))

/-- `satisfy_chars_with_pct_encoded`, `src/parser/str.rs` 305-335. -/
def satisfy (pa pn : Char → Bool) : Str → T Bool
  | [] => (true, 0)
  | c :: r =>
    if isAscii c then
      if c == '%' then
        match r with
        | h :: l :: r' =>
          (isHex h && isHex l && (satisfy pa pn r').1,
            c.utf8Size + h.utf8Size + (if isHex h then l.utf8Size +
              (if isHex l then (satisfy pa pn r').2 else 0) else 0))
        | [h] => (false, c.utf8Size + h.utf8Size)
        | [] => (false, c.utf8Size)
      else and (pa c, c.utf8Size) (satisfy pa pn r)
    else and (pn c, c.utf8Size) (satisfy pa pn r)

/-- `get_wrapped_inner`, `src/parser/str.rs` 14-24: the first and the last byte. -/
def get_wrapped_inner (s : Str) (op cl : Char) : T (Option Str) := (Verif.get_wrapped_inner s op cl, min 2 (blen s))

/-- `strip_ascii_char_prefix`, `src/parser/str.rs` 366-373: the first byte. -/
def strip_ascii_char_prefix (s : Str) (p : Char) : T (Option Str) :=
  (Verif.strip_ascii_char_prefix s p, min 1 (blen s))

/-- `str::strip_prefix`: at most the length of the prefix. -/
def strip_prefix (s p : Str) : T (Option Str) := (Verif.strip_prefix s p, min (blen p) (blen s))

/-- `str::starts_with`: at most the length of the prefix. -/
def starts_with (s p : Str) : T Bool := (Verif.starts_with s p, min (blen p) (blen s))

/-- `validate_scheme`, `src/parser/validate.rs` 23-35. -/
def validate_scheme (i : Str) : T Bool :=
  match i with
  | [] => (false, 0)
  | c :: r => and (isAlpha c, c.utf8Size) (all (fun b => isAscii b && is_ascii_scheme_continue b) r)

/-- `validate_query`, `src/parser/validate.rs` 38-46. -/
def validate_query (S : Spec) (i : Str) : T Bool := satisfy is_ascii_frag_query (is_nonascii_query S) i

/-- `validate_fragment`, `src/parser/validate.rs` 214-225. -/
def validate_fragment (S : Spec) (i : Str) : T Bool := satisfy is_ascii_frag_query (is_nonascii_fragment S) i

/-- `validate_userinfo`, `src/parser/validate/authority.rs` 15-26. -/
def validate_userinfo (S : Spec) (i : Str) : T Bool :=
  satisfy is_ascii_userinfo_ipvfutureaddr (is_nonascii_userinfo S) i

/-- `is_dec_octet`, `src/parser/validate/authority.rs` 32-41: at most three bytes. -/
def is_dec_octet (i : Str) : T Bool := (Verif.is_dec_octet i, min 3 (blen i))

/-- `validate_ipv4address`, `src/parser/validate/authority.rs` 44-65. -/
def validate_ipv4address (i : Str) : T Bool :=
  bind (find_split_hole i '.') fun
  | none => ret false
  | some (first, rest) =>
    and (is_dec_octet first) <| bind (find_split_hole rest '.') fun
    | none => ret false
    | some (second, rest) =>
      and (is_dec_octet second) <| bind (find_split_hole rest '.') fun
      | none => ret false
      | some (third, fourth) => and (is_dec_octet third) (is_dec_octet fourth)

/-- `split_v6_addr_part`, `src/parser/validate/authority.rs` 83-121. -/
def split_v6_addr_part (i : Str) : T (Option (Str × V6AddrPart)) :=
  bind (find_split_hole i ':') fun
  | some (pre, rest) =>
    if 5 ≤ blen pre then ret none
    else if pre.isEmpty then
      bind (strip_ascii_char_prefix rest ':') fun
      | some rest => ret (some (rest, .Omit))
      | none => ret none
    else
      bind (all isHex pre) fun
      | false => ret none
      | true =>
        bind (strip_ascii_char_prefix rest ':') fun
        | some rest => ret (some (rest, .H16Omit))
        | none => ret (some (rest, .H16Cont))
  | none =>
    if 5 ≤ blen i then
      bind (validate_ipv4address i) fun
      | true => ret (some ([], .V4))
      | false => ret none
    else
      bind (all isHex i) fun
      | true => ret (some ([], .H16End))
      | false => ret none

/-- The loop of `validate_ipv6address`, `src/parser/validate/authority.rs` 124-174. -/
def v6_loop : Nat → Str → Nat → Bool → T Bool
  | 0, i, h16_count, is_omitted => ret (i.isEmpty && v6_final h16_count is_omitted)
  | fuel + 1, i, h16_count, is_omitted =>
    if i.isEmpty then ret (v6_final h16_count is_omitted)
    else
      bind (split_v6_addr_part i) fun
      | none => ret false
      | some (rest, .H16Omit) =>
        if is_omitted then ret false
        else if 8 < h16_count + 1 then ret false
        else v6_loop fuel rest (h16_count + 1) true
      | some (rest, .H16Cont) =>
        if rest.isEmpty then ret false
        else if 8 < h16_count + 1 then ret false
        else v6_loop fuel rest (h16_count + 1) is_omitted
      | some (_, .H16End) => ret (v6_final (h16_count + 1) is_omitted)
      | some (_, .V4) => ret (v6_final (h16_count + 2) is_omitted)
      | some (rest, .Omit) =>
        if is_omitted then ret false
        else if 8 < h16_count then ret false
        else v6_loop fuel rest h16_count true

/-- `validate_ipv6address`, `src/parser/validate/authority.rs` 124-174. -/
def validate_ipv6address (i : Str) : T Bool := v6_loop i.length i 0 false

/-- `validate_host`, `src/parser/validate/authority.rs` 203-249. -/
def validate_host (S : Spec) (i : Str) : T Bool :=
  bind (get_wrapped_inner i '[' ']') fun
  | some maybe_addr =>
    bind (strip_ascii_char_prefix maybe_addr 'v') fun x =>
      bind (if x.isSome then ret none else strip_ascii_char_prefix maybe_addr 'V') fun y =>
        match x.or y with
        | some maybe_addr_rest =>
          bind (find_split_hole maybe_addr_rest '.') fun
          | none => ret false
          | some (maybe_ver, maybe_addr) =>
            if maybe_ver.isEmpty then ret false
            else and (all isHex maybe_ver) <|
              if maybe_addr.isEmpty then ret false
              else and (all isAscii maybe_addr) (all is_ascii_userinfo_ipvfutureaddr maybe_addr)
        | none => validate_ipv6address maybe_addr
  | none => satisfy is_ascii_regname (is_nonascii_regname S) i

/-- The part of `validate_authority` after the user information, `src/parser/validate/authority.rs` 186-199. -/
def hostPort (S : Spec) (i : Str) : T Bool :=
  bind (rfind_split_hole i ':') fun
  | some (maybe_host, maybe_port) =>
    bind (all isDigit maybe_port) fun b =>
      if b then validate_host S maybe_host else validate_host S i
  | none => validate_host S i

/-- `validate_authority`, `src/parser/validate/authority.rs` 177-200. -/
def validate_authority (S : Spec) (i : Str) : T Bool :=
  bind (find_split_hole i '@') fun
  | some (maybe_userinfo, i) => and (validate_userinfo S maybe_userinfo) (hostPort S i)
  | none => hostPort S i

/-- `validate_path_abempty`, `src/parser/validate/path.rs` 9-27. -/
def validate_path_abempty (S : Spec) (i : Str) : T Bool :=
  if i.isEmpty then ret true
  else
    bind (strip_prefix i ['/']) fun
    | some rest => satisfy is_ascii_pchar_slash S.is_nonascii_char_unreserved rest
    | none => ret false

/-- A validator whose result is wrapped. -/
def wrap (x : T Bool) : T (Option Bool) := (some x.1, x.2)

/-- `validate_path_absolute_authority_absent`, `src/parser/validate/path.rs` 31-49. -/
def validate_path_absolute_authority_absent (S : Spec) (i : Str) : T (Option Bool) :=
  if i.isEmpty then ret (some true)
  else
    bind (starts_with i ['/', '/']) fun b =>
      if b then ret none else wrap (satisfy is_ascii_pchar_slash S.is_nonascii_char_unreserved i)

/-- `validate_path_relative_authority_absent`, `src/parser/validate/path.rs` 53-74. -/
def validate_path_relative_authority_absent (S : Spec) (i : Str) : T (Option Bool) :=
  bind (starts_with i ['/', '/']) fun b =>
    if b then ret none
    else
      bind (find_split2_hole i '/' ':') fun
      | some (_, c, _) =>
        if c == '/' then wrap (satisfy is_ascii_pchar_slash S.is_nonascii_char_unreserved i)
        else ret (some false)
      | none => wrap (satisfy is_ascii_pchar_slash S.is_nonascii_char_unreserved i)

/-- `validate_authority_path_abempty`, `src/parser/validate.rs` 49-56. -/
def validate_authority_path_abempty (S : Spec) (i : Str) : T Bool :=
  bind (find_split i '/') fun o =>
    and (validate_authority S (o.getD (i, [])).1) (validate_path_abempty S (o.getD (i, [])).2)

/-- The search for the query and the fragment in `validate_after_path`, `src/parser/validate.rs` 201-204. -/
def splitQuery (first : Char) (rest : Str) : T (Str × Str) :=
  if first == '?' then bind (find_split_hole rest '#') fun o => ret (o.getD (rest, []))
  else ret ([], rest)

/-- `validate_after_path`, `src/parser/validate.rs` 196-211. -/
def validate_after_path (S : Spec) (first : Char) (rest : Str) (accept_fragment : Bool) : T Bool :=
  bind (splitQuery first rest) fun x =>
    and (validate_query S x.1)
      (if !accept_fragment && !x.2.isEmpty then ret false else validate_fragment S x.2)

/-- The search for the end of the path, `src/parser/validate.rs` 141-144, 151-154, 171-174, 180-183. -/
def splitPath (i : Str) : T (Str × Option (Char × Str)) :=
  bind (find_split2_hole i '?' '#') fun
  | some (p, c, rest) => ret (p, some (c, rest))
  | none => ret (i, none)

/-- `validate_after_path` if there is something after the path, `src/parser/validate.rs` 159-161, 189-191. -/
def after (S : Spec) (accept_fragment : Bool) : Option (Char × Str) → T Bool
  | some (first, rest) => validate_after_path S first rest accept_fragment
  | none => ret true

/-- The shared tail of `validate_uri_reference_common` and `validate_relative_ref`,
`src/parser/validate.rs` 138-162, 167-192. -/
def validate_hier (S : Spec) (pathv : Str → T (Option Bool)) (accept_fragment : Bool) (i : Str) :
    T (Option Bool) :=
  bind (strip_prefix i ['/', '/']) fun
  | some i =>
    bind (splitPath i) fun x =>
      wrap (and (validate_authority_path_abempty S x.1) (after S accept_fragment x.2))
  | none =>
    bind (splitPath i) fun x =>
      bind (pathv x.1) fun
      | none => ret none
      | some b => wrap (and (ret b) (after S accept_fragment x.2))

/-- `validate_relative_ref`, `src/parser/validate.rs` 166-193. -/
def validate_relative_ref (S : Spec) (i : Str) : T (Option Bool) :=
  validate_hier S (validate_path_relative_authority_absent S) true i

/-- `validate_uri_reference_common`, `src/parser/validate.rs` 111-163. -/
def validate_uri_reference_common (S : Spec) (i : Str) (rule : UriReferenceRule) : T (Option Bool) :=
  bind (find_split_hole i ':') fun
  | none => if rule.is_relative_allowed then validate_relative_ref S i else ret (some false)
  | some (maybe_scheme, rest) =>
    bind (validate_scheme maybe_scheme) fun b =>
      if !b then
        if rule.is_relative_allowed then validate_relative_ref S i else ret (some false)
      else validate_hier S (validate_path_absolute_authority_absent S) rule.is_fragment_allowed rest

/-- `validate_uri`, `src/parser/validate.rs` 60-62. -/
def validate_uri (S : Spec) (i : Str) : T (Option Bool) := validate_uri_reference_common S i .Absolute

/-- `validate_uri_reference`, `src/parser/validate.rs` 66-68. -/
def validate_uri_reference (S : Spec) (i : Str) : T (Option Bool) := validate_uri_reference_common S i .Any

/-- `validate_absolute_uri`, `src/parser/validate.rs` 72-74. -/
def validate_absolute_uri (S : Spec) (i : Str) : T (Option Bool) :=
  validate_uri_reference_common S i .AbsoluteWithoutFragment

end Verif.Work
