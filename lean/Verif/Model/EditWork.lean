import Verif.Model.AccessWork
import Verif.Model.Edit

/-!
# Editing in place with a counter of the bytes looked at and moved

The functions of `Model/Edit.lean` and `src/raw.rs` with the counter of `Model/ValidateWork.lean`, on top of
`Model/AccessWork.lean`.  Counted are the bytes that searches and tests look at, the bytes written to the output, and the
bytes that an edit in place inserts or moves.  Not counted: a reallocation of the buffer (which copies it once), and what
the caller's closure does in `replace_password_with`.  The search for `"//"` counts up to two bytes at each position it
tries.  That the results are those of the functions without a counter is theorem `C94_same`.
-/

namespace Verif.Work

/-- A computation that can panic, and what comes after it if it does not. -/
def obind {α β : Type} (x : T (Option α)) (f : α → T (Option β)) : T (Option β) :=
  bind x fun
  | none => ret none
  | some a => f a

/-- `str::find(&str)`, as in `src/mask_password.rs` 29: at each position at most the length of the pattern. -/
def findStr (s pat : Str) : T (Option Nat) :=
  bind (starts_with s pat) fun b =>
    if b then ret (some 0)
    else
      match s with
      | [] => ret none
      | c :: r => bind (findStr r pat) fun o => ret (o.map (· + c.utf8Size))

/-- `str::find(char)`, as in `src/mask_password.rs` 35: the bytes up to the character. -/
def findChar (d : Char) : Str → T (Option Nat)
  | [] => ret none
  | c :: r =>
    if c == d then (some 0, c.utf8Size)
    else ((findChar d r).1.map (· + c.utf8Size), c.utf8Size + (findChar d r).2)

/-- `String::drain(i..j)` and `String::replace_range(i..j, new)`, as in `src/types/generic.rs` 98: the new text is
copied and the rest of the string moved. -/
def replaceRange (s : Str) (i j : Nat) (new : Str) : T (Option Str) :=
  if i ≤ j then
    obind (ret (sliceTo s i)) fun a => obind (ret (sliceFrom s j)) fun b => (some (a ++ (new ++ b)), blen new + blen b)
  else ret none

/-- `password_range_to_hide`, `src/mask_password.rs` 22-39. -/
def password_range_to_hide (iri : Str) : T (Option (Option (Nat × Nat))) :=
  bind (authorityFromIri iri) fun
  | none => ret (some none)
  | some a =>
    obind (ret a.userinfo) fun
    | none => ret (some none)
    | some userinfo =>
      obind (findStr iri ['/', '/']) fun i =>
        bind (findChar ':' userinfo) fun c =>
          ret (some (some (2 + i + (match c with | none => blen userinfo | some v => v + 1), 2 + i + blen userinfo)))

/-- `write_with_masked_password`, `src/mask_password.rs` 42-60: what is written. -/
def write_with_masked_password (s : Str) (st e : Nat) (alt : Str) : T (Option Str) :=
  obind (ret (sliceTo s st)) fun a =>
    obind (ret (sliceFrom s e)) fun b => (some (a ++ (alt ++ b)), blen a + (blen alt + blen b))

/-- `mask_password()` displayed, `src/mask_password.rs` 62-65, 180-189. -/
def mask_password (s : Str) : T (Option Str) :=
  obind (password_range_to_hide s) fun
  | some x => write_with_masked_password s x.1 x.2 []
  | none => (some s, blen s)

/-- `mask_password().to_dedicated_string()`, `src/mask_password.rs` 200-224. -/
def mask_password_dedicated (s : Str) : T (Option Str) :=
  obind (password_range_to_hide s) fun
  | none => (some s, blen s)
  | some x =>
    obind (ret (sliceTo s x.1)) fun a => obind (ret (sliceFrom s x.2)) fun b => (some (a ++ b), blen a + blen b)

/-- `mask_password().replace_password_with(replace)` displayed, `src/mask_password.rs` 133-138, 169-178, 262-273,
279-288. -/
def replace_password_with (s : Str) (replace : Str → Str) : T (Option Str) :=
  obind (password_range_to_hide s) fun
  | some x => obind (ret (slice s x.1 x.2)) fun pw => write_with_masked_password s x.1 x.2 (replace pw)
  | none => (some s, blen s)

/-- `Self::validate` of the type, as in `src/types/generic/normal.rs` 911-914. -/
def validateKind (S : Spec) : IriKind → Str → T (Option Bool)
  | .reference => validate_uri_reference S
  | .iri => validate_uri S
  | .absolute => validate_absolute_uri S
  | .relative => validate_relative_ref S

/-- The debug assertion that the text is valid, `src/types/generic/normal.rs` 911-914. -/
def assertValid (debug : Bool) (S : Spec) (k : IriKind) (s : Str) : T Bool :=
  if debug then bind (validateKind S k s) fun o => ret (o == some true) else ret true

/-- `remove_password_inline`, `src/types/generic/normal.rs` 899-917 (same code in `reference.rs` 664-682,
`absolute.rs` 653-671, `relative.rs` 511-529). -/
def remove_password_inline (debug : Bool) (S : Spec) (k : IriKind) (s : Str) : T (Option Str) :=
  obind (password_range_to_hide s) fun
  | none => ret (some s)
  | some x =>
    obind (replaceRange s (x.1 - 1) x.2 []) fun buf =>
      bind (assertValid debug S k buf) fun ok => ret (if ok then some buf else none)

/-- `remove_nonempty_password_inline`, `src/types/generic/normal.rs` 949-971 (same code in `reference.rs` 714-737,
`absolute.rs` 703-724, `relative.rs` 561-584): in debug builds also the byte before the password. -/
def remove_nonempty_password_inline (debug : Bool) (S : Spec) (k : IriKind) (s : Str) : T (Option Str) :=
  obind (password_range_to_hide s) fun
  | none => ret (some s)
  | some x =>
    if x.2 ≤ x.1 then ret (some s)
    else
      obind (ret (sliceTo s x.1)) fun pre =>
        bind (debug && pre.getLast? != some ':', if debug then 1 else 0) fun b =>
          if b then ret none
          else
            obind (replaceRange s x.1 x.2 []) fun buf =>
              bind (assertValid debug S k buf) fun ok => ret (if ok then some buf else none)

/-- `is_decimal_repr_of_octet`, `src/parser/trusted/authority.rs` 86-97: at most three bytes. -/
def is_decimal_repr_of_octet (i : Str) : T Bool := (Verif.is_decimal_repr_of_octet i, min 3 (blen i))

/-- `is_host_reg_name`, `src/parser/trusted/authority.rs` 46-83. -/
def is_host_reg_name (host : Str) : T Bool :=
  bind (starts_with host ['[']) fun b =>
    if b then ret false
    else if !(7 ≤ blen host && blen host ≤ 15) then ret true
    else
      bind (find_split_hole host '.') fun
      | none => ret true
      | some (o0, rest) =>
        bind (find_split_hole rest '.') fun
        | none => ret true
        | some (o1, rest) =>
          bind (find_split_hole rest '.') fun
          | none => ret true
          | some (o2, o3) =>
            bind (and (is_decimal_repr_of_octet o0) (and (is_decimal_repr_of_octet o1)
              (and (is_decimal_repr_of_octet o2) (is_decimal_repr_of_octet o3)))) fun b => ret !b

/-- `AuthorityComponents::from_iri_get_offset`, `src/components/authority.rs` 39-43, with
`extract_authority_and_offset`, `src/parser/trusted.rs` 203-210. -/
def from_iri_get_offset (iri : Str) : T (Option (AuthorityComponents × Nat)) :=
  bind (scheme_colon_opt iri) fun x =>
    bind (slash_slash_authority_opt x.1) fun y =>
      match y.2 with
      | none => ret none
      | some a => bind (decompose_authority a) fun c => ret (some (c, match x.2 with | none => 2 | some s => blen s + 3))

/-- `replace_domain_impl`, `src/types/generic.rs` 59-103. -/
def replace_domain_impl (S : Spec) (iri_ref new_host : Str) (replace_only_reg_name : Bool) :
    T (Option (Str × Option (Nat × Nat))) :=
  bind (from_iri_get_offset iri_ref) fun
  | none => ret (some (iri_ref, none))
  | some x =>
    obind (ret x.1.host) fun old_host =>
      bind (validate_host S new_host) fun v =>
        if !v then ret (some (iri_ref, none))
        else
          bind (if replace_only_reg_name then is_host_reg_name old_host else ret true) fun r =>
            if !r then ret (some (iri_ref, none))
            else
              obind (replaceRange iri_ref (x.2 + x.1.host_start) (x.2 + x.1.host_start + blen old_host) new_host)
                fun buf => ret (some (buf, some (x.2 + x.1.host_start, x.2 + x.1.host_start + blen new_host)))

/-- `try_replace_host_impl`, `src/types/generic/normal.rs` 979-1000 (same code in the other types but for the debug
assertion). -/
def try_replace_host_impl (debug : Bool) (S : Spec) (k : IriKind) (s new_host : Str) (replace_only_reg_name : Bool) :
    T (Option (Str × Option Str)) :=
  obind (replace_domain_impl S s new_host replace_only_reg_name) fun x =>
    bind (assertValid debug S k.replaceHostAssertion x.1) fun ok =>
      if !ok then ret none
      else
        match x.2 with
        | none => ret (some (x.1, none))
        | some y => ret ((slice x.1 y.1 y.2).map fun h => (x.1, some h))

/-- `remove_fragment`, `src/raw.rs` 28-32: the search; truncating costs nothing. -/
def remove_fragment (s : Str) : T Str :=
  bind (find_split s '#') fun o => ret (match o with | some (pre, _) => pre | none => s)

/-- `set_fragment`, `src/raw.rs` 15-22: the search and what is appended. -/
def set_fragment (s : Str) (fragment : Option Str) : T Str :=
  bind (remove_fragment s) fun t =>
    match fragment with
    | some f => (t ++ '#' :: f, blen f + 1)
    | none => ret t

end Verif.Work
