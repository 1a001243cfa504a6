import Verif.Spec.Pct

/-!
# Encoding texts for a component, and mapping IRIs to URIs

Specification file: it imports only other specification files.
-/

namespace Verif.Rfc

open Verif.Abnf

/-- `*( iunreserved / pct-encoded )`. -/
def unreservedText (S : Spec) : Lang := star (chr (iunreserved S) ∕ pct_encoded)

/-- Any text made of the characters that may occur somewhere in a reference (`iunreserved`,
`iprivate`, `reserved`) and triplets. -/
def anyText (S : Spec) : Lang :=
  star (chr (iunreserved S) ∕ chr (queryPrivate S) ∕ chr gen_delims ∕ chr sub_delims ∕ pct_encoded)

/-- A part of the user information on one side of the `:` that separates user name and password. -/
def userOrPassword (S : Spec) : Lang := fun s => userinfo S s ∧ ':' ∉ s

/-- RFC 3987 section 3.1 step 2: every non-ASCII character becomes the triplets of its UTF-8
bytes. -/
def mapToUri (s : Str) : Str :=
  s.flatMap fun c => if c.toNat < 128 then [c] else (utf8 c).flatMap pctUpper

end Verif.Rfc
