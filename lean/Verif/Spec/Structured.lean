import Verif.Model.Decode
import Verif.Model.Types
import Verif.Spec.TemplateRead
import Verif.Spec.Grammar

/-!
# Structured data in a query or a fragment

Specification file for C76: the reader that applications put on top of the crate.  It splits the query at some
reserved characters (`&`, then `=`, then `,`, say) and percent-decodes what is left with the crate's decoder.  Which
characters are used, and in which order, is up to the application.
-/

namespace Verif.Structured

/-- What is read: leaves are decoded texts. -/
inductive Tree where
  | leaf (x : Option (Option Str)) : Tree
  | node (l : List Tree) : Tree

/-- `reserved = gen-delims / sub-delims`, RFC 3986 section 2.2. -/
def reserved (c : Char) : Bool := Rfc.gen_delims c || Rfc.sub_delims c

/-- Split at the first separator, every part at the second, and so on; decode what is left.  In the decoded text
the outer `none` stands for a panic, the inner one for bytes that are not UTF-8. -/
def readText : List Char → Str → Tree
  | [], x => .leaf (into_string (utf8s x))
  | c :: seps, x => .node ((Rfc6570.splitAt c x).map (readText seps))

/-- The query (`none`: panic; `some none`: no query). -/
def readQuery (seps : List Char) (s : Str) : Option (Option Tree) :=
  (RiReferenceStr.query_str s).map (Option.map (readText seps))

/-- The fragment. -/
def readFragment (seps : List Char) (s : Str) : Option Tree :=
  (RiReferenceStr.fragment_str s).map (readText seps)

/-- A reference that refers to the document it is in, except perhaps for the fragment: all other components are
missing, and the path is empty. -/
def SameDocument (ref : Str) : Prop :=
  RiReferenceStr.scheme_str ref = none ∧ RiReferenceStr.authority_str ref = none ∧
  RiReferenceStr.path_str ref = [] ∧ RiReferenceStr.query_str ref = some none

end Verif.Structured
