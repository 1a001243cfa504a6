import Verif.Model.Basic
import Verif.Spec.Abnf

/-!
# RFC 3986 (URI) and RFC 3987 (IRI) grammar

A transcription of RFC 3986 Appendix A and RFC 3987 section 2.2.  The two grammars have the same
shape; they differ in `iunreserved` (which adds `ucschar`) and in `iquery` (which adds
`iprivate`), so every rule takes the spec `S` as a parameter: `.uri` gives the RFC 3986 rule and
`.iri` the RFC 3987 rule.  (Only the type `Spec` is imported from the model.)
-/

namespace Verif.Rfc

open Verif.Abnf

/-- `ALPHA = %x41-5A / %x61-7A`. -/
def ALPHA (c : Char) : Bool := ('A' ≤ c && c ≤ 'Z') || ('a' ≤ c && c ≤ 'z')
/-- `DIGIT = %x30-39`. -/
def DIGIT (c : Char) : Bool := '0' ≤ c && c ≤ '9'
/-- `HEXDIG`, both letter cases (ABNF strings are case-insensitive). -/
def HEXDIG (c : Char) : Bool := DIGIT c || ('A' ≤ c && c ≤ 'F') || ('a' ≤ c && c ≤ 'f')

/-- `unreserved = ALPHA / DIGIT / "-" / "." / "_" / "~"`. -/
def unreserved (c : Char) : Bool :=
  ALPHA c || DIGIT c || c == '-' || c == '.' || c == '_' || c == '~'

/-- `gen-delims = ":" / "/" / "?" / "#" / "[" / "]" / "@"`. -/
def gen_delims (c : Char) : Bool :=
  c == ':' || c == '/' || c == '?' || c == '#' || c == '[' || c == ']' || c == '@'

/-- `sub-delims = "!" / "$" / "&" / "'" / "(" / ")" / "*" / "+" / "," / ";" / "="`. -/
def sub_delims (c : Char) : Bool :=
  c == '!' || c == '$' || c == '&' || c == '\'' || c == '(' || c == ')' || c == '*' ||
  c == '+' || c == ',' || c == ';' || c == '='

/-- Code point range `%xLO-HI`. -/
def range (lo hi : Nat) (c : Char) : Bool := lo ≤ c.toNat && c.toNat ≤ hi

/-- `ucschar` (RFC 3987 section 2.2). -/
def ucschar (c : Char) : Bool :=
  range 0xA0 0xD7FF c || range 0xF900 0xFDCF c || range 0xFDF0 0xFFEF c ||
  range 0x10000 0x1FFFD c || range 0x20000 0x2FFFD c || range 0x30000 0x3FFFD c ||
  range 0x40000 0x4FFFD c || range 0x50000 0x5FFFD c || range 0x60000 0x6FFFD c ||
  range 0x70000 0x7FFFD c || range 0x80000 0x8FFFD c || range 0x90000 0x9FFFD c ||
  range 0xA0000 0xAFFFD c || range 0xB0000 0xBFFFD c || range 0xC0000 0xCFFFD c ||
  range 0xD0000 0xDFFFD c || range 0xE1000 0xEFFFD c

/-- `iprivate = %xE000-F8FF / %xF0000-FFFFD / %x100000-10FFFD`. -/
def iprivate (c : Char) : Bool :=
  range 0xE000 0xF8FF c || range 0xF0000 0xFFFFD c || range 0x100000 0x10FFFD c

/-- `iunreserved` (RFC 3987) / `unreserved` (RFC 3986). -/
def iunreserved : Spec → Char → Bool
  | .uri, c => unreserved c
  | .iri, c => unreserved c || ucschar c

/-- Characters that `iquery` adds (`iprivate`); none in RFC 3986. -/
def queryPrivate : Spec → Char → Bool
  | .uri, _ => false
  | .iri, c => iprivate c

/-- `pct-encoded = "%" HEXDIG HEXDIG`. -/
def pct_encoded : Lang := lit ['%'] ⬝ chr HEXDIG ⬝ chr HEXDIG

/-- `scheme = ALPHA *( ALPHA / DIGIT / "+" / "-" / "." )`. -/
def scheme : Lang :=
  chr ALPHA ⬝ star (chr fun c => ALPHA c || DIGIT c || c == '+' || c == '-' || c == '.')

/-- `ipchar = iunreserved / pct-encoded / sub-delims / ":" / "@"`. -/
def pchar (S : Spec) : Lang :=
  chr (iunreserved S) ∕ pct_encoded ∕ chr sub_delims ∕ lit [':'] ∕ lit ['@']

/-- `isegment = *ipchar`. -/
def segment (S : Spec) : Lang := star (pchar S)
/-- `isegment-nz = 1*ipchar`. -/
def segment_nz (S : Spec) : Lang := plus (pchar S)
/-- `isegment-nz-nc = 1*( iunreserved / pct-encoded / sub-delims / "@" )`. -/
def segment_nz_nc (S : Spec) : Lang :=
  plus (chr (iunreserved S) ∕ pct_encoded ∕ chr sub_delims ∕ lit ['@'])

/-- `ipath-abempty = *( "/" isegment )`. -/
def path_abempty (S : Spec) : Lang := star (lit ['/'] ⬝ segment S)
/-- `ipath-absolute = "/" [ isegment-nz *( "/" isegment ) ]`. -/
def path_absolute (S : Spec) : Lang :=
  lit ['/'] ⬝ opt (segment_nz S ⬝ star (lit ['/'] ⬝ segment S))
/-- `ipath-noscheme = isegment-nz-nc *( "/" isegment )`. -/
def path_noscheme (S : Spec) : Lang := segment_nz_nc S ⬝ star (lit ['/'] ⬝ segment S)
/-- `ipath-rootless = isegment-nz *( "/" isegment )`. -/
def path_rootless (S : Spec) : Lang := segment_nz S ⬝ star (lit ['/'] ⬝ segment S)
/-- `ipath-empty = 0<ipchar>`. -/
def path_empty : Lang := lit []
/-- `ipath = ipath-abempty / ipath-absolute / ipath-noscheme / ipath-rootless / ipath-empty`. -/
def path (S : Spec) : Lang :=
  path_abempty S ∕ path_absolute S ∕ path_noscheme S ∕ path_rootless S ∕ path_empty

/-- `iquery = *( ipchar / iprivate / "/" / "?" )`. -/
def query (S : Spec) : Lang := star (pchar S ∕ chr (queryPrivate S) ∕ lit ['/'] ∕ lit ['?'])
/-- `ifragment = *( ipchar / "/" / "?" )`. -/
def fragment (S : Spec) : Lang := star (pchar S ∕ lit ['/'] ∕ lit ['?'])

/-- `iuserinfo = *( iunreserved / pct-encoded / sub-delims / ":" )`. -/
def userinfo (S : Spec) : Lang :=
  star (chr (iunreserved S) ∕ pct_encoded ∕ chr sub_delims ∕ lit [':'])

/-- `dec-octet`. -/
def dec_octet : Lang :=
  chr DIGIT ∕
  (chr (fun c => '1' ≤ c && c ≤ '9') ⬝ chr DIGIT) ∕
  (lit ['1'] ⬝ rep 2 (chr DIGIT)) ∕
  (lit ['2'] ⬝ chr (fun c => '0' ≤ c && c ≤ '4') ⬝ chr DIGIT) ∕
  (lit ['2', '5'] ⬝ chr (fun c => '0' ≤ c && c ≤ '5'))

/-- `IPv4address = dec-octet "." dec-octet "." dec-octet "." dec-octet`. -/
def IPv4address : Lang :=
  dec_octet ⬝ lit ['.'] ⬝ dec_octet ⬝ lit ['.'] ⬝ dec_octet ⬝ lit ['.'] ⬝ dec_octet

/-- `h16 = 1*4HEXDIG`. -/
def h16 : Lang := between 1 4 (chr HEXDIG)
/-- `h16 ":"`. -/
def h16c : Lang := h16 ⬝ lit [':']
/-- `ls32 = ( h16 ":" h16 ) / IPv4address`. -/
def ls32 : Lang := (h16 ⬝ lit [':'] ⬝ h16) ∕ IPv4address

/-- `IPv6address`, the nine alternatives of RFC 3986 in order. -/
def IPv6address : Lang :=
  (rep 6 h16c ⬝ ls32) ∕
  (lit [':', ':'] ⬝ rep 5 h16c ⬝ ls32) ∕
  (opt h16 ⬝ lit [':', ':'] ⬝ rep 4 h16c ⬝ ls32) ∕
  (opt (upTo 1 h16c ⬝ h16) ⬝ lit [':', ':'] ⬝ rep 3 h16c ⬝ ls32) ∕
  (opt (upTo 2 h16c ⬝ h16) ⬝ lit [':', ':'] ⬝ rep 2 h16c ⬝ ls32) ∕
  (opt (upTo 3 h16c ⬝ h16) ⬝ lit [':', ':'] ⬝ h16c ⬝ ls32) ∕
  (opt (upTo 4 h16c ⬝ h16) ⬝ lit [':', ':'] ⬝ ls32) ∕
  (opt (upTo 5 h16c ⬝ h16) ⬝ lit [':', ':'] ⬝ h16) ∕
  (opt (upTo 6 h16c ⬝ h16) ⬝ lit [':', ':'])

/-- `IPvFuture = "v" 1*HEXDIG "." 1*( unreserved / sub-delims / ":" )`. -/
def IPvFuture : Lang :=
  (lit ['v'] ∕ lit ['V']) ⬝ plus (chr HEXDIG) ⬝ lit ['.'] ⬝
    plus (chr fun c => unreserved c || sub_delims c || c == ':')

/-- `IP-literal = "[" ( IPv6address / IPvFuture ) "]"`. -/
def IP_literal : Lang := lit ['['] ⬝ (IPv6address ∕ IPvFuture) ⬝ lit [']']

/-- `ireg-name = *( iunreserved / pct-encoded / sub-delims )`. -/
def reg_name (S : Spec) : Lang := star (chr (iunreserved S) ∕ pct_encoded ∕ chr sub_delims)

/-- `ihost = IP-literal / IPv4address / ireg-name`. -/
def host (S : Spec) : Lang := IP_literal ∕ IPv4address ∕ reg_name S

/-- `port = *DIGIT`. -/
def port : Lang := star (chr DIGIT)

/-- `iauthority = [ iuserinfo "@" ] ihost [ ":" port ]`. -/
def authority (S : Spec) : Lang :=
  opt (userinfo S ⬝ lit ['@']) ⬝ host S ⬝ opt (lit [':'] ⬝ port)

/-- `ihier-part`. -/
def hier_part (S : Spec) : Lang :=
  (lit ['/', '/'] ⬝ authority S ⬝ path_abempty S) ∕ path_absolute S ∕ path_rootless S ∕ path_empty

/-- `irelative-part`. -/
def relative_part (S : Spec) : Lang :=
  (lit ['/', '/'] ⬝ authority S ⬝ path_abempty S) ∕ path_absolute S ∕ path_noscheme S ∕ path_empty

/-- `IRI = scheme ":" ihier-part [ "?" iquery ] [ "#" ifragment ]`. -/
def IRI (S : Spec) : Lang :=
  scheme ⬝ lit [':'] ⬝ hier_part S ⬝ opt (lit ['?'] ⬝ query S) ⬝ opt (lit ['#'] ⬝ fragment S)

/-- `absolute-IRI = scheme ":" ihier-part [ "?" iquery ]`. -/
def absolute_IRI (S : Spec) : Lang :=
  scheme ⬝ lit [':'] ⬝ hier_part S ⬝ opt (lit ['?'] ⬝ query S)

/-- `irelative-ref = irelative-part [ "?" iquery ] [ "#" ifragment ]`. -/
def relative_ref (S : Spec) : Lang :=
  relative_part S ⬝ opt (lit ['?'] ⬝ query S) ⬝ opt (lit ['#'] ⬝ fragment S)

/-- `IRI-reference = IRI / irelative-ref`. -/
def IRI_reference (S : Spec) : Lang := IRI S ∕ relative_ref S

end Verif.Rfc
