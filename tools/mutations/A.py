M=[]
def m(file,d,old,new,claim): M.append(dict(file=file,**{'def':d},old=old,new=new,claim=claim))
V='Model/Validate.lean'
m(V,'is_dec_octet',"""    (a == '2' && b == '5' && btw '0' '5' c)
  | _ => false

/-- `validate_ipv4address`""","""    (a == '2' && b == '5' && btw '0' '9' c)
  | _ => false

/-- `validate_ipv4address`""","C01: octets 256..259 accepted inside IPv6 literals")
m(V,'split_v6_addr_part',"    if 5 ≤ blen pre then none","    if 6 ≤ blen pre then none","C01: h16 groups of five digits accepted")
m(V,'v6_final',"if is_omitted then decide (h16_count < 8)","if is_omitted then decide (h16_count ≤ 8)","C01: eight groups plus :: accepted")
m(V,'v6_loop',"""      | some (rest, .H16Omit) =>
        if is_omitted then false
        else if""","""      | some (rest, .H16Omit) =>
        if""","C01: two :: accepted in an IPv6 address")
m(V,'v6_loop',"        if rest.isEmpty then false\n","","C01: trailing single colon accepted")
m(V,'validate_scheme',"c :: r => isAlpha c && r.all","c :: r => (isAlpha c || isDigit c) && r.all","C01: scheme starting with a digit accepted")
m(V,'validate_query',"satisfy_chars_with_pct_encoded is_ascii_frag_query (is_nonascii_query S) i","satisfy_chars_with_pct_encoded is_ascii_frag_query (is_nonascii_fragment S) i","C01: private-use characters rejected in an IRI query")
m(V,'validate_after_path',"  validate_query S maybe_query &&\n    (if","  (if","C01: query characters not checked")
m(V,'validate_after_path',"if !accept_fragment && !maybe_fragment.isEmpty then false","if !maybe_fragment.isEmpty then false","C01: fragments rejected everywhere")
m(V,'validate_authority',"match rfind_split_hole i ':' with","match find_split_hole i ':' with","C01: port of an IPv6 host split at the first colon")
m(V,'validate_authority',"some (maybe_userinfo, i) => validate_userinfo S maybe_userinfo && cont i","some (_, i) => cont i","C01: userinfo not checked")
m(V,'is_host_reg_name',"if !(7 ≤ blen host && blen host ≤ 15) then true","if !(8 ≤ blen host && blen host ≤ 15) then true","C12: 1.2.3.4 is reported as a registered name")
m(V,'validate_path_abempty',"    | none => false\n\n/-- `validate_path_absolute","    | none => satisfy_chars_with_pct_encoded is_ascii_pchar_slash S.is_nonascii_char_unreserved i\n\n/-- `validate_path_absolute","C01: (equivalent in a whole reference?) rootless path after authority")
m(V,'validate_path_relative_authority_absent',"      else some false\n    | none =>","      else some true\n    | none =>","C01: relative path with colon in the first segment accepted")
m(V,'UriReferenceRule.is_fragment_allowed',"r == .Absolute || r == .Any","r == .Any","C01: IRIs with fragment rejected")
m(V,'validate_uri_reference_common',"if !validate_scheme maybe_scheme then\n      if rule.is_relative_allowed then validate_relative_ref S i else some false","if !validate_scheme maybe_scheme then some false","C01: ./a:b rejected as reference")
m(V,'validate_host',"if maybe_ver.isEmpty || !maybe_ver.all isHex then false","if !maybe_ver.all isHex then false","C01: [v.x] accepted")
m(V,'validate_host',"else !maybe_addr.isEmpty && maybe_addr.all isAscii &&","else maybe_addr.all isAscii &&","C01: [v1.] accepted")
C='Model/Chars.lean'
m(C,'TABLE',"  0xB4, 0xF3, 0xF3,","  0xF4, 0xF3, 0xF3,","C01: '@' allowed as userinfo character")
m(C,'TABLE',"0xF3, 0xF3, 0xF4, 0xF8, 0x00, 0xF8, 0x00, 0x24,","0xF3, 0xF3, 0xF4, 0xF8, 0x00, 0xF8, 0x00, 0x34,","C22: '?' allowed in a path segment")
m(C,'is_ucschar',"inRange 0xE1000 0xEFFFD c","inRange 0xE0000 0xEFFFD c","C01: U+E0000..U+E0FFF accepted")
m(C,'is_ucschar',"inRange 0xA0 0xD7FF c ||","inRange 0xA1 0xD7FF c ||","C01: U+00A0 rejected")
m(C,'is_nonascii_char_private',"| .iri, c => inRange 0xE000 0xF8FF c || inRange 0xF0000","| .iri, c => inRange 0xE000 0xF8FE c || inRange 0xF0000","C01: U+F8FF rejected in queries")
S='Model/Str.lean'
m(S,'satisfy_chars_with_pct_encoded',"isHex h && isHex l && satisfy","isHex h && satisfy","C01: %4g accepted")
m(S,'get_wrapped_inner',"if c == op && d == cl then","if c == op then","C01: [::1x accepted as host")
m(S,'rfindSplitHoleP',"""    | some x => some (c :: x.1, x.2)
    | none => if p c then some ([], c, r) else none""","""    | some x => if p c then some ([], c, r) else some (c :: x.1, x.2)
    | none => if p c then some ([], c, r) else none""","C37: rfind returns the first occurrence")
m(S,'find_split4_hole',"findSplitHoleP (fun c => c == n1 || c == n2 || c == n3 || c == n4) s","findSplitHoleP (fun c => c == n1 || c == n2 || c == n3) s","C09 C10 C11: scheme found after '#'")
B='Model/Bytes.lean'
m(B,'Bytes.holeAtPos',"let post ← sliceFrom s (pos + 1)","let post ← sliceFrom s pos","C37: needle kept in the tail")
m(B,'Bytes.find_split4_hole_memchr',"(position (· == n4) (bytes.take prefix_len)).or (some prefix_len)","some prefix_len","C37: memchr variant ignores the fourth needle before the others")
m(B,'Bytes.get_wrapped_inner',"slice s 1 (blen s - 1)","slice s 1 (blen s)","C37: closing bracket kept")
m(B,'Bytes.prior_byte2',"fun b => b == n1 || b == n2","fun b => b == n1","C37: second needle ignored")
P='Model/Components.lean'
m(P,'scheme_colon_opt',"if c == ':' then (rest, some scheme) else (i, none)","(rest, some scheme)","C09 C10 C11: a relative path prefix is reported as scheme")
m(P,'slash_slash_authority_opt',"match find_split3 s '/' '?' '#' with","match find_split2 s '/' '?' with","C09 C10 C11: fragment glued to the authority")
m(P,'until_query',"match find_split2 i '?' '#' with","match find_split i '?' with","C09 C10 C11: fragment glued to the path")
m(P,'decompose_query_and_fragment',"        | none => (some rest, none)\n","        | none => (none, none)\n","C09 C10 C11: query without fragment lost")
m(P,'decompose_iri_reference',"let start := len - blen i + 2","let start := len - blen i + 1","C09 C10 C11: authority end off by one")
m(P,'decompose_iri_reference',"| false, some _ => (none, after_first_prefix)","| false, some _ => (after_first_prefix, none)","C09 C10 C11: fragment reported as query by the component splitter")
m(P,'Splitter.split_into_major',"| some e => e + 1 | none => 0","| some e => e | none => 0","C09 C10 C11: colon kept in path")
m(P,'Splitter.path_range',"let e := match p.query_start.or p.fragment_start with","let e := match p.query_start with","C09 C10 C11: path swallows the fragment in the resolver")
m(P,'extract_authority_and_offset',"some s => blen s + 3","some s => blen s + 2","C27: host replaced at the wrong offset")
m(P,'extract_query_absolute_iri',"if i.isEmpty then some none else (sliceFrom i 1).map some","if i.isEmpty then some none else some (some i)","C09 C10 C11: query of an absolute IRI keeps the question mark")
m(P,'decompose_authority',"match find_split_hole authority '@' with","match rfind_split_hole authority '@' with","C12: (equivalent on valid authorities) userinfo split at the last @")
m(P,'decompose_authority',"match rfind_split2 i ':' ']' with","match (rfind_split_hole i ':').map (fun x => (x.1, ':' :: x.2)) with","C12: [::1] loses its last group as port")
m(P,'AuthorityComponents.port',"sliceFrom a.authority (a.host_end + 1)","sliceFrom a.authority a.host_end","C12: port starts with the colon")
m(P,'AuthorityComponents.userinfo',"sliceTo a.authority (a.host_start - 1)","sliceTo a.authority a.host_start","C12: userinfo ends with @")
m(P,'remove_fragment',"  | some (pre, _) => pre\n  | none => s\n","  | some (pre, _) => pre ++ ['#']\n  | none => s\n","C13: removed fragment leaves '#'")
m(P,'set_fragment',"| some f => remove_fragment s ++ '#' :: f","| some f => s ++ '#' :: f","C13: set_fragment appends a second fragment")
m(P,'split_fragment_owned',"match splitAtB s (blen pre + 1) with","match splitAtB s (blen pre) with","C13: owned split off by one")
T='Model/Types.lean'
m(T,'RiReferenceStr.to_iri',"if (extract_scheme s).isSome then .inl s else .inr s","if (extract_scheme s).isSome then .inr s else .inl s","C08: classification swapped")
m(T,'RiQueryStr.from_prefixed',"  | '?' :: r => if validate_query S r then some r else none","  | '?' :: r => some r","C05: from_prefixed does not validate")
m(T,'RiStr.to_absolute',"sliceTo s (blen (split_fragment s).1)","sliceTo s (blen (split_fragment s).1 + 1)","C13: to_absolute keeps '#'")
