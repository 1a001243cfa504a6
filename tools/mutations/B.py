M=[]
def m(file,d,old,new,claim): M.append(dict(file=file,**{'def':d},old=old,new=new,claim=claim))
m('Model/Validate.lean','v6_loop',"        if rest.isEmpty then false\n        else if 8","        if 8","C01: trailing single colon accepted")
P='Model/PctCase.lean'
m(P,'hexdigits_to_byte',"if upper ≥ 0x40 then 9 * 16 else 0","if upper ≥ 0x40 then 10 * 16 else 0","C20 C40: %A0 decoded as 0xB0")
m(P,'is_ascii_only_host_go',"if byte < 128 then is_ascii_only_host_go fuel rest else some false","is_ascii_only_host_go fuel rest","C20 C40: host with %C3%A9 treated as ASCII-only")
m(P,'hexU',"if n < 10 then 48 + n else 55 + n","if n < 10 then 48 + n else 87 + n","C20 C40: normalized triplets in lower case")
m(P,'into_char_trusted',"some (if c < 0x800 then none else charFromU32 c)","some (charFromU32 c)","C20: overlong three-byte sequences decoded")
m(P,'into_char_trusted',"((b1 &&& 0b00111111) <<< 6) ||| (b2 &&& 0b00111111)\n    some","((b2 &&& 0b00111111) <<< 6) ||| (b1 &&& 0b00111111)\n    some","C20: bytes of a three-byte character swapped")
m(P,'takeCont',"some (.again (buf.flatMap writePct ++ [c]) after)","some (.again (buf.flatMap writePct) after)","C20: character after an incomplete sequence is lost")
m(P,'takeCont',"if !is_utf8_byte_continue byte then some (.again (buf.flatMap writePct) rest)","if !is_utf8_byte_continue byte then some (.again (buf.flatMap writePct) after_triplet)","C20: triplet after an incomplete sequence is lost")
m(P,'takeCont',"| [] => some (.stop (buf.flatMap writePct))","| [] => some (.stop [])","C20: incomplete sequence at the end is lost")
m(P,'expectedLen',"if 0xC2 ≤ b ∧ b ≤ 0xDF then some 2","if 0xC0 ≤ b ∧ b ≤ 0xDF then some 2","C20: (perhaps equivalent) C0, C1 as two-byte heads")
m(P,'expectedLen',"if 0xF0 ≤ b ∧ b ≤ 0xF4 then some 4","if 0xF1 ≤ b ∧ b ≤ 0xF4 then some 4","C20: characters from U+10000 to U+3FFFF are not decoded")
m(P,'pct_case_go',"pre ++ ((if is_ascii_unreserved (Char.ofNat first) then [Char.ofNat first]","pre ++ ((if is_ascii_pchar (Char.ofNat first) then [Char.ofNat first]","C20: reserved characters decoded by normalization")
m(P,'pct_case_go',"pre ++ ((if is_unreserved S c then [c] else buf.flatMap writePct) ++ t)","pre ++ ([c] ++ t)","C20: non-ASCII characters decoded in a URI")
m(P,'pct_case_go',"sliceFrom after_first ((n - 1) * 3)","sliceFrom after_first (n * 3)","C20: surrogate sequences: following text lost or panic")
m(P,'ascii_host_go',"then [toLower (Char.ofNat first)] else writePct first","then [Char.ofNat first] else writePct first","C20 C40: %41 in a host becomes A")
m(P,'ascii_host_go',"| none => some (rest.map toLower)","| none => some rest","C20 C40: host not lowered")
N='Model/PathNorm.lean'
m(N,'from_paths_to_be_resolved',"match rfind_split_hole base '/' with","match find_split_hole base '/' with","C14: base path cut at the first slash")
m(N,'from_paths_to_be_resolved',"⟨before ++ ['/'], if reference","⟨before, if reference","C14: slash lost when merging paths")
m(N,'from_paths_to_be_resolved',"  if starts_with reference ['/'] then ⟨reference, none⟩\n  else\n","","C14: (unreachable from resolve) absolute reference path merged")
m(N,'byte_at',"else p.back.bind fun b => (utf8s b)[i - blen p.front]?","else p.back.bind fun b => (utf8s b)[i]?","C14: wrong byte read in the second part")
m(N,'find_next_slash_from',"(sliceFrom b (start - blen p.front)).map fun s => (findB s '/').map fun pos => start + pos","(sliceFrom b (start - blen p.front)).map fun s => (findB s '/').map fun pos => start + pos + 1","C14: segment end off by one in the second part")
m(N,'remove_start',"sliceFrom s (n - blen p.front)","sliceFrom s n","C14: wrong part removed")
m(N,'SegmentKind.from_segment',"['.', '%', '2', 'e'], ['%', '2', 'E', '.'],","['%', '2', 'E', '.'],","C16: .%2e not treated as dot-dot segment")
m(N,'SegmentKind.from_segment',"if !(1 ≤ blen s && blen s ≤ 6) then .normal","if !(1 ≤ blen s && blen s ≤ 5) then .normal","C16: %2e%2e not treated as dot-dot segment")
m(N,'SegmentKind.from_segment',"[['.'], ['%', '2', 'E'], ['%', '2', 'e']].contains s","[['.'], ['%', '2', 'E']].contains s","C16: %2e not treated as dot segment")
m(N,'iterNext',"let has_leading_slash := b == 47","let has_leading_slash := b == 46","C16: segments split wrongly")
m(N,'remove_ignorable_go',"p.remove_start (min (blen p.front) (seg.stop + 1))","p.remove_start (min (blen p.front) seg.stop)","C16: slash kept after leading ../")
m(N,'skippedLen',"| some _ => skippedLen p r g.stop","| some _ => skippedLen p r g.start","C16: skipped prefix too short")
m(N,'QUEUE_SIZE',"def QUEUE_SIZE : Nat := 8","def QUEUE_SIZE : Nat := 0","C16: queue of size zero: no progress")
m(N,'scan',"        level := st.level - 1\n        may := true\n        queue := st.queue.set (st.level - 1) none }","        level := st.level - 1\n        may := true }","C16: .. does not remove the segment")
m(N,'scan',"      else scan p r { st with level := st.level + 1 }","      else scan p r st","C16: .. after the ninth segment removes a queued segment")
m(N,'scan',"            may := false\n","            may := st.may\n","C16: (only a flag) not-yet-resolved flag stays set")
m(N,'scan',"    | some .dot => scan p r { st with may := true }","    | some .dot => scan p r st","C16: trailing dot segments left in place")
m(N,'scan',"        level := st.level - 1\n        may := true\n","        level := st.level - 1\n","C16: trailing .. left in place")
m(N,'scan',"            resolved_end := g.stop\n","            resolved_end := g.start\n","C16: last segment written twice")
m(N,'emit_segment',"if only && !authority_is_present then (['.', '/', '/'] ++ t, some false)","if only then (['.', '/', '/'] ++ t, some false)","C15 C16: /.// inserted although an authority is present")
m(N,'emit_segment',"if only && !authority_is_present then (['.', '/', '/'] ++ t, some false)","if false then (['.', '/', '/'] ++ t, some false)","C15 C16: path becomes // without authority")
m(N,'emit_segment',"some (first_has_slash && segname.isEmpty))","some first_has_slash)","C15 C16: /.// inserted after every first segment")
m(N,'resolve_and_write_path_prefixes',"if !auth && only_a_slash == some true then ['.', '/', '/'] else ['/']","['/']","C15 C16: path becomes // at the break")
m(N,'writeRest',"|| starts_with p.front ['/', '/'] then","then","C15 C16: // at the start without authority")
m(N,'writeRest',"(p.remove_start 2).map fun p => (['/', '.', '/', '/'], p)","(p.remove_start 1).map fun p => (['/', '.', '/', '/'], p)","C15 C16: one slash too many")
m(N,'writeRest',"if p.starts_with_slash then (p.remove_start 1).map fun p => (['.', '/', '/'], p)","if p.starts_with_slash then some (['.', '/', '/'], p)","C15 C16: one slash too many after an empty segment")
m(N,'fmt_write_normalize',"if op == .preserve && !auth && !p.starts_with_slash then","if op == .preserve && !auth then","C18 C20: dot segments kept in absolute paths in preserve mode")
m(N,'fmt_write_normalize',"if p.is_empty then some (if auth then ['/'] else [])","if p.is_empty then some []","C16: '//h' + '..' gives an empty path")
m(N,'prefixRetriever',"(utf8s written).take 3","(utf8s written).take 2","C21: whether resolution is serializable by RFC 3986")
R='Model/Normalize.lean'
m(R,'RefToplevel.choose_then',"if self.rank ≤ component.rank then reference ()","if self.rank < component.rank then reference ()","C14: own authority of the reference ignored")
m(R,'refToplevel',"  else if !r.is_path_empty (blen r_iri) then .path\n  else if r.query_start.isSome then .query","  else if r.query_start.isSome then .query\n  else if !r.is_path_empty (blen r_iri) then .path","C14: path ignored when a query is present")
m(R,'resolvedPath',"if b.authority_end.isSome && b_path.isEmpty then ['/'] else b_path","b_path","C14: merge with empty base path and authority")
m(R,'resolvedPath',"| .query | .none => (b.path_str b_iri).map fun p => .done p","| .query | .none => (b.path_str b_iri).map fun p => .needsProcessing (PathToNormalize.from_single_path p)","C14: dot segments of the base path removed for an empty reference")
m(R,'create_normalization_input',"let fragment ← r.fragment_str r_iri","let fragment ← b.fragment_str b_iri","C14: fragment of the base used")
m(R,'create_normalization_input',"t.choose_then .query (fun _ => r.query_str r_iri)","t.choose_then .path (fun _ => r.query_str r_iri)","C14: query of the reference ignored when its path is empty")
m(R,'from_iri',"    query := m.query\n    fragment := m.fragment\n","    query := m.query\n    fragment := none\n","C20: normalization drops the fragment")
m(R,'normalize_scheme',"scheme.map toLower","scheme","C20: scheme not lowered")
m(R,'stripColon',"  | ':' :: r => r.reverse\n  | _ => s","  | _ => s","C20: empty port kept by normalization")
m(R,'normalize_authority',"match rfind_split_hole authority '@' with","match find_split_hole authority ':' with","C20: userinfo split at a colon")
m(R,'normalize_authority',"let u ← pct_case_normalized S userinfo","let u ← some userinfo","C20: userinfo not normalized")
m(R,'display',"if n then normalize_fragment S f else some f","some f","C20: fragment not normalized")
m(R,'display',"if n then (PathToNormalize.from_single_path s).fmt_write_normalize S i.op i.authority.isSome\n      else some s","some s","C14 C20: base path not normalized when the reference is empty")
m(R,'noDotSpan',"| .rfc3986 => some path","| .rfc3986 => some stripped","C19: /.// accepted as RFC 3986 normalized")
m(R,'noDotSpan',"if starts_with path ['/'] then some stripped else none","some stripped","C19: relative dot segments reported as not normalized in preserve mode")
m(R,'authorityIsNormalized',"    | some u => is_pct_case_normalized S u","    | some _ => some true","C19: userinfo not checked")
m(R,'is_normalized',"if scheme.any isUpper then some false","if false then some false","C19: upper-case scheme reported as normalized")
m(R,'is_normalized',"else is_pct_case_normalized S after_authority","else is_pct_case_normalized S path","C19: query and fragment not checked")
m(R,'spanDots',"s == ['.'] || s == ['.', '.']","s == ['.', '.']","C19: dot segments not noticed")
E='Model/Edit.lean'
m(E,'findStr',"(findStr r pat).map (· + c.utf8Size)","(findStr r pat).map (· + 1)","C25: (equivalent where only ASCII precedes //)")
m(E,'password_range_to_hide',"          | some v => v + 1)","          | some v => v)","C25: colon masked too")
m(E,'password_range_to_hide',"let e := authority_start + blen userinfo","let e := authority_start + blen userinfo + 1","C25: @ masked too")
m(E,'password_range_to_hide',"let authority_start := 2 + authority_start","let authority_start := authority_start","C25: range off by two")
m(E,'mask_password_dedicated',"    some (a ++ b)","    some (a ++ ':' :: b)","C25: extra colon")
m(E,'remove_nonempty_password_inline',"if e ≤ st then some s","if false then some s","C26: (equivalent apart from a debug panic) empty password")
m(E,'replace_password_with',"write_with_masked_password s st e (replace pw)","write_with_masked_password s st e pw","C25: password not replaced")
m(E,'replace_domain_impl',"let host_start := offset + authority.host_start","let host_start := offset","C27: userinfo replaced with the host")
m(E,'replace_domain_impl',"if !validate_host S new_host then some (iri_ref, none)","if false then some (iri_ref, none)","C27: invalid host accepted")
m(E,'replace_domain_impl',"replace_only_reg_name && !is_host_reg_name old_host","replace_only_reg_name && is_host_reg_name old_host","C27: reg-name test inverted")
m(E,'replace_domain_impl',"let new_host_end := host_start + blen new_host","let new_host_end := old_host_end","C27: returned host has the old length")
m(E,'replace_host_reg_name',"try_replace_host_impl debug S k s new_host true","try_replace_host_impl debug S k s new_host false","C27: reg-name variant replaces IP hosts")
