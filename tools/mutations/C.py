M=[]
def m(file,d,old,new,claim): M.append(dict(file=file,**{'def':d},old=old,new=new,claim=claim))
E='Model/Encode.lean'
m(E,'Context.isValidChar',"c != ':' && is_ascii_userinfo_ipvfutureaddr c","is_ascii_userinfo_ipvfutureaddr c","C22: colon kept in a user name")
m(E,'Context.isValidChar',"| .pathSegment, true => is_ascii_pchar c","| .pathSegment, true => is_ascii_pchar_slash c","C22: slash kept in a path segment")
m(E,'Context.isValidChar',"| .query, false => is_nonascii_query S c","| .query, false => is_nonascii_fragment S c","C22: private-use characters encoded in IRI queries")
m(E,'Context.isValidChar',"| .unreserve, true => is_ascii_unreserved c","| .unreserve, true => is_ascii_unreserved_or_reserved c","C22: reserved kept by unreserve")
m(E,'Context.isValidChar',"| .character, false => S.is_nonascii_char_unreserved c || S.is_nonascii_char_private c","| .character, false => S.is_nonascii_char_unreserved c","C22: private-use characters encoded")
m(E,'from_password',"def from_password (S : Spec) : List Str → Str := percent_encode S .userOrPassword","def from_password (S : Spec) : List Str → Str := percent_encode S .regName","C22: wrong context for passwords")
m(E,'percent_encode',"chunks.flatMap (encWriteStr S ctx)","(chunks.take 1).flatMap (encWriteStr S ctx)","C22: later pieces dropped")
m(E,'HEXDIGITS',"57, 65, 66, 67, 68, 69, 70]","57, 97, 98, 99, 100, 101, 102]","C24: lower-case digits")
m(E,'fillZip',"let hi ← HEXDIGITS[byte >>> 4]?\n        let lo ← HEXDIGITS[byte &&& 0b1111]?\n        let r","let lo ← HEXDIGITS[byte >>> 4]?\n        let hi ← HEXDIGITS[byte &&& 0b1111]?\n        let r","C24: digits swapped")
m(E,'fillZip',"  | buf, bytes => some (buf, bytes)\n","  | buf, bytes => some (buf, bytes.drop 1)\n","C24: one byte lost per buffer")
m(E,'percent_encode_bytes',"let buf := (buf.take buf_len).map fun _ => 37","let buf := buf.take buf_len","C24: buffer not initialised with %")
m(E,'writePercentEncodedGo',"let s := if ascii.isEmpty then s else rest\n","let s := rest\n","C24: (equivalent) tail after an empty ASCII prefix")
m(E,'writePercentEncodedGo',"if s.isEmpty then some ascii\n","if s.isEmpty then some []\n","C24: trailing ASCII lost")
m(E,'inlineLoop',"let dest_end ← subB dest_end 2","let dest_end ← subB dest_end 1","C24: in-place encoding overlaps")
m(E,'inlineLoop',"let buf ← setB buf (dest_end + 1) hi","let buf ← setB buf (dest_end + 2) hi","C24: hexadecimal digits misplaced")
m(E,'inlineLoop',"inlineLoop fuel buf dest_end src_end (rest_nonascii - 1)\n","inlineLoop fuel buf dest_end src_end (rest_nonascii - 2)\n","C24: stops early")
m(E,'encode_to_uri_inline',"let additional := num_nonascii * 2","let additional := num_nonascii","C24: not enough room")
m(E,'as_uri',"if !s.all isAscii then none else some s","some s","C24: non-ASCII IRI returned as URI")
m(E,'decodeOne',"if cont b1 && 0x80 ≤ v then some (Char.ofNat v, r) else none","if cont b1 then some (Char.ofNat v, r) else none","C38: overlong UTF-8 accepted from bytes")
m(E,'decodeOne',"0x800 ≤ v && !(0xD800 ≤ v && v < 0xE000) then","0x800 ≤ v then","C38: surrogates accepted from bytes")
D='Model/Decode.lean'
m(D,'isHexByte',"(97 ≤ b && b ≤ 102)","(97 ≤ b && b ≤ 103)","C23: %0g decoded")
m(D,'tryDecodeGo',"let after_pct := rest.drop (pct_pos + 1)","let after_pct := rest.drop pct_pos","C23: first triplet missed")
m(D,'intoBytesGo',"some (rest.take pos ++ (decoded.toList ++ r))","some (rest.take (pos + 1) ++ (decoded.toList ++ r))","C23: percent kept")
m(D,'into_bytes',"some (bs.take prefix_len ++ (decoded :: r))","some (decoded :: r)","C23: prefix lost")
m(D,'fragNext',"| some (none, _) => some (some (.strayPercent, after))","| some (none, _) => some (some (.strayPercent, after.drop 1))","C23: byte after a stray percent lost")
m(D,'fragNext',"some (some (.direct (rest.take (pos + 1)), rest.drop (pos + 1)))","some (some (.direct (rest.take pos), rest.drop (pos + 1)))","C23: byte before a percent lost")
m(D,'to_bytes',"    | some _ => none","    | some _ => some bs","C23: to_bytes returns undecoded text")
B='Model/Build.lean'
m(B,'Builder.set',"| .unset_userinfo => { b with authority := some { b.authority_builder with userinfo := .absent } }","| .unset_userinfo => { b with authority := none }","C28: unset_userinfo removes the authority")
m(B,'Builder.set',"| .unset_query => { b with query := none }","| .unset_query => { b with fragment := none }","C28: unset_query removes the fragment")
m(B,'Builder.set',"| .port v => { b with authority := some { b.authority_builder with port := v } }","| .port v => { b with authority := some { port := v } }","C28: port resets host and userinfo")
m(B,'UserinfoRepr.write',"t ++ (':' :: (q ++ ['@']))","t ++ (q ++ ['@'])","C28 C29: colon between user and password lost")
m(B,'HostRepr.write',"| .ipv6 a => some ('[' :: (a.display ++ [']']))","| .ipv6 a => some a.display","C28 C29: brackets missing")
m(B,'PortRepr.write',"if s.isEmpty && normalize then [] else ':' :: s","if normalize then [] else ':' :: s","C28 C30: port dropped by normalization")
m(B,'Builder.writePath',"b.scheme.isSome || b.authority.isSome || path_is_absolute then","b.scheme.isSome || b.authority.isSome then","C28 C30: absolute path not normalized in a relative reference")
m(B,'Builder.write',"some (scheme ++ (authority ++ (path ++ (query ++ fragment))))","some (scheme ++ (authority ++ (path ++ (fragment ++ query))))","C28 C29: query after fragment")
m(B,'UserinfoRepr.ok',"!user.contains ':' && validate_userinfo S user","validate_userinfo S user","C28 C29: user with colon accepted")
m(B,'PortRepr.ok',"| .string s => s.all isDigit","| .string _ => true","C28: non-digit port accepted")
m(B,'AuthorityBuilder.ok',"a.userinfo.ok S && a.host.ok S && a.port.ok","a.userinfo.ok S && a.port.ok","C28: host not validated")
m(B,'Builder.pathCheck',"if b.authority.isSome then path_is_absolute || b.path.isEmpty\n","if b.authority.isSome then true\n","C28: rootless path after authority")
m(B,'Builder.pathCheck',"else if b.scheme.isSome || path_is_absolute then !starts_with b.path ['/', '/']","else if b.scheme.isSome then !starts_with b.path ['/', '/']","C28: // path without authority accepted in a relative reference")
m(B,'Builder.pathCheck',"      else prior_byte2 b.path '/' ':' != some ':'\n    some","      else true\n    some","C28: colon in the first segment accepted")
m(B,'Builder.pathCheck',"if b.authority.isSome then b.path.isEmpty || starts_with b.path ['/'] else true","true","C28 C30: rootless path after authority accepted with normalization")
m(B,'CharWriter.decide',"some (if starts_with s ['/'] then .startsWithDoubleSlash else .commonAbsolute)","some .commonAbsolute","C28 C30: double slash not noticed")
m(B,'CharWriter.write_str',"if rest.isEmpty then ({ w with is_absolute := some abs }, true)","if rest.isEmpty then ({ w with is_absolute := none }, true)","C28 C30: a lone first slash is forgotten")
m(B,'Builder.validate',"else if !optOk (validate_fragment S) b.fragment then none\n","","C28: fragment not validated")
m(B,'Builder.kindOk',"b.scheme.isSome && !b.fragment.isSome","b.scheme.isSome","C28: absolute IRI with fragment")
m(B,'Builder.from_iri',"query := m.query, fragment := m.fragment","query := m.fragment, fragment := m.query","C28 C29: query and fragment swapped when editing")
m(B,'Built.ensure_rfc3986_normalizable',"if b.builder.authority.isNone then","if b.builder.authority.isSome then","C28 C30: test inverted")
F='Model/Format.lean'
m(F,'eq_str_display',"r.2 && r.1.isEmpty","r.2","C36: prefix equals")
m(F,'cmpWrite',"| none => (w, false)","| none => (w, true)","C36: mismatch ignored")
m(F,'ByteBufWriter.write',"if w.buffer.length < len then (w, false)","if w.buffer.length ≤ len then (w, false)","C36: exact fit rejected")
m(F,'ByteBufWriter.write',"len_written := w.len_written + len","len_written := len","C36: only last piece returned")
m(F,'StringWriter.write',"if w.error then (w, false)\n  else if","if","C36: (perhaps not observable) writes go on after an allocation failure")
m(F,'try_append_to_string',"if r.1.error then some (false, r.1.buffer) else none","some (false, r.1.buffer)","C36: formatting error reported as allocation failure")
m(F,'try_to_string',"match try_append_to_string alloc [] d with","match try_append_to_string (fun _ => true) [] d with","C36: allocation failure ignored")
m(F,'try_to_dedicated_string',"if debug && !(validate s == some true) then none else some (some s)","some (some s)","C36: (assertion dropped)")
K='Model/Construct.lean'
m(K,'TypeKind.validate',"| .query, s => some (if validate_query S s","| .query, s => some (if validate_fragment S s","C38: wrong validator")
m(K,'try_from_bytes',"| none => some (.err .invalidUtf8)\n  | some s => (k.validate S s).map (checked s)","| none => some (.err .invalid)\n  | some s => (k.validate S s).map (checked s)","C38: wrong error for invalid UTF-8")
m(K,'owned_try_from_bytes',"  | some s => (try_from_str S k s).map (RResult.map to_owned)","  | some s => some (.ok s)","C38: owned from bytes not validated")
m(K,'checkedOwned',"| .err e => .err ⟨s, e⟩","| .err e => .err ⟨[], e⟩","C38: source lost")
m(K,'downcast',"try_from_str S (.iriLike k) s","try_from_str S (.iriLike .reference) s","C38: downcast not validated")
m(K,'upcast',"def upcast (debug : Bool) (S : Spec) (to : IriKind) (s : Str) : Option Str :=\n  if debug &&","def upcast (debug : Bool) (S : Spec) (to : IriKind) (s : Str) : Option Str :=\n  if","C38: (debug panic also in release: not reachable)")
m(K,'str_cmp',"lexCmp (utf8s a) (utf8s b)","compare (blen a) (blen b)","C38: comparison by length")
