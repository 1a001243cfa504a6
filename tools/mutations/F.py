M=[]
def m(f,d,o,n,c): M.append({'file':f,'def':d,'old':o,'new':n,'claim':c})
S='Model/Serde.lean'; T='Model/TypedAccess.lean'; C='Model/TemplateCode.lean'; A='Model/Alloc.lean'; D='Model/Debug.lean'; H='Model/History.lean'
m(S,'serialize','def serialize (s : Str) : Serialized := .str s','def serialize (_ : Str) : Serialized := .other','C59: serialized as something else than a string')
m(S,'visitOwned','| .borrowedStr s => (owned_try_from_str S k s).map RResult.custom\n  | .char','| .borrowedStr s => some (.ok s)\n  | .char','C59: a borrowed string is not validated')
m(S,'visitOwned','| .string s => (owned_try_from_string S k s).map RResult.customOwned','| .string s => some (.ok s)','C59: an owned string is not validated')
m(S,'visitOwned','| .string s => (owned_try_from_string S k s).map RResult.customOwned','| .string _ => some (.err .invalidType)','C59: owned strings refused')
m(S,'visitBorrowed','| .borrowedStr s => (try_from_str S k s).map RResult.custom','| .borrowedStr s => (try_from_str .iri k s).map RResult.custom','C59: URI types accept IRIs when borrowed')
m(S,'visitBorrowed','| .borrowedStr s => (try_from_str S k s).map RResult.custom\n','| .borrowedStr s => (try_from_str S k s).map RResult.custom\n  | .str s => (try_from_str S k s).map RResult.custom\n','C59: a transient string is borrowed')
m(S,'deserializeOwned','match d .str with\n  | .ok c => visitOwned S k c','match d .str with\n  | .ok c => visitBorrowed S k c','C59: owned types refuse transient strings')
m(T,'new_unchecked_justified','if debug && !validate s then none else some s','if !validate s then none else some s','C53: the debug assertion is also in release builds')
m(T,'RiReferenceStr.query','(extract_query s).bind (justifiedOpt debug (validate_query S))','(extract_query s).bind (justifiedOpt debug (validate_fragment S))','none (queries are fragments): equivalent')
m(T,'RiReferenceStr.query','(extract_query s).bind (justifiedOpt debug (validate_query S))','(extract_query s).bind (justifiedOpt debug (validate_query .uri))','C53: the assertion uses the URI rules')
m(T,'RiReferenceStr.fragment','justifiedOpt debug (validate_fragment S) (extract_fragment s)','(extract_query s).bind (justifiedOpt debug (validate_fragment S))','C53: fragment() returns the query')
m(T,'FixedBaseResolver.base','if debug && validate_absolute_uri S r.iri != some true then none else some r.iri','if debug && validate_uri S r.iri != some true then none else some r.iri','none: a weaker assertion that never fires either')
m(T,'FixedBaseResolver.scheme_str','(r.splitter.scheme_str r.iri).bind id','(r.splitter.authority_str r.iri).bind id','C53: scheme_str returns the authority')
m(T,'FixedBaseResolver.path_str','r.splitter.path_str r.iri','(r.splitter.query_str r.iri).bind id','C53: path_str returns the query')
m(T,'RiAbsoluteStr.query','(extract_query_absolute_iri debug s).bind','(extract_query s).bind','C53/C61: the deviation of the absolute type disappears')
m(C,'visit_all','| n, v :: r => .item v (visit_all st (n + 1) r) (.ret (st (n + 1)))','| n, v :: r => .item v (visit_all st (n + 1) r) (.finish (st (n + 1)))','C62: finish after a Break')
m(C,'visit_all','| n, v :: r => .item v (visit_all st (n + 1) r) (.ret (st (n + 1)))','| n, v :: r => .item v (visit_all st (n + 1) r) (visit_all st (n + 1) r)','C62: iteration goes on after a Break')
m(C,'visit_all','| n, v :: r => .item v (visit_all st (n + 1) r) (.ret (st (n + 1)))','| n, v :: r => .item v (visit_all st (n + 1) r) (.ret (st n))','C62: the item that broke is given back')
m(C,'SeqCode.runType','| .ret st => (true, st)','| .ret st => (false, st)','C62: a nonempty list is undefined')
m(C,'SeqCode.runType','| .item _ _ onBreak => onBreak.runType','| .item _ onContinue _ => onContinue.runType','C62: the type check visits all items')
m(C,'Code.runType','| .list c => (if c.runType.1 then .list else .undefined, c.runType.2)','| .list c => (.list, c.runType.2)','C62: the empty list is a list')
m(C,'SeqCode.run','| some (t, true) => onContinue.run visit (n + 1) (if n = 0 then false else first) t','| some (t, true) => onContinue.run visit n (if n = 0 then false else first) t','C62: items are not counted')
m(C,'SeqCode.run','| some (t, false) => onBreak.run visit n (if n = 0 then false else first) t','| some (t, false) => onContinue.run visit n (if n = 0 then false else first) t','C62: a write error does not break')
m(C,'Code.run','| .undefined st => some ⟨t, true, first, st⟩','| .undefined st => some ⟨t, true, false, st⟩','C62: an undefined variable counts as the first')
m(C,'Code.run','(visitStringW S hex dbg w op spec first t v).map fun o => ⟨o.1, o.2, false, st⟩','(visitStringW S hex dbg w op spec first t v).map fun o => ⟨o.1, o.2, first, st⟩','C62: after a string the next variable is still the first')
m(C,'expandVarsCode','match (ctx.visit .expand spec.name ty.2).run S hex dbg w op spec first t with','match (ctx.visit .expand spec.name st).run S hex dbg w op spec first t with','C62: the state after the type check is forgotten')
m(C,'expandVarsCode','if badType spec.modifier ty.1 then some ⟨.error (.unexpectedValueType, pos), t, ty.2⟩','if badType spec.modifier ty.1 then some ⟨.error (.unexpectedValueType, pos + 1), t, ty.2⟩','C62: wrong position of a type error')
m(C,'expand_dynamic_code','| some d => some ⟨d.result, d.writer, ctx.finish d.state⟩','| some d => some ⟨d.result, d.writer, d.state⟩','C62: on_expansion_end is not called')
m(C,'expand_dynamic_code','0 template t (ctx.start st) with','0 template t st with','C62: on_expansion_start is not called')
m(A,'grow','if need ≤ b.cap then some b','if need < b.cap then some b','C51: allocates although the capacity suffices')
m(A,'try_percent_encode_iri_inline','let additional := num_nonascii * 2\n    (try_reserve alloc iri additional)','let additional := num_nonascii * 2\n    (try_reserve alloc iri num_nonascii)','C51: reserves too little, then aborts')
m(A,'try_percent_encode_iri_inline','if num_nonascii == 0 then .ok iri ()','if false then .ok iri ()','none: ASCII text takes the long way to the same result')
m(A,'replace_domain_impl','try_reserve alloc iri_ref (blen new_host - blen old_host)','try_reserve alloc iri_ref (blen new_host)','C51: reserves more than needed, fails although the capacity suffices')
m(A,'replace_domain_impl','(if blen old_host ≤ blen new_host then\n            try_reserve alloc iri_ref (blen new_host - blen old_host)\n          else .ok iri_ref ()).bind','(Run.ok iri_ref ()).bind','C51: aborts instead of returning an error')
m(A,'masked_try_to_dedicated_string','(try_reserve alloc ⟨[], 0, calls⟩ (blen iri_ref - (e - st)))','(try_reserve alloc ⟨[], 0, calls⟩ st)','C51: reserves too little')
m(A,'masked_try_to_dedicated_string','| some none => to_owned alloc calls iri_ref','| some none => (try_reserve alloc ⟨[], 0, calls⟩ (blen iri_ref)).bind fun s _ => push_str alloc s iri_ref','C51: the bug repaired (the refutation must fail)')
m(A,'StringWriter.write','match try_reserve alloc w.buffer (blen s) with','match try_reserve alloc w.buffer 0 with','C51: writes without reserving')
m(A,'StringWriter.write','| .err b => ({ w with buffer := b, error := true }, false)','| .err b => ({ w with buffer := b }, false)','C51: the error is not remembered')
m(A,'try_append_to_string','if r.1.error then .err r.1.buffer else .panic','.err r.1.buffer','C51/C36: a Display that fails is reported as an allocation failure')
m(D,'UserinfoRepr.debug','if password = none ∨ password = some [] then Dbg.opt .str password','if password = none then Dbg.opt .str password','C57: an empty password is shown as censored')
m(D,'UserinfoRepr.debug','else Dbg.opt (fun _ => .censored) (some ()))','else Dbg.opt .str password)','C57: the password is shown')
m(D,'UserinfoRepr.to_user_password','match find_split s \':\' with','match find_split s \'@\' with','C57: the password in a userinfo text is shown')
m(D,'mask_password_debug','(mask_password_opts s o).map fun','(some s).map fun','C57: Debug shows the password')
m(D,'HostRepr.writeOpts','| .ipv6 a => some (\'[\' :: (a.display ++ [\']\']))','| .ipv6 a => some (o.pad (\'[\' :: (a.display ++ [\']\'])))','C58: IPv6 addresses are padded, too')
m(D,'FmtOpts.pad','| some n => s.take n','| some n => s.drop n','C58: precision cuts the wrong end')
m(D,'FmtOpts.pad','| none | some .left => s ++ List.replicate n o.fill','| none | some .left => List.replicate n o.fill ++ s','C58: default alignment')
m(H,'Val.step','| .set_fragment f =>\n    if v.kind = .absolute then some v','| .set_fragment f =>\n    if v.kind = .iri then some v','C66: set_fragment on the wrong type')
m(H,'Val.step','| some t => { v with spec := .uri, text := t }.asserted debug\n    | none => some v','| some t => { v with text := t }.asserted debug\n    | none => some v','C66: try_into_uri does not change the type')
m(H,'Val.step','| .inr t => { v with kind := .relative, text := t }.asserted debug','| .inr t => { v with kind := .reference, text := t }.asserted debug','C66: into_iri of a relative reference')
m(H,'Val.step','{ v with kind := .absolute, text := RiString.into_absolute v.text }.asserted debug','{ v with kind := .absolute, text := v.text }.asserted debug','C66/C52: into_absolute keeps the fragment')
m(H,'Val.step','(resolve v.spec mode base v.text).bind fun t =>\n        { v with kind := .iri, text := t }.asserted debug','(resolve v.spec .off base v.text).bind fun t =>\n        { v with kind := .iri, text := t }.asserted debug','C66: resolution ignores the mode')
m(H,'Val.step','(mask_password_dedicated v.text).bind fun t =>','(Verif.remove_password_inline debug v.spec v.kind v.text).bind fun t =>','C66: masking removes the colon')
