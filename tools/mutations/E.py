M=[]
def m(f,d,o,n,c): M.append({'file':f,'def':d,'old':o,'new':n,'claim':c})
D='Model/Diagnose.lean'; B='Model/BuildDiagnose.lean'; T='Model/Template.lean'; E='Model/TemplateError.lean'; Y='Model/Bytes.lean'
m(D,'description','| .InvalidRegName => "invalid reg-name"','| .InvalidRegName => "invalid host"','C43: two kinds with one text')
m(D,'message','"invalid IRI: ".toList ++ (description k).toList','(description k).toList','C43: prefix of the message dropped')
m(D,'validate_scheme','check (Verif.validate_scheme i) .InvalidScheme','check (Verif.validate_scheme i) .UnexpectedRelative','C43: wrong kind for a bad scheme')
m(D,'validate_query','check (Verif.validate_query S i) .InvalidQuery','check (Verif.validate_query S i) .InvalidFragment','C43: wrong kind for a bad query')
m(D,'validate_authority','andThen (validate_userinfo S maybe_userinfo) (cont i)','andThen (cont i) (validate_userinfo S maybe_userinfo)','C43: host checked before userinfo')
m(D,'validate_authority','if maybe_port.all isDigit then validate_host S maybe_host else validate_host S i','if maybe_port.all isDigit then validate_host S maybe_host else .error .InvalidPort','C43: bad port reported as port')
m(D,'validate_authority_path_abempty','andThen (validate_authority S maybe_authority) (validate_path_abempty S maybe_path)','andThen (validate_path_abempty S maybe_path) (validate_authority S maybe_authority)','C43: path checked before authority')
m(D,'validate_after_path','if !accept_fragment && !maybe_fragment.isEmpty then .error .UnexpectedFragment','if !accept_fragment then .error .UnexpectedFragment','C43: empty fragment refused')
m(D,'validate_after_path','.error .UnexpectedFragment','.error .InvalidFragment','C43: wrong kind for unexpected fragment')
m(D,'validate_after_path','''  andThen (validate_query S maybe_query)
    (if''','''  andThen (.ok ())
    (if''','C43: query not validated')
m(D,'validate_after_path',"(find_split_hole rest '#').getD (rest, []) else ([], rest)","(find_split_hole rest '#').getD (rest, []) else (rest, [])",'C43: fragment taken as query')
m(D,'validate_hier','some (andThen (validate_authority_path_abempty S maybe_authority_path) (after after_path))','some (andThen (after after_path) (validate_authority_path_abempty S maybe_authority_path))','C43: query before authority')
m(D,'validate_hier','(pathv maybe_path).map fun r => andThen r (after after_path)','(pathv maybe_path).map fun r => andThen (after after_path) r','C43: query before path')
m(D,'validate_relative_ref','validate_hier S (validate_path_relative_authority_absent S) true i','validate_hier S (validate_path_absolute_authority_absent S) true i','C43: colon in first segment accepted')
m(D,'validate_uri_reference_common','else some (.error .UnexpectedRelative)','else some (.error .InvalidScheme)','C43: relative text reported as bad scheme')
m(D,'validate_uri_reference_common','else some (.error .InvalidScheme)','else some (.error .UnexpectedRelative)','C43: bad scheme reported as relative')
m(D,'validate_uri_reference_common','rule.is_fragment_allowed rest','true rest','C43: absolute IRIs with fragments accepted')
m(B,'checkUserinfo',"if user.contains ':' then .error .InvalidUserInfo","if user.contains ':' then .error .InvalidHost",'C44: colon in user reported as host')
m(B,'checkUserinfo','(optCheck (validate_userinfo S) password)','(.ok ())','C44: password not validated')
m(B,'checkPort','if !s.all isDigit then .error .InvalidPort else .ok ()','.ok ()','C44: port not validated')
m(B,'checkPort','.error .InvalidPort','.error .InvalidHost','C44: bad port reported as host')
m(B,'checkAuthority','andThen (checkUserinfo S a.userinfo) (andThen (checkHost S a.host) (checkPort a.port))','andThen (checkHost S a.host) (andThen (checkUserinfo S a.userinfo) (checkPort a.port))','C44: host before userinfo')
m(B,'validateBuilder','andThen (optCheck validate_scheme b.scheme) (optCheck (checkAuthority S) b.authority)','andThen (optCheck (checkAuthority S) b.authority) (optCheck validate_scheme b.scheme)','C44: authority before scheme')
m(B,'validateBuilder','''andThen (optCheck (validate_query S) b.query)
            (optCheck (validate_fragment S) b.fragment)''','''andThen (optCheck (validate_fragment S) b.fragment)
            (optCheck (validate_query S) b.query)''','C44: fragment before query')
m(B,'validateBuilder','if !is_path_acceptable then .error .InvalidPath','if !is_path_acceptable then .error .InvalidScheme','C44: wrong kind for path')
m(B,'checkKind','else if b.fragment.isSome then .error .UnexpectedFragment else .ok ()','else .ok ()','C44: fragment accepted in absolute IRI')
m(B,'checkKind','| .relative => if b.scheme.isSome then .error .UnexpectedAbsolute else .ok ()','| .relative => .ok ()','C44: scheme accepted in relative reference')
m(B,'checkKind','| .iri => if b.scheme.isNone then .error .InvalidScheme else .ok ()','| .iri => if b.scheme.isNone then .error .UnexpectedRelative else .ok ()','C44: wrong kind for a missing scheme')
m(B,'build','''  match checkKind b k with
  | .error e => some (.error e)
  | .ok _ => (validateBuilder S b).map fun r =>
      match r with
      | .error e => .error e''','''  match (Except.ok () : Res) with
  | .error e => some (.error e)
  | .ok _ => (validateBuilder S b).map fun r =>
      match r with
      | .error e => .error e''','C44: target type ignored')
m(T,'validate_literal','.err .invalidCharacter (offset + pos)','.err .invalidCharacter offset','C45: start of the literal instead of the bad character')
m(T,'validate_literal','.err .invalidCharacter (offset + pos)','.err .invalidPercentEncoding (offset + pos)','C45: wrong kind')
m(T,'validate_max_len','.err .invalidExpression (offset + varname_len + 2)\n','.err .invalidExpression (offset + varname_len + 1)\n','C45: location of a bad length')
m(T,'validate_max_len','.err .invalidExpression (offset + varname_len + 2 + pos)','.err .invalidExpression (offset + varname_len + 2)','C45: location of a bad digit')
m(T,'validate_varspec','.err .invalidExpression (offset + blen maybe_varname + 1) else .ok ()','.err .invalidExpression (offset + blen maybe_varname) else .ok ()','C45: location of text after explode')
m(T,'validate_expr_body','| [] => .err .invalidExpression offset','| [] => .ok ()','C45: empty expression accepted')
m(T,'validate_expr_body','| some .reserved => .err .unsupportedOperator offset','| some .reserved => .err .invalidExpression offset','C45: kind of reserved operators')
m(T,'validate_expr_body','validateVarspecs true (splitComma r) (offset + 1)','validateVarspecs true (splitComma r) offset','C45: operator byte not counted')
m(T,'validatePct','if blen xdigits2_and_rest < 2 then .err .invalidPercentEncoding (offset + blen literal)','if blen xdigits2_and_rest < 2 then .err .invalidPercentEncoding offset','C45: location of a truncated triplet')
m(T,'validatePct','.err .invalidPercentEncoding (offset + blen literal + 1)','.err .invalidPercentEncoding (offset + blen literal)','C45: location of a bad first digit')
m(T,'validatePct','.err .invalidPercentEncoding (offset + blen literal + 2)','.err .invalidPercentEncoding (offset + blen literal)','C45: location of a bad second digit')
m(T,'validateExpr','.err .expressionNotClosed (offset + blen literal)','.err .expressionNotClosed offset','C45: location of an unclosed expression')
m(E,'ErrorKind.as_str','chars! "invalid expression"','chars! "invalid character"','C45: text of a kind')
m(E,'errorMessage','displayNat location','displayNat (location + 1)','C45: position off by one')
m(E,'valid_up_to','(bs.length - r.length) + valid_up_to fuel r','1 + valid_up_to fuel r','C45: characters counted instead of bytes')
m(E,'template_try_from_bytes','| none => .err .invalidUtf8 (valid_up_to bytes.length bytes)','| none => .err .invalidUtf8 0','C45: position of invalid UTF-8')
m(E,'template_try_from_bytes','| some s => (validate_template_str s).bind fun _ => .ok s','| some s => .ok s','C45: bytes not validated')
m(E,'template_try_from_string','some (.error (s, k, l))','some (.error ([], k, l))','C45: source lost')
m(Y,'Bytes.prior_byte2','(utf8s s).find? fun b => b == n1 || b == n2','(utf8s s).find? fun b => b == n1','C37: second needle ignored')
