M=[]
def m(file,d,old,new,claim): M.append(dict(file=file,**{'def':d},old=old,new=new,claim=claim))
T='Model/Template.lean'
m(T,'CHARS_TABLE',"0, 1, 0, 1, 1, 0, 1, 1,","1, 1, 0, 1, 1, 0, 1, 1,","C31: space accepted as literal")
m(T,'CHARS_TABLE',"1, 1, 1, 1, 1, 1, 5, 1,","1, 1, 1, 1, 1, 1, 1, 1,","C31: dot rejected in variable names")
m(T,'varnameRest',"if c == '%' && starts_with_double_hexdigits r then some (r.drop 2)","if c == '%' then some (r.drop 2)","C31: %zz accepted at the start of a name")
m(T,'validate_max_len',"if !(1 ≤ blen maybe_len && blen maybe_len ≤ 5) then","if !(blen maybe_len ≤ 5) then","C31: empty prefix length accepted")
m(T,'validate_varspec',"if !rest.isEmpty then .err .invalidExpression (offset + blen maybe_varname + 1) else .ok ()",".ok ()","C31: text after * accepted")
m(T,'validate_expr_body',"| some .reserved => .err .unsupportedOperator offset","| some .reserved => validateVarspecs true (splitComma r) (offset + 1)","C31: reserved operators accepted")
m(T,'MaybeOperator.from_byte',"  else if b = '|' then some .reserved\n","","C31: (same verdict, other error kind) '|' operator")
m(T,'validatePct',"else if !isHexB ((utf8s xdigits2).getD 1 0) then","else if false then","C31: %4g accepted in literals")
m(T,'validatePct',".err .invalidPercentEncoding (offset + blen literal + 2)",".err .invalidPercentEncoding (offset + blen literal)","C31: error position")
m(T,'validateExpr',"| none => .err .expressionNotClosed (offset + blen literal)","| none => .ok []","C31: unclosed expression accepted")
m(T,'validateExpr',"(validate_expr_body expr (offset + blen literal + 1))","(validate_expr_body expr (offset + blen literal))","C31: error position inside expressions off by one")
m(T,'validateLoop',"validateLoop fuel total rest (total - blen rest)","validateLoop fuel total rest offset","C31: error positions ignore what was consumed")
m(T,'parse_trusted',"match strip_suffix_char s '*' with","match (none : Option Str) with","C32: explode modifier ignored (reported in the name)")
m(T,'parse_u16',"if n ≤ 65535 then","if n ≤ 99999 then","C32: u16 overflow accepted")
m(T,'varListNext',"| some (pre, new_rest) => (parse_trusted pre).map fun v => some ((blen pre, v), new_rest)","| some (pre, _) => (parse_trusted pre).map fun v => some ((blen pre, v), [])","C32: only the first variable listed")
m(T,'decompose',"else (Operator.from_byte c).map fun op => (op, r)","else (Operator.from_byte c).map fun op => (op, body)","C32: operator kept in the variable name")
m(T,'startsVarList',"c == '_' || c == '%'","c == '_'","C32: names starting with % panic")
m(T,'chunksNext',"else some (some (.literal lit, rest))","else some (some (.literal lit, rest.drop 1))","C32: brace lost")
m(T,'varsNext',"| none => some none\n    match first with","| none => none\n    match first with","C32: first expression never started")
m(T,'varsCollect',"| some none => some []\n    | some (some (name, it)) => (varsCollect","| some none => some []\n    | some (some (name, it)) => if name.isEmpty then some [] else (varsCollect","C32: (equivalent: names are not empty)")
m(T,'ctxInsert',"if value = .undefined then (mapGet m key, mapRemove m key)\n    else","if false then (none, m)\n    else","C39 C42 C34: inserting undefined does not remove")
m(T,'ctxInsert',"  else (none, m)","  else (none, mapInsert m key value)","C39 C42 C34: invalid names inserted")
m(T,'mapInsert',"(key, v) :: mapRemove m key","mapRemove m key ++ [(key, v)]","C39 C42 C34: (equivalent: order not observable)")
m(T,'mapRemove',"if k = key then r else (k, v) :: mapRemove r key","if k = key then r else mapRemove r key","C39 C42 C34: remove drops other entries")
m(T,'ctxClear',"def ctxClear (_ : Variables) : Variables := []","def ctxClear (m : Variables) : Variables := m","C39 C42 C34: clear does nothing")
m(T,'append',"def append (s other : Str) : Str := s ++ other","def append (s other : Str) : Str := other ++ s","C31: append in the wrong order")
Q='Model/MaybePct.lean'
m(Q,'second3',"(b0 == 0xED && 0x80 ≤ b1 && b1 < 0xA0)","(b0 == 0xED && 0x80 ≤ b1 && b1 < 0xC0)","C33: surrogates treated as characters")
m(Q,'utf8Step',"if isCont b2 then .ok r else .error (some 2)\n      else","if isCont b2 then .ok r else .error (some 1)\n      else","C33: two-byte error prefix reported as one byte")
m(Q,'pushLoop',"else if 12 ≤ enc.length then none","else if 9 ≤ enc.length then none","C33: four-byte characters panic")
m(Q,'pushLoop',"if c ≠ '%' then some ([], k + c.utf8Size - 1, .undecodable enc)","if c ≠ '%' then some ([], k + c.utf8Size, .undecodable enc)","C33: character after triplets lost")
m(Q,'checkTriplets',"some (some (enc.drop (v * 3), .undecodable (enc.take (v * 3))))","some (some ([], .undecodable (enc.take (v * 3))))","C33: triplets after an invalid one lost")
m(Q,'output_as_undecodable',"if incomplete.length = 1 then some o else andThen f (.noPct (incomplete.drop 1)) o","some o","C33: digits after a stray percent lost")
m(Q,'process_percent_encoded_best_effort',"else (output_as_undecodable f o.1 enc).map Prod.fst","else some o.1","C33: incomplete triplet at the end lost")
X='Model/TemplateExpand.lean'
m(X,'opProps',"| .pathParams => ⟨[';'], [';'], true, [], false⟩","| .pathParams => ⟨[';'], [';'], true, ['='], false⟩","C33: ;empty= instead of ;empty")
m(X,'opProps',"| .formQuery => ⟨['?'], ['&'], true, ['='], false⟩","| .formQuery => ⟨['?'], ['&'], true, [], false⟩","C33: ?empty instead of ?empty=")
m(X,'opProps',"| .fragment => ⟨['#'], [','], false, [], true⟩","| .fragment => ⟨['#'], [','], false, [], false⟩","C33: fragment expansion encodes reserved")
m(X,'opProps',"| .label => ⟨['.'], ['.'], false, [], false⟩","| .label => ⟨['.'], [','], false, [], false⟩","C33: label separator")
m(X,'escapeFrag',"| .stray => some (out ++ ['%', '2', '5'], false)","| .stray => some (out ++ ['%'], false)","C33 C35 C41: stray percent written raw")
m(X,'escape_write',"else some (v.flatMap fun s => unreserve S [s])","else some (v.flatMap fun s => characters S [s])","C33: reserved characters kept in simple expansion of list items")
m(X,'truncFrag',"| .char s => some ((st.1 ++ s, st.2 - 1), false)","| .char s => some ((st.1 ++ s, st.2 - s.length), false)","C33: triplets count by text length")
m(X,'truncateWrite',"if rest = 0 then truncateWrite S dbg rest r\n    else","if false then some []\n    else","C33: (perhaps equivalent) exhausted limit")
m(X,'leader',"if first then p.first else p.sep","p.first","C33: separators")
m(X,'visit_string',"if t.isEmpty then p.ifemp else '=' :: t","'=' :: t","C33: = for empty values")
m(X,'isExplode',"  | .maxLen _ => none\n  | .none => some false","  | .maxLen _ => some false\n  | .none => some false","C33: (unreachable after typecheck) prefix on lists")
m(X,'visit_item',"else if !is_explode then some [',']","else if !is_explode then some p.sep","C33: non-exploded lists joined with the operator separator")
m(X,'visit_entry',"fun k => p.sep ++ k ++ ['=']).bind","fun k => p.sep ++ k ++ [',']).bind","C33: exploded pairs")
m(X,'visit_value',"| .string v => (visit_string S dbg op spec first v).map fun t => (t, false)","| .string v => (visit_string S dbg op spec first v).map fun t => (t, first)","C33: second variable written with the first prefix")
m(X,'visit_value',"fun t => (t, first && items.isEmpty)","fun t => (t, false)","C33: empty list counts as first variable")
m(X,'expandVars',"visit_value S dbg op spec first (ctx .expand spec.name)","visit_value S dbg op spec true (ctx .expand spec.name)","C33: first prefix for all")
m(X,'badType',"ty == .list || ty == .assoc","ty == .list","C33: prefix on association panics instead of error")
m(X,'typecheckVars',"if badType spec.modifier (typeOf (ctx .typecheck spec.name)) then .err .unexpectedValueType pos","if badType spec.modifier (typeOf (ctx .typecheck spec.name)) then .err .unexpectedValueType 0","C33: position of the type error")
m(X,'typecheckExpr',"(pos + (op.len + 1)) varlist).bind fun pos'","(pos + op.len) varlist).bind fun pos'","C33: assertion fails on every expression")
m(X,'expand_dynamic',"⟨d.result, d.out, ctx.finish d.state⟩","⟨d.result, d.out, d.state⟩","C39 C42 C34: on_expansion_end not called")
m(X,'expandVarsMut',"let v := ctx.visit .expand spec.name ty.2","let v := ctx.visit .expand spec.name st","C39 C42 C34: state change of the type check lost")
m(X,'expandDynLoop',"⟨d.result, lit ++ d.out, d.state⟩","⟨d.result, d.out, d.state⟩","C39 C42 C34: literals not written")
m(X,'expand_dynamic_to_string',"(d.result.map fun _ => d.out, d.state)","(.ok d.out, d.state)","C39 C42 C34: errors swallowed")
m(X,'Ctx.ofSimple',"| some (.list l) => .list (l.map fun s => [s])","| some (.list l) => .string l","C33: lists of a simple context treated as strings")
