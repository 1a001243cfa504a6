#!/usr/bin/env python3
"""Generates lean/Verif/Conformance/*.lean from the tables in /repo/tests.

These modules are tests of the model, not proofs: they evaluate the model (in Lean's kernel) on the
inputs of the crate's own tests and compare with the outputs those tests expect of the real code.
"""
import re, os
REPO = '/repo/tests/'
OUT = '/verif/lean/Verif/Conformance/'

TOK = re.compile(r'''//[^\n]*|\s+|"(?:\\.|[^"\\])*"|[A-Za-z_][A-Za-z0-9_]*|\d[0-9a-zA-Z_]*|&|.''', re.S)

def tokens(text):
    out = []
    for t in TOK.findall(text):
        if t.isspace() or t.startswith('//'):
            continue
        out.append(t)
    return out

def unesc(tok):
    s = tok[1:-1]
    s = re.sub(r'\\\n\s*', '', s)
    def f(m):
        e = m.group(0)
        if e.startswith('\\u{'):
            return chr(int(e[3:-1], 16))
        if e.startswith('\\x'):
            return chr(int(e[2:], 16))
        return {'n': '\n', 't': '\t', 'r': '\r', '0': '\0', '\\': '\\', '"': '"', "'": "'"}[e[1]]
    return re.sub(r'\\u\{[0-9a-fA-F_]+\}|\\x[0-9a-fA-F]{2}|\\.', f, s)

def lean(s):
    r = ''
    for c in s:
        if c in '"\\':
            r += '\\' + c
        elif 32 <= ord(c) < 127:
            r += c
        elif ord(c) < 256:
            r += '\\x%02x' % ord(c)
        elif ord(c) < 65536:
            r += '\\u%04x' % ord(c)
        else:
            r += c
    return '(chars! "%s")' % r

def opt(s):
    return 'none' if s is None else '(some %s)' % lean(s)

class P:
    """parser for literal data: strings, numbers, bools, Some/None, tuples, arrays, { field: value }"""
    def __init__(self, toks):
        self.t = toks; self.i = 0
    def peek(self): return self.t[self.i]
    def next(self):
        self.i += 1
        return self.t[self.i - 1]
    def expect(self, x):
        t = self.next()
        assert t == x, (t, x, self.t[max(0, self.i-8):self.i+5])
    def seq(self, close):
        r = []
        while self.peek() != close:
            r.append(self.value())
            if self.peek() == ',':
                self.next()
        self.expect(close)
        return r
    def record(self):
        r = {}
        while self.peek() != '}':
            k = self.next(); self.expect(':')
            r[k] = self.value()
            if self.peek() == ',':
                self.next()
        self.expect('}')
        return r
    def value(self):
        t = self.next()
        if t == '&': return self.value()
        if t == '[': return self.seq(']')
        if t == '(':
            return tuple(self.seq(')'))
        if t == '{': return self.record()
        if t.startswith('"'): return unesc(t)
        if t == 'Some':
            self.expect('('); v = self.value(); self.expect(')'); return v
        if t == 'None': return None
        if t in ('true', 'false'): return t == 'true'
        if t[0].isdigit(): return int(t)
        if re.match(r'[A-Za-z_]', t):
            if self.peek() == '{':
                self.next(); return self.record()
            return t
        raise Exception((t, self.t[self.i-5:self.i+5]))

def read(f): return open(REPO + f).read()

def table(text, marker):
    """the literal after `marker ... = `"""
    i = text.index(marker)
    j = text.index('=', i) + 1
    return P(tokens(text[j:])).value()

HEAD = '''import Verif.Conformance.Harness

/-! Generated by `tools/conformance.py` from `/repo/tests/%s`.  Tests of the model, not proofs. -/

namespace Verif.Conformance

'''
END = '\nend Verif.Conformance\n'

def write(name, src, body):
    with open(OUT + name + '.lean', 'w') as f:
        f.write(HEAD % src + body + END)

def ex(cond):
    return 'example : %s = true := by decide +kernel\n' % cond

def components():
    text = read('components/mod.rs')
    i = text.index('= test_cases![') + len('= test_cases!')
    cases = P(tokens(text[i:])).value()
    body = ''
    names = []
    for n, c in enumerate(cases):
        k = c['components']
        f = ['composed := ' + lean(c['composed'])]
        cf = []
        for x in ('scheme', 'user', 'password', 'host', 'port', 'path', 'query', 'fragment'):
            if x in k and k[x] is not None:
                cf.append('%s := %s' % (x, lean(k[x]) if x == 'path' else opt(k[x])))
        f.append('components := { %s }' % ', '.join(cf))
        f.append('normalized_uri := ' + lean(c['normalized_uri']))
        f.append('normalized_iri := ' + lean(c['normalized_iri']))
        for x in ('normalized_uri_whatwg_like', 'normalized_iri_whatwg_like'):
            if x in c:
                f.append('%s := %s' % (x, opt(c[x])))
        if 'different_iris' in c:
            f.append('different_iris := [%s]' % ', '.join(lean(o) for o in c['different_iris']))
        body += 'def case%d : Case := { %s }\n\n' % (n, ', '.join(f))
        names.append('case%d' % n)
    body += 'def cases : List Case := [%s]\n\n' % ', '.join(names)
    for chk in ('consistent', 'buildSimple', 'buildDirty', 'buildNormalized', 'normalizes', 'resolvesSelf'):
        body += ex('(cases.all %s)' % chk)
    write('Components', 'components/mod.rs', body)
    return len(cases)

def resolve():
    text = read('resolve.rs')
    t = table(text, 'const TEST_CASES: &[(&str, &[(&str')
    n = 0
    body = 'def resolveCases : List (Str × List (Str × Str × Option Str)) := [\n'
    rows = []
    for base, prs in t:
        n += len(prs)
        rows.append('  (%s, [%s])' % (lean(base), ',\n    '.join('(%s, %s, %s)' % (lean(a), lean(b), opt(c)) for a, b, c in prs)))
    body += ',\n'.join(rows) + ']\n\n'
    body += ex('(resolveCases.all fun b => b.2.all fun c => resolves b.1 c.1 c.2.1 c.2.2)')
    t = table(text, 'const TEST_CASES: &[(&str, &str, &str)]')
    body += '\ndef dotCases : List (Str × Str × Str) := [\n  ' + ',\n  '.join('(%s, %s, %s)' % tuple(map(lean, x)) for x in t) + ']\n\n'
    body += ex('(dotCases.all fun c => resolve .iri .off c.1 c.2.1 == some c.2.2)')
    n += len(t)
    t = table(read('normalize.rs'), 'const CASES')
    body += '\n' + ''.join(ex('normalizedness %s %s %s %s' % (lean(c['iri']), *(str(c[x]).lower() for x in ('is_normalized_default', 'is_normalized_rfc3986', 'is_normalized_whatwg_like')))) for c in t)
    n += len(t)
    write('Resolve', 'resolve.rs` and `/repo/tests/normalize.rs', body)
    return n

def interop():
    text = read('string_types_interop.rs')
    body = ''
    n = 0
    for m in re.finditer(r'fn (\w+)\(\) \{\s*const URIS: &\[&str\] = (.*?\]);\s*for uri in URIS \{(.*?)\n    \}', text, re.S):
        lst = P(tokens(m.group(2))).value()
        want = {}
        for neg, ty in re.findall(r'assert_(non_)?convertible::<(\w+)>', m.group(3)):
            want[ty] = not neg
        exp = ['some ' + str(want[t]).lower() for t in ('IriReferenceStr', 'UriReferenceStr', 'IriStr', 'UriStr', 'IriAbsoluteStr', 'UriAbsoluteStr', 'IriRelativeStr', 'UriRelativeStr')]
        n += len(lst)
        body += '/-- `%s` -/\ndef %s : List Str := [\n  %s]\n\n' % (m.group(1), m.group(1), ',\n  '.join(map(lean, lst)))
        body += ex('(%s.all fun s => accepts s == [%s])' % (m.group(1), ', '.join(exp))) + '\n'
    t = table(read('utils/mod.rs'), 'const STRINGS')
    rows = []
    for kind, s in t:
        n += 1
        iri = kind != 'Invalid'; uri = kind.startswith('Uri')
        nor = kind in ('Uri', 'UriAbsolute', 'Iri', 'IriAbsolute'); ab = kind in ('UriAbsolute', 'IriAbsolute'); rel = kind in ('UriRelative', 'IriRelative')
        e = [iri, uri, nor and iri, nor and uri, ab and iri, ab and uri, rel and iri, rel and uri]
        rows.append('  (%s, [%s])' % (lean(s), ', '.join('some ' + str(x).lower() for x in e)))
    body += '/-- `STRINGS`, `/repo/tests/utils/mod.rs`. -/\ndef strings : List (Str × List (Option Bool)) := [\n' + ',\n'.join(rows) + ']\n\n'
    body += ex('(strings.all fun c => accepts c.1 == c.2)')
    write('Interop', 'string_types_interop.rs` and `/repo/tests/utils/mod.rs', body)
    return n

def svalue(v):
    if v == 'Undefined': return '.undefined'
    k, x = v
    if k == 'String': return '.string ' + lean(x)
    if k == 'List': return '.list [%s]' % ', '.join(map(lean, x))
    return '.assoc [%s]' % ', '.join('(%s, %s)' % (lean(a), lean(b)) for a, b in x)

def rust_value(src):
    src = src.strip().rstrip(',').strip()
    strs = [unesc(t) for t in re.findall(r'"(?:\\.|[^"\\])*"', src)]
    if src.startswith('Value::Undefined'): return 'Undefined'
    if src.startswith('Value::String'): return ('String', strs[0])
    if src.startswith('Value::List'): return ('List', strs)
    if src.startswith('Value::Assoc'): return ('Assoc', list(zip(strs[::2], strs[1::2])))
    assert src.startswith('"'), src
    return ('String', strs[0])

def template():
    text = read('template.rs')
    n = 0
    body = ''
    def ctx(name, fn):
        nonlocal body
        b = text[text.index('fn %s(' % fn):]
        b = b[:b.index('\n}\n')]
        ins = re.findall(r'\b(?:ctx|context)\.insert\(\s*"(\w+)",\s*(.*?)\s*\);\n', b, re.S)
        body += 'def %s : Tpl.Ctx := Tpl.Ctx.ofSimple (simple [\n  %s])\n\n' % (name, ',\n  '.join('(%s, %s)' % (lean(k), svalue(rust_value(v))) for k, v in ins))
        return b
    def cases(name, cname, t):
        nonlocal body, n
        n += len(t)
        body += 'def %s : List (Str × Str) := [\n  %s]\n\n' % (name, ',\n  '.join('(%s, %s)' % (lean(a), lean(b)) for a, b in t))
        body += ex('(%s.all fun c => expands .uri %s c.1 c.2)' % (name, cname)) + '\n'
    ctx('rfc6570Context', 'rfc6570_context')
    cases('rfc6570Cases', 'rfc6570Context', table(text, 'const SUCCESS_CASES'))
    b = ctx('prefixContext', 'prefix_modifier_for_percent_encoded_content')
    cases('prefixCases', 'prefixContext', table(b, 'const CASES'))
    b = ctx('incompleteContext', 'incomplete_percent_encode')
    cases('incompleteCases', 'incompleteContext', table(b, 'const CASES'))
    b = text[text.index('fn fragmented_write('):]
    body += '''/-- `MyContext` of `fragmented_write`: every character is written by itself. -/
def fragmentedContext : Tpl.Ctx := fun _ name =>
  if name == (chars! "incomplete1") then .string ((chars! "%ce%b1%").map fun c => [c])
  else if name == (chars! "incomplete2") then .string ((chars! "%ce%b1%c").map fun c => [c])
  else if name == (chars! "incomplete3") then .string ((chars! "%ce%b1%ce").map fun c => [c])
  else .undefined

'''
    cases('fragmentedCases', 'fragmentedContext', table(b, 'const CASES'))
    body += '''/-- `github_issue_39`: the state records the two callbacks. -/
example : (match Tpl.expand_dynamic_to_string .uri true
      (⟨fun _ _ s => (.undefined, s), fun s => (true, s.2), fun s => (s.1, true)⟩ :
        Tpl.DynCtx (Bool × Bool)) (chars! "hello/{world}") (false, false) with
    | some (.ok s, st) => s == (chars! "hello/") && st == (true, true)
    | _ => false) = true := by decide +kernel
'''
    write('Template', 'template.rs', body)
    return n

def misc():
    body = ''
    n = 0
    text = read('percent_encode.rs')
    for m in re.finditer(r'fn (\w+)\(\) \{\s*let encoded = PercentEncodedFor(Uri|Iri)::(\w+)\(("(?:\\.|[^"\\])*")\);\s*let expected = ("(?:\\.|[^"\\])*");', text):
        body += ex('(%s .%s [%s] == %s)' % (m.group(3), m.group(2).lower(), lean(unesc(m.group(4))), lean(unesc(m.group(5)))))
        n += 1
    for c in table(read('iri.rs'), 'const CASES'):
        i, u = lean(c['iri']), lean(c['uri'])
        body += ex('(encode_to_uri %s == some %s && encode_to_uri %s == some %s &&\n    encode_to_uri_inline %s == some %s && encode_to_uri_inline %s == some %s)' % (i, u, u, u, i, u, u, u))
        n += 1
    return body, n

if __name__ == '__main__':
    print('components', components())
    print('resolve', resolve())
    print('interop', interop())
    print('template', template())
    b, n = misc()
    b += open('/verif/tools/conformance_manual.txt').read()
    write('Misc', 'percent_encode.rs`, `iri.rs`, `build.rs`, `gh-issues.rs', b)
    print('misc', n)
