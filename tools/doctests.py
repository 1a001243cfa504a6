#!/usr/bin/env python3
"""Translates the documentation examples of /repo/src (straight-line code over the public API) into
evaluations of the model: lean/Verif/Conformance/Doc*.lean.  What it does not understand is listed in
tools/doctests.skipped."""
import re, os, sys
sys.path.insert(0, os.path.dirname(os.path.abspath(__file__)))
from conformance import unesc, lean, END, OUT

TOK = re.compile(r'''//[^\n]*|\s+|b?"(?:\\.|[^"\\])*"|b'(?:\\.|[^'\\])'|'_\b|[A-Za-z_][A-Za-z0-9_]*!?|\d[0-9a-zA-Z_]*|::|=>|==|&&|\.\.|->|.''', re.S)

class Skip(Exception):
    pass

def blocks():
    for d, _, fs in sorted(os.walk('/repo/src')):
        for f in sorted(fs):
            if not f.endswith('.rs'):
                continue
            p = os.path.join(d, f)
            lines = open(p).read().split('\n')
            i = 0
            while i < len(lines):
                m = re.match(r'//[/!] ```(\S*)', lines[i].strip())
                if m:
                    body = []; start = i + 1; i += 1
                    while not re.match(r'//[/!] ```', lines[i].strip()):
                        b = re.sub(r'^\s*//[/!] ?', '', lines[i]); b = re.sub(r'^#( |$)', '', b)
                        body.append(b); i += 1
                    if m.group(1) != 'text':
                        yield p[len('/repo/'):], start, '\n'.join(body)
                i += 1

def macro_blocks():
    """the examples of `impl_conversion_between_uri!` in src/types/iri.rs, instantiated"""
    text = open('/repo/src/types/iri.rs').read()
    params = ['ty_owned_iri', 'ty_owned_uri', 'ty_borrowed_iri', 'ty_borrowed_uri', 'example_iri', 'example_uri']
    m = re.search(r'macro_rules! impl_conversion_between_uri \{\s*\((.*?)\) => ', text, re.S)
    params = re.findall(r'\$(\w+):', m.group(1))
    for p, start, body in blocks():
        if p != 'src/types/iri.rs':
            continue
        for inst in re.finditer(r'\nimpl_conversion_between_uri!\(\s*(.*?)\n\);', text, re.S):
            args = [a.strip() for a in re.findall(r'"(?:\\.|[^"\\])*"|\w+', inst.group(1))]
            env = dict(zip(params, args))
            out = []
            for l in body.split('\n'):
                d = re.match(r'\s*#\[doc = concat!\((.*)\)\]\s*$', l)
                if d:
                    r = ''
                    for part in re.findall(r'"(?:\\.|[^"\\])*"|stringify!\(\$(\w+)\)', d.group(1)):
                        pass
                    for q in re.finditer(r'("(?:\\.|[^"\\])*")|stringify!\(\$(\w+)\)', d.group(1)):
                        r += unesc(q.group(1)) if q.group(1) else env[q.group(2)]
                    out.append(re.sub(r'^# ', '', r))
                else:
                    out.append(l)
            yield p, start, '\n'.join(out)

SPECS = {'UriSpec': '.uri', 'IriSpec': '.iri'}
KINDS = {'Reference': '.reference', '': '.iri', 'Absolute': '.absolute', 'Relative': '.relative'}

def iri_type(name):
    m = re.fullmatch(r'(Iri|Uri)(Reference|Absolute|Relative|Query|Fragment|)(Str|String)', name)
    if not m:
        return None
    S = '.' + m.group(1).lower()
    if m.group(2) in ('Query', 'Fragment'):
        return ('part', S, m.group(2).lower())
    return ('iri', S, KINDS[m.group(2)])

def pure(x): return '(some %s)' % x

def strlike(ty): return ty == 'str' or (isinstance(ty, tuple) and ty[0] in ('iri', 'part', 'disp', 'template'))

class V:
    def __init__(self, ty, e, **kw):
        self.ty, self.e = ty, e
        self.__dict__.update(kw)

class Ev:
    def __init__(self, toks):
        self.t = toks; self.i = 0; self.env = {}; self.out = []
    def peek(self, k=0): return self.t[self.i + k] if self.i + k < len(self.t) else None
    def next(self):
        self.i += 1
        if self.i > len(self.t): raise Skip('eof')
        return self.t[self.i - 1]
    def eat(self, x):
        if self.peek() == x:
            self.i += 1; return True
        return False
    def expect(self, x):
        t = self.next()
        if t != x: raise Skip('expected %s got %s' % (x, t))
    # ---- statements
    def run(self):
        while self.peek() is not None:
            self.stmt()
    def skip_attr(self):
        depth = 0
        self.expect('[')
        depth = 1
        while depth:
            t = self.next()
            depth += (t == '[') - (t == ']')
    def stmt(self):
        t = self.peek()
        if t == '#':
            self.next()
            cfg = ''.join(self.t[self.i:self.i + 12])
            self.skip_attr()
            if cfg.startswith('[cfg(not('):
                if self.peek() == 'use':
                    while self.next() != ';': pass
            return
        if t in ('{', '}', ';'):
            self.next(); return
        if t in ('use', 'extern'):
            while self.next() != ';': pass
            return
        if t == 'fn' and self.peek(1) in ('conv_idna', 'apply_idna'):
            while self.next() != '{': pass
            depth = 1
            while depth:
                u = self.next(); depth += (u == '{') - (u == '}')
            return
        if t == 'let':
            self.next(); self.eat('mut')
            if self.peek() == '(':
                self.next(); names = []
                while not self.eat(')'):
                    names.append(self.next()); self.eat(',')
            else:
                names = self.next()
            if self.eat(':'):
                while self.peek() != '=': self.next()
            self.expect('=')
            v = self.expr()
            self.expect(';')
            if isinstance(names, list):
                if v.ty != 'tuple': raise Skip('tuple pattern')
                for n, x in zip(names, v.items): self.env[n] = x
            else:
                self.env[names] = v; v.mutname = names
            return
        if t in ('assert!', 'debug_assert!'):
            self.next(); self.expect('(')
            v = self.expr(); self.rest_args()
            if v.ty != 'bool': raise Skip('assert of ' + str(v.ty))
            self.out.append('%s == some true' % v.e)
            return
        if t in ('assert_eq!', 'debug_assert_eq!'):
            self.next(); self.expect('(')
            a = self.expr(); self.expect(','); b = self.expr(); self.rest_args()
            self.out.append(self.agree(a, b))
            return
        if t == 'Ok':
            self.i = len(self.t); return
        self.expr()
        self.expect(';')
    def agree(self, a, b):
        if a.ty == 'err':
            return 'agree %s %s && agree %s %s' % (a.e, b.e, a.orig.e, b.orig.e)
        return 'agree %s %s' % (a.e, b.e)
    def rest_args(self):
        depth = 1
        while depth:
            u = self.next(); depth += (u in '([{') - (u in ')]}') if len(u) == 1 else 0
        self.eat(';')
    # ---- expressions
    def args(self):
        r = []
        self.expect('(')
        while not self.eat(')'):
            r.append(self.expr()); self.eat(',')
        return r
    def generics(self):
        """after `::`, `<...>`"""
        self.expect('<'); depth = 1; r = []
        while depth:
            u = self.next(); depth += (u == '<') - (u == '>')
            if depth: r.append(u)
        return r
    def expr(self):
        if self.eat('!'):
            v = self.expr()
            if v.ty != 'bool': raise Skip('not')
            return V('bool', '(%s.map not)' % v.e)
        while self.peek() in ('&', 'mut', '*'): self.next()
        v = self.atom()
        while True:
            if self.eat('?'):
                v = self.unwrap(v)
            elif self.peek() == '.' :
                self.next()
                m = self.next()
                g = None
                if self.peek() == '::':
                    self.next(); g = self.generics()
                if self.peek() != '(':
                    raise Skip('field ' + m)
                v = self.method(v, m, g)
            elif self.peek() == '[':
                # &b"..."[..]
                self.next(); self.expect('..'); self.expect(']')
            else:
                return v
    def unwrap(self, v):
        if isinstance(v.ty, tuple) and v.ty[0] in ('res', 'opt'):
            r = V(v.ty[1], '(%s.bind id)' % v.e)
            for k in ('inp', 'ensure', 'items', 'valid'):
                if hasattr(v, k): setattr(r, k, getattr(v, k))
            return r
        raise Skip('unwrap of ' + str(v.ty))
    def atom(self):
        t = self.next()
        if t.startswith('b"'):
            return V('bytes', pure('[%s]' % ', '.join(str(c) for c in unesc(t[1:]).encode('latin1'))))
        if t.startswith("b'"):
            return V('byte', pure(str(ord(t[2:-1]))))
        if t.startswith('"'):
            return V('str', pure(lean(unesc(t))), lit=lean(unesc(t)))
        if t == '(':
            items = []
            while not self.eat(')'):
                items.append(self.expr()); self.eat(',')
            return V('tuple', '?', items=items)
        if t in ('Some', 'Ok') and self.peek() == '(':
            a = self.args()[0]
            return V(('opt' if t == 'Some' else 'res', a.ty), '(%s.map some)' % a.e, some=a)
        if t == 'None':
            return V(('opt', '?'), pure('none'), some=None)
        if t == 'Err':
            a = self.args()[0]
            return V('err', pure('none'), orig=a)
        if t[0].isdigit():
            m = re.match(r'(\d+)(?:_u8|_u16)?$', t)
            return V('int', m.group(1))
        if t in self.env:
            return self.env[t]
        if t in ('conv_idna', 'apply_idna') and self.peek() == '(':
            self.args()
            s = 'xn--mxa.example.com' if t == 'conv_idna' else 'alpha.xn--mxa.example.com'
            return V('str', pure(lean(s)), lit=lean(s))
        if t == 'decode_whatwg_bytes':
            a = self.args()[0]
            return V('decoder', a.e)
        if t == 'std':
            for x in ('::', 'net', '::', 'Ipv4Addr', '::', 'new'): self.expect(x)
            a = self.args()
            return V('ipv4', ' '.join(x.e for x in a))
        # free functions of validate: name::<Spec>(s)
        if self.peek() == '::' and self.peek(1) == '<' and t[0].islower():
            self.next(); g = self.generics()
            S = SPECS.get(g[0])
            return self.validator(t, S)
        if t[0].islower() and self.peek() == '(':
            return self.validator(t, None)
        # paths
        path = [t]; g = None
        while self.peek() == '::':
            self.next()
            if self.peek() == '<': g = self.generics()
            else: path.append(self.next())
        if self.peek() != '(' : raise Skip('path ' + '::'.join(path))
        return self.call(path, g)
    def validator(self, name, S):
        vs = {'iri': 'newIri S .iri', 'iri_reference': 'newIri S .reference', 'absolute_iri': 'newIri S .absolute',
              'relative_ref': 'newIri S .relative'}
        cs = {'path': 'validate_path', 'path_segment': 'validate_path_segment', 'query': 'validate_query',
              'fragment': 'validate_fragment', 'authority': 'validate_authority', 'host': 'validate_host',
              'userinfo': 'validate_userinfo', 'reg_name': 'validate_reg_name'}
        a = self.args()
        if len(a) != 1: raise Skip('call ' + name)
        a = a[0]
        if name in vs and S:
            return V(('res', 'str'), '(%s.bind fun s => %s s)' % (a.e, vs[name].replace('S', S)))
        if name in cs and S:
            return V(('res', 'str'), '(%s.bind fun s => check (some (%s %s s)) s)' % (a.e, cs[name], S))
        if name in ('scheme', 'port') and S is None:
            return V(('res', 'str'), '(%s.bind fun s => check (some (validate_%s s)) s)' % (a.e, name))
        raise Skip('function ' + name)
    def mk(self, ty, e):
        """Result of T::new(e)"""
        if ty[0] == 'iri':
            return V(('res', ty), '(%s.bind fun s => newIri %s %s s)' % (e, ty[1], ty[2]))
        return V(('res', ty), '(%s.bind fun s => check (some (validate_%s %s s)) s)' % (e, ty[2], ty[1]))
    def call(self, path, g):
        name = '::'.join(path)
        if name == 'Builder::new':
            self.args(); return V('builder', '({} : Builder)', base='({} : Builder)', ops=[])
        if name == 'Builder::from':
            a = self.args()[0]
            return V('builder', None, base='(%s.bind fun s => Builder.from_iri s)' % a.e, ops=[], opt=True)
        if name == 'SimpleContext::new':
            self.args(); return V('ctx', None, ops=[])
        if name == 'FixedBaseResolver::new':
            a = self.args()[0]; return V(('resolver', a.ty), a.e)
        if name == 'MappedToUri::from':
            a = self.args()[0]; return V('str', '(%s.bind fun s => encode_to_uri s)' % a.e)
        if name in ('Value::Undefined',):
            raise Skip(name)
        if path[0] in ('PercentEncoded', 'PercentEncodedForUri', 'PercentEncodedForIri') and len(path) == 2:
            S = '.uri' if path[0] == 'PercentEncodedForUri' else '.iri' if path[0] == 'PercentEncodedForIri' else SPECS[g[-1]]
            a = self.args()[0]
            return V('str', '(%s.map fun s => %s %s [s])' % (a.e, path[1], S))
        if name == 'DecodedFragment::Direct':
            a = self.args()[0]; return V('frag', '(%s.map DecodedFragment.direct)' % a.e)
        if name == 'DecodedFragment::DecodedByte':
            a = self.args()[0]; return V('frag', '(%s.map DecodedFragment.decodedByte)' % a.e)
        if name in ('UriTemplateStr::new',):
            a = self.args()[0]; return V(('res', ('template',)), '(%s.bind newTemplate)' % a.e)
        if name == 'VarName::new':
            a = self.args()[0]
            return V(('res', 'str'), '(%s.bind fun s => match Tpl.validate_varname s 0 with | .ok _ => some (some s) | .err _ _ => some none | .panic => none)' % a.e)
        ty = iri_type(path[0])
        if ty and len(path) == 2 and path[1] in ('new', 'try_from'):
            return self.mk(ty, self.args()[0].e)
        if ty and len(path) == 2 and path[1] == 'from_prefixed':
            a = self.args()[0]
            n = {'query': 'RiQueryStr', 'fragment': 'RiFragmentStr'}[ty[2]]
            return V(('res', ty), '(%s.map fun s => %s.from_prefixed %s s)' % (a.e, n, ty[1]))
        if ty and len(path) == 2 and path[1] == 'from':
            return self.args()[0]
        raise Skip('path ' + name)
    def bexpr(self, v):
        ops = '[%s]' % ', '.join(v.ops)
        if getattr(v, 'opt', False): return '(%s.map fun b => b.run %s)' % (v.base, ops)
        return pure('(%s.run %s)' % (v.base, ops))
    def sval(self, v):
        if v.ty == 'str': return '.string %s' % v.lit
        raise Skip('value')
    def method(self, v, m, g):
        ty = v.ty
        if m in ('expect', 'unwrap'):
            self.args(); return self.unwrap(v)
        if ty == 'builder':
            if m == 'clone':
                self.args(); return V('builder', None, base=v.base, ops=list(v.ops), opt=getattr(v, 'opt', False))
            if m == 'build':
                self.args(); t = iri_type(g[0])
                b = self.bexpr(v)
                return V(('res', ('disp', t[1], t[2])), '(%s.bind fun b => built %s %s b)' % (b, t[1], t[2]),
                         ensure='(%s.bind fun b => builtNormalizable %s %s b)' % (b, t[1], t[2]))
            a = self.args()
            def raw(x):
                if x.ty == 'str' and hasattr(x, 'lit'): return x.lit
                raise Skip('builder arg')
            if m in ('scheme', 'path', 'host', 'query', 'fragment'): op = '.%s %s' % (m, raw(a[0]))
            elif m.startswith('unset_') or m == 'normalize': op = '.' + m
            elif m == 'port': op = '.port (.integer %s)' % a[0].e if a[0].ty == 'int' else '.port (.string %s)' % raw(a[0])
            elif m == 'userinfo':
                if a[0].ty == 'tuple':
                    u, p = a[0].items
                    if isinstance(p.ty, tuple): p = p.some
                    op = '.userinfo (.userPass %s %s)' % (raw(u), 'none' if p is None else '(some %s)' % raw(p))
                else: op = '.userinfo (.direct %s)' % raw(a[0])
            elif m == 'ip_address': op = '.ip_address_v4 ' + a[0].e
            else: raise Skip('builder.' + m)
            v.ops.append(op)
            return V('unit', '()')
        if ty == 'ctx':
            if m == 'insert':
                k = self.next() and self.next()
                key = lean(unesc(k)); self.expect(',')
                if self.peek() == 'Value':
                    s = ''.join(self.next() for _ in range(3))
                    if s != 'Value::Undefined': raise Skip('Value')
                    val = '.undefined'
                else: val = self.sval(self.expr())
                self.expect(')')
                v.ops.append('(%s, %s)' % (key, val)); return V('unit', '()')
            if m == 'clear':
                self.args(); v.ops.clear(); return V('unit', '()')
            raise Skip('ctx.' + m)
        a = None
        if ty == ('template',) and m == 'expand':
            S = SPECS[g[0]]
            a = self.args()[0]
            if a.ty != 'ctx': raise Skip('context')
            return V(('res', 'str'), '(%s.bind fun t => expandRes %s (Tpl.Ctx.ofSimple (simple [%s])) t)' % (v.e, S, ', '.join(a.ops)))
        if m in ('map', 'map_err'):
            # closures: only `|x| x.method()` forms that keep the value
            self.expect('('); depth = 1; body = []
            while depth:
                u = self.next(); depth += (u == '(') - (u == ')')
                if depth: body.append(u)
            b = ''.join(body)
            if b in ('|s|s.as_str()', '|var|var.as_str()', '|e|e.validation_error()', 'AsRef::as_ref', '|uri|uri.to_string()'):
                return v
            if m == 'map_err' and b == '|iri|iri.to_string()':
                return V('err', v.e, orig=v.orig)
            raise Skip('closure ' + b)
        a = self.args()
        if m in ('is_ok', 'is_err') and isinstance(ty, tuple) and ty[0] == 'res':
            return V('bool', '(%s.map Option.%s)' % (v.e, 'isSome' if m == 'is_ok' else 'isNone'))
        if m in ('is_ok', 'is_err') and ty == 'ensure':
            return V('bool', v.e if m == 'is_ok' else '(%s.map not)' % v.e)
        if m in ('to_string', 'as_str', 'to_owned', 'into', 'clone', 'as_slice', 'to_dedicated_string') and strlike(ty):
            if ty[0] == 'disp' and m in ('to_dedicated_string', 'into'):
                return V(('iri', ty[1], ty[2]), v.e)
            if m == 'to_string': return V('str', v.e, **({'lit': v.lit} if hasattr(v, 'lit') else {'lit': '(%s).get!' % v.e} if False else {}))
            return v
        if m == 'len' and strlike(ty): return V('nat', '(%s.map blen)' % v.e)
        if m == 'is_empty' and strlike(ty): return V('bool', '(%s.map List.isEmpty)' % v.e)
        if m == 'parse': return self.mk(iri_type(g[0]), v.e)
        if isinstance(ty, tuple) and ty[0] == 'disp' and m == 'ensure_rfc3986_normalizable':
            return V('ensure', v.ensure)
        if isinstance(ty, tuple) and ty[0] == 'resolver':
            if m == 'base': return V(ty[1], v.e)
            if m == 'resolve': return self.resolved(ty[1], v.e, a[0].e)
            return self.iri_method(V(ty[1], v.e), m, a)
        if isinstance(ty, tuple) and (ty[0] == 'iri' or ty[0] == 'part' and 'uri' in m): return self.iri_method(v, m, a)
        if ty == 'auth':
            if m == 'host': return V('str', '(%s.bind fun x => x.host)' % v.e)
            if m in ('userinfo', 'port', 'reg_name'): return V(('opt', 'str'), '(%s.bind fun x => x.%s)' % (v.e, m))
        if ty == 'masked':
            if m in ('to_string',): return V('str', '(%s.bind mask_password)' % v.e)
            if m in ('to_dedicated_string',): return V('str', '(%s.bind mask_password_dedicated)' % v.e)
            if m == 'replace_password':
                return V('str', '(%s.bind fun s => replace_password_with s fun _ => %s)' % (v.e, a[0].lit))
        if ty == 'decoder':
            if m == 'not_yet_decoded': return V('bytes', v.e)
            if m == 'into_bytes': return V('bytes', '(%s.bind into_bytes)' % v.e)
            if m == 'to_bytes': return V(('opt', 'bytes'), '(%s.bind to_bytes)' % v.e)
            if m == 'into_string': return V(('res', 'str'), '(%s.bind into_string)' % v.e)
        if ty == ('template',) and m == 'variables':
            return V('vars', v.e, pos=0)
        if ty == 'vars' and m == 'next':
            v.pos += 1
            return V(('opt', 'str'), '((%s.bind Tpl.variables).map fun l => l[%d]?)' % (v.e, v.pos - 1))
        raise Skip('method %s on %s' % (m, ty))
    def resolved(self, t, base, ref):
        return V(('disp', t[1], '.iri'), '(%s.bind fun b => %s.bind fun r => resolve %s .off b r)' % (base, ref, t[1]),
                 ensure='(%s.bind fun b => %s.bind fun r => resolve_ensure_rfc3986_normalizable b r)' % (base, ref))
    def iri_method(self, v, m, a):
        _, S, k = v.ty
        e = v.e
        if m == 'scheme_str':
            x = '(%s.bind fun s => schemeStr %s s)' % (e, k)
            return V(('opt', 'str'), x) if k == '.reference' else V('str', '(%s.bind id)' % x)
        if m == 'authority_str': return V(('opt', 'str'), '(%s.bind fun s => authorityStr %s s)' % (e, k))
        if m == 'path_str': return V('str', '(%s.bind fun s => pathStr %s s)' % (e, k))
        if m in ('query', 'query_str'): return V(('opt', 'str'), '(%s.bind fun s => queryStr %s s)' % (e, k))
        if m in ('fragment', 'fragment_str'): return V(('opt', 'str'), '(%s.bind fun s => fragmentStr %s s)' % (e, k))
        if m == 'authority_components':
            return V(('opt', 'auth'), '(%s.map fun s => RiReferenceStr.authority_components s)' % e)
        if m == 'ensure_rfc3986_normalizable': return V('ensure', '(%s.bind ensure_rfc3986_normalizable)' % e)
        if m == 'is_normalized': return V('bool', '(%s.bind fun s => is_normalized %s .default s)' % (e, S))
        if m == 'is_normalized_rfc3986': return V('bool', '(%s.bind fun s => is_normalized %s .rfc3986 s)' % (e, S))
        if m == 'is_normalized_but_authorityless_relative_path_preserved':
            return V('bool', '(%s.bind fun s => is_normalized %s .preserve s)' % (e, S))
        if m in ('normalize', 'normalize_but_preserve_authorityless_relative_path'):
            return V(('disp', S, k), '(%s.bind fun s => %s %s s)' % (e, m, S), ensure='(%s.bind ensure_rfc3986_normalizable)' % e)
        if m == 'mask_password': return V('masked', e)
        if m == 'resolve_against': return self.resolved(v.ty, a[0].e, e)
        if m == 'to_absolute': return V(('iri', S, '.absolute'), '(%s.bind RiStr.to_absolute)' % e)
        if m == 'into_absolute': return V(('iri', S, '.absolute'), '(%s.map RiString.into_absolute)' % e)
        if m == 'to_absolute_and_fragment':
            x = '(%s.map RiStr.to_absolute_and_fragment)' % e
        if m == 'into_absolute_and_fragment':
            x = '(%s.bind RiString.into_absolute_and_fragment)' % e
        if m in ('to_absolute_and_fragment', 'into_absolute_and_fragment'):
            return V('tuple', '?', items=[V(('iri', S, '.absolute'), '(%s.map Prod.fst)' % x), V(('opt', 'str'), '(%s.map Prod.snd)' % x)])
        if m == 'encode_to_uri': return V(('disp', '.uri', k), '(%s.bind encode_to_uri)' % e)
        if m in ('encode_into_uri',): return V(('iri', '.uri', k), '(%s.bind encode_to_uri_inline)' % e)
        if m in ('try_encode_into_uri',): return V(('res', ('iri', '.uri', k)), '((%s.bind encode_to_uri_inline).map some)' % e)
        if m in ('as_uri', 'try_into_uri'): return V(('opt', ('iri', '.uri', k)), '(%s.map as_uri)' % e, orig=V(v.ty, e))
        # mutation in place
        if m in ('encode_to_uri_inline', 'try_encode_to_uri_inline'):
            v.e = '(%s.bind encode_to_uri_inline)' % e
            return V(('res', 'unit'), '?') if m.startswith('try') else V('unit', '()')
        if m == 'set_fragment':
            x = a[0].some
            arg = 'none' if x is None else '(some f)'
            v.e = '(%s.map fun s => RiString.set_fragment s none)' % e if x is None else '(%s.bind fun f => %s.map fun s => RiString.set_fragment s (some f))' % (x.e, e)
            return V('unit', '()')
        if m in ('remove_password_inline', 'remove_nonempty_password_inline'):
            v.e = '(%s.bind fun s => %s true %s %s s)' % (e, m, S, k); return V('unit', '()')
        if m in ('replace_host', 'replace_host_reg_name'):
            x = '(%s.bind fun s => %s.bind fun h => %s true %s %s s h)' % (e, a[0].e, m, S, k)
            v.e = '(%s.map Prod.fst)' % x
            return V(('opt', 'str'), '(%s.map Prod.snd)' % x)
        raise Skip('iri method ' + m)

def translate(src):
    toks = []
    for t in TOK.findall(src):
        if t.isspace() or t.startswith('//'): continue
        toks.append(t)
    ev = Ev(toks)
    ev.run()
    return ev.out

def main():
    groups = {}
    skipped = []
    n = total = 0
    for path, line, src in [b for b in blocks() if b[0] != 'src/types/iri.rs'] + list(macro_blocks()):
        asserts = len(re.findall(r'\bassert', src))
        total += asserts
        try:
            out = translate(src)
        except Skip as e:
            skipped.append('%s:%d (%d asserts): %s' % (path, line, asserts, e))
            continue
        if out:
            n += len(out)
            groups.setdefault(path, []).append((line, out))
    names = []
    files = {'Doc' + {'src/validate.rs': 'Validate', 'src/types/generic/normal.rs': 'Normal', 'src/types/generic/reference.rs': 'Reference',
             'src/types/generic/absolute.rs': 'Absolute', 'src/types/generic/relative.rs': 'Relative'}.get(p, 'Misc'): [] for p in groups}
    for p, l in groups.items():
        k = 'Doc' + {'src/validate.rs': 'Validate', 'src/types/generic/normal.rs': 'Normal', 'src/types/generic/reference.rs': 'Reference',
             'src/types/generic/absolute.rs': 'Absolute', 'src/types/generic/relative.rs': 'Relative'}.get(p, 'Misc')
        files[k].append((p, l))
    for k, ps in files.items():
        body = ''
        for p, l in ps:
            for line, out in l:
                body += '/-! `%s` %d -/\nexample : (%s) = true := by decide +kernel\n\n' % (p, line, ' &&\n    '.join('(%s)' % o for o in out))
        with open(OUT + k + '.lean', 'w') as f:
            f.write('''import Verif.Conformance.Harness

/-! Generated by `tools/doctests.py` from the documentation examples of `/repo/src`.  Tests of the
model, not proofs. -/

namespace Verif.Conformance

''' + body + END)
    open('/verif/tools/doctests.skipped', 'w').write('\n'.join(skipped) + '\n')
    print('asserts', total, 'translated', n, 'skipped blocks', len(skipped))

if __name__ == '__main__':
    main()
