#!/usr/bin/env python3
"""Run the test suite of /repo (tests/*.rs) against the model: the expectations of the Rust tests are read from the
test files, turned into a Lean script and evaluated (by the interpreter: this is testing, not proof).
usage: run.py            (from anywhere; needs a built /verif/lean)"""
import re, subprocess, sys, os, tempfile
REPO = '/repo/tests/'
HERE = os.path.dirname(os.path.abspath(__file__))

class P:
    """A small reader of Rust expressions."""
    def __init__(s, t, i=0): s.t = t; s.i = i
    def ws(s):
        while True:
            m = re.compile(r'\s+|//[^\n]*').match(s.t, s.i)
            if not m: return
            s.i = m.end()
    def eat(s, x):
        s.ws()
        if s.t.startswith(x, s.i): s.i += len(x); return True
        return False
    def string(s):
        s.ws()
        m = re.compile(r'r(#*)"').match(s.t, s.i)
        if m:
            e = s.t.index('"' + m.group(1), m.end())
            r = s.t[m.end():e]; s.i = e + 1 + len(m.group(1)); return r
        if not s.t.startswith('"', s.i): return None
        i = s.i + 1; r = ''
        while s.t[i] != '"':
            if s.t[i] == '\\':
                c = s.t[i+1]
                if c == '\n':
                    i += 2
                    while s.t[i].isspace(): i += 1
                    continue
                r += {'n': '\n', 'r': '\r', 't': '\t', '\\': '\\', '"': '"', '0': '\0'}[c]; i += 2
            else: r += s.t[i]; i += 1
        s.i = i + 1; return r
    def balanced(s):
        """Text up to the bracket that closes the one just read."""
        d = 1; st = s.i
        while d:
            if re.compile(r'r#*"|"').match(s.t, s.i): s.string(); continue
            c = s.t[s.i]
            if c in '([{': d += 1
            if c in ')]}': d -= 1
            s.i += 1
        return s.t[st:s.i-1]
    def value(s):
        """A value inside `value!`, as Lean."""
        s.ws()
        x = s.string()
        if x is not None: return '(S %s)' % lean(x)
        if s.eat('['):
            l = []
            while not s.eat(']'):
                if s.eat(','): continue
                l.append(s.value())
            return '(Value.list [%s])' % ', '.join(l)
        if s.eat('{'): return s.entries('}')
        m = re.compile(r'(-?\d+\.\d+)(_?f64)?').match(s.t, s.i)
        if m: s.i = m.end(); return '(F (%s))' % m.group(1)
        m = re.compile(r'(-?\d+)(_?[iu]\d+)?').match(s.t, s.i)
        if m: s.i = m.end(); return '(Value.integer (%s))' % m.group(1)
        m = re.compile(r'[\w.()]+').match(s.t, s.i)
        w = m.group(0)
        while w.count(')') > w.count('('): w = w[:-1]
        s.i += len(w)
        if w == 'None': return 'Value.none'
        if w in ('true', 'false'): return '(Value.bool %s)' % w
        if w in ('t', 't.clone()', 'f', 'f.clone()'): return w[0]
        if w in ('value.clone()', 'value', 'falsy.clone()', 'falsy'): return 'V'
        raise Exception('value ' + w)
    def entries(s, end):
        l = []
        while not s.eat(end):
            if s.eat(','): continue
            s.ws()
            k = re.compile(r'\w+').match(s.t, s.i); s.i = k.end()
            assert s.eat(':')
            l.append('(%s, %s)' % (lean(k.group(0)), s.value()))
        return '(M [%s])' % ', '.join(l)

def lean(x): return '"' + x.replace('\\', '\\\\').replace('"', '\\"').replace('\n', '\\n').replace('\r', '\\r').replace('\t', '\\t') + '"'

def norm(x): return re.sub(r'\s+', ' ', x.strip().rstrip(','))
FILTERS = {
 'str::to_uppercase': 'str1 .str String.toUpper',
 '|v: String| v.to_lowercase()': 'str1 .string String.toLower',
 '|mut v: String, a: String| { v.push_str(&a); v }': 'strs .string [.string] String.join',
 '|v: String, from: String, to: String| { v.replace(&from, &to) }': 'strs .string [.string, .string] (fun l => (l[0]!).replace l[1]! l[2]!)',
 '|mut v: String, a: String, b: String, c: String| { v.push_str(&a); v.push_str(&b); v.push_str(&c); v }': 'strs .string [.string, .string, .string] String.join',
 '|mut v: String, a: String, b: String, c: String, d: String| { v.push_str(&a); v.push_str(&b); v.push_str(&c); v.push_str(&d); v }': 'strs .string [.string, .string, .string, .string] String.join',
 '|v: Value| v': 'id_ .value []',
 'Value::to_owned': 'id_ .valueRef []',
 '|v: &Value| v.clone()': 'id_ .valueRef []',
 '|v: Value, _: i64, _: i64, _: i64| v': 'id_ .value [.int .i64, .int .i64, .int .i64]',
 '|v: &str| v.to_owned()': 'id_ .str []',
 '|v: &[Value]| v[0].clone()': '⟨.listRef, [], fun v _ => match v with | .list (x :: _) => .ok x | _ => .error "?"⟩',
 '|v: &BTreeMap<String, Value>| v["john"].to_owned()': '⟨.mapRef, [], fun v _ => match v with | .map m => .ok ((BMap.get m "john".toList).getD .none) | _ => .error "?"⟩',
 '|mut name: String, surname: &str| { name.push_str(surname); name }': 'strs .string [.str] String.join',
 '|v: bool| v': 'id_ .bool []',
 '|v: Value, _: bool| v': 'id_ .value [.bool]',
 '|a: i8, b: i8| a + b': '⟨.int .i8, [.int .i8], fun v as => match v, as with | .int a, [.int b] => .ok (.integer (a + b)) | _, _ => .error "?"⟩',
 '|s1: &str, s2: &str| format!("{s2} {s1}")': 'strs .str [.str] (fun l => l[1]! ++ " " ++ l[0]!)',
 '|s: &str, i: i8| s.repeat(i as usize)': '⟨.str, [.int .i8], fun _ _ => .error "?"⟩',
 '|_: &Value| Err::<bool, _>("test error")': '⟨.valueRef, [], fun _ _ => .error "test error"⟩',
 '|mut list: Vec<Value>| { list.pop(); list }': '⟨.list, [], fun v _ => match v with | .list l => .ok (.list l.dropLast) | _ => .error "?"⟩',
 '|mut map: BTreeMap<String, Value>, key: &str| { map.remove(key); map }': '⟨.map, [.str], fun v as => match v, as with | .map m, [.str k] => .ok (.map (BMap.remove m k)) | _, _ => .error "?"⟩',
}
FORMATTERS = {'format_list': 'formatList', '|_, _| Ok(())': 'nothing', '|f, v| { writeln!(f, "{v:?}")?; Ok(()) }': 'debugFmt'}

done, skipped, out = [], [], []

def syntax(body):
    m = re.search(r'Syntax::builder\(\)(.*?)\.build\(\)', body, re.S)
    if not m: return 'none'
    d = {'expr': 'none', 'block': 'none', 'comment': 'none'}
    p = P(m.group(1))
    while p.eat('.'):
        w = re.compile(r'\w+').match(p.t, p.i); p.i = w.end(); p.eat('(')
        a = p.string(); p.eat(','); b = p.string(); p.eat(')')
        d[w.group(0)] = '(some (%s.toList, %s.toList))' % (lean(a), lean(b))
        p.ws()
    return '(some ⟨%s, %s, %s⟩)' % (d['expr'], d['block'], d['comment'])

def expect(body, i):
    """The expectation that follows position i."""
    c = []
    for kind, pat in [('format error', 'assert_format_err('), ('filter error', 'assert_filter_err('), (None, 'assert_err('), ('eq', 'assert_eq!(')]:
        j = body.find(pat, i)
        if kind is None and j > 0 and body[j-1] == '_': j = -1
        if j >= 0: c.append((j, kind, pat))
    if not c: return None
    j, kind, pat = min(c)
    p = P(body, j + len(pat))
    if kind == 'eq':
        m = re.compile(r'\s*(result|err\.to_string\(\)|w\.into_string\(\)|format!\("\{err:#\}"\)),').match(body, p.i)
        if not m: return None
        p.i = m.end(); s = p.string()
        if s is None: return None
        return (m.group(1), s)
    assert p.eat('&err,')
    r = p.string(); p.eat(','); pretty = p.string()
    return ('err', kind, r, pretty)

for f in ['compile.rs', 'lex.rs', 'render.rs', 'filters.rs', 'engine.rs', 'render_non_serde.rs']:
    t = open(REPO + f).read()
    base = 'invalid syntax' if f in ('compile.rs', 'lex.rs') else 'render error'
    for m in re.finditer(r'#\[test\](?:\s*#\[[^\]]*\])*\s*fn (\w+)\(\)[^{]*\{', t):
        name = f + '/' + m.group(1)
        p = P(t, m.end()); body = p.balanced()
        try:
            setup = []
            for s in re.finditer(r'\.(add_template|add_filter|add_formatter|set_default_formatter|set_max_include_depth)\(', body):
                q = P(body, s.end()); a = q.balanced(); k = s.group(1)
                if k == 'set_default_formatter': setup.append('.default ' + FORMATTERS[norm(a).lstrip('&')]); continue
                if k == 'set_max_include_depth': setup.append('.depth ' + a); continue
                q = P(a); n = q.string(); q.eat(',')
                if k == 'add_template':
                    src = q.string()
                    if src is None:
                        src = P(re.search(r'let source = String::from\((.*?)\);', body).group(1)).string()
                    setup.append('.tmpl %s %s' % (lean(n), lean(src)))
                else:
                    c = norm(a[q.i:])
                    if n == '_': continue
                    setup.append('.%s %s (%s)' % ('filter' if k == 'add_filter' else 'formatter', lean(n), (FILTERS if k == 'add_filter' else FORMATTERS)[c]))
            syn = syntax(body)
            setup = '[' + ', '.join(setup) + ']'
            n = 0
            loop = re.search(r'for (\w+) in (\w+)\(\) \{', body)
            for s in re.finditer(r'\.(compile|template)\(', body):
                q = P(body, s.end()); src = q.string()
                if src is None and re.match(r'&?source', body[q.i:]): 
                    src = P(re.search(r'let source = String::from\((.*?)\);', body).group(1)).string(); q.i += len(re.match(r'&?source', body[q.i:]).group(0))
                if src is None: raise Exception('source')
                q.eat(','); assert q.eat(')')
                q.eat('?') or q.eat('.unwrap()')
                if s.group(1) == 'compile' and q.eat('.unwrap_err()'):
                    e = expect(body, q.i)
                    out.append('#eval check %s (compiles %s %s) (Out.err %s %s)' % (lean(name), syn, lean(src),
                        lean(base + ': ' + e[2]), lean(base + '\n' + e[3].replace('REASON', e[2]))))
                    n += 1; continue
                if not q.eat('.'):
                    if q.eat(';'):
                        if 'render' in body: raise Exception('separate render')
                        out.append('#eval check %s (compiles %s %s) (Out.ok "")' % (lean(name), syn, lean(src))); n += 1; continue
                    raise Exception('tail')
                r = re.compile(r'(render|render_from|render_from_fn)\(').match(body, q.i)
                q.i = r.end(); arg = q.balanced()
                arg = re.sub(r'^\s*&engine,', '', arg).strip()
                if arg.startswith('value!') or arg.startswith('upon::value!'):
                    b = P(arg[arg.index('!')+1:]); b.ws(); assert b.eat('{'); v = b.entries('}')
                elif arg.startswith('Value::None'): v = 'Value.none'
                elif 'Value::String' in arg or arg == '&ctx':
                    v = '(M [("ipsum", M [("dolor", S "test")])])' if 'dolor' in body else '(M [("ipsum", S "test")])'
                elif arg == 'test_value_fn': v = None
                else: raise Exception('render arg ' + arg)
                g = '(Globals.fn valueFn)' if v is None else '(Globals.owned (.ok %s))' % v
                depth = 'none'
                d = re.compile(r'\s*\.with_max_include_depth\((\d+)\)').match(body, q.i)
                if d: depth = '(some %s)' % d.group(1); q.i = d.end()
                e = expect(body, q.i)
                src_ = ('.text ' if s.group(1) == 'compile' else '.named ') + lean(src)
                if q.eat('.to_writer(&mut w)'):
                    mx = re.search(r'with_max\((\d+)\)', body)
                    call = 'goW %s %s %s' % (mx.group(1) if mx else '1000000', lean(src), g)
                    if e[0] == 'w.into_string()':
                        out.append('#eval check %s (%s).1 (Out.ok "")\n#eval check %s (Out.ok (%s).2) (Out.ok %s)' % (lean(name), call, lean(name), call, lean(e[1])))
                    elif e[0] == 'format!("{err:#}")': out.append('#eval check %s (%s).1 (Out.err %s %s)' % (lean(name), call, lean(e[1]), lean(e[1])))
                    elif e[0] == 'err': out.append('#eval check %s (%s).1 (Out.err %s %s)' % (lean(name), call, lean(base + ': ' + e[2]), lean(base + '\n' + e[3].replace('REASON', e[2]))))
                    else: out.append('#eval check %s (match (%s).1 with | .err s _ => .err s "" | o => o) (Out.err %s "")' % (lean(name), call, lean(e[1])))
                    n += 1; continue
                call = 'go %s %s (%s) %s %s' % (syn, setup, src_, g, depth)
                if e is None: got, want = '(match %s with | .ok _ => .ok "" | o => o)' % call, '(Out.ok "")'
                elif e[0] == 'result': got, want = '(%s)' % call, '(Out.ok %s)' % lean(e[1])
                elif e[0] == 'err':
                    b = e[1] or base
                    got, want = '(%s)' % call, '(Out.err %s %s)' % (lean(b + ': ' + e[2]), lean(b + '\n' + e[3].replace('REASON', e[2])))
                else: got, want = '(match %s with | .err s _ => .err s "" | o => o)' % call, '(Out.err %s "")' % lean(e[1])
                if re.search(r'\bV\b', got):
                    got = '#eval %s.forM fun V => check %s %s %s' % (loop.group(2), lean(name), got, want)
                elif loop is None and 'zip(truthy(), falsy())' in body:
                    got = '#eval (truthy.zip falsy).forM fun (t, f) => check %s %s %s' % (lean(name), got, want)
                else: got = '#eval check %s %s %s' % (lean(name), got, want)
                out.append(got); n += 1
            if n == 0: raise Exception('nothing found')
            done.append(name)
        except Exception as ex:
            skipped.append((name, repr(ex)))
# unit tests inside src: the lexer and the automaton
def unit(path):
    t = open('/repo/src/' + path).read()
    return t[t.index('#[cfg(test)]\nmod tests'):]
t = unit('compile/lex.rs')
for m in re.finditer(r'#\[test\]\s*fn (\w+)\(\)[^{]*\{', t):
    body = P(t, m.end()).balanced()
    q = P(body, re.search(r'=\s*lex\(', body).end()); src = q.string(); toks = []
    for k in re.finditer(r'\(Token::(\w+), ', body[q.i:]):
        toks.append('(%s, %s)' % ('Token.' + k.group(1)[0].lower() + k.group(1)[1:], lean(P(body, q.i + k.end()).string())))
    out.append('#eval check %s (lexAll %s) (Out.ok (toString (repr ([%s] : List (Token × String)))))' % (lean('src/lex.rs/' + m.group(1)), lean(src), ', '.join(toks)))
    done.append('src/lex.rs/' + m.group(1))
t = unit('compile/search/ahocorasick/mod.rs')
for m in re.finditer(r'#\[test\]\s*fn (\w+)\(\)[^{]*\{', t):
    body = P(t, m.end()).balanced()
    for k in re.finditer(r'\bt\(', body):
        q = P(body, k.end()); q.eat('&'); q.eat('['); pats = []
        while not q.eat(']'):
            if q.eat(','): continue
            pats.append(lean(q.string()))
        q.eat(','); hay = q.string()
        exp = re.findall(r'\((\d+), (\d+), (\d+)\)', q.balanced())
        out.append('#eval check %s (findAll [%s] %s) (Out.ok (toString (repr ([%s] : List (Nat × Nat × Nat)))))' % (lean('src/ahocorasick/' + m.group(1)), ', '.join(pats),
            lean(hay), ', '.join('(%s, %s, %s)' % e for e in exp)))
    done.append('src/ahocorasick/' + m.group(1))
extra = open(os.path.join(HERE, 'extra.txt')).read() if os.path.exists(os.path.join(HERE, 'extra.txt')) else ''
with tempfile.NamedTemporaryFile('w', suffix='.lean', delete=False) as fh:
    fh.write(open(os.path.join(HERE, 'prelude.txt')).read() + '\nopen Conf\n\n' + '\n'.join(out) + '\n' + extra)
r = subprocess.run(['lake', 'env', 'lean', fh.name], cwd=os.path.join(HERE, '..', 'lean'), capture_output=True, text=True)
print(r.stdout[-int(os.environ.get('N', '6000')):], r.stderr[-2000:])
print('tests read:', len(done), 'evaluations:', r.stdout.count('pass '), 'failures:', r.stdout.count('FAIL '), 'errors:', r.stdout.count('error'))
for s in skipped: print('skipped', *s)
